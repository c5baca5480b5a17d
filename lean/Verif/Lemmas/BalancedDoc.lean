import Verif.Lemmas.Balanced
/-! Well bracketed output in whole documents. -/
set_option linter.unusedSectionVars false
set_option linter.unusedVariables false
set_option linter.unusedSimpArgs false
namespace Verif.Html.Bal
open Verif.Ast Verif.Eval Verif.Html Verif.Spec.Eval Verif.Spec.Html Verif.Spec.Balanced

/-- running the calls turns the open elements `a` into `b` -/
def T (c : Cfg) (evs : List Ev) (a b : List Tag) : Prop := ∀ s t, Ok c s → run evs s = some t → R c s t a b

theorem R.keep {c : Cfg} {s t : State} {a b : List Tag} (h : R c s t a b) (d : List Tag) : R c s t (a ++ d) (b ++ d) := ⟨h.1, h.2.1, h.2.2.frame d⟩

section
variable {c : Cfg}

theorem T_nil (a : List Tag) : T c [] a a := by intro s t h e; cases e; exact R.refl h a
theorem T_append {x y : List Ev} {a b d : List Tag} (h : T c x a b) (k : T c y b d) : T c (x ++ y) a d := by
  intro s t hs e
  obtain ⟨u, e1, e2⟩ := run_append_some e
  have h1 := h s u hs e1
  exact h1.trans (k u t h1.1 e2)
theorem T_frame {x : List Ev} {a b : List Tag} (h : T c x a b) (d : List Tag) : T c x (a ++ d) (b ++ d) := fun s t hs e => (h s t hs e).keep d
theorem T_keep {x : List Ev} (h : T c x [] []) (d : List Tag) : T c x d d := T_frame h d
theorem T_two {x y : List Ev} {a : List Tag} (h : T c x [] []) (k : T c y [] []) : T c (x ++ y) a a := T_append (T_keep h a) (T_keep k a)

theorem T_around {k : Call} {x : List Ev} {a b a' b' : List Tag} (hs : c.simple = none) (he : ent c k = some (a, b)) (hl : lea c k = some (a', b')) (h : T c x b a') :
    T c (around k x) a b' := by
  intro s t ho e
  obtain ⟨u, v, e1, e2, e3⟩ := run_around e
  have h1 := enter_grows ho hs he e1
  have h2 := h u v h1.1 e2
  exact (h1.trans h2).trans (leave_grows h2.1 hs hl e3)

theorem T_within {k : Call} {x : List Ev} {a b a' b' : List Tag} (d d' : List Tag) (hs : c.simple = none) (he : ent c k = some (a, b)) (hl : lea c k = some (a', b'))
    (h : T c x (b ++ d) (a' ++ d')) : T c (around k x) (a ++ d) (b' ++ d') := by
  intro s t ho e
  obtain ⟨u, v, e1, e2, e3⟩ := run_around e
  have h1 := enter_grows ho hs he e1
  have h2 := h u v h1.1 e2
  exact ((h1.keep d).trans h2).trans ((leave_grows h2.1 hs hl e3).keep d')

/-- the attributes of the state can be named -/
theorem T_pin {x : List Ev} {a b : List Tag} (h : ∀ m, T { c with attrs := some m } x a b) : T c x a b := by
  intro s t ho e
  have h1 : Ok { c with attrs := some s.cur.attrs } s := ⟨ho.1, ho.2, (fun m hm => by cases hm; rfl), ho.4, ho.5, ho.6, ho.7, ho.8, ho.9, ho.10, ho.11⟩
  have h2 := h _ s t h1 e
  refine ⟨⟨h2.1.1, h2.1.2, fun m hm => ?_, h2.1.4, h2.1.5, h2.1.6, h2.1.7, h2.1.8, h2.1.9, h2.1.10, h2.1.11⟩, h2.2.1, h2.2.2⟩
  rw [h2.1.att _ rfl]; exact ho.att m hm

/-- inline text -/
theorem Ok.ext {s : State} (h : Ok c s) {seg : List Tok} {fs : List (Option Text × List Tok)} (hf : ∀ f ∈ fs, Seg false f.2) : Ok c (s.ext seg fs) :=
  ⟨h.1, h.2, h.3, h.4, h.5, h.6, h.7, h.8, h.9, h.10, fun f hm => by
    rcases List.mem_append.1 hm with hm | hm
    · exact h.11 f hm
    · exact Seg.neutral (hf f hm)⟩

theorem T_I {evs : List Ev} (h : I evs) : T c evs [] [] := by
  intro s t ho e
  obtain ⟨seg, fs, rfl, hs, hf⟩ := run_I h s t e
  exact ⟨ho.ext hf, rfl, seg, rfl, Seg.neutral hs⟩

end

section
variable {inl : List Inline → List Ev} (hi : ∀ ns, I (inl ns))
variable {c : Cfg}
include hi

theorem T_inl (ns : List Inline) (a : List Tag) : T c (inl ns) a a := T_keep (T_I (hi ns)) a

theorem T_simple (b : BlockInfo) (ns : List Inline) (a : List Tag) : T c (simple inl b ns) a a := by
  intro s t ho e
  obtain ⟨u, v, e1, e2, e3⟩ := run_around e
  simp only [enter, exit] at e1 e3
  cases e1; cases e3
  exact T_inl hi ns a s t ho e2

/-- the title in front of a block goes into the second buffer -/
theorem T_title (b : BlockInfo) (title : Option (List Inline)) : T c (evalTitle inl b title) [] [] := by
  cases title with
  | none => exact T_nil []
  | some ns =>
    intro s t ho e
    obtain ⟨u, v, e1, e2, e3⟩ := run_around e
    simp only [enter, exit, State.startBuffering] at e1 e3
    split at e1
    case isFalse => cases e1
    case isTrue ha =>
      cases e1; cases e3
      obtain ⟨seg, fs, rfl, hs, hf⟩ := run_I (hi ns) _ _ e2
      have hseg : Neutral seg := Seg.neutral hs
      have hfoot : ∀ f ∈ s.footnotes ++ fs, Neutral f.2 := fun f hm => by
        rcases List.mem_append.1 hm with hm | hm
        · exact ho.11 f hm
        · exact Seg.neutral (hf f hm)
      split
      · refine ⟨⟨ho.1, ho.2, ho.3, ho.4, ho.5, ho.6, ho.7, ho.8, ho.9, ?_, hfoot⟩, rfl, [], ?_, fun _ => rfl⟩
        · exact .nil
        · simp [State.swapTake, State.ext, State.swap]
      · refine ⟨⟨ho.1, ho.2, ho.3, ho.4, ho.5, ho.6, ho.7, ho.8, ho.9, ?_, hfoot⟩, rfl, [], ?_, fun _ => rfl⟩
        · show Neutral (s.cur.alt ++ seg); rw [ha]; exact hseg
        · simp [State.ext, State.swap]

/-- the title of the document -/
theorem T_docTitle (title : Option (List Inline)) (a : List Tag) : T c (evalDocTitle inl title) a a := by
  refine T_keep ?_ a
  cases title with
  | none => exact T_nil []
  | some ns =>
    intro s t ho e
    obtain ⟨u, v, e1, e2, e3⟩ := run_around e
    have hfoot : ∀ fs : List (Option Text × List Tok), (∀ f ∈ fs, Seg false f.2) → ∀ f ∈ s.footnotes ++ fs, Neutral f.2 := fun fs hf f hm => by
      rcases List.mem_append.1 hm with hm | hm
      · exact ho.11 f hm
      · exact Seg.neutral (hf f hm)
    simp only [enter, exit, State.startBuffering] at e1 e3
    cases hr : s.cur.rendersTitle with
    | true =>
      simp only [hr, if_true] at e1
      cases e1
      obtain ⟨seg, fs, rfl, hs, hf⟩ := run_I (hi ns) _ _ e2
      have hr' : ((s.push [.opening (.h 1)]).ext seg fs).cur.rendersTitle = true := hr
      simp only [hr', if_true] at e3
      cases e3
      refine ⟨⟨ho.1, ho.2, ho.3, ho.4, ho.5, ho.6, ho.7, ho.8, ho.9, ho.10, hfoot fs hf⟩, rfl, .opening (.h 1) :: (seg ++ [.closing (.h 1)]), ?_, ?_⟩
      · simp [State.push, Frame.push, State.ext]
      · exact Neutral.element _ (Seg.neutral hs)
    | false =>
      simp only [hr, if_false, Bool.false_eq_true] at e1
      split at e1
      case isFalse => cases e1
      case isTrue ha =>
        cases e1
        obtain ⟨seg, fs, rfl, hs, hf⟩ := run_I (hi ns) _ _ e2
        have hr' : (s.swap.ext seg fs).cur.rendersTitle = false := hr
        simp only [hr', if_false, Bool.false_eq_true] at e3
        cases e3
        refine ⟨⟨ho.1, ho.2, ho.3, ho.4, ho.5, ho.6, ho.7, ho.8, ho.9, .nil, hfoot fs hf⟩, rfl, [], ?_, fun _ => rfl⟩
        simp [State.swapTake, State.ext, State.swap]

theorem T_docinfo (e : Bool) (f : Option (List Inline)) (a : List Tag) : T c (evalDocinfo inl e f) a a := by
  cases f with
  | none => exact T_nil a
  | some ns =>
    simp only [evalDocinfo]
    split
    · exact T_nil a
    · exact T_inl hi ns a

/-- attribution and citation of a quote -/
theorem T_quoteAttr (hs : c.simple = none) (b : BlockInfo) (at' ci : Option (List Inline)) (hv : b.context = .verse → ci.isSome = true → at'.isSome = true) :
    T c (evalQuoteAttr inl b at' ci) [if b.context = .verse then .pre else .blockquote] (if at'.isSome || ci.isSome then [] else [if b.context = .verse then .pre else .blockquote]) := by
  unfold evalQuoteAttr
  cases at' with
  | some ns =>
    cases ci with
    | some ms => exact T_append (T_around hs rfl rfl (T_inl hi ns _)) (T_within (a := []) (b' := []) [.div] [] hs rfl rfl (T_inl hi ms _))
    | none => exact T_append (T_around hs rfl rfl (T_inl hi ns _)) (T_nil _)
  | none =>
    cases ci with
    | some ms =>
      have : b.context ≠ .verse := fun h => by have := hv h rfl; cases this
      simp only [this, if_false]
      exact T_append (T_nil _) (T_around hs rfl rfl (T_inl hi ms _))
    | none => exact T_nil _

mutual
theorem T_tocNode (hs : c.simple = none) : ∀ t : TocNode, T c (evalTocNode inl t) [] []
  | .mk _ title children => by
    unfold evalTocNode
    refine T_around hs rfl rfl (T_append (b := [.li]) (T_within (a := []) (b' := []) [.a, .li] [.li] hs rfl rfl (T_inl hi title _)) ?_)
    cases children with
    | nil => exact T_nil _
    | cons n ns => exact T_keep (T_around hs rfl rfl (T_two (T_tocNode hs n) (T_tocNodes hs ns))) _
theorem T_tocNodes (hs : c.simple = none) : ∀ ts : List TocNode, T c (evalTocNodes inl ts) [] []
  | [] => T_nil []
  | t :: ts => T_append (T_tocNode hs t) (T_tocNodes hs ts)
end

theorem T_toc (hs : c.simple = none) (toc : Option Toc) (ps : List TocPosition) (hp : .preamble ∉ ps) : T c (evalTocAt inl toc ps) [] [] := by
  cases toc with
  | none => exact T_nil []
  | some t =>
    simp only [evalTocAt]
    split
    case isTrue => exact T_nil []
    case isFalse h =>
      have h1 : t.position ≠ .preamble := fun e => h (.inl (by rw [e]; exact hp))
      have := T_around (c := c) (k := .toc t.position) hs rfl rfl (T_keep (T_around (k := .tocLevel) hs rfl rfl (T_keep (T_tocNodes hi hs t.nodes) _)) [.div])
      simpa [h1] using this

theorem T_tocPreamble (hs : c.simple = none) (toc : Option Toc) : T c (evalTocAt inl toc [.preamble]) [.div] [.div] := by
  cases toc with
  | none => exact T_nil _
  | some t =>
    simp only [evalTocAt]
    split
    case isTrue => exact T_nil _
    case isFalse h =>
      have h1 : t.position = .preamble := by
        apply Classical.byContradiction
        intro e; exact h (.inl (by simpa using e))
      have := T_around (c := c) (k := .toc t.position) hs rfl rfl (T_keep (T_around (k := .tocLevel) hs rfl rfl (T_keep (T_tocNodes hi hs t.nodes) _)) [.div])
      simpa [h1] using this

theorem T_cellParagraphs (hs : c.simple = none) (style : CellStyle) (s : TableSection) (m : Bool) (a : List Tag) : ∀ ps : List (List Inline), T c (evalCellParagraphs inl style s m ps) a a
  | [] => T_nil a
  | p :: ps => T_append (T_keep (T_around (k := .cellParagraph style s m) hs rfl rfl (T_inl hi p _)) a) (T_cellParagraphs hs style s m a ps)

/-- terms of plain lists -/
theorem T_terms (hs : c.simple = none) (hh : c.horizontal = false) (hq : c.qanda = false) : ∀ (i : Nat) (ts : List (List Inline)), T c (evalTerms inl i ts) [] []
  | _, [] => T_nil []
  | i, t :: ts => T_append (T_around (k := .term i) (b := [.dt]) hs (by simp [ent, hh, hq]) (by simp [lea, hh, hq]) (T_inl hi t _)) (T_terms hs hh hq (i + 1) ts)

/-- the term of an item laid out as a table row -/
theorem T_termRow (hs : c.simple = none) (hh : c.horizontal = true) (hg : c.glossary = false) (t : List Inline) : T c (evalTerms inl 1 [t]) [] [.tr] :=
  T_append (T_within (a := []) (b := [.td, .tr]) (a' := [.td]) (b' := []) [] [.tr] hs (by simp [ent, hh, hg]) (by simp [lea, hh]) (T_inl hi t _)) (T_nil _)

/-- the terms of a question -/
theorem T_questions (hs : c.simple = none) (hh : c.horizontal = false) (hq : c.qanda = true) (hg : c.glossary = false) :
    ∀ (i : Nat) (ts : List (List Inline)), 2 ≤ i → T c (evalTerms inl i ts) [] []
  | _, [], _ => T_nil []
  | i, t :: ts, h => by
    refine T_append (T_around (k := .term i) (b := [.em, .p]) (a' := [.em, .p]) hs ?_ (by simp [lea, hh, hq]) (T_inl hi t _)) (T_questions hs hh hq hg (i + 1) ts ?_)
    · simp [ent, hh, hq, hg, show i ≠ 1 by omega]
    · omega
theorem T_question (hs : c.simple = none) (hh : c.horizontal = false) (hq : c.qanda = true) (hg : c.glossary = false) (t : List Inline) (ts : List (List Inline)) :
    T c (evalTerms inl 1 (t :: ts)) [] [.li] :=
  T_append (T_within (a := []) (b := [.em, .p, .li]) (a' := [.em, .p]) (b' := []) [] [.li] hs (by simp [ent, hh, hq, hg]) (by simp [lea, hh, hq]) (T_inl hi t _))
    (T_keep (T_questions hi hs hh hq hg 2 ts (by decide)) _)

/-- a paragraph, with or without its `div` -/
theorem T_paragraph (hs : c.simple = none) (b : BlockInfo) (ns : List Inline) : T c (around (.paragraph b) (simple inl b ns)) [] [] := by
  intro s t ho e
  obtain ⟨u, v, e1, e2, e3⟩ := run_around e
  simp only [enter, exit] at e1 e3
  cases hin : c.inline with
  | true =>
    rw [ho.inl, hin] at e1
    simp only [if_true] at e1
    cases e1
    have h2 := T_simple hi b ns [] s v ho e2
    rw [h2.1.inl, hin] at e3
    simp only [if_true] at e3
    cases e3
    exact h2
  | false =>
    rw [ho.inl, hin] at e1
    simp only [if_false, Bool.false_eq_true] at e1
    have ho' : Ok { c with simple := some s.cur.simpleTerm } s := ⟨ho.1, ho.2, ho.3, ho.4, ho.5, ho.6, ho.7, ho.8, (fun m hm => by cases hm; rfl), ho.10, ho.11⟩
    generalize hb : s.cur.simpleTerm = x at *
    have h1 : R { c with simple := some x } s u [] ((if b.isAbstract then .blockquote else .p) :: if x then [] else [.div]) := by
      cases e1
      cases x
      · simp only [Bool.false_eq_true, if_false]; grows ho'
      · simp only [if_true]; grows ho'
    have h2 := T_simple hi b ns ((if b.isAbstract then .blockquote else .p) :: if x then [] else [.div]) u v h1.1 e2
    have h3 := h1.trans h2
    rw [h2.1.inl] at e3
    simp only [hin, Bool.false_eq_true, if_false] at e3
    cases e3
    have h4 : R { c with simple := some x } v ((v.push [.closing (if b.isAbstract then .blockquote else .p)]).pushIf (!v.cur.simpleTerm) [.closing .div])
        ((if b.isAbstract then .blockquote else .p) :: if x then [] else [.div]) [] := by
      rw [h2.1.sim x rfl]
      have hv := h2.1
      cases x
      · grows hv
      · grows hv
    refine R.flags _ ?_ (fun h => ?_) (h3.trans h4)
    · rfl
    · exact ⟨h.1, h.2, h.3, h.4, h.5, h.6, h.7, h.8, (fun m hm => by rw [hs] at hm; cases hm), h.10, h.11⟩

/-- a listing, with or without `code` -/
theorem T_listing (hs : c.simple = none) (hsrc : c.source = false) (b : BlockInfo) (ns : List Inline) : T c (around (.listing b) (simple inl b ns)) [] [] := by
  intro s t ho e
  obtain ⟨u, v, e1, e2, e3⟩ := run_around e
  simp only [enter, exit] at e1 e3
  have h1 : ∃ x, R { c with source := x } s u [] (if x then [.code, .pre, .div, .div] else [.pre, .div, .div]) := by
    split at e1
    · cases e1
      refine ⟨true, ?_⟩
      have h0 : R c s (((s.push [.opening .div]).bufferedTitle b).push [.opening .div, .opening .pre]) [] [.pre, .div, .div] := by grows ho
      refine R.push (y := [.pre, .div, .div]) (fun k => rfl) (R.flags _ ?_ (fun h => ?_) h0)
      · rfl
      · exact ⟨h.1, h.2, h.3, h.4, h.5, h.6, h.7, rfl, h.9, h.10, h.11⟩
    · cases e1
      have : ({ c with source := false } : Cfg) = c := by rw [← hsrc]
      refine ⟨false, ?_⟩
      rw [this]
      simp only [Bool.false_eq_true, if_false]
      grows ho
  obtain ⟨x, h1⟩ := h1
  have h2 := T_simple hi b ns (if x then [.code, .pre, .div, .div] else [.pre, .div, .div]) u v h1.1 e2
  cases e3
  have h3 := h1.trans h2
  refine h3.trans (d := c) (y := if x then [.code, .pre, .div, .div] else [.pre, .div, .div]) ?_
  have hv : Ok c { v with cur := { v.cur with source := false } } :=
    have h := h2.1
    ⟨h.1, h.2, h.3, h.4, h.5, h.6, h.7, hsrc.symm, h.9, h.10, h.11⟩
  have h4 : R c { v with cur := { v.cur with source := false } }
      ((({ v with cur := { v.cur with source := false } } : State).pushIf x [.closing .code]).push [.closing .pre, .closing .div, .closing .div])
      (if x then [.code, .pre, .div, .div] else [.pre, .div, .div]) [] := by
    generalize ({ v with cur := { v.cur with source := false } } : State) = w at hv
    cases x <;> grows hv
  have hx : v.cur.source = x := h2.1.src
  rw [hx]
  exact ⟨h4.1, h4.2.1, h4.2.2⟩

omit hi in
/-- a description list -/
theorem T_dlist (hs : c.simple = none) (hh : c.horizontal = false) (hq : c.qanda = false) (b : BlockInfo) {x : List Ev}
    (h1 : b.dlist = .horizontal → T { c with horizontal := true } x [] [])
    (h2 : b.dlist = .qanda → T { c with qanda := true } x [] [])
    (h3 : b.dlist = .glossary → T { c with glossary := true } x [] [])
    (h4 : b.dlist = .plain → T c x [] []) : T c (around (.descriptionList b) x) [] [] := by
  intro s t ho e
  obtain ⟨u, v, e1, e2, e3⟩ := run_around e
  simp only [enter, exit] at e1 e3
  cases hb : b.dlist <;> simp only [hb] at e1
  case horizontal =>
    have h0 : Ok { c with horizontal := true } { s with cur := { s.cur with horizontal := true } } :=
      ⟨ho.1, ho.2, ho.3, ho.4, rfl, ho.6, ho.7, ho.8, ho.9, ho.10, ho.11⟩
    generalize hw : ({ s with cur := { s.cur with horizontal := true } } : State) = w at *
    have hwo : w.outer = s.outer := by rw [← hw]
    have hwh : w.cur.html = s.cur.html := by rw [← hw]
    have k1 : R { c with horizontal := true } w u [] [.table, .div] := by cases e1; grows h0
    have k2 := T_keep (h1 hb) [.table, .div] u v k1.1 e2
    have hv := k2.1
    rw [hv.hor] at e3
    simp only [if_true] at e3
    cases e3
    have hv' : Ok c { v with cur := { v.cur with glossary := false, horizontal := false } } :=
      ⟨hv.1, hv.2, hv.3, hv.4, hh.symm, hv.6, fun _ => rfl, hv.8, hv.9, hv.10, hv.11⟩
    have k3 : R c { v with cur := { v.cur with glossary := false, horizontal := false } }
      (({ v with cur := { v.cur with glossary := false, horizontal := false } } : State).push [.closing .table, .closing .div]) [.table, .div] [] := by
      generalize ({ v with cur := { v.cur with glossary := false, horizontal := false } } : State) = w at hv'
      grows hv'
    have k4 := k1.trans k2
    have k5 : R c w _ [] [] := k4.trans (d := c) (y := [.table, .div]) ⟨k3.1, k3.2.1, k3.2.2⟩
    refine ⟨k5.1, k5.2.1.trans hwo, ?_⟩
    obtain ⟨z, e1, e2⟩ := k5.2.2
    exact ⟨z, by rw [e1, hwh], e2⟩
  case qanda =>
    have h0 : Ok { c with qanda := true } { s with cur := { s.cur with qanda := true } } :=
      ⟨ho.1, ho.2, ho.3, ho.4, ho.5, rfl, ho.7, ho.8, ho.9, ho.10, ho.11⟩
    generalize hw : ({ s with cur := { s.cur with qanda := true } } : State) = w at *
    have hwo : w.outer = s.outer := by rw [← hw]
    have hwh : w.cur.html = s.cur.html := by rw [← hw]
    have k1 : R { c with qanda := true } w u [] [.ol, .div] := by cases e1; grows h0
    have k2 := T_keep (h2 hb) [.ol, .div] u v k1.1 e2
    have hv := k2.1
    rw [if_neg (show ¬ v.cur.horizontal = true by rw [hv.hor]; simp [hh]), if_pos (show v.cur.qanda = true by rw [hv.qan])] at e3
    cases e3
    have hv' : Ok c { v with cur := { v.cur with glossary := false, qanda := false } } :=
      ⟨hv.1, hv.2, hv.3, hv.4, hv.5, hq.symm, fun _ => rfl, hv.8, hv.9, hv.10, hv.11⟩
    have k3 : R c { v with cur := { v.cur with glossary := false, qanda := false } }
      (({ v with cur := { v.cur with glossary := false, qanda := false } } : State).push [.closing .ol, .closing .div]) [.ol, .div] [] := by
      generalize ({ v with cur := { v.cur with glossary := false, qanda := false } } : State) = w at hv'
      grows hv'
    have k4 := k1.trans k2
    have k5 : R c w _ [] [] := k4.trans (d := c) (y := [.ol, .div]) ⟨k3.1, k3.2.1, k3.2.2⟩
    refine ⟨k5.1, k5.2.1.trans hwo, ?_⟩
    obtain ⟨z, e1, e2⟩ := k5.2.2
    exact ⟨z, by rw [e1, hwh], e2⟩
  case glossary =>
    have h0 : Ok { c with glossary := true } { s with cur := { s.cur with glossary := true } } :=
      ⟨ho.1, ho.2, ho.3, ho.4, ho.5, ho.6, (fun x => Bool.noConfusion x), ho.8, ho.9, ho.10, ho.11⟩
    generalize hw : ({ s with cur := { s.cur with glossary := true } } : State) = w at *
    have hwo : w.outer = s.outer := by rw [← hw]
    have hwh : w.cur.html = s.cur.html := by rw [← hw]
    have k1 : R { c with glossary := true } w u [] [.dl, .div] := by cases e1; grows h0
    have k2 := T_keep (h3 hb) [.dl, .div] u v k1.1 e2
    have hv := k2.1
    rw [if_neg (show ¬ v.cur.horizontal = true by rw [hv.hor]; simp [hh]), if_neg (show ¬ v.cur.qanda = true by rw [hv.qan]; simp [hq])] at e3
    cases e3
    have hv' : Ok c { v with cur := { v.cur with glossary := false } } :=
      ⟨hv.1, hv.2, hv.3, hv.4, hv.5, hv.6, fun _ => rfl, hv.8, hv.9, hv.10, hv.11⟩
    have k3 : R c { v with cur := { v.cur with glossary := false } }
      (({ v with cur := { v.cur with glossary := false } } : State).push [.closing .dl, .closing .div]) [.dl, .div] [] := by
      generalize ({ v with cur := { v.cur with glossary := false } } : State) = w at hv'
      grows hv'
    have k4 := k1.trans k2
    have k5 : R c w _ [] [] := k4.trans (d := c) (y := [.dl, .div]) ⟨k3.1, k3.2.1, k3.2.2⟩
    refine ⟨k5.1, k5.2.1.trans hwo, ?_⟩
    obtain ⟨z, e1, e2⟩ := k5.2.2
    exact ⟨z, by rw [e1, hwh], e2⟩
  case plain =>
    have k1 : R c s u [] [.dl, .div] := by cases e1; grows ho
    have k2 := T_keep (h4 hb) [.dl, .div] u v k1.1 e2
    have hv := k2.1
    rw [if_neg (show ¬ v.cur.horizontal = true by rw [hv.hor]; simp [hh]), if_neg (show ¬ v.cur.qanda = true by rw [hv.qan]; simp [hq])] at e3
    cases e3
    have hv' : Ok c { v with cur := { v.cur with glossary := false } } :=
      ⟨hv.1, hv.2, hv.3, hv.4, hv.5, hv.6, fun _ => rfl, hv.8, hv.9, hv.10, hv.11⟩
    have k3 : R c { v with cur := { v.cur with glossary := false } }
      (({ v with cur := { v.cur with glossary := false } } : State).push [.closing .dl, .closing .div]) [.dl, .div] [] := by
      generalize ({ v with cur := { v.cur with glossary := false } } : State) = w at hv'
      grows hv'
    exact (k1.trans k2).trans (d := c) (y := [.dl, .div]) ⟨k3.1, k3.2.1, k3.2.2⟩

omit hi in
theorem T_declaration (ha : c.attrs = none) (m : Meta) : T c [.visit (.declaration m)] [] [] := by
  intro s t ho e
  rw [run_one] at e
  simp only [step, visitCall] at e
  cases e
  exact R.flags _ rfl (fun h => ⟨h.1, h.2, (fun m hm => by rw [ha] at hm; cases hm), h.4, h.5, h.6, h.7, h.8, h.9, h.10, h.11⟩) (R.refl ho _)

omit hi in
theorem T_visit (v : Visit) (hv : v = .thematicBreak ∨ v = .pageBreak ∨ (∃ b, v = .audio b) ∨ ∃ b, v = .video b) : T c [.visit v] [] [] := by
  intro s t ho e
  rw [run_one] at e
  rcases hv with rfl | rfl | ⟨b, rfl⟩ | ⟨b, rfl⟩ <;> simp only [step, visitCall] at e <;> cases e <;> grows ho

/-- what is known when the calls for a document start -/
def Start (b : Bool) (s : State) : Prop := s.cur = { inCell := b } ∧ ∀ f ∈ s.footnotes, Neutral f.2

/-- the calls for a document -/
def V (b : Bool) (evs : List Ev) : Prop := ∀ s t, Start b s → run evs s = some t → t.outer = s.outer ∧ Neutral t.cur.html ∧ ∀ f ∈ t.footnotes, Neutral f.2

omit hi in
/-- a document in a table cell -/
theorem T_cellDocument {evs : List Ev} (hc : c.cell ≠ some true) (h : V true evs) : T c (around .cellDocument evs) [] [] := by
  intro s t ho e
  obtain ⟨u, v, e1, e2, e3⟩ := run_around e
  simp only [enter] at e1
  cases e1
  obtain ⟨h1, h2, h3⟩ := h { s with cur := { inCell := true }, outer := s.cur :: s.outer } v ⟨rfl, ho.foot⟩ e2
  simp only [exit, h1] at e3
  cases e3
  refine ⟨⟨ho.1, ho.2, ho.3, fun b hb => ?_, ho.5, ho.6, ho.7, ho.8, ho.9, ho.10, h3⟩, rfl, _, rfl, h2⟩
  cases b with
  | false => rfl
  | true => exact absurd hb hc

end
/-- what is asked of the blocks at a place in a document -/
def ok (c : Cfg) (b : Block) : Prop :=
  wf b ∧ tidy b ∧ (c.horizontal = true ∨ c.qanda = true → noDlist b) ∧ (c.glossary = true → noTableDlist b) ∧ (c.attrs.isSome = true → noDeclaration b) ∧
    (c.cell = some true → Spec.Captions.simpleTable b)

/-- the document in a cell -/
def docFits : Doc → Prop
  | .mk attrs title toc head header footer content =>
    attrs.embedded = true ∨ attrs.inlineDoctype = true ∨ Spec.Captions.NoCellDocuments (.mk attrs title toc head header footer content)

section
variable {inl : List Inline → List Ev} (hi : ∀ ns, I (inl ns))
include hi

/-- the calls for a document, inside `enter_document` and `exit_document` -/
def visitInner (inl : List Inline → List Ev) (attrs : Meta) (title : Option (List Inline)) (toc : Option Toc) (head header footer : Option (List Inline)) (content : DocContent) : List Ev :=
  evalDocinfo inl attrs.embedded head ++ around .body (evalDocinfo inl attrs.embedded header ++
      around .header (evalDocTitle inl title) ++
      evalTocAt inl toc [.auto, .left, .right] ++
      around .content (evalDocContent inl toc title.isSome content) ++
      around .footer [] ++ evalDocinfo inl attrs.embedded footer)

/-- the elements around the content of a document -/
def frame (c : Cfg) : List Tag := if c.embedded then [] else [.div]

/-- the table of contents at the end of a preamble -/
theorem T_preambleToc {c : Cfg} (hs : c.simple = none) (toc : Option Toc) (t : Bool) (h : (∃ y, toc = some y ∧ y.position = .preamble) → t = true ∨ c.embedded = false) :
    T c (evalTocAt inl toc [.preamble]) ((if t then [.div, .div] else []) ++ frame c) ((if t then [.div, .div] else []) ++ frame c) := by
  cases t with
  | true => exact T_frame (T_frame (T_tocPreamble hi hs toc) [.div]) _
  | false =>
    cases he : c.embedded with
    | false => simp only [frame, he]; exact T_tocPreamble hi hs toc
    | true =>
      cases toc with
      | none => exact T_nil _
      | some y =>
        have : y.position ≠ .preamble := fun e => by rcases h ⟨y, rfl, e⟩ with h | h <;> simp_all
        simp only [evalTocAt]
        rw [if_pos (.inl (by simpa using this))]
        exact T_nil _

/-- what is known in the body of a document -/
def docCfg (m : Meta) (b : Bool) : Cfg := { embedded := m.embedded, inline := m.inlineDoctype, cell := if m.embedded || m.inlineDoctype then none else some b }

theorem visit_of (b : Bool) (attrs : Meta) (title : Option (List Inline)) (toc : Option Toc) (head header footer : Option (List Inline)) (content : DocContent)
    (h : T (docCfg attrs b) (evalDocContent inl toc title.isSome content) (frame (docCfg attrs b)) (frame (docCfg attrs b))) : V b (visit inl (.mk attrs title toc head header footer content)) := by
  have hb : ((docCfg attrs b).embedded || (docCfg attrs b).inline || (docCfg attrs b).cell.isSome) = true := by
    simp only [docCfg]; cases attrs.embedded <;> cases attrs.inlineDoctype <;> rfl
  have hs : (docCfg attrs b).simple = none := rfl
  have h3 : ∀ a, T (docCfg attrs b) (evalDocinfo inl attrs.embedded header ++ around .header (evalDocTitle inl title) ++ evalTocAt inl toc [.auto, .left, .right] ++
      around .content (evalDocContent inl toc title.isSome content) ++ around .footer [] ++ evalDocinfo inl attrs.embedded footer) a a := by
    intro a
    refine T_append (b := a) (T_append (b := a) (T_append (b := a) (T_append (b := a) (T_append (b := a) (T_docinfo hi _ _ _) (T_keep ?_ _)) (T_keep ?_ _)) (T_keep ?_ _)) (T_keep ?_ _)) (T_docinfo hi _ _ _)
    · exact T_pin fun m => T_around (k := .header) hs rfl rfl (T_docTitle hi title _)
    · exact T_toc hi hs toc _ (by decide)
    · exact T_around (k := .content) hs rfl rfl h
    · exact T_pin fun m => T_around (k := .footer) hs rfl rfl (T_nil _)
  have h4 : T (docCfg attrs b) (visitInner inl attrs title toc head header footer content) (if alone (docCfg attrs b) then [.head, .html] else []) [] := by
    refine T_append (T_docinfo hi _ _ _) ?_
    have := T_within (k := .body) (c := docCfg attrs b) (a := if alone (docCfg attrs b) then [.head] else []) (b := if alone (docCfg attrs b) then [.body] else [])
      (a' := if alone (docCfg attrs b) then [.body, .html] else []) (b' := []) (if alone (docCfg attrs b) then [.html] else []) [] hs (by simp only [ent, hb, if_true]) (by simp only [lea, hb, if_true])
      (x := evalDocinfo inl attrs.embedded header ++ around .header (evalDocTitle inl title) ++ evalTocAt inl toc [.auto, .left, .right] ++
        around .content (evalDocContent inl toc title.isSome content) ++ around .footer [] ++ evalDocinfo inl attrs.embedded footer) (by cases alone (docCfg attrs b) <;> exact h3 _)
    cases ha : alone (docCfg attrs b) <;> simp only [ha] at this <;> exact this
  intro s t hst e
  obtain ⟨u, v, e1, e2, e3⟩ := run_around (a := visitInner inl attrs title toc head header footer content) e
  simp only [exit] at e3
  cases e3
  obtain ⟨cur, outer, foot⟩ := s
  obtain ⟨hst1, hst2⟩ := hst
  simp only at hst1 hst2
  subst hst1
  have hst : (({ inCell := b, attrs := attrs } : Frame)).standalone = alone (docCfg attrs b) := by
    simp only [Frame.standalone, alone, docCfg]
    cases attrs.embedded <;> cases attrs.inlineDoctype <;> simp
  have hu : Ok (docCfg attrs b) ({ cur := { inCell := b, attrs := attrs }, outer := outer, footnotes := foot } : State) := by
    refine ⟨rfl, rfl, (fun m hm => by cases hm), fun x hx => ?_, rfl, rfl, fun _ => rfl, rfl, (fun m hm => by cases hm), .nil, hst2⟩
    simp only [docCfg] at hx
    split at hx
    · cases hx
    · cases hx; rfl
  have h5 : R (docCfg attrs b) ({ cur := { inCell := b, attrs := attrs }, outer := outer, footnotes := foot } : State) u [] (if alone (docCfg attrs b) then [.head, .html] else []) := by
    simp only [enter] at e1
    rw [hst] at e1
    cases e1
    cases alone (docCfg attrs b) <;> grows hu
  have h6 := h5.trans (h4 u t h5.1 e2)
  refine ⟨h6.2.1, ?_, h6.1.foot⟩
  obtain ⟨w, k1, k2⟩ := h6.2.2
  rw [k1]
  exact fun k => k2 k

omit hi in
theorem T_description {c : Cfg} (hs : c.simple = none) (k4 : c.horizontal = true → c.qanda = false) {x : List Ev} (hx : T c x [] []) :
    T c (around .description x) (if c.horizontal then [.tr] else if c.qanda then [.li] else []) [] := by
  cases hh : c.horizontal <;> cases hq : c.qanda
  · exact T_around (k := .description) (b := [.dd]) hs (by simp [ent, hh, hq]) (by simp [lea, hh, hq]) (T_keep hx _)
  · exact T_within (k := .description) (a := []) (b := []) (a' := [.li]) (b' := []) [.li] [] hs (by simp [ent, hh, hq]) (by simp [lea, hh, hq]) (T_keep hx _)
  · exact T_within (k := .description) (a := []) (b := [.td]) (a' := [.td, .tr]) (b' := []) [.tr] [] hs (by simp [ent, hh, hq]) (by simp [lea, hh, hq]) (T_keep hx _)
  · exact absurd hq (by rw [k4 hh]; decide)

theorem T_itemTerms {c : Cfg} (hs : c.simple = none) {p : List Inline} {ex : List (List Inline)} {d : Option Block} {bs : List Block}
    (k2 : c.horizontal = true → oneTerm (.desc p ex d bs) = true) (k3 : c.horizontal = true ∨ c.qanda = true → c.glossary = false) :
    T c (evalTerms inl 1 (p :: ex)) [] (if c.horizontal then [.tr] else if c.qanda then [.li] else []) := by
  cases hh : c.horizontal
  · cases hq : c.qanda
    · exact T_terms hi hs hh hq 1 (p :: ex)
    · exact T_question hi hs hh hq (k3 (.inr hq)) p ex
  · have := k2 hh
    have hex : ex = [] := by simpa [oneTerm] using this
    subst hex
    exact T_termRow hi hs hh (k3 (.inl hh)) p

mutual
theorem evalBlock_T (c : Cfg) (hs : c.simple = none) (hc : c.source = false) (toc : Option Toc) : ∀ b : Block, AllBlock (ok c) b → T c (evalBlock inl toc b) [] []
  | .mk info title a ci content, h => T_append (T_title hi _ title) (evalContent_T c hs hc toc info title a ci content h.1 h.2)
theorem evalContent_T (c : Cfg) (hs : c.simple = none) (hc : c.source = false) (toc : Option Toc) (info : BlockInfo) (title a ci : Option (List Inline)) : ∀ x : Content,
    ok c (.mk info title a ci x) → AllContent (ok c) x → T c (evalContent inl toc (Eval.view info title) a ci x) [] []
  | .simple ns, ho, _ => by
    have h1 : ∀ a {b}, T c (simple inl b ns) a a := fun a b => T_simple (c := c) hi b ns a
    have h2 := T_quoteAttr (c := c) hi hs (Eval.view info title) a ci ho.2.1.1
    rcases fits_simple ho.1 with h | h | h | h | h | h | h | h | h <;>
      simp only [evalContent, Eval.view, h] <;> simp only [Eval.view, h] at h2
    · exact T_paragraph hi hs _ ns
    · exact T_around hs rfl rfl (h1 _)
    · exact T_listing hi hs hc _ ns
    · have := T_frame (T_append (h1 (b := { Eval.view info title with context := .verse }) _) h2) [.div]
      refine T_around hs rfl ?_ this
      simp only [lea]
      cases a <;> cases ci <;> rfl
    · have := T_frame (T_append (h1 (b := { Eval.view info title with context := .blockQuote }) _) h2) [.div]
      refine T_around hs rfl ?_ this
      simp only [lea]
      cases a <;> cases ci <;> rfl
    · exact T_around hs rfl rfl (h1 _)
    · exact T_around hs rfl rfl (T_inl hi ns _)
    · exact T_around hs rfl rfl (h1 _)
    · exact T_around hs rfl rfl (h1 _)
  | .compound bs, ho, ha => by
    have h0 := evalBlocks_T c hs hc toc bs ha
    have h1 : ∀ a, T c (around .compoundContent (evalBlocks inl toc bs)) a a := T_keep (T_around hs rfl rfl h0)
    have h2 := T_quoteAttr (c := c) hi hs (Eval.view info title) a ci ho.2.1.1
    rcases fits_compound ho.1 with h | h | h | h | h <;> simp only [evalContent, Eval.view, h] <;> simp only [Eval.view, h] at h2
    · exact T_around hs rfl rfl (h1 _)
    · have := T_frame (T_append (h1 _) h2) [.div]
      refine T_around hs rfl ?_ this
      simp only [lea]
      cases a <;> cases ci <;> rfl
    · exact T_around hs rfl rfl (h1 _)
    · exact T_around hs rfl rfl (h1 _)
    · exact T_around hs rfl rfl (h1 _)
  | .quoted q at' co, ho, _ => by
    have h := fits_quoted ho.1
    have h2 := T_quoteAttr (c := c) hi hs (Eval.view info title) (some at') co (fun _ _ => rfl)
    simp only [evalContent, Eval.view, h]
    simp only [Eval.view, h] at h2
    exact T_around hs rfl rfl (T_frame (T_append (T_inl hi q _) h2) [.div])
  | .list v items, ho, ha => by
    obtain ⟨hd1, hd2, hd3, hd4⟩ := ho.2.1.2.1 v items rfl
    rcases fits_list ho.1 with ⟨h, hp⟩ | ⟨h, hp⟩
    · have hflags : c.horizontal = false ∧ c.qanda = false := by
        have := ho.2.2.1
        cases e1 : c.horizontal <;> cases e2 : c.qanda <;> simp_all [noDlist]
      have hgl : info.dlist = .horizontal ∨ info.dlist = .qanda → c.glossary = false := by
        intro hx
        cases hg : c.glossary with
        | false => rfl
        | true => have := ho.2.2.2.1 hg h; rcases hx with hx | hx <;> rw [hx] at this <;> rcases this with e | e <;> cases e
      have hv : (Eval.view info title).context = .descriptionList := h
      simp only [evalContent, hv]
      refine T_dlist hs hflags.1 hflags.2 _ ?_ ?_ ?_ ?_
      · intro hd
        obtain ⟨k1, k2, k3⟩ := hd1 h hd
        have hall : AllItems (ok { c with horizontal := true }) items :=
          AllItems.imp (fun b h => ⟨h.1.1, h.1.2.1, fun _ => h.2, h.1.2.2.2.1, h.1.2.2.2.2.1, h.1.2.2.2.2.2⟩) items (AllItems.and items ha k3)
        refine evalDescItems_T { c with horizontal := true } hs hc toc items hp (fun _ => ?_) (fun _ => ?_) (fun _ => hgl (.inl hd)) (fun h => ?_) hall
        · exact k1
        · exact k2
        · exact hflags.2
      · intro hd
        obtain ⟨k1, k3⟩ := hd2 h hd
        have hall : AllItems (ok { c with qanda := true }) items :=
          AllItems.imp (fun b h => ⟨h.1.1, h.1.2.1, fun _ => h.2, h.1.2.2.2.1, h.1.2.2.2.2.1, h.1.2.2.2.2.2⟩) items (AllItems.and items ha k3)
        refine evalDescItems_T { c with qanda := true } hs hc toc items hp (fun _ => k1) (fun h => ?_) (fun _ => hgl (.inr hd)) (fun h => ?_) hall
        · rw [hflags.1] at h; cases h
        · rw [hflags.1] at h; cases h
      · intro hd
        have hall : AllItems (ok { c with glossary := true }) items :=
          AllItems.imp (fun b h => ⟨h.1.1, h.1.2.1, h.1.2.2.1, fun _ => h.2, h.1.2.2.2.2.1, h.1.2.2.2.2.2⟩) items (AllItems.and items ha (hd3 h hd))
        refine evalDescItems_T { c with glossary := true } hs hc toc items hp (fun h => ?_) (fun h => ?_) (fun h => ?_) (fun h => ?_) hall <;> simp_all
      · intro hd
        refine evalDescItems_T c hs hc toc items hp (fun h => ?_) (fun h => ?_) (fun h => ?_) (fun h => ?_) ha <;> simp_all
    · by_cases hcall : info.context = .calloutList ∨ v = .callout
      · refine T_pin fun m => ?_
        have hall : AllItems (ok { c with attrs := some m }) items :=
          AllItems.imp (fun b h => ⟨h.1.1, h.1.2.1, h.1.2.2.1, h.1.2.2.2.1, fun _ => h.2, h.1.2.2.2.2.2⟩) items (AllItems.and items ha (hd4 hcall))
        have h1 := evalItems_T { c with attrs := some m } hs hc toc v items hp (fun _ h => by cases h) hall
        rcases h with h | h | h <;> simp only [evalContent, Eval.view, h]
        · exact T_around hs rfl rfl (T_keep h1 _)
        · exact T_around hs rfl rfl (T_keep h1 _)
        · exact T_around hs rfl rfl (T_keep h1 _)
      · have h1 := evalItems_T c hs hc toc v items hp (fun h => absurd (.inr h) hcall) ha
        rcases h with h | h | h <;> simp only [evalContent, Eval.view, h]
        · exact T_around hs rfl rfl (T_keep h1 _)
        · exact T_around hs rfl rfl (T_keep h1 _)
        · exact absurd (.inl h) hcall
  | .section s, ho, ha => by
    have h := fits_section ho.1
    simp only [evalContent, Eval.view, h]
    exact evalSect_T c hs hc toc s ha
  | .table header rows footer, ho, ha => by
    have h := fits_table ho.1
    obtain ⟨k1, k2, k3⟩ := ho.2.1.2.2 header rows footer rfl
    have hst := ho.2.2.2.2.2
    simp only [evalContent, Eval.view, h]
    refine T_around hs rfl rfl (T_keep (T_append (T_append
      (evalEdge_T c hs hc .header header (fun x hx => ⟨fun _ => k1 x hx, ?_, fun hc => ?_⟩) ha.1)
      (evalBody_T c hs hc rows (fun r hr x hx => ⟨TableSection.noConfusion, k2 r hr x hx, fun hc => ?_⟩) ha.2.1))
      (evalEdge_T c hs hc .footer footer (fun x hx => ⟨TableSection.noConfusion, k3 x hx, fun hc => ?_⟩) ha.2.2)) _)
    · have := k1 x hx
      cases x <;> first | trivial | cases this
    · exact List.all_eq_true.1 (hst hc).2.1 x hx
    · exact List.all_eq_true.1 ((hst hc).1 r hr) x hx
    · exact List.all_eq_true.1 (hst hc).2.2 x hx
  | .image t l, ho, _ => by
    have h := fits_image ho.1
    simp only [evalContent, Eval.view, h]
    exact T_around hs rfl rfl (T_nil _)
  | .audioVideo, ho, _ => by
    rcases fits_audioVideo ho.1 with h | h <;> simp only [evalContent, Eval.view, h]
    · exact T_visit _ (.inr (.inr (.inl ⟨_, rfl⟩)))
    · exact T_visit _ (.inr (.inr (.inr ⟨_, rfl⟩)))
  | .heading l ns, ho, _ => by
    have h := fits_heading ho.1
    simp only [evalContent, Eval.view, h]
    exact T_around hs rfl rfl (T_inl hi ns _)
  | .declaration m, ho, _ => by
    have h := fits_declaration ho.1
    simp only [evalContent, Eval.view, h]
    refine T_declaration ?_ m
    cases hm : c.attrs with
    | none => rfl
    | some m => exact absurd h (ho.2.2.2.2.1 (by rw [hm]; rfl))
  | .empty, ho, _ => by
    rcases fits_empty ho.1 with h | h | h | h <;> simp only [evalContent, Eval.view, h, evalOther]
    · exact T_visit _ (.inl rfl)
    · exact T_visit _ (.inr (.inl rfl))
    · exact T_toc hi hs toc [.byMacro] (by decide)
    · exact T_nil _
theorem evalBlocks_T (c : Cfg) (hs : c.simple = none) (hc : c.source = false) (toc : Option Toc) : ∀ bs : List Block, AllBlocks (ok c) bs → T c (evalBlocks inl toc bs) [] []
  | [], _ => T_nil _
  | b :: bs, h => T_append (evalBlock_T c hs hc toc b h.1) (evalBlocks_T c hs hc toc bs h.2)
theorem evalItem_T (c : Cfg) (hs : c.simple = none) (hc : c.source = false) (toc : Option Toc) (v : Variant) : ∀ i : Item, isPlain i = true → (v = .callout → c.attrs ≠ none) →
    AllItem (ok c) i → T c (evalItem inl toc v i) [] []
  | .plain p bs, _, hv, h => by
    have h1 := evalBlocks_T c hs hc toc bs h
    have hn : ¬ (v = .callout ∧ c.attrs = none) := fun ⟨e1, e2⟩ => hv e1 e2
    simp only [evalItem]
    refine T_append (b := if icon c v then [.tr] else [.li]) ?_ ?_
    · refine T_within (a := []) (b := if icon c v then [.td, .tr] else [.p, .li]) (a' := if icon c v then [.td] else [.p]) (b' := []) [] (if icon c v then [.tr] else [.li]) hs
        (by simp only [ent, hn, if_false]) (by simp only [lea, hn, if_false]) ?_
      cases icon c v <;> exact T_inl hi p _
    · exact T_within (a := []) (b := []) (a' := if icon c v then [.tr] else [.li]) (b' := []) (if icon c v then [.tr] else [.li]) [] hs
        rfl (by simp only [lea, hn, if_false]) (by rw [List.append_nil]; exact T_keep h1 _)
  | .desc p _ _ bs, h, _, _ => by cases h
theorem evalItems_T (c : Cfg) (hs : c.simple = none) (hc : c.source = false) (toc : Option Toc) (v : Variant) : ∀ is : List Item, is.all isPlain = true → (v = .callout → c.attrs ≠ none) →
    AllItems (ok c) is → T c (evalItems inl toc v is) [] []
  | [], _, _, _ => T_nil _
  | i :: is, hp, hv, h => by
    rw [List.all_cons, Bool.and_eq_true] at hp
    exact T_append (evalItem_T c hs hc toc v i hp.1 hv h.1) (evalItems_T c hs hc toc v is hp.2 hv h.2)
theorem evalDescItem_T (c : Cfg) (hs : c.simple = none) (hc : c.source = false) (toc : Option Toc) : ∀ i : Item, (!isPlain i) = true →
    (c.horizontal = true ∨ c.qanda = true → described i = true) → (c.horizontal = true → oneTerm i = true) → (c.horizontal = true ∨ c.qanda = true → c.glossary = false) →
    (c.horizontal = true → c.qanda = false) → AllItem (ok c) i → T c (evalDescItem inl toc i) [] []
  | .plain _ _, h, _, _, _, _, _ => by cases h
  | .desc p ex none [], _, k1, k2, k3, k4, h => by
    have hn : ¬ (c.horizontal = true ∨ c.qanda = true) := fun hx => by have := k1 hx; simp [described] at this
    have e1 : c.horizontal = false := by cases hh : c.horizontal; rfl; exact absurd (.inl hh) hn
    have e2 : c.qanda = false := by cases hh : c.qanda; rfl; exact absurd (.inr hh) hn
    exact T_append (T_terms hi hs e1 e2 1 (p :: ex)) (T_nil _)
  | .desc p ex none (b :: bs), _, k1, k2, k3, k4, h =>
    T_append (T_itemTerms hi hs k2 k3) (T_description hs k4 (T_append (T_around (k := .descriptionBlock) hs rfl rfl (evalBlock_T c hs hc toc b h.2.1)) (evalDescBlocks_T c hs hc toc bs h.2.2)))
  | .desc p ex (some d) bs, _, k1, k2, k3, k4, h =>
    T_append (T_itemTerms hi hs k2 k3) (T_description hs k4 (T_append (T_around (k := .descriptionText _) hs rfl rfl (evalBlock_T c hs hc toc d h.1)) (evalDescBlocks_T c hs hc toc bs h.2)))
theorem evalDescItems_T (c : Cfg) (hs : c.simple = none) (hc : c.source = false) (toc : Option Toc) : ∀ is : List Item, is.all (fun i => !isPlain i) = true →
    (c.horizontal = true ∨ c.qanda = true → is.all described = true) → (c.horizontal = true → is.all oneTerm = true) → (c.horizontal = true ∨ c.qanda = true → c.glossary = false) →
    (c.horizontal = true → c.qanda = false) → AllItems (ok c) is → T c (evalDescItems inl toc is) [] []
  | [], _, _, _, _, _, _ => T_nil _
  | i :: is, hp, k1, k2, k3, k4, h => by
    simp only [List.all_cons, Bool.and_eq_true] at hp k1 k2
    exact T_append (evalDescItem_T c hs hc toc i hp.1 (fun x => (k1 x).1) (fun x => (k2 x).1) k3 k4 h.1)
      (evalDescItems_T c hs hc toc is hp.2 (fun x => (k1 x).2) (fun x => (k2 x).2) k3 k4 h.2)
theorem evalDescBlocks_T (c : Cfg) (hs : c.simple = none) (hc : c.source = false) (toc : Option Toc) : ∀ bs : List Block, AllBlocks (ok c) bs → T c (evalDescBlocks inl toc bs) [] []
  | [], _ => T_nil _
  | b :: bs, h => T_append (T_around (k := .descriptionBlock) hs rfl rfl (evalBlock_T c hs hc toc b h.1)) (evalDescBlocks_T c hs hc toc bs h.2)
theorem evalSect_T (c : Cfg) (hs : c.simple = none) (hc : c.source = false) (toc : Option Toc) : ∀ s : Sect, AllSect (ok c) s → T c (evalSect inl toc s) [] []
  | .mk info h bs, ha => by
    have h1 := evalBlocks_T c hs hc toc bs ha
    have h2 : T c (around (.sectionHeading info) (inl h)) [] (if info.level = 1 then [.div] else []) := T_pin fun m => T_around (k := .sectionHeading info) hs rfl rfl (T_inl hi h _)
    refine T_around (k := .section info) hs rfl rfl ?_
    have h3 := T_frame (T_append h2 (T_keep h1 _)) [.div]
    by_cases hl : info.level = 1 <;> simp only [hl, if_true, if_false] at h3 ⊢ <;> exact h3
theorem evalSects_T (c : Cfg) (hs : c.simple = none) (hc : c.source = false) (toc : Option Toc) : ∀ ss : List Sect, AllSects (ok c) ss → T c (evalSects inl toc ss) [] []
  | [], _ => T_nil _
  | s :: ss, h => T_append (evalSect_T c hs hc toc s h.1) (evalSects_T c hs hc toc ss h.2)
theorem evalCell_T (c : Cfg) (hs : c.simple = none) (hc : c.source = false) (s : TableSection) : ∀ x : Cell,
    (s = .header → textCell x = true) ∧ cellFits x ∧ (c.cell = some true → Spec.Captions.simpleCell x = true) → AllCell (ok c) x → T c (evalCell inl s x) [] []
  | .paragraphs style ps, _, _ => by
    simp only [evalCell]
    refine T_around (k := .cell (.paragraphs style) s) hs rfl rfl ?_
    cases ht : isTh (.paragraphs style) s
    · exact T_cellParagraphs hi hs style s _ _ ps
    · exact T_cellParagraphs hi hs style s _ _ ps
  | .literal ns, hk, _ => by
    have hh : isTh .literal s = false := by
      cases s <;> first | rfl | (have := hk.1 rfl; cases this)
    exact T_around (k := .cell .literal s) (b := [.pre, .div, .td]) hs (by simp [ent, hh]) (by simp [lea, hh]) (T_inl hi ns _)
  | .asciidoc d, hk, h => by
    have hh : isTh .asciidoc s = false := by
      cases s <;> first | rfl | (have := hk.1 rfl; cases this)
    have hcell : c.cell ≠ some true := fun e => by have := hk.2.2 e; cases this
    have hf : tocFits d ∧ docFits d := by cases d; exact hk.2.1
    exact T_around (k := .cell .asciidoc s) (b := [.div, .td]) hs (by simp [ent, hh]) (by simp [lea, hh])
      (T_keep (T_cellDocument hcell (visit_V true d (AllDoc.imp (fun b h => ⟨h.1, h.2.1⟩) d h) hf.1 (fun _ => hf.2))) _)
theorem evalCells_T (c : Cfg) (hs : c.simple = none) (hc : c.source = false) (s : TableSection) : ∀ cs : List Cell,
    (∀ x ∈ cs, (s = .header → textCell x = true) ∧ cellFits x ∧ (c.cell = some true → Spec.Captions.simpleCell x = true)) → AllCells (ok c) cs → T c (evalCells inl s cs) [] []
  | [], _, _ => T_nil _
  | x :: cs, hk, h => T_append (evalCell_T c hs hc s x (hk x (by simp)) h.1) (evalCells_T c hs hc s cs (fun y hy => hk y (by simp [hy])) h.2)
theorem evalEdge_T (c : Cfg) (hs : c.simple = none) (hc : c.source = false) (s : TableSection) : ∀ cs : Option (List Cell),
    (∀ x ∈ cs.getD [], (s = .header → textCell x = true) ∧ cellFits x ∧ (c.cell = some true → Spec.Captions.simpleCell x = true)) → AllEdge (ok c) cs → T c (evalEdge inl s cs) [] []
  | none, _, _ => T_nil _
  | some cs, hk, h => T_around (k := .tableSection s) hs rfl rfl (T_keep (T_around (k := .row) hs rfl rfl (T_keep (evalCells_T c hs hc s cs hk h) _)) _)
theorem evalBody_T (c : Cfg) (hs : c.simple = none) (hc : c.source = false) : ∀ rs : List (List Cell),
    (∀ r ∈ rs, ∀ x ∈ r, (TableSection.body = .header → textCell x = true) ∧ cellFits x ∧ (c.cell = some true → Spec.Captions.simpleCell x = true)) → AllRows (ok c) rs → T c (evalBody inl rs) [] []
  | [], _, _ => T_nil _
  | r :: rs, hk, h => T_around (k := .tableSection .body) hs rfl rfl (T_keep (T_append (T_around (k := .row) hs rfl rfl (T_keep (evalCells_T c hs hc .body r (hk r (by simp)) h.1) _))
      (evalRows_T c hs hc rs (fun q hq => hk q (by simp [hq])) h.2)) _)
theorem evalRows_T (c : Cfg) (hs : c.simple = none) (hc : c.source = false) : ∀ rs : List (List Cell),
    (∀ r ∈ rs, ∀ x ∈ r, (TableSection.body = .header → textCell x = true) ∧ cellFits x ∧ (c.cell = some true → Spec.Captions.simpleCell x = true)) → AllRows (ok c) rs → T c (evalRows inl rs) [] []
  | [], _, _ => T_nil _
  | r :: rs, hk, h => T_append (T_around (k := .row) hs rfl rfl (T_keep (evalCells_T c hs hc .body r (hk r (by simp)) h.1) _))
      (evalRows_T c hs hc rs (fun q hq => hk q (by simp [hq])) h.2)
theorem evalPart_T (c : Cfg) (hs : c.simple = none) (hc : c.source = false) (toc : Option Toc) : ∀ p : Part, AllPart (ok c) p → T c (evalPart inl toc p) [] []
  | .mk t bt none ss, h => T_around (k := .part) hs rfl rfl (T_append (T_append (T_around (k := .partTitle) hs rfl rfl (T_inl hi t _)) (T_nil _)) (evalSects_T c hs hc toc ss h.2))
  | .mk t none (some bs) ss, h => T_around (k := .part) hs rfl rfl (T_append (T_append (T_around (k := .partTitle) hs rfl rfl (T_inl hi t _))
      (T_around (k := .partIntro false) hs rfl rfl (T_append (T_nil _) (T_keep (T_around (k := .partIntroContent false) hs rfl rfl (T_keep (evalBlocks_T c hs hc toc bs h.1) _)) _))))
      (evalSects_T c hs hc toc ss h.2))
  | .mk t (some ns) (some bs) ss, h => T_around (k := .part) hs rfl rfl (T_append (T_append (T_around (k := .partTitle) hs rfl rfl (T_inl hi t _))
      (T_around (k := .partIntro true) hs rfl rfl (T_append (T_inl hi ns _) (T_frame (a := [.div]) (b := []) (T_around (k := .partIntroContent true) hs rfl rfl (T_keep (evalBlocks_T c hs hc toc bs h.1) _)) [.div]))))
      (evalSects_T c hs hc toc ss h.2))
theorem evalParts_T (c : Cfg) (hs : c.simple = none) (hc : c.source = false) (toc : Option Toc) : ∀ ps : List Part, AllParts (ok c) ps → T c (evalParts inl toc ps) [] []
  | [], _ => T_nil _
  | p :: ps, h => T_append (evalPart_T c hs hc toc p h.1) (evalParts_T c hs hc toc ps h.2)
theorem evalDocContent_T (c : Cfg) (hs : c.simple = none) (hc : c.source = false) (toc : Option Toc) (t : Bool) : ∀ x : DocContent,
    (hasPreamble x = true → (∃ y, toc = some y ∧ y.position = .preamble) → t = true ∨ c.embedded = false) → AllDocContent (ok c) x →
    T c (evalDocContent inl toc t x) (frame c) (frame c)
  | .blocks bs, _, h => T_keep (evalBlocks_T c hs hc toc bs h) _
  | .sections none ss, _, h => T_keep (evalSects_T c hs hc toc ss h.2) _
  | .sections (some bs) ss, hp, h => by
    refine T_append (T_within (a := []) (b' := []) (k := .preamble t) (frame c) (frame c) hs rfl rfl (T_append (T_keep (evalBlocks_T c hs hc toc bs h.1) _) ?_))
      (T_keep (evalSects_T c hs hc toc ss h.2) _)
    exact T_preambleToc hi hs toc t (hp rfl)
  | .parts none o ps x, _, h => T_keep (T_append (T_append (evalSects_T c hs hc toc o h.2.1) (evalParts_T c hs hc toc ps h.2.2.1)) (evalSects_T c hs hc toc x h.2.2.2)) _
  | .parts (some bs) o ps x, hp, h => by
    refine T_append (T_append (T_within (a := []) (b' := []) (k := .preamble t) (frame c) (frame c) hs rfl rfl
      (T_append (T_keep (T_append (evalBlocks_T c hs hc toc bs h.1) (evalSects_T c hs hc toc o h.2.1)) _) ?_))
      (T_keep (evalParts_T c hs hc toc ps h.2.2.1) _)) (T_keep (evalSects_T c hs hc toc x h.2.2.2) _)
    exact T_preambleToc hi hs toc t (hp rfl)
theorem visit_V (b : Bool) : ∀ d : Doc, AllDoc (fun b => wf b ∧ tidy b) d → tocFits d → (b = true → docFits d) → V b (visit inl d)
  | .mk attrs title toc head header footer content, h, ht, hd => by
    have h2 : T (docCfg attrs b) (evalDocContent inl toc title.isSome content) (frame (docCfg attrs b)) (frame (docCfg attrs b)) := by
      refine evalDocContent_T (docCfg attrs b) rfl rfl toc title.isSome content ht ?_
      have hcell : (docCfg attrs b).cell = some true → b = true ∧ ¬ (attrs.embedded = true) ∧ ¬ (attrs.inlineDoctype = true) := by
        simp only [docCfg]
        intro hx
        split at hx
        · cases hx
        · next hn => cases hx; exact ⟨rfl, fun e => hn (by simp [e]), fun e => hn (by simp [e])⟩
      by_cases hct : (docCfg attrs b).cell = some true
      · obtain ⟨h5, h6, h7⟩ := hcell hct
        have h8 : AllDocContent Spec.Captions.simpleTable content := by
          rcases hd h5 with h | h | h
          · exact absurd h h6
          · exact absurd h h7
          · exact h
        exact AllDocContent.imp (fun x h => ⟨h.1.1, h.1.2, (fun x => by rcases x with x | x <;> cases x), (fun x => by cases x), (fun x => by cases x), fun _ => h.2⟩) content (AllDocContent.and content h h8)
      · exact AllDocContent.imp (fun x h => ⟨h.1, h.2, (fun x => by rcases x with x | x <;> cases x), (fun x => by cases x), (fun x => by cases x), fun hx => absurd hx hct⟩) content h
    exact visit_of hi b attrs title toc head header footer content h2
end

end
end Verif.Html.Bal
