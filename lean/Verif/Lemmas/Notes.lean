import Verif.Spec.Notes
import Verif.Lemmas.HtmlCaptions
/-! Lemmas about footnotes and buffered text. -/
set_option linter.unusedSectionVars false
set_option linter.unusedVariables false
set_option linter.unusedSimpArgs false
namespace Verif.Html.Notes
open Verif.Ast Verif.Eval Verif.Html Verif.Spec.Eval Verif.Spec.Html Verif.Spec.Notes

theorem shown_append (a b : List Tok) : shown (a ++ b) = shown a ++ shown b := by
  induction a with
  | nil => rfl
  | cons t a ih => cases t <;> simp [shown, ih]

theorem texts_append (a b : List Ev) : texts (a ++ b) = texts a ++ texts b := by
  induction a with
  | nil => rfl
  | cons e a ih =>
    cases e with
    | visit v => cases v <;> simp [texts, ih]
    | _ => simp [texts, ih]

/-- no calls for footnotes -/
def noFoot (evs : List Ev) : Bool := evs.all fun
  | .enter (.footnote _) => false
  | .exit (.footnote _) => false
  | _ => true

theorem noFoot_append (a b : List Ev) : noFoot (a ++ b) = (noFoot a && noFoot b) := by simp [noFoot]

theorem flat_cons {e : Ev} (h : ∀ id, e ≠ .enter (.footnote id) ∧ e ≠ .exit (.footnote id)) (b : Bool) (evs : List Ev) :
    flat b (e :: evs) = flat b evs := by
  cases e with
  | enter c => cases c <;> first | rfl | exact absurd rfl (h _).1
  | exit c => cases c <;> first | rfl | exact absurd rfl (h _).2
  | _ => rfl

theorem noFoot_cons {e : Ev} (h : ∀ id, e ≠ .enter (.footnote id) ∧ e ≠ .exit (.footnote id)) (evs : List Ev) : noFoot (e :: evs) = noFoot evs := by
  cases e with
  | enter c => cases c <;> first | rfl | exact absurd rfl (h _).1
  | exit c => cases c <;> first | rfl | exact absurd rfl (h _).2
  | _ => rfl

theorem atoms_cons {e : Ev} (h : ∀ id, e ≠ .enter (.footnote id) ∧ e ≠ .exit (.footnote id)) (hl : ∀ l, e ≠ .visit (.leaf l))
    (o : Option (Option Text × List Text)) (evs : List Ev) : atoms o (e :: evs) = atoms o evs := by
  cases o <;> cases e with
  | enter c => cases c <;> first | rfl | exact absurd rfl (h _).1
  | exit c => cases c <;> first | rfl | exact absurd rfl (h _).2
  | visit v => cases v <;> first | rfl | exact absurd rfl (hl _)
  | _ => rfl

theorem texts_cons {e : Ev} (hl : ∀ l, e ≠ .visit (.leaf l)) (evs : List Ev) : texts (e :: evs) = texts evs := by
  cases e with
  | visit v => cases v <;> first | rfl | exact absurd rfl (hl _)
  | _ => rfl

theorem notFoot {c : Call} (h : ∀ id, c ≠ .footnote id) : (∀ id, Ev.enter c ≠ .enter (.footnote id) ∧ Ev.enter c ≠ .exit (.footnote id)) ∧
    ∀ id, Ev.exit c ≠ .enter (.footnote id) ∧ Ev.exit c ≠ .exit (.footnote id) :=
  ⟨fun id => ⟨fun e => h id (by injection e), fun e => Ev.noConfusion e⟩, fun id => ⟨fun e => Ev.noConfusion e, fun e => h id (by injection e)⟩⟩

/-- How the readings of calls are put together; they are those for inline nodes. -/
theorem flat_I {a : List Ev} (h : I a) : (∀ r, flat false (a ++ r) = (flat false a && flat false r)) ∧ ∀ r, flat true (a ++ r) = (noFoot a && flat true r) := by
  induction h with
  | nil => exact ⟨fun r => rfl, fun r => by simp [noFoot]⟩
  | leaf l => exact ⟨fun r => rfl, fun r => rfl⟩
  | missing t => exact ⟨fun r => rfl, fun r => rfl⟩
  | bound => exact ⟨fun r => rfl, fun r => rfl⟩
  | vterm => exact ⟨fun r => rfl, fun r => rfl⟩
  | append _ _ ih1 ih2 =>
    refine ⟨fun r => ?_, fun r => ?_⟩
    · rw [List.append_assoc, ih1.1, ih2.1, ih1.1, Bool.and_assoc]
    · rw [List.append_assoc, ih1.2, ih2.2, noFoot_append, Bool.and_assoc]
  | @around c hc a _ ih =>
    by_cases hf : ∀ id, c ≠ .footnote id
    · obtain ⟨h1, h2⟩ := notFoot hf
      refine ⟨fun r => ?_, fun r => ?_⟩
      · simp only [around, List.cons_append, List.append_assoc, flat_cons h1, ih.1, List.nil_append, flat_cons h2]
        simp [flat]
      · simp only [around, List.cons_append, List.append_assoc, flat_cons h1, ih.2, List.nil_append, flat_cons h2, noFoot_cons h1, noFoot_append]
        rw [noFoot_cons h2, show noFoot [] = true from rfl, Bool.and_true]
    · obtain ⟨id, rfl⟩ : ∃ id, c = .footnote id := by
        apply Classical.byContradiction; intro hn; exact hf fun id e => hn ⟨id, e⟩
      refine ⟨fun r => ?_, fun r => ?_⟩
      · simp only [around, List.cons_append, List.append_assoc, flat, ih.2, List.nil_append]
        simp
      · simp [around, flat, noFoot]

theorem atoms_inside {a : List Ev} (h : I a) : noFoot a = true → ∀ id ts r, atoms (some (id, ts)) (a ++ r) = atoms (some (id, ts ++ texts a)) r := by
  induction h with
  | nil => intro _ id ts r; simp [texts]
  | leaf l => intro _ id ts r; simp [texts, atoms]
  | missing t => intro _ id ts r; simp [texts, atoms]
  | bound => intro _ id ts r; simp [texts, atoms]
  | vterm => intro _ id ts r; simp [texts, atoms]
  | append _ _ ih1 ih2 =>
    intro hn id ts r
    rw [noFoot_append, Bool.and_eq_true] at hn
    rw [List.append_assoc, ih1 hn.1, ih2 hn.2, texts_append, List.append_assoc]
  | @around c hc a _ ih =>
    intro hn id ts r
    by_cases hf : ∀ id, c ≠ .footnote id
    · obtain ⟨h1, h2⟩ := notFoot hf
      have hn' : noFoot a = true := by
        simp only [around, noFoot_cons h1, noFoot_append, Bool.and_eq_true] at hn
        exact hn.1
      simp only [around, List.cons_append, List.append_assoc, atoms_cons h1 (fun l e => by cases e), ih hn', List.nil_append, atoms_cons h2 (fun l e => by cases e),
        texts_cons (e := .enter c) (fun l e => by cases e), texts_append, texts_cons (e := .exit c) (fun l e => by cases e), texts, List.append_nil]
    · obtain ⟨id', rfl⟩ : ∃ id, c = .footnote id := by
        apply Classical.byContradiction; intro hn; exact hf fun id e => hn ⟨id, e⟩
      simp [around, noFoot] at hn

theorem atoms_append {a : List Ev} (h : I a) : flat false a = true → ∀ r, atoms none (a ++ r) = atoms none a ++ atoms none r := by
  induction h with
  | nil => intro _ r; rfl
  | leaf l => intro _ r; simp [atoms]
  | missing t => intro _ r; rfl
  | bound => intro _ r; rfl
  | vterm => intro _ r; rfl
  | @append x y hx hy ih1 ih2 =>
    intro hn r
    rw [(flat_I hx).1, Bool.and_eq_true] at hn
    rw [List.append_assoc, ih1 hn.1, ih2 hn.2, ih1 hn.1, List.append_assoc]
  | @around c hc a ha ih =>
    intro hn r
    by_cases hf : ∀ id, c ≠ .footnote id
    · obtain ⟨h1, h2⟩ := notFoot hf
      have hn' : flat false a = true := by
        simp only [around, flat_cons h1, (flat_I ha).1, Bool.and_eq_true] at hn
        exact hn.1
      simp only [around, List.cons_append, List.append_assoc, atoms_cons h1 (fun l e => by cases e), ih hn', List.nil_append, atoms_cons h2 (fun l e => by cases e)]
      simp [atoms]
    · obtain ⟨id', rfl⟩ : ∃ id, c = .footnote id := by
        apply Classical.byContradiction; intro hn; exact hf fun id e => hn ⟨id, e⟩
      have hn' : noFoot a = true := by
        simp only [around, flat, (flat_I ha).2, Bool.and_eq_true, Bool.not_false, Bool.true_and] at hn
        exact hn.1
      simp only [around, List.cons_append, List.append_assoc, atoms, atoms_inside ha hn', List.nil_append]

theorem atoms_footnote {a : List Ev} (h : I a) (id : Option Text) (hn : flat false (around (.footnote id) a) = true) :
    noFoot a = true ∧ atoms none (around (.footnote id) a) = [.note id (texts a)] := by
  have hn' : noFoot a = true := by
    simp only [around, flat, (flat_I h).2, Bool.and_eq_true, Bool.not_false, Bool.true_and] at hn
    exact hn.1
  refine ⟨hn', ?_⟩
  simp only [around, atoms, atoms_inside h hn', List.nil_append]

/-- the notes of a state -/
def notesOf (fs : List (Option Text × List Tok)) : Notes := fs.map fun f => (f.1, shown f.2)

theorem view_append (a b : List (Option Text × List Tok)) : notesOf (a ++ b) = notesOf a ++ notesOf b := by simp [notesOf]

theorem prevFootnote_eq (id : Option Text) : ∀ (fs : List (Option Text × List Tok)) (i : Nat),
    prevFootnote id fs i = match id with
      | none => none
      | some name => ((notesOf fs).findIdx? fun n => n.1 = some name).map (· + i) := by
  intro fs
  induction fs with
  | nil => intro i; cases id <;> rfl
  | cons f fs ih =>
    intro i
    obtain ⟨o, b⟩ := f
    cases o with
    | none =>
      rw [prevFootnote, ih]
      cases id with
      | none => rfl
      | some name =>
        simp only [notesOf, List.map_cons, List.findIdx?_cons]
        simp only [reduceCtorEq, decide_false, Bool.false_eq_true, if_false, Option.map_map]
        congr 1; funext x; simp only [Function.comp]; omega
    | some prev =>
      rw [prevFootnote, ih]
      cases id with
      | none => simp
      | some name =>
        simp only [notesOf, List.map_cons, List.findIdx?_cons, Option.some.injEq]
        by_cases h : name = prev
        · simp [h]
        · have h' : prev ≠ name := fun e => h e.symm
          simp only [h, h', if_false, decide_false, Bool.false_eq_true, Option.map_map]
          congr 1; funext x; simp only [Function.comp]; omega

theorem prevFootnote_one (id : Option Text) (fs : List (Option Text × List Tok)) : prevFootnote id fs 1 = numberOf id (notesOf fs) := by
  rw [prevFootnote_eq]; rfl

theorem layout_append : ∀ (as bs : List Atom) (ns : Notes), layout ns (as ++ bs) = ((layout ns as).1 ++ (layout (layout ns as).2 bs).1, (layout (layout ns as).2 bs).2) := by
  intro as
  induction as with
  | nil => intro bs ns; rfl
  | cons a as ih =>
    intro bs ns
    cases a with
    | text s => simp [layout, ih]
    | note id body =>
      simp only [List.cons_append, layout]
      cases numberOf id ns <;> simp [ih]

theorem layout_texts (ns : Notes) : ∀ ts : List Text, layout ns (ts.map .text) = (ts.map .text, ns) := by
  intro ts
  induction ts with
  | nil => rfl
  | cons t ts ih => simp [layout, ih]

theorem leafToks_shown (f : Frame) (l : Leaf) : shown (leafToks f l) = (leafTexts l).map .text := by
  have rep : ∀ (t : Tag) n, shown (List.replicate n [Tok.opening t, .closing t]).flatten = [] := by
    intro t n
    induction n with
    | zero => rfl
    | succ n ih => simp [List.replicate_succ, shown, ih]
  cases l with
  | image link _ => cases link <;> rfl
  | keyboard n => simp only [leafToks]; split <;> simp [shown_append, shown, rep, leafTexts]
  | menu n => simp [leafToks, shown_append, shown, rep, leafTexts]
  | icon link => cases link <;> simp only [leafToks] <;> cases f.attrs.icons <;> rfl
  | anchor => simp only [leafToks]; split <;> rfl
  | callout => simp only [leafToks]; split <;> rfl
  | calloutTuck => simp only [leafToks]; split <;> rfl
  | _ => rfl

/-- what calls for inline nodes do to the page -/
def Lays (s t : State) (as : List Atom) : Prop :=
  ∃ seg fs, t = s.ext seg fs ∧ shown seg = (layout (notesOf s.footnotes) as).1 ∧ notesOf (s.footnotes ++ fs) = (layout (notesOf s.footnotes) as).2

theorem Lays.refl (s : State) : Lays s s [] := ⟨[], [], (ext_nil s).symm, rfl, by simp [layout]⟩
theorem Lays.push (s : State) {ts : List Tok} {as : List Atom} {xs : List Text} (e : as = xs.map .text) (h : shown ts = xs.map .text) : Lays s (s.push ts) as :=
  ⟨ts, [], push_ext s ts, by rw [h, e, layout_texts], by rw [e, layout_texts]; simp⟩
theorem Lays.trans {s t u : State} {as bs : List Atom} (h1 : Lays s t as) (h2 : Lays t u bs) : Lays s u (as ++ bs) := by
  obtain ⟨a, f, rfl, ha, hf⟩ := h1
  obtain ⟨b, g, rfl, hb, hg⟩ := h2
  have hv : notesOf (s.ext a f).footnotes = (layout (notesOf s.footnotes) as).2 := hf
  rw [hv] at hb hg
  refine ⟨a ++ b, f ++ g, ext_ext .., ?_, ?_⟩
  · rw [shown_append, ha, hb, layout_append]
  · rw [layout_append]
    have : notesOf (s.footnotes ++ f ++ g) = (layout (layout (notesOf s.footnotes) as).2 bs).2 := hg
    rw [← List.append_assoc]; exact this
theorem Lays.cast {s t : State} {as bs : List Atom} (h : Lays s t as) (e : as = bs) : Lays s t bs := e ▸ h

theorem visitLeaf_lays {l : Leaf} {s s' : State} (h : visitCall (.leaf l) s = some s') : Lays s s' ((leafTexts l).map .text) := by
  have key : ∀ l, Lays s (s.push (leafToks s.cur l)) ((leafTexts l).map .text) := fun l => .push s rfl (leafToks_shown _ l)
  have pushed : ∀ {l}, some (s.push (leafToks s.cur l)) = some s' → Lays s s' ((leafTexts l).map .text) := by
    intro l h; cases h; exact key l
  cases l
  case image link self =>
    cases self
    · exact pushed h
    · change (if s.cur.alt = [] then some (s.push (leafToks s.cur (.image true true))) else none) = some s' at h
      split at h
      · exact pushed (l := .image true true) h
      · cases h
  case menu n =>
    change (if 2 ≤ n then some (s.push (leafToks s.cur (.menu n))) else none) = some s' at h
    split at h
    · exact pushed h
    · cases h
  all_goals exact pushed h

/-- tokens written around -/
theorem Lays.wrap {s u : State} {as : List Atom} {a b : List Tok} (h : Lays (s.push a) u as) (ha : shown a = []) (hb : shown b = []) :
    Lays s (u.push b) as := by
  have h1 : Lays s (s.push a) [] := .push s (xs := []) rfl ha
  have h2 : Lays u (u.push b) [] := .push u (xs := []) rfl hb
  exact ((h1.trans h).trans h2).cast (by simp)

/-- without footnotes the atoms are texts -/
theorem atoms_noFoot {a : List Ev} (h : I a) : noFoot a = true → flat false a = true ∧ atoms none a = (texts a).map .text := by
  intro hn
  have hc : ∀ (e : Ev) (r : List Ev), noFoot (e :: r) = true → ∀ id, e ≠ .enter (.footnote id) ∧ e ≠ .exit (.footnote id) := by
    intro e r h id
    refine ⟨fun he => ?_, fun he => ?_⟩ <;> subst he <;> simp [noFoot] at h
  clear h
  induction a with
  | nil => exact ⟨rfl, rfl⟩
  | cons e r ih =>
    have h1 := hc e r hn
    rw [noFoot_cons h1] at hn
    obtain ⟨i1, i2⟩ := ih hn
    rw [flat_cons h1]
    refine ⟨i1, ?_⟩
    by_cases hl : ∀ l, e ≠ .visit (.leaf l)
    · rw [atoms_cons h1 hl, texts_cons hl, i2]
    · obtain ⟨l, rfl⟩ : ∃ l, e = .visit (.leaf l) := by
        apply Classical.byContradiction; intro hn; exact hl fun id e => hn ⟨id, e⟩
      simp [atoms, texts, i2]

theorem run_lays {evs : List Ev} (h : I evs) : flat false evs = true → ∀ s s', run evs s = some s' → Lays s s' (atoms none evs) := by
  induction h with
  | nil => intro _ s s' h; cases h; exact .refl s
  | leaf l => intro _ s s' h; rw [run_one] at h; exact (visitLeaf_lays h).cast (by simp [atoms])
  | missing t => intro _ s s' h; rw [run_one] at h; simp only [step, visitCall] at h; cases h; exact .push s (xs := []) rfl rfl
  | bound => intro _ s s' h; cases h
  | vterm => intro _ s s' h; cases h; exact .refl s
  | @append a b ha hb ih1 ih2 =>
    intro hf s s' h
    rw [(flat_I ha).1, Bool.and_eq_true] at hf
    obtain ⟨t, h1, h2⟩ := run_append_some h
    rw [atoms_append ha hf.1]
    exact (ih1 hf.1 _ _ h1).trans (ih2 hf.2 _ _ h2)
  | @around c hc a ha ih =>
    intro hf s s' h
    obtain ⟨t, u, h1, h2, h3⟩ := run_around h
    by_cases hfn : ∀ id, c ≠ .footnote id
    · obtain ⟨n1, n2⟩ := notFoot hfn
      have hf' : flat false a = true := by
        simp only [around, flat_cons n1, (flat_I ha).1, Bool.and_eq_true] at hf
        exact hf.1
      have hat : atoms none (around c a) = atoms none a := by
        simp only [around, atoms_cons n1 (fun l e => by cases e), atoms_append ha hf', atoms_cons n2 (fun l e => by cases e)]
        simp [atoms]
      have hw := ih hf' _ _ h2
      rw [hat]
      clear ih hat hf hf' n1 n2
      cases c <;> try (exact Bool.noConfusion hc)
      case footnote id => exact absurd rfl (hfn id)
      case wrap k =>
        simp only [enter, exit] at h1 h3
        cases hk : wrapTag k with
        | none => rw [hk] at h1 h3; cases h1; cases h3; exact hw
        | some g => rw [hk] at h1 h3; cases h1; cases h3; exact hw.wrap rfl rfl
      case link ix ht =>
        simp only [enter, exit] at h1 h3
        cases h1; cases h3
        have : (!ix && !u.cur.inToc) = (!ix && !s.cur.inToc) := by
          obtain ⟨seg, fs, rfl, -, -⟩ := hw; simp only [pushIf_ext, State.ext]
        rw [this]
        cases hb : (!ix && !s.cur.inToc) with
        | true => rw [hb] at hw; exact Lays.wrap (a := [.opening .a]) hw rfl rfl
        | false => rw [hb] at hw; exact hw
      case mailto ht => simp only [enter, exit] at h1 h3; cases h1; cases h3; exact hw.wrap rfl rfl
      case xref t' =>
        simp only [enter, exit] at h1 h3
        cases h1
        obtain ⟨seg, fs, rfl, hseg, hfs⟩ := hw
        simp only [pushIf_ext, ext_ext] at h3 hseg
        simp only [State.ext] at h3
        cases h3
        have e1 : notesOf (s.footnotes ++ []) = notesOf s.footnotes := by simp
        simp only [State.ext, pushIf_ext, e1] at hseg hfs
        cases hd : s.cur.xrefDepth with
        | zero =>
          refine ⟨.opening .xrefA :: (seg ++ [.closing .xrefA]), fs, ?_, ?_, ?_⟩
          · simp [State.ext, hd]
          · simp [shown, shown_append, hseg]
          · simpa using hfs
        | succ d =>
          refine ⟨seg, fs, ?_, hseg, ?_⟩
          · simp [State.ext, hd]
          · simpa using hfs
      case xrefText bib =>
        simp only [enter, exit] at h1 h3
        cases h1; cases h3
        cases bib with
        | false => exact hw
        | true => exact Lays.wrap (a := [.gen ['[']]) hw rfl rfl
      all_goals
        simp only [enter, exit] at h1 h3
        cases h1; cases h3; exact hw
    · obtain ⟨id, rfl⟩ : ∃ id, c = .footnote id := by
        apply Classical.byContradiction; intro hn; exact hfn fun id e => hn ⟨id, e⟩
      obtain ⟨hn, hat⟩ := atoms_footnote ha id hf
      obtain ⟨hfa, hta⟩ := atoms_noFoot ha hn
      rw [hat]
      have hw := ih hfa _ _ h2
      rw [hta] at hw
      clear ih
      simp only [enter, State.startBuffering, prevFootnote_one] at h1
      cases hp : numberOf id (notesOf s.footnotes) with
      | none =>
        rw [hp] at h1
        dsimp only at h1
        split at h1
        case isFalse => cases h1
        case isTrue halt =>
          cases h1
          obtain ⟨seg, fs, rfl, hseg, hfs⟩ := hw
          have e0 : s.swap.footnotes = s.footnotes := rfl
          rw [layout_texts] at hseg hfs
          rw [e0] at hfs
          have hnil : fs = [] := by
            have := congrArg List.length hfs
            simp [notesOf] at this; exact this
          subst hnil
          simp only [exit, State.ext, e0, List.append_nil, prevFootnote_one, hp] at h3
          cases h3
          refine ⟨[.opening .sup, .opening .a, .footnote (s.footnotes.length + 1), .closing .a, .closing .sup], [(id, seg)], ?_, ?_, ?_⟩
          · simp [State.ext, State.swap, State.swapTake, State.push, Frame.push, halt]
          · simp only [layout, hp, shown]; simp [notesOf]
          · rw [view_append]; simp only [layout, hp]; simp [notesOf, hseg]
      | some n =>
        rw [hp] at h1
        dsimp only at h1
        split at h1
        case isFalse => cases h1
        case isTrue halt =>
          cases h1
          have halt : s.cur.alt = [] := halt
          obtain ⟨seg, fs, rfl, hseg, hfs⟩ := hw
          rw [layout_texts] at hseg hfs
          have e0 : (s.push [.opening .sup, .opening .a, .footnoteRef n, .closing .a, .closing .sup]).swap.footnotes = s.footnotes := rfl
          rw [e0] at hfs
          have hnil : fs = [] := by
            have := congrArg List.length hfs
            simp [notesOf] at this; exact this
          subst hnil
          simp only [exit, State.ext, e0, List.append_nil, prevFootnote_one, hp] at h3
          cases h3
          refine ⟨[.opening .sup, .opening .a, .footnoteRef n, .closing .a, .closing .sup], [], ?_, ?_, ?_⟩
          · simp [State.ext, State.swap, State.swapTake, State.push, Frame.push, halt]
          · simp [layout, hp, shown]
          · simp [layout, hp]

end Verif.Html.Notes
