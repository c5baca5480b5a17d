import Verif.Lemmas.NotesDoc
/-! The texts and footnotes in the calls for a text are those of the text, and facts
about laid out footnotes. -/
set_option linter.unusedSectionVars false
set_option linter.unusedVariables false
set_option linter.unusedSimpArgs false
namespace Verif.Html.Notes
open Verif.Ast Verif.Eval Verif.Html Verif.Spec.Eval Verif.Spec.Html Verif.Spec.Notes

/-- the calls stand for the node -/
structure Reads (evs : List Ev) (ts : List Text) (no fl : Bool) (as : List Atom) : Prop where
  inl : I evs
  txt : texts evs = ts
  foot : noFoot evs = no
  flt : flat false evs = fl
  atm : fl = true → atoms none evs = as

theorem Reads.nil : Reads [] [] true true [] := ⟨.nil, rfl, rfl, rfl, fun _ => rfl⟩
theorem Reads.append {a b : List Ev} {ts us : List Text} {n m f g : Bool} {as bs : List Atom} (h : Reads a ts n f as) (k : Reads b us m g bs) :
    Reads (a ++ b) (ts ++ us) (n && m) (f && g) (as ++ bs) where
  inl := .append h.inl k.inl
  txt := by rw [texts_append, h.txt, k.txt]
  foot := by rw [noFoot_append, h.foot, k.foot]
  flt := by rw [(flat_I h.inl).1, h.flt, k.flt]
  atm := by
    intro hf
    rw [Bool.and_eq_true] at hf
    rw [atoms_append h.inl (h.flt.trans hf.1), h.atm hf.1, k.atm hf.2]
theorem Reads.around {a : List Ev} {ts : List Text} {n f : Bool} {as : List Atom} (c : Call) (hc : inlineCall c = true) (hf : ∀ id, c ≠ .footnote id)
    (h : Reads a ts n f as) : Reads (around c a) ts n f as := by
  obtain ⟨h1, h2⟩ := notFoot hf
  refine ⟨.around c hc h.inl, ?_, ?_, ?_, ?_⟩
  · rw [Eval.around, texts_cons (fun l e => by cases e), texts_append, texts_cons (fun l e => by cases e), h.txt]; simp [texts]
  · rw [Eval.around, noFoot_cons h1, noFoot_append, noFoot_cons h2, h.foot]; simp [noFoot]
  · rw [Eval.around, flat_cons h1, (flat_I h.inl).1, flat_cons h2, h.flt]; simp [flat]
  · intro ht
    rw [Eval.around, atoms_cons h1 (fun l e => by cases e), atoms_append h.inl (h.flt.trans ht), atoms_cons h2 (fun l e => by cases e), h.atm ht]; simp [atoms]
theorem Reads.note {a : List Ev} {ts : List Text} {n f : Bool} {as : List Atom} (id : Option Text) (h : Reads a ts n f as) :
    Reads (Eval.around (.footnote id) a) ts false n [.note id ts] := by
  have hfl : flat false (Eval.around (.footnote id) a) = n := by
    simp only [Eval.around, flat, (flat_I h.inl).2, h.foot]; simp [flat]
  refine ⟨.around _ rfl h.inl, ?_, ?_, hfl, ?_⟩
  · rw [Eval.around, texts_cons (fun l e => by cases e), texts_append, texts_cons (fun l e => by cases e), h.txt]; simp [texts]
  · simp [Eval.around, noFoot]
  · intro ht
    rw [(atoms_footnote h.inl id (hfl.trans ht)).2, h.txt]

mutual
theorem evalInline_reads (env : Env) (hv : env.entersVisible = true) (hc : env.entersConcealed = false) (jump : Jump) : ∀ (n : Inline) (f : Bool), NoXref n →
    Reads (evalInline env jump n f).1 (nodeTexts n) (noNote n) (flatNode n) (nodeAtoms n)
  | .leaf l, f, _ => ⟨.leaf l, by simp [evalInline, texts, nodeTexts], rfl, rfl, fun _ => by simp [evalInline, atoms, nodeAtoms]⟩
  | .skipped, f, _ => .nil
  | .wrap k ns, f, h => .around _ rfl (fun id e => by cases e) (evalInlines_reads env hv hc jump ns f h)
  | .footnote id none, f, _ => .note id .nil
  | .footnote id (some ns), f, h => .note id (evalInlines_reads env hv hc jump ns f h)
  | .link none, f, _ => .around _ rfl (fun id e => by cases e) .nil
  | .link (some ns), f, h => .around _ rfl (fun id e => by cases e) (evalInlines_reads env hv hc jump ns f h)
  | .mailto none, f, _ => .around _ rfl (fun id e => by cases e) .nil
  | .mailto (some ns), f, h => .around _ rfl (fun id e => by cases e) (evalInlines_reads env hv hc jump ns f h)
  | .xref t o, f, h => h.elim
  | .visibleTerm ns, f, h => by
    have h0 : Reads [.enter .visibleTerm] [] true true [] := ⟨.vterm, rfl, rfl, rfl, fun _ => rfl⟩
    have h1 := evalInlines_reads env hv hc jump ns f h
    simp only [evalInline, hv, if_true]
    exact Reads.append h0 h1
  | .concealedTerm p s t, f, h => by
    simp only [evalInline, hc]
    exact Reads.around _ rfl (fun id e => by cases e) .nil
theorem evalInlines_reads (env : Env) (hv : env.entersVisible = true) (hc : env.entersConcealed = false) (jump : Jump) : ∀ (ns : List Inline) (f : Bool), NoXrefs ns →
    Reads (evalInlines env jump ns f).1 (nodesTexts ns) (noNotes ns) (flatNodes ns) (nodesAtoms ns)
  | [], f, _ => .nil
  | n :: ns, f, h => (evalInline_reads env hv hc jump n f h.1).append (evalInlines_reads env hv hc jump ns _ h.2)
end

theorem inlines_reads (anchors : Text → Option Anchor) (n : Nat) (ns : List Inline) (h : NoXrefs ns) :
    Reads (inlines (htmlEnv anchors) n ns) (nodesTexts ns) (noNotes ns) (flatNodes ns) (nodesAtoms ns) :=
  evalInlines_reads (htmlEnv anchors) rfl rfl _ ns false h

theorem marksIn_append : ∀ (a b : List Shown), marksIn (a ++ b) = marksIn a ++ marksIn b
  | [], _ => rfl
  | x :: a, b => by cases x <;> simp [marksIn, marksIn_append a b]
theorem numbersIn_append : ∀ (a b : List Shown), numbersIn (a ++ b) = numbersIn a ++ numbersIn b
  | [], _ => rfl
  | x :: a, b => by cases x <;> simp [numbersIn, numbersIn_append a b]
theorem definesIn_append : ∀ (a b : List Shown), definesIn (a ++ b) = definesIn a ++ definesIn b
  | [], _ => rfl
  | x :: a, b => by cases x <;> simp [definesIn, definesIn_append a b]

/-- only text -/
def plainShown (xs : List Shown) : Prop := marksIn xs = [] ∧ numbersIn xs = [] ∧ definesIn xs = []

theorem plain_map : ∀ ts : List Text, plainShown (ts.map .text)
  | [] => ⟨rfl, rfl, rfl⟩
  | t :: ts => plain_map ts

/-- the notes are texts, and names occur once -/
def GoodNotes (ns : Notes) : Prop := (∀ x ∈ ns, plainShown x.2) ∧ ∀ (i j : Nat) (x y : Option Text × List Shown) (name : Text),
  ns[i]? = some x → ns[j]? = some y → x.1 = some name → y.1 = some name → i = j

theorem good_nil : GoodNotes [] := ⟨by simp, by simp⟩

theorem numberOf_some {id : Option Text} {ns : Notes} {k : Nat} (h : numberOf id ns = some k) : ∃ name x, id = some name ∧ 1 ≤ k ∧ ns[k - 1]? = some x ∧ x.1 = id := by
  cases id with
  | none => cases h
  | some name =>
    simp only [numberOf, Option.map_eq_some_iff] at h
    obtain ⟨a, h1, rfl⟩ := h
    rw [List.findIdx?_eq_some_iff_getElem] at h1
    obtain ⟨hlt, h2, -⟩ := h1
    refine ⟨name, ns[a], rfl, by omega, by simp [hlt], by simpa using h2⟩

theorem numberOf_none {name : Text} {ns : Notes} (h : numberOf (some name) ns = none) : ∀ x ∈ ns, x.1 ≠ some name := by
  simp only [numberOf, Option.map_eq_none_iff, List.findIdx?_eq_none_iff] at h
  intro x hx e
  have := h x hx
  simp [e] at this

theorem good_snoc {ns : Notes} {id : Option Text} {body : List Text} (h : GoodNotes ns) (hn : numberOf id ns = none) : GoodNotes (ns ++ [(id, body.map .text)]) := by
  refine ⟨?_, ?_⟩
  · intro x hx
    rcases List.mem_append.1 hx with hx | hx
    · exact h.1 x hx
    · rw [List.mem_singleton] at hx; subst hx; exact plain_map body
  · intro i j x y name hi hj hx hy
    have fresh : ∀ (k l : Nat) (z w : Option Text × List Shown), ns[k]? = some z → ¬ l < ns.length → (ns ++ [(id, body.map Shown.text)])[l]? = some w → z.1 = some name → w.1 = some name → False := by
      intro k l z w hz hl hw ez ew
      rw [List.getElem?_append_right (by omega)] at hw
      have hl0 : l - ns.length = 0 := by
        apply Classical.byContradiction; intro hne
        rw [List.getElem?_eq_none (by simp; omega)] at hw; cases hw
      rw [hl0] at hw; simp at hw; subst hw
      have eid : id = some name := ew
      rw [eid] at hn
      exact numberOf_none hn z (List.mem_of_getElem? hz) ez
    by_cases hi' : i < ns.length <;> by_cases hj' : j < ns.length
    · rw [List.getElem?_append_left hi'] at hi
      rw [List.getElem?_append_left hj'] at hj
      exact h.2 i j x y name hi hj hx hy
    · rw [List.getElem?_append_left hi'] at hi
      exact (fresh i j x y hi hj' hj hx hy).elim
    · rw [List.getElem?_append_left hj'] at hj
      exact (fresh j i y x hj hi' hi hy hx).elim
    · have e1 : i < ns.length + 1 := by
        have := (List.getElem?_eq_some_iff.1 hi).1; simpa using this
      have e2 : j < ns.length + 1 := by
        have := (List.getElem?_eq_some_iff.1 hj).1; simpa using this
      omega

/-- names and numbers of the footnotes that are used -/
def pairs : Notes → List Atom → List (Option Text × Nat)
  | _, [] => []
  | ns, .text _ :: as => pairs ns as
  | ns, .note id body :: as =>
    match numberOf id ns with
    | some n => (id, n) :: pairs ns as
    | none => (id, ns.length + 1) :: pairs (ns ++ [(id, body.map .text)]) as

theorem layout_facts : ∀ (as : List Atom) (ns : Notes), GoodNotes ns → ∃ new : Notes, (layout ns as).2 = ns ++ new ∧ GoodNotes (ns ++ new) ∧
    marksIn (layout ns as).1 = List.range' (ns.length + 1) new.length ∧ definesIn (layout ns as).1 = [] ∧
    numbersIn (layout ns as).1 = (pairs ns as).map (·.2) ∧ namesIn as = (pairs ns as).map (·.1) ∧
    (∀ p ∈ pairs ns as, 1 ≤ p.2 ∧ ∃ x, (ns ++ new)[p.2 - 1]? = some x ∧ x.1 = p.1) ∧
    (∀ p ∈ pairs ns as, p.1 = none → ns.length < p.2) ∧
    (pairs ns as).Pairwise (fun p q => p.2 = q.2 ↔ ∃ name, p.1 = some name ∧ q.1 = some name)
  | [], ns, h => ⟨[], by simp [layout], by simpa using h, rfl, rfl, rfl, rfl, by simp [pairs], by simp [pairs], .nil⟩
  | .text s :: as, ns, h => by
    obtain ⟨new, h1⟩ := layout_facts as ns h
    exact ⟨new, by simpa [layout, marksIn, definesIn, numbersIn, namesIn, pairs] using h1⟩
  | .note id body :: as, ns, h => by
    have same : ∀ {final : Notes}, GoodNotes final → ∀ {p q : Option Text × Nat}, (1 ≤ p.2 ∧ ∃ x, final[p.2 - 1]? = some x ∧ x.1 = p.1) →
        (1 ≤ q.2 ∧ ∃ x, final[q.2 - 1]? = some x ∧ x.1 = q.1) → (∃ name, p.1 = some name ∧ q.1 = some name) → p.2 = q.2 := by
      intro final hg p q hp hq ⟨name, e1, e2⟩
      obtain ⟨hp1, x, hx, ex⟩ := hp
      obtain ⟨hq1, y, hy, ey⟩ := hq
      have := hg.2 _ _ x y name hx hy (ex.trans e1) (ey.trans e2)
      omega
    have equal : ∀ {final : Notes} {p q : Option Text × Nat}, (1 ≤ p.2 ∧ ∃ x, final[p.2 - 1]? = some x ∧ x.1 = p.1) →
        (1 ≤ q.2 ∧ ∃ x, final[q.2 - 1]? = some x ∧ x.1 = q.1) → p.2 = q.2 → p.1 = q.1 := by
      intro final p q hp hq e
      obtain ⟨-, x, hx, ex⟩ := hp
      obtain ⟨-, y, hy, ey⟩ := hq
      rw [e, hy] at hx
      injection hx with hx; subst hx
      rw [← ex, ← ey]
    cases hn : numberOf id ns with
    | some k =>
      obtain ⟨new, h1, h2, h3, h4, h5, h6, h7, h8, h9⟩ := layout_facts as ns h
      have hp : pairs ns (.note id body :: as) = (id, k) :: pairs ns as := by simp [pairs, hn]
      obtain ⟨name, x, e1, e2, e3, e4⟩ := numberOf_some hn
      have hk : 1 ≤ (id, k).2 ∧ ∃ x, (ns ++ new)[(id, k).2 - 1]? = some x ∧ x.1 = (id, k).1 := by
        refine ⟨e2, x, ?_, e4⟩
        rw [List.getElem?_append_left (List.getElem?_eq_some_iff.1 e3).1]; exact e3
      refine ⟨new, by simpa [layout, hn] using h1, h2, by simpa [layout, hn, marksIn] using h3, by simpa [layout, hn, definesIn] using h4,
        by simp [layout, hn, numbersIn, hp, h5], by simp [namesIn, hp, h6], ?_, ?_, ?_⟩
      · rw [hp]; intro p hp'
        rcases List.mem_cons.1 hp' with rfl | hp'
        · exact hk
        · exact h7 p hp'
      · rw [hp]; intro p hp' hnone
        rcases List.mem_cons.1 hp' with rfl | hp'
        · rw [e1] at hnone; cases hnone
        · exact h8 p hp' hnone
      · rw [hp]
        refine List.Pairwise.cons ?_ h9
        intro q hq
        refine ⟨fun e => ?_, same h2 hk (h7 q hq)⟩
        have := equal hk (h7 q hq) e
        exact ⟨name, e1, by rw [← this]; exact e1⟩
    | none =>
      obtain ⟨new, h1, h2, h3, h4, h5, h6, h7, h8, h9⟩ := layout_facts as _ (good_snoc (body := body) h hn)
      have hp : pairs ns (.note id body :: as) = (id, ns.length + 1) :: pairs (ns ++ [(id, body.map .text)]) as := by simp [pairs, hn]
      rw [List.append_assoc] at h1 h2
      have hk : 1 ≤ (id, ns.length + 1).2 ∧ ∃ x, (ns ++ ((id, body.map Shown.text) :: new))[(id, ns.length + 1).2 - 1]? = some x ∧ x.1 = (id, ns.length + 1).1 :=
        ⟨by simp, (id, body.map .text), by simp, rfl⟩
      have h7' : ∀ p ∈ pairs (ns ++ [(id, body.map .text)]) as, 1 ≤ p.2 ∧ ∃ x, (ns ++ ((id, body.map Shown.text) :: new))[p.2 - 1]? = some x ∧ x.1 = p.1 := by
        intro p hp; have := h7 p hp; rwa [List.append_assoc] at this
      refine ⟨(id, body.map .text) :: new, by simpa [layout, hn] using h1, h2, ?_, by simpa [layout, hn, definesIn] using h4,
        by simp [layout, hn, numbersIn, hp, h5], by simp [namesIn, hp, h6], ?_, ?_, ?_⟩
      · simp only [layout, hn, marksIn, h3, List.length_append, List.length_cons, List.length_nil, List.range'_succ]
      · rw [hp]; intro p hp'
        rcases List.mem_cons.1 hp' with rfl | hp'
        · exact hk
        · exact h7' p hp'
      · rw [hp]; intro p hp' hnone
        rcases List.mem_cons.1 hp' with rfl | hp'
        · simp
        · have := h8 p hp' hnone; simp at this; omega
      · rw [hp]
        refine List.Pairwise.cons ?_ h9
        intro q hq
        refine ⟨fun e => ?_, same h2 hk (h7' q hq)⟩
        have e' := equal hk (h7' q hq) e
        cases hid : id with
        | some name => exact ⟨name, rfl, by rw [← e']; exact hid⟩
        | none =>
          have hqn : q.1 = none := by rw [← e']; exact hid
          have := h8 q hq hqn
          simp at this e; omega

theorem noteList_facts : ∀ (ns : Notes) (i : Nat), (∀ x ∈ ns, plainShown x.2) →
    marksIn (noteList i ns) = [] ∧ numbersIn (noteList i ns) = [] ∧ definesIn (noteList i ns) = List.range' i ns.length
  | [], _, _ => ⟨rfl, rfl, rfl⟩
  | (id, b) :: ns, i, h => by
    obtain ⟨h1, h2, h3⟩ := noteList_facts ns (i + 1) (fun x hx => h x (by simp [hx]))
    obtain ⟨b1, b2, b3⟩ := h (id, b) (by simp)
    simp only at b1 b2 b3
    simp [noteList, marksIn, numbersIn, definesIn, marksIn_append, numbersIn_append, definesIn_append, h1, h2, h3, b1, b2, b3, List.range'_succ]

end Verif.Html.Notes
