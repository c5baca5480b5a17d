import Verif.Spec.Discrete
import Verif.Lemmas.Outline
/-! Lemmas: the headings that `parse_block` and `parse_section` make sections of. -/
namespace Verif.Discrete
open Verif Verif.Sections Verif.Spec.Sections Verif.Spec.Discrete Verif.Outline

/-- no heading here is discrete -/
def Plain (is : List Item) : Prop := ∀ i ∈ is, discrete i = false

theorem headsAll_append (a b : List Node) : headsAll (a ++ b) = headsAll a ++ headsAll b := by
  induction a with
  | nil => rfl
  | cons x a ih => simp [headsAll, ih]

theorem openLeavesAll_append (a b : List Node) : openLeavesAll (a ++ b) = openLeavesAll a ++ openLeavesAll b := by
  induction a with
  | nil => rfl
  | cons x a ih => simp [openLeavesAll, ih]

theorem plain_append {a b : List Item} : Plain (a ++ b) ↔ Plain a ∧ Plain b := by
  simp only [Plain, List.mem_append]
  exact ⟨fun h => ⟨fun i hi => h i (.inl hi), fun i hi => h i (.inr hi)⟩, fun h i hi => hi.elim (h.1 i) (h.2 i)⟩

theorem block_plain (env : Env) (n : Nat) : ∀ (st st' : St) (r : Option Node), parseBlock env n st = .ok (r, st') →
    Plain (headsAll r.toList) := by
  induction n with
  | zero => intro st st' r h; cases h
  | succ n ih =>
    intro st st' r h
    have inner : ∀ {s s' : St} {bs : List Node}, loop (parseBlock env n) n s = .ok (bs, s') → Plain (headsAll bs) := by
      intro s s' bs h
      refine loop_ind (fun _ bs _ => Plain (headsAll bs)) ?_ ?_ h
      · intro s s' h i hi; cases hi
      · intro s a s1 as s' h1 h2
        have := ih _ _ _ h1
        simp only [Option.toList, headsAll, List.append_nil] at this
        exact plain_append.2 ⟨this, h2⟩
    rcases parseBlock_ok h with ⟨h1, h2, h3⟩ | ⟨i, more, s1, hr, hcase⟩
    · subst h2; intro i hi; cases hi
    · rcases hcase with ⟨h1, h2, h3⟩ | ⟨h1, h2, _⟩ | ⟨k, b, h1, h2, h3, h4⟩ | ⟨l, t, sp, b, h1, h2, h3, h4, h5⟩
      · subst h1; intro i hi; simp [headsAll, heads] at hi
      · subst h1; intro i hi; cases hi
      · subst h3
        obtain ⟨blocks, s2, hin, hc⟩ := delimited_ok h4
        have hi := inner hin
        rcases hc with ⟨_, _, _, h5, _⟩ | ⟨_, h5, _⟩ <;>
          (subst h5; simpa only [Option.toList, headsAll, heads, List.append_nil] using hi)
      · obtain ⟨errs, toc, blocks, s2, errs', hb, hin, h7, _⟩ := peekedSection_ok h5
        have hi := inner hin
        subst hb; subst h4; subst h1
        simp only [Option.toList, headsAll, heads, List.append_nil]
        intro j hj
        rcases List.mem_cons.1 hj with hj | hj
        · subst hj; rfl
        · exact hi j hj

theorem blocks_plain {env : Env} {n m : Nat} {s s' : St} {bs : List Node}
    (h : loop (parseBlock env n) m s = .ok (bs, s')) : Plain (headsAll bs) := by
  refine loop_ind (fun _ bs _ => Plain (headsAll bs)) ?_ ?_ h
  · intro s s' h i hi; cases hi
  · intro s a s1 as s' h1 h2
    have := block_plain _ _ _ _ _ h1
    simp only [Option.toList, headsAll, List.append_nil] at this
    exact plain_append.2 ⟨this, h2⟩

/-- what comes next is no discrete heading -/
def Next (s : St) : Prop := ∀ i more s1, read s = some (i, more, s1) → discrete i = false

theorem next_congr {a b : St} (h1 : a.peeked = b.peeked) (h2 : a.rest = b.rest) (h : Next a) : Next b := by
  intro i more s1 hr
  unfold Sections.read at hr
  rw [← h1, ← h2] at hr
  cases hp : a.peeked with
  | cons j m =>
    rw [hp] at hr; injection hr with hr; injection hr with e1 e2
    subst e1
    exact h j m { a with peeked := [] } (by rw [Sections.read, hp])
  | nil =>
    rw [hp] at hr
    cases hc : a.rest with
    | nil => rw [hc] at hr; cases hr
    | cons c r =>
      obtain ⟨j, m⟩ := c
      rw [hc] at hr; injection hr with hr; injection hr with e1 e2
      subst e1
      exact h j m { a with rest := r } (by rw [Sections.read, hp, hc])

theorem blocks_next {env : Env} {n m : Nat} {s s' : St} {bs : List Node}
    (h : loop (parseBlock env n) m s = .ok (bs, s')) : Next s' := by
  refine loop_ind (fun _ _ s' => Next s') ?_ ?_ h
  · intro s s' h
    cases n with
    | zero => cases h
    | succ n =>
      rcases parseBlock_ok h with ⟨h1, h2, h3⟩ | ⟨i, more, s1, hr, hcase⟩
      · obtain ⟨e1, e2⟩ := read_none h1
        subst h3
        intro i more s1 hr
        simp [Sections.read, atEnd, e1, e2] at hr
      · rcases hcase with ⟨h1, _⟩ | ⟨h1, h2, h3⟩ | ⟨k, b, h1, h2, h3, h4⟩ | ⟨l, t, sp, b, h1, h2, h3, h4, h5⟩
        · cases h1
        · subst h2
          intro j more' s2 hj
          rw [Sections.read] at hj
          injection hj with hj; injection hj with e1 e2
          subst e1
          cases i with
          | heading l t sp d => exact h3.1
          | para _ => rfl
          | delim _ => rfl
        · cases h3
        · cases h4
  · intro _ _ _ _ _ _ h; exact h

theorem sections_plain {env : Env} {n m k : Nat} {s s' : St} {bs : List Node} (hn : Next s)
    (h : loop (parseSection env (loop (parseBlock env n) m)) k s = .ok (bs, s')) : Plain (headsAll bs) := by
  refine loop_ind (fun s bs _ => Next s → Plain (headsAll bs)) ?_ ?_ h hn
  · intro s s' h _ i hi; cases hi
  · intro s a s1 as s' h1 h2 hs
    rcases parseSection_ok h1 with ⟨h3, _⟩ | ⟨l, t, sp, d, more, s2, errs, b', hr, hb, _, _, hsec⟩
    · cases h3
    · injection hb with hb; subst hb
      obtain ⟨errs, toc, blocks, s3, errs', hb, hin, he, _⟩ := peekedSection_ok hsec
      subst hb; subst he
      refine plain_append.2 ⟨?_, h2 (next_congr (a := s3) rfl rfl (blocks_next hin))⟩
      intro j hj
      rcases List.mem_cons.1 hj with hj | hj
      · subst hj; exact hs _ _ _ hr
      · exact blocks_plain hin j hj

mutual
theorem leaves_filter : ∀ b : Node, Plain (heads b) → (leaves b).filter discrete = (items b).filter discrete
  | .leaf _, _ => rfl
  | .sect i l inner, h => by
    have hi : discrete i = false := h i (by simp [heads])
    simp only [leaves, items, List.filter_cons, hi]
    simpa using leavesAll_filter inner fun j hj => h j (by simp [heads, hj])
  | .compound k c inner, h => by
    have := leavesAll_filter inner h
    cases c <;> simp [leaves, items, discrete, this]
theorem leavesAll_filter : ∀ bs : List Node, Plain (headsAll bs) → (leavesAll bs).filter discrete = (itemsAll bs).filter discrete
  | [], _ => rfl
  | b :: bs, h => by
    obtain ⟨h1, h2⟩ := plain_append.1 h
    simp [leavesAll, itemsAll, leaves_filter b h1, leavesAll_filter bs h2]
end

mutual
theorem open_tidy : ∀ b : Node, Tidy b → ∀ i ∈ openLeaves b, ordinary i = false
  | .leaf j, h, i, hi => by
    simp only [openLeaves, List.mem_singleton] at hi
    subst hi
    cases i with
    | heading l t sp d =>
      cases d with
      | false => exact absurd rfl (h l t sp)
      | true => rfl
    | para _ => rfl
    | delim _ => rfl
  | .sect j l inner, h, i, hi => openAll_tidy inner h.2 i hi
  | .compound _ _ _, _, i, hi => by cases hi
theorem openAll_tidy : ∀ bs : List Node, TidyAll bs → ∀ i ∈ openLeavesAll bs, ordinary i = false
  | [], _, i, hi => by cases hi
  | b :: bs, h, i, hi => by
    simp only [openLeavesAll, List.mem_append] at hi
    exact hi.elim (open_tidy b h.1 i) (openAll_tidy bs h.2 i)
end

end Verif.Discrete
