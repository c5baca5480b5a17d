import Verif.Lemmas.Sections
/-! The tree built by the block-level parser: contents, levels and where it
stops. -/
namespace Verif.Sections
open Verif.Spec.Sections

theorem itemsAll_append (a b : List Node) : itemsAll (a ++ b) = itemsAll a ++ itemsAll b := by
  induction a with
  | nil => rfl
  | cons x a ih => simp [itemsAll, ih]

theorem deeperAll_append (l : Nat) (a b : List Node) : deeperAll l (a ++ b) ↔ deeperAll l a ∧ deeperAll l b := by
  induction a with
  | nil => simp [deeperAll]
  | cons x a ih => simp [deeperAll, ih, and_assoc]

theorem stepwiseAll_append (l : Nat) (a b : List Node) : stepwiseAll l (a ++ b) ↔ stepwiseAll l a ∧ stepwiseAll l b := by
  induction a with
  | nil => simp [stepwiseAll]
  | cons x a ih => simp [stepwiseAll, ih, and_assoc]

/-- no delimiter line among the items -/
def NoDelim (l : List Item) : Prop := ∀ k, Item.delim k ∉ l

/-- where nothing can be dropped -/
def Safe (env : Env) (l : List Item) : Prop := env.strict = true ∨ NoDelim l

theorem Safe.of_append {env : Env} {a b : List Item} (h : Safe env (a ++ b)) : Safe env b := by
  rcases h with h | h
  · exact .inl h
  · exact .inr fun k hk => h k (by simp [hk])

theorem block_items (env : Env) (n : Nat) : ∀ (st st' : St) (r : Option Node), parseBlock env n st = .ok (r, st') →
    Safe env (todo st) → itemsAll r.toList ++ todo st' = todo st := by
  induction n with
  | zero => intro st st' r h; cases h
  | succ n ih =>
    intro st st' r h hsafe
    have inner : ∀ {s s' : St} {bs : List Node}, loop (parseBlock env n) n s = .ok (bs, s') → Safe env (todo s) →
        itemsAll bs ++ todo s' = todo s := by
      intro s s' bs h
      refine loop_ind (fun s bs s' => Safe env (todo s) → itemsAll bs ++ todo s' = todo s) ?_ ?_ h
      · exact fun s s' h hs => ih _ _ _ h hs
      · intro s a s1 as s' h1 h2 hs
        have := ih _ _ _ h1 hs
        rw [← this] at hs ⊢
        rw [← h2 hs.of_append]
        simp [itemsAll]
    rcases parseBlock_ok h with ⟨h1, h2, h3⟩ | ⟨i, more, s1, hr, hcase⟩
    · subst h2; subst h3; rfl
    · obtain ⟨r1, r2, r3, r4, r5, r6⟩ := read_some hr
      rcases hcase with ⟨h1, h2, _⟩ | ⟨h1, h2, _⟩ | ⟨k, b, h1, h2, h3, h4⟩ | ⟨l, t, sp, b, h1, h2, h3, h4, h5⟩
      · subst h1; subst h2
        rw [todo_restore more r2, r1]
        simp [itemsAll, items]
      · subst h1; subst h2
        rw [todo_restore (i :: more) r2, r1]
        simp [itemsAll]
      · subst h1
        rcases hsafe with hstrict | hnd
        · obtain ⟨blocks, s2, hin, hc⟩ := delimited_ok h4
          have hi := inner hin (.inl hstrict)
          rw [show todo { restore s1 more with delim := some k } = todo (restore s1 more) from rfl, todo_restore more r2] at hi
          rcases hc with ⟨more', s3, hr2, h5, h6⟩ | ⟨h5, _⟩
          · obtain ⟨q1, q2, q3, q4, q5, q6⟩ := read_some hr2
            subst h6; subst h5; subst h3
            have hx : todo { restore s3 more' with delim := (restore s1 more).delim } = more' ++ todo s3 := todo_restore more' q2
            rw [hx, r1, List.cons_append, ← hi, q1]
            simp [itemsAll, items]
          · rw [hstrict] at h5; cases h5
        · exfalso
          rw [r1] at hnd
          exact hnd k (by simp)
      · obtain ⟨errs, toc, blocks, s2, errs', hb, hin, h7, _⟩ := peekedSection_ok h5
        have hs1 : Safe env (todo (restore { s1 with level := l, errs := errs, toc := toc } more)) := by
          rw [todo_restore _ (by exact r2)]
          rw [r1] at hsafe
          exact Safe.of_append (a := [i]) hsafe
        have hi := inner hin hs1
        rw [todo_restore _ (by exact r2)] at hi
        subst h7; subst hb; subst h4
        rw [r1, List.cons_append]
        rw [show todo s1 = todo { s1 with level := l, errs := errs, toc := toc } from rfl, ← hi]
        rw [show todo { s2 with level := s1.level, errs := errs' } = todo s2 from rfl]
        simp [itemsAll, items]

theorem blocks_items {env : Env} {n m : Nat} {s s' : St} {bs : List Node}
    (h : loop (parseBlock env n) m s = .ok (bs, s')) (hs : Safe env (todo s)) : itemsAll bs ++ todo s' = todo s := by
  refine loop_ind (fun s bs s' => Safe env (todo s) → itemsAll bs ++ todo s' = todo s) ?_ ?_ h hs
  · exact fun s s' h hs => block_items _ _ _ _ _ h hs
  · intro s a s1 as s' h1 h2 hs
    have := block_items _ _ _ _ _ h1 hs
    rw [← this] at hs ⊢
    rw [← h2 hs.of_append]
    simp [itemsAll]

/-! ### levels -/

theorem block_deeper (env : Env) (n : Nat) : ∀ (st st' : St) (r : Option Node), parseBlock env n st = .ok (r, st') →
    deeperAll (max 1 st.level) r.toList := by
  induction n with
  | zero => intro st st' r h; cases h
  | succ n ih =>
    intro st st' r h
    have inner : ∀ {s s' : St} {bs : List Node}, loop (parseBlock env n) n s = .ok (bs, s') → deeperAll (max 1 s.level) bs := by
      intro s s' bs h
      refine loop_ind (fun s bs _ => deeperAll (max 1 s.level) bs) ?_ ?_ h
      · exact fun s s' h => trivial
      · intro s a s1 as s' h1 h2
        rw [(block_le _ _ _ _ _ h1).1.level] at h2
        exact ⟨(ih _ _ _ h1).1, h2⟩
    rcases parseBlock_ok h with ⟨h1, h2, h3⟩ | ⟨i, more, s1, hr, hcase⟩
    · subst h2; trivial
    · obtain ⟨r1, r2, r3, r4, r5, r6⟩ := read_some hr
      rcases hcase with ⟨h1, h2, _⟩ | ⟨h1, h2, _⟩ | ⟨k, b, h1, h2, h3, h4⟩ | ⟨l, t, sp, b, h1, h2, h3, h4, h5⟩
      · subst h1; exact ⟨trivial, trivial⟩
      · subst h1; trivial
      · subst h3
        obtain ⟨blocks, s2, hin, hc⟩ := delimited_ok h4
        have hi := inner hin
        rw [show (max 1 ({ restore s1 more with delim := some k } : St).level) = max 1 st.level by rw [← r3]; rfl] at hi
        rcases hc with ⟨_, _, _, h5, _⟩ | ⟨_, h5, _⟩ <;> (subst h5; exact ⟨hi, trivial⟩)
      · obtain ⟨errs, toc, blocks, s2, errs', hb, hin, h7, _⟩ := peekedSection_ok h5
        have hi := inner hin
        subst hb; subst h4
        refine ⟨⟨by simp only; omega, ?_⟩, trivial⟩
        have : max 1 (restore { s1 with level := l, errs := errs, toc := toc } more).level = l := by
          show max 1 l = l
          omega
        rw [this] at hi
        exact hi

theorem blocks_deeper {env : Env} {n m : Nat} {s s' : St} {bs : List Node}
    (h : loop (parseBlock env n) m s = .ok (bs, s')) : deeperAll (max 1 s.level) bs := by
  refine loop_ind (fun s bs _ => deeperAll (max 1 s.level) bs) ?_ ?_ h
  · exact fun s s' h => trivial
  · intro s a s1 as s' h1 h2
    rw [(block_le _ _ _ _ _ h1).1.level] at h2
    exact ⟨(block_deeper _ _ _ _ _ h1).1, h2⟩

theorem block_stepwise (env : Env) (hst : env.strict = true) (n : Nat) : ∀ (st st' : St) (r : Option Node),
    parseBlock env n st = .ok (r, st') → stepwiseAll st.level r.toList := by
  induction n with
  | zero => intro st st' r h; cases h
  | succ n ih =>
    intro st st' r h
    have inner : ∀ {s s' : St} {bs : List Node}, loop (parseBlock env n) n s = .ok (bs, s') → stepwiseAll s.level bs := by
      intro s s' bs h
      refine loop_ind (fun s bs _ => stepwiseAll s.level bs) ?_ ?_ h
      · exact fun s s' h => trivial
      · intro s a s1 as s' h1 h2
        rw [(block_le _ _ _ _ _ h1).1.level] at h2
        exact ⟨(ih _ _ _ h1).1, h2⟩
    rcases parseBlock_ok h with ⟨h1, h2, h3⟩ | ⟨i, more, s1, hr, hcase⟩
    · subst h2; trivial
    · obtain ⟨r1, r2, r3, r4, r5, r6⟩ := read_some hr
      rcases hcase with ⟨h1, h2, _⟩ | ⟨h1, h2, _⟩ | ⟨k, b, h1, h2, h3, h4⟩ | ⟨l, t, sp, b, h1, h2, h3, h4, h5⟩
      · subst h1; exact ⟨trivial, trivial⟩
      · subst h1; trivial
      · subst h3
        obtain ⟨blocks, s2, hin, hc⟩ := delimited_ok h4
        have hi := inner hin
        rw [show (({ restore s1 more with delim := some k } : St).level) = st.level from r3] at hi
        rcases hc with ⟨_, _, _, h5, _⟩ | ⟨_, h5, _⟩ <;> (subst h5; exact ⟨hi, trivial⟩)
      · obtain ⟨errs, toc, blocks, s2, errs', hb, hin, h7, h8, _⟩ := peekedSection_ok h5
        have hi := inner hin
        have h8 := h8 hst
        subst hb; subst h4
        exact ⟨⟨by simp only at h8 ⊢; omega, hi⟩, trivial⟩

theorem blocks_stepwise {env : Env} (hst : env.strict = true) {n m : Nat} {s s' : St} {bs : List Node}
    (h : loop (parseBlock env n) m s = .ok (bs, s')) : stepwiseAll s.level bs := by
  refine loop_ind (fun s bs _ => stepwiseAll s.level bs) ?_ ?_ h
  · exact fun s s' h => trivial
  · intro s a s1 as s' h1 h2
    rw [(block_le _ _ _ _ _ h1).1.level] at h2
    exact ⟨(block_stepwise _ hst _ _ _ _ h1).1, h2⟩

/-! ### where parsing stops -/

/-- At the end of the source, or in front of a heading or delimiter that ends
the blocks of this context. -/
def Stopped (st : St) : Prop :=
  (todo st = [] ∧ isEof st = true) ∨ ∃ i more, st.peeked = i :: more ∧ StopAt st.level st.delim i

theorem block_stop {env : Env} {n : Nat} {st st' : St} (h : parseBlock env n st = .ok (none, st')) : Stopped st' := by
  cases n with
  | zero => cases h
  | succ n =>
    rcases parseBlock_ok h with ⟨h1, h2, h3⟩ | ⟨i, more, s1, hr, hcase⟩
    · subst h3
      obtain ⟨h3, h4⟩ := read_none h1
      exact .inl ⟨(read_none_todo h1 : todo st = []), by simp [isEof, atEnd, h4]⟩
    · obtain ⟨r1, r2, r3, r4, r5, r6⟩ := read_some hr
      rcases hcase with ⟨h1, _⟩ | ⟨h1, h2, h3⟩ | ⟨k, b, h1, h2, h3, h4⟩ | ⟨l, t, sp, b, h1, h2, h3, h4, h5⟩
      · cases h1
      · subst h2
        refine .inr ⟨i, more, rfl, ?_⟩
        show StopAt s1.level s1.delim i
        rw [r3, r4]; exact h3
      · cases h3
      · cases h4

theorem blocks_stop {env : Env} {n m : Nat} {s s' : St} {bs : List Node}
    (h : loop (parseBlock env n) m s = .ok (bs, s')) : Stopped s' := by
  obtain ⟨s0, h0⟩ := loop_last h
  exact block_stop h0

/-! ### sections, parts and whole documents -/

theorem peek_none {st st' : St} (h : peekSection st = (none, st')) :
    todo st' = todo st ∧ st'.level = st.level ∧ st'.delim = st.delim ∧ st'.toc = st.toc ∧
    ((todo st' = [] ∧ isEof st' = true) ∨ ∃ i more, st'.peeked = i :: more ∧ ∀ l t sp d, i ≠ .heading l t sp d) := by
  unfold peekSection at h
  split at h
  · rename_i hr
    injection h with _ h; subst h
    obtain ⟨h3, h4⟩ := read_none hr
    exact ⟨rfl, rfl, rfl, rfl, .inl ⟨(read_none_todo hr : todo st = []), by simp [isEof, atEnd, h4]⟩⟩
  · cases h
  · rename_i i more s1 hi hr
    obtain ⟨r1, r2, r3, r4, r5, r6⟩ := read_some hr
    injection h with _ h; subst h
    refine ⟨by rw [todo_restore _ r2, r1], r3, r4, r5, .inr ⟨i, more, rfl, ?_⟩⟩
    intro l t sp d hc
    subst hc
    exact hi l t sp d rfl

theorem peek_some {st st' : St} {p : Peeked} (h : peekSection st = (some p, st')) :
    ∃ l t sp d more, p = ⟨l, l, t, sp, .heading l t sp d, more⟩ ∧ read st = some (.heading l t sp d, more, st') := by
  unfold peekSection at h
  split at h
  · cases h
  · rename_i l t sp d more s1 hr
    injection h with h1 h2; subst h2
    injection h1 with h1
    exact ⟨l, t, sp, d, more, h1.symm, hr⟩
  · cases h

/-- What parsing one section after its heading gives. -/
structure SecPost (env : Env) (p : Peeked) (st : St) (b : Node) (st' : St) : Prop where
  level : st'.level = st.level
  delim : st'.delim = st.delim
  len : (todo st').length ≤ p.more.length + (todo st).length
  items : Safe env (p.item :: p.more ++ todo st) → itemsAll [b] ++ todo st' = p.item :: p.more ++ todo st
  tree : ∃ blocks, b = .sect p.item p.semantic blocks ∧ deeperAll (max 1 p.semantic) blocks ∧
    (env.strict = true → p.semantic ≤ st.level + 1 ∧ stepwiseAll p.semantic blocks)
  stop : (todo st' = [] ∧ isEof st' = true) ∨ ∃ i more, st'.peeked = i :: more ∧ StopAt p.semantic st.delim i

theorem section_post {env : Env} {n m : Nat} {p : Peeked} {st st' : St} {b : Node} (hp : st.peeked = [])
    (h : peekedSection env (loop (parseBlock env n) m) p st = .ok (b, st')) : SecPost env p st b st' := by
  obtain ⟨errs, toc, blocks, s2, errs', hb, hin, h7, h8, h9, _⟩ := peekedSection_ok h
  have hle := blocks_le hin
  subst h7
  have e : todo { s2 with level := st.level, errs := errs' } = todo s2 := rfl
  have e2 : todo (restore { st with level := p.semantic, errs := errs, toc := toc } p.more) = p.more ++ todo st := by
    rw [todo_restore _ (by exact hp)]; rfl
  have hl := hle.len
  rw [e2] at hl
  refine ⟨rfl, hle.delim, by rw [e]; simpa using hl, ?_, ⟨blocks, hb, blocks_deeper hin, ?_⟩, ?_⟩
  · intro hs
    have := blocks_items hin (by rw [e2]; exact Safe.of_append (a := [p.item]) hs)
    rw [e2] at this
    rw [e, hb, List.cons_append, ← this]
    simp [itemsAll, Spec.Sections.items]
  · exact fun hst => ⟨h8 hst, blocks_stepwise hst hin⟩
  · rcases blocks_stop hin with ⟨h1, h2⟩ | ⟨i, more, h1, h2⟩
    · exact .inl ⟨h1, h2⟩
    · refine .inr ⟨i, more, h1, ?_⟩
      rw [hle.level, hle.delim] at h2
      exact h2

theorem parseSection_ok {env : Env} {n m : Nat} {st st' : St} {r : Option Node}
    (h : parseSection env (loop (parseBlock env n) m) st = .ok (r, st')) :
    (r = none ∧ todo st' = todo st ∧ st'.level = st.level ∧ st'.delim = st.delim ∧ st'.toc = st.toc ∧
      ((todo st' = [] ∧ isEof st' = true) ∨ ∃ i more, st'.peeked = i :: more ∧
        ((∀ l t sp d, i ≠ .heading l t sp d) ∨ (env.book = true ∧ ∃ t sp d, i = .heading 0 t sp d)))) ∨
    ∃ l t sp d more s1 errs b, read st = some (.heading l t sp d, more, s1) ∧ r = some b ∧
      (env.strict = true → l ≠ 0) ∧ (env.book = true → l ≠ 0) ∧
      peekedSection env (loop (parseBlock env n) m) ⟨l, l, t, sp, .heading l t sp d, more⟩ { s1 with errs := errs } = .ok (b, st') := by
  unfold parseSection at h
  split at h
  · rename_i s1 hpk
    injection h with h; injection h with h1 h2
    subst h1; subst h2
    obtain ⟨h1, h2, h3, h4, h5⟩ := peek_none hpk
    refine .inl ⟨rfl, h1, h2, h3, h4, ?_⟩
    rcases h5 with h5 | ⟨i, more, h5, h6⟩
    · exact .inl h5
    · exact .inr ⟨i, more, h5, .inl h6⟩
  · rename_i p s1 hpk
    obtain ⟨l, t, sp, d, more, hp, hr⟩ := peek_some hpk
    obtain ⟨r1, r2, r3, r4, r5, r6⟩ := read_some hr
    subst hp
    simp only at h
    by_cases h0 : l = 0 ∧ env.book = true
    · rw [if_pos h0] at h
      injection h with h; injection h with h1 h2
      subst h1; subst h2
      obtain ⟨h01, h02⟩ := h0
      subst h01
      exact .inl ⟨rfl, by rw [todo_restore _ r2, r1], r3, r4, r5, .inr ⟨_, more, rfl, .inr ⟨h02, t, sp, d, rfl⟩⟩⟩
    · rw [if_neg h0] at h
      right
      split at h
      · cases h
      · rename_i s2 hs2
        have : ∃ errs, s2 = { s1 with errs := errs } ∧ (env.strict = true → l ≠ 0) := by
          split at hs2
          · obtain ⟨hx, hy⟩ := report_ok hs2
            exact ⟨_, hy, by rw [hx]; simp⟩
          · rename_i hl
            injection hs2 with hs2
            exact ⟨s1.errs, hs2.symm, fun _ => hl⟩
        obtain ⟨errs, he, hstrict⟩ := this
        subst he
        split at h
        · cases h
        · rename_i b s3 hb
          injection h with h; injection h with h1 h2
          subst h1; subst h2
          exact ⟨l, t, sp, d, more, s1, errs, b, hr, rfl, hstrict, fun hb hl => h0 ⟨hl, hb⟩, hb⟩

/-- `SecPost` in terms of the state before the heading was read. -/
structure Step (env : Env) (st : St) (b : Node) (st' : St) : Prop where
  level : st'.level = st.level
  delim : st'.delim = st.delim
  len : (todo st').length < (todo st).length
  items : Safe env (todo st) → itemsAll [b] ++ todo st' = todo st

theorem SecPost.step {env : Env} {p : Peeked} {st s1 st' : St} {b : Node} (h : SecPost env p s1 b st')
    (ht : todo st = p.item :: p.more ++ todo s1) (hl : s1.level = st.level) (hd : s1.delim = st.delim) : Step env st b st' :=
  ⟨h.level.trans hl, h.delim.trans hd, by have := h.len; rw [ht]; simp; omega, fun hs => by
    rw [ht] at hs ⊢; exact h.items hs⟩

theorem parseSection_step {env : Env} {n m : Nat} {st st' : St} {b : Node}
    (h : parseSection env (loop (parseBlock env n) m) st = .ok (some b, st')) : Step env st b st' := by
  rcases parseSection_ok h with ⟨h1, _⟩ | ⟨l, t, sp, d, more, s1, errs, b', hr, hb, _, _, hs⟩
  · cases h1
  · injection hb with hb; subst hb
    obtain ⟨r1, r2, r3, r4, r5, r6⟩ := read_some hr
    exact (section_post (by exact r2) hs).step r1 r3 r4

theorem sections_items {env : Env} {n m k : Nat} {s s' : St} {bs : List Node}
    (h : loop (parseSection env (loop (parseBlock env n) m)) k s = .ok (bs, s')) :
    s'.level = s.level ∧ s'.delim = s.delim ∧ (todo s').length ≤ (todo s).length ∧
    (Safe env (todo s) → itemsAll bs ++ todo s' = todo s) := by
  refine loop_ind (fun s bs s' => s'.level = s.level ∧ s'.delim = s.delim ∧ (todo s').length ≤ (todo s).length ∧
    (Safe env (todo s) → itemsAll bs ++ todo s' = todo s)) ?_ ?_ h
  · intro s s' h
    rcases parseSection_ok h with ⟨_, h1, h2, h3, _⟩ | ⟨_, _, _, _, _, _, _, _, _, h1, _⟩
    · exact ⟨h2, h3, by rw [h1]; exact Nat.le_refl _, fun _ => h1⟩
    · cases h1
  · intro s a s1 as s' h1 ⟨h2, h3, h4, h5⟩
    have hs := parseSection_step h1
    refine ⟨h2.trans hs.level, h3.trans hs.delim, by have := hs.len; omega, fun hsafe => ?_⟩
    have := hs.items hsafe
    rw [← this] at hsafe ⊢
    rw [← h5 hsafe.of_append]
    simp [itemsAll]

/-- What `parse_sectioned` gives. -/
structure SectionedPost (env : Env) (st : St) (pre secs : List Node) (st' : St) : Prop where
  level : st'.level = st.level
  delim : st'.delim = st.delim
  len : (todo st').length ≤ (todo st).length
  items : Safe env (todo st) → itemsAll pre ++ itemsAll secs ++ todo st' = todo st
  stop : st.delim = none → st.level = 0 → (todo st' = [] ∧ isEof st' = true) ∨
    (env.book = true ∧ ∃ t sp d more, st'.peeked = .heading 0 t sp d :: more)

theorem sectioned_ok {env : Env} {n : Nat} {st st' : St} {pre secs : List Node}
    (h : parseSectioned env n st = .ok ((pre, secs), st')) :
    ∃ s1, loop (parseBlock env n) n st = .ok (pre, s1) ∧
      loop (parseSection env (loop (parseBlock env n) n)) n s1 = .ok (secs, st') := by
  unfold parseSectioned at h
  split at h
  · cases h
  · rename_i pre' s1 h1
    split at h
    · cases h
    · rename_i secs' s2 h2
      injection h with h; injection h with h3 h4
      injection h3 with h3 h5
      subst h3; subst h4; subst h5
      exact ⟨s1, h1, h2⟩

/-- With no open delimiter and no open section, a section ends where the next
section starts. -/
theorem sections_stop {env : Env} {n m k : Nat} {s s' : St} {bs : List Node}
    (hs : s.delim = none) (hh : (todo s = [] ∧ isEof s = true) ∨ ∃ i more, s.peeked = i :: more ∧ StopAt s.level s.delim i)
    (h : loop (parseSection env (loop (parseBlock env n) m)) k s = .ok (bs, s')) :
    (todo s' = [] ∧ isEof s' = true) ∨ (env.book = true ∧ ∃ t sp d more, s'.peeked = .heading 0 t sp d :: more) := by
  suffices H : ∀ s, s.delim = none → ((todo s = [] ∧ isEof s = true) ∨ ∃ l t sp d more, s.peeked = .heading l t sp d :: more) →
      loop (parseSection env (loop (parseBlock env n) m)) k s = .ok (bs, s') →
      (todo s' = [] ∧ isEof s' = true) ∨ (env.book = true ∧ ∃ t sp d more, s'.peeked = .heading 0 t sp d :: more) by
    refine H s hs ?_ h
    rcases hh with hh | ⟨i, more, h1, h2⟩
    · exact .inl hh
    · right
      cases i with
      | heading l t sp d => exact ⟨l, t, sp, d, more, h1⟩
      | delim k => rw [hs] at h2; cases h2
      | para m => cases h2
  intro s hs hh h
  refine loop_ind (fun s _ s' => s.delim = none →
    ((todo s = [] ∧ isEof s = true) ∨ ∃ l t sp d more, s.peeked = .heading l t sp d :: more) →
      (todo s' = [] ∧ isEof s' = true) ∨ (env.book = true ∧ ∃ t sp d more, s'.peeked = .heading 0 t sp d :: more)) ?_ ?_ h hs hh
  · intro s s' h _ hh
    rcases parseSection_ok h with ⟨_, h1, h2, h3, _, h4⟩ | ⟨_, _, _, _, _, _, _, _, _, h1, _⟩
    · rcases h4 with h4 | ⟨i, more, h4, h5 | ⟨h5, t, sp, d, h6⟩⟩
      · exact .inl h4
      · exfalso
        rcases hh with ⟨h6, _⟩ | ⟨l, t, sp, d, more', h6⟩
        · rw [h6] at h1; simp [todo, h4] at h1
        · have : todo s = .heading l t sp d :: (more' ++ sourceItems s.rest) := by simp [todo, h6]
          rw [this] at h1
          simp only [todo, h4, List.cons_append] at h1
          injection h1 with h1
          exact h5 _ _ _ _ h1
      · exact .inr ⟨h5, t, sp, d, more, by rw [h4, h6]⟩
    · cases h1
  · intro s a s1 as s' h1 h2 hs _
    have hst := parseSection_step h1
    refine h2 (hst.delim.trans hs) ?_
    rcases parseSection_ok h1 with ⟨h3, _⟩ | ⟨l, t, sp, d, more, s2, errs, b', hr, hb, _, _, hsec⟩
    · cases h3
    · obtain ⟨r1, r2, r3, r4, r5, r6⟩ := read_some hr
      rcases (section_post (by exact r2) hsec).stop with h4 | ⟨i, more', h4, h5⟩
      · exact .inl h4
      · right
        cases i with
        | heading l t sp d => exact ⟨l, t, sp, d, more', h4⟩
        | delim k =>
          simp only [StopAt] at h5
          rw [r4, hs] at h5; cases h5
        | para m => cases h5

theorem sectioned_post {env : Env} {n : Nat} {st st' : St} {pre secs : List Node}
    (h : parseSectioned env n st = .ok ((pre, secs), st')) : SectionedPost env st pre secs st' := by
  obtain ⟨s1, h1, h2⟩ := sectioned_ok h
  have hle := blocks_le h1
  obtain ⟨h3, h4, h5, h6⟩ := sections_items h2
  refine ⟨h3.trans hle.level, h4.trans hle.delim, by have := hle.len; omega, ?_, ?_⟩
  · intro hs
    have hi := blocks_items h1 hs
    rw [← hi] at hs ⊢
    rw [List.append_assoc, h6 hs.of_append]
  · intro hd hl
    exact sections_stop (hle.delim.trans hd) (blocks_stop h1) h2

end Verif.Sections
