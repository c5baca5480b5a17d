import Verif.Model.Sections
import Verif.Spec.Sections
/-! Facts about the block-level parser. -/
namespace Verif.Sections
open Verif.Spec.Sections

/-- What is left to parse. -/
def todo (st : St) : List Item := st.peeked ++ sourceItems st.rest

theorem read_none {st : St} (h : read st = none) : st.peeked = [] ∧ st.rest = [] := by
  unfold read at h
  cases hp : st.peeked with
  | cons i m => rw [hp] at h; cases h
  | nil =>
    rw [hp] at h
    cases hr : st.rest with
    | nil => exact ⟨rfl, rfl⟩
    | cons c r => rw [hr] at h; cases h

theorem read_none_todo {st : St} (h : read st = none) : todo st = [] := by
  obtain ⟨h1, h2⟩ := read_none h
  simp [todo, h1, h2, sourceItems]

theorem read_some {st st1 : St} {i : Item} {more : List Item} (h : read st = some (i, more, st1)) :
    todo st = i :: more ++ todo st1 ∧ st1.peeked = [] ∧ st1.level = st.level ∧ st1.delim = st.delim ∧
    st1.toc = st.toc ∧ st1.errs = st.errs := by
  unfold read at h
  cases hp : st.peeked with
  | cons j m =>
    rw [hp] at h; injection h with h; injection h with h1 h; injection h with h2 h3
    subst h1; subst h2; subst h3
    simp [todo, hp]
  | nil =>
    rw [hp] at h
    cases hr : st.rest with
    | nil => rw [hr] at h; cases h
    | cons c r =>
      obtain ⟨j, m⟩ := c
      rw [hr] at h; injection h with h; injection h with h1 h; injection h with h2 h3
      subst h1; subst h2; subst h3
      simp [todo, hp, hr, sourceItems]

theorem todo_restore {st : St} (items : List Item) (h : st.peeked = []) : todo (restore st items) = items ++ todo st := by
  simp [todo, restore, h]

theorem report_ok {env : Env} {st st' : St} {e : Err} (h : report env st e = .ok st') :
    env.strict = false ∧ st' = { st with errs := st.errs ++ [e] } := by
  unfold report at h
  split at h
  · cases h
  · injection h with h; exact ⟨by simp_all, h.symm⟩

theorem reportAll_ok {env : Env} {st st' : St} {es : List Err} (h : reportAll env st es = .ok st') :
    (env.strict = true → es = []) ∧ st' = { st with errs := st.errs ++ es } := by
  induction es generalizing st with
  | nil => injection h with h; subst h; simp
  | cons e es ih =>
    unfold reportAll at h
    split at h
    · cases h
    · rename_i s hs
      obtain ⟨h1, h2⟩ := report_ok hs
      obtain ⟨h3, h4⟩ := ih h
      subst h2; subst h4
      simp [h1]

theorem pushTocSt_ok {env : Env} {st st' : St} {a s t : Nat} (h : pushTocSt env st a s t = .ok st') :
    (st.toc = none ∧ st' = st) ∨
    ∃ nodes nodes', st.toc = some nodes ∧ pushToc env.toclevels nodes a s t = some nodes' ∧ st' = { st with toc := some nodes' } := by
  unfold pushTocSt at h
  cases ht : st.toc with
  | none => rw [ht] at h; injection h with h; exact .inl ⟨rfl, h.symm⟩
  | some nodes =>
    rw [ht] at h
    simp only at h
    cases hp : pushToc env.toclevels nodes a s t with
    | none => rw [hp] at h; cases h
    | some ns => rw [hp] at h; injection h with h; exact .inr ⟨nodes, ns, rfl, hp, h.symm⟩

theorem peekedSection_ok {env : Env} {inner : St → Res (List Node × St)} {p : Peeked} {st st' : St} {b : Node}
    (h : peekedSection env inner p st = .ok (b, st')) :
    ∃ errs toc blocks s2 errs', b = .sect p.item p.semantic blocks ∧
      inner (restore { st with level := p.semantic, errs := errs, toc := toc } p.more) = .ok (blocks, s2) ∧
      st' = { s2 with level := st.level, errs := errs' } ∧
      (env.strict = true → p.semantic ≤ st.level + 1) ∧
      (p.semantic ≤ st.level + 1 →
        pushTocSt env { st with level := p.semantic } p.authored p.semantic p.title
          = .ok { st with level := p.semantic, errs := errs, toc := toc }) ∧
      (st.level + 1 < p.semantic → toc = st.toc) ∧
      (env.strict = true → errs' = s2.errs) ∧ (env.strict = true → errs = st.errs) := by
  unfold peekedSection at h
  simp only at h
  by_cases hoos : p.semantic > st.level ∧ p.semantic - st.level > 1
  · rw [if_pos hoos] at h
    split at h
    · cases h
    · rename_i s1 hs1
      obtain ⟨hstrict, hs1⟩ := report_ok hs1
      subst hs1
      rw [if_pos hoos] at h
      simp only at h
      split at h
      · cases h
      · rename_i blocks s2 hin
        split at h
        · cases h
        · rename_i s3 hs3
          injection h with h; injection h with h1 h2
          have : ∃ e, s3 = { s2 with errs := e } := by
            split at hs3
            · exact ⟨_, (reportAll_ok hs3).2⟩
            · injection hs3 with hs3; exact ⟨s2.errs, hs3.symm⟩
          obtain ⟨e, he⟩ := this
          subst he
          refine ⟨_, st.toc, blocks, s2, e, h1.symm, hin, h2.symm, ?_, ?_, fun _ => rfl, ?_, ?_⟩
          · rw [hstrict]; simp
          · intro h; omega
          · rw [hstrict]; simp
          · rw [hstrict]; simp
  · rw [if_neg hoos] at h
    simp only at h
    rw [if_neg hoos] at h
    split at h
    · cases h
    · rename_i s1 hs1
      split at h
      · cases h
      · rename_i blocks s2 hin
        split at h
        · cases h
        · rename_i s3 hs3
          injection h with h; injection h with h1 h2
          have : ∃ e, s3 = { s2 with errs := e } ∧ (env.strict = true → e = s2.errs) := by
            split at hs3
            · refine ⟨_, (reportAll_ok hs3).2, fun hs => ?_⟩
              rw [(reportAll_ok hs3).1 hs]; simp
            · injection hs3 with hs3; exact ⟨s2.errs, hs3.symm, fun _ => rfl⟩
          obtain ⟨e, he, hes⟩ := this
          subst he
          have ht : ∃ toc, s1 = { st with level := p.semantic, errs := st.errs, toc := toc } := by
            rcases pushTocSt_ok hs1 with ⟨_, h⟩ | ⟨_, ns, _, _, h⟩
            · exact ⟨st.toc, h⟩
            · exact ⟨some ns, h⟩
          obtain ⟨toc, ht⟩ := ht
          subst ht
          refine ⟨st.errs, toc, blocks, s2, e, h1.symm, hin, h2.symm, ?_, fun _ => hs1, ?_, hes, fun _ => rfl⟩
          · intro _; omega
          · intro h; omega

theorem delimited_ok {env : Env} {inner : St → Res (List Node × St)} {k : Nat} {st st' : St} {b : Node}
    (h : delimited env inner k st = .ok (b, st')) :
    ∃ blocks s2, inner { st with delim := some k } = .ok (blocks, s2) ∧
      ((∃ more s3, read s2 = some (.delim k, more, s3) ∧ b = .compound k true blocks ∧
          st' = { restore s3 more with delim := st.delim }) ∨
       (env.strict = false ∧ b = .compound k false blocks ∧ st'.level = s2.level ∧ st'.delim = st.delim ∧
          st'.toc = s2.toc ∧ (todo st').length ≤ (todo s2).length ∧
          ((∃ i more, (todo s2) = i :: more ++ todo st') ∨ (todo s2 = [] ∧ todo st' = [])))) := by
  unfold delimited at h
  simp only at h
  split at h
  · cases h
  · rename_i blocks s2 hin
    refine ⟨blocks, s2, hin, ?_⟩
    split at h
    · rename_i k' more s3 hr
      obtain ⟨r1, r2, r3, r4, r5, r6⟩ := read_some hr
      split at h
      · rename_i hk; subst hk
        injection h with h; injection h with h1 h2
        exact .inl ⟨more, s3, hr, h1.symm, h2.symm⟩
      · split at h
        · cases h
        · rename_i s4 hs4
          obtain ⟨hst, hs4⟩ := report_ok hs4
          subst hs4
          injection h with h; injection h with h1 h2
          subst h2
          refine .inr ⟨hst, h1.symm, r3, rfl, r5, ?_, .inl ⟨_, more, r1⟩⟩
          rw [r1]; simp [todo]; omega
    · rename_i i more s3 _ hr
      obtain ⟨r1, r2, r3, r4, r5, r6⟩ := read_some hr
      split at h
      · cases h
      · rename_i s4 hs4
        obtain ⟨hst, hs4⟩ := report_ok hs4
        subst hs4
        injection h with h; injection h with h1 h2
        subst h2
        refine .inr ⟨hst, h1.symm, r3, rfl, r5, ?_, .inl ⟨i, more, r1⟩⟩
        rw [r1]; simp [todo]; omega
    · rename_i hr
      have hn := read_none_todo hr
      split at h
      · cases h
      · rename_i s4 hs4
        obtain ⟨hst, hs4⟩ := report_ok hs4
        subst hs4
        injection h with h; injection h with h1 h2
        subst h2
        refine .inr ⟨hst, h1.symm, rfl, rfl, rfl, ?_, .inr ⟨hn, hn⟩⟩
        show (todo s2).length ≤ _
        exact Nat.le_refl _

/-- Items at which `parse_block` stops. -/
def StopAt (level : Nat) (delim : Option Nat) : Item → Prop
  | .heading l _ _ d => d = false ∧ ((l ≤ 1 ∧ delim = none) ∨ (2 ≤ l ∧ l ≤ level))
  | .delim k => delim = some k
  | .para _ => False

/-- Items that are blocks by themselves. -/
def LeafAt (delim : Option Nat) : Item → Prop
  | .heading l _ _ d => d = true ∨ (l ≤ 1 ∧ delim ≠ none)
  | .delim _ => False
  | .para _ => True

theorem peek_restored {st : St} (hp : st.peeked = []) (l t : Nat) (sp : Option SpecialSection) (d : Bool) (more : List Item) :
    peekSection (restore st (.heading l t sp d :: more)) = (some ⟨l, l, t, sp, .heading l t sp d, more⟩, st) := by
  have : { st with peeked := [] } = st := by rw [← hp]
  simp only [peekSection, read, restore]
  rw [this]

theorem parseBlock_ok {env : Env} {n : Nat} {st st' : St} {r : Option Node}
    (h : parseBlock env (n + 1) st = .ok (r, st')) :
    (read st = none ∧ r = none ∧ st' = atEnd st) ∨
    ∃ i more s1, read st = some (i, more, s1) ∧
      ((r = some (.leaf i) ∧ st' = restore s1 more ∧ LeafAt st.delim i) ∨
       (r = none ∧ st' = restore s1 (i :: more) ∧ StopAt st.level st.delim i) ∨
       (∃ k b, i = .delim k ∧ st.delim ≠ some k ∧ r = some b ∧
          delimited env (loop (parseBlock env n) n) k (restore s1 more) = .ok (b, st')) ∨
       (∃ l t sp b, i = .heading l t sp false ∧ 2 ≤ l ∧ st.level < l ∧ r = some b ∧
          peekedSection env (loop (parseBlock env n) n) ⟨l, l, t, sp, i, more⟩ s1 = .ok (b, st'))) := by
  unfold parseBlock at h
  split at h
  · rename_i hr
    injection h with h; injection h with h1 h2
    exact .inl ⟨hr, h1.symm, h2.symm⟩
  · rename_i m more s1 hr
    injection h with h; injection h with h1 h2
    exact .inr ⟨_, more, s1, hr, .inl ⟨h1.symm, h2.symm, trivial⟩⟩
  · rename_i k more s1 hr
    obtain ⟨r1, r2, r3, r4, r5, r6⟩ := read_some hr
    split at h
    · rename_i hk
      injection h with h; injection h with h1 h2
      exact .inr ⟨_, more, s1, hr, .inr (.inl ⟨h1.symm, h2.symm, by rw [← r4]; exact hk⟩)⟩
    · rename_i hk
      split at h
      · cases h
      · rename_i b s2 hd
        injection h with h; injection h with h1 h2
        subst h2
        exact .inr ⟨_, more, s1, hr, .inr (.inr (.inl ⟨k, b, rfl, by rw [← r4]; exact hk, h1.symm, hd⟩))⟩
  · rename_i l t sp d more s1 hr
    obtain ⟨r1, r2, r3, r4, r5, r6⟩ := read_some hr
    split at h
    · rename_i hd
      injection h with h; injection h with h1 h2
      exact .inr ⟨_, more, s1, hr, .inl ⟨h1.symm, h2.symm, .inl hd⟩⟩
    · rename_i hd
      have hd : d = false := by simpa using hd
      subst hd
      split at h
      · rename_i hl
        split at h
        · rename_i hdel
          injection h with h; injection h with h1 h2
          exact .inr ⟨_, more, s1, hr, .inl ⟨h1.symm, h2.symm, .inr ⟨hl, by
            rw [← r4]; intro hc; rw [hc] at hdel; cases hdel⟩⟩⟩
        · rename_i hdel
          injection h with h; injection h with h1 h2
          refine .inr ⟨_, more, s1, hr, .inr (.inl ⟨h1.symm, h2.symm, rfl, .inl ⟨hl, ?_⟩⟩)⟩
          rw [← r4]
          cases hx : s1.delim with
          | none => rfl
          | some x => simp [hx] at hdel
      · rename_i hl
        split at h
        · rename_i hl2
          injection h with h; injection h with h1 h2
          exact .inr ⟨_, more, s1, hr, .inr (.inl ⟨h1.symm, h2.symm, rfl, .inr ⟨by omega, by omega⟩⟩)⟩
        · rename_i hl2
          refine .inr ⟨_, more, s1, hr, .inr (.inr (.inr ?_))⟩
          unfold parseSection at h
          rw [peek_restored r2] at h
          simp only at h
          rw [if_neg (fun hc => by omega), if_neg (by omega)] at h
          simp only at h
          split at h
          · cases h
          · cases h
          · rename_i s st2 hx
            split at hx
            · cases hx
            · rename_i b st3 hb
              injection hx with hx; injection hx with hx1 hx2
              injection hx1 with hx1
              subst hx1; subst hx2
              injection h with h; injection h with h1 h2
              subst h2
              exact ⟨l, t, sp, b, rfl, by omega, by omega, h1.symm, hb⟩

theorem loop_ind {α : Type} {step : St → Res (Option α × St)} (Q : St → List α → St → Prop)
    (h0 : ∀ s s', step s = .ok (none, s') → Q s [] s')
    (h1 : ∀ s a s1 as s', step s = .ok (some a, s1) → Q s1 as s' → Q s (a :: as) s')
    {n : Nat} {s s' : St} {as : List α} (h : loop step n s = .ok (as, s')) : Q s as s' := by
  induction n generalizing s as with
  | zero => cases h
  | succ n ih =>
    unfold loop at h
    split at h
    · cases h
    · rename_i s1 hs
      injection h with h; injection h with h2 h3
      subst h2; subst h3
      exact h0 _ _ hs
    · rename_i a s1 hs
      split at h
      · cases h
      · rename_i as' s2 hl
        injection h with h; injection h with h2 h3
        subst h2; subst h3
        exact h1 _ _ _ _ _ hs (ih hl)

/-- If the loop ends, its last step found nothing. -/
theorem loop_last {α : Type} {step : St → Res (Option α × St)} {n : Nat} {s s' : St} {as : List α}
    (h : loop step n s = .ok (as, s')) : ∃ s0, step s0 = .ok (none, s') := by
  exact loop_ind (fun _ _ s' => ∃ s0, step s0 = .ok (none, s')) (fun s s' h => ⟨s, h⟩) (fun _ _ _ _ _ _ h => h) h

theorem loop_total {α : Type} {step : St → Res (Option α × St)} (m : St → Nat) (M : Nat)
    (h0 : ∀ s, m s ≤ M → step s ≠ .error .diverged)
    (h1 : ∀ s a s', m s ≤ M → step s = .ok (some a, s') → m s' < m s)
    {n : Nat} {s : St} (hM : m s ≤ M) (hn : m s < n) : loop step n s ≠ .error .diverged := by
  induction n generalizing s with
  | zero => omega
  | succ n ih =>
    unfold loop
    split
    · rename_i e he
      intro hc
      injection hc with hc
      subst hc
      exact h0 s hM he
    · simp
    · rename_i a s1 hs
      have := h1 s a s1 hM hs
      split
      · rename_i e he
        intro hc
        injection hc with hc
        subst hc
        exact ih (by omega) (by omega) he
      · simp

/-! ### lengths, levels and delimiters -/

/-- the state reached has the same context and no more to do -/
structure Le (st st' : St) : Prop where
  level : st'.level = st.level
  delim : st'.delim = st.delim
  len : (todo st').length ≤ (todo st).length

theorem Le.trans {a b c : St} (h1 : Le a b) (h2 : Le b c) : Le a c :=
  ⟨h2.level.trans h1.level, h2.delim.trans h1.delim, Nat.le_trans h2.len h1.len⟩

theorem todo_congr {a b : St} (h1 : a.peeked = b.peeked) (h2 : a.rest = b.rest) : todo a = todo b := by
  simp [todo, h1, h2]

theorem block_le (env : Env) (n : Nat) : ∀ (st st' : St) (r : Option Node), parseBlock env n st = .ok (r, st') →
    Le st st' ∧ (r.isSome = true → (todo st').length < (todo st).length) := by
  induction n with
  | zero => intro st st' r h; cases h
  | succ n ih =>
    intro st st' r h
    have inner_le : ∀ {s s' : St} {bs : List Node}, loop (parseBlock env n) n s = .ok (bs, s') → Le s s' := by
      intro s s' bs h
      refine loop_ind (fun s _ s' => Le s s') ?_ ?_ h
      · exact fun s s' h => (ih _ _ _ h).1
      · exact fun s a s1 as s' h1 h2 => (ih _ _ _ h1).1.trans h2
    rcases parseBlock_ok h with ⟨h1, h2, h3⟩ | ⟨i, more, s1, hr, hcase⟩
    · subst h2; subst h3; exact ⟨⟨rfl, rfl, Nat.le_refl _⟩, by simp⟩
    · obtain ⟨r1, r2, r3, r4, r5, r6⟩ := read_some hr
      have hlen : (todo st).length = more.length + (todo s1).length + 1 := by rw [r1]; simp
      rcases hcase with ⟨h1, h2, _⟩ | ⟨h1, h2, _⟩ | ⟨k, b, h1, h2, h3, h4⟩ | ⟨l, t, sp, b, h1, h2, h3, h4, h5⟩
      · subst h2
        have := todo_restore more r2
        exact ⟨⟨r3, r4, by rw [this]; simp; omega⟩, fun _ => by rw [this]; simp; omega⟩
      · subst h1; subst h2
        have := todo_restore (i :: more) r2
        exact ⟨⟨r3, r4, by rw [this]; simp; omega⟩, by simp⟩
      · obtain ⟨blocks, s2, hin, hc⟩ := delimited_ok h4
        have hle := inner_le hin
        have ht : (todo { restore s1 more with delim := some k }).length = more.length + (todo s1).length := by
          have := todo_restore more r2
          rw [show todo { restore s1 more with delim := some k } = todo (restore s1 more) from rfl, this]; simp
        have hl := hle.len
        rw [ht] at hl
        have hlv : s2.level = st.level := hle.level.trans r3
        rcases hc with ⟨more', s3, hr2, _, h6⟩ | ⟨_, _, h6, h7, _, h8, _⟩
        · obtain ⟨q1, q2, q3, q4, q5, q6⟩ := read_some hr2
          subst h6
          have hx : todo { restore s3 more' with delim := (restore s1 more).delim } = more' ++ todo s3 := todo_restore more' q2
          rw [q1] at hl
          simp at hl
          exact ⟨⟨q3.trans hlv, r4, by rw [hx]; simp; omega⟩, fun _ => by rw [hx]; simp; omega⟩
        · exact ⟨⟨h6.trans hlv, h7.trans r4, by omega⟩, fun _ => by omega⟩
      · obtain ⟨errs, toc, blocks, s2, errs', _, hin, h7, _⟩ := peekedSection_ok h5
        have hle := inner_le hin
        subst h7
        have hl := hle.len
        rw [todo_restore _ (by exact r2)] at hl
        have : todo { s1 with level := l, errs := errs, toc := toc } = todo s1 := rfl
        simp only [List.length_append] at hl
        rw [this] at hl
        have e : todo { s2 with level := s1.level, errs := errs' } = todo s2 := rfl
        exact ⟨⟨r3, hle.delim.trans r4, by rw [e]; omega⟩, fun _ => by rw [e]; omega⟩

theorem blocks_le {env : Env} {n m : Nat} {s s' : St} {bs : List Node}
    (h : loop (parseBlock env n) m s = .ok (bs, s')) : Le s s' := by
  refine loop_ind (fun s _ s' => Le s s') ?_ ?_ h
  · exact fun s s' h => (block_le _ _ _ _ _ h).1
  · exact fun s a s1 as s' h1 h2 => (block_le _ _ _ _ _ h1).1.trans h2

/-! ### the step bound is never reached -/

theorem report_ne {env : Env} {st : St} {e : Err} : report env st e ≠ .error .diverged := by
  unfold report; split <;> simp

theorem reportAll_ne {env : Env} {st : St} {es : List Err} : reportAll env st es ≠ .error .diverged := by
  induction es generalizing st with
  | nil => simp [reportAll]
  | cons e es ih =>
    unfold reportAll
    split
    · rename_i f hf
      intro h; injection h with h; subst h; exact report_ne hf
    · exact ih

theorem pushTocSt_ne {env : Env} {st : St} {a s t : Nat} : pushTocSt env st a s t ≠ .error .diverged := by
  unfold pushTocSt
  split
  · simp
  · split <;> simp

theorem peekedSection_fail {env : Env} {inner : St → Res (List Node × St)} {p : Peeked} {st : St} {f : Fail}
    (h : peekedSection env inner p st = .error f) :
    (∃ e, f = .diag e) ∨
    (p.semantic ≤ st.level + 1 ∧ pushTocSt env { st with level := p.semantic } p.authored p.semantic p.title = .error f) ∨
    ∃ errs toc, inner (restore { st with level := p.semantic, errs := errs, toc := toc } p.more) = .error f ∧
      (p.semantic ≤ st.level + 1 → pushTocSt env { st with level := p.semantic } p.authored p.semantic p.title
          = .ok { st with level := p.semantic, errs := errs, toc := toc }) ∧
      (env.strict = true → p.semantic ≤ st.level + 1) := by
  have rep : ∀ {s : St} {e : Err} {f : Fail}, report env s e = .error f → ∃ e, f = .diag e := by
    intro s e f h
    unfold report at h
    split at h
    · injection h with h; exact ⟨e, h.symm⟩
    · cases h
  have repAll : ∀ {es : List Err} {s : St} {f : Fail}, reportAll env s es = .error f → ∃ e, f = .diag e := by
    intro es
    induction es with
    | nil => intro s f h; cases h
    | cons e es ih =>
      intro s f h
      unfold reportAll at h
      split at h
      · rename_i g hg
        injection h with h; subst h; exact rep hg
      · exact ih h
  unfold peekedSection at h
  simp only at h
  by_cases hoos : p.semantic > st.level ∧ p.semantic - st.level > 1
  · rw [if_pos hoos] at h
    split at h
    · rename_i g hg
      injection h with h; subst h; exact .inl (rep hg)
    · rename_i s1 hs1
      obtain ⟨hstrict, hs1⟩ := report_ok hs1
      subst hs1
      rw [if_pos hoos] at h
      simp only at h
      split at h
      · rename_i g hg
        injection h with h; subst h
        exact .inr (.inr ⟨_, _, hg, fun _ => by omega, by rw [hstrict]; simp⟩)
      · split at h
        · rename_i g hg
          injection h with h; subst h
          split at hg
          · exact .inl (repAll hg)
          · cases hg
        · cases h
  · rw [if_neg hoos] at h
    simp only at h
    rw [if_neg hoos] at h
    split at h
    · rename_i g hg
      injection h with h; subst h
      exact .inr (.inl ⟨by omega, hg⟩)
    · rename_i s1 hs1
      have ht : ∃ toc, s1 = { st with level := p.semantic, errs := st.errs, toc := toc } := by
        rcases pushTocSt_ok hs1 with ⟨_, h⟩ | ⟨_, ns, _, _, h⟩
        · exact ⟨st.toc, h⟩
        · exact ⟨some ns, h⟩
      obtain ⟨toc, ht⟩ := ht
      subst ht
      split at h
      · rename_i g hg
        injection h with h; subst h
        exact .inr (.inr ⟨_, _, hg, fun _ => hs1, fun _ => by omega⟩)
      · split at h
        · rename_i g hg
          injection h with h; subst h
          split at hg
          · exact .inl (repAll hg)
          · cases hg
        · cases h

theorem report_fail {env : Env} {s : St} {e : Err} {f : Fail} (h : report env s e = .error f) : ∃ e, f = .diag e := by
  unfold report at h
  split at h
  · injection h with h; exact ⟨e, h.symm⟩
  · cases h

theorem delimited_fail {env : Env} {inner : St → Res (List Node × St)} {k : Nat} {st : St} {f : Fail}
    (h : delimited env inner k st = .error f) :
    (∃ e, f = .diag e) ∨ inner { st with delim := some k } = .error f := by
  unfold delimited at h
  simp only at h
  split at h
  · rename_i g hg
    injection h with h; subst h; exact .inr hg
  · left
    split at h
    · split at h
      · cases h
      · split at h
        · rename_i g hg
          injection h with h; subst h; exact report_fail hg
        · cases h
    · split at h
      · rename_i g hg
        injection h with h; subst h; exact report_fail hg
      · cases h
    · split at h
      · rename_i g hg
        injection h with h; subst h; exact report_fail hg
      · cases h

theorem parseBlock_fail {env : Env} {n : Nat} {st : St} {f : Fail} (h : parseBlock env (n + 1) st = .error f) :
    ∃ i more s1, read st = some (i, more, s1) ∧
      ((∃ k, i = .delim k ∧ st.delim ≠ some k ∧ delimited env (loop (parseBlock env n) n) k (restore s1 more) = .error f) ∨
       (∃ l t sp, i = .heading l t sp false ∧ 2 ≤ l ∧ st.level < l ∧
          peekedSection env (loop (parseBlock env n) n) ⟨l, l, t, sp, i, more⟩ s1 = .error f)) := by
  unfold parseBlock at h
  split at h
  · cases h
  · cases h
  · rename_i k more s1 hr
    obtain ⟨r1, r2, r3, r4, r5, r6⟩ := read_some hr
    split at h
    · cases h
    · rename_i hk
      split at h
      · rename_i g hg
        injection h with h; subst h
        exact ⟨_, more, s1, hr, .inl ⟨k, rfl, by rw [← r4]; exact hk, hg⟩⟩
      · cases h
  · rename_i l t sp d more s1 hr
    obtain ⟨r1, r2, r3, r4, r5, r6⟩ := read_some hr
    split at h
    · cases h
    · rename_i hd
      have hd : d = false := by simpa using hd
      subst hd
      split at h
      · split at h <;> cases h
      · rename_i hl
        split at h
        · cases h
        · rename_i hl2
          refine ⟨_, more, s1, hr, .inr ⟨l, t, sp, rfl, by omega, by omega, ?_⟩⟩
          unfold parseSection at h
          rw [peek_restored r2] at h
          simp only at h
          rw [if_neg (fun hc => by omega), if_neg (by omega)] at h
          simp only at h
          split at h
          · rename_i g hg
            injection h with h; subst h
            split at hg
            · rename_i g' hg'
              injection hg with hg; subst hg; exact hg'
            · cases hg
          · rename_i hx
            split at hx <;> cases hx
          · cases h

theorem block_total (env : Env) (n : Nat) : ∀ (st : St), (todo st).length < n → parseBlock env n st ≠ .error .diverged := by
  induction n with
  | zero => intro st h; omega
  | succ n ih =>
    intro st hst h
    have inner : ∀ {s : St}, (todo s).length < n → loop (parseBlock env n) n s ≠ .error .diverged := by
      intro s hs
      refine loop_total (fun s => (todo s).length) (n - 1) ?_ ?_ (by omega) hs
      · intro s h; exact ih s (by omega)
      · intro s a s' _ h
        exact (block_le _ _ _ _ _ h).2 rfl
    obtain ⟨i, more, s1, hr, hc⟩ := parseBlock_fail h
    obtain ⟨r1, r2, r3, r4, r5, r6⟩ := read_some hr
    have hlen : (todo st).length = more.length + (todo s1).length + 1 := by rw [r1]; simp
    rcases hc with ⟨k, _, _, h1⟩ | ⟨l, t, sp, _, _, _, h1⟩
    · rcases delimited_fail h1 with ⟨e, he⟩ | h2
      · cases he
      · refine inner ?_ h2
        rw [show todo { restore s1 more with delim := some k } = todo (restore s1 more) from rfl, todo_restore more r2]
        simp; omega
    · rcases peekedSection_fail h1 with ⟨e, he⟩ | ⟨_, h2⟩ | ⟨errs, toc, h2, _⟩
      · cases he
      · exact pushTocSt_ne h2
      · refine inner ?_ h2
        rw [todo_restore _ (by exact r2)]
        rw [show todo { s1 with level := l, errs := errs, toc := toc } = todo s1 from rfl]
        simp; omega

end Verif.Sections
