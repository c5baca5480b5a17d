import Verif.Lemmas.Numbering
/-! The TOC and the body count alike. -/
namespace Verif.Numbering
open Verif.Spec.Numbering

/-- Body and TOC agree on the counters of levels up to `d`. -/
structure Agree (d : Nat) (st t : St) : Prop where
  len : st.nums.length = 5
  len' : t.nums.length = 5
  nums : st.nums.take d = t.nums.take d
  app : st.inAppendix = t.inAppendix
  cap : st.captionNum = t.captionNum
  part : st.partNum = t.partNum

theorem take_getD {l : List Nat} {n k : Nat} (h : n < k) : l.getD n 0 = (l.take k).getD n 0 := by
  simp only [List.getD_eq_getElem?_getD, List.getElem?_take_of_lt h]

theorem numberPrefix_agree {d : Nat} {st t : St} (h : Agree d st t) {level : Nat} (hl : level ≤ d) {txt : List Char} {st' : St}
    (hn : numberPrefix st level = some (txt, st')) : ∃ t', numberPrefix t level = some (txt, t') ∧ Agree d st' t' := by
  have e1 : st.nums.take (level - 1) = t.nums.take (level - 1) := by
    have := congrArg (List.take (level - 1)) h.nums
    rwa [List.take_take, List.take_take, Nat.min_eq_left (by omega)] at this
  unfold numberPrefix at hn ⊢
  split at hn
  · cases hn
  · rename_i h0
    have e2 : st.nums.getD (level - 1) 0 = t.nums.getD (level - 1) 0 := by
      rw [take_getD (k := d) (by omega), h.nums, ← take_getD (by omega)]
    rw [if_neg h0, ← e1, ← e2, ← h.app]
    dsimp only at hn ⊢
    split at hn
    · cases hn
    · rename_i hov
      rw [if_neg hov]
      split at hn
      · cases hn
      · rename_i w hw
        injection hn with hn; injection hn with hn1 hn2
        subst hn1 hn2
        refine ⟨_, rfl, ?_, ?_, rfl, rfl, h.cap, h.part⟩
        · have := h.len; simp; omega
        · have := h.len; simp; omega

/-- Numbers at deeper levels do not matter. -/
theorem numberPrefix_deep {d : Nat} {st t : St} (h : Agree d st t) {level : Nat} (hl : d < level) {txt : List Char} {st' : St}
    (hn : numberPrefix st level = some (txt, st')) : Agree d st' t := by
  unfold numberPrefix at hn
  split at hn
  · cases hn
  · dsimp only at hn
    split at hn
    · cases hn
    · split at hn
      · cases hn
      · injection hn with hn; injection hn with hn1 hn2
        subst hn1 hn2
        have := h.len
        refine ⟨by simp; omega, h.len', ?_, h.app, h.cap, h.part⟩
        simp only
        rw [List.take_append_of_le_length (by simp; omega), List.take_take, Nat.min_eq_left (by omega)]
        exact h.nums

theorem headingPrefix_agree {d : Nat} {cfg : Cfg} {st t : St} (h : Agree d st t) {level : Nat} {special} (hl : level ≤ d) {txt : List Char} {st' : St}
    (hn : headingPrefix cfg st level special = some (txt, st')) :
    ∃ t', headingPrefix cfg t level special = some (txt, t') ∧ Agree d st' t' := by
  rcases headingPrefix_cases hn with ⟨h1, t1, h2, rfl⟩ | ⟨h1, rfl, rfl⟩
  · obtain ⟨t', e, a⟩ := numberPrefix_agree h hl h2
    exact ⟨t', headingPrefix_numbered h1 e, a⟩
  · exact ⟨t, by unfold headingPrefix; exact if_neg (by simp [h1]), h⟩

theorem headingPrefix_deep {d : Nat} {cfg : Cfg} {st t : St} (h : Agree d st t) {level : Nat} {special} (hl : d < level) {txt : List Char} {st' : St}
    (hn : headingPrefix cfg st level special = some (txt, st')) : Agree d st' t := by
  rcases headingPrefix_cases hn with ⟨h1, t1, h2, rfl⟩ | ⟨h1, rfl, rfl⟩
  · exact numberPrefix_deep h hl h2
  · exact h

theorem appendixCaption_agree {d : Nat} {cfg : Cfg} {st t : St} (h : Agree d st t) {txt : List Char} {st' : St}
    (hn : appendixCaption cfg st = some (txt, st')) :
    ∃ t', appendixCaption cfg t = some (txt, t') ∧ Agree d st' t' := by
  unfold appendixCaption at hn ⊢
  rw [← h.cap]
  split at hn
  · rename_i hc
    rw [if_pos hc]
    injection hn with hn; injection hn with hn1 hn2
    subst hn1 hn2
    exact ⟨_, rfl, h.len, h.len', h.nums, h.app, by simp, h.part⟩
  · cases hn

theorem partPrefix_agree {d : Nat} {cfg : Cfg} {st t : St} (h : Agree d st t) {txt : List Char} {st' : St}
    (hn : partPrefix cfg st = some (txt, st')) :
    ∃ t', partPrefix cfg t = some (txt, t') ∧ Agree d st' t' := by
  unfold partPrefix at hn ⊢
  dsimp only at hn ⊢
  rw [← h.part]
  split at hn
  · rename_i hc
    rw [if_pos hc]
    split at hn
    · rename_i hp
      rw [if_pos hp]
      split at hn
      · cases hn
      · rename_i r hr
        injection hn with hn; injection hn with hn1 hn2
        subst hn1 hn2
        exact ⟨_, rfl, h.len, h.len', h.nums, h.app, h.cap, rfl⟩
    · rename_i hp
      rw [if_neg hp]
      injection hn with hn; injection hn with hn1 hn2
      subst hn1 hn2
      exact ⟨_, rfl, h.len, h.len', h.nums, h.app, h.cap, rfl⟩
  · rename_i hc
    rw [if_neg hc]
    injection hn with hn; injection hn with hn1 hn2
    subst hn1 hn2
    exact ⟨_, rfl, h⟩

theorem enterState_agree {d : Nat} {st t : St} (h : Agree d st t) (sp : Option Special) : Agree d (enterState sp st) (enterState sp t) := by
  unfold enterState
  split
  · exact ⟨rfl, rfl, rfl, rfl, h.cap, h.part⟩
  · exact h

theorem exitState_agree {d : Nat} {st t : St} (h : Agree d st t) (sp : Option Special) : Agree d (exitState sp st) (exitState sp t) := by
  unfold exitState
  split
  · exact ⟨rfl, rfl, rfl, rfl, h.cap, h.part⟩
  · exact h

theorem nodesOf_append (d : Nat) (a b : List Sect) : nodesOf d (a ++ b) = nodesOf d a ++ nodesOf d b := by
  induction a with
  | nil => rfl
  | cons s a ih => simp [nodesOf, ih]

theorem tocAll_append (cfg : Cfg) (a b : List Node) (st : St) : tocAll cfg (a ++ b) st =
    match tocAll cfg a st with
    | none => none
    | some (l, st) => match tocAll cfg b st with
      | none => none
      | some (l', st) => some (l ++ l', st) := by
  induction a generalizing st with
  | nil =>
    simp only [List.nil_append, tocAll]
    cases tocAll cfg b st with
    | none => rfl
    | some r => rfl
  | cons s a ih =>
    simp only [List.cons_append, tocAll]
    cases toc cfg s st with
    | none => rfl
    | some r =>
      simp only
      rw [ih r.2]
      cases tocAll cfg a r.2 with
      | none => rfl
      | some r2 =>
        simp only
        cases tocAll cfg b r2.2 with
        | none => rfl
        | some r3 => simp

mutual
theorem walk_length : ∀ (s : Sect) (st : St) (ls : List (List Char)) (st' : St), walk s st = some (ls, st') → (levels s).length = ls.length
  | .mk cfg part authored level special children, st, ls, st' => by
    intro h
    obtain ⟨l, st1, ls2, st2, _, hw, rfl, _⟩ := walk_some h
    simp [levels, walkAll_length children st1 ls2 st2 hw]
theorem walkAll_length : ∀ (ss : List Sect) (st : St) (ls : List (List Char)) (st' : St), walkAll ss st = some (ls, st') → (levelsAll ss).length = ls.length
  | [], st, ls, st' => by
    intro h
    injection h with h; injection h with h _; subst h; rfl
  | s :: ss, st, ls, st' => by
    intro h
    obtain ⟨l, st1, l2, h1, h2, rfl⟩ := walkAll_some h
    simp [levelsAll, walk_length s st l st1 h1, walkAll_length ss st1 l2 st' h2]
end

theorem listed_append {d : Nat} {a c : List Nat} {b e : List (List Char)} (h : a.length = b.length) :
    listed d (a ++ c) (b ++ e) = listed d a b ++ listed d c e := by
  simp [listed, List.zip_append h]

mutual
/-- Sections deeper than the TOC goes change nothing it shows. -/
theorem walk_deep (cfg : Cfg) (d : Nat) : ∀ (s : Sect) (above : Nat) (st t st' : St) (ls : List (List Char)), d < above → Steady cfg d above s →
    Agree d st t → walk s st = some (ls, st') → listed d (levels s) ls = [] ∧ nodeOf d s = [] ∧ Agree d st' t
  | .mk c part authored level special children, above, st, t, st', ls => by
    intro hd hs ha h
    rw [Steady] at hs
    obtain ⟨rfl, hs⟩ := hs
    obtain ⟨l, st1, ls2, st2, hb, hw, rfl, rfl⟩ := walk_some h
    split at hs
    · omega
    · rename_i hp
      have hp : part = false := by simpa using hp
      subst hp
      obtain ⟨rfl, h2, h3, h4, h5⟩ := hs
      have hna : special ≠ some .appendix := fun hh => by have := h4 hh; omega
      simp only [Bool.false_eq_true, if_false, enterState_plain hna, exitState_plain hna, bodyLabel_section _ _ hna] at hb ⊢
      have a1 := headingPrefix_deep ha (by omega) hb
      obtain ⟨e1, e2, a2⟩ := walkAll_deep c d children (authored + 1) st1 t st2 ls2 (by omega) h5 a1 hw
      refine ⟨?_, ?_, a2⟩
      · rw [levels]
        simp only [Bool.false_eq_true, if_false]
        unfold listed at e1 ⊢
        rw [List.zip_cons_cons, List.filter_cons_of_neg (by simp; omega)]
        exact e1
      · rw [nodeOf, if_neg (by omega)]
theorem walkAll_deep (cfg : Cfg) (d : Nat) : ∀ (ss : List Sect) (above : Nat) (st t st' : St) (ls : List (List Char)), d < above → SteadyAll cfg d above ss →
    Agree d st t → walkAll ss st = some (ls, st') → listed d (levelsAll ss) ls = [] ∧ nodesOf d ss = [] ∧ Agree d st' t
  | [], above, st, t, st', ls => by
    intro _ _ ha h
    injection h with h; injection h with h1 h2; subst h1 h2
    exact ⟨rfl, rfl, ha⟩
  | s :: ss, above, st, t, st', ls => by
    intro hd hs ha h
    rw [SteadyAll] at hs
    obtain ⟨l, st1, l2, h1, h2, rfl⟩ := walkAll_some h
    obtain ⟨e1, e2, a1⟩ := walk_deep cfg d s above st t st1 l hd hs.1 ha h1
    obtain ⟨e3, e4, a2⟩ := walkAll_deep cfg d ss above st1 t st' l2 hd hs.2 a1 h2
    refine ⟨?_, by rw [nodesOf, e2, e4]; rfl, a2⟩
    rw [levelsAll, listed_append (walk_length s st l st1 h1), e1, e3]; rfl
end

mutual
/-- The TOC prints the labels of the sections it lists. -/
theorem walk_toc (cfg : Cfg) (d : Nat) : ∀ (s : Sect) (above : Nat) (st t st' : St) (ls : List (List Char)), Steady cfg d above s →
    Agree d st t → walk s st = some (ls, st') →
    ∃ t', tocAll cfg (nodeOf d s) t = some (listed d (levels s) ls, t') ∧ Agree d st' t'
  | .mk c part authored level special children, above, st, t, st', ls => by
    intro hs ha h
    by_cases hdeep : d < authored
    · have hpf : part = false := by
        rw [Steady] at hs
        obtain ⟨_, hs⟩ := hs
        split at hs
        · omega
        · rename_i hp; simpa using hp
      subst hpf
      have hs' := hs
      rw [Steady] at hs
      obtain ⟨rfl, hs⟩ := hs
      simp only [Bool.false_eq_true, if_false] at hs
      obtain ⟨rfl, h2, h3, h4, h5⟩ := hs
      have hs2 : Steady c d authored (.mk c false authored authored special children) := by
        rw [Steady]
        refine ⟨rfl, ?_⟩
        simp only [Bool.false_eq_true, if_false]
        exact ⟨trivial, Nat.le_refl _, h3, h4, h5⟩
      obtain ⟨e1, e2, a⟩ := walk_deep c d _ authored st t st' ls hdeep hs2 ha h
      exact ⟨t, by rw [e1, e2]; rfl, a⟩
    · rw [Steady] at hs
      obtain ⟨rfl, hs⟩ := hs
      obtain ⟨l, st1, ls2, st2, hb, hw, rfl, rfl⟩ := walk_some h
      cases part with
      | true =>
        simp only [if_true] at hs hb ⊢
        obtain ⟨rfl, _, h5⟩ := hs
        rw [bodyLabel, if_pos rfl] at hb
        obtain ⟨t1, e1, a1⟩ := partPrefix_agree (enterState_agree ha none) hb
        obtain ⟨t2, e2, a2⟩ := walkAll_toc c d children 1 st1 t1 st2 ls2 h5 a1 hw
        refine ⟨exitState none t2, ?_, exitState_agree a2 none⟩
        rw [nodeOf, if_pos (by omega)]
        simp only [if_true, tocAll, toc]
        have : tocLabel c 0 none (enterState none t) = some (l, t1) := by
          rw [tocLabel, if_neg (by simp), if_pos rfl]; exact e1
        rw [this]
        simp only [e2, levels, if_true]
        simp [listed]
      | false =>
        simp only [Bool.false_eq_true, if_false] at hs hb ⊢
        obtain ⟨rfl, _, h3, _, h5⟩ := hs
        have key : ∃ t1, tocLabel c authored special (enterState special t) = some (l, t1) ∧ Agree d st1 t1 := by
          have ha1 := enterState_agree ha special
          unfold tocLabel
          rw [bodyLabel, if_neg (by simp)] at hb
          split at hb
          · rename_i hsp
            rw [if_pos hsp]
            exact appendixCaption_agree ha1 hb
          · rename_i hsp
            rw [if_neg hsp, if_neg (by omega)]
            exact headingPrefix_agree ha1 (by omega) hb
        obtain ⟨t1, e1, a1⟩ := key
        obtain ⟨t2, e2, a2⟩ := walkAll_toc c d children (authored + 1) st1 t1 st2 ls2 h5 a1 hw
        refine ⟨exitState special t2, ?_, exitState_agree a2 special⟩
        rw [nodeOf, if_pos (by omega)]
        simp only [Bool.false_eq_true, if_false, tocAll, toc, e1, e2, levels]
        unfold listed
        rw [List.zip_cons_cons, List.filter_cons_of_pos (by simp; omega)]
        simp
theorem walkAll_toc (cfg : Cfg) (d : Nat) : ∀ (ss : List Sect) (above : Nat) (st t st' : St) (ls : List (List Char)), SteadyAll cfg d above ss →
    Agree d st t → walkAll ss st = some (ls, st') →
    ∃ t', tocAll cfg (nodesOf d ss) t = some (listed d (levelsAll ss) ls, t') ∧ Agree d st' t'
  | [], above, st, t, st', ls => by
    intro _ ha h
    injection h with h; injection h with h1 h2; subst h1 h2
    exact ⟨t, rfl, ha⟩
  | s :: ss, above, st, t, st', ls => by
    intro hs ha h
    rw [SteadyAll] at hs
    obtain ⟨l, st1, l2, h1, h2, rfl⟩ := walkAll_some h
    obtain ⟨t1, e1, a1⟩ := walk_toc cfg d s above st t st1 l hs.1 ha h1
    obtain ⟨t2, e2, a2⟩ := walkAll_toc cfg d ss above st1 t1 st' l2 hs.2 a1 h2
    refine ⟨t2, ?_, a2⟩
    rw [nodesOf, tocAll_append, e1]
    simp only [e2]
    rw [levelsAll, listed_append (walk_length s st l st1 h1)]
end

theorem toc_some {cfg level special children st ls st'} (h : toc cfg (.mk level special children) st = some (ls, st')) :
    ∃ l st1 ls2 st2, tocLabel cfg level special (enterState special st) = some (l, st1) ∧
      tocAll cfg children st1 = some (ls2, st2) ∧ ls = l :: ls2 ∧ st' = exitState special st2 := by
  rw [toc] at h
  cases hb : tocLabel cfg level special (enterState special st) with
  | none => rw [hb] at h; cases h
  | some r =>
    rw [hb] at h
    obtain ⟨l, st1⟩ := r
    simp only at h
    cases hw : tocAll cfg children st1 with
    | none => rw [hw] at h; cases h
    | some r2 =>
      rw [hw] at h
      obtain ⟨ls2, st2⟩ := r2
      injection h with h; injection h with h1 h2
      exact ⟨l, st1, ls2, st2, rfl, hw, h1.symm, h2.symm⟩

mutual
theorem toc_app (cfg : Cfg) : ∀ (n : Node) (st st' : St) (ls : List (List Char)), st.inAppendix = false →
    toc cfg n st = some (ls, st') → st'.inAppendix = false
  | .mk level special children, st, st', ls => by
    intro ha h
    obtain ⟨l, st1, ls2, st2, hl, hc, _, rfl⟩ := toc_some h
    by_cases hs : special = some .appendix
    · rw [exitState, if_pos hs]
    · rw [exitState, if_neg hs]
      rw [enterState, if_neg hs, tocLabel, if_neg hs] at hl
      refine tocAll_app cfg children st1 st2 ls2 ?_ hc
      split at hl
      · rw [(partPrefix_same hl).2.1, ha]
      · rw [(headingPrefix_same hl).1, ha]
theorem tocAll_app (cfg : Cfg) : ∀ (ns : List Node) (st st' : St) (ls : List (List Char)), st.inAppendix = false →
    tocAll cfg ns st = some (ls, st') → st'.inAppendix = false
  | [], st, st', ls => by
    intro ha h
    injection h with h; injection h with h1 h2; subst h2
    exact ha
  | n :: ns, st, st', ls => by
    intro ha h
    rw [tocAll] at h
    cases h1 : toc cfg n st with
    | none => rw [h1] at h; cases h
    | some r =>
      rw [h1] at h
      simp only at h
      cases h2 : tocAll cfg ns r.2 with
      | none => rw [h2] at h; cases h
      | some r2 =>
        rw [h2] at h
        injection h with h; injection h with _ h; subst h
        exact tocAll_app cfg ns r.2 r2.2 r2.1 (toc_app cfg n st r.2 r.1 ha h1) h2
end

end Verif.Numbering
