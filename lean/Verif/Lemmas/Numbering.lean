import Verif.Spec.Numbering
/-! Lemmas on section numbers. -/
namespace Verif.Numbering
open Verif.Spec.Numbering

theorem toString_digits (n : Nat) : (toString n).toList = digits n := by
  show (Nat.repr n).toList = _
  simp [Nat.repr, digits]

theorem shouldNumber_iff (cfg : Cfg) (level : Nat) (special : Option Special) :
    shouldNumber cfg level special = true ↔ (level : Int) ≤ cfg.levels ∧
      (cfg.sectnums = .all ∨ cfg.sectnums = .yes ∧ ∀ sp, special = some sp → supports cfg.doctype sp = true) := by
  unfold shouldNumber
  cases cfg.sectnums <;> cases special <;> simp <;> omega

theorem shouldNumber_of_numbered {cfg part authored level special children}
    (h : Numbered (.mk cfg part authored level special children)) : shouldNumber cfg level special = true := by
  obtain ⟨_, _, h3, h4⟩ := h
  exact (shouldNumber_iff ..).mpr ⟨h3, h4⟩

theorem shouldNumber_of_not {cfg part authored level special children} (hp : part = false) (hs : special ≠ some .appendix)
    (h : ¬ Numbered (.mk cfg part authored level special children)) : shouldNumber cfg level special = false := by
  rw [← Bool.not_eq_true]
  intro hh
  obtain ⟨h3, h4⟩ := (shouldNumber_iff ..).mp hh
  exact h ⟨hp, hs, h3, h4⟩

theorem bodyLabel_section (cfg : Cfg) (level : Nat) {special : Option Special} (hs : special ≠ some .appendix) (st : St) :
    bodyLabel cfg false level special st = headingPrefix cfg st level special := by
  rw [bodyLabel, if_neg (by simp), if_neg hs]

theorem enterState_plain {special : Option Special} (hs : special ≠ some .appendix) (st : St) : enterState special st = st := if_neg hs
theorem exitState_plain {special : Option Special} (hs : special ≠ some .appendix) (st : St) : exitState special st = st := if_neg hs

mutual
theorem walk_silent : ∀ (s : Sect) (st : St), Silent s → walk s st = some (blanks s, st)
  | .mk cfg part authored level special children, st => by
    intro h
    rw [Silent] at h
    obtain ⟨rfl, h2, h3, h4⟩ := h
    have hn := shouldNumber_of_not rfl h2 h3
    rw [walk]
    simp only [Bool.false_eq_true, if_false, enterState_plain h2, exitState_plain h2, bodyLabel_section _ _ h2, headingPrefix, hn,
      walkAll_silent children st h4, blanks]
theorem walkAll_silent : ∀ (ss : List Sect) (st : St), SilentAll ss → walkAll ss st = some (blanksAll ss, st)
  | [], st => by intro _; rfl
  | s :: ss, st => by
    intro h
    rw [SilentAll] at h
    rw [walkAll, walk_silent s st h.1]
    simp only [walkAll_silent ss st h.2, blanksAll]
end

theorem components_false (app : Bool) (l : List Nat) :
    components app false l = some (l.flatMap fun n => digits n ++ ['.']) := by
  induction l with
  | nil => rfl
  | cons n l ih => simp [components, component, ih]

/-- Text of the ancestors' numbers extended by one more component. -/
theorem components_snoc {app : Bool} {full : List Nat} {t : List Char} (h : components app true full = some t)
    (hf : app = true → full ≠ []) (n : Nat) : components app true (full ++ [n]) = some (t ++ (digits n ++ ['.'])) := by
  cases full with
  | nil =>
    cases app with
    | false =>
      simp [components] at h; subst h
      simp [components, component]
    | true => exact absurd rfl (hf rfl)
  | cons m full =>
    simp only [List.cons_append, components, components_false] at h ⊢
    cases hc : component (app && true) m with
    | none => rw [hc] at h; cases h
    | some c =>
      rw [hc] at h
      simp at h
      subst h
      simp

/-- The state while siblings below the position `full` are numbered, `k` of them
being done; `full` includes the leading 0 of appendices. -/
structure At (st : St) (full : List Nat) (k : Nat) : Prop where
  len : st.nums.length = 5
  front : st.nums.take full.length = full
  count : full.length < 5 → st.nums.getD full.length 0 = k

/-- What numbering sections does not touch. -/
def Same (st st' : St) : Prop := st'.inAppendix = st.inAppendix ∧ st'.captionNum = st.captionNum ∧ st'.partNum = st.partNum

theorem numberPrefix_at {st : St} {full : List Nat} {k : Nat} (h : At st full k) (hl : full.length < 5) (hk : k < 65535)
    {t : List Char} (ht : components st.inAppendix true full = some t) (hf : st.inAppendix = true → full ≠ []) :
    ∃ st', numberPrefix st (full.length + 1) = some (t ++ (digits (k + 1) ++ ['.']) ++ [' '], st') ∧
      At st' (full ++ [k + 1]) 0 ∧ At st' full (k + 1) ∧ Same st st' := by
  have e : numberPrefix st (full.length + 1) =
      match components st.inAppendix true ((st.nums.take full.length ++ (st.nums.getD full.length 0 + 1) :: List.replicate (5 - (full.length + 1)) 0).take (full.length + 1)) with
      | none => none
      | some t => some (t ++ [' '], { st with nums := st.nums.take full.length ++ (st.nums.getD full.length 0 + 1) :: List.replicate (5 - (full.length + 1)) 0 }) := by
    unfold numberPrefix
    rw [if_neg (by omega)]
    simp only [Nat.add_sub_cancel]
    rw [h.count hl, if_neg (by omega)]
    rfl
  rw [e, h.count hl, h.front]
  have e2 : (full ++ (k + 1) :: List.replicate (5 - (full.length + 1)) 0).take (full.length + 1) = full ++ [k + 1] := by
    rw [show full ++ (k + 1) :: List.replicate (5 - (full.length + 1)) 0 = (full ++ [k + 1]) ++ List.replicate (5 - (full.length + 1)) 0 by simp]
    exact List.take_left' (by simp)
  rw [e2, components_snoc ht hf]
  refine ⟨_, rfl, ⟨?_, ?_, ?_⟩, ⟨?_, ?_, ?_⟩, rfl, rfl, rfl⟩
  · simp; omega
  · simp only [List.length_append, List.length_cons, List.length_nil]
    exact e2
  · intro h5
    simp only [List.length_append, List.length_cons, List.length_nil] at h5 ⊢
    rw [show full ++ (k + 1) :: List.replicate (5 - (full.length + 1)) 0 = (full ++ [k + 1]) ++ List.replicate (5 - (full.length + 1)) 0 by simp]
    rw [List.getD_eq_getElem?_getD, List.getElem?_append_right (by simp)]
    simp only [List.length_append, List.length_cons, List.length_nil, Nat.sub_self, List.getElem?_replicate]
    split <;> rfl
  · simp; omega
  · exact List.take_left' rfl
  · intro _
    rw [List.getD_eq_getElem?_getD, List.getElem?_append_right (by simp)]
    simp

theorem headingPrefix_numbered {cfg : Cfg} {level : Nat} {special : Option Special} {st st' : St} {t : List Char}
    (h : shouldNumber cfg level special = true) (hp : numberPrefix st level = some (t, st')) :
    headingPrefix cfg st level special = some (signifier cfg level ++ t, st') := by
  unfold headingPrefix
  rw [if_pos h, hp]
  simp only
  congr 2
  unfold signifier
  split
  · rename_i h1 h2; rw [if_pos ⟨rfl, h1⟩, h2]; rfl
  · rename_i hn
    split
    · rename_i hh
      obtain ⟨rfl, hb⟩ := hh
      cases hc : cfg.chapterSignifier with
      | none => rfl
      | some s => exact absurd hc (hn s rfl hb)
    · rfl

mutual
theorem walk_plain : ∀ (s : Sect) (st : St) (full : List Nat) (k : Nat) (letter : List Char) (path : List Nat),
    Numbered s → Plain (full.length + 1) s → At st full k → k < 65535 →
    components st.inAppendix true full = some (letter ++ path.flatMap fun n => digits n ++ ['.']) →
    (st.inAppendix = true → full ≠ []) →
    ∃ st', walk s st = some (labels letter (path ++ [k + 1]) s, st') ∧ At st' full (k + 1) ∧ Same st st'
  | .mk cfg part authored level special children, st, full, k, letter, path => by
    intro hn hp hat hk hc hf
    rw [Plain] at hp
    obtain ⟨rfl, h2, rfl, h4, _, h6, h7⟩ := hp
    obtain ⟨st1, e1, a1, a2, sm⟩ := numberPrefix_at hat (by omega) hk hc hf
    have e2 := headingPrefix_numbered (shouldNumber_of_numbered hn) e1
    have hc1 : components st1.inAppendix true (full ++ [k + 1]) =
        some (letter ++ (path ++ [k + 1]).flatMap fun n => digits n ++ ['.']) := by
      rw [sm.1, components_snoc hc hf]; simp
    obtain ⟨st2, e3, a3, sm2⟩ := walkAll_plain children st1 (full ++ [k + 1]) 0 letter (path ++ [k + 1])
      (by simpa using h7) a1 (by omega) hc1 (by simp)
    refine ⟨st2, ?_, ?_, ?_⟩
    · rw [walk]
      simp only [Bool.false_eq_true, if_false, enterState_plain h2, exitState_plain h2, bodyLabel_section _ _ h2, e2, e3, labels]
      simp [dotted, ← toString_digits]
    · refine ⟨a3.len, ?_, fun h5 => ?_⟩
      · have := a3.front
        have := congrArg (List.take full.length) this
        rw [List.take_take] at this
        simpa using this
      · have h := a3.front
        have h' := congrArg (fun l => l.getD full.length 0) h
        simp only [List.getD_eq_getElem?_getD, List.length_append, List.length_cons, List.length_nil] at h'
        rw [List.getElem?_take_of_lt (by omega)] at h'
        rw [List.getD_eq_getElem?_getD, h']
        simp
    · exact ⟨sm2.1.trans sm.1, sm2.2.1.trans sm.2.1, sm2.2.2.trans sm.2.2⟩
theorem walkAll_plain : ∀ (ss : List Sect) (st : St) (full : List Nat) (k : Nat) (letter : List Char) (path : List Nat),
    PlainAll (full.length + 1) ss → At st full k → k + ss.length ≤ 65535 →
    components st.inAppendix true full = some (letter ++ path.flatMap fun n => digits n ++ ['.']) →
    (st.inAppendix = true → full ≠ []) →
    ∃ st', walkAll ss st = some (labelsAll letter path k ss, st') ∧ At st' full (k + ss.countP (Numbered ·)) ∧ Same st st'
  | [], st, full, k, letter, path => by
    intro _ hat _ _ _
    exact ⟨st, rfl, hat, rfl, rfl, rfl⟩
  | s :: ss, st, full, k, letter, path => by
    intro hp hat hk hc hf
    rw [PlainAll] at hp
    simp only [List.length_cons] at hk
    rw [walkAll, labelsAll]
    by_cases hn : Numbered s
    · rw [if_pos hn]
      obtain ⟨st1, e1, a1, s1⟩ := walk_plain s st full k letter path hn hp.1 hat (by omega) hc hf
      obtain ⟨st2, e2, a2, s2⟩ := walkAll_plain ss st1 full (k + 1) letter path hp.2 a1 (by omega) (by rw [s1.1]; exact hc) (by rw [s1.1]; exact hf)
      refine ⟨st2, by simp only [e1, e2], by rw [List.countP_cons_of_pos (by simpa using hn), show k + (ss.countP (Numbered ·) + 1) = k + 1 + ss.countP (Numbered ·) by omega]; exact a2, s2.1.trans s1.1, s2.2.1.trans s1.2.1, s2.2.2.trans s1.2.2⟩
    · rw [if_neg hn]
      have hs : Silent s := by
        cases s with
        | mk cfg part authored level special children =>
          obtain ⟨h1, _⟩ := hp
          rw [Plain] at h1
          rw [Silent]
          exact ⟨h1.1, h1.2.1, hn, h1.2.2.2.2.1 hn⟩
      obtain ⟨st2, e2, a2, s2⟩ := walkAll_plain ss st full k letter path hp.2 hat (by omega) hc hf
      exact ⟨st2, by simp only [walk_silent s st hs, e2], by rw [List.countP_cons_of_neg (by simpa using hn)]; exact a2, s2⟩
end

theorem walkAll_append (a b : List Sect) (st : St) : walkAll (a ++ b) st =
    match walkAll a st with
    | none => none
    | some (l, st) => match walkAll b st with
      | none => none
      | some (l', st) => some (l ++ l', st) := by
  induction a generalizing st with
  | nil =>
    simp only [List.nil_append, walkAll]
    cases walkAll b st with
    | none => rfl
    | some r => rfl
  | cons s a ih =>
    simp only [List.cons_append, walkAll]
    cases walk s st with
    | none => rfl
    | some r =>
      simp only
      rw [ih r.2]
      cases walkAll a r.2 with
      | none => rfl
      | some r2 =>
        simp only
        cases walkAll b r2.2 with
        | none => rfl
        | some r3 => simp

theorem appendixCaption_eq {cfg : Cfg} {st : St} (h : st.captionNum < 26) :
    ∃ c, alphabet[st.captionNum]? = some c ∧
      appendixCaption cfg st = some (caption cfg c, { st with captionNum := st.captionNum + 1 }) := by
  refine ⟨Char.ofNat (65 + st.captionNum), ?_, ?_⟩
  · generalize st.captionNum = n at h
    revert n
    decide +kernel
  · rw [appendixCaption, if_pos (by omega)]
    unfold caption
    cases cfg.caption <;> simp <;> rfl

/-! ### what numbering leaves alone -/

theorem numberPrefix_same {st st' : St} {level t} (hn : numberPrefix st level = some (t, st')) : Same st st' := by
  unfold numberPrefix at hn
  split at hn
  · cases hn
  · dsimp only at hn
    split at hn
    · cases hn
    · split at hn
      · cases hn
      · injection hn with hn; injection hn with _ hn; subst hn
        exact ⟨rfl, rfl, rfl⟩

theorem headingPrefix_cases {cfg : Cfg} {st st' : St} {level special t} (h : headingPrefix cfg st level special = some (t, st')) :
    (shouldNumber cfg level special = true ∧ ∃ t', numberPrefix st level = some (t', st') ∧ t = signifier cfg level ++ t') ∨
    (shouldNumber cfg level special = false ∧ t = [] ∧ st' = st) := by
  by_cases hs : shouldNumber cfg level special = true
  · left
    refine ⟨hs, ?_⟩
    cases hn : numberPrefix st level with
    | none => unfold headingPrefix at h; rw [if_pos hs, hn] at h; cases h
    | some r =>
      rw [headingPrefix_numbered hs hn] at h
      injection h with h; injection h with h1 h2
      subst h1 h2
      exact ⟨_, rfl, rfl⟩
  · right
    unfold headingPrefix at h
    rw [if_neg hs] at h
    injection h with h; injection h with h1 h2
    exact ⟨by simpa using hs, h1.symm, h2.symm⟩

theorem headingPrefix_same {cfg : Cfg} {st st' : St} {level special t} (h : headingPrefix cfg st level special = some (t, st')) : Same st st' := by
  rcases headingPrefix_cases h with ⟨_, t', h, _⟩ | ⟨_, _, rfl⟩
  · exact numberPrefix_same h
  · exact ⟨rfl, rfl, rfl⟩

theorem appendixCaption_same {cfg : Cfg} {st st' : St} {t} (h : appendixCaption cfg st = some (t, st')) :
    st'.nums = st.nums ∧ st'.inAppendix = st.inAppendix ∧ st'.partNum = st.partNum ∧ st'.captionNum = st.captionNum + 1 := by
  unfold appendixCaption at h
  split at h
  · injection h with h; injection h with _ h; subst h
    exact ⟨rfl, rfl, rfl, rfl⟩
  · cases h

theorem partPrefix_same {cfg : Cfg} {st st' : St} {t} (h : partPrefix cfg st = some (t, st')) :
    st'.nums = st.nums ∧ st'.inAppendix = st.inAppendix ∧ st'.captionNum = st.captionNum := by
  unfold partPrefix at h
  split at h
  · dsimp only at h
    split at h
    · split at h
      · cases h
      · injection h with h; injection h with _ h; subst h
        exact ⟨rfl, rfl, rfl⟩
    · injection h with h; injection h with _ h; subst h
      exact ⟨rfl, rfl, rfl⟩
  · injection h with h; injection h with _ h; subst h
    exact ⟨rfl, rfl, rfl⟩

theorem enterState_caption (sp : Option Special) (st : St) : (enterState sp st).captionNum = st.captionNum := by
  unfold enterState; split <;> rfl
theorem exitState_caption (sp : Option Special) (st : St) : (exitState sp st).captionNum = st.captionNum := by
  unfold exitState; split <;> rfl

theorem walk_some {cfg part authored level special children st ls st'}
    (h : walk (.mk cfg part authored level special children) st = some (ls, st')) :
    ∃ l st1 ls2 st2, bodyLabel cfg part level special (enterState (if part then none else special) st) = some (l, st1) ∧
      walkAll children st1 = some (ls2, st2) ∧ ls = l :: ls2 ∧ st' = exitState (if part then none else special) st2 := by
  rw [walk] at h
  cases hb : bodyLabel cfg part level special (enterState (if part then none else special) st) with
  | none => rw [hb] at h; cases h
  | some r =>
    rw [hb] at h
    obtain ⟨l, st1⟩ := r
    simp only at h
    cases hw : walkAll children st1 with
    | none => rw [hw] at h; cases h
    | some r2 =>
      rw [hw] at h
      obtain ⟨ls2, st2⟩ := r2
      injection h with h; injection h with h1 h2
      exact ⟨l, st1, ls2, st2, rfl, hw, h1.symm, h2.symm⟩

theorem walkAll_some {s ss st ls st'} (h : walkAll (s :: ss) st = some (ls, st')) :
    ∃ l st1 l2, walk s st = some (l, st1) ∧ walkAll ss st1 = some (l2, st') ∧ ls = l ++ l2 := by
  rw [walkAll] at h
  cases h1 : walk s st with
  | none => rw [h1] at h; cases h
  | some r =>
    rw [h1] at h
    obtain ⟨l, st1⟩ := r
    simp only at h
    cases h2 : walkAll ss st1 with
    | none => rw [h2] at h; cases h
    | some r2 =>
      rw [h2] at h
      obtain ⟨l2, st2⟩ := r2
      injection h with h; injection h with e1 e2
      subst e2
      exact ⟨l, st1, l2, rfl, h2, e1.symm⟩

mutual
/-- Sections without appendices inside do not use up letters. -/
theorem walk_caption : ∀ (s : Sect) (st : St) (ls : List (List Char)) (st' : St), NoAppendix s → walk s st = some (ls, st') →
    st'.captionNum = st.captionNum
  | .mk cfg part authored level special children, st, ls, st' => by
    intro hn h
    rw [NoAppendix] at hn
    obtain ⟨l, st1, ls2, st2, hb, hw, _, rfl⟩ := walk_some h
    rw [exitState_caption, walkAll_caption children st1 ls2 st2 hn.2 hw]
    unfold bodyLabel at hb
    split at hb
    · exact (partPrefix_same hb).2.2.trans (enterState_caption _ _)
    · rename_i hp
      rw [if_neg (hn.1 (by simpa using hp))] at hb
      exact (headingPrefix_same hb).2.1.trans (enterState_caption _ _)
theorem walkAll_caption : ∀ (ss : List Sect) (st : St) (ls : List (List Char)) (st' : St), NoAppendixAll ss → walkAll ss st = some (ls, st') →
    st'.captionNum = st.captionNum
  | [], st, ls, st' => by
    intro _ h
    injection h with h; injection h with _ h; subst h; rfl
  | s :: ss, st, ls, st' => by
    intro hn h
    rw [NoAppendixAll] at hn
    obtain ⟨l, st1, l2, h1, h2, _⟩ := walkAll_some h
    rw [walkAll_caption ss st1 l2 st' hn.2 h2, walk_caption s st l st1 hn.1 h1]
end

end Verif.Numbering
