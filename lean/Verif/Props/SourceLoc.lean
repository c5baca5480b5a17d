import Verif.Model.SourceLoc
/-! C28: source locations. -/
namespace Verif.Props
open Verif.SourceLoc

private theorem uid_eq (d s : Nat) (hs : s < 2 ^ 32) : (d <<< 32) ||| s = d * 2 ^ 32 + s := by
  rw [← Nat.shiftLeft_add_eq_or_of_lt hs, Nat.shiftLeft_eq]

/-- C28: two locations have the same identifier exactly if they start at the same position of the same source. -/
theorem C28_uid_injective (l m : Loc) (hl : l.Fits) (hm : m.Fits) :
    l.uid = m.uid ↔ l.depth = m.depth ∧ l.start = m.start := by
  obtain ⟨h1, _, h2⟩ := hl
  obtain ⟨h3, _, h4⟩ := hm
  unfold Loc.uid
  rw [uid_eq _ _ h1, uid_eq _ _ h3]
  constructor
  · intro h; omega
  · rintro ⟨h, h'⟩; rw [h, h']

/-- C28: the identifier fits into 64 bits, so the shift loses nothing. -/
theorem C28_uid_fits (l : Loc) (hl : l.Fits) : l.uid < 2 ^ 64 := by
  obtain ⟨h1, _, h2⟩ := hl
  unfold Loc.uid
  rw [uid_eq _ _ h1]
  omega

example : (Loc.mk 5 9 1).uid ≠ (Loc.mk 5 9 2).uid := by decide

/-- C28: the identifier of a block is that of its first location. -/
theorem C28_multi_uid (a b : Loc) : (Multi.spanning a b).uid = a.uid ∧ (Multi.ofLoc a).uid = a.uid := ⟨rfl, rfl⟩

/-- `l` covers `m`: same source, and no position of `m` outside `l` -/
def Covers (l m : Loc) : Prop := l.depth = m.depth ∧ l.start ≤ m.start ∧ m.stop ≤ l.stop

/-- C28: extending a location to another of the same source gives the smallest location that covers both. -/
theorem C28_extend_covers_partial (l m : Loc) (h : l.depth = m.depth) :
    Covers (l.extend m) l ∧ Covers (l.extend m) m ∧ ∀ n, Covers n l → Covers n m → Covers n (l.extend m) := by
  refine ⟨⟨rfl, ?_, ?_⟩, ⟨h, ?_, ?_⟩, ?_⟩
  · simp only [Loc.extend]; omega
  · simp only [Loc.extend]; omega
  · simp only [Loc.extend]; omega
  · simp only [Loc.extend]; omega
  · rintro n ⟨h1, h2, h3⟩ ⟨_, h5, h6⟩
    refine ⟨h1, ?_, ?_⟩
    · simp only [Loc.extend]; omega
    · simp only [Loc.extend]; omega

/-- C28 is violated across sources: extending a location to one of an included file keeps the first source but
takes the positions of the other file. -/
theorem C28_extend_sources_violated :
    (Loc.mk 100 110 0).extend ⟨3, 7, 1⟩ = ⟨3, 110, 0⟩ ∧ ¬ Covers ((Loc.mk 100 110 0).extend ⟨3, 7, 1⟩) ⟨3, 7, 1⟩ := by
  refine ⟨rfl, ?_⟩
  rintro ⟨h, _⟩
  cases h

/-- C28: extending keeps a location in range and well formed. -/
theorem C28_extend_fits (l m : Loc) (hl : l.Fits) (hm : m.Fits) (h : l.start ≤ l.stop) :
    (l.extend m).Fits ∧ (l.extend m).start ≤ (l.extend m).stop := by
  obtain ⟨h1, h2, h3⟩ := hl
  obtain ⟨h4, h5, h6⟩ := hm
  refine ⟨⟨?_, ?_, h3⟩, ?_⟩
  all_goals simp only [Loc.extend]; omega

/-- C28: a location between two others is defined exactly if they are in order and of one source, and covers both. -/
theorem C28_spanning (a b : Loc) : (∀ c, a.spanning b = some c →
      c.start = a.start ∧ c.stop = b.stop ∧ Covers c a ∧ (a.start ≤ a.stop → b.start ≤ b.stop → Covers c b)) ∧
    ((a.spanning b).isSome ↔ a.start ≤ b.start ∧ a.stop ≤ b.stop ∧ a.depth = b.depth) := by
  unfold Loc.spanning
  constructor
  · intro c hc
    split at hc
    · rename_i h
      cases hc
      exact ⟨rfl, rfl, ⟨rfl, Nat.le_refl _, h.2.1⟩, fun _ _ => ⟨h.2.2, h.1, Nat.le_refl _⟩⟩
    · cases hc
  · split <;> simp_all

/-- C28: the operations that move the ends of a location, when they do not fail, move them by exactly the amounts
named, keep the source, and give a well formed location in range; they fail only if the result would not be one. -/
theorem C28_move (l : Loc) (ds de : Int) : (∀ m, l.move ds de = some m →
      (m.start : Int) = l.start + ds ∧ (m.stop : Int) = l.stop + de ∧ m.depth = l.depth ∧ m.start ≤ m.stop ∧
      m.start < 2 ^ 32 ∧ m.stop < 2 ^ 32) ∧
    ((l.move ds de).isSome ↔ 0 ≤ (l.start : Int) + ds ∧ (l.start : Int) + ds ≤ l.stop + de ∧ (l.stop : Int) + de < 2 ^ 32) := by
  unfold Loc.move u32 Loc.mk?
  by_cases h1 : 0 ≤ (l.start : Int) + ds ∧ (l.start : Int) + ds < 2 ^ 32
  · by_cases h2 : 0 ≤ (l.stop : Int) + de ∧ (l.stop : Int) + de < 2 ^ 32
    · rw [if_pos h1, if_pos h2]
      simp only [Option.bind_some]
      by_cases h3 : ((l.start : Int) + ds).toNat ≤ ((l.stop : Int) + de).toNat
      · rw [if_pos h3]
        constructor
        · intro m hm
          cases hm
          refine ⟨?_, ?_, rfl, h3, ?_, ?_⟩
          all_goals simp only; omega
        · simp only [Option.isSome_some, true_iff]; omega
      · rw [if_neg h3]
        refine ⟨fun m hm => (by cases hm), ?_⟩
        simp only [Option.isSome_none, Bool.false_eq_true, false_iff]; omega
    · rw [if_pos h1, if_neg h2]
      simp only [Option.bind_some, Option.bind_none]
      refine ⟨fun m hm => (by cases hm), ?_⟩
      simp only [Option.isSome_none, Bool.false_eq_true, false_iff]; omega
  · rw [if_neg h1]
    simp only [Option.bind_none]
    refine ⟨fun m hm => (by cases hm), ?_⟩
    simp only [Option.isSome_none, Bool.false_eq_true, false_iff]; omega

/-- C28: each of the operations moves the ends it names by the amount it names, and only these. -/
theorem C28_steps (l m : Loc) (n : Nat) :
    (l.incrStart = some m → m = ⟨l.start + 1, l.stop, l.depth⟩) ∧
    (l.decrStart = some m → l = ⟨m.start + 1, m.stop, m.depth⟩) ∧
    (l.incrEnd = some m → m = ⟨l.start, l.stop + 1, l.depth⟩) ∧
    (l.decrEnd = some m → l = ⟨m.start, m.stop + 1, m.depth⟩) ∧
    (l.incr = some m → m = ⟨l.start + 1, l.stop + 1, l.depth⟩) ∧
    (l.decr = some m → l = ⟨m.start + 1, m.stop + 1, m.depth⟩) ∧
    (l.addingToEnd n = some m → m = ⟨l.start, l.stop + n, l.depth⟩) ∧
    (l.subtractingFromStart n = some m → l = ⟨m.start + n, m.stop, m.depth⟩) ∧
    (l.settingEnd n = some m → m = ⟨l.start, n, l.depth⟩) ∧
    (l.offset n = some m → m = ⟨l.start + n, l.stop + n, l.depth⟩) ∧
    l.clampStart = ⟨l.start, l.start, l.depth⟩ ∧ l.clampEnd = ⟨l.stop, l.stop, l.depth⟩ := by
  have key : ∀ ds de, l.move ds de = some m →
      (m.start : Int) = l.start + ds ∧ (m.stop : Int) = l.stop + de ∧ m.depth = l.depth := by
    intro ds de h
    obtain ⟨h1, h2, h3, _⟩ := (C28_move l ds de).1 m h
    exact ⟨h1, h2, h3⟩
  refine ⟨fun h => ?_, fun h => ?_, fun h => ?_, fun h => ?_, fun h => ?_, fun h => ?_, fun h => ?_, fun h => ?_,
    fun h => ?_, fun h => ?_, rfl, rfl⟩
  · obtain ⟨h1, h2, h3⟩ := key 1 0 h
    cases l; cases m; simp only [Loc.mk.injEq] at *; omega
  · obtain ⟨h1, h2, h3⟩ := key (-1) 0 h
    cases l; cases m; simp only [Loc.mk.injEq] at *; omega
  · obtain ⟨h1, h2, h3⟩ := key 0 1 h
    cases l; cases m; simp only [Loc.mk.injEq] at *; omega
  · obtain ⟨h1, h2, h3⟩ := key 0 (-1) h
    cases l; cases m; simp only [Loc.mk.injEq] at *; omega
  · obtain ⟨h1, h2, h3⟩ := key 1 1 h
    cases l; cases m; simp only [Loc.mk.injEq] at *; omega
  · obtain ⟨h1, h2, h3⟩ := key (-1) (-1) h
    cases l; cases m; simp only [Loc.mk.injEq] at *; omega
  · obtain ⟨h1, h2, h3⟩ := key 0 n h
    cases l; cases m; simp only [Loc.mk.injEq] at *; omega
  · obtain ⟨h1, h2, h3⟩ := key (-n) 0 h
    cases l; cases m; simp only [Loc.mk.injEq] at *; omega
  · unfold Loc.settingEnd Loc.mk? at h
    split at h <;> cases h
    rfl
  · obtain ⟨h1, h2, h3⟩ := key n n h
    cases l; cases m; simp only [Loc.mk.injEq] at *; omega

example : (Loc.mk 5 9 1).decr = some ⟨4, 8, 1⟩ ∧ (Loc.mk 0 9 1).decr = none ∧ (Loc.mk 5 9 1).incrStart = some ⟨6, 9, 1⟩ := by decide

/-- C28: shifting a location keeps its size, and stepping forward then back gives it again. -/
theorem C28_shift (l m : Loc) (n : Nat) (hl : l.Fits) (h : l.start ≤ l.stop) (hm : l.offset n = some m) :
    m.size = l.size ∧ m.move (-n) (-n) = some l := by
  obtain ⟨h1, h2, h3, h4, h5, h6⟩ := (C28_move l n n).1 m hm
  have h7 := (C28_move m (-n) (-n))
  obtain ⟨hf1, hf2, _⟩ := hl
  constructor
  · unfold Loc.size
    rw [if_pos h4, if_pos h]
    have : m.stop - m.start = l.stop - l.start := by omega
    rw [this]
  · have h8 := h7.2.mpr (by omega)
    obtain ⟨k, hk⟩ := Option.isSome_iff_exists.mp h8
    obtain ⟨g1, g2, g3, _⟩ := h7.1 k hk
    rw [hk]
    have e1 : k.start = l.start := by omega
    have e2 : k.stop = l.stop := by omega
    have e3 : k.depth = l.depth := by omega
    cases k; cases l
    simp only at e1 e2 e3
    rw [e1, e2, e3]

example : (Loc.mk 3 5 0).incr = some ⟨4, 6, 0⟩ ∧ (Loc.mk 0 5 0).decrStart = none ∧ (Loc.mk 3 5 0).offset 4 = some ⟨7, 9, 0⟩ := by
  decide

/-- C28: a location of several sources is one location again exactly if it starts and ends in one source. -/
theorem C28_coalesce (a b : Loc) : (Multi.ofLoc a).coalesce = some a ∧
    (∀ c, (Multi.spanning a b).coalesce = some c ↔ a.depth = b.depth ∧ c = ⟨a.start, b.stop, a.depth⟩) ∧
    (Multi.ofLoc a).extendEnd (Multi.ofLoc b) = Multi.spanning a b ∧
    (Multi.ofLoc a).settingEnd b = Multi.spanning a b ∧ (Multi.ofLoc b).settingStart a = Multi.spanning a b := by
  refine ⟨by simp [Multi.ofLoc, Multi.coalesce], ?_, rfl, rfl, rfl⟩
  intro c
  unfold Multi.spanning Multi.coalesce
  simp only
  split
  · rename_i h
    simp only [Option.some.injEq, h, true_and]
    exact eq_comm
  · rename_i h; simp [h]

end Verif.Props
