import Verif.Spec.Subs
namespace Verif
open Substitutions

theorem bit_or_fin : ∀ f : Fin 256, ∀ x y : Fin 7,
    let S : Fin 7 → Sub := fun i => [Sub.specialChars, .inlineFormatting, .attrRefs, .charReplacement,
      .macros, .postReplacement, .callouts][i]
    (((UInt8.ofNat f.val ||| (S x).bit) &&& (S y).bit) != 0)
      = (((UInt8.ofNat f.val) &&& (S y).bit != 0) || decide (x = y)) ∧
    (((UInt8.ofNat f.val &&& ~~~(S x).bit) &&& (S y).bit) != 0)
      = (((UInt8.ofNat f.val) &&& (S y).bit != 0) && !decide (x = y)) := by decide +kernel

def Sub.idx : Sub → Fin 7
  | .specialChars => 0 | .inlineFormatting => 1 | .attrRefs => 2 | .charReplacement => 3
  | .macros => 4 | .postReplacement => 5 | .callouts => 6

theorem Sub.idx_inj (x y : Sub) : x.idx = y.idx ↔ x = y := by
  cases x <;> cases y <;> simp [Sub.idx]

theorem Sub.ofIdx (x : Sub) : [Sub.specialChars, .inlineFormatting, .attrRefs, .charReplacement,
      .macros, .postReplacement, .callouts][x.idx] = x := by cases x <;> rfl

theorem bit_or (f : UInt8) (x y : Sub) :
    ((f ||| x.bit) &&& y.bit != 0) = ((f &&& y.bit != 0) || decide (x = y)) := by
  have := (bit_or_fin ⟨f.toNat, f.toNat_lt⟩ x.idx y.idx).1
  simp only [Sub.ofIdx, UInt8.ofNat_toNat, Sub.idx_inj] at this
  exact this

theorem bit_clear (f : UInt8) (x y : Sub) :
    ((f &&& ~~~x.bit) &&& y.bit != 0) = ((f &&& y.bit != 0) && !decide (x = y)) := by
  have := (bit_or_fin ⟨f.toNat, f.toNat_lt⟩ x.idx y.idx).2
  simp only [Sub.ofIdx, UInt8.ofNat_toNat, Sub.idx_inj] at this
  exact this

/-! ### membership -/

theorem contains_insert (s : Substitutions) (x y : Sub) :
    (s.insert x).contains y = (s.contains y || decide (x = y)) := by
  unfold Substitutions.insert
  split
  · by_cases h : x = y
    · subst h; simp_all
    · simp [h]
  · simp [Substitutions.contains, bit_or]

theorem contains_remove (s : Substitutions) (x y : Sub) :
    (s.remove x).contains y = (s.contains y && !decide (x = y)) := by
  unfold Substitutions.remove
  split
  · by_cases h : x = y
    · subst h; simp_all
    · simp [h]
  · simp [Substitutions.contains, bit_clear]

theorem contains_prepend {s s' : Substitutions} {x : Sub} (h : s.prepend x = some s') (y : Sub) :
    s'.contains y = (s.contains y || decide (x = y)) := by
  unfold Substitutions.prepend at h
  simp only at h
  split at h
  · cases h; simp [Substitutions.contains, bit_or]
  · cases h

theorem contains_append {s s' : Substitutions} {x : Sub} (h : s.append x = some s') (y : Sub) :
    s'.contains y = (s.contains y || decide (x = y)) := by
  unfold Substitutions.append at h
  simp only at h
  split at h <;> split at h <;> cases h <;> simp [Substitutions.contains, bit_or]

/-! ### shape of the slot array -/

/-- `order` is `live` followed by empty slots, seven in all -/
def Shape (s : Substitutions) (live : List Sub) : Prop :=
  live.Nodup ∧ s.order = live.map some ++ List.replicate (7 - live.length) Option.none

theorem nodup_le7 {l : List Sub} (h : l.Nodup) : l.length ≤ 7 := by
  have := List.Nodup.length_le_of_subset (l₂ := [Sub.specialChars, .inlineFormatting, .attrRefs,
    .charReplacement, .macros, .postReplacement, .callouts]) h (by intro x _; cases x <;> simp)
  simpa using this

theorem filterMap_shape (l : List Sub) (n : Nat) :
    (l.map some ++ List.replicate n Option.none).filterMap id = l := by
  simp [List.filterMap_append]

theorem Shape.list {s : Substitutions} {l : List Sub} (h : Shape s l) : s.list = l := by
  simp [Substitutions.list, h.2]

theorem fillFirst_shape (x : Sub) (l : List Sub) (n m : Nat) (h : l.length < n) :
    fillFirst x n (l.map some ++ List.replicate (m + 1) Option.none)
      = (l ++ [x]).map some ++ List.replicate m Option.none := by
  induction l generalizing n with
  | nil =>
    obtain ⟨k, rfl⟩ : ∃ k, n = k + 1 := ⟨n - 1, by simp at h; omega⟩
    simp [fillFirst, List.replicate_succ]
  | cons y l ih =>
    obtain ⟨k, rfl⟩ : ∃ k, n = k + 1 := ⟨n - 1, by simp at h; omega⟩
    simp only [List.map_cons, List.cons_append, fillFirst]
    rw [ih k (by simp at h; omega)]

theorem fillFirst_full (x : Sub) (l : List Sub) (n : Nat) (tl : List (Option Sub)) (h : n ≤ l.length) :
    fillFirst x n (l.map some ++ tl) = l.map some ++ tl := by
  induction l generalizing n with
  | nil => simp at h; subst h; simp [fillFirst]
  | cons y l ih =>
    cases n with
    | zero => simp [fillFirst]
    | succ n => simp only [List.map_cons, List.cons_append, fillFirst]; rw [ih n (by simpa using h)]

theorem Shape.insert_new {s : Substitutions} {l : List Sub} {x : Sub} (h : Shape s l)
    (hx : x ∉ l) (hc : s.contains x = false) (hl : l.length < 6) : Shape (s.insert x) (l ++ [x]) := by
  have h7 : 7 - l.length = (6 - l.length) + 1 := by omega
  refine ⟨?_, ?_⟩
  · rw [List.nodup_append]; refine ⟨h.1, by simp, ?_⟩
    intro a ha b hb; simp at hb; subst hb; intro hab; subst hab; exact hx ha
  · simp only [Substitutions.insert, hc, h.2, h7, Bool.false_eq_true, if_false]
    rw [fillFirst_shape x l 6 _ hl]; simp [show 7 - (l.length + 1) = 6 - l.length by omega]

theorem Shape.insert_any {s : Substitutions} {l : List Sub} {x : Sub} (h : Shape s l)
    (hsub : ∀ y ∈ l, s.contains y = true) :
    Shape (s.insert x) (if s.contains x then l else if l.length < 6 then l ++ [x] else l) := by
  by_cases hc : s.contains x
  · simp [hc, Substitutions.insert, h]
  · have hc' : s.contains x = false := by simpa using hc
    have hx : x ∉ l := fun hm => by simp [hsub x hm] at hc'
    simp only [hc', Bool.false_eq_true, if_false]
    split
    · exact h.insert_new hx hc' (by assumption)
    · refine ⟨h.1, ?_⟩
      simp only [Substitutions.insert, hc', Bool.false_eq_true, if_false, h.2]
      rw [fillFirst_full]; omega

theorem filter_ne_erase {l : List Sub} (h : l.Nodup) (x : Sub) : l.filter (· != x) = l.erase x := by
  rw [h.erase_eq_filter]

theorem Shape.remove_mem {s : Substitutions} {l : List Sub} {x : Sub} (h : Shape s l)
    (hc : s.contains x = true) : Shape (s.remove x) (l.erase x) := by
  refine ⟨h.1.erase x, ?_⟩
  have h7 := nodup_le7 h.1
  have hf : s.order.filter (· != some x)
      = (l.erase x).map some ++ List.replicate (7 - l.length) Option.none := by
    rw [h.2, List.filter_append, ← filter_ne_erase h.1, List.filter_map]
    congr 1
    simp
  simp only [Substitutions.remove, hc, Bool.not_true, Bool.false_eq_true, if_false, hf]
  rw [List.append_assoc, List.replicate_append_replicate]
  congr 2
  have : (l.erase x).length ≤ l.length := List.length_erase_le
  simp; omega

theorem Shape.prepend {s : Substitutions} {l : List Sub} {x : Sub} (h : Shape s l) :
    ∃ s', s.prepend x = some s' ∧ Shape s' (x :: l.erase x) := by
  have hn : (x :: l.erase x).Nodup := by
    rw [List.nodup_cons]; exact ⟨h.1.not_mem_erase, h.1.erase x⟩
  have h7 := nodup_le7 hn
  simp only [Substitutions.prepend, h.2, filterMap_shape, filter_ne_erase h.1]
  rw [if_pos h7]
  exact ⟨_, rfl, hn, rfl⟩

theorem Shape.append_new {s : Substitutions} {l : List Sub} {x : Sub} (h : Shape s l)
    (hx : x ∉ l ∨ l.getLast? = some x) :
    ∃ s', s.append x = some s' ∧ Shape s' (l.erase x ++ [x]) := by
  have hn : (l.erase x ++ [x]).Nodup := by
    rw [List.nodup_append]
    refine ⟨h.1.erase x, by simp, ?_⟩
    intro a ha b hb; simp at hb; subst hb; intro hab; subst hab; exact h.1.not_mem_erase ha
  have he : (if l.getLast? ≠ some x then l ++ [x] else l) = l.erase x ++ [x] := by
    rcases hx with hx | hx
    · have : l.getLast? ≠ some x := fun hh => hx (List.mem_of_getLast? hh)
      simp [this, List.erase_of_not_mem hx]
    · obtain ⟨l', rfl⟩ : ∃ l', l = l' ++ [x] := List.getLast?_eq_some_iff.mp hx
      have hx' : x ∉ l' := by
        have := h.1; rw [List.nodup_append] at this
        intro hm; exact this.2.2 x hm x (by simp) rfl
      simp [List.erase_append_right _ hx']
  have h7 := nodup_le7 hn
  simp only [Substitutions.append, h.2, filterMap_shape]
  rw [he, if_pos h7]
  exact ⟨_, rfl, hn, rfl⟩

/-! ### weak invariant for `from_meta` -/

def Weak (s : Substitutions) : Prop := ∃ l, Shape s l ∧ ∀ y ∈ l, s.contains y = true

theorem Weak.apply1 {s : Substitutions} (h : Weak s) (st : SubStrategy) (x : Sub) :
    ∃ s', st.apply1 s x = some s' ∧ Weak s' ∧
      ∀ y, s'.contains y = (match st with
        | .remove => s.contains y && !decide (x = y)
        | _ => s.contains y || decide (x = y)) := by
  obtain ⟨l, hs, hsub⟩ := h
  have hins : Weak (s.insert x) := by
    refine ⟨_, hs.insert_any hsub, ?_⟩
    intro y hy
    rw [contains_insert]
    split at hy
    · simp [hsub y hy]
    · split at hy
      · simp at hy; rcases hy with hy | hy
        · simp [hsub y hy]
        · simp [hy]
      · simp [hsub y hy]
  cases st with
  | replace => exact ⟨_, rfl, hins, fun y => contains_insert s x y⟩
  | append => exact ⟨_, rfl, hins, fun y => contains_insert s x y⟩
  | prepend =>
    obtain ⟨s', h1, h2⟩ := hs.prepend (x := x)
    refine ⟨s', h1, ⟨_, h2, ?_⟩, contains_prepend h1⟩
    intro y hy
    rw [contains_prepend h1]
    simp at hy
    rcases hy with hy | hy
    · simp [hy]
    · simp [hsub y (List.mem_of_mem_erase hy)]
  | remove =>
    refine ⟨_, rfl, ?_, fun y => contains_remove s x y⟩
    by_cases hc : s.contains x = true
    · refine ⟨_, hs.remove_mem hc, ?_⟩
      intro y hy
      rw [contains_remove, hsub y (List.mem_of_mem_erase hy)]
      have : x ≠ y := fun e => by subst e; exact hs.1.not_mem_erase hy
      simp [this]
    · have : s.remove x = s := by simp [Substitutions.remove, hc]
      rw [this]; exact ⟨l, hs, hsub⟩

theorem Weak.applyList (st : SubStrategy) (xs : List Sub) {s : Substitutions} (h : Weak s) :
    ∃ s', xs.foldlM (fun s x => st.apply1 s x) s = some s' ∧ Weak s' ∧
      ∀ y, s'.contains y = (match st with
        | .remove => s.contains y && !xs.contains y
        | _ => s.contains y || xs.contains y) := by
  induction xs generalizing s with
  | nil => exact ⟨s, rfl, h, fun y => by cases st <;> simp⟩
  | cons x xs ih =>
    obtain ⟨s1, e1, w1, c1⟩ := h.apply1 st x
    obtain ⟨s2, e2, w2, c2⟩ := ih w1
    refine ⟨s2, by simp [e1, e2], w2, ?_⟩
    intro y
    have h1 := c1 y
    have h2 := c2 y
    have hd : (y == x) = decide (x = y) := by
      by_cases h : x = y
      · simp [h]
      · simp [h, Ne.symm h]
    cases st <;> simp only at h1 h2 ⊢ <;> rw [h2, h1] <;>
      simp only [List.contains_cons, hd, Bool.or_assoc, Bool.and_assoc, Bool.not_or]

end Verif
