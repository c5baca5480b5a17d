import Verif.Spec.Encoding
namespace Verif.Encoding

theorem toNat_ofNat {n : Nat} (h : n < 256) : (UInt8.ofNat n).toNat = n := by
  simp [UInt8.toNat_ofNat']; omega

theorem units_le {u : List Nat} (h : ∀ n ∈ u, n < 65536) : units true (bytesLe u) = u := by
  induction u with
  | nil => rfl
  | cons n u ih =>
    have hn := h n (by simp)
    have ih := ih fun m hm => h m (by simp [hm])
    simp only [bytesLe, List.flatMap_cons, List.cons_append, List.nil_append, units] at ih ⊢
    rw [ih, toNat_ofNat (by omega), toNat_ofNat (by omega)]
    simp; omega

theorem units_be {u : List Nat} (h : ∀ n ∈ u, n < 65536) : units false (bytesBe u) = u := by
  induction u with
  | nil => rfl
  | cons n u ih =>
    have hn := h n (by simp)
    have ih := ih fun m hm => h m (by simp [hm])
    simp only [bytesBe, List.flatMap_cons, List.cons_append, List.nil_append, units] at ih ⊢
    rw [ih, toNat_ofNat (by omega), toNat_ofNat (by omega)]
    simp; omega

theorem pad_le (u : List Nat) : pad (bytesLe u) = bytesLe u := by
  have : (bytesLe u).length = 2 * u.length := by
    induction u with
    | nil => rfl
    | cons n u ih => simp only [bytesLe, List.flatMap_cons, List.length_append, List.length_cons, List.length_nil] at ih ⊢; omega
  rw [pad, if_pos (by omega)]

theorem pad_be (u : List Nat) : pad (bytesBe u) = bytesBe u := by
  have : (bytesBe u).length = 2 * u.length := by
    induction u with
    | nil => rfl
    | cons n u ih => simp only [bytesBe, List.flatMap_cons, List.length_append, List.length_cons, List.length_nil] at ih ⊢; omega
  rw [pad, if_pos (by omega)]

theorem char_valid (c : Char) : c.toNat < 0xD800 ∨ (0xDFFF < c.toNat ∧ c.toNat < 0x110000) := c.valid

theorem utf16_lt (s : List Char) : ∀ n ∈ utf16 s, n < 65536 := by
  intro n hn
  obtain ⟨c, _, hc⟩ := List.mem_flatMap.1 hn
  have := char_valid c
  split at hc
  · simp at hc; omega
  · simp at hc; omega

theorem decode16_utf16 (s : List Char) : decode16 (utf16 s) = some s := by
  induction s with
  | nil => rfl
  | cons c s ih =>
    have hv := char_valid c
    simp only [utf16, List.flatMap_cons] at ih ⊢
    by_cases h : c.toNat < 0x10000
    · rw [if_pos h]
      rw [List.cons_append, List.nil_append, decode16.eq_def]
      dsimp only
      rw [if_pos (by omega), ih]
      simp
    · rw [if_neg h]
      rw [List.cons_append, List.cons_append, List.nil_append, decode16.eq_def]
      dsimp only
      rw [if_neg (by omega), if_neg (by omega), if_pos (by omega), ih]
      have : 65536 + (55296 + (c.toNat - 65536) / 1024 - 55296) * 1024 + (56320 + (c.toNat - 65536) % 1024 - 56320) = c.toNat := by
        omega
      rw [this]
      simp

theorem convertLe_utf16 (s : List Char) : convertLe (bytesLe (utf16 s)) = .ok (utf8 s) := by
  rw [convertLe, pad_le, units_le (utf16_lt s), fromUtf16, decode16_utf16]
  rfl

theorem utf8_valid (s : List Char) : (utf8 s).toByteArray.validateUTF8 = true :=
  ByteArray.validateUTF8_eq_true_iff.2 (ByteArray.IsValidUTF8.intro s rfl)

theorem valid_utf8 {b : List UInt8} (h : b.toByteArray.validateUTF8 = true) : ∃ s, b = utf8 s := by
  obtain ⟨s, hs⟩ := ByteArray.validateUTF8_eq_true_iff.1 h
  refine ⟨s, ?_⟩
  have := congrArg (fun a => a.data.toList) hs
  simpa [utf8, List.utf8Encode] using this

theorem toNat_ofNat_char {n : Nat} (h : n < 0xD800 ∨ (0xDFFF < n ∧ n < 0x110000)) : (Char.ofNat n).toNat = n := by
  have hv : n.isValidChar := by simpa [Nat.isValidChar] using h
  simp only [Char.ofNat, hv, dite_true]
  rfl

theorem utf16_decode16 : ∀ (u : List Nat) {s : List Char}, (∀ n ∈ u, n < 65536) → decode16 u = some s → utf16 s = u := by
  intro u
  induction u using decode16.induct with
  | case1 => intro s _ h; cases h; rfl
  | case2 u r hu ih =>
    intro s hl h
    rw [decode16.eq_def] at h
    dsimp only at h
    rw [if_pos hu] at h
    obtain ⟨t, ht, rfl⟩ := Option.map_eq_some_iff.1 h
    have := hl u (by simp)
    have e := toNat_ofNat_char (n := u) (by omega)
    have ih := ih (fun n hn => hl n (by simp [hn])) ht
    simp only [utf16, List.flatMap_cons] at ih ⊢
    rw [ih, e, if_pos (by omega)]
    rfl
  | case3 u r h1 h2 =>
    intro s _ h
    rw [decode16.eq_def] at h
    dsimp only at h
    rw [if_neg h1, if_pos h2] at h
    cases h
  | case4 u h1 h2 =>
    intro s _ h
    rw [decode16.eq_def] at h
    dsimp only at h
    rw [if_neg h1, if_neg h2] at h
    cases h
  | case5 u h1 h2 v r h3 ih =>
    intro s hl h
    rw [decode16.eq_def] at h
    dsimp only at h
    rw [if_neg h1, if_neg h2, if_pos h3] at h
    obtain ⟨t, ht, rfl⟩ := Option.map_eq_some_iff.1 h
    have e := toNat_ofNat_char (n := 65536 + (u - 55296) * 1024 + (v - 56320)) (by omega)
    have ih := ih (fun n hn => hl n (by simp [hn])) ht
    simp only [utf16, List.flatMap_cons] at ih ⊢
    rw [ih, e, if_neg (by omega)]
    simp only [List.cons_append, List.nil_append, List.cons.injEq, and_true]
    omega
  | case6 u h1 h2 v r h3 =>
    intro s _ h
    rw [decode16.eq_def] at h
    dsimp only at h
    rw [if_neg h1, if_neg h2, if_neg h3] at h
    cases h

theorem units_lt (le : Bool) : ∀ b : List UInt8, ∀ n ∈ units le b, n < 65536 := by
  intro b
  induction b using units.induct with
  | case1 x y r ih =>
    intro n hn
    have := x.toNat_lt
    have := y.toNat_lt
    simp only [units, List.mem_cons] at hn
    rcases hn with rfl | hn
    · split <;> omega
    · exact ih n hn
  | case2 b h =>
    intro n hn
    unfold units at hn
    split at hn
    · exact absurd rfl (h _ _ _)
    · cases hn

theorem ofNat_toNat (a : UInt8) {n : Nat} (h : n = a.toNat) : UInt8.ofNat n = a := by
  rw [h]; simp

theorem le_units : ∀ b : List UInt8, b.length % 2 = 0 → bytesLe (units true b) = b := by
  intro b
  induction b using units.induct with
  | case1 x y r ih =>
    intro h
    have ih := ih (by simp only [List.length_cons] at h; omega)
    have := x.toNat_lt
    have := y.toNat_lt
    simp only [units, bytesLe, List.flatMap_cons] at ih ⊢
    rw [ih, if_pos trivial, ofNat_toNat x (by omega), ofNat_toNat y (by omega)]
    rfl
  | case2 b h =>
    intro hl
    match b, h with
    | [], _ => rfl
    | [x], _ => simp at hl
    | x :: y :: r, h => exact absurd rfl (h _ _ _)

theorem be_units : ∀ b : List UInt8, b.length % 2 = 0 → bytesBe (units false b) = b := by
  intro b
  induction b using units.induct with
  | case1 x y r ih =>
    intro h
    have ih := ih (by simp only [List.length_cons] at h; omega)
    have := x.toNat_lt
    have := y.toNat_lt
    simp only [units, bytesBe, List.flatMap_cons] at ih ⊢
    rw [ih, if_neg (by simp), ofNat_toNat x (by omega), ofNat_toNat y (by omega)]
    rfl
  | case2 b h =>
    intro hl
    match b, h with
    | [], _ => rfl
    | [x], _ => simp at hl
    | x :: y :: r, h => exact absurd rfl (h _ _ _)

theorem convertLe_inv {b r : List UInt8} (hl : b.length % 2 = 0) (h : convertLe b = .ok r) :
    ∃ s, r = utf8 s ∧ b = bytesLe (utf16 s) := by
  rw [convertLe, pad, if_pos hl] at h
  cases hd : decode16 (units true b) with
  | none => rw [fromUtf16, hd] at h; cases h
  | some s =>
    rw [fromUtf16, hd] at h
    cases h
    exact ⟨s, rfl, by rw [utf16_decode16 _ (units_lt _ _) hd, le_units _ hl]⟩

/-- no byte of UTF-8 is FE or FF, and a text that starts with EF BB BF starts with U+FEFF -/
theorem utf8Char_head (c : Char) : ∃ a r, String.utf8EncodeChar c = a :: r ∧ a ≠ 0xFF ∧ a ≠ 0xFE ∧
    ∀ t, (String.utf8EncodeChar c ++ t).take 3 = [0xEF, 0xBB, 0xBF] → c = bom := by
  have hv := char_valid c
  unfold String.utf8EncodeChar
  dsimp only
  have e : c.val.toNat = c.toNat := rfl
  rw [e]
  split
  · refine ⟨_, _, rfl, ?_, ?_, ?_⟩
    · intro h; have := congrArg UInt8.toNat h; simp at this; omega
    · intro h; have := congrArg UInt8.toNat h; simp at this; omega
    · intro t h; simp at h; have := congrArg UInt8.toNat h.1; simp at this; omega
  split
  · refine ⟨_, _, rfl, ?_, ?_, ?_⟩
    · intro h; have := congrArg UInt8.toNat h; simp at this; omega
    · intro h; have := congrArg UInt8.toNat h; simp at this; omega
    · intro t h; simp at h; have := congrArg UInt8.toNat h.1; simp at this; omega
  split
  · refine ⟨_, _, rfl, ?_, ?_, ?_⟩
    · intro h; have := congrArg UInt8.toNat h; simp at this; omega
    · intro h; have := congrArg UInt8.toNat h; simp at this; omega
    · intro t h
      simp at h
      have h1 := congrArg UInt8.toNat h.1
      have h2 := congrArg UInt8.toNat h.2.1
      have h3 := congrArg UInt8.toNat h.2.2
      simp at h1 h2 h3
      have : c.toNat = 0xFEFF := by omega
      rw [bom, ← this]; simp
  · refine ⟨_, _, rfl, ?_, ?_, ?_⟩
    · intro h; have := congrArg UInt8.toNat h; simp at this; omega
    · intro h; have := congrArg UInt8.toNat h; simp at this; omega
    · intro t h; simp at h; have := congrArg UInt8.toNat h.1; simp at this; omega

end Verif.Encoding
