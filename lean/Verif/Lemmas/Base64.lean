import Verif.Model.Base64
import Verif.Spec.Base64
namespace Verif.Base64
open Verif.Base64Spec

theorem shr2 (a : UInt8) : (a >>> 2).toNat = a.toNat / 4 := by
  simp [UInt8.toNat_shiftRight, Nat.shiftRight_eq_div_pow]
theorem shl4 (a : UInt8) : ((a <<< 4) &&& 63).toNat = a.toNat % 4 * 16 := by
  have h := a.toNat_lt
  simp only [UInt8.toNat_and, UInt8.toNat_shiftLeft, Nat.shiftLeft_eq]
  rw [show (63 : UInt8).toNat = 2 ^ 6 - 1 from rfl, Nat.and_two_pow_sub_one_eq_mod]
  simp; omega
theorem shl2 (a : UInt8) : ((a <<< 2) &&& 63).toNat = a.toNat % 16 * 4 := by
  have h := a.toNat_lt
  simp only [UInt8.toNat_and, UInt8.toNat_shiftLeft, Nat.shiftLeft_eq]
  rw [show (63 : UInt8).toNat = 2 ^ 6 - 1 from rfl, Nat.and_two_pow_sub_one_eq_mod]
  simp; omega
theorem and63 (c : UInt8) : (c &&& 63).toNat = c.toNat % 64 := by
  simp only [UInt8.toNat_and]
  rw [show (63 : UInt8).toNat = 2 ^ 6 - 1 from rfl, Nat.and_two_pow_sub_one_eq_mod]
theorem mid (a b : UInt8) :
    (((a <<< 4) ||| (b >>> 4)) &&& 63).toNat = a.toNat % 4 * 16 + b.toNat / 16 := by
  have ha := a.toNat_lt; have hb := b.toNat_lt
  simp only [UInt8.toNat_and, UInt8.toNat_or, UInt8.toNat_shiftLeft, UInt8.toNat_shiftRight,
    Nat.shiftLeft_eq, Nat.shiftRight_eq_div_pow]
  rw [show (63 : UInt8).toNat = 2 ^ 6 - 1 from rfl, Nat.and_two_pow_sub_one_eq_mod]
  have : (UInt8.toNat 4 % 8) = 4 := rfl
  simp only [this]
  rw [show a.toNat * 2 ^ 4 % 2 ^ 8 = 2 ^ 4 * (a.toNat % 16) by omega]
  rw [← Nat.two_pow_add_eq_or_of_lt (by omega)]
  omega
theorem mid2 (b c : UInt8) :
    (((b <<< 2) ||| (c >>> 6)) &&& 63).toNat = b.toNat % 16 * 4 + c.toNat / 64 := by
  have ha := b.toNat_lt; have hb := c.toNat_lt
  simp only [UInt8.toNat_and, UInt8.toNat_or, UInt8.toNat_shiftLeft, UInt8.toNat_shiftRight,
    Nat.shiftLeft_eq, Nat.shiftRight_eq_div_pow]
  rw [show (63 : UInt8).toNat = 2 ^ 6 - 1 from rfl, Nat.and_two_pow_sub_one_eq_mod]
  have : (UInt8.toNat 2 % 8) = 2 := rfl
  have h6 : (UInt8.toNat 6 % 8) = 6 := rfl
  simp only [this, h6]
  rw [show b.toNat * 2 ^ 2 % 2 ^ 8 = 2 ^ 2 * (b.toNat % 64) by omega]
  rw [← Nat.two_pow_add_eq_or_of_lt (by omega)]
  omega

/-- every index below 64 has a digit, whose RFC value is the index -/
theorem table : ∀ i : Fin 64, ∃ c, alphabet[i.val]? = some c ∧ value c = some i.val ∧ c ≠ '=' := by
  have : ∀ i : Fin 64, ((alphabet[i.val]?).any
      (fun c => value c == some i.val && c != '=')) = true := by decide +kernel
  intro i
  have h := this i
  cases h' : alphabet[i.val]? with
  | none => simp [h'] at h
  | some c => simp [h'] at h; exact ⟨c, rfl, h.1, h.2⟩

theorem digit_spec (u : UInt8) (n : Nat) (h : u.toNat = n) (hn : n < 64) :
    ∃ c, digit u = some c ∧ value c = some n ∧ c ≠ '=' := by
  obtain ⟨c, h1, h2, h3⟩ := table ⟨n, hn⟩
  exact ⟨c, by simpa [digit, h] using h1, h2, h3⟩

theorem encode_decode (bs : List UInt8) :
    ∃ out, encode bs = some out ∧ decode out = some (bs.map UInt8.toNat) := by
  induction bs using encode.induct with
  | case1 => exact ⟨[], rfl, rfl⟩
  | case2 a =>
    have ha := a.toNat_lt
    obtain ⟨c1, e1, v1, n1⟩ := digit_spec _ _ (shr2 a) (by omega)
    obtain ⟨c2, e2, v2, n2⟩ := digit_spec _ _ (shl4 a) (by omega)
    refine ⟨[c1, c2, '=', '='], by simp [encode, e1, e2], ?_⟩
    simp only [decode, v1, v2, List.map]
    rw [if_pos (by omega)]; congr 2; omega
  | case3 a b =>
    have ha := a.toNat_lt; have hb := b.toNat_lt
    obtain ⟨c1, e1, v1, n1⟩ := digit_spec _ _ (shr2 a) (by omega)
    obtain ⟨c2, e2, v2, n2⟩ := digit_spec _ _ (mid a b) (by omega)
    obtain ⟨c3, e3, v3, n3⟩ := digit_spec _ _ (shl2 b) (by omega)
    refine ⟨[c1, c2, c3, '='], by simp [encode, e1, e2, e3], ?_⟩
    rw [decode.eq_3 _ _ _ (by intro h; exact n3 h)]
    simp only [v1, v2, v3, List.map]
    rw [if_pos (by omega)]; simp; omega
  | case4 a b c rest ih =>
    have ha := a.toNat_lt; have hb := b.toNat_lt; have hc := c.toNat_lt
    obtain ⟨tl, et, dt⟩ := ih
    obtain ⟨c1, e1, v1, n1⟩ := digit_spec _ _ (shr2 a) (by omega)
    obtain ⟨c2, e2, v2, n2⟩ := digit_spec _ _ (mid a b) (by omega)
    obtain ⟨c3, e3, v3, n3⟩ := digit_spec _ _ (mid2 b c) (by omega)
    obtain ⟨c4, e4, v4, n4⟩ := digit_spec _ _ (and63 c) (by omega)
    refine ⟨c1 :: c2 :: c3 :: c4 :: tl, by simp [encode, e1, e2, e3, e4, et], ?_⟩
    rw [decode.eq_4 _ _ _ _ _ (by intro h _; exact absurd h n3) (by intro h; exact absurd h n4)]
    simp only [v1, v2, v3, v4, dt, List.map]
    simp; omega

end Verif.Base64
