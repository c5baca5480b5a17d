import Verif.Lemmas.Base64
namespace Verif.Props
open Verif Base64 Base64Spec

/-- C26 (round trip): encoding never panics and the RFC 4648 decoder gives the bytes back. -/
theorem C26_base64_round_trip (bytes : List UInt8) :
    ∃ out, encode bytes = some out ∧ decode out = some (bytes.map UInt8.toNat) :=
  encode_decode bytes

/-- C26 (length): the text has exactly `4 * ⌈n/3⌉` characters. -/
theorem C26_base64_length (bytes : List UInt8) (out : List Char) (h : encode bytes = some out) :
    out.length = 4 * ((bytes.length + 2) / 3) := by
  induction bytes using encode.induct generalizing out with
  | case1 => simp [encode] at h; subst h; rfl
  | case2 a =>
    simp only [encode, Option.bind_eq_bind, Option.bind_eq_some_iff, Option.pure_def,
      Option.some.injEq] at h
    obtain ⟨_, _, _, _, rfl⟩ := h; simp
  | case3 a b =>
    simp only [encode, Option.bind_eq_bind, Option.bind_eq_some_iff, Option.pure_def,
      Option.some.injEq] at h
    obtain ⟨_, _, _, _, _, _, rfl⟩ := h; simp
  | case4 a b c rest ih =>
    simp only [encode, Option.bind_eq_bind, Option.bind_eq_some_iff, Option.pure_def,
      Option.some.injEq] at h
    obtain ⟨_, _, _, _, _, _, _, _, tl, htl, rfl⟩ := h
    have := ih tl htl
    simp only [List.length_cons, this]; omega

/-- C26 (injectivity): different byte strings never share an encoding. -/
theorem C26_base64_injective (x y : List UInt8) (h : encode x = encode y) : x = y := by
  obtain ⟨o, ho, hd⟩ := encode_decode x
  obtain ⟨o', ho', hd'⟩ := encode_decode y
  rw [ho, ho'] at h
  cases h
  rw [hd] at hd'
  have := Option.some.inj hd'
  exact List.map_inj_right (fun a b hab => UInt8.toNat_inj.mp hab) |>.mp this

-- non-vacuity: the repository's own vector `foob`
example : encode [102, 111, 111, 98] = some "Zm9vYg==".toList := by decide +kernel

end Verif.Props
