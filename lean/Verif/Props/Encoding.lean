import Verif.Lemmas.Encoding
import Verif.Model.InlineText
/-!
C69: an included file holds the same text in every encoding.
-/
namespace Verif.Props
open Verif Verif.Encoding

/-- **C69**, partial: however a file holds a text (`Holds`: UTF-8 or UTF-16, with a mark, or without one and named in the
directive), what is read is the text in UTF-8.

Missing: a file that has both a mark and the name of its encoding (`C69_mark_and_name_violated`). -/
theorem C69_encodings_partial {s : List Char} {e : Option String} {b : List UInt8} (h : Holds s e b) :
    normalize e b = .ok (utf8 s) := by
  have hne : ∀ e : Option String, (∀ n, e = some n → ¬ Named16 n) →
      ¬ (e = some "utf-16" ∨ e = some "utf16" ∨ e = some "UTF-16" ∨ e = some "UTF16") := by
    rintro e he (h | h | h | h) <;> subst h <;> simp [Named16] at he
  have hbom : utf8 (bom :: s) = 0xEF :: 0xBB :: 0xBF :: utf8 s := by
    rw [utf8, List.flatMap_cons]
    have : String.utf8EncodeChar bom = [0xEF, 0xBB, 0xBF] := by decide +kernel
    rw [this]; rfl
  have hle : bytesLe (utf16 (bom :: s)) = 0xFF :: 0xFE :: bytesLe (utf16 s) := by
    have : utf16 (bom :: s) = 0xFEFF :: utf16 s := rfl
    rw [this]; rfl
  have hbe : bytesBe (utf16 (bom :: s)) = 0xFE :: 0xFF :: bytesBe (utf16 s) := by
    have : utf16 (bom :: s) = 0xFEFF :: utf16 s := rfl
    rw [this]; rfl
  cases h with
  | utf8 e he hh =>
    rw [normalize, if_neg (hne e he)]
    cases s with
    | nil => rw [if_neg (by simp [utf8]), if_neg (by simp [utf8]), if_neg (by simp [utf8]), if_pos (utf8_valid _)]
    | cons c s =>
      obtain ⟨a, r, h1, h2, h3, h4⟩ := utf8Char_head c
      have hu : utf8 (c :: s) = String.utf8EncodeChar c ++ utf8 s := rfl
      have hc : c ≠ bom := fun hc => hh (by simp [hc])
      rw [if_neg (fun hx => hc (h4 _ (by rw [hu] at hx; exact hx)))]
      rw [hu, h1]
      rw [if_neg (by simp [h2]), if_neg (by simp [h3])]
      rw [← h1, ← hu, if_pos (utf8_valid _)]
  | utf8Bom e he =>
    rw [normalize, if_neg (hne e he), hbom, if_pos (by simp)]
    rfl
  | leBom e he =>
    rw [normalize, if_neg (hne e he), hle, if_neg (by simp), if_pos (by simp)]
    exact convertLe_utf16 s
  | beBom e he =>
    rw [normalize, if_neg (hne e he), hbe, if_neg (by simp), if_neg (by simp), if_pos (by simp)]
    simp only [List.drop_succ_cons, List.drop_zero]
    rw [pad_be, units_be (utf16_lt s), fromUtf16, decode16_utf16]
    rfl
  | named n hn =>
    rw [normalize, if_pos (by simpa [Named16] using hn)]
    exact convertLe_utf16 s

/-- **C69** (nothing else is accepted), partial: a file that is accepted holds the text that is read.

Missing: UTF-8 after a mark (`C69_marked_invalid_violated`), an odd number of bytes of UTF-16 (`C69_odd_length_violated`). -/
theorem C69_only_texts_partial {e : Option String} {b r : List UInt8} (h : normalize e b = .ok r)
    (hmark : b.take 3 ≠ [0xEF, 0xBB, 0xBF])
    (hodd : (∃ n, e = some n ∧ Named16 n) ∨ b.take 2 = [0xFF, 0xFE] ∨ b.take 2 = [0xFE, 0xFF] → b.length % 2 = 0) :
    ∃ s, r = utf8 s ∧ Holds s e b := by
  by_cases hn : ∃ n, e = some n ∧ Named16 n
  · obtain ⟨n, rfl, hn⟩ := hn
    rw [normalize, if_pos (by simpa [Named16] using hn)] at h
    obtain ⟨s, h1, h2⟩ := convertLe_inv (hodd (.inl ⟨n, rfl, hn⟩)) h
    exact ⟨s, h1, h2 ▸ .named n hn⟩
  have hn' : ∀ n, e = some n → ¬ Named16 n := fun n h1 h2 => hn ⟨n, h1, h2⟩
  rw [normalize, if_neg (by rintro (h | h | h | h) <;> exact hn' _ h (by simp [Named16])), if_neg hmark] at h
  have hd : ∀ {x y : UInt8}, b.take 2 = [x, y] → b = x :: y :: b.drop 2 := by
    intro x y hx
    have := List.take_append_drop 2 b
    rw [hx] at this
    exact this.symm
  have hlen : ∀ {x y : UInt8}, b = x :: y :: b.drop 2 → b.length % 2 = 0 → (b.drop 2).length % 2 = 0 := by
    intro x y hx hy
    rw [List.length_drop]; omega
  split at h
  · rename_i hx
    have hb := hd hx
    obtain ⟨s, h1, h2⟩ := convertLe_inv (hlen hb (hodd (.inr (.inl hx)))) h
    refine ⟨s, h1, ?_⟩
    have : b = bytesLe (utf16 (bom :: s)) := by
      rw [hb, h2]; rfl
    rw [this]
    exact .leBom e hn'
  split at h
  · rename_i _ hx
    have hb := hd hx
    have hl := hlen hb (hodd (.inr (.inr hx)))
    rw [pad, if_pos hl] at h
    cases hdc : decode16 (units false (b.drop 2)) with
    | none => rw [fromUtf16, hdc] at h; cases h
    | some s =>
      rw [fromUtf16, hdc] at h
      cases h
      refine ⟨s, rfl, ?_⟩
      have : b = bytesBe (utf16 (bom :: s)) := by
        rw [hb, ← be_units _ hl, ← utf16_decode16 _ (units_lt _ _) hdc]; rfl
      rw [this]
      exact .beBom e hn'
  split at h
  · rename_i hv
    cases h
    obtain ⟨s, rfl⟩ := valid_utf8 hv
    refine ⟨s, rfl, .utf8 e hn' fun hh => ?_⟩
    obtain ⟨t, rfl⟩ := List.head?_eq_some_iff.1 hh
    apply hmark
    rw [utf8, List.flatMap_cons]
    have : String.utf8EncodeChar bom = [0xEF, 0xBB, 0xBF] := by decide +kernel
    rw [this]; rfl
  · cases h

/-- a text with characters of one, two, three and four bytes, in the five ways -/
example : Holds "aé€😀".toList none [0x61, 0xC3, 0xA9, 0xE2, 0x82, 0xAC, 0xF0, 0x9F, 0x98, 0x80] ∧
    Holds "aé€😀".toList none [0xEF, 0xBB, 0xBF, 0x61, 0xC3, 0xA9, 0xE2, 0x82, 0xAC, 0xF0, 0x9F, 0x98, 0x80] ∧
    Holds "aé€😀".toList none [0xFF, 0xFE, 0x61, 0, 0xE9, 0, 0xAC, 0x20, 0x3D, 0xD8, 0, 0xDE] ∧
    Holds "aé€😀".toList none [0xFE, 0xFF, 0, 0x61, 0, 0xE9, 0x20, 0xAC, 0xD8, 0x3D, 0xDE, 0] ∧
    Holds "aé€😀".toList (some "utf-16") [0x61, 0, 0xE9, 0, 0xAC, 0x20, 0x3D, 0xD8, 0, 0xDE] := by
  have key : ∀ {e b b'}, b = b' → Holds "aé€😀".toList e b → Holds "aé€😀".toList e b' := fun h h' => h ▸ h'
  refine ⟨key ?_ (.utf8 none nofun ?_), key ?_ (.utf8Bom none nofun), key ?_ (.leBom none nofun), key ?_ (.beBom none nofun),
    key ?_ (.named _ (.inl rfl))⟩ <;> decide +kernel

/-- **C69**, violated: where a UTF-16 file is marked and its directive names the encoding, the mark becomes part of the
text; if the high bytes are first, the bytes are read in the wrong order. -/
theorem C69_mark_and_name_violated :
    normalize (some "utf-16") (bytesLe (utf16 (bom :: "a".toList))) = .ok (utf8 (bom :: "a".toList)) ∧
    normalize (some "utf-16") (bytesBe (utf16 (bom :: "a".toList))) = .ok (utf8 [Char.ofNat 0xFFFE, Char.ofNat 0x6100]) := by
  decide +kernel

/-- **C69**, violated: after a mark, bytes that are not UTF-8 are accepted. -/
theorem C69_marked_invalid_violated :
    normalize none [0xEF, 0xBB, 0xBF, 0x61, 0xFF] = .ok [0x61, 0xFF] ∧ ¬ ∃ s, [0x61, 0xFF] = utf8 s := by
  refine ⟨by decide +kernel, ?_⟩
  rintro ⟨s, hs⟩
  have := utf8_valid s
  rw [← hs] at this
  revert this
  decide +kernel

/-- **C69**, violated: UTF-16 that stops in the middle of a unit is accepted and filled up. -/
theorem C69_odd_length_violated :
    normalize none [0xFF, 0xFE, 0x61, 0, 0x62] = .ok (utf8 "ab".toList) ∧
    normalize none [0xFE, 0xFF, 0, 0x61, 0x20] = .ok (utf8 ['a', Char.ofNat 0x2000]) := by
  decide +kernel

end Verif.Props
