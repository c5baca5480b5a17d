import Verif.Spec.Lexer
import Verif.Lemmas.Lexer
namespace Verif.Lexer

theorem enc_shape (c : Char) : ∃ b0 conts, String.utf8EncodeChar c = b0 :: conts ∧
    (∀ b ∈ conts, 128 ≤ b) ∧
    ((b0 < 0x80 ∧ conts.length = 0) ∨ (0xC0 ≤ b0 ∧ b0 < 0xE0 ∧ conts.length = 1) ∨
     (0xE0 ≤ b0 ∧ b0 < 0xF0 ∧ conts.length = 2) ∨ (0xF0 ≤ b0 ∧ conts.length = 3)) := by
  unfold String.utf8EncodeChar
  generalize c.val.toNat = v
  simp only
  split
  · refine ⟨_, _, rfl, by simp, Or.inl ⟨?_, rfl⟩⟩
    rw [UInt8.lt_iff_toNat_lt, UInt8.toNat_ofNat']
    show v % 256 < 128; omega
  · split
    · refine ⟨_, _, rfl, ?_, Or.inr (Or.inl ⟨?_, ?_, rfl⟩)⟩
      · intro b hb
        simp only [List.mem_cons, List.not_mem_nil, or_false] at hb; subst hb
        rw [UInt8.le_iff_toNat_le, UInt8.toNat_ofNat']
        show 128 ≤ _ % 256; omega
      · rw [UInt8.le_iff_toNat_le, UInt8.toNat_ofNat']
        show 192 ≤ _ % 256; omega
      · rw [UInt8.lt_iff_toNat_lt, UInt8.toNat_ofNat']
        show _ % 256 < 224; omega
    · split
      · refine ⟨_, _, rfl, ?_, Or.inr (Or.inr (Or.inl ⟨?_, ?_, rfl⟩))⟩
        · intro b hb
          simp only [List.mem_cons, List.not_mem_nil, or_false] at hb
          rcases hb with rfl | rfl <;>
          · rw [UInt8.le_iff_toNat_le, UInt8.toNat_ofNat']
            show 128 ≤ _ % 256; omega
        · rw [UInt8.le_iff_toNat_le, UInt8.toNat_ofNat']
          show 224 ≤ _ % 256; omega
        · rw [UInt8.lt_iff_toNat_lt, UInt8.toNat_ofNat']
          show _ % 256 < 240; omega
      · refine ⟨_, _, rfl, ?_, Or.inr (Or.inr (Or.inr ⟨?_, rfl⟩))⟩
        · intro b hb
          simp only [List.mem_cons, List.not_mem_nil, or_false] at hb
          rcases hb with rfl | rfl | rfl <;>
          · rw [UInt8.le_iff_toNat_le, UInt8.toNat_ofNat']
            show 128 ≤ _ % 256; omega
        · rw [UInt8.le_iff_toNat_le, UInt8.toNat_ofNat']
          show 240 ≤ _ % 256; omega

theorem ge_not_lt {b : UInt8} (h : 128 ≤ b) : ¬ b < 128 := by
  rw [UInt8.le_iff_toNat_le] at h; rw [UInt8.lt_iff_toNat_lt]; omega

/-- splitting an encoded text next to an ASCII byte (or at its end) splits it into encoded texts -/
theorem split_ascii (ds : List Char) (k : Nat) (hk : k ≤ (ds.flatMap String.utf8EncodeChar).length)
    (h : k = 0 ∨ (∃ b, (ds.flatMap String.utf8EncodeChar)[k - 1]? = some b ∧ b < 128) ∨
      (ds.flatMap String.utf8EncodeChar)[k]? = none ∨
      (∃ b, (ds.flatMap String.utf8EncodeChar)[k]? = some b ∧ b < 128)) :
    ValidUtf8 ((ds.flatMap String.utf8EncodeChar).take k) ∧
    ValidUtf8 ((ds.flatMap String.utf8EncodeChar).drop k) := by
  induction ds generalizing k with
  | nil => exact ⟨⟨[], by simp⟩, ⟨[], by simp⟩⟩
  | cons c ds ih =>
    by_cases hk0 : k = 0
    · subst hk0; exact ⟨⟨[], by simp⟩, ⟨c :: ds, by simp⟩⟩
    replace h := h.resolve_left hk0
    rw [List.flatMap_cons] at hk h ⊢
    obtain ⟨b0, conts, hw, hcont, hlen⟩ := enc_shape c
    by_cases hge : (String.utf8EncodeChar c).length ≤ k
    · have ih' := ih (k - (String.utf8EncodeChar c).length) (by rw [List.length_append] at hk; omega) (by
        by_cases hz : k - (String.utf8EncodeChar c).length = 0
        · exact Or.inl hz
        · right
          rcases h with ⟨b, hb, hl⟩ | hn | ⟨b, hb, hl⟩
          · left; refine ⟨b, ?_, hl⟩
            rw [List.getElem?_append_right (by omega)] at hb
            rw [← hb]; congr 1; omega
          · right; left; rwa [List.getElem?_append_right hge] at hn
          · right; right; exact ⟨b, by rwa [List.getElem?_append_right hge] at hb, hl⟩)
      rw [List.take_append, List.drop_append, List.take_of_length_le hge, List.drop_of_length_le hge]
      obtain ⟨⟨cs, hcs⟩, ⟨es, hes⟩⟩ := ih'
      exact ⟨⟨c :: cs, by rw [hcs]; simp⟩, ⟨es, by rw [hes]; simp⟩⟩
    · exfalso
      have hlt : k < (String.utf8EncodeChar c).length := by omega
      have at_k : ∃ b, (String.utf8EncodeChar c ++ ds.flatMap String.utf8EncodeChar)[k]? = some b ∧ 128 ≤ b := by
        rw [List.getElem?_append_left hlt, hw]
        obtain ⟨j, rfl⟩ : ∃ j, k = j + 1 := ⟨k - 1, by omega⟩
        rw [hw, List.length_cons] at hlt
        have hj : j < conts.length := by omega
        exact ⟨conts[j], by simp [hj], hcont _ (List.getElem_mem hj)⟩
      obtain ⟨bk, hbk, hbk'⟩ := at_k
      rcases h with ⟨b, hb, hl⟩ | hn | ⟨b, hb, hl⟩
      · rw [List.getElem?_append_left (by omega), hw] at hb
        obtain ⟨j, rfl⟩ : ∃ j, k = j + 1 := ⟨k - 1, by omega⟩
        rw [hw, List.length_cons] at hlt
        simp only [Nat.add_sub_cancel] at hb
        cases j with
        | zero =>
          simp at hb; subst hb
          rw [UInt8.lt_iff_toNat_lt] at hl
          have hl' : b0.toNat < 128 := hl
          simp only [UInt8.le_iff_toNat_le, UInt8.lt_iff_toNat_lt] at hlen
          have e1 : (0xC0 : UInt8).toNat = 192 := rfl
          have e2 : (0xE0 : UInt8).toNat = 224 := rfl
          have e3 : (0xF0 : UInt8).toNat = 240 := rfl
          omega
        | succ i =>
          have hi : i < conts.length := by omega
          simp [hi] at hb
          exact ge_not_lt (hcont _ (List.getElem_mem hi)) (by rw [hb]; exact hl)
      · rw [hn] at hbk; cases hbk
      · rw [hbk] at hb; cases hb; exact ge_not_lt hbk' hl

/-- a two byte (three byte) character at the front is complete after two (three) bytes -/
theorem split_first (ds : List Char) (b : UInt8) (n : Nat)
    (hb : (ds.flatMap String.utf8EncodeChar)[0]? = some b)
    (hn : (n = 2 ∧ 0xC0 ≤ b ∧ b < 0xE0) ∨ (n = 3 ∧ 0xE0 ≤ b ∧ b < 0xF0)) :
    ValidUtf8 ((ds.flatMap String.utf8EncodeChar).take n) ∧
    ValidUtf8 ((ds.flatMap String.utf8EncodeChar).drop n) := by
  cases ds with
  | nil => simp at hb
  | cons c ds =>
    rw [List.flatMap_cons] at hb ⊢
    obtain ⟨b0, conts, hw, _, hlen⟩ := enc_shape c
    have h0 : b0 = b := by rw [hw] at hb; simpa using hb
    subst h0
    have hl : (String.utf8EncodeChar c).length = n := by
      rw [hw, List.length_cons]
      simp only [UInt8.le_iff_toNat_le, UInt8.lt_iff_toNat_lt] at hlen hn
      have e0 : (0x80 : UInt8).toNat = 128 := rfl
      have e1 : (0xC0 : UInt8).toNat = 192 := rfl
      have e2 : (0xE0 : UInt8).toNat = 224 := rfl
      have e3 : (0xF0 : UInt8).toNat = 240 := rfl
      omega
    rw [List.take_append, List.drop_append, List.take_of_length_le (by omega), List.drop_of_length_le (by omega),
      hl, Nat.sub_self]
    exact ⟨⟨[c], by simp⟩, ⟨ds, by simp⟩⟩

/-- a good step from a character boundary ends at a character boundary and its lexeme is valid -/
theorem good_utf8 {src : List UInt8} {pos : Nat} {s : Step} (hg : Good src pos s)
    (hv : ValidUtf8 (src.drop pos)) :
    ValidUtf8 ((src.drop pos).take (s.pos - pos)) ∧ ValidUtf8 (src.drop s.pos) := by
  obtain ⟨ds, hds⟩ := hv
  have hlt := hg.lt
  have hle := hg.le
  have hdrop : src.drop s.pos = (src.drop pos).drop (s.pos - pos) := by
    rw [List.drop_drop]; congr 1; omega
  have hlen : s.pos - pos ≤ (ds.flatMap String.utf8EncodeChar).length := by
    rw [← hds, List.length_drop]; omega
  have get : ∀ i, pos ≤ i → src[i]? = (ds.flatMap String.utf8EncodeChar)[i - pos]? := by
    intro i hi
    rw [← hds, List.getElem?_drop]; congr 1; omega
  rw [hdrop, hds]
  rcases hg.endOk with ⟨b, hb, hl⟩ | hn | ⟨b, hb, hl⟩ | ⟨he, hb⟩ | ⟨he, b, hb, hl⟩
  · refine split_ascii ds _ hlen (Or.inr (Or.inl ⟨b, ?_, hl⟩))
    rw [get _ (by omega)] at hb
    rw [← hb]; congr 1; omega
  · refine split_ascii ds _ hlen (Or.inr (Or.inr (Or.inl ?_)))
    rwa [get _ (by omega)] at hn
  · refine split_ascii ds _ hlen (Or.inr (Or.inr (Or.inr ⟨b, ?_, hl⟩)))
    rwa [get _ (by omega)] at hb
  · rw [get _ (Nat.le_refl _), Nat.sub_self] at hb
    exact split_first ds _ _ hb (Or.inl ⟨by omega, by decide⟩)
  · rw [get _ (Nat.le_refl _), Nat.sub_self] at hb
    exact split_first ds _ _ hb (Or.inr ⟨by omega, hl⟩)

end Verif.Lexer
