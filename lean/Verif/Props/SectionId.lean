import Verif.Model.SectionId
import Verif.Model.Split
/-! C30: generated section ids. -/
namespace Verif.Props
open Verif.SectionId Verif.Split

private theorem toNat_ofNat_small (n : Nat) (h : n < 0xD800) : (Char.ofNat n).toNat = n := by
  rw [Char.ofNat, dif_pos (Or.inl h)]; rfl

private theorem nodup_length_le {α} [DecidableEq α] (a b : List α) (h1 : a.Nodup) (h2 : ∀ x ∈ a, x ∈ b) :
    a.length ≤ b.length := by
  induction a generalizing b with
  | nil => simp
  | cons x a ih =>
    rw [List.nodup_cons] at h1
    have hx := h2 x List.mem_cons_self
    have := ih (b.erase x) h1.2 (fun y hy => (List.mem_erase_of_ne (by rintro rfl; exact h1.1 hy)).mpr
      (h2 y (List.mem_cons_of_mem _ hy)))
    rw [List.length_erase_of_mem hx] at this
    have := List.length_pos_of_mem hx
    simp only [List.length_cons]
    omega

private theorem candidate_inj (base : List Char) (sep : Option Char) (i j : Nat)
    (h : candidate base sep i = candidate base sep j) : i = j := by
  unfold candidate decimal at h
  have h := List.append_cancel_left h
  have := congrArg (fun s => Nat.ofDigitChars 10 s 0) h
  simpa using this

private theorem sequence_spec (ids : List (List Char)) (base : List Char) (sep : Option Char) (n i : Nat) :
    (sequence ids base sep n i = .diverged ∧ ∀ j, i ≤ j → j < i + n → candidate base sep j ∈ ids) ∨
    (∃ j, i ≤ j ∧ sequence ids base sep n i = .ok (candidate base sep j) ∧ candidate base sep j ∉ ids ∧
      ∀ k, i ≤ k → k < j → candidate base sep k ∈ ids) := by
  induction n generalizing i with
  | zero => exact .inl ⟨rfl, fun j h1 h2 => by omega⟩
  | succ n ih =>
    unfold sequence
    by_cases h : candidate base sep i ∈ ids
    · rw [if_pos h]
      rcases ih (i + 1) with ⟨h1, h2⟩ | ⟨j, h1, h2, h3, h4⟩
      · refine .inl ⟨h1, fun j h3 h4 => ?_⟩
        by_cases hj : j = i
        · rw [hj]; exact h
        · exact h2 j (by omega) (by omega)
      · refine .inr ⟨j, by omega, h2, h3, fun k h5 h6 => ?_⟩
        by_cases hk : k = i
        · rw [hk]; exact h
        · exact h4 k (by omega) h6
    · rw [if_neg h]
      exact .inr ⟨i, Nat.le_refl _, rfl, h, fun k h5 h6 => by omega⟩

private theorem sequence_ok (ids : List (List Char)) (base : List Char) (sep : Option Char) :
    ∃ j, 2 ≤ j ∧ sequence ids base sep (ids.length + 1) 2 = .ok (candidate base sep j) ∧ candidate base sep j ∉ ids ∧
      ∀ k, 2 ≤ k → k < j → candidate base sep k ∈ ids := by
  rcases sequence_spec ids base sep (ids.length + 1) 2 with ⟨_, h⟩ | h
  · exfalso
    have h1 := nodup_length_le ((List.range' 2 (ids.length + 1)).map (candidate base sep)) ids
      (List.pairwise_map.mpr (List.Pairwise.imp (fun h e => h (candidate_inj base sep _ _ e)) List.nodup_range')) (by
        intro x hx
        obtain ⟨j, hj, rfl⟩ := List.mem_map.mp hx
        rw [List.mem_range'_1] at hj
        exact h j hj.1 hj.2)
    simp at h1
    omega
  · exact h

private theorem finish_cases (ids : List (List Char)) (pre : List Char) (sep : Option Char) (id : List Char) (last : Char) :
    (∃ s, sep = some s ∧ pre = [] ∧ s.utf8Size ≠ 1 ∧ finish ids pre sep id last = .panic) ∨
    (∃ r, finish ids pre sep id last = .ok r ∧ r ∉ ids ∧
      ∃ b, (b = id ∨ b = id.dropLast ∨ b = id.tail ∨ b = id.dropLast.tail) ∧
        (r = b ∨ ∃ i, 2 ≤ i ∧ r = candidate b sep i)) := by
  unfold finish
  simp only
  generalize hid : (if some last = sep then id.dropLast else id) = id'
  have hid' : id' = id ∨ id' = id.dropLast := by
    rw [← hid]; split
    · exact .inr rfl
    · exact .inl rfl
  have fin : ∀ b, (b = id ∨ b = id.dropLast ∨ b = id.tail ∨ b = id.dropLast.tail) →
      ∃ r, (if b ∈ ids then sequence ids b sep (ids.length + 1) 2 else AutoId.ok b) = .ok r ∧ r ∉ ids ∧
      ∃ b, (b = id ∨ b = id.dropLast ∨ b = id.tail ∨ b = id.dropLast.tail) ∧
        (r = b ∨ ∃ i, 2 ≤ i ∧ r = candidate b sep i) := by
    intro b hb
    by_cases h : b ∈ ids
    · rw [if_pos h]
      obtain ⟨j, h1, h2, h3, _⟩ := sequence_ok ids b sep
      exact ⟨_, h2, h3, b, hb, .inr ⟨j, h1, rfl⟩⟩
    · rw [if_neg h]; exact ⟨b, rfl, h, b, hb, .inl rfl⟩
  have hid4 : id' = id ∨ id' = id.dropLast ∨ id' = id.tail ∨ id' = id.dropLast.tail := by
    rcases hid' with h | h
    · exact .inl h
    · exact .inr (.inl h)
  by_cases h1 : sep.isSome ∧ id' = []
  · rw [if_pos h1]
    right
    obtain ⟨j, h2, h3, h4, _⟩ := sequence_ok ids id' sep
    exact ⟨_, h3, h4, id', hid4, .inr ⟨j, h2, rfl⟩⟩
  · rw [if_neg h1]
    cases hs : sep with
    | none => subst hs; exact .inr (fin id' hid4)
    | some s =>
      subst hs
      simp only
      by_cases h2 : pre = [] ∧ id'.head? = some s
      · rw [if_pos h2]
        by_cases h3 : s.utf8Size = 1
        · rw [if_pos h3]
          refine .inr (fin id'.tail ?_)
          rcases hid' with h | h <;> simp [h]
        · rw [if_neg h3]
          exact .inl ⟨s, rfl, h2.1, h3, rfl⟩
      · rw [if_neg h2]
        exact .inr (fin id' hid4)

/-- C30: for every title, prefix, separator and set of ids in use, generating an id terminates, and unless it panics
the id is none of those in use. It can panic only with an empty prefix and a separator outside ASCII. -/
theorem C30_fresh (U : Unicode) (ids : List (List Char)) (line pre : List Char) (sep : Option Char) :
    autogen U ids line pre sep ≠ .diverged ∧
    (∀ id, autogen U ids line pre sep = .ok id → id ∉ ids) ∧
    (autogen U ids line pre sep = .panic → pre = [] ∧ ∃ s, sep = some s ∧ s.utf8Size ≠ 1) := by
  unfold autogen
  simp only
  rcases finish_cases ids pre sep (collect U pre sep false false line).1 (collect U pre sep false false line).2 with
    ⟨s, h1, h2, h3, h4⟩ | ⟨r, h1, h2, _⟩
  · rw [h4]
    exact ⟨by simp, by simp, fun _ => ⟨h2, s, h1, h3⟩⟩
  · rw [h1]
    exact ⟨by simp, by intro id hid; cases hid; exact h2, by simp⟩

/-- tables for examples: ASCII only -/
private def ascii : Unicode := ⟨fun _ => false, fun c => [c], fun c => '0' ≤ c && c ≤ '9'⟩

example : autogen ascii ["_foo_bar".toList, "_foo_bar_2".toList] "Foo, &amp; [[x]]<b>Bar</b>!".toList ['_'] (some '_') =
    .ok "_foo_bar_3".toList := by decide +kernel

/-- C30 is violated: with an empty prefix and a separator outside ASCII, a title that begins with a space panics. -/
theorem C30_separator_violated (U : Unicode) : autogen U [] [' ', 'a'] [] (some '→') = .panic := by
  simp [autogen, collect, scan, finish, asciiAlnum, asciiLower]
  decide

private theorem scan_chars (U : Unicode) (sep : Option Char) (e a : Bool) (P : Char → Prop)
    (hsep : ∀ s, sep = some s → P s) (hlow : ∀ c, asciiAlnum c = true → P (asciiLower c))
    (huni : ∀ c, U.alnum c = true → ∀ d ∈ U.lower c, P d) (line id : List Char) (last : Char) (t k : Bool)
    (hid : ∀ c ∈ id, P c) : ∀ id' last', scan U sep e a line id last t k = .done id' last' → ∀ c ∈ id', P c := by
  induction line generalizing id last t k with
  | nil => intro id' last' h; cases h; exact hid
  | cons c cs ih =>
    intro id' last' h
    unfold scan at h
    simp only at h
    by_cases h1 : k = true
    · rw [if_pos h1] at h; exact ih _ _ _ _ hid _ _ h
    rw [if_neg h1] at h
    by_cases h2 : c = '<'
    · rw [if_pos h2] at h
      split at h
      · exact ih _ _ _ _ hid _ _ h
      · exact ih _ _ _ _ hid _ _ h
    rw [if_neg h2] at h
    by_cases h3 : c = '>'
    · rw [if_pos h3] at h; exact ih _ _ _ _ hid _ _ h
    rw [if_neg h3] at h
    by_cases h4 : c = ' ' ∨ c = '-' ∨ c = '.' ∨ c = ',' ∨ c = '\t'
    · rw [if_pos h4] at h
      cases hs : sep with
      | none => subst hs; exact ih _ _ _ _ hid _ _ h
      | some s =>
        subst hs
        simp only at h
        split at h
        · refine ih _ _ _ _ ?_ _ _ h
          intro d hd
          rcases List.mem_append.mp hd with hd | hd
          · exact hid d hd
          · rw [List.mem_singleton.mp hd]; exact hsep s rfl
        · exact ih _ _ _ _ hid _ _ h
    rw [if_neg h4] at h
    split at h
    · cases h
    split at h
    · cases h
    split at h
    · exact ih _ _ _ _ hid _ _ h
    split at h
    · rename_i h8
      refine ih _ _ _ _ ?_ _ _ h
      intro d hd
      rcases List.mem_append.mp hd with hd | hd
      · exact hid d hd
      · rw [List.mem_singleton.mp hd]; exact hlow c h8
    split at h
    · rename_i h9
      refine ih _ _ _ _ ?_ _ _ h
      intro d hd
      rcases List.mem_append.mp hd with hd | hd
      · exact hid d hd
      · exact huni c h9 d hd
    · exact ih _ _ _ _ hid _ _ h

private theorem collect_chars (U : Unicode) (pre : List Char) (sep : Option Char) (e a : Bool) (line : List Char) (P : Char → Prop)
    (hpre : ∀ c ∈ pre, P c)
    (hsep : ∀ s, sep = some s → P s) (hlow : ∀ c, asciiAlnum c = true → P (asciiLower c))
    (huni : ∀ c, U.alnum c = true → ∀ d ∈ U.lower c, P d) : ∀ c ∈ (collect U pre sep e a line).1, P c := by
  fun_induction collect U pre sep e a line with
  | case1 e a line id last h => exact scan_chars U sep _ _ P hsep hlow huni _ _ _ _ _ hpre _ _ h
  | case2 => exact hpre
  | case3 e a line h ha ih => exact ih
  | case4 => exact hpre
  | case5 e a line h he ih => exact ih

/-- C30: a generated id consists of characters of the prefix, the separator, lower case letters and digits of ASCII,
and the lower case forms of other letters and digits. -/
theorem C30_allowed_characters (U : Unicode) (ids : List (List Char)) (line pre : List Char) (sep : Option Char)
    (id : List Char) (h : autogen U ids line pre sep = .ok id) (c : Char) (hc : c ∈ id) :
    c ∈ pre ∨ sep = some c ∨ ('a' ≤ c ∧ c ≤ 'z') ∨ ('0' ≤ c ∧ c ≤ '9') ∨ ∃ d, U.alnum d = true ∧ c ∈ U.lower d := by
  have hall := collect_chars U pre sep false false line
    (fun c => c ∈ pre ∨ sep = some c ∨ ('a' ≤ c ∧ c ≤ 'z') ∨ ('0' ≤ c ∧ c ≤ '9') ∨ ∃ d, U.alnum d = true ∧ c ∈ U.lower d)
    (fun c hc => .inl hc) (fun s hs => .inr (.inl hs)) (by
      intro c hc
      refine .inr (.inr ?_)
      simp only [asciiAlnum, Bool.or_eq_true, Bool.and_eq_true, decide_eq_true_eq] at hc
      unfold asciiLower
      split
      · rename_i hu
        simp only [Bool.and_eq_true, decide_eq_true_eq] at hu
        have h1 : 65 ≤ c.toNat := hu.1
        have h2 : c.toNat ≤ 90 := hu.2
        have h3 : (Char.ofNat (c.toNat + 32)).toNat = c.toNat + 32 := toNat_ofNat_small _ (by omega)
        left
        constructor
        · show 97 ≤ (Char.ofNat (c.toNat + 32)).toNat; omega
        · show (Char.ofNat (c.toNat + 32)).toNat ≤ 122; omega
      · rename_i hu
        simp only [Bool.and_eq_true, decide_eq_true_eq] at hu
        rcases hc with (hc | hc) | hc
        · exact .inl hc
        · exact absurd hc hu
        · exact .inr (.inl hc)) (fun c h1 d h2 => .inr (.inr (.inr (.inr ⟨c, h1, h2⟩))))
  unfold autogen at h
  simp only at h
  rcases finish_cases ids pre sep (collect U pre sep false false line).1 (collect U pre sep false false line).2 with
    ⟨s, _, _, _, h4⟩ | ⟨r, h1, _, b, hb, hr⟩
  · rw [h4] at h; cases h
  · rw [h1] at h
    cases h
    have hbsub : ∀ c ∈ b, c ∈ (collect U pre sep false false line).1 := by
      intro c hc
      rcases hb with rfl | rfl | rfl | rfl
      · exact hc
      · exact (List.dropLast_sublist _).subset hc
      · exact List.mem_of_mem_tail hc
      · exact (List.dropLast_sublist _).subset (List.mem_of_mem_tail hc)
    rcases hr with rfl | ⟨i, _, rfl⟩
    · exact hall c (hbsub c hc)
    · unfold candidate decimal at hc
      simp only [List.mem_append, Option.mem_toList] at hc
      rcases hc with (hc | hc) | hc
      · exact hall c (hbsub c hc)
      · exact .inr (.inl hc)
      · have := Nat.isDigit_of_mem_toDigits (by decide) (by decide) hc
        unfold Char.isDigit at this
        simp only [Bool.and_eq_true, decide_eq_true_eq] at this
        exact .inr (.inr (.inr (.inl ⟨this.1, this.2⟩)))

/-- a section: the id its author gave it, if any, and its title -/
abbrev Sect := Option (List Char) × List Char

/-- the ids of the sections of a document in order -/
def sectionIds (U : Unicode) (cfg : Cfg) : List (List Char) → List Sect → Option (List (Option (List Char)))
  | _, [] => some []
  | ids, (custom, title) :: ss =>
    (sectionId U cfg ids custom title).bind fun r => (sectionIds U cfg r.2 ss).map fun rs => r.1 :: rs

private theorem sectionIds_fresh (U : Unicode) (cfg : Cfg) (ids : List (List Char)) (ss : List Sect)
    (out : List (Option (List Char))) (h : sectionIds U cfg ids ss = some out) :
    out.length = ss.length ∧ ∀ j (hj : j < ss.length) (ho : j < out.length) id, ss[j].1 = none → out[j] = some id →
      id ∉ ids ∧ ∀ i (hi : i < j), out[i] ≠ some id := by
  induction ss generalizing ids out with
  | nil => cases h; exact ⟨rfl, fun j hj => by simp at hj⟩
  | cons s ss ih =>
    obtain ⟨custom, title⟩ := s
    unfold sectionIds at h
    obtain ⟨r, hr, h⟩ := Option.bind_eq_some_iff.mp h
    obtain ⟨rs, hrs, h⟩ := Option.map_eq_some_iff.mp h
    subst h
    obtain ⟨hl, ih⟩ := ih _ _ hrs
    have hids : (∀ x ∈ ids, x ∈ r.2) ∧ (∀ x, r.1 = some x → x ∈ r.2) ∧ (custom = none → ∀ x, r.1 = some x → x ∉ ids) := by
      unfold sectionId at hr
      split at hr
      · cases hr; simp
      · split at hr
        · cases hr; simp +contextual
        · split at hr
          · rename_i id hid
            cases hr
            have := (C30_fresh U ids title cfg.pre cfg.sep).2.1 id hid
            refine ⟨by simp +contextual, by simp, fun _ x hx => ?_⟩
            cases hx; exact this
          · cases hr
    refine ⟨by simp [hl], fun j hj ho id hc hid => ?_⟩
    cases j with
    | zero =>
      refine ⟨hids.2.2 hc id hid, fun i hi => by omega⟩
    | succ j =>
      have := ih j (by simpa using hj) (by simpa using ho) id hc hid
      refine ⟨fun h => this.1 (hids.1 id h), fun i hi => ?_⟩
      cases i with
      | zero =>
        intro he
        exact this.1 (hids.2.1 id he)
      | succ i => exact this.2 i (by omega)

/-- C30: in every document, the id generated for a section differs from the ids of all sections before it. -/
theorem C30_document_unique (U : Unicode) (cfg : Cfg) (ss : List Sect) (out : List (Option (List Char)))
    (h : sectionIds U cfg [] ss = some out) :
    out.length = ss.length ∧ ∀ i j (hi : i < j) (hj : j < ss.length) (ho : j < out.length) id, ss[j].1 = none →
      out[j] = some id → out[i] ≠ some id := by
  obtain ⟨h1, h2⟩ := sectionIds_fresh U cfg [] ss out h
  exact ⟨h1, fun i j hi hj ho id hc hid => (h2 j hj ho id hc hid).2 i hi⟩

example : sectionIds ascii ⟨true, ['_'], some '_'⟩ [] [(none, ['A']), (some ['_', 'a', '_', '2'], ['B']), (none, ['a'])] =
    some [some "_a".toList, some "_a_2".toList, some "_a_3".toList] := by decide +kernel

/-- C30 is violated: an id written by the author is not compared with those generated before. -/
theorem C30_custom_duplicate_violated :
    sectionIds ascii ⟨true, ['_'], some '_'⟩ [] [(none, ['A']), (some ['_', 'a'], ['B'])] =
      some [some "_a".toList, some "_a".toList] := by decide +kernel

/-- what else has an id in a document: blocks, spans and inline anchors (`section_id.rs` and `anchors.rs` do not
share their sets of ids) -/
inductive IdEvent where
  | anchor (id : List Char)
  | section (s : Sect)

/-- all ids of a document in order; only sections look at and change the set of ids -/
def documentIds (U : Unicode) (cfg : Cfg) : List (List Char) → List IdEvent → Option (List (List Char))
  | _, [] => some []
  | ids, .anchor id :: es => (documentIds U cfg ids es).map fun rs => id :: rs
  | ids, .section s :: es =>
    (sectionId U cfg ids s.1 s.2).bind fun r => (documentIds U cfg r.2 es).map fun rs => r.1.toList ++ rs

/-- C30 is violated: a generated id can equal the id of an earlier block, span or inline anchor. -/
theorem C30_anchor_duplicate_violated :
    documentIds ascii ⟨true, ['_'], some '_'⟩ [] [.anchor "_foo".toList, .section (none, "Foo".toList)] =
      some ["_foo".toList, "_foo".toList] := by decide +kernel

private theorem scan_word (U : Unicode) (sep : Option Char) (e a : Bool) (w rest id : List Char) (last : Char)
    (hw : ∀ c ∈ w, asciiAlnum c = true) :
    scan U sep e a (w ++ rest) id last false false =
      scan U sep e a rest (id ++ w.map asciiLower) ((w.map asciiLower).getLast?.getD last) false false := by
  induction w generalizing id last with
  | nil => simp
  | cons c w ih =>
    have hc := hw c List.mem_cons_self
    have hne : ∀ d : Char, asciiAlnum d = false → c ≠ d := by rintro d hd rfl; rw [hc] at hd; cases hd
    have n1 := hne '<' (by decide)
    have n2 := hne '>' (by decide)
    have n3 := hne ' ' (by decide)
    have n4 := hne '-' (by decide)
    have n5 := hne '.' (by decide)
    have n6 := hne ',' (by decide)
    have n7 := hne '\t' (by decide)
    have n8 := hne '[' (by decide)
    have n9 := hne '&' (by decide)
    rw [List.cons_append, scan.eq_def]
    simp only [n1, n2, n3, n4, n5, n6, n7, n8, n9, hc, if_false, if_true, or_self, false_and, Bool.false_eq_true]
    rw [ih _ _ (fun d hd => hw d (List.mem_cons_of_mem _ hd))]
    congr 1
    · simp
    · cases hwl : w.map asciiLower with
      | nil => simp [hwl]
      | cons x xs => rw [List.map_cons, hwl]; simp [List.getLast?_cons]

private theorem asciiLower_alnum {c : Char} (h : asciiAlnum c = true) (s : Char) (hs : asciiAlnum s = false) : asciiLower c ≠ s := by
  intro he
  subst he
  unfold asciiLower at hs
  split at hs
  · rename_i hu
    simp only [Bool.and_eq_true, decide_eq_true_eq] at hu
    have h1 : 65 ≤ c.toNat := hu.1
    have h2 : c.toNat ≤ 90 := hu.2
    have h3 : (Char.ofNat (c.toNat + 32)).toNat = c.toNat + 32 := toNat_ofNat_small _ (by omega)
    have h4 : 'a' ≤ Char.ofNat (c.toNat + 32) := by show 97 ≤ (Char.ofNat (c.toNat + 32)).toNat; omega
    have h5 : Char.ofNat (c.toNat + 32) ≤ 'z' := by show (Char.ofNat (c.toNat + 32)).toNat ≤ 122; omega
    simp [asciiAlnum, h4, h5] at hs
  · rw [h] at hs; cases hs

private theorem scan_words (U : Unicode) (s : Char) (hs : asciiAlnum s = false) (e a : Bool) (ws : List (List Char))
    (hne : ws ≠ []) (hw : ∀ w ∈ ws, w ≠ [] ∧ ∀ c ∈ w, asciiAlnum c = true) (id : List Char) (last : Char) :
    ∃ last', scan U (some s) e a (joinWith ' ' ws) id last false false =
      .done (id ++ joinWith s (ws.map (List.map asciiLower))) last' ∧ last' ≠ s := by
  induction ws generalizing id last with
  | nil => exact absurd rfl hne
  | cons w ws ih =>
    have hw1 := hw w List.mem_cons_self
    obtain ⟨l, hl⟩ : ∃ l, (w.map asciiLower).getLast? = some l := by
      obtain ⟨c, w', rfl⟩ := List.exists_cons_of_ne_nil hw1.1
      simp [List.getLast?_cons]
    have hls : l ≠ s := by
      have : l ∈ w.map asciiLower := List.mem_of_getLast? hl
      obtain ⟨c, hc, rfl⟩ := List.mem_map.mp this
      exact asciiLower_alnum (hw1.2 c hc) s hs
    cases ws with
    | nil =>
      refine ⟨l, ?_, hls⟩
      have := scan_word U (some s) e a w [] id last hw1.2
      simp only [List.append_nil] at this
      simp only [joinWith, List.map_cons, List.map_nil]
      rw [this, hl]; rfl
    | cons w' ws =>
      obtain ⟨last', h1, h2⟩ := ih (by simp) (fun v hv => hw v (List.mem_cons_of_mem _ hv)) (id ++ w.map asciiLower ++ [s]) s
      refine ⟨last', ?_, h2⟩
      simp only [joinWith, List.map_cons] at h1 ⊢
      rw [scan_word U (some s) e a w _ id last hw1.2, hl, scan]
      simp only [Option.getD_some, Bool.false_eq_true, if_false]
      rw [if_neg (by decide), if_neg (by decide), if_pos (by simp), if_pos (Ne.symm hls), h1]
      simp

/-- C30: the id of a title made of words of ASCII letters and digits is the prefix followed by the words in lower
case joined by the separator, if this id is not in use; otherwise it gets the smallest free number from 2. -/
theorem C30_words (U : Unicode) (ids : List (List Char)) (pre : List Char) (s : Char) (hs : asciiAlnum s = false)
    (ws : List (List Char)) (hne : ws ≠ []) (hw : ∀ w ∈ ws, w ≠ [] ∧ ∀ c ∈ w, asciiAlnum c = true) :
    let base := pre ++ joinWith s (ws.map (List.map asciiLower))
    (base ∉ ids → autogen U ids (joinWith ' ' ws) pre (some s) = .ok base) ∧
    (base ∈ ids → ∃ i, 2 ≤ i ∧ autogen U ids (joinWith ' ' ws) pre (some s) = .ok (base ++ s :: Nat.toDigits 10 i) ∧
      base ++ s :: Nat.toDigits 10 i ∉ ids ∧ ∀ k, 2 ≤ k → k < i → base ++ s :: Nat.toDigits 10 k ∈ ids) := by
  intro base
  obtain ⟨last, h1, h2⟩ := scan_words U s hs false false ws hne hw pre (pre.getLast?.getD '\x00')
  have hc : collect U pre (some s) false false (joinWith ' ' ws) = (base, last) := by
    rw [collect, h1]
  obtain ⟨x, hx, hxs⟩ : ∃ x, (joinWith s (ws.map (List.map asciiLower))).head? = some x ∧ x ≠ s := by
    obtain ⟨w, ws', rfl⟩ := List.exists_cons_of_ne_nil hne
    have hw1 := hw w List.mem_cons_self
    obtain ⟨c, w', rfl⟩ := List.exists_cons_of_ne_nil hw1.1
    refine ⟨asciiLower c, ?_, asciiLower_alnum (hw1.2 c List.mem_cons_self) s hs⟩
    cases ws' <;> simp [joinWith]
  have hb : base ≠ [] := by
    intro hb
    have : joinWith s (ws.map (List.map asciiLower)) = [] := (List.append_eq_nil_iff.mp hb).2
    rw [this] at hx; cases hx
  have hfin : autogen U ids (joinWith ' ' ws) pre (some s) =
      if base ∈ ids then sequence ids base (some s) (ids.length + 1) 2 else .ok base := by
    unfold autogen
    have hls : ¬ some last = some s := by simpa using h2
    simp only [hc, finish, if_neg hls]
    rw [if_neg (by simp [hb])]
    rw [if_neg]
    rintro ⟨hp, hh⟩
    subst hp
    have : some x = some s := by rw [← hx, ← hh]; rfl
    exact hxs (Option.some.inj this)
  rw [hfin]
  constructor
  · intro h; rw [if_neg h]
  · intro h
    rw [if_pos h]
    obtain ⟨j, h3, h4, h5, h6⟩ := sequence_ok ids base (some s)
    unfold candidate decimal at h4 h5 h6
    simp only [Option.toList_some, List.append_assoc, List.singleton_append] at h4 h5 h6
    exact ⟨j, h3, h4, h5, h6⟩

example : joinWith ' ' ["Foo".toList, "Bar2".toList] = "Foo Bar2".toList ∧
    joinWith '_' (["Foo".toList, "Bar2".toList].map (List.map asciiLower)) = "foo_bar2".toList := by decide

private theorem scan_done (U : Unicode) (sep : Option Char) (e a : Bool) (line : List Char)
    (h : ∀ c ∈ line, c ≠ '[' ∧ c ≠ '&') : ∀ id last t k, ∃ id' last', scan U sep e a line id last t k = .done id' last' := by
  induction line with
  | nil => intro id last t k; exact ⟨id, last, rfl⟩
  | cons c cs ih =>
    have ih := ih (fun d hd => h d (List.mem_cons_of_mem _ hd))
    have hc := h c List.mem_cons_self
    intro id last t k
    rw [scan.eq_def]
    simp only [hc.1, hc.2, false_and, if_false]
    (repeat' split) <;> exact ih _ _ _ _

private theorem scan_tag (U : Unicode) (sep : Option Char) (e a : Bool) (tag rest id : List Char) (last : Char)
    (ht : ∀ c ∈ tag, asciiAlnum c = true ∨ c = '/') :
    scan U sep e a (tag ++ '>' :: rest) id last true false = scan U sep e a rest id last false false := by
  induction tag with
  | nil => rw [List.nil_append, scan.eq_def]; simp
  | cons c cs ih =>
    have hc := ht c List.mem_cons_self
    have hne : ∀ d : Char, asciiAlnum d = false → d ≠ '/' → c ≠ d := by
      rintro d hd hs rfl
      rcases hc with hc | hc
      · rw [hc] at hd; cases hd
      · exact hs hc
    have n1 := hne '<' (by decide) (by decide)
    have n2 := hne '>' (by decide) (by decide)
    have n3 := hne ' ' (by decide) (by decide)
    have n4 := hne '-' (by decide) (by decide)
    have n5 := hne '.' (by decide) (by decide)
    have n6 := hne ',' (by decide) (by decide)
    have n7 := hne '\t' (by decide) (by decide)
    have n8 := hne '[' (by decide) (by decide)
    have n9 := hne '&' (by decide) (by decide)
    rw [List.cons_append, scan.eq_def]
    simp only [n1, n2, n3, n4, n5, n6, n7, n8, n9, if_false, if_true, or_self, false_and, Bool.false_eq_true]
    exact ih (fun d hd => ht d (List.mem_cons_of_mem _ hd))

private theorem scan_insert_tag (U : Unicode) (sep : Option Char) (e a : Bool) (pre tag rest : List Char)
    (hp : ∀ c ∈ pre, c ≠ '[' ∧ c ≠ '&' ∧ c ≠ '<') (ht : ∀ c ∈ tag, asciiAlnum c = true ∨ c = '/') :
    ∀ id last, scan U sep e a (pre ++ '<' :: (tag ++ '>' :: rest)) id last false false =
      scan U sep e a (pre ++ rest) id last false false := by
  induction pre with
  | nil =>
    intro id last
    simp only [List.nil_append]
    rw [scan.eq_def]
    have hh : (tag ++ '>' :: rest).head? ≠ some '<' := by
      cases tag with
      | nil => simp
      | cons c cs =>
        simp only [List.cons_append, List.head?_cons, ne_eq, Option.some.injEq]
        rintro rfl
        have := ht '<' List.mem_cons_self
        revert this; decide
    simp only [hh, if_true, if_false, Bool.false_eq_true]
    exact scan_tag U sep e a tag rest id last ht
  | cons c cs ih =>
    have ih := ih (fun d hd => hp d (List.mem_cons_of_mem _ hd))
    have hc := hp c List.mem_cons_self
    intro id last
    simp only [List.cons_append]
    rw [scan.eq_def, scan.eq_def U sep e a (c :: (cs ++ rest))]
    simp only [hc.1, hc.2.1, hc.2.2, false_and, if_false, Bool.false_eq_true, ih]

/-- C30: a tag in a title has no part in its id, and the text around it keeps its part: the id is that of the title
without the tag. -/
theorem C30_tags_do_not_count (U : Unicode) (ids : List (List Char)) (pre : List Char) (sep : Option Char)
    (a tag b : List Char) (ha : ∀ c ∈ a, c ≠ '[' ∧ c ≠ '&' ∧ c ≠ '<') (ht : ∀ c ∈ tag, asciiAlnum c = true ∨ c = '/')
    (hb : ∀ c ∈ b, c ≠ '[' ∧ c ≠ '&') :
    autogen U ids (a ++ '<' :: (tag ++ '>' :: b)) pre sep = autogen U ids (a ++ b) pre sep := by
  have hs := scan_insert_tag U sep false false a tag b ha ht pre (pre.getLast?.getD '\x00')
  obtain ⟨id', last', hd⟩ := scan_done U sep false false (a ++ b) (by
    intro c hc
    rcases List.mem_append.1 hc with hc | hc
    · exact ⟨(ha c hc).1, (ha c hc).2.1⟩
    · exact hb c hc) pre (pre.getLast?.getD '\x00') false false
  have h1 : collect U pre sep false false (a ++ '<' :: (tag ++ '>' :: b)) = (id', last') := by
    rw [collect, hs, hd]
  have h2 : collect U pre sep false false (a ++ b) = (id', last') := by
    rw [collect, hd]
  unfold autogen
  rw [h1, h2]

example : autogen ascii [] "The <b>Bold</b> one".toList ['_'] (some '_') = .ok "_the_bold_one".toList := by decide +kernel

end Verif.Props
