import Verif.Model.Images
import Verif.Spec.Images
/-!
Lemmas on inlined SVG images (C97).
-/
namespace Verif.Images
open Verif.Spec.Images Verif.OpenTag

theorem has_cons {word s : Str} {c : Char} (h : Has word s) : Has word (c :: s) := by
  obtain ⟨a, b, rfl⟩ := h
  exact ⟨c :: a, b, by simp⟩

theorem has_prefix {word s : Str} (h : word <+: s) : Has word s := by
  obtain ⟨b, rfl⟩ := h
  exact ⟨[], b, by simp⟩

/-- a text without the word, and then one that starts with it, is cut there -/
theorem lastSvg_none {s : Str} (h : ¬ Has "<svg".toList s) : lastSvg s = none := by
  induction s with
  | nil => rfl
  | cons c s ih =>
    unfold lastSvg
    rw [ih fun hs => h (has_cons hs)]
    simp only
    rw [if_neg]
    intro hp
    exact h (has_prefix (List.isPrefixOf_iff_prefix.1 hp))

theorem lastSvg_at {rest : Str} (h : ¬ Has "<svg".toList rest) (pre : Str) :
    lastSvg (pre ++ ("<svg".toList ++ rest)) = some ("<svg".toList ++ rest) := by
  induction pre with
  | cons c pre ih => rw [List.cons_append, lastSvg, ih]
  | nil =>
    have h1 : lastSvg rest = none := lastSvg_none h
    have h2 : ∀ (c : Char) (s : Str), c ≠ '<' → lastSvg s = none → lastSvg (c :: s) = none := by
      intro c s hc hs
      unfold lastSvg
      rw [hs]
      simp only
      rw [if_neg]
      intro hp
      have := List.isPrefixOf_iff_prefix.1 hp
      obtain ⟨b, hb⟩ := this
      simp at hb
      exact hc hb.1.symm
    have e : "<svg".toList ++ rest = '<' :: 's' :: 'v' :: 'g' :: rest := rfl
    rw [List.nil_append, e, lastSvg, h2 'g' _ (by decide) h1 |> h2 'v' _ (by decide) |> h2 's' _ (by decide)]
    simp only
    rw [if_pos]
    rw [List.isPrefixOf_iff_prefix]
    exact ⟨rest, rfl⟩

theorem trimAscii_end {s sp : Str} (h1 : ∀ c, s.head? = some c → asciiSpace c = false) (h2 : ∀ c, s.getLast? = some c → asciiSpace c = false)
    (h0 : s ≠ []) (hsp : ∀ c ∈ sp, asciiSpace c = true) : trimAscii (s ++ sp) = s := by
  unfold trimAscii
  have e1 : (s ++ sp).dropWhile asciiSpace = s ++ sp := by
    cases s with
    | nil => exact absurd rfl h0
    | cons c s => simp [h1 c rfl]
  rw [e1, List.reverse_append, List.dropWhile_append_of_pos fun c hc => hsp c (by simpa using hc)]
  have e2 : s.reverse.dropWhile asciiSpace = s.reverse := by
    have hs : s.reverse.head? = s.getLast? := by simp
    cases hr : s.reverse with
    | nil => rfl
    | cons c r =>
      rw [hr] at hs
      simp [List.dropWhile, h2 c hs.symm]
  rw [e2, List.reverse_reverse]

/-- `HasSize`, from the front -/
theorem hasSize_cons {c : Char} {s : Str} : HasSize (c :: s) ↔
    (White c ∧ ∃ n ∈ sizeNames, (n ++ ['=']) <+: s) ∨ HasSize s := by
  constructor
  · rintro ⟨d, n, hd, hn, a, b, e⟩
    cases a with
    | nil =>
      simp only [List.nil_append, List.cons_append, List.cons.injEq] at e
      obtain ⟨rfl, rfl⟩ := e
      exact .inl ⟨hd, n, hn, b, by simp⟩
    | cons x a =>
      simp only [List.cons_append, List.cons.injEq] at e
      exact .inr ⟨d, n, hd, hn, a, b, by rw [e.2]; simp⟩
  · rintro (⟨hc, n, hn, b, rfl⟩ | ⟨d, n, hd, hn, a, b, rfl⟩)
    · exact ⟨c, n, hc, hn, [], b, by simp⟩
    · exact ⟨d, n, hd, hn, c :: a, b, by simp⟩

theorem sizeAttr_none {c : Char} {s : Str} (h : ¬ (White c ∧ ∃ n ∈ sizeNames, (n ++ ['=']) <+: s)) : sizeAttr (c :: s) = none := by
  rw [sizeAttr]
  by_cases hc : White c
  · have key : ∀ n ∈ sizeNames, (n ++ ['=']).isPrefixOf s = false := by
      intro n hn
      cases hb : (n ++ ['=']).isPrefixOf s with
      | false => rfl
      | true => exact absurd ⟨hc, n, hn, List.isPrefixOf_iff_prefix.1 hb⟩ h
    rw [if_pos (show Regex.space c = true from hc)]
    have k1 := key "width".toList (by decide)
    have k2 := key "height".toList (by decide)
    have k3 := key "style".toList (by decide)
    have e1 : "width".toList ++ ['='] = "width=".toList := rfl
    have e2 : "height".toList ++ ['='] = "height=".toList := rfl
    have e3 : "style".toList ++ ['='] = "style=".toList := rfl
    rw [e1] at k1; rw [e2] at k2; rw [e3] at k3
    rw [k1, k2, k3]
    simp only [Bool.false_eq_true, if_false]
  · rw [if_neg (show ¬ Regex.space c = true from hc)]

/-- a text that cannot go on with the end of one of the words -/
def Ends (y : Str) : Prop := ∀ c, y.head? = some c → c ∉ ("widthegstyl=".toList : List Char)

theorem prefix_append {w x y : Str} (hw : ∀ c ∈ w, c ∈ ("widthegstyl=".toList : List Char)) (hy : Ends y) (h : w <+: x ++ y) : w <+: x := by
  induction w generalizing x with
  | nil => exact List.nil_prefix
  | cons c w ih =>
    cases x with
    | nil =>
      obtain ⟨b, e⟩ := h
      rw [List.nil_append, List.cons_append] at e
      exact absurd (hw c (by simp)) (hy c (by rw [← e]; rfl))
    | cons d x =>
      rw [List.cons_append, List.cons_prefix_cons] at h
      rw [List.cons_prefix_cons]
      exact ⟨h.1, ih (fun c hc => hw c (by simp [hc])) h.2⟩

theorem names_letters : ∀ n ∈ sizeNames, ∀ c ∈ n ++ ['='], c ∈ ("widthegstyl=".toList : List Char) := by
  have : (sizeNames.all fun n => (n ++ ['=']).all fun c => ("widthegstyl=".toList : List Char).contains c) = true := by decide +kernel
  intro n hn c hc
  have h1 := List.all_eq_true.1 this n hn
  have h2 := List.all_eq_true.1 h1 c hc
  exact List.contains_iff_mem.1 h2

theorem strip_nil (n : Nat) : strip n [] = [] := by cases n <;> rfl

seal sizeAttr in
theorem strip_cons (n : Nat) (c : Char) (s : Str) : strip (n + 1) (c :: s) =
    match sizeAttr (c :: s) with | some rest => strip n rest | none => c :: strip n s := rfl

theorem isPrefixOf_append (p t : Str) : p.isPrefixOf (p ++ t) = true := List.isPrefixOf_iff_prefix.2 ⟨t, rfl⟩

theorem strip_keep {y : Str} (hy : Ends y) : ∀ {x : Str}, ¬ HasSize x → ∀ n, strip (x.length + n) (x ++ y) = x ++ strip n y := by
  intro x
  induction x with
  | nil => intro _ n; rw [List.length_nil, Nat.zero_add, List.nil_append, List.nil_append]
  | cons c x ih =>
    intro h n
    rw [hasSize_cons, not_or] at h
    have : sizeAttr (c :: (x ++ y)) = none := sizeAttr_none fun ⟨hc, w, hw, hp⟩ =>
      h.1 ⟨hc, w, hw, prefix_append (names_letters w hw) hy hp⟩
    rw [List.cons_append, List.length_cons, show x.length + 1 + n = (x.length + n) + 1 from by omega, strip_cons, this]
    simp only
    rw [ih h.2, List.cons_append]

theorem quoted_ok {q : Char} (hq : q = '"' ∨ q = '\'') {v : Str} (hv : q ∉ v) (rest : Str) : quoted (q :: (v ++ q :: rest)) = some rest := by
  have hd : (v ++ q :: rest).dropWhile (· ≠ q) = q :: rest := by
    rw [List.dropWhile_append_of_pos fun c hc => by
      have : c ≠ q := fun e => hv (e ▸ hc)
      simpa using this]
    simp
  rw [quoted]
  rw [if_pos (by rcases hq with rfl | rfl <;> decide), hd]

theorem sizeAttr_some {c q : Char} {n v : Str} (hc : White c) (hn : n ∈ sizeNames) (hq : q = '"' ∨ q = '\'') (hv : q ∉ v) (rest : Str) :
    sizeAttr (c :: (n ++ '=' :: q :: (v ++ q :: rest))) = some rest := by
  have h := quoted_ok hq hv rest
  generalize hT : q :: (v ++ q :: rest) = T at h ⊢
  rw [sizeAttr]
  rw [if_pos (show Regex.space c = true from hc)]
  simp only [sizeNames, List.mem_cons, List.not_mem_nil, or_false] at hn
  rcases hn with rfl | rfl | rfl
  · have e : "width".toList ++ '=' :: T = "width=".toList ++ T := rfl
    rw [e, if_pos (isPrefixOf_append _ _)]; exact h
  · have e : "height".toList ++ '=' :: T = "height=".toList ++ T := rfl
    have e1 : "width=".toList.isPrefixOf ("height=".toList ++ T) = false := rfl
    rw [e, e1, if_neg Bool.false_ne_true, if_pos (isPrefixOf_append _ _)]; exact h
  · have e : "style".toList ++ '=' :: T = "style=".toList ++ T := rfl
    have e1 : "width=".toList.isPrefixOf ("style=".toList ++ T) = false := rfl
    have e2 : "height=".toList.isPrefixOf ("style=".toList ++ T) = false := rfl
    rw [e, e1, if_neg Bool.false_ne_true, e2, if_neg Bool.false_ne_true, if_pos (isPrefixOf_append _ _)]; exact h

theorem strip_drop {c q : Char} {n v : Str} (hc : White c) (hn : n ∈ sizeNames) (hq : q = '"' ∨ q = '\'') (hv : q ∉ v) (rest : Str) (k : Nat) :
    strip (k + 1) (c :: (n ++ '=' :: q :: (v ++ q :: rest))) = strip k rest := by
  rw [strip_cons, sizeAttr_some hc hn hq hv]

/-- more steps than characters change nothing -/
theorem quoted_length {s r : Str} (h : quoted s = some r) : r.length < s.length := by
  cases s with
  | nil => simp [quoted] at h
  | cons q s =>
    rw [quoted] at h
    split at h
    · split at h
      · cases h
      · rename_i c rest hd
        cases h
        have := (List.dropWhile_suffix (p := (· ≠ q)) (l := s)).length_le
        rw [hd] at this
        simp at this ⊢
        omega
    · cases h

theorem sizeAttr_length {s r : Str} (h : sizeAttr s = some r) : r.length < s.length := by
  cases s with
  | nil => simp [sizeAttr] at h
  | cons c s =>
    rw [sizeAttr] at h
    split at h
    · have key : ∀ k, quoted (s.drop k) = some r → r.length < (c :: s).length := by
        intro k hk
        have := quoted_length hk
        simp at this ⊢
        omega
      split at h
      · exact key _ h
      · split at h
        · exact key _ h
        · split at h
          · exact key _ h
          · cases h
    · cases h

theorem strip_enough : ∀ (n : Nat) (s : Str), s.length ≤ n → ∀ k, strip (n + k) s = strip n s := by
  intro n
  induction n with
  | zero =>
    intro s hs k
    cases s with
    | nil => rw [strip_nil, strip_nil]
    | cons => simp at hs
  | succ n ih =>
    intro s hs k
    cases s with
    | nil => rw [strip_nil, strip_nil]
    | cons c s =>
      rw [show n + 1 + k = (n + k) + 1 from by omega, strip_cons, strip_cons]
      cases hz : sizeAttr (c :: s) with
      | none => simp only; rw [ih s (by simpa using hs)]
      | some r =>
        simp only
        have := sizeAttr_length hz
        rw [ih r (by simp at this hs; omega)]

theorem replaceSvg_front (b rest : Str) : replaceSvg b ("<svg".toList ++ rest) = b ++ rest := by
  have e : "<svg".toList ++ rest = '<' :: 's' :: 'v' :: 'g' :: rest := rfl
  rw [e, replaceSvg, if_pos]
  · rfl
  · rw [List.isPrefixOf_iff_prefix]; exact ⟨rest, rfl⟩

theorem strip_long {n : Nat} {s : Str} (h : s.length ≤ n) : strip n s = strip s.length s := by
  have := strip_enough s.length s (Nat.le_refl _) (n - s.length)
  rwa [show s.length + (n - s.length) = n from by omega] at this

theorem stripAll_keep {x y : Str} (hy : Ends y) (hx : ¬ HasSize x) :
    strip (x ++ y).length (x ++ y) = x ++ strip y.length y := by
  rw [List.length_append, strip_keep hy hx]

theorem hasSize_nil : ¬ HasSize [] := by
  rintro ⟨c, n, _, _, a, b, e⟩
  cases a <;> simp at e

theorem stripAll_none {x : Str} (hx : ¬ HasSize x) : strip x.length x = x := by
  have := stripAll_keep (x := x) (y := []) (fun c h => by cases h) hx
  simpa [strip_nil] using this

theorem hasSize_skip {x y : Str} (hx : ∀ c ∈ x, ¬ White c) (hy : ¬ HasSize y) : ¬ HasSize (x ++ y) := by
  induction x with
  | nil => exact hy
  | cons c x ih =>
    rw [List.cons_append, hasSize_cons]
    rintro (⟨h, -⟩ | h)
    · exact hx c (by simp) h
    · exact ih (fun c hc => hx c (by simp [hc])) h

theorem hasSize_append {x y : Str} (hy : Ends y) (h1 : ¬ HasSize x) (h2 : ¬ HasSize y) : ¬ HasSize (x ++ y) := by
  induction x with
  | nil => exact h2
  | cons c x ih =>
    rw [hasSize_cons, not_or] at h1
    rw [List.cons_append, hasSize_cons]
    rintro (⟨hc, n, hn, hp⟩ | h)
    · exact h1.1 ⟨hc, n, hn, prefix_append (names_letters n hn) hy hp⟩
    · exact ih h1.2 h

theorem quote_ends {q : Char} (hq : q = '"' ∨ q = '\'') : Ends [q] := by
  intro c hc
  cases hc
  rcases hq with rfl | rfl <;> decide

theorem names_eq : ∀ n ∈ sizeNames, '=' ∉ n := by
  have : (sizeNames.all fun n => !n.contains '=') = true := by decide +kernel
  intro n hn h
  have h1 := List.all_eq_true.1 this n hn
  rw [Bool.not_eq_true', List.contains_iff_mem.2 h] at h1
  cases h1

theorem prefix_eq {n name t : Str} (h1 : '=' ∉ n) (h2 : '=' ∉ name) (h : (n ++ ['=']) <+: name ++ '=' :: t) : n = name := by
  induction n generalizing name with
  | nil =>
    cases name with
    | nil => rfl
    | cons c name =>
      rw [List.nil_append, List.cons_append, List.cons_prefix_cons] at h
      exact absurd (h.1 ▸ List.mem_cons_self) h2
  | cons d n ih =>
    cases name with
    | nil =>
      rw [List.nil_append, List.cons_append, List.cons_prefix_cons] at h
      exact absurd (by simp [h.1]) h1
    | cons c name =>
      rw [List.cons_append, List.cons_append, List.cons_prefix_cons] at h
      rw [h.1, ih (fun h' => h1 (by simp [h'])) (fun h' => h2 (by simp [h'])) h.2]

theorem attr_keep {a : SvgAttr} (h : a.Ok) (hn : a.name ∉ sizeNames) : ¬ HasSize a.text := by
  have hq : ¬ White a.quote := by
    rcases h.quote with e | e <;> rw [e] <;> unfold White <;> decide
  unfold SvgAttr.text
  rw [hasSize_cons]
  rintro (⟨-, n, hns, hp⟩ | hs)
  · exact hn (prefix_eq (names_eq n hns) (fun hm => (h.name _ hm).2 rfl) hp ▸ hns)
  · revert hs
    refine hasSize_skip (fun c hc => (h.name c hc).1) ?_
    refine hasSize_skip (x := ['=', a.quote]) ?_ ?_
    · intro c hc
      simp only [List.mem_cons, List.not_mem_nil, or_false] at hc
      rcases hc with rfl | rfl
      · unfold White; decide
      · exact hq
    · refine hasSize_append (quote_ends h.quote) h.value.2 ?_
      rw [hasSize_cons]
      rintro (⟨hw, -⟩ | hs)
      · exact hq hw
      · exact hasSize_nil hs

theorem white_ends {c : Char} {r : Str} (h : White c ∨ c = '>' ∨ c = '/') : Ends (c :: r) := by
  intro d hd hm
  cases hd
  have : (("widthegstyl=".toList : List Char).all fun c => !(Regex.space c || c == '>' || c == '/')) = true := by decide +kernel
  have h1 := List.all_eq_true.1 this c hm
  rcases h with h | h | h
  · rw [show Regex.space c = true from h] at h1; simp at h1
  · rw [h] at h1; simp at h1
  · rw [h] at h1; simp at h1

theorem attrs_ends {as : List SvgAttr} (h : ∀ a ∈ as, a.Ok) {body : Str} (hb : TagEnd body) : Ends (svgAttrs as ++ body) := by
  cases as with
  | nil =>
    obtain ⟨c, r, rfl, hc⟩ := hb
    exact white_ends hc
  | cons a as => exact white_ends (.inl (h a (by simp)).space)

theorem strip_attrs {body : Str} (hb : TagEnd body) (hs : ¬ HasSize body) : ∀ {as : List SvgAttr}, (∀ a ∈ as, a.Ok) →
    strip (svgAttrs as ++ body).length (svgAttrs as ++ body) = svgAttrs (others as) ++ body := by
  intro as
  induction as with
  | nil => intro _; exact stripAll_none hs
  | cons a as ih =>
    intro h
    have ha := h a (by simp)
    have ih' := ih fun b hb => h b (by simp [hb])
    have hs : svgAttrs (a :: as) ++ body = a.text ++ (svgAttrs as ++ body) := by
      simp [svgAttrs]
    rw [hs]
    by_cases hn : a.name ∈ sizeNames
    · have e : a.text ++ (svgAttrs as ++ body) = a.space :: (a.name ++ '=' :: a.quote :: (a.value ++ a.quote :: (svgAttrs as ++ body))) := by
        simp [SvgAttr.text]
      have ho : others (a :: as) = others as := by
        unfold others
        rw [List.filter_cons, if_neg]
        simpa using hn
      rw [e, List.length_cons, strip_drop ha.space hn ha.quote ha.value.1, ho, ← ih']
      refine strip_long ?_
      simp
      omega
    · have ho : others (a :: as) = a :: others as := by
        unfold others
        rw [List.filter_cons, if_pos]
        simpa using hn
      rw [stripAll_keep (attrs_ends (fun b hb => h b (by simp [hb])) hb) (attr_keep ha hn), ih', ho]
      simp [svgAttrs]

theorem svgTarget_end (x : Str) : svgTarget (x ++ ".svg".toList) = true := by
  induction x with
  | nil => decide +kernel
  | cons c x ih => rw [List.cons_append, svgTarget, ih, Bool.or_true]

end Verif.Images
