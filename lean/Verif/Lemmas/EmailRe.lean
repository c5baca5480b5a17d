import Verif.Spec.Email
import Verif.Lemmas.RegexLang
/-! Lemmas: what the expression for email addresses matches. -/
namespace Verif.Inlines
open Verif Regex

theorem isLower_eq (c : Char) : isLower c = c.isLower := by
  simp only [isLower, Char.isLower, Char.toNat]
  rw [Bool.eq_iff_iff]
  simp [UInt32.le_iff_toNat_le]

theorem isDecimal_eq (c : Char) : isDecimal c = c.isDigit := by
  simp only [isDecimal, Char.isDigit, Char.toNat]
  rw [Bool.eq_iff_iff]
  simp [UInt32.le_iff_toNat_le]

theorem isLowerNum_eq (c : Char) : isLowerNum c = lowerNum c := by rw [isLowerNum, isLower_eq, isDecimal_eq, lowerNum]

variable {word : Char → Bool}

theorem reads_set {p : Char → Bool} {bf u af : List Char} : Reads word (.set p) bf u af ↔ ∃ c, u = [c] ∧ p c = true := by
  constructor
  · intro h; cases h with | set h => exact ⟨_, rfl, h⟩
  · rintro ⟨c, rfl, h⟩; exact .set h

theorem reads_seq {a b : Re} {bf u af : List Char} : Reads word (.seq a b) bf u af ↔
    ∃ x y, u = x ++ y ∧ Reads word a bf x (y ++ af) ∧ Reads word b (x.reverse ++ bf) y af := by
  constructor
  · intro h; cases h with | seq h1 h2 => exact ⟨_, _, rfl, h1, h2⟩
  · rintro ⟨x, y, rfl, h1, h2⟩; exact .seq h1 h2

theorem reads_opt {a : Re} {bf u af : List Char} : Reads word (.opt a) bf u af ↔ u = [] ∨ Reads word a bf u af := by
  constructor
  · intro h
    cases h with
    | left h => exact .inr h
    | right h => cases h; exact .inl rfl
  · rintro (rfl | h)
    · exact .right .eps
    · exact .left h

theorem reads_cap {n : Nat} {a : Re} {bf u af : List Char} : Reads word (.cap n a) bf u af ↔ Reads word a bf u af := by
  constructor
  · intro h; cases h with | cap h => exact h
  · exact .cap

theorem reads_star {p : Char → Bool} {g : Bool} {bf u af : List Char} : Reads word (.star g (.set p)) bf u af ↔ ∀ c ∈ u, p c = true := by
  constructor
  · intro h
    generalize hr : Re.star g (.set p) = r at h
    induction h with
    | stop => nofun
    | more _ h1 _ _ ih2 =>
      cases hr
      obtain ⟨c, rfl, hc⟩ := reads_set.1 h1
      intro d hd
      rcases List.mem_append.1 hd with hd | hd
      · rw [List.mem_singleton.1 hd]; exact hc
      · exact ih2 rfl d hd
    | set => cases hr
    | eps => cases hr
    | seq => cases hr
    | left => cases hr
    | right => cases hr
    | cap => cases hr
    | bol => cases hr
    | eol => cases hr
    | wordB => cases hr
  · intro h
    induction u generalizing bf with
    | nil => exact .stop
    | cons c cs ih =>
      exact .more (u := [c]) (by simp) (.set (h c (by simp))) (ih fun d hd => h d (by simp [hd]))

theorem reads_plus {p : Char → Bool} {bf u af : List Char} : Reads word (.plus (.set p)) bf u af ↔ u ≠ [] ∧ ∀ c ∈ u, p c = true := by
  unfold Re.plus
  rw [reads_seq]
  constructor
  · rintro ⟨x, y, rfl, h1, h2⟩
    obtain ⟨c, rfl, hc⟩ := reads_set.1 h1
    exact ⟨by simp, fun d hd => by
      rcases List.mem_append.1 hd with hd | hd
      · rw [List.mem_singleton.1 hd]; exact hc
      · exact reads_star.1 h2 d hd⟩
  · rintro ⟨h1, h2⟩
    cases u with
    | nil => exact absurd rfl h1
    | cons c cs => exact ⟨[c], cs, rfl, .set (h2 c (by simp)), reads_star.2 fun d hd => h2 d (by simp [hd])⟩

theorem local_iff {bf u af : List Char} : Reads word localRe bf u af ↔ LocalPart u := by
  unfold localRe
  simp only [reads_cap, reads_seq, reads_opt, reads_set, reads_star, isLowerNum_eq, Bool.or_eq_true, decide_eq_true_eq]
  constructor
  · rintro ⟨x, y, rfl, ⟨c, rfl, hc⟩, hy⟩
    have hc' : c ≠ '.' := by rintro rfl; revert hc; decide
    rcases hy with rfl | ⟨v, w, rfl, hv, d, rfl, hd⟩
    · exact ⟨by simp, by simpa using by grind, by simpa using hc', by simpa using hc'⟩
    · have hd' : d ≠ '.' := by rintro rfl; revert hd; decide
      refine ⟨by simp, ?_, by simpa using hc', by rw [← List.append_assoc, List.getLast?_concat]; simpa using hd'⟩
      intro e he
      simp only [List.mem_append, List.mem_singleton] at he
      rcases he with rfl | he | rfl
      · grind
      · have := hv e he; grind
      · grind
  · rintro ⟨h1, h2, h3, h4⟩
    cases u with
    | nil => exact absurd rfl h1
    | cons c cs =>
      refine ⟨[c], cs, rfl, ⟨c, rfl, ?_⟩, ?_⟩
      · have := h2 c (by simp); simp at h3; grind
      · rcases List.eq_nil_or_concat cs with rfl | ⟨v, d, rfl⟩
        · exact .inl rfl
        · refine .inr ⟨v, [d], by simp, fun e he => ?_, d, rfl, ?_⟩
          · have := h2 e (by simp [he]); grind
          · have := h2 d (by simp)
            have h4 : d ≠ '.' := by
              rw [show c :: v.concat d = (c :: v) ++ [d] by simp, List.getLast?_concat] at h4
              simpa using h4
            grind

theorem tld_iff {bf u af : List Char} : Reads word tldRe bf u af ↔ 2 ≤ u.length ∧ u.length ≤ 6 ∧ ∀ c ∈ u, c.isLower = true := by
  unfold tldRe
  simp only [reads_seq, reads_opt, reads_set, isLower_eq]
  constructor
  · rintro ⟨_, _, rfl, ⟨a, rfl, ha⟩, _, _, rfl, ⟨b, rfl, hb⟩, rfl | ⟨_, _, rfl, ⟨c, rfl, hc⟩, rfl | ⟨_, _, rfl, ⟨d, rfl, hd⟩, rfl | ⟨_, _, rfl,
      ⟨e, rfl, he⟩, rfl | ⟨f, rfl, hf⟩⟩⟩⟩⟩ <;> simp_all
  · rintro ⟨h1, h2, h3⟩
    match u, h1, h2 with
    | [a, b], _, _ => exact ⟨[a], _, rfl, ⟨a, rfl, h3 a (by simp)⟩, [b], _, rfl, ⟨b, rfl, h3 b (by simp)⟩, .inl rfl⟩
    | [a, b, c], _, _ =>
      exact ⟨[a], _, rfl, ⟨a, rfl, h3 a (by simp)⟩, [b], _, rfl, ⟨b, rfl, h3 b (by simp)⟩, .inr ⟨[c], _, rfl, ⟨c, rfl, h3 c (by simp)⟩, .inl rfl⟩⟩
    | [a, b, c, d], _, _ =>
      exact ⟨[a], _, rfl, ⟨a, rfl, h3 a (by simp)⟩, [b], _, rfl, ⟨b, rfl, h3 b (by simp)⟩, .inr ⟨[c], _, rfl, ⟨c, rfl, h3 c (by simp)⟩,
        .inr ⟨[d], _, rfl, ⟨d, rfl, h3 d (by simp)⟩, .inl rfl⟩⟩⟩
    | [a, b, c, d, e], _, _ =>
      exact ⟨[a], _, rfl, ⟨a, rfl, h3 a (by simp)⟩, [b], _, rfl, ⟨b, rfl, h3 b (by simp)⟩, .inr ⟨[c], _, rfl, ⟨c, rfl, h3 c (by simp)⟩,
        .inr ⟨[d], _, rfl, ⟨d, rfl, h3 d (by simp)⟩, .inr ⟨[e], _, rfl, ⟨e, rfl, h3 e (by simp)⟩, .inl rfl⟩⟩⟩⟩
    | [a, b, c, d, e, f], _, _ =>
      exact ⟨[a], _, rfl, ⟨a, rfl, h3 a (by simp)⟩, [b], _, rfl, ⟨b, rfl, h3 b (by simp)⟩, .inr ⟨[c], _, rfl, ⟨c, rfl, h3 c (by simp)⟩,
        .inr ⟨[d], _, rfl, ⟨d, rfl, h3 d (by simp)⟩, .inr ⟨[e], _, rfl, ⟨e, rfl, h3 e (by simp)⟩, .inr ⟨f, rfl, h3 f (by simp)⟩⟩⟩⟩⟩
    | a :: b :: c :: d :: e :: f :: g :: t, _, h => simp at h

/-- the groups after the first name of a host -/
theorem parts_host {bf u af : List Char} (h : Reads word (.star true (.cap 4 (.seq (.set fun c => c = '-' || c = '.') (.plus (.set isLowerNum))))) bf u af) :
    ∀ {x : List Char}, Host x → Host (x ++ u) := by
  generalize hr : Re.star true (.cap 4 (.seq (.set fun c => c = '-' || c = '.') (.plus (.set isLowerNum)))) = r at h
  induction h with
  | stop => intro x hx; simpa using hx
  | more _ h1 _ _ ih2 =>
    intro x hx
    cases hr
    simp only [reads_cap, reads_seq, reads_set, reads_plus, isLowerNum_eq, Bool.or_eq_true, decide_eq_true_eq] at h1
    obtain ⟨_, l, rfl, ⟨c, rfl, hc⟩, hl⟩ := h1
    have := ih2 rfl (Host.more hx hc.symm hl)
    simpa using this
  | set => cases hr
  | eps => cases hr
  | seq => cases hr
  | left => cases hr
  | right => cases hr
  | cap => cases hr
  | bol => cases hr
  | eol => cases hr
  | wordB => cases hr

theorem host_parts {h : List Char} (hh : Host h) : ∃ x u, h = x ++ u ∧ Label x ∧ ∀ bf af,
    Reads word (.star true (.cap 4 (.seq (.set fun c => c = '-' || c = '.') (.plus (.set isLowerNum))))) bf u af := by
  -- the groups as a list
  have key : ∃ x ps, h = x ++ (ps : List (Char × List Char)).flatMap (fun p => p.1 :: p.2) ∧ Label x ∧ ∀ p ∈ ps, (p.1 = '.' ∨ p.1 = '-') ∧ Label p.2 := by
    induction hh with
    | one hl => exact ⟨_, [], by simp, hl, nofun⟩
    | @more h l c _ hc hl ih =>
      obtain ⟨x, ps, rfl, hx, hps⟩ := ih
      refine ⟨x, ps ++ [(c, l)], by simp, hx, ?_⟩
      intro p hp
      rcases List.mem_append.1 hp with hp | hp
      · exact hps p hp
      · rw [List.mem_singleton.1 hp]; exact ⟨hc, hl⟩
  obtain ⟨x, ps, rfl, hx, hps⟩ := key
  refine ⟨x, _, rfl, hx, fun bf af => ?_⟩
  clear hh
  induction ps generalizing bf with
  | nil => exact .stop
  | cons p ps ih =>
    rw [List.flatMap_cons]
    refine .more (by simp) ?_ (ih (fun q hq => hps q (by simp [hq])) _)
    have := hps p (by simp)
    simp only [reads_cap, reads_seq, reads_set, reads_plus, isLowerNum_eq, Bool.or_eq_true, decide_eq_true_eq]
    exact ⟨[p.1], p.2, rfl, ⟨p.1, rfl, this.1.symm⟩, this.2⟩

theorem domain_iff {bf u af : List Char} : Reads word domainRe bf u af ↔ Domain u := by
  unfold domainRe Re.ch
  rw [reads_cap, reads_seq]
  constructor
  · rintro ⟨x, y, rfl, h1, h2⟩
    obtain ⟨v, w, rfl, h3, h4⟩ := reads_seq.1 h2
    obtain ⟨d, t, rfl, h5, h6⟩ := reads_seq.1 h4
    obtain ⟨c, rfl, hc⟩ := reads_set.1 h5
    have hc : c = '.' := by simpa using hc
    subst hc
    have hx : Label x := by simpa [reads_plus, isLowerNum_eq, Label] using h1
    exact ⟨x ++ v, t, by simp, parts_host h3 (.one hx), tld_iff.1 h6⟩
  · rintro ⟨h, t, rfl, hh, ht⟩
    obtain ⟨x, u, rfl, hx, hu⟩ := host_parts (word := word) hh
    refine ⟨x, u ++ '.' :: t, by simp, reads_plus.2 (by simpa [isLowerNum_eq, Label] using hx), reads_seq.2 ⟨u, '.' :: t, rfl, hu _ _, ?_⟩⟩
    exact reads_seq.2 ⟨['.'], t, rfl, .set (by simp), tld_iff.2 ht⟩

/-- what the expression finds -/
theorem isAddress_iff (s : List Char) : isAddress s = true ↔ ∃ l d rest, s = l ++ '@' :: (d ++ rest) ∧ LocalPart l ∧ Domain d := by
  unfold isAddress
  rw [captures_isSome]
  unfold addressRe
  constructor
  · rintro ⟨a, u, b, rfl, h⟩
    obtain ⟨x, y, rfl, h1, h2⟩ := reads_seq.1 h
    have ha : a = [] ∧ x = [] := by
      generalize hr : a.reverse = r at h1
      cases h1
      exact ⟨by simpa using hr, rfl⟩
    obtain ⟨rfl, rfl⟩ := ha
    obtain ⟨l, y, rfl, h3, h4⟩ := reads_seq.1 h2
    obtain ⟨c, d, rfl, h5, h6⟩ := reads_seq.1 h4
    obtain ⟨c, rfl, hc⟩ := reads_set.1 h5
    have hc : c = '@' := by simpa using hc
    subst hc
    exact ⟨l, d, b, by simp, local_iff.1 h3, domain_iff.1 h6⟩
  · rintro ⟨l, d, rest, rfl, hl, hd⟩
    refine ⟨[], l ++ '@' :: d, rest, by simp, ?_⟩
    refine reads_seq.2 ⟨[], _, rfl, .bol, reads_seq.2 ⟨l, _, rfl, local_iff.2 hl, reads_seq.2 ⟨['@'], d, rfl, .set (by simp), domain_iff.2 hd⟩⟩⟩

end Verif.Inlines
