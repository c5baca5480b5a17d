import Verif.Spec.Escape
/-! C50: escaping makes text safe. -/
namespace Verif.Props
open Verif.Escape Verif.Spec.Escape

private theorem ampHash_cases (r : List Char) : ampHash r = [] ∨ ampHash r = ['&'] ∨ ampHash r = "&amp;".toList := by
  unfold ampHash
  split
  · exact .inl rfl
  · split
    · exact .inr (.inl rfl)
    · exact .inr (.inr rfl)

private theorem escChar_raw (q : Bool) (c : Char) (cs : List Char) : ∀ x ∈ escChar q c cs,
    x ≠ '<' ∧ x ≠ '>' ∧ (q = true → x ≠ '"' ∧ x ≠ '\'') := by
  unfold escChar
  split
  · split
    · intro x hx
      rcases ampHash_cases (c :: cs) with h | h | h <;> rw [h] at hx
      · cases hx
      · simp at hx; subst hx; cases q <;> decide
      · clear h; revert x; cases q <;> decide
    · cases q <;> decide
  · split
    · cases q <;> decide
    · split
      · cases q <;> decide
      · split
        · cases q <;> decide
        · split
          · cases q <;> decide
          · rename_i h1 h2 h3 h4 h5
            intro x hx
            simp at hx; subst hx
            refine ⟨h2, h3, fun hq => ⟨fun h => h4 ⟨h, hq⟩, fun h => h5 ⟨h, hq⟩⟩⟩

/-- **C50** (no raw markup): for every text, escaped text contains no angle
bracket, and no quote of either kind when quotes are escaped. -/
theorem C50_no_raw (quotes : Bool) (s : List Char) : ∀ c ∈ escape quotes s,
    c ≠ '<' ∧ c ≠ '>' ∧ (quotes = true → c ≠ '"' ∧ c ≠ '\'') := by
  induction s with
  | nil => simp [escape]
  | cons c cs ih =>
    intro x hx
    rw [escape] at hx
    rcases List.mem_append.mp hx with hx | hx
    · exact escChar_raw _ _ _ x hx
    · exact ih x hx

private theorem window_prefix : ∀ (n : Nat) (l w : List Char), window n l = some w →
    (∃ v, l = w ++ v) ∧ w.length ≤ n := by
  intro n l
  fun_induction window n l with
  | case1 => intro w h; injection h with h; subst h; simp
  | case2 => intro w h; injection h with h; subst h; simp
  | case3 n c cs hle ih =>
    intro w h
    cases hw : window (n + 1 - c.utf8Size) cs with
    | none => rw [hw] at h; cases h
    | some w' =>
      rw [hw] at h
      injection h with h; subst h
      obtain ⟨⟨v, hv⟩, hl⟩ := ih w' hw
      have := Char.utf8Size_pos c
      exact ⟨⟨v, by simp [hv]⟩, by simp; omega⟩
  | case4 => intro w h; cases h

private theorem run_append (p : Char → Bool) (w v : List Char) : ∀ seen, run p seen w = true → run p seen (w ++ v) = true := by
  induction w with
  | nil => intro seen h; cases h
  | cons c w ih =>
    intro seen h
    simp only [run, List.cons_append] at h ⊢
    split
    · rename_i hp; rw [if_pos hp] at h; exact ih _ h
    · rename_i hp; rw [if_neg hp] at h; exact h

private theorem isDec_hex {c : Char} (h : isDec c = true) : isHex c = true := by simp [isHex, h]

private theorem isHex_plain {q : Bool} {c : Char} {cs : List Char} (h : isHex c = true) : escChar q c cs = [c] := by
  have h1 : c ≠ '&' := by intro hc; subst hc; revert h; decide
  have h2 : c ≠ '<' := by intro hc; subst hc; revert h; decide
  have h3 : c ≠ '>' := by intro hc; subst hc; revert h; decide
  have h4 : c ≠ '"' := by intro hc; subst hc; revert h; decide
  have h5 : c ≠ '\'' := by intro hc; subst hc; revert h; decide
  simp [escChar, h1, h2, h3, h4, h5]

private theorem run_escape (q : Bool) (p : Char → Bool) (hp : ∀ c, p c = true → isHex c = true) (cs : List Char) :
    ∀ seen, run p seen cs = true → run p seen (escape q cs) = true := by
  induction cs with
  | nil => intro seen h; cases h
  | cons c cs ih =>
    intro seen h
    rw [run] at h
    split at h
    · rename_i hc
      rw [escape, isHex_plain (hp c hc)]
      simp only [List.cons_append, List.nil_append, run, if_pos hc]
      exact ih _ h
    · rename_i hc
      have : c = ';' ∧ seen = true := by simpa using h
      obtain ⟨rfl, rfl⟩ := this
      rw [escape]
      have e : escChar q ';' cs = [';'] := by simp [escChar]
      rw [e]
      simp [run, hc]

private theorem refHere_shape {s : List Char} (h : refHere s = true) :
    (∃ cs, s = '&' :: '#' :: 'x' :: cs ∧ run isHex false cs = true) ∨
    (∃ cs, s = '&' :: '#' :: cs ∧ run isDec false cs = true) := by
  unfold refHere at h
  split at h
  · exact .inl ⟨_, rfl, h⟩
  · exact .inr ⟨_, rfl, h⟩
  · cases h

private theorem run_spec {p : Char → Bool} {P : Char → Prop} (hp : ∀ c, p c = true → P c) (cs : List Char) : ∀ seen, run p seen cs = true →
    ∃ ds rest, (seen = false → ds ≠ []) ∧ (∀ c ∈ ds, P c) ∧ cs = ds ++ ';' :: rest := by
  induction cs with
  | nil => intro seen h; cases h
  | cons c cs ih =>
    intro seen h
    rw [run] at h
    split at h
    · rename_i hc
      obtain ⟨ds, rest, _, h2, h3⟩ := ih true h
      exact ⟨c :: ds, rest, by simp, by intro x hx; rcases List.mem_cons.mp hx with hx | hx; (· subst hx; exact hp _ hc); (· exact h2 x hx), by simp [h3]⟩
    · have : c = ';' ∧ seen = true := by simpa using h
      obtain ⟨rfl, rfl⟩ := this
      exact ⟨[], cs, by simp, by simp, rfl⟩

private theorem isDec_dec {c : Char} (h : isDec c = true) : dec c := by
  have h1 : 48 ≤ c.val.toNat ∧ c.val.toNat ≤ 57 := by
    simp only [isDec, Bool.and_eq_true, decide_eq_true_eq, UInt32.le_iff_toNat_le] at h
    exact h
  have : c = Char.ofNat c.val.toNat := by simp
  rw [this]
  generalize c.val.toNat = n at h1
  have : n = 48 ∨ n = 49 ∨ n = 50 ∨ n = 51 ∨ n = 52 ∨ n = 53 ∨ n = 54 ∨ n = 55 ∨ n = 56 ∨ n = 57 := by omega
  unfold dec
  rcases this with rfl | rfl | rfl | rfl | rfl | rfl | rfl | rfl | rfl | rfl <;> decide

private theorem isHex_hex {c : Char} (h : isHex c = true) : hex c := by
  have h1 : (48 ≤ c.val.toNat ∧ c.val.toNat ≤ 57) ∨ (97 ≤ c.val.toNat ∧ c.val.toNat ≤ 102) ∨ (65 ≤ c.val.toNat ∧ c.val.toNat ≤ 70) := by
    simp only [isHex, isDec, Bool.or_eq_true, Bool.and_eq_true, decide_eq_true_eq, UInt32.le_iff_toNat_le] at h
    rcases h with (h | h) | h
    · exact .inl h
    · exact .inr (.inl h)
    · exact .inr (.inr h)
  have : c = Char.ofNat c.val.toNat := by simp
  rw [this]
  generalize c.val.toNat = n at h1
  have : n = 48 ∨ n = 49 ∨ n = 50 ∨ n = 51 ∨ n = 52 ∨ n = 53 ∨ n = 54 ∨ n = 55 ∨ n = 56 ∨ n = 57 ∨
    n = 97 ∨ n = 98 ∨ n = 99 ∨ n = 100 ∨ n = 101 ∨ n = 102 ∨ n = 65 ∨ n = 66 ∨ n = 67 ∨ n = 68 ∨ n = 69 ∨ n = 70 := by omega
  unfold hex
  rcases this with rfl | rfl | rfl | rfl | rfl | rfl | rfl | rfl | rfl | rfl | rfl | rfl | rfl | rfl | rfl | rfl | rfl | rfl | rfl | rfl | rfl | rfl <;> decide

private theorem refHere_starts {s : List Char} (h : refHere s = true) : StartsRef s := by
  rcases refHere_shape h with ⟨cs, rfl, h'⟩ | ⟨cs, rfl, h'⟩
  · obtain ⟨ds, rest, h1, h2, h3⟩ := run_spec (P := hex) (fun c hc => isHex_hex hc) cs false h'
    exact .inr (.inr ⟨ds, rest, h1 rfl, h2, by simp [h3]⟩)
  · obtain ⟨ds, rest, h1, h2, h3⟩ := run_spec (P := dec) (fun c hc => isDec_dec hc) cs false h'
    exact .inr (.inl ⟨ds, rest, h1 rfl, h2, by simp [h3]⟩)

private theorem refHere_escape {q : Bool} {cs : List Char} (h : refHere ('&' :: cs) = true) :
    refHere ('&' :: escape q cs) = true := by
  rcases refHere_shape h with ⟨ds, h1, h2⟩ | ⟨ds, h1, h2⟩
  · injection h1 with _ h1; subst h1
    have e : escape q ('#' :: 'x' :: ds) = '#' :: 'x' :: escape q ds := by simp [escape, escChar]
    rw [e]; exact run_escape q isHex (fun c h => h) ds false h2
  · injection h1 with _ h1; subst h1
    have e : escape q ('#' :: ds) = '#' :: escape q ds := by simp [escape, escChar]
    rw [e]
    have h3 := run_escape q isDec (fun c h => isDec_hex h) ds false h2
    unfold refHere
    split
    · rename_i heq
      injection heq with _ heq; injection heq with _ heq
      rw [heq] at h3
      simp [run, isDec] at h3
    · rename_i heq
      injection heq with _ heq; injection heq with _ heq
      rw [← heq]; exact h3
    · rename_i hn
      exact absurd rfl (hn _)

private theorem refHere_prefix {w v : List Char} (h : refHere w = true) : refHere (w ++ v) = true := by
  rcases refHere_shape h with ⟨ds, rfl, h2⟩ | ⟨ds, rfl, h2⟩
  · exact run_append _ _ _ _ h2
  · have h3 := run_append _ _ v _ h2
    simp only [List.cons_append]
    unfold refHere
    split
    · rename_i heq
      injection heq with _ heq; injection heq with _ heq
      rw [heq] at h3
      simp [run, isDec] at h3
    · rename_i heq
      injection heq with _ heq; injection heq with _ heq
      rw [← heq]; exact h3
    · rename_i hn
      exact absurd rfl (hn _)

private theorem refHere_len {s : List Char} (h : refHere s = true) : 4 ≤ s.length := by
  have : ∀ (p : Char → Bool) (cs : List Char), run p false cs = true → 2 ≤ cs.length := by
    intro p cs h
    match cs with
    | [] => cases h
    | [c] => simp only [run] at h; split at h <;> simp at h
    | _ :: _ :: _ => simp
  rcases refHere_shape h with ⟨ds, rfl, h2⟩ | ⟨ds, rfl, h2⟩
  · have := this _ _ h2; simp; omega
  · have := this _ _ h2; simp; omega

private theorem refSomewhere_suffix {s : List Char} (h : refSomewhere s = true) : ∃ pre r, s = pre ++ r ∧ refHere r = true := by
  induction s with
  | nil => cases h
  | cons c cs ih =>
    rw [refSomewhere, Bool.or_eq_true] at h
    rcases h with h | h
    · exact ⟨[], _, rfl, h⟩
    · obtain ⟨pre, r, h1, h2⟩ := ih h
      exact ⟨c :: pre, r, by simp [h1], h2⟩

/-- In a window of six bytes starting with `&#`, a reference is at the start or
right after. -/
private theorem somewhere_here {w : List Char} {cs v : List Char} (hw : '&' :: '#' :: cs = w ++ v) (hl : w.length ≤ 6)
    (h : refSomewhere w = true) (hno : ¬ "&#&#".toList <:+: '&' :: '#' :: cs) : refHere w = true := by
  obtain ⟨pre, r, h1, h2⟩ := refSomewhere_suffix h
  have hr := refHere_len h2
  subst h1
  simp only [List.length_append] at hl
  match pre, hl with
  | [], _ => exact h2
  | [a], _ =>
    exfalso
    simp only [List.cons_append, List.nil_append] at hw
    injection hw with _ hw
    rcases refHere_shape h2 with ⟨ds, rfl, _⟩ | ⟨ds, rfl, _⟩ <;> (injection hw with hw _; cases hw)
  | [a, b], _ =>
    exfalso
    simp only [List.cons_append, List.nil_append] at hw
    injection hw with _ hw; injection hw with _ hw
    apply hno
    rcases refHere_shape h2 with ⟨ds, rfl, _⟩ | ⟨ds, rfl, _⟩
    · exact ⟨[], 'x' :: ds ++ v, by simp [hw]⟩
    · exact ⟨[], ds ++ v, by simp [hw]⟩
  | _ :: _ :: _ :: _, hl => simp only [List.length_cons] at hl; omega

private theorem amps_append {a b : List Char} (ha : ∀ pre rest, a = pre ++ '&' :: rest → StartsRef ('&' :: rest ++ b)) (hb : AmpsOk b) :
    AmpsOk (a ++ b) := by
  intro pre rest h
  rcases List.append_eq_append_iff.mp h with ⟨as, h1, h2⟩ | ⟨bs, h1, h2⟩
  · exact hb as rest h2
  · cases bs with
    | nil => exact hb [] rest (by simpa using h2.symm)
    | cons c bs =>
      injection h2 with h2 h3
      subst h2
      rw [h3]
      exact ha pre bs h1

/-- **C50** (ampersands): every ampersand of the escaped text starts a character
reference, for all texts without `&#&#`. -/
theorem C50_amps_partial (quotes : Bool) (s : List Char) (hs : ¬ "&#&#".toList <:+: s) : AmpsOk (escape quotes s) := by
  induction s with
  | nil => intro pre rest h; simp [escape] at h
  | cons c cs ih =>
    have hcs : ¬ "&#&#".toList <:+: cs := by
      rintro ⟨a, b, h⟩
      exact hs ⟨c :: a, b, by simp [← h]⟩
    rw [escape]
    refine amps_append ?_ (ih hcs)
    have named : ∀ (name : String), name ∈ ["amp", "lt", "gt", "quot"] → '&' ∉ name.toList → ∀ (tail : List Char),
        ∀ pre rest, '&' :: name.toList ++ [';'] = pre ++ '&' :: rest → StartsRef ('&' :: rest ++ tail) := by
      intro name hn hna tail pre rest h
      cases pre with
      | nil =>
        injection h with _ h
        refine .inl ⟨name, hn, tail, ?_⟩
        rw [← h]; simp
      | cons p pre =>
        exfalso
        injection h with _ h
        have : '&' ∈ name.toList ++ [';'] := by
          rw [show name.toList ++ [';'] = pre ++ '&' :: rest from h]; simp
        rcases List.mem_append.mp this with h | h
        · exact hna h
        · simp at h
    unfold escChar
    split
    · rename_i hc
      subst hc
      split
      · rename_i hh
        obtain ⟨ds, rfl⟩ : ∃ ds, cs = '#' :: ds := by
          cases cs with
          | nil => simp at hh
          | cons a ds => simp at hh; subst hh; exact ⟨ds, rfl⟩
        unfold ampHash
        split
        · intro pre rest h; simp at h
        · rename_i w hw
          obtain ⟨⟨v, hv⟩, hl⟩ := window_prefix _ _ _ hw
          split
          · rename_i hr
            intro pre rest h
            cases pre with
            | cons p pre => simp at h
            | nil =>
              injection h with _ h
              subst h
              have h1 := somewhere_here hv hl hr hs
              have h2 : refHere ('&' :: '#' :: ds) = true := by rw [hv]; exact refHere_prefix h1
              simp only [List.cons_append, List.nil_append]
              exact refHere_starts (refHere_escape h2)
          · exact named "amp" (by simp) (by decide) _
      · exact named "amp" (by simp) (by decide) _
    · split
      · exact named "lt" (by simp) (by decide) _
      · split
        · exact named "gt" (by simp) (by decide) _
        · split
          · exact named "quot" (by simp) (by decide) _
          · split
            · intro pre rest h
              cases pre with
              | nil =>
                rw [show "&#8217;".toList = '&' :: "#8217;".toList from rfl] at h
                injection h with _ h
                subst h
                exact .inr (.inl ⟨"8217".toList, _, by decide, by unfold dec; decide, rfl⟩)
              | cons p pre =>
                exfalso
                injection h with _ h
                have : '&' ∈ "#8217;".toList := by
                  rw [show "#8217;".toList = pre ++ '&' :: rest from h]; simp
                revert this; decide
            · rename_i h1 _ _ _ _
              intro pre rest h
              exfalso
              have : '&' ∈ [c] := by rw [h]; simp
              simp at this
              exact h1 this.symm

/-- Nothing is dropped: no six-byte window ends inside a character. -/
def Fits (s : List Char) : Prop := ∀ r, r <:+ s → r.head? = some '&' → window 6 r ≠ none

/-- Escaped text begins with a digit, `;` or `#` only if the text does. -/
private theorem escape_head {q : Bool} {s : List Char} (hf : Fits s) {c : Char} {rest : List Char}
    (hc : c ≠ '&') (h : escape q s = c :: rest) : ∃ cs, s = c :: cs ∧ escape q cs = rest := by
  cases s with
  | nil => cases h
  | cons a cs =>
    rw [escape] at h
    have : escChar q a cs = [a] ∨ ∃ t, escChar q a cs = '&' :: t := by
      unfold escChar
      split
      · split
        · right
          unfold ampHash
          split
          · rename_i h1 _ _ hw
            exact absurd hw (hf _ ⟨[], rfl⟩ (by simp [h1]))
          · split
            · exact ⟨[], rfl⟩
            · exact ⟨_, rfl⟩
        · exact .inr ⟨_, rfl⟩
      · split
        · exact .inr ⟨_, rfl⟩
        · split
          · exact .inr ⟨_, rfl⟩
          · split
            · exact .inr ⟨_, rfl⟩
            · split
              · exact .inr ⟨_, rfl⟩
              · exact .inl rfl
    rcases this with h1 | ⟨t, h1⟩
    · rw [h1] at h
      injection h with h2 h3
      subst h2
      exact ⟨cs, rfl, h3⟩
    · rw [h1] at h
      injection h with h2 h3
      exact absurd h2.symm hc

private theorem Fits.tail {c : Char} {cs : List Char} (h : Fits (c :: cs)) : Fits cs := by
  intro r hr
  exact h r (hr.trans ⟨[c], rfl⟩)

private theorem unescape_plain {c : Char} {cs : List Char} (hc : c ≠ '&') : unescape (c :: cs) = c :: unescape cs := by
  rw [unescape] <;> (intros; simp_all)

private theorem unescape_hash {cs : List Char} (h : ∀ t, cs ≠ '8' :: '2' :: '1' :: '7' :: ';' :: t) :
    unescape ('&' :: '#' :: cs) = '&' :: unescape ('#' :: cs) := by
  rw [unescape] <;> (intros; simp_all)

/-- **C50** (un-escaping): reading escaped text as HTML gives the text back, for
every text in which no `&` is followed by a character split by the six-byte
window; in attributes the straight apostrophe comes back curly. Numeric
references in the text are kept as they are. -/
theorem C50_roundtrip_partial (quotes : Bool) (s : List Char) (hs : Fits s) :
    unescape (escape quotes s) = s.map (curl quotes) := by
  induction s with
  | nil => rfl
  | cons c cs ih =>
    have ih := ih hs.tail
    rw [escape, List.map_cons, ← ih]
    unfold escChar
    split
    · rename_i hc
      subst hc
      have hcurl : curl quotes '&' = '&' := by unfold curl; rw [if_neg]; rintro ⟨_, h⟩; revert h; decide
      rw [hcurl]
      split
      · rename_i hh
        obtain ⟨ds, rfl⟩ : ∃ ds, cs = '#' :: ds := by
          cases cs with
          | nil => simp at hh
          | cons a ds => simp at hh; subst hh; exact ⟨ds, rfl⟩
        unfold ampHash
        split
        · rename_i hw
          exact absurd hw (hs _ ⟨[], rfl⟩ rfl)
        · rename_i w hw
          split
          · rename_i hr
            have e : escape quotes ('#' :: ds) = '#' :: escape quotes ds := by simp [escape, escChar]
            rw [e]
            simp only [List.cons_append, List.nil_append]
            refine unescape_hash ?_
            intro t ht
            have f := hs.tail.tail
            obtain ⟨d1, rfl, h1⟩ := escape_head f (by decide) ht
            obtain ⟨d2, rfl, h2⟩ := escape_head f.tail (by decide) h1
            obtain ⟨d3, rfl, h3⟩ := escape_head f.tail.tail (by decide) h2
            obtain ⟨d4, rfl, h4⟩ := escape_head f.tail.tail.tail (by decide) h3
            have : window 6 ('&' :: '#' :: '8' :: '2' :: '1' :: '7' :: d4) = some ['&', '#', '8', '2', '1', '7'] := by
              have h1 : ∀ c ∈ ['&', '#', '8', '2', '1', '7'], c.utf8Size = 1 := by decide
              simp only [window, h1 '&' (by simp), h1 '#' (by simp), h1 '8' (by simp), h1 '2' (by simp), h1 '1' (by simp), h1 '7' (by simp)]
              cases d4 <;> simp [window]
            rw [this] at hw
            injection hw with hw
            rw [← hw] at hr
            revert hr; decide
          · rw [show "&amp;".toList = ['&', 'a', 'm', 'p', ';'] from rfl]
            simp only [List.cons_append, List.nil_append, unescape]
      · rw [show "&amp;".toList = ['&', 'a', 'm', 'p', ';'] from rfl]
        simp only [List.cons_append, List.nil_append, unescape]
    · rename_i hamp
      have keep : ∀ {x : Char}, x ≠ '\'' → curl quotes x = x := by
        intro x hx; unfold curl; rw [if_neg]; rintro ⟨_, h⟩; exact hx h
      split
      · rename_i h; subst h
        rw [keep (by decide), show "&lt;".toList = ['&', 'l', 't', ';'] from rfl]
        simp only [List.cons_append, List.nil_append, unescape]
      · split
        · rename_i h; subst h
          rw [keep (by decide), show "&gt;".toList = ['&', 'g', 't', ';'] from rfl]
          simp only [List.cons_append, List.nil_append, unescape]
        · split
          · rename_i h
            rw [h.1, keep (by decide), show "&quot;".toList = ['&', 'q', 'u', 'o', 't', ';'] from rfl]
            simp only [List.cons_append, List.nil_append, unescape]
          · split
            · rename_i h
              rw [h.1, h.2, show "&#8217;".toList = ['&', '#', '8', '2', '1', '7', ';'] from rfl]
              simp only [List.cons_append, List.nil_append, unescape]
              rfl
            · rename_i h
              simp only [List.cons_append, List.nil_append]
              rw [unescape_plain hamp]
              congr 1
              unfold curl
              rw [if_neg]
              rintro ⟨h1, h2⟩
              exact h ⟨h2, h1⟩

/-- ASCII text always fits. -/
theorem C50_ascii_fits (s : List Char) (hs : ∀ c ∈ s, c.utf8Size = 1) : Fits s := by
  have key : ∀ (n : Nat) (r : List Char), (∀ c ∈ r, c.utf8Size = 1) → window n r ≠ none := by
    intro n r
    fun_induction window n r with
    | case1 => simp
    | case2 => simp
    | case3 n c cs hle ih =>
      intro h hc
      simp only [Option.map_eq_none_iff] at hc
      exact ih (fun x hx => h x (by simp [hx])) hc
    | case4 n c cs hle => intro h; have := h c (by simp); omega
  intro r hr _
  exact key 6 r fun c hc => hs c (hr.mem hc)

/-! ### violations -/

/-- **C50 violated**: the ampersand is dropped when the six-byte window ends
inside a character. -/
theorem C50_dropped_violated : escape false "&#123é".toList = "#123é".toList := by decide +kernel

/-- **C50 violated**: an ampersand that starts no reference is left raw. -/
theorem C50_unanchored_violated : escape false ['&', '#', '&', '#', '1', ';'] = ['&', '#', '&', '#', '1', ';'] ∧
    ¬ AmpsOk ['&', '#', '&', '#', '1', ';'] := by
  refine ⟨by decide, fun h => ?_⟩
  rcases h [] ['#', '&', '#', '1', ';'] rfl with ⟨n, hn, rest, h⟩ | ⟨ds, rest, h1, h2, h⟩ | ⟨ds, rest, _, _, h⟩
  · have hh : (n.toList).head? = some 'a' ∨ (n.toList).head? = some 'l' ∨ (n.toList).head? = some 'g' ∨ (n.toList).head? = some 'q' := by
      revert n; simp
    cases hl : n.toList with
    | nil => rw [hl] at hh; simp at hh
    | cons a as =>
      rw [hl] at h hh
      injection h with _ h; injection h with h
      subst h
      simp at hh
  · cases ds with
    | nil => exact h1 rfl
    | cons d ds =>
      injection h with _ h; injection h with _ h; injection h with h
      subst h
      exact absurd (h2 '&' (by simp)) (by unfold dec; decide)
  · injection h with _ h; injection h with _ h; injection h with h
    revert h; decide

/-- **C50 violated**: references of more than six bytes, as for emoji, are
escaped a second time, while shorter ones are kept. -/
theorem C50_long_ref_violated : escape false "&#128512;".toList = "&amp;#128512;".toList ∧
    escape false "&#169;".toList = "&#169;".toList := by decide +kernel

/-- **C50 violated**: an apostrophe in an attribute value does not come back. -/
theorem C50_apostrophe_violated : unescape (escape true "it's".toList) = "it’s".toList := by decide +kernel

/-! ### the hypotheses are met -/

example : Fits "a < b && \"c\" &#169; &#x1F; it's".toList := C50_ascii_fits _ (by decide +kernel)

example : Fits ['é', '&', 'é', '&', '#', '1', ';', 'é'] := by
  intro r hr hh
  simp only [List.suffix_cons_iff, List.suffix_nil] at hr
  rcases hr with rfl | rfl | rfl | rfl | rfl | rfl | rfl | rfl | rfl <;> revert hh <;> decide +kernel

example : ¬ ['&', '#', '&', '#'] <:+: "a < b && &#169; &#x1F;".toList := by decide +kernel

example : escape true "a < b && \"c\" é &#169;".toList = "a &lt; b &amp;&amp; &quot;c&quot; é &#169;".toList := by decide +kernel

/-- C50: the value of a written attribute ends at its closing quote: between the quotes is the escaped value, which
holds no quote and no angle bracket, and which a browser reads as the value (if no character is lost in escaping, see
`Fits`; apostrophes become typographic ones). -/
theorem C50_attribute_values_stay_inside (name value : List Char) :
    ∃ v, attr name value = ' ' :: name ++ "=\"".toList ++ v ++ ['"'] ∧ (∀ c ∈ v, c ≠ '"' ∧ c ≠ '<' ∧ c ≠ '>') ∧
      (Fits value → unescape v = value.map (curl true)) := by
  refine ⟨escape true value, rfl, ?_, ?_⟩
  · intro c hc
    have := C50_no_raw true value c hc
    exact ⟨(this.2.2 rfl).1, this.1, this.2.1⟩
  · exact C50_roundtrip_partial true value

/-- an upper case hexadecimal digit -/
def upperHex (c : Char) : Option Nat :=
  if '0' ≤ c ∧ c ≤ '9' then some (c.toNat - 48) else if 'A' ≤ c ∧ c ≤ 'F' then some (c.toNat - 55) else none

/-- percent-decoding as in RFC 3986, section 2.1, with the upper case digits that it asks for -/
def percentDecode : List Char → List Char
  | '%' :: a :: b :: cs =>
    match upperHex a, upperHex b with
    | some x, some y => Char.ofNat (16 * x + y) :: percentDecode cs
    | _, _ => '%' :: percentDecode (a :: b :: cs)
  | c :: cs => c :: percentDecode cs
  | [] => []

/-- C50: an encoded URL holds no space and no comma, and decodes to the URL. -/
theorem C50_url_encoding (s : List Char) (h : '%' ∉ s) :
    (∀ c ∈ urlEncode s, c ≠ ' ' ∧ c ≠ ',') ∧ percentDecode (urlEncode s) = s := by
  induction s with
  | nil => exact ⟨by simp [urlEncode], rfl⟩
  | cons c cs ih =>
    have hc : c ≠ '%' := fun e => h (e ▸ List.mem_cons_self)
    obtain ⟨h1, h2⟩ := ih (fun hm => h (List.mem_cons_of_mem _ hm))
    unfold urlEncode
    split
    · rename_i he
      refine ⟨?_, ?_⟩
      · intro x hx
        rw [List.mem_append] at hx
        rcases hx with hx | hx
        · revert x; decide
        · exact h1 x hx
      · show percentDecode ('%' :: '2' :: '0' :: urlEncode cs) = c :: cs
        rw [percentDecode, h2, he]; rfl
    · split
      · rename_i he
        refine ⟨?_, ?_⟩
        · intro x hx
          rw [List.mem_append] at hx
          rcases hx with hx | hx
          · revert x; decide
          · exact h1 x hx
        · show percentDecode ('%' :: '2' :: 'C' :: urlEncode cs) = c :: cs
          rw [percentDecode, h2, he]; rfl
      · rename_i n1 n2
        refine ⟨?_, ?_⟩
        · intro x hx
          rw [List.mem_append, List.mem_singleton] at hx
          rcases hx with rfl | hx
          · exact ⟨n1, n2⟩
          · exact h1 x hx
        · show percentDecode (c :: urlEncode cs) = c :: cs
          rw [percentDecode, h2]
          rintro a b r rfl
          exact absurd rfl hc

example : urlEncode "a b,c".toList = "a%20b%2Cc".toList := by decide

end Verif.Props
