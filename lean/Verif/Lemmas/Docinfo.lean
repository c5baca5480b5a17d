import Verif.Model.Docinfo
import Verif.Spec.Docinfo
import Verif.Lemmas.AttrEntry
/-! Lemmas: docinfo files. -/
namespace Verif.Docinfo
open Verif.Regex Verif.Inlines Verif.Split
open Verif.AttrEntry (refRe)
open Verif.IncludeProcess (docinfoNewlines linesOf trim)

variable {word : Char → Bool}

/-! ### items -/

theorem items_append (a b : List Leaf) : items (a ++ b) = items a ++ items b := by
  induction a with
  | nil => rfl
  | cons x a ih => cases x <;> simp [items, ih]

theorem items_appendText (ns : List Leaf) (t : List Char) : items (appendText ns t) = items ns ++ t.map .char := by
  unfold appendText
  split
  · subst_vars; simp
  · split
    · rename_i s hs
      obtain ⟨ini, rfl⟩ := List.getLast?_eq_some_iff.1 hs
      simp [items_append, items]
    · simp [items_append, items]

/-! ### symbols -/

theorem symbolAt_find (t : List Char) : symbolAt t = (sequences.find? (fun s => s.1.isPrefixOf t)).map fun s => (s.2, s.1.length) := by
  unfold symbolAt sequences
  simp only [List.find?_cons]
  generalize "(TM)".toList.isPrefixOf t = b0
  generalize "(C)".toList.isPrefixOf t = b1
  generalize "(R)".toList.isPrefixOf t = b2
  generalize "...".toList.isPrefixOf t = b3
  generalize "---".toList.isPrefixOf t = b4
  generalize "--".toList.isPrefixOf t = b5
  generalize "->".toList.isPrefixOf t = b6
  generalize "=>".toList.isPrefixOf t = b7
  generalize "<-".toList.isPrefixOf t = b8
  generalize "<=".toList.isPrefixOf t = b9
  cases b0 with
  | true => rfl
  | false =>
    cases b1 with
    | true => rfl
    | false =>
      cases b2 with
      | true => rfl
      | false =>
        cases b3 with
        | true => rfl
        | false =>
          cases b4 with
          | true => rfl
          | false =>
            cases b5 with
            | true => rfl
            | false =>
              cases b6 with
              | true => rfl
              | false =>
                cases b7 with
                | true => rfl
                | false =>
                  cases b8 with
                  | true => rfl
                  | false =>
                    cases b9 with
                    | true => rfl
                    | false =>
                      rfl

theorem symbols_items : ∀ {text : List Char} {is : List Item}, Replaced text is → ∀ (n : Nat) (nodes : List Leaf) (seg : List Char), text.length < n →
    items (symbols n nodes seg text) = items nodes ++ seg.map .char ++ is := by
  intro text is h
  induction h with
  | done =>
    intro n nodes seg hn
    obtain ⟨n, rfl⟩ : ∃ m, n = m + 1 := ⟨n - 1, by simp at hn; omega⟩
    simp [symbols, items_appendText]
  | @symbol w k rest is hf _ ih =>
    intro n nodes seg hn
    obtain ⟨n, rfl⟩ : ∃ m, n = m + 1 := ⟨n - 1, by omega⟩
    have hw : w ≠ [] := by
      have := List.mem_of_find?_eq_some hf
      rintro rfl
      simp [sequences] at this
    have hs := symbolAt_find (w ++ rest)
    rw [hf] at hs
    obtain ⟨c, w', rfl⟩ : ∃ c w', w = c :: w' := by cases w with | nil => exact absurd rfl hw | cons c w' => exact ⟨c, w', rfl⟩
    rw [List.cons_append] at hs ⊢
    rw [symbols, hs]
    have hd : (c :: (w' ++ rest)).drop ((c :: w').length) = rest := by rw [← List.cons_append, List.drop_left]
    simp only [Option.map_some]
    rw [hd, ih _ _ _ (by simp at hn ⊢; omega), items_append, items_appendText]
    simp [items]
  | @char c rest is hf _ ih =>
    intro n nodes seg hn
    obtain ⟨n, rfl⟩ : ∃ m, n = m + 1 := ⟨n - 1, by omega⟩
    have hs := symbolAt_find (c :: rest)
    rw [hf] at hs
    rw [symbols, hs]
    simp only [Option.map_none]
    rw [ih _ _ _ (by simp at hn ⊢; omega)]
    simp

theorem replaced_exists : ∀ (n : Nat) (text : List Char), text.length ≤ n → ∃ is, Replaced text is := by
  intro n
  induction n with
  | zero => intro text h; obtain rfl := List.eq_nil_of_length_eq_zero (Nat.le_zero.1 h); exact ⟨_, .done⟩
  | succ n ih =>
    intro text h
    cases text with
    | nil => exact ⟨_, .done⟩
    | cons c rest =>
      cases hf : sequences.find? (fun s => s.1.isPrefixOf (c :: rest)) with
      | none =>
        obtain ⟨is, hi⟩ := ih rest (by simp at h; omega)
        exact ⟨_, .char hf hi⟩
      | some s =>
        obtain ⟨w, k⟩ := s
        have hp : w.isPrefixOf (c :: rest) = true := by
          have := List.find?_some hf
          simpa using this
        obtain ⟨t, ht⟩ := List.isPrefixOf_iff_prefix.1 hp
        have hw : w ≠ [] := by
          have := List.mem_of_find?_eq_some hf
          rintro rfl
          simp [sequences] at this
        have hl : 0 < w.length := List.length_pos_iff.2 hw
        have hlen : w.length + t.length = rest.length + 1 := by rw [← List.length_append, ht]; rfl
        obtain ⟨is, hi⟩ := ih t (by simp at h; omega)
        rw [← ht] at hf ⊢
        exact ⟨_, .symbol hf hi⟩

/-! ### references -/

theorem ref_read {n rest : List Char} (h : RefName n) (bf : List Char) :
    run word refRe ⟨bf, '{' :: n ++ '}' :: rest, []⟩ some = some ⟨'}' :: (n.reverse ++ '{' :: bf), rest, [(1, n)]⟩ := by
  rw [refRe, run, List.cons_append, run_ch, run, run]
  refine plus_all h.1 (fun c hc => ?_) (by intro c hc; simp at hc; subst hc; decide) ?_
  · obtain ⟨h1, h2⟩ := h.2 c hc
    simp [h1, h2]
  · rw [AuthorLine.cap_take, run_ch]

theorem ref_not {c : Char} {rest bf : List Char} (h : ∀ n more, RefName n → c :: rest ≠ '{' :: n ++ '}' :: more) :
    run word refRe ⟨bf, c :: rest, []⟩ some = none := by
  by_cases hc : c = '{'
  · subst hc
    rw [refRe, run, run_ch, run, run]
    rcases hr : run word (.plus (.set fun c => !space c && decide (c ≠ '}'))) ⟨'{' :: bf, rest, []⟩ _ with _ | r
    · rfl
    · obtain ⟨a, b, he, ha, hall, hk⟩ := plus_some hr
      exfalso
      cases b with
      | nil => rw [run_ch_none (by simp)] at hk; cases hk
      | cons d b =>
        by_cases hd : d = '}'
        · subst hd
          dsimp only at he
          refine h a b ⟨ha, fun x hx => ?_⟩ (by rw [he]; rfl)
          have := hall x hx
          simpa using this
        · rw [run_ch_none (by simpa using hd)] at hk; cases hk
  · exact AttrEntry.ref_none (by simpa using hc) _

theorem search_shift {r : Re} : ∀ (l bf : List Char) (n : Nat), search word r (n + 1) bf l = (search word r n bf l).map fun m => ⟨m.skipped + 1, m.stop⟩
  | [], bf, n => by simp only [search, Option.map_map]; rfl
  | c :: cs, bf, n => by
    simp only [search]
    cases run word r ⟨bf, c :: cs, []⟩ some with
    | none => exact search_shift cs _ _
    | some s => rfl

theorem search_rest {r : Re} : ∀ (l bf : List Char) (n : Nat) (m : Match), search word r n bf l = some m → n ≤ m.skipped := by
  intro l
  induction l with
  | nil =>
    intro bf n m h
    simp only [search, Option.map_eq_some_iff] at h
    obtain ⟨s, _, rfl⟩ := h
    exact Nat.le_refl _
  | cons c cs ih =>
    intro bf n m h
    rw [search] at h
    split at h
    · cases h; exact Nat.le_refl _
    · exact Nat.le_of_succ_le (ih _ _ _ h)

theorem walk_char {r : Re} {f : List Char → Match → Bool × List Char} (hf : ∀ t m k, f t ⟨k, m⟩ = f t ⟨0, m⟩) {c : Char} {rest bf : List Char} {n : Nat}
    (h : run word r ⟨bf, c :: rest, []⟩ some = none) :
    replaceAllFlag word r f (n + 1) bf (c :: rest) =
      ((replaceAllFlag word r f (n + 1) (c :: bf) rest).1, c :: (replaceAllFlag word r f (n + 1) (c :: bf) rest).2) := by
  simp only [replaceAllFlag, search, h]
  rw [search_shift]
  cases hs : search word r 0 (c :: bf) rest with
  | none => rfl
  | some m =>
    obtain ⟨k, st⟩ := m
    simp only [Option.map_some, List.drop_succ_cons, List.length_cons, List.take_succ_cons, List.cons_append]
    rw [show rest.length + 1 - (k + 1) - st.rest.length = rest.length - k - st.rest.length by omega, hf _ _ (k + 1), hf _ _ k]

theorem refText_skip (cfg : Cfg) (t : List Char) (m : St) (k : Nat) : refText cfg t ⟨k, m⟩ = refText cfg t ⟨0, m⟩ := rfl

theorem walk_refs {cfg : Cfg} : ∀ {text : List Char} {ps : List Part}, Refs text ps → ∀ (n : Nat) (bf : List Char), text.length < n →
    replaceAllFlag word refRe (refText cfg) n bf text =
      (decide (policy cfg.missing = .dropLine) && ps.any (Part.missing cfg.look), ps.flatMap (Part.text (policy cfg.missing) cfg.look)) := by
  intro text ps h
  induction h with
  | done =>
    intro n bf hn
    obtain ⟨n, rfl⟩ : ∃ m, n = m + 1 := ⟨n - 1, by simp at hn; omega⟩
    rw [replaceAllFlag, AttrEntry.search_none (by simp)]
    simp
  | @ref m rest ps hm _ ih =>
    intro n bf hn
    obtain ⟨n, rfl⟩ : ∃ m, n = m + 1 := ⟨n - 1, by omega⟩
    rw [replaceAllFlag, AuthorLine.search_now (ref_read hm bf)]
    simp only [ih n _ (by simp at hn; omega)]
    have hsrc : (('{' :: m ++ '}' :: rest).drop 0).take (('{' :: m ++ '}' :: rest).length - 0 - rest.length) = '{' :: m ++ ['}'] := by
      have e : '{' :: m ++ '}' :: rest = ('{' :: m ++ ['}']) ++ rest := by simp
      rw [e, List.drop_zero, List.length_append, Nat.sub_zero, Nat.add_sub_cancel, List.take_left]
    rw [hsrc]
    have hg : (Match.mk 0 ⟨'}' :: (m.reverse ++ '{' :: bf), rest, [(1, m)]⟩).group 1 = some m := rfl
    simp only [refText, hg, Option.bind_some, List.take_zero, List.nil_append, List.flatMap_cons, List.any_cons, Part.text, Part.missing]
    rcases hl : cfg.look m with _ | (s | b)
    · dsimp only
      by_cases h1 : cfg.missing = some "drop".toList
      · have hp : policy cfg.missing = .drop := if_pos h1
        simp only [if_pos h1, hp]
        rfl
      · by_cases h2 : cfg.missing = some "drop-line".toList
        · have hp : policy cfg.missing = .dropLine := by rw [policy, if_neg h1, if_pos h2]
          simp only [if_neg h1, if_pos h2, hp]
          rfl
        · have hp : policy cfg.missing = .keep := by rw [policy, if_neg h1, if_neg h2]
          simp only [if_neg h1, if_neg h2, hp]
          rfl
    · simp only [Bool.false_or]
    · dsimp only
      by_cases h1 : cfg.missing = some "drop".toList
      · have hp : policy cfg.missing = .drop := if_pos h1
        simp only [if_pos h1, hp]
        rfl
      · by_cases h2 : cfg.missing = some "drop-line".toList
        · have hp : policy cfg.missing = .dropLine := by rw [policy, if_neg h1, if_pos h2]
          simp only [if_neg h1, if_pos h2, hp]
          rfl
        · have hp : policy cfg.missing = .keep := by rw [policy, if_neg h1, if_neg h2]
          simp only [if_neg h1, if_neg h2, hp]
          rfl
  | @char c rest ps hc _ ih =>
    intro n bf hn
    obtain ⟨n, rfl⟩ : ∃ m, n = m + 1 := ⟨n - 1, by omega⟩
    rw [walk_char (fun t m k => refText_skip cfg t m k) (ref_not hc), ih (n + 1) _ (by simp at hn; omega)]
    simp [Part.missing, Part.text]

theorem refs_exists : ∀ (n : Nat) (text : List Char), text.length ≤ n → ∃ ps, Refs text ps := by
  intro n
  induction n with
  | zero => intro text h; obtain rfl := List.eq_nil_of_length_eq_zero (Nat.le_zero.1 h); exact ⟨_, .done⟩
  | succ n ih =>
    intro text h
    cases text with
    | nil => exact ⟨_, .done⟩
    | cons c rest =>
      by_cases hr : ∃ m more, RefName m ∧ c :: rest = '{' :: m ++ '}' :: more
      · obtain ⟨m, more, hm, e⟩ := hr
        rw [e] at h ⊢
        obtain ⟨ps, hp⟩ := ih more (by simp at h; omega)
        exact ⟨_, .ref hm hp⟩
      · obtain ⟨ps, hp⟩ := ih rest (by simp at h; omega)
        exact ⟨_, .char (fun m more hm e => hr ⟨m, more, hm, e⟩) hp⟩

/-! ### lines -/

/-- the settings that the attributes stand for -/
def Cfg.settings (cfg : Cfg) : Settings := ⟨(docinfoSubs cfg.subs).1, (docinfoSubs cfg.subs).2, policy cfg.missing, cfg.look⟩

theorem line_shown {cfg : Cfg} {line : List Char} {out : List Item} (h : LineShown cfg.settings line out) : items (lineNodes word cfg line) = out := by
  obtain ⟨ps, hps, ho⟩ := h
  have key : resolveRefs word cfg (docinfoSubs cfg.subs).1 line =
      if policy cfg.missing = .dropLine ∧ ps.any (Part.missing cfg.look) = true then none else some (ps.flatMap (Part.text (policy cfg.missing) cfg.look)) := by
    have hps : if (docinfoSubs cfg.subs).1 = true then Refs line ps else ps = line.map .char := hps
    unfold resolveRefs
    by_cases hr : (docinfoSubs cfg.subs).1 = true
    · rw [if_pos hr] at hps
      rw [if_neg (by simp [hr]), walk_refs hps _ _ (Nat.lt_succ_self _)]
      by_cases h1 : policy cfg.missing = .dropLine <;> by_cases h2 : ps.any (Part.missing cfg.look) = true <;> simp [h1, h2]
    · rw [if_neg hr] at hps
      rw [if_pos (by simpa using hr), hps]
      have h1 : (line.map Part.char).any (Part.missing cfg.look) = false := by
        rw [List.any_eq_false]; intro x hx; obtain ⟨c, _, rfl⟩ := List.mem_map.1 hx; simp [Part.missing]
      have h2 : ∀ l : List Char, (l.map Part.char).flatMap (Part.text (policy cfg.missing) cfg.look) = l := by
        intro l
        induction l with
        | nil => rfl
        | cons c l ih => rw [List.map_cons, List.flatMap_cons, ih]; rfl
      rw [if_neg (by simp [h1]), h2]
  unfold lineNodes
  rw [key]
  have ho : if policy cfg.missing = .dropLine ∧ ps.any (Part.missing cfg.look) = true then out = []
      else if (docinfoSubs cfg.subs).2 = true then Replaced (ps.flatMap (Part.text (policy cfg.missing) cfg.look)) out
      else out = (ps.flatMap (Part.text (policy cfg.missing) cfg.look)).map .char := ho
  by_cases hd : policy cfg.missing = .dropLine ∧ ps.any (Part.missing cfg.look) = true
  · rw [if_pos hd] at ho; rw [if_pos hd, ho]; rfl
  · rw [if_neg hd] at ho
    rw [if_neg hd]
    dsimp only
    by_cases hs : (docinfoSubs cfg.subs).2 = true
    · rw [if_pos hs] at ho
      rw [if_pos hs, symbols_items ho _ _ _ (Nat.lt_succ_self _)]
      simp [items]
    · rw [if_neg hs] at ho
      rw [if_neg hs, items_appendText, ho]
      simp [items]

theorem newlines_plain {l rest : List Char} (h : '\r' ∉ l) : docinfoNewlines (l ++ rest) = l ++ docinfoNewlines rest := by
  induction l with
  | nil => rfl
  | cons c cs ih =>
    simp only [List.mem_cons, not_or] at h
    rw [List.cons_append, IncludeProcess.docinfoNewlines.eq_4 _ _ (fun _ e => absurd e.symm h.1) (fun e => absurd e.symm h.1), ih h.2]
    rfl

theorem linesOf_cons {l rest : List Char} (h : '\n' ∉ l) : linesOf (l ++ '\n' :: rest) = l :: linesOf rest := by
  unfold linesOf
  rw [splitOn_append _ _ _ h]
  have hne := splitOn_ne_nil '\n' rest
  cases hs : splitOn '\n' rest with
  | nil => exact absurd hs hne
  | cons x xs =>
    simp only [List.getLast?_cons_cons]
    split <;> simp_all

theorem linesOf_text {ls : List (List Char)} {content : List Char} (h : TextLines ls content) : linesOf (docinfoNewlines content) = ls := by
  induction h with
  | nil => rfl
  | @last l h0 h1 h2 =>
    have := newlines_plain (rest := []) h2
    rw [List.append_nil] at this
    rw [this, docinfoNewlines, List.append_nil]
    unfold linesOf
    rw [splitOn_part _ _ h1]
    simp [h0]
  | lf h1 h2 _ ih =>
    rw [newlines_plain h2, IncludeProcess.docinfoNewlines.eq_4 _ _ (by intro _ h; cases h) (by intro h; cases h), linesOf_cons h1, ih]
  | crlf h1 h2 _ ih =>
    rw [newlines_plain h2, IncludeProcess.docinfoNewlines.eq_2, linesOf_cons h1, ih]
  | @cr l ls rest h1 h2 h3 _ ih =>
    rw [newlines_plain h2]
    have : docinfoNewlines ('\r' :: rest) = '\n' :: docinfoNewlines rest := by
      rw [IncludeProcess.docinfoNewlines.eq_3]
      intro cs hcs
      simp [hcs] at h3
    rw [this, linesOf_cons h1, ih]

theorem fragment_shown {cfg : Cfg} {ls : List (List Char)} {content : List Char} {out : List Item} (h : TextLines ls content) (ho : AllShown cfg.settings ls out) :
    items (fragment word cfg content) = out := by
  unfold fragment
  rw [linesOf_text h]
  clear h
  induction ho with
  | nil => rfl
  | cons hl _ ih => rw [List.flatMap_cons, items_append, line_shown hl, ih]

theorem textLines_exists : ∀ (n : Nat) (content : List Char), content.length ≤ n → ∃ ls, TextLines ls content := by
  intro n
  induction n with
  | zero => intro c h; obtain rfl := List.eq_nil_of_length_eq_zero (Nat.le_zero.1 h); exact ⟨_, .nil⟩
  | succ n ih =>
    intro c h
    by_cases h0 : c = []
    · subst h0; exact ⟨_, .nil⟩
    · obtain ⟨l, r, e, hl, hr⟩ : ∃ l r, c = l ++ r ∧ (∀ x ∈ l, x ≠ '\n' ∧ x ≠ '\r') ∧ (∀ x ∈ r.head?, x = '\n' ∨ x = '\r') := by
        clear h h0 ih
        induction c with
        | nil => exact ⟨[], [], rfl, by simp, by simp⟩
        | cons x xs ih =>
          by_cases hx : x = '\n' ∨ x = '\r'
          · exact ⟨[], x :: xs, rfl, by simp, by simpa using hx⟩
          · obtain ⟨l, r, e, hl, hr⟩ := ih
            refine ⟨x :: l, r, by simp [e], ?_, hr⟩
            intro y hy
            rcases List.mem_cons.1 hy with rfl | hy
            · exact ⟨fun e => hx (.inl e), fun e => hx (.inr e)⟩
            · exact hl y hy
      have h1 : '\n' ∉ l := fun hm => (hl _ hm).1 rfl
      have h2 : '\r' ∉ l := fun hm => (hl _ hm).2 rfl
      subst e
      cases r with
      | nil =>
        rw [List.append_nil] at h0 ⊢
        exact ⟨_, .last h0 h1 h2⟩
      | cons x xs =>
        simp at h
        rcases hr x (by simp) with rfl | rfl
        · obtain ⟨ls, hls⟩ := ih xs (by omega)
          exact ⟨_, .lf h1 h2 hls⟩
        · by_cases hx : xs.head? = some '\n'
          · obtain ⟨ys, rfl⟩ : ∃ ys, xs = '\n' :: ys := by
              cases xs with
              | nil => cases hx
              | cons a as => simp at hx; exact ⟨as, by rw [hx]⟩
            obtain ⟨ls, hls⟩ := ih ys (by simp at h; omega)
            exact ⟨_, .crlf h1 h2 hls⟩
          · obtain ⟨ls, hls⟩ := ih xs (by omega)
            exact ⟨_, .cr h1 h2 hx hls⟩

theorem lineShown_exists (s : Settings) (line : List Char) : ∃ out, LineShown s line out := by
  obtain ⟨ps, hps⟩ : ∃ ps, if s.refs then Refs line ps else ps = line.map .char := by
    by_cases h : s.refs = true
    · obtain ⟨ps, hp⟩ := refs_exists _ line (Nat.le_refl _)
      exact ⟨ps, by rw [if_pos h]; exact hp⟩
    · exact ⟨_, by rw [if_neg h]⟩
  by_cases hd : s.policy = .dropLine ∧ ps.any (Part.missing s.look) = true
  · exact ⟨[], ps, hps, by rw [if_pos hd]⟩
  · by_cases hs : s.seqs = true
    · obtain ⟨is, hi⟩ := replaced_exists _ (ps.flatMap (Part.text s.policy s.look)) (Nat.le_refl _)
      exact ⟨is, ps, hps, by rw [if_neg hd, if_pos hs]; exact hi⟩
    · exact ⟨_, ps, hps, by rw [if_neg hd, if_neg hs]⟩

theorem allShown_exists (s : Settings) : ∀ ls : List (List Char), ∃ out, AllShown s ls out
  | [] => ⟨_, .nil⟩
  | l :: ls => by
    obtain ⟨o, ho⟩ := lineShown_exists s l
    obtain ⟨os, hos⟩ := allShown_exists s ls
    exact ⟨_, .cons ho hos⟩

theorem trim_padded {a n b : List Char} (h : ∀ c ∈ a ++ b, c = ' ') (hn : ∀ c ∈ n, space c = false ∧ c ≠ ',') : trim (a ++ n ++ b) = n := by
  have hw : ∀ c, c = ' ' → IncludeProcess.isWs c = true := by rintro c rfl; decide
  have hd : ∀ (x y : List Char), (∀ c ∈ x, c = ' ') → (x ++ y).dropWhile IncludeProcess.isWs = y.dropWhile IncludeProcess.isWs := by
    intro x y hx
    induction x with
    | nil => rfl
    | cons c x ih => rw [List.cons_append, List.dropWhile_cons, if_pos (hw c (hx c (by simp))), ih fun c hc => hx c (by simp [hc])]
  have hk : ∀ c, space c = false → IncludeProcess.isWs c = false := by
    intro c hc
    unfold IncludeProcess.isWs
    by_cases h0 : c = ' ' ∨ c = '\t' ∨ c = '\n' ∨ c = '\r' ∨ c = '\x0b' ∨ c = '\x0c'
    · rcases h0 with rfl | rfl | rfl | rfl | rfl | rfl <;> exact absurd hc (by decide)
    · simp only [not_or] at h0
      simp [h0]
  have hstop : ∀ (x y : List Char), (∀ c ∈ x, IncludeProcess.isWs c = false) → x ≠ [] → (x ++ y).dropWhile IncludeProcess.isWs = x ++ y := by
    intro x y hx h0
    cases x with
    | nil => exact absurd rfl h0
    | cons c x => rw [List.cons_append, List.dropWhile_cons, if_neg (by simp [hx c (by simp)])]
  have hb : ∀ c ∈ b, c = ' ' := fun c hc => h c (by simp [hc])
  have ha : ∀ c ∈ a, c = ' ' := fun c hc => h c (by simp [hc])
  unfold trim
  rw [List.append_assoc, hd a _ ha]
  by_cases h0 : n = []
  · subst h0
    have := hd b [] hb
    rw [List.append_nil] at this
    rw [List.nil_append, this]
    rfl
  · rw [hstop n b (fun c hc => hk c (hn c hc).1) h0, List.reverse_append, hd b.reverse _ (by simpa using hb)]
    have := hstop n.reverse [] (fun c hc => hk c (hn c (by simpa using hc)).1) (by simpa using h0)
    rw [List.append_nil] at this
    rw [this, List.reverse_reverse]

theorem names_parts {ns : List (List Char)} {v : List Char} (h : Names ns v) : (splitOn ',' v).map trim = ns := by
  have hc : ∀ {a n b : List Char}, (∀ c ∈ a ++ b, c = ' ') → (∀ c ∈ n, space c = false ∧ c ≠ ',') → ',' ∉ a ++ n ++ b := by
    intro a n b h hn hm
    simp only [List.mem_append] at hm h
    rcases hm with (hm | hm) | hm
    · exact absurd (h _ (.inl hm)) (by decide)
    · exact (hn _ hm).2 rfl
    · exact absurd (h _ (.inr hm)) (by decide)
  induction h with
  | last h hn => rw [splitOn_part _ _ (hc h hn), List.map_singleton, trim_padded h hn]
  | cons h hn _ ih => rw [splitOn_append _ _ _ (hc h hn), List.map_cons, ih, trim_padded h hn]

theorem asks_subs {v : Option (List Char)} {r q : Bool} (h : Asks v r q) : docinfoSubs v = (r, q) := by
  cases h with
  | unset => rfl
  | set h => simp only [docinfoSubs, names_parts h]

end Verif.Docinfo
