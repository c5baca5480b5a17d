import Verif.Model.UiMacros
import Verif.Spec.UiMacros
import Verif.Lemmas.Regex
import Verif.Lemmas.AuthorLine
import Verif.Lemmas.InlinesSafe
/-! Lemmas: keys, buttons, menus. -/
namespace Verif.UiMacros
open Verif TokenKind Inlines Regex Spec

variable {word : Char → Bool}

theorem sep_space {c : Char} (h : c = '+' ∨ c = ',') : space c = false := by
  rcases h with rfl | rfl <;> decide

theorem key_head {k : List Char} (h : Key k) : k ≠ [] ∧ ∀ c ∈ k.head?, space c = false := by
  rcases h with rfl | rfl | ⟨h1, h2⟩
  · refine ⟨by simp, fun c hc => ?_⟩
    simp at hc; subst hc; decide
  · refine ⟨by simp, fun c hc => ?_⟩
    simp at hc; subst hc; decide
  · refine ⟨h1, fun c hc => (h2 c (List.mem_of_mem_head? hc)).1⟩

theorem head_append {p : Char → Prop} {a b : List Char} (ha : ∀ c ∈ a.head?, p c) (hb : ∀ c ∈ b.head?, p c) : ∀ c ∈ (a ++ b).head?, p c := by
  cases a with
  | nil => exact hb
  | cons x xs => intro c hc; exact ha c (by simpa using hc)

/-- one match: blanks, a key (or a separator), blanks -/
theorem key_run {a k b rest : List Char} (hk : Key k) (ha : Blank a) (hb : Blank b) (hr : ∀ c ∈ rest.head?, c = '+' ∨ c = ',' ∨ (k = ['+'] ∨ k = [',']) ∧ space c = false) (bf : List Char) :
    ∃ bf', run word keysRe ⟨bf, a ++ (k ++ (b ++ rest)), []⟩ some = some ⟨bf', rest, [(1, k)]⟩ := by
  have hsp : ∀ c ∈ rest.head?, space c = false := by
    intro c hc
    rcases hr c hc with h | h | h
    · exact sep_space (.inl h)
    · exact sep_space (.inr h)
    · exact h.2
  have hkh := key_head hk
  refine ⟨b.reverse ++ (k.reverse ++ (a.reverse ++ bf)), ?_⟩
  rw [keysRe, run]
  refine star_all ha ?_ ?_
  · cases k with
    | nil => exact absurd rfl hkh.1
    | cons x xs => intro c hc; exact hkh.2 c (by simpa using hc)
  · rw [run, run, run]
    have fin : run word (.star true (.set space)) ⟨k.reverse ++ (a.reverse ++ bf), b ++ rest, [(1, k)]⟩ some =
        some ⟨b.reverse ++ (k.reverse ++ (a.reverse ++ bf)), rest, [(1, k)]⟩ := star_all hb hsp rfl
    rcases hk with rfl | rfl | ⟨h1, h2⟩
    · rw [plus_none (by intro c hc; simp at hc; subst hc; decide), Option.none_or]
      rw [List.singleton_append, run_set_cons, if_pos (by decide)]
      refine Eq.trans ?_ fin
      simp
    · rw [plus_none (by intro c hc; simp at hc; subst hc; decide), Option.none_or]
      rw [List.singleton_append, run_set_cons, if_pos (by decide)]
      refine Eq.trans ?_ fin
      simp
    · refine Option.or_eq_some_iff.2 (.inl (plus_all h1 ?_ ?_ ?_))
      · intro c hc
        have := h2 c hc
        simp [this.1, this.2.1, this.2.2]
      · refine head_append ?_ ?_
        · intro c hc; simp [hb c (List.mem_of_mem_head? hc)]
        · intro c hc
          rcases hr c hc with h | h | h
          · simp [h]
          · simp [h]
          · rcases h.1 with h | h
            · have := (h2 '+' (by simp [h])).2.1; simp at this
            · have := (h2 ',' (by simp [h])).2.2; simp at this
      · simp only [AuthorLine.cap_take]; exact fin

theorem search_here {r : Re} {bf l : List Char} {s : St} (h : run word r ⟨bf, l, []⟩ some = some s) (n : Nat) : search word r n bf l = some ⟨n, s⟩ := by
  cases l with
  | nil => rw [search, h]; rfl
  | cons c cs => rw [search, h]

theorem key_none (bf : List Char) : search word keysRe 0 bf [] = none := by
  rw [search, keysRe, run, run_star]
  simp only [spanLen, List.takeWhile_nil, List.length_nil, downTo, adv_zero]
  rw [run, run, run, plus_none (by simp), run_set_nil]
  rfl

theorem iter_cons {r : Re} {bf l : List Char} {s : St} (h : run word r ⟨bf, l, []⟩ some = some s) (n : Nat) :
    capturesIter word r (n + 1) bf l = ⟨0, s⟩ :: capturesIter word r n s.before s.rest := by
  rw [capturesIter, search_here h]

/-- the matches of the text of a macro -/
theorem keys_iter {ks : List (List Char)} {s : List Char} (h : Keys ks s) : ∃ a s', s = a ++ s' ∧ Blank a ∧ (∀ c ∈ s'.head?, space c = false) ∧
    ∀ (a' bf : List Char) (n : Nat), Blank a' → (a' ++ s').length < n → (stepBy2 (capturesIter word keysRe n bf (a' ++ s'))).mapM (fun m => m.group 1) = some ks := by
  induction h with
  | @one k a b hk ha hb =>
    refine ⟨a, k ++ b, by simp, ha, ?_, ?_⟩
    · exact fun c hc => (key_head hk).2 c (by cases k with | nil => exact absurd rfl (key_head hk).1 | cons x xs => simpa using hc)
    · intro a' bf n ha' hn
      obtain ⟨n, rfl⟩ : ∃ m, n = m + 1 := ⟨n - 1, by omega⟩
      obtain ⟨bf', hr⟩ := key_run (word := word) (rest := []) hk ha' hb (by simp) bf
      rw [List.append_nil] at hr
      have hn' : 0 < n := by
        have := List.length_pos_iff.2 (key_head hk).1
        simp at hn; omega
      obtain ⟨n, rfl⟩ : ∃ m, n = m + 1 := ⟨n - 1, by omega⟩
      rw [iter_cons hr, capturesIter, key_none]
      simp [stepBy2, Match.group]
  | @more k a b s ks sep hk ha hb hsep _ ih =>
    obtain ⟨a1, s1, rfl, ha1, hh1, h1⟩ := ih
    refine ⟨a, k ++ b ++ sep :: (a1 ++ s1), by simp, ha, ?_, ?_⟩
    · exact fun c hc => (key_head hk).2 c (by cases k with | nil => exact absurd rfl (key_head hk).1 | cons x xs => simpa using hc)
    · intro a' bf n ha' hn
      obtain ⟨n, rfl⟩ : ∃ m, n = m + 1 := ⟨n - 1, by omega⟩
      obtain ⟨bf', hr⟩ := key_run (word := word) (rest := sep :: (a1 ++ s1)) hk ha' hb (by intro c hc; simp at hc; subst hc; rcases hsep with h | h <;> simp [h]) bf
      have hn' := hn
      simp at hn
      have := List.length_pos_iff.2 (key_head hk).1
      obtain ⟨n, rfl⟩ : ∃ m, n = m + 1 := ⟨n - 1, by omega⟩
      have hks : [sep] = ['+'] ∨ [sep] = [','] := by rcases hsep with h | h <;> simp [h]
      obtain ⟨bf2, hr2⟩ := key_run (word := word) (a := []) (k := [sep]) (b := a1) (rest := s1) (by rcases hks with h | h; exact .inl h; exact .inr (.inl h)) (by simp [Blank]) ha1
        (fun c hc => .inr (.inr ⟨hks, hh1 c hc⟩)) bf'
      rw [show a' ++ (k ++ b ++ sep :: (a1 ++ s1)) = a' ++ (k ++ (b ++ sep :: (a1 ++ s1))) by simp, iter_cons hr]
      simp only
      rw [show sep :: (a1 ++ s1) = [] ++ ([sep] ++ (a1 ++ s1)) by simp, iter_cons hr2]
      simp only [stepBy2]
      have h2 := h1 [] bf2 n (by simp [Blank]) (by simp; omega)
      rw [List.nil_append] at h2
      rw [List.mapM_cons, h2]
      simp [Match.group]

theorem keysOf_written {ks : List (List Char)} {s : List Char} (h : Keys ks s) : keysOf word s = some ks := by
  obtain ⟨a, s', rfl, ha, _, h1⟩ := keys_iter (word := word) h
  exact h1 a [] _ ha (by omega)

/-- the text in the brackets of a macro for keys -/
theorem keysText_body {l : List Tok} {s : List Char} (h : Body l s) : ∀ (last : Option TokenKind), last ≠ some Backslash → (last.isSome ∨ isKind Backslash l.head? = false) → ∀ (c : Tok) (rest : List Tok), c.kind = CloseBracket →
    keysText last (l ++ c :: rest) = (s, c :: rest) := by
  induction h with
  | nil =>
    intro last hl _ c rest hc
    rw [List.nil_append, keysText, if_neg (by simp [hc]), if_pos ⟨hc, hl⟩]
  | @tok t l s h1 h2 h3 _ ih =>
    intro last hl _ c rest hc
    rw [List.cons_append, keysText, if_neg (by simp [h2, h3]), if_neg (by simp [h1]), ih _ (by simp [h2]) (by simp) c rest hc]
  | @bracket t u l s h1 h2 _ ih =>
    intro last hl hs c rest hc
    have hs' : last.isSome = true := by
      rcases hs with h | h
      · exact h
      · simp [isKind, h1] at h
    rw [List.cons_append, List.cons_append, keysText, if_pos (.inr ⟨hs', h1⟩), keysText, if_neg (by simp [h2]), if_neg (by simp [h1]), ih _ (by simp [h2]) (by simp) c rest hc]
  | @ref t l s h1 _ ih =>
    intro last hl _ c rest hc
    rw [List.cons_append, keysText, if_pos (.inl h1), ih _ (by simp [h1]) (by simp) c rest hc]

/-- a bracket that is not escaped ends the text -/
theorem keysText_stop : ∀ (l : List Tok) (last : Option TokenKind), (∃ n, indexOfSeq [.not Backslash, .kind CloseBracket] l = some n) ∨ last ≠ some Backslash ∧ isKind CloseBracket l.head? = true →
    ∃ s c r, keysText last l = (s, c :: r) ∧ c.kind = CloseBracket := by
  intro l
  induction l with
  | nil =>
    intro last h
    rcases h with ⟨n, h⟩ | ⟨_, h⟩
    · cases h
    · cases h
  | cons t l ih =>
    intro last h
    by_cases hc : t.kind = CloseBracket ∧ last ≠ some Backslash
    · exact ⟨[], t, l, by rw [keysText, if_neg (by simp [hc.1]), if_pos hc], hc.1⟩
    · have hn : ∃ n, indexOfSeq [.not Backslash, .kind CloseBracket] (t :: l) = some n := by
        rcases h with h | ⟨h1, h2⟩
        · exact h
        · exact absurd ⟨by simpa [isKind] using h2, h1⟩ hc
      have hl : (∃ n, indexOfSeq [.not Backslash, .kind CloseBracket] l = some n) ∨ some t.kind ≠ some Backslash ∧ isKind CloseBracket l.head? = true := by
        obtain ⟨n, hn⟩ := hn
        unfold indexOfSeq at hn
        split at hn
        · rename_i hm
          right
          cases l with
          | nil => simp [matchSeq] at hm
          | cons u l => simpa [matchSeq, TSpec.sat, isKind] using hm
        · left
          obtain ⟨m, hm, _⟩ := Option.map_eq_some_iff.1 hn
          exact ⟨m, hm⟩
      obtain ⟨s, c, r, h1, h2⟩ := ih (some t.kind) hl
      rw [keysText]
      split
      · exact ⟨s, c, r, h1, h2⟩
      · exact ⟨t.lexeme ++ s, c, r, by rw [h1], h2⟩

theorem keysOf_some (s : List Char) : ∃ ks, keysOf word s = some ks := by
  unfold keysOf
  have : ∀ (ms : List Match), (∀ m ∈ ms, ∃ g, m.group 1 = some g) → ∃ ks, ms.mapM (fun m => m.group 1) = some ks := by
    intro ms
    induction ms with
    | nil => intro _; exact ⟨[], rfl⟩
    | cons m ms ih =>
      intro h
      obtain ⟨g, hg⟩ := h m (by simp)
      obtain ⟨ks, hk⟩ := ih (fun m hm => h m (by simp [hm]))
      exact ⟨g :: ks, by rw [List.mapM_cons, hg, hk]; rfl⟩
  have sub : ∀ (ms : List Match), ∀ m ∈ stepBy2 ms, m ∈ ms := by
    intro ms
    fun_induction stepBy2 ms with
    | case1 => simp
    | case2 => simp
    | case3 a b l ih =>
      intro m hm
      rcases List.mem_cons.1 hm with h | h
      · simp [h]
      · simp [ih m h]
  refine this _ fun m hm => ?_
  obtain ⟨bf, l, hr⟩ := iter_some _ _ _ m (sub _ m hm)
  rw [keysRe, run] at hr
  obtain ⟨st, _, h2⟩ := run_keep 1 (.star true (.set space)) (by simp [groups]) _ _ _ hr
  rw [run, run] at h2
  have key : ∀ (r : Re), 1 ∉ groups r → ∀ (st0 : List Char) (st : St), run word r st (fun s => run word (.star true (.set space))
      { before := s.before, rest := s.rest, caps := (1, st0.take (st0.length - s.rest.length)) :: s.caps } some) = some m.stop → ∃ g, m.group 1 = some g := by
    intro r hr st0 st h
    obtain ⟨s1, _, h4⟩ := run_keep 1 r hr _ _ _ h
    obtain ⟨s2, h5, h6⟩ := run_keep 1 (.star true (.set space)) (by simp [groups]) _ _ _ h4
    cases h6
    exact ⟨_, h5.trans (List.lookup_cons_self)⟩
  exact key _ (by simp [groups, Re.plus]) _ _ h2

theorem takeUntil_split (k : TokenKind) (l : List Tok) : (takeUntil k l).2 = l.dropWhile (fun t => decide (t.kind ≠ k)) := by
  induction l with
  | nil => rfl
  | cons t l ih =>
    rw [takeUntil]
    by_cases h : t.kind = k
    · simp [h]
    · rw [if_neg h, List.dropWhile_cons, if_pos (by simp [h])]
      simp [ih]

theorem takeUntil_body {l : List Tok} {s : List Char} (h : Body l s) (k : TokenKind) (hk : ∀ t ∈ l, t.kind ≠ k) (hc : ∀ t ∈ l, t.kind ≠ CloseBracket) (c : Tok) (rest : List Tok) (hck : c.kind = k) :
    takeUntil k (l ++ c :: rest) = (s, c :: rest) := by
  induction h with
  | nil => rw [List.nil_append, takeUntil, if_pos hck]
  | @tok t l s h1 h2 h3 _ ih =>
    rw [List.cons_append, takeUntil, if_neg (hk t (by simp)), ih (fun u hu => hk u (by simp [hu])) (fun u hu => hc u (by simp [hu]))]
    simp [h2, h3]
  | @bracket t u l s h1 h2 _ ih => exact absurd h2 (hc u (by simp))
  | @ref t l s h1 _ ih =>
    rw [List.cons_append, takeUntil, if_neg (hk t (by simp)), ih (fun u hu => hk u (by simp [hu])) (fun u hu => hc u (by simp [hu]))]
    simp [h1]

theorem split_none {a : List Char} (h : '>' ∉ a) : splitAt '>' a = [a] := by
  induction a with
  | nil => rfl
  | cons x a ih =>
    simp only [List.mem_cons, not_or] at h
    rw [splitAt, if_neg (fun e => h.1 e.symm), ih h.2]

theorem split_append {a b : List Char} (h : '>' ∉ a) : splitAt '>' (a ++ '>' :: b) = a :: splitAt '>' b := by
  induction a with
  | nil => rw [List.nil_append, splitAt, if_pos rfl]
  | cons x a ih =>
    simp only [List.mem_cons, not_or] at h
    rw [List.cons_append, splitAt, if_neg (fun e => h.1 e.symm), ih h.2]

theorem blank_gt {a : List Char} (h : Blank a) : '>' ∉ a := by
  intro hm
  have := h _ hm
  revert this; decide

theorem item_gt {i a b : List Char} (hi : Item i) (ha : Blank a) (hb : Blank b) : '>' ∉ a ++ i ++ b := by
  simp only [List.mem_append, not_or]
  exact ⟨⟨blank_gt ha, hi.2.1⟩, blank_gt hb⟩

theorem trim_item {i a b : List Char} (hi : Item i) (ha : Blank a) (hb : Blank b) : trim (a ++ i ++ b) = i := by
  unfold trim
  rw [List.append_assoc, List.dropWhile_append_of_pos (fun c hc => ha c hc)]
  obtain ⟨h1, _, h3, h4⟩ := hi
  cases i with
  | nil => exact absurd rfl h1
  | cons x xs =>
    rw [List.cons_append, List.dropWhile_cons, if_neg (by simp [h3 x (by simp)]), ← List.cons_append]
    exact AuthorLine.trimEnd_append hb h4

theorem items_split {is : List (List Char)} {s : List Char} (h : Items is s) : ((splitAt '>' s).map trim).filter (· ≠ []) = is := by
  induction h with
  | @one i a b hi ha hb =>
    rw [split_none (item_gt hi ha hb)]
    rw [List.map_cons, trim_item hi ha hb]
    simp [hi.1]
  | @more i a b s is hi ha hb _ ih =>
    rw [split_append (item_gt hi ha hb), List.map_cons, trim_item hi ha hb, List.filter_cons, if_pos (by simp [hi.1]), ih]

/-! ### what the reader sees -/

theorem seen_text {a b : List Char} (h : '<' ∉ a) : seen false (a ++ b) = a ++ seen false b := by
  induction a with
  | nil => rfl
  | cons x a ih =>
    simp only [List.mem_cons, not_or] at h
    rw [List.cons_append, seen, if_neg (fun e => h.1 e.symm), ih h.2, List.cons_append]

theorem seen_tag {a b : List Char} (h : '>' ∉ a) : seen false ('<' :: a ++ '>' :: b) = seen false b := by
  rw [List.cons_append, seen, if_pos rfl]
  induction a with
  | nil => rw [List.nil_append, seen, if_pos rfl]
  | cons x a ih =>
    simp only [List.mem_cons, not_or] at h
    rw [List.cons_append, seen, if_neg (fun e => h.1 e.symm), ih h.2]

theorem seen_lit {t u b : List Char} (h : t = '<' :: u ++ ['>']) (hu : '>' ∉ u) : seen false (t ++ b) = seen false b := by
  rw [h, List.append_assoc]; exact seen_tag hu

theorem seen_kbd (b : List Char) : seen false (lit "<kbd>" ++ b) = seen false b := seen_lit (u := lit "kbd") (by decide) (by decide)
theorem seen_kbd' (b : List Char) : seen false (lit "</kbd>" ++ b) = seen false b := seen_lit (u := lit "/kbd") (by decide) (by decide)
theorem seen_b' (b : List Char) : seen false (lit "</b>" ++ b) = seen false b := seen_lit (u := lit "/b") (by decide) (by decide)
theorem seen_span' (b : List Char) : seen false (lit "</span>" ++ b) = seen false b := seen_lit (u := lit "/span") (by decide) (by decide)

theorem seen_moreKeys (ks : List (List Char)) (h : ∀ k ∈ ks, '<' ∉ k) (b : List Char) : seen false (moreKeys ks ++ b) = (ks.map ('+' :: ·)).flatten ++ seen false b := by
  induction ks with
  | nil => rfl
  | cons k ks ih =>
    rw [moreKeys]
    simp only [List.append_assoc, List.cons_append]
    rw [seen, if_neg (by decide), seen_kbd, seen_text (h k (by simp)), seen_kbd', ih (fun k hk => h k (by simp [hk]))]
    simp

theorem between_cons (sep k : List Char) (ks : List (List Char)) : between sep (k :: ks) = k ++ (ks.map (sep ++ ·)).flatten := by
  induction ks generalizing k with
  | nil => simp [between]
  | cons k' ks ih => rw [between, ih]; simp

theorem seen_kbdHtml (ks : List (List Char)) (h : ∀ k ∈ ks, '<' ∉ k) : seen false (kbdHtml ks) = between ['+'] ks := by
  cases ks with
  | nil => simp [kbdHtml, between, seen]
  | cons k ks =>
    rw [between_cons, kbdHtml]
    have e : ∀ b, seen false ((lit "<kbd>" ++ k ++ lit "</kbd>" ++ moreKeys ks) ++ b) = k ++ (ks.map ('+' :: ·)).flatten ++ seen false b := by
      intro b
      simp only [List.append_assoc]
      rw [seen_kbd, seen_text (h k (by simp)), seen_kbd', seen_moreKeys ks (fun k hk => h k (by simp [hk]))]
    split
    · rw [List.append_assoc, seen_lit (u := lit "span class=\"keyseq\"") (by decide) (by decide)]
      rw [e, show lit "</span>" = lit "</span>" ++ [] by simp, seen_span', seen, List.append_nil]
      rfl
    · rw [List.nil_append]
      rw [e, seen, List.append_nil]
      rfl

theorem seen_btnHtml (s : List Char) (h : '<' ∉ s) : seen false (btnHtml s) = s := by
  rw [btnHtml, List.append_assoc, seen_lit (u := lit "b class=\"button\"") (by decide) (by decide), seen_text h, show lit "</b>" = lit "</b>" ++ [] by simp, seen_b', seen, List.append_nil]

theorem seen_moreItems (is : List (List Char)) (h : ∀ k ∈ is, '<' ∉ k) (b : List Char) :
    seen false (moreItems is ++ b) = (is.map (lit "&#160;&#8250;" ++ ·)).flatten ++ seen false b := by
  induction is with
  | nil => rfl
  | cons k ks ih =>
    rw [moreItems]
    have e : ∀ x, seen false (lit "&#160;<b class=\"caret\">&#8250;</b><b class=\"" ++ lit (if ks = [] then "menuitem\">" else "submenu\">") ++ x) = lit "&#160;&#8250;" ++ seen false x := by
      intro x
      rw [show lit "&#160;<b class=\"caret\">&#8250;</b><b class=\"" = lit "&#160;" ++ (lit "<b class=\"caret\">" ++ (lit "&#8250;" ++ (lit "</b>" ++ lit "<b class=\""))) by decide]
      simp only [List.append_assoc]
      rw [seen_text (by decide), seen_lit (u := lit "b class=\"caret\"") (by decide) (by decide), seen_text (by decide), seen_b', ← List.append_assoc (lit "<b class=\"")]
      split
      · rw [seen_lit (u := lit "b class=\"menuitem\"") (by decide) (by decide), ← List.append_assoc]; rfl
      · rw [seen_lit (u := lit "b class=\"submenu\"") (by decide) (by decide), ← List.append_assoc]; rfl
    rw [List.append_assoc, List.append_assoc, List.append_assoc, e, seen_text (h k (by simp)), seen_b', ih (fun k hk => h k (by simp [hk]))]
    simp

theorem seen_menuHtml {is : List (List Char)} (h : ∀ k ∈ is, '<' ∉ k) (h2 : 2 ≤ is.length) : ∃ html, menuHtml is = some html ∧ seen false html = between (lit "&#160;&#8250;") is := by
  match is, h, h2 with
  | i :: j :: is, h, _ =>
    refine ⟨_, rfl, ?_⟩
    rw [show lit "<span class=\"menuseq\"><b class=\"menu\">" = lit "<span class=\"menuseq\">" ++ lit "<b class=\"menu\">" by decide]
    simp only [List.append_assoc]
    rw [seen_lit (u := lit "span class=\"menuseq\"") (by decide) (by decide), seen_lit (u := lit "b class=\"menu\"") (by decide) (by decide), seen_text (h i (by simp)), seen_b',
      seen_moreItems _ (fun k hk => h k (by simp [hk])), show lit "</span>" = lit "</span>" ++ [] by simp, seen_span', seen, List.append_nil, between_cons]

end Verif.UiMacros

namespace Verif.UiMacros
open Verif TokenKind Inlines Regex Spec

theorem drop_has {k : TokenKind} {l : List Tok} (h : ∃ t ∈ l, t.kind = k) : ∃ c r, l.dropWhile (fun t => decide (t.kind ≠ k)) = c :: r ∧ c.kind = k := by
  induction l with
  | nil => obtain ⟨t, h, _⟩ := h; cases h
  | cons t l ih =>
    by_cases ht : t.kind = k
    · exact ⟨t, l, by simp [ht], ht⟩
    · rw [List.dropWhile_cons, if_pos (by simp [ht])]
      obtain ⟨u, hu, hk⟩ := h
      rcases List.mem_cons.1 hu with h | h
      · exact absurd (h ▸ hk) ht
      · exact ih ⟨u, h, hk⟩

theorem until_some {k : TokenKind} {l : List Tok} (h : ∃ t ∈ l, t.kind = k) : ∃ s c r, consumeUntil k l = some (s, c :: r) ∧ c.kind = k := by
  obtain ⟨c, r, h1, h2⟩ := drop_has h
  refine ⟨(takeUntil k l).1, c, r, ?_, h2⟩
  rw [consumeUntil, if_neg (by rintro rfl; obtain ⟨_, h, _⟩ := h; cases h), ← h1, ← takeUntil_split]

/-- what `continues_inline_macro` says: there is a bracket, and behind it one that closes it -/
theorem continues_shape {t : Tok} {l : List Tok} (h : continuesMacro t l = true) :
    ∃ o e, indexOfSeq [.kind OpenBracket] l = some o ∧ indexOfSeq [.not Backslash, .kind CloseBracket] l = some e ∧ o ≤ e := by
  unfold continuesMacro at h
  cases ho : indexOfSeq [.kind OpenBracket] l with
  | none => rw [ho] at h; simp at h
  | some o =>
    cases he : indexOfSeq [.not Backslash, .kind CloseBracket] l with
    | none => rw [ho, he] at h; simp at h
    | some e =>
      rw [ho, he] at h
      simp at h
      exact ⟨o, e, rfl, rfl, h.2.1⟩

theorem close_after {l : List Tok} {e : Nat} (h : indexOfSeq [.not Backslash, .kind CloseBracket] l = some e) (o : Nat) (ho : o ≤ e) : ∃ c ∈ l.drop (o + 1), c.kind = CloseBracket := by
  obtain ⟨h1, h2, _⟩ := indexOfSeq_some h
  match hd : l.drop e, h1 with
  | [x], h1 => simp [matchSeq] at h1
  | x :: y :: r, h1 =>
    simp [matchSeq, TSpec.sat] at h1
    refine ⟨y, ?_, h1.2⟩
    have : l.drop (e + 1) = y :: r := by rw [← List.drop_drop, hd]; rfl
    have h3 : (l.drop (o + 1)).drop (e - o) = y :: r := by rw [List.drop_drop, show o + 1 + (e - o) = e + 1 by omega, this]
    exact List.mem_of_mem_drop (h3 ▸ List.mem_cons_self)

theorem kbd_some {word : Char → Bool} {t : Tok} {l : List Tok} (h : continuesMacro t l = true) (ho : isKind OpenBracket l.head? = true) : ∃ r, parseKbd word l = some r := by
  obtain ⟨o, e, _, h2, _⟩ := continues_shape h
  match l, ho with
  | b :: l, ho =>
    have hl : (∃ n, indexOfSeq [.not Backslash, .kind CloseBracket] l = some n) ∨ none ≠ some Backslash ∧ isKind CloseBracket l.head? = true := by
      unfold indexOfSeq at h2
      split at h2
      · rename_i hm
        right
        cases l with
        | nil => simp [matchSeq] at hm
        | cons u l =>
          simp [matchSeq, TSpec.sat] at hm
          exact ⟨by simp, by simp [isKind, hm.2]⟩
      · left
        obtain ⟨m, hm, _⟩ := Option.map_eq_some_iff.1 h2
        exact ⟨m, hm⟩
    obtain ⟨s, c, r, h3, h4⟩ := keysText_stop l none hl
    obtain ⟨ks, hk⟩ := keysOf_some (word := word) s
    exact ⟨(ks, r), by rw [parseKbd, h3]; simp [discardAssert, h4, hk]⟩

theorem btn_some {t : Tok} {l : List Tok} (h : continuesMacro t l = true) (ho : isKind OpenBracket l.head? = true) : ∃ r, parseBtn l = some r := by
  obtain ⟨o, e, _, h2, _⟩ := continues_shape h
  have hc := close_after h2 0 (by omega)
  match l, ho with
  | b :: l, ho =>
    obtain ⟨s, c, r, h3, h4⟩ := until_some (k := CloseBracket) (l := l) (by simpa using hc)
    exact ⟨(s, r), by rw [parseBtn, discardAssert, if_pos (by simpa [isKind] using ho)]; simp [h3, discardAssert, h4]⟩

theorem menu_some {t : Tok} {l : List Tok} (h : continuesMacro t l = true) : ∃ r, parseMenu l = some r := by
  obtain ⟨o, e, h1, h2, ho⟩ := continues_shape h
  have hc := close_after h2 o ho
  obtain ⟨m1, m2, _⟩ := indexOfSeq_some h1
  match hd : l.drop o, m1 with
  | b :: l', m1 =>
    have hb : b.kind = OpenBracket := by simpa [matchSeq, TSpec.sat] using m1
    have hl' : l.drop (o + 1) = l' := by rw [← List.drop_drop, hd]; rfl
    rw [hl'] at hc
    obtain ⟨s, c, r, h3, h4⟩ := until_some hc
    have hdw := indexOfSeq_single h1
    rw [hd, ← takeUntil_split] at hdw
    have h5 : macroTarget l = some ((takeUntil OpenBracket l).1, l') := by
      rw [macroTarget, consumeUntil, if_neg (by rintro rfl; simp at m2)]
      simp [hdw, discardAssert, hb]
    exact ⟨_, by rw [parseMenu, h5]; simp only [h3, discardAssert, h4, if_true, Option.map_some]; rfl⟩

end Verif.UiMacros
