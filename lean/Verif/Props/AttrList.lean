import Verif.Lemmas.AttrListRead
/-!
C35 (where attribute lists are cut), C60 (what is written is what is read), C61 (no panic).
-/
namespace Verif.Props
open Verif.AttrList TokenKind

/-- The pieces of an attribute list joined by its commas are the list: nothing is lost, added or reordered, and
every cut is at a comma. `c` is what stands between the brackets of a list filling its line; tokens of resolved
attribute references (which carry no text) are dropped from the pieces. -/
theorem C35_pieces_reproduce_list (c : List Tk) (close : Tk) :
    ∃ ps, Joined ps c ∧ pieces true (c ++ [close]) = some (ps.map nonAttr, [close]) :=
  pieces_full c close

/-- The same for a list inside a line, whose closing bracket is the first one without a backslash before it. -/
theorem C35_inline_pieces_reproduce_list (c : List Tk) (he : escaped c = true)
    (hfirst : c.head?.map (·.kind) ≠ some CloseBracket) (close : Tk) (hk : close.kind = CloseBracket)
    (rest : List Tk) :
    ∃ ps, Joined ps c ∧ pieces false (c ++ close :: rest) = some (ps.map nonAttr, close :: rest) :=
  pieces_inline c he hfirst close hk rest

/-- The cuts are exactly at the commas outside quotes, for both kinds of lists.
Missing from the full claim: lists in which a quoted string holds an odd number of the other quotation mark and
that mark occurs again later, and lists with a closing bracket inside; there the claim is false
(`C35_apostrophe_violated`, `C35_bracket_violated`). -/
theorem C35_split_at_top_level_commas_partial (fullLine : Bool) (c : List Tk)
    (hcl : ∀ t ∈ c, t.kind ≠ CloseBracket) (hn : noStray none c = true) (close : Tk)
    (hk : close.kind = CloseBracket) (rest : List Tk) (hf : fullLine = true → rest = [])
    (hl : fullLine = false → c.getLast?.map (·.kind) ≠ some Backslash) :
    pieces fullLine (c ++ close :: rest) = some ((topSplit [] none c).map nonAttr, close :: rest) :=
  pieces_split fullLine c hcl hn close hk rest hf hl

/-- `"a, 'b', it", it's "c` -/
def alMixed : List Tk :=
  [quote true, word ['a'], ⟨Comma, [',']⟩, quote false, word ['b'], quote false, ⟨Comma, [',']⟩, word ['i'],
   quote true, ⟨Comma, [',']⟩, word ['i', 't'], quote false, word ['s'], quote true, word ['c']]

/-- `]` -/
def alClose : Tk := ⟨CloseBracket, [']']⟩

example : noStray none alMixed = true ∧ (∀ t ∈ alMixed, t.kind ≠ CloseBracket) ∧
    topSplit [] none alMixed = [alMixed.take 9, alMixed.drop 10] ∧ escaped alMixed = true := by decide

/-- `"It's",Bob's` -/
def alApostrophe : List Tk :=
  [quote true, word ['I', 't'], quote false, word ['s'], quote true, ⟨Comma, [',']⟩, word ['B', 'o', 'b'],
   quote false, word ['s']]

/-- An apostrophe inside double quotes and a later one outside: the comma between them no longer cuts. -/
theorem C35_apostrophe_violated :
    topSplit [] none alApostrophe = [alApostrophe.take 5, alApostrophe.drop 6] ∧
    pieces true (alApostrophe ++ [alClose]) = some ([alApostrophe], [alClose]) := by decide

/-- `"x]",b` -/
def alBracket : List Tk :=
  [quote true, word ['x'], alClose, quote true, ⟨Comma, [',']⟩, word ['b']]

/-- A closing bracket inside quotes: the commas after it do not cut. -/
theorem C35_bracket_violated :
    topSplit [] none alBracket = [alBracket.take 4, alBracket.drop 5] ∧
    pieces true (alBracket ++ [alClose]) = some ([alBracket], [alClose]) := by decide

/-- A block attribute list means what its author writes: for every list of words, quoted strings, named
attributes, `role`, `options` and `style#id.role%option` shorthands, spaced at will, the parser returns exactly
these attributes in order, without diagnostics. -/
theorem C60_block_list_means_what_is_written (s : Spaced) (ss : List Spaced)
    (hok : ∀ x ∈ s :: ss, x.ok = true) (hne : writeList s ss ≠ [])
    (hid : ((s :: ss).map (·.attr.ids)).sum ≤ 1) (close : Tk) (hk : close.kind = CloseBracket) :
    parseBlock (writeList s ss ++ [close]) = some ((s :: ss).foldl (fun a x => x.attr.apply a) {}, []) :=
  parse_writeList true true s ss hok hne hid (fun h => by cases h) close hk [] (fun _ => rfl)
    (fun h => by cases h)

/-- The same for the attribute list of an inline macro, which has no shorthand; the text after the closing
bracket is left alone. -/
theorem C60_macro_list_means_what_is_written (s : Spaced) (ss : List Spaced)
    (hok : ∀ x ∈ s :: ss, x.ok = true) (hne : writeList s ss ≠ [])
    (hsh : ∀ x ∈ s :: ss, ∀ st m ms, x.attr ≠ .shorthand st m ms)
    (hl : (writeList s ss).getLast?.map (·.kind) ≠ some Backslash)
    (close : Tk) (hk : close.kind = CloseBracket) (rest : List Tk) :
    parseInlineMacro (writeList s ss ++ close :: rest) =
      some ((s :: ss).foldl (fun a x => x.attr.apply a) {}, rest) :=
  parse_writeList false false s ss hok hne
    (by
      have : ∀ l : List Spaced, (∀ x ∈ l, ∀ st m ms, x.attr ≠ .shorthand st m ms) → (l.map (·.attr.ids)).sum = 0 := by
        intro l
        induction l with
        | nil => intro _; rfl
        | cons x xs ih =>
          intro h
          rw [List.map_cons, List.sum_cons, ih (fun y hy => h y (by simp [hy]))]
          have hx := h x (by simp)
          cases hxa : x.attr with
          | shorthand st m ms => exact absurd hxa (hx st m ms)
          | _ => rfl
      rw [this _ hsh]; exact Nat.zero_le _)
    (fun _ => hsh) close hk rest (fun h => by cases h) (fun _ => hl)

/-- `quote#q.r%o, "a, b", role="x y", options='p,q', k=v, n="it's 'x"` without the last apostrophe -/
def alWritten : List Spaced :=
  [⟨[], .shorthand (some "quote".toList) (.id, ['q']) [(.role, ['r']), (.option, ['o'])], []⟩,
   ⟨[⟨Whitespace, [' ']⟩], .quoted true [word ['a'], ⟨Comma, [',']⟩, word ['b']], []⟩,
   ⟨[], .roles true ['x'] [['y']], []⟩, ⟨[], .options false ['p'] [['q']], []⟩, ⟨[], .nothing, []⟩,
   ⟨[], .namedWord ['k'] ['v'], []⟩, ⟨[], .named ['n'] true [quote false, word ['x'], quote false], []⟩]

example : (∀ x ∈ alWritten, x.ok = true) ∧ (alWritten.map (·.attr.ids)).sum = 1 ∧
    alWritten.foldl (fun a x => x.attr.apply a) {} =
      { positional := [some [word "quote".toList], some [word ['a'], ⟨Comma, [',']⟩, word ['b']], none, none, none],
        named := [(['k'], [word ['v']]), (['n'], [quote false, word ['x'], quote false])],
        options := [['o'], ['p'], ['q']], roles := [['r'], ['x'], ['y']], id := some ['q'] } := by decide

/-- No attribute list makes the parser panic: block attribute lists and block macros, whatever stands between the
brackets. -/
theorem C61_block_list_no_panic_partial (supports : Bool) (c : List Tk) (close : Tk)
    (hk : close.kind = CloseBracket) : (parse true false supports (c ++ [close])).isSome := by
  obtain ⟨ps, ⟨init, last, hps, _, _⟩, hp⟩ := pieces_full c close
  by_cases hfirst : (c ++ [close]).head?.map (·.kind) = some CloseBracket
  · cases hc : c ++ [close] with
    | nil => simp at hc
    | cons t ts =>
      rw [hc] at hfirst
      have : t.kind = CloseBracket := by simpa using hfirst
      simp [parse, this]
  · rw [parse_of_pieces (by simp [hps]) hfirst (by simp) hk hp, Option.isSome_map]
    exact foldlM_attr_some _ _ _

/-- The same for inline macros, where the list ends at the first bracket without a backslash before it. -/
theorem C61_macro_list_no_panic_partial (c : List Tk) (he : escaped c = true)
    (hfirst : c.head?.map (·.kind) ≠ some CloseBracket) (close : Tk) (hk : close.kind = CloseBracket)
    (rest : List Tk) : (parseInlineMacro (c ++ close :: rest)).isSome := by
  cases c with
  | nil => simp [parseInlineMacro, parse, hk]
  | cons t ts =>
    obtain ⟨ps, ⟨init, last, hps, _, _⟩, hp⟩ := pieces_inline (t :: ts) he hfirst close hk rest
    rw [parseInlineMacro, parse_of_pieces (by simp [hps]) (by simpa using hfirst) (by simp) hk hp, Option.isSome_map]
    exact foldlM_attr_some _ _ _

example : escaped [word ['a'], ⟨Backslash, ['\\']⟩, alClose, word ['b']] = true ∧
    (parseInlineMacro ([word ['a'], ⟨Backslash, ['\\']⟩, alClose, word ['b']] ++ [alClose])).isSome = true := by
  decide

/-- Formatted text: `[id=]#x#`, `[role=""]#x#` and `[.a,"",b]#x#` panic. -/
theorem C61_formatted_text_violated :
    parseFormatted ([word ['i', 'd'], ⟨EqualSigns, ['=']⟩] ++ [alClose]) = none ∧
    parseFormatted ([word "role".toList, ⟨EqualSigns, ['=']⟩, quote true, quote true] ++ [alClose]) = none ∧
    parseFormatted ([⟨Dots, ['.']⟩, word ['a'], ⟨Comma, [',']⟩, quote true, quote true, ⟨Comma, [',']⟩, word ['b']] ++
      [alClose]) = none := by decide

/-- tokens that may stand in the name of an attribute -/
def namePart (t : Tk) : Bool := t.kind = Word ∨ t.kind = Dashes ∨ t.kind = Digits ∨ t.kind = Colon ∨ t.kind = Underscore

private theorem delimLoop_plain (l : List Tk) (h : ∀ t ∈ l, isQuote t.kind = false ∧ t.kind ≠ Comma) (s : DelimSt) :
    (delimLoop s l).ds = s.ds := by
  induction l generalizing s with
  | nil => rfl
  | cons t ts ih =>
    have ht := h t List.mem_cons_self
    unfold delimLoop
    split
    · rfl
    · rw [ih (fun u hu => h u (List.mem_cons_of_mem _ hu)), (step_plain ht.1 ht.2).1]

private theorem namePart_kinds {t : Tk} (h : namePart t = true) : t.kind ≠ EqualSigns ∧ t.kind ≠ Whitespace ∧
    t.kind ≠ CloseBracket ∧ t.kind ≠ Comma ∧ t.kind ≠ AttrRef ∧ isQuote t.kind = false ∧ isSym t.kind = false ∧
    t.kind ≠ DoubleQuote ∧ t.kind ≠ SingleQuote := by
  simp only [namePart, Bool.decide_or, Bool.or_eq_true, decide_eq_true_eq] at h
  rcases h with h | h | h | h | h <;> rw [h] <;> decide

private theorem keyLoop_name (ts rest : List Tk) (h : ∀ t ∈ ts, namePart t = true) (name : List Char) :
    keyLoop name (ts ++ ⟨EqualSigns, ['=']⟩ :: rest) = some (name ++ Tk.text ts, rest) := by
  induction ts generalizing name with
  | nil => simp [keyLoop, Tk.text]
  | cons t ts ih =>
    have ht := namePart_kinds (h t List.mem_cons_self)
    rw [List.cons_append, keyLoop, if_neg ht.1, if_neg ht.2.1, ih (fun u hu => h u (List.mem_cons_of_mem _ hu))]
    simp [Tk.text]

private theorem irScan_name (supports : Bool) (total : Nat) (ts rest : List Tk) (h : ∀ t ∈ ts, namePart t = true) :
    ∀ i saw, (0 < i ∨ ts ≠ []) →
      (irScan supports total i saw (ts ++ ⟨EqualSigns, ['=']⟩ :: rest)).1 = some .keyValue := by
  induction ts with
  | nil =>
    intro i saw hi
    have : i ≠ 0 := by
      rcases hi with hi | hi
      · omega
      · exact absurd rfl hi
    simp [irScan, isSym, this, Tk.len]
  | cons t ts ih =>
    intro i saw _
    have ht := namePart_kinds (h t List.mem_cons_self)
    rw [List.cons_append, irScan]
    simp only [ht.1, ht.2.1, ht.2.2.2.2.2.2.1, ht.2.2.2.2.2.2.2.1, ht.2.2.2.2.2.2.2.2, false_and, if_false, or_self, Bool.false_eq_true]
    exact ih (fun u hu => h u (List.mem_cons_of_mem _ hu)) (i + 1) saw (.inl (by omega))

/-- **C60**: a name made of several tokens, such as `data-x1`, is the name as a whole. -/
theorem C60_compound_names (first : Tk) (more : List Tk) (v : List Char) (close : Tk) (hk : close.kind = CloseBracket)
    (hn : ∀ t ∈ first :: more, namePart t = true) (hok : okName (Tk.text (first :: more)) = true) :
    parseBlock ((first :: more) ++ [⟨EqualSigns, ['=']⟩, word v] ++ [close]) =
      some ({ named := [(Tk.text (first :: more), [word v])], positional := [none] }, []) := by
  have hf := namePart_kinds (hn first List.mem_cons_self)
  have hdel : findDelimiters ((first :: more) ++ [⟨EqualSigns, ['=']⟩, word v] ++ [close]) = [] := by
    unfold findDelimiters
    rw [List.dropLast_concat, delimLoop_plain]
    · rfl
    · intro t ht
      rw [List.mem_append] at ht
      rcases ht with ht | ht
      · have := namePart_kinds (hn t ht)
        exact ⟨this.2.2.2.2.2.1, this.2.2.2.1⟩
      · simp only [List.mem_cons, List.not_mem_nil, or_false] at ht
        rcases ht with rfl | rfl <;> simp [isQuote, word]
  have hattr : nonAttr ((first :: more) ++ [⟨EqualSigns, ['=']⟩, word v]) = (first :: more) ++ [⟨EqualSigns, ['=']⟩, word v] := by
    unfold nonAttr
    rw [List.filter_eq_self]
    intro t ht
    rw [List.mem_append] at ht
    rcases ht with ht | ht
    · have := namePart_kinds (hn t ht)
      simpa using this.2.2.2.2.1
    · simp only [List.mem_cons, List.not_mem_nil, or_false] at ht
      rcases ht with rfl | rfl <;> simp [word]
  have hpieces : pieces true ((first :: more) ++ [⟨EqualSigns, ['=']⟩, word v] ++ [close]) =
      some ([(first :: more) ++ [⟨EqualSigns, ['=']⟩, word v]], [close]) := by
    unfold pieces
    rw [hdel]
    simp only [cut, lastPiece, Option.bind_eq_bind, Option.bind_some, if_true, List.dropLast_concat, hattr]
    simp
  have htrim : trim ((first :: more) ++ [⟨EqualSigns, ['=']⟩, word v]) = (first :: more) ++ [⟨EqualSigns, ['=']⟩, word v] := by
    unfold trim
    rw [List.cons_append, List.dropWhile_cons, if_neg (by simpa using hf.2.1)]
    simp [word]
  have hir : attrIr ((first :: more) ++ [⟨EqualSigns, ['=']⟩, word v]) true = some (.named (Tk.text (first :: more)) [word v]) := by
    unfold attrIr
    have h1 := irScan_name true ((first :: more) ++ [⟨EqualSigns, ['=']⟩, word v]).length (first :: more) [word v] hn 0 false (.inr (by simp))
    rw [show irScan true ((first :: more) ++ [⟨EqualSigns, ['=']⟩, word v]).length 0 false ((first :: more) ++ [⟨EqualSigns, ['=']⟩, word v]) =
      (some .keyValue, (irScan true ((first :: more) ++ [⟨EqualSigns, ['=']⟩, word v]).length 0 false ((first :: more) ++ [⟨EqualSigns, ['=']⟩, word v])).2) from
      Prod.ext h1 rfl]
    simp only [okName, Bool.and_eq_true, decide_eq_true_eq] at hok
    obtain ⟨⟨⟨h1, h2⟩, h3⟩, h4⟩ := hok
    have hkey := keyLoop_name more [word v] (fun u hu => hn u (List.mem_cons_of_mem _ hu)) first.lexeme
    have htext : first.lexeme ++ Tk.text more = Tk.text (first :: more) := by simp [Tk.text]
    rw [htext] at hkey
    simp only [parseKeyValue, List.cons_append]
    rw [hkey]
    simp only [Option.bind_eq_bind, Option.bind_some]
    rw [if_neg (by simp only [not_or]; exact ⟨h1, h2⟩), if_neg h3, if_neg h4]
    simp [word, unquote]
  have hat : attr false true {} ((first :: more) ++ [⟨EqualSigns, ['=']⟩, word v]) =
      some { named := [(Tk.text (first :: more), [word v])], positional := [none] } := by
    unfold attr parseAttr
    rw [htrim, if_neg (by simp), hir]
    simp [Attrs.insertNamed]
  unfold parseBlock parse
  simp only [List.cons_append] at *
  rw [if_neg hf.2.2.1, hpieces]
  simp [hat, hk]

/-- **C60**: a second id is reported, and the first one stays. -/
theorem C60_second_id_is_reported (a b : List Char) :
    parseBlock ([⟨Hash, ['#']⟩, word a, ⟨Hash, ['#']⟩, word b] ++ [alClose]) =
        some ({ id := some a, errs := [.dupId] }, []) ∧
    parseBlock ([⟨Hash, ['#']⟩, word a, ⟨Comma, [',']⟩, word "id".toList, ⟨EqualSigns, ['=']⟩, word b] ++ [alClose]) =
        some ({ id := some a, errs := [.dupId] }, []) := by
  constructor
  · simp [parseBlock, parse, pieces, findDelimiters, delimLoop, delimStep, cut, lastPiece, nonAttr, attr, parseAttr, trim, attrIr,
      irScan, isSym, shorthandLoop, isStop, Tk.text, Tk.len, word, alClose, Attrs.err]
  · simp [parseBlock, parse, pieces, findDelimiters, delimLoop, delimStep, cut, lastPiece, nonAttr, attr, parseAttr, trim, attrIr,
      irScan, isSym, shorthandLoop, isStop, Tk.text, Tk.len, word, alClose, Attrs.err, parseKeyValue, keyLoop, unquote]

example : ∀ t ∈ [word "data".toList, ⟨Dashes, ['-']⟩, word ['x'], ⟨Digits, ['1']⟩], namePart t = true := by decide

end Verif.Props
