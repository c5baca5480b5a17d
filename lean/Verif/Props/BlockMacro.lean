import Verif.Spec.BlockMacro
import Verif.Props.AttrList
/-! Property C121: a block macro has the target and the attributes that are written, and none makes the parser panic. -/
namespace Verif.Props
open Verif TokenKind AttrList BlockMacro

theorem targetLoop_means {ts : List Tk} {s : List Char} (h : Target ts s) (o : Tk) (ho : o.kind = OpenBracket) (r : List Tk) :
    targetLoop (ts ++ o :: r) = (s, o :: r) := by
  induction h with
  | nil => rw [List.nil_append, targetLoop, if_pos ho]
  | ref hk _ ih => rw [List.cons_append, targetLoop, if_neg (by rw [hk]; decide), ih]; simp [hk]
  | tok h1 h2 h3 _ ih => rw [List.cons_append, targetLoop, if_neg h2, ih]; simp [h1, h3]

theorem brackets_mean {ts : List Tk} {a : Attrs} (h : InBrackets ts a) : parseBlockMacro (ts ++ [⟨CloseBracket, [']']⟩]) = some (a, []) := by
  cases h with
  | nothing => rfl
  | @list s ss hok hsh hne hl =>
    refine parse_writeList true false s ss hok hne ?_ (fun _ => hsh) _ rfl [] (fun _ => rfl) (fun h => by cases h)
    have : ∀ l : List Spaced, (∀ x ∈ l, ∀ st m ms, x.attr ≠ .shorthand st m ms) → (l.map (·.attr.ids)).sum = 0 := by
      intro l
      induction l with
      | nil => intro _; rfl
      | cons x xs ih =>
        intro h
        rw [List.map_cons, List.sum_cons, ih (fun y hy => h y (by simp [hy]))]
        have hx := h x (by simp)
        cases hxa : x.attr with
        | shorthand st m ms => exact absurd hxa (hx st m ms)
        | _ => rfl
    rw [this _ hsh]; exact Nat.zero_le _

theorem brackets_last {ts : List Tk} {a : Attrs} (h : InBrackets ts a) : ts.getLast?.map (·.kind) ≠ some Backslash := by
  cases h with
  | nothing => simp
  | list _ _ _ h => exact h

theorem endsNonescaped_snoc (l : List Tk) (c : Tk) (hc : c.kind = CloseBracket) (hl : l.getLast?.map (·.kind) ≠ some Backslash) :
    endsNonescaped CloseBracket (l ++ [c]) = true := by
  unfold endsNonescaped
  rw [List.reverse_append]
  rw [List.getLast?_eq_head?_reverse] at hl
  cases hr : l.reverse with
  | nil => simp [hc]
  | cons u us =>
    rw [hr] at hl
    have : u.kind ≠ Backslash := by simpa using hl
    simp [hc, this]

theorem macroLine_ends (name : List Char) {target attrs : List Tk} {a : Attrs} (h : InBrackets attrs a) :
    endsNonescaped CloseBracket (macroLine name target attrs) = true := by
  have e : macroLine name target attrs =
      (⟨MacroName, name ++ [':']⟩ :: ⟨Colon, [':']⟩ :: (target ++ ⟨OpenBracket, ['[']⟩ :: attrs)) ++ [⟨CloseBracket, [']']⟩] := by
    simp [macroLine]
  rw [e]
  refine endsNonescaped_snoc _ _ rfl ?_
  have hl := brackets_last h
  cases attrs with
  | nil => simp [List.getLast?_cons, List.getLast?_append]
  | cons x xs =>
    rw [List.getLast?_cons] at hl
    simp [List.getLast?_cons, List.getLast?_append] at hl ⊢
    exact hl

theorem media_means (make : List Char → Attrs → Block) {target attrs : List Tk} {s : List Char} {a : Attrs} (ht : Target target s) (ha : InBrackets attrs a) :
    media make (target ++ ⟨OpenBracket, ['[']⟩ :: (attrs ++ [⟨CloseBracket, [']']⟩])) = some (make s a) := by
  unfold media macroTarget
  rw [if_neg (by simp), targetLoop_means ht _ rfl]
  simp only [if_true, Option.bind_eq_bind, Option.bind_some, brackets_mean ha]
  rfl

theorem name_eq {a b : List Char} : a ++ [':'] = b ++ [':'] ↔ a = b := by simp

/-- C121 (written): a line with the name of a macro that is not one for running text, two colons, a target and attributes in brackets is a block macro, and it
has the target and the attributes that are written; attribute references in the target count as their values. Partial: a target with a backslash is not what
is written (`C121_backslash_violated`). -/
theorem C121_written_partial {name : List Char} {target attrs : List Tk} {s : List Char} {a : Attrs} {b : Block}
    (hn : name ∉ inlineNames) (ht : Target target s) (ha : InBrackets attrs a) (hb : Is name target s a (reassemble (macroLine name target attrs)) b) :
    isBlockMacro (macroLine name target attrs) = true ∧ blockMacro (macroLine name target attrs) = some b := by
  have e : ∀ n : String, ((name ++ [':'] : List Char) = (n ++ ":").toList) = (name = n.toList) := by
    intro n
    rw [String.toList_append]
    exact propext name_eq
  have ei := e "image"
  have et := e "toc"
  have ea := e "audio"
  have ev := e "video"
  have d : ("image" ++ ":" : String) = "image:" ∧ ("toc" ++ ":" : String) = "toc:" ∧ ("audio" ++ ":" : String) = "audio:" ∧ ("video" ++ ":" : String) = "video:" := by decide
  rw [d.1] at ei
  rw [d.2.1] at et
  rw [d.2.2.1] at ea
  rw [d.2.2.2] at ev
  constructor
  · have he := macroLine_ends name (target := target) ha
    have hc : canStart ⟨MacroName, name ++ [':']⟩ = true := by
      simp only [canStart, decide_true, Bool.true_and, ei, et, ea, ev, List.dropLast_concat]
      simp only [inlineNames, List.map_cons, List.map_nil, List.mem_cons, List.not_mem_nil, or_false, not_or] at hn
      simp only [builtin, List.any_cons, List.any_nil, Bool.or_false]
      by_cases h1 : name = "image".toList
      · simp [h1]
      by_cases h2 : name = "toc".toList
      · simp [h2]
      by_cases h3 : name = "audio".toList
      · simp [h3]
      by_cases h4 : name = "video".toList
      · simp [h4]
      have sy : ∀ x : List Char, ¬ name = x → (decide (x = name)) = false := fun x hx => decide_eq_false fun e => hx e.symm
      simp only [sy _ h1, sy _ h2, sy _ h3, sy _ h4, sy _ hn.1, sy _ hn.2.1, sy _ hn.2.2.1, sy _ hn.2.2.2.1, sy _ hn.2.2.2.2.1, sy _ hn.2.2.2.2.2.1,
        sy _ hn.2.2.2.2.2.2.1, sy _ hn.2.2.2.2.2.2.2.1, sy _ hn.2.2.2.2.2.2.2.2.1, sy _ hn.2.2.2.2.2.2.2.2.2.1, sy _ hn.2.2.2.2.2.2.2.2.2.2.1,
        sy _ hn.2.2.2.2.2.2.2.2.2.2.2]
      simp
    rw [macroLine] at he ⊢
    rw [isBlockMacro, hc, he]
    simp
  · rw [blockMacro.eq_def]
    conv => lhs; unfold macroLine
    simp only [ei, et, ea, ev]
    have n1 : ¬ "audio".toList = "image".toList := by decide
    have n2 : ¬ "audio".toList = "toc".toList := by decide
    have n3 : ¬ "video".toList = "image".toList := by decide
    have n4 : ¬ "video".toList = "toc".toList := by decide
    have n5 : ¬ "video".toList = "audio".toList := by decide
    have n6 : ¬ "toc".toList = "image".toList := by decide
    cases hb with
    | image => rw [if_pos rfl]; exact media_means _ ht ha
    | audio => rw [if_neg n1, if_neg n2, if_pos rfl]; exact media_means _ ht ha
    | video => rw [if_neg n3, if_neg n4, if_neg n5, if_pos rfl]; exact media_means _ ht ha
    | toc => rw [if_neg n6, if_pos rfl]
    | plugin hp =>
      simp only [List.mem_cons, List.not_mem_nil, or_false, not_or] at hp
      rw [if_neg hp.1, if_neg hp.2.2.2, if_neg hp.2.1, if_neg hp.2.2.1]
      unfold plugin
      cases target with
      | nil => simp [brackets_mean ha, macroLine]
      | cons t ts =>
        have h1 : t.kind ≠ OpenBracket := by
          cases ht with
          | ref h => rw [h]; decide
          | tok _ h => exact h
        have h2 := targetLoop_means ht ⟨OpenBracket, ['[']⟩ rfl (attrs ++ [⟨CloseBracket, [']']⟩])
        rw [List.cons_append] at h2 ⊢
        simp [h1, macroTarget, h2, brackets_mean ha, macroLine]

/-- C121 (running text): a line that starts with a macro for running text is not a block macro. -/
theorem C121_inline (name : List Char) (hn : name ∈ inlineNames) (l : List Tk) : isBlockMacro (⟨MacroName, name ++ [':']⟩ :: l) = false := by
  have hc : canStart ⟨MacroName, name ++ [':']⟩ = false := by
    simp only [inlineNames, List.map_cons, List.map_nil, List.mem_cons, List.not_mem_nil, or_false] at hn
    rcases hn with h | h | h | h | h | h | h | h | h | h | h | h <;> subst h <;> decide +kernel
  cases l with
  | nil => rfl
  | cons u l => simp [isBlockMacro, hc]

theorem targetLoop_split (l : List Tk) (h : l.any (·.kind = OpenBracket) = true) :
    ∃ s p o r, targetLoop l = (s, o :: r) ∧ o.kind = OpenBracket ∧ l = p ++ o :: r := by
  induction l with
  | nil => cases h
  | cons t l ih =>
    by_cases ht : t.kind = OpenBracket
    · exact ⟨[], [], t, l, by rw [targetLoop, if_pos ht], ht, rfl⟩
    · obtain ⟨s, p, o, r, h1, h2, rfl⟩ := ih (by simpa [ht] using h)
      exact ⟨_, t :: p, o, r, by rw [targetLoop, if_neg ht, h1], h2, rfl⟩

theorem ends_last {l : List Tk} (h : endsNonescaped CloseBracket l = true) : ∃ m c, l = m ++ [c] ∧ c.kind = CloseBracket := by
  unfold endsNonescaped at h
  cases hr : l.reverse with
  | nil => rw [hr] at h; cases h
  | cons c m =>
    refine ⟨m.reverse, c, ?_, ?_⟩
    · have := congrArg List.reverse hr
      simpa using this
    · rw [hr] at h
      cases m with
      | nil => simpa using h
      | cons u us => simp at h; exact h.1

theorem rest_closes {p r m : List Tk} {o c : Tk} (h : p ++ o :: r = m ++ [c]) (ho : o.kind = OpenBracket) (hc : c.kind = CloseBracket) :
    ∃ q, r = q ++ [c] := by
  have : (p ++ o :: r).getLast? = some c := by rw [h]; simp
  cases r with
  | nil =>
    simp at this
    rw [this, hc] at ho
    cases ho
  | cons x xs =>
    have h2 : (x :: xs).getLast? = some c := by simpa [List.getLast?_append, List.getLast?_cons] using this
    exact List.getLast?_eq_some_iff.mp h2

theorem media_some (make : List Char → Attrs → Block) {l m : List Tk} {c : Tk} (hl : l.any (·.kind = OpenBracket) = true) (e : l = m ++ [c]) (hc : c.kind = CloseBracket) :
    (media make l).isSome = true := by
  obtain ⟨s, p, o, r, h1, h2, h3⟩ := targetLoop_split l hl
  obtain ⟨q, hq⟩ := rest_closes (h3 ▸ e) h2 hc
  have hne : l ≠ [] := by rintro rfl; cases hl
  have hp := C61_block_list_no_panic_partial false q c hc
  rw [← hq] at hp
  obtain ⟨x, hx⟩ := Option.isSome_iff_exists.mp hp
  have hx' : parseBlockMacro r = some x := hx
  simp [media, macroTarget, hne, h1, h2, hx']

/-- C121 (no panic): every line that is a block macro is read, whatever is in it. -/
theorem C121_no_panic (line : List Tk) (h : isBlockMacro line = true) : (blockMacro line).isSome = true := by
  match line, h with
  | t :: u :: l, h =>
    simp only [isBlockMacro, Bool.and_eq_true, decide_eq_true_eq] at h
    obtain ⟨⟨⟨⟨h1, h2⟩, _⟩, h4⟩, h5⟩ := h
    have hl : l.any (·.kind = OpenBracket) = true := by simpa [h1, h2] using h4
    obtain ⟨m, c, e, hc⟩ := ends_last h5
    have e' : ∃ m', l = m' ++ [c] := by
      have : (t :: u :: l).getLast? = some c := by rw [e]; simp
      cases l with
      | nil => cases hl
      | cons x xs =>
        have h2 : (x :: xs).getLast? = some c := by simpa [List.getLast?_cons] using this
        exact List.getLast?_eq_some_iff.mp h2
    obtain ⟨m', e'⟩ := e'
    unfold blockMacro
    simp only
    split
    · exact media_some _ hl e' hc
    split
    · rfl
    split
    · exact media_some _ hl e' hc
    split
    · exact media_some _ hl e' hc
    unfold plugin
    cases l with
    | nil => cases hl
    | cons x xs =>
      by_cases hx : x.kind = OpenBracket
      · obtain ⟨q, hq⟩ := rest_closes (p := []) e' hx hc
        have hp := C61_block_list_no_panic_partial false q c hc
        rw [← hq] at hp
        obtain ⟨y, hy⟩ := Option.isSome_iff_exists.mp hp
        have hy' : parseBlockMacro xs = some y := hy
        simp [hx, hy']
      · obtain ⟨s, p, o, r, h1, h2, h3⟩ := targetLoop_split _ hl
        obtain ⟨q, hq⟩ := rest_closes (h3 ▸ e') h2 hc
        have hp := C61_block_list_no_panic_partial false q c hc
        rw [← hq] at hp
        obtain ⟨y, hy⟩ := Option.isSome_iff_exists.mp hp
        have hy' : parseBlockMacro r = some y := hy
        simp [hx, macroTarget, h1, h2, hy']

/-- `image::{dir}/cat.png["A, cat",width=20]` where `dir` is `img` -/
private def catTarget : List Tk := [⟨AttrRef, "{dir}".toList⟩, word "img".toList, ⟨ForwardSlashes, ['/']⟩, word "cat".toList, ⟨Dots, ['.']⟩, word "png".toList]
private def catFirst : Spaced := ⟨[], .quoted true [word ['A'], ⟨Comma, [',']⟩, ⟨Whitespace, [' ']⟩, word "cat".toList], []⟩
private def catMore : List Spaced := [⟨[], .namedWord "width".toList "20".toList, []⟩]

example : Target catTarget "img/cat.png".toList :=
  .ref rfl (.tok (by decide) (by decide) (by decide) (.tok (by decide) (by decide) (by decide) (.tok (by decide) (by decide) (by decide)
    (.tok (by decide) (by decide) (by decide) (.tok (by decide) (by decide) (by decide) .nil)))))

example : (∀ x ∈ catFirst :: catMore, x.ok = true) ∧ "image".toList ∉ inlineNames ∧ isBlockMacro (macroLine "image".toList catTarget (writeList catFirst catMore)) = true ∧
    blockMacro (macroLine "image".toList catTarget (writeList catFirst catMore)) = some (.image "img/cat.png".toList
      { positional := [some [word ['A'], ⟨Comma, [',']⟩, ⟨Whitespace, [' ']⟩, word "cat".toList], none], named := [("width".toList, [word "20".toList])] }) := by
  decide +kernel

/-- C121 fails for targets with backslashes: they are lost, in the paths of Windows too. -/
theorem C121_backslash_violated : blockMacro (macroLine "image".toList [word "img".toList, ⟨Backslash, ['\\']⟩, word "cat".toList] []) =
    some (.image "imgcat".toList {}) := by decide +kernel

/-- C121 fails if there is a blank behind the macro: it is not a block macro. -/
theorem C121_blank_violated (name : List Char) (target attrs : List Tk) : isBlockMacro (macroLine name target attrs ++ [⟨Whitespace, [' ']⟩]) = false := by
  have : endsNonescaped CloseBracket (macroLine name target attrs ++ [⟨Whitespace, [' ']⟩]) = false := by
    unfold endsNonescaped
    rw [List.reverse_append]
    generalize (macroLine name target attrs).reverse = r
    cases r <;> simp
  rw [macroLine] at this ⊢
  simp only [List.cons_append, isBlockMacro] at this ⊢
  rw [this, Bool.and_false]

end Verif.Props
