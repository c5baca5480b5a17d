import Verif.Lemmas.Checklist
/-! Property C116: which items of lists have check boxes. -/
namespace Verif.Props
open Verif Verif.Lexer Verif.Directives Verif.LineKinds Verif.Checklist

/-- C116: an item of an unordered list has a check box if its text starts with one: it is checked if it says so, and the text of the item is
what follows the box. An item whose text does not start with a box has none, and all of its text; the items of other lists never have one.
Partial: brackets with several blanks between them are left out, which is where the property fails. -/
theorem C116_check_box_partial (plugins : List (List UInt8)) (word : Char → Bool) (nl : List UInt8) (hnl : nl = [10] ∨ nl = [13, 10]) (lines : List (List Char))
    (hl : ∀ l ∈ lines, '\n' ∉ l ∧ '\r' ∉ l) :
    ∃ items, eachLine (listItem word) plugins (lines.flatMap (encode · ++ nl)) = some items ∧ items.length = lines.length ∧
      ∀ (i : Nat) (line : List Char), lines[i]? = some line → ∀ indent mark gap text m, ItemLine line indent mark gap text m →
        (Unordered m → (∀ ck rest, Box ck text rest → items[i]? = some (some ⟨m, some ck, rest⟩)) ∧
          ((∀ ck rest, ¬ Box ck text rest) → (∀ g r, 1 < g.length → (∀ c ∈ g, c ∈ whites) → text ≠ '[' :: g ++ ']' :: r) →
            items[i]? = some (some ⟨m, none, text⟩))) ∧
        (¬ Unordered m → items[i]? = some (some ⟨m, none, text⟩)) := by
  obtain ⟨tokss, h1, h2⟩ := lexed_lines (plugins := plugins) hnl hl
  obtain ⟨p1, p2⟩ := pairs_at h2 (listItem word)
  refine ⟨_, by rw [eachLine, h1]; rfl, p1, ?_⟩
  intro i line hi indent mark gap text m hm
  obtain ⟨toks, e, hline⟩ := p2 i line hi
  have := item_boxed (word := word) hm hline
  rw [e]
  exact ⟨fun hu => ⟨fun ck rest hb => congrArg some ((this.1 hu).1 ck rest hb), fun hn hw => congrArg some ((this.1 hu).2 hn hw)⟩,
    fun hu => congrArg some (this.2 hu)⟩

/-- the items of the lines of a source -/
def itemsOf (src : String) : Option (List (Option Item)) := eachLine (listItem fun _ => false) [] (bs src)

example : itemsOf "* [x] done\n- [*]\tdone\n** [ ] to do\n. [x] ordered\n* [y] not a box\n* [x]no blank\n* [X] not a box\n* \\[x] not a box\n" =
    some [some ⟨.star 1, some true, " done".toList⟩, some ⟨.dash, some true, "\tdone".toList⟩, some ⟨.star 2, some false, " to do".toList⟩,
      some ⟨.dot 1, none, "[x] ordered".toList⟩, some ⟨.star 1, none, "[y] not a box".toList⟩, some ⟨.star 1, none, "[x]no blank".toList⟩,
      some ⟨.star 1, none, "[X] not a box".toList⟩, some ⟨.star 1, none, "\\[x] not a box".toList⟩] := by decide +kernel

/-- the hypotheses are met -/
example : ItemLine "* [x] done".toList [] ['*'] [' '] "[x] done".toList (.star 1) ∧ Box true "[x] done".toList " done".toList := by
  refine ⟨⟨rfl, .star (n := 1) (by decide) (by decide), by decide, by decide, ⟨by decide, by intro c hc; cases hc; decide⟩, by decide, ?_, ?_, by intro h; cases h⟩, .x (by decide)⟩
  · intro n h; cases h
  · intro _ g e h; cases h

/-- C116 fails for brackets with several blanks between them: they are a box, and `[ ]` is what is kept of them. -/
theorem C116_blanks_violated : itemsOf "* [    ] a\n" = some [some ⟨.star 1, some false, " a".toList⟩] := by decide +kernel

end Verif.Props
