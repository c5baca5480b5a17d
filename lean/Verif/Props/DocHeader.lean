import Verif.Lemmas.DocHeader
/-!
C74: the header of a document is read, and the body is kept.
-/
namespace Verif.Props
open Verif.DocHeader

/-- **C74 (part).** A document starts with any number of chunks of comments, comment blocks (with or without empty lines in
them) and attribute entries (`before`). The next chunk starts with more of these (`items`), and then the header follows: block
attributes, the title, perhaps an author line and a revision line, attribute entries. Then the title, the author line and the
revision line are found, and every chunk after the header is left for the body. What is missing: the chunk of the header may
hold nothing else (`C74_text_after_header_violated`), and a comment block with an empty line in it has to end its chunk
(`C74_comment_block_violated`). -/
theorem C74_header_partial {before : List Before} (hb : before.all Before.ok = true) {items : List Item} (hi : items.all Item.ok = true) (hasAuthor : Bool) {h : Head} (hh : h.ok hasAuthor = true)
    (body : List (List Line)) :
    parseHeader hasAuthor (before.flatMap Before.chunks ++ (linesOf items ++ h.lines) :: body) = (⟨some h.title, h.author, h.rev⟩, ⟨[], body⟩) :=
  header_read hb hi hasAuthor hh body

/-- **C74 (part).** When what follows the comments and the attribute entries is not a header, there is no title, and from its
first line on everything is left for the body. -/
theorem C74_no_header_partial {before : List Before} (hb : before.all Before.ok = true) {items : List Item} (hi : items.all Item.ok = true)
    {l : Line} {ls : List Line} (hl : startsBody l = true) (hn : isDocHeader (l :: ls) = false) (body : List (List Line)) (hasAuthor : Bool) :
    parseHeader hasAuthor (before.flatMap Before.chunks ++ (linesOf items ++ l :: ls) :: body) = ({}, ⟨l :: ls, body⟩) :=
  no_header hb hi hl hn body hasAuthor

/-- A paragraph, a list, a section: what starts with a line that is neither a title nor block attributes is not a header. -/
theorem C74_body_starts_partial {l : Line} (h : l.kind = .word ∨ l.kind = .other ∨ l.kind = .chunkTitle) (ls : List Line) :
    startsBody l = true ∧ isDocHeader (l :: ls) = false := by
  rcases h with h | h | h <;> simp [startsBody, isDocHeader, h]

/-- C74 fails for text that follows the attribute entries of the header without an empty line: it is left out. The lines are
`= Title`, `:foo: bar`, `- an item`. -/
theorem C74_text_after_header_violated :
    parseHeader false [[⟨0, .title, true, false⟩, ⟨1, .attr, true, false⟩, ⟨2, .other, true, false⟩]] = (⟨some ⟨0, .title, true, false⟩, none, none⟩, ⟨[], []⟩) := by
  decide +kernel

/-- C74 fails for block attributes that are followed by an attribute entry and then text: the text is left out. The lines are
`[.role]`, `:foo: bar`, `Text`. -/
theorem C74_text_after_entry_violated :
    parseHeader false [[⟨0, .attrList, true, false⟩, ⟨1, .attr, true, false⟩, ⟨2, .word, true, false⟩]] = ({}, ⟨[⟨0, .attrList, true, false⟩], []⟩) := by
  decide +kernel

/-- C74 fails for a comment block with an empty line in it that is followed by the title without an empty line: the title is
left out. The lines are `////`, `a`, an empty line, `b`, `////`, `= Title`. -/
theorem C74_comment_block_violated :
    parseHeader false [[⟨0, .delim, true, false⟩, ⟨1, .word, true, false⟩], [⟨2, .word, true, false⟩, ⟨3, .delim, true, false⟩, ⟨4, .title, true, false⟩]] = ({}, ⟨[], []⟩) := by
  decide +kernel

/-- C74 fails for a comment line between the title and the author line: the author is left out. -/
theorem C74_comment_after_title_violated :
    parseHeader false [[⟨0, .title, true, false⟩, ⟨1, .comment, true, false⟩, ⟨2, .word, true, false⟩]] = (⟨some ⟨0, .title, true, false⟩, none, none⟩, ⟨[], []⟩) := by
  decide +kernel

section Example
private def ln (n : Nat) (k : Kind) : Line := ⟨n, k, true, false⟩
/-- a comment, a comment block with an empty line in it, an attribute entry -/
private def bs : List Before :=
  [⟨[.comment (ln 0 .comment)], some ⟨ln 1 .delim, [ln 2 .word], [], [ln 4 .word], ln 5 .delim⟩⟩, ⟨[.attr (ln 7 .attr)], none⟩]
private def hd : Head := ⟨[ln 10 .anchor, ln 15 .comment], ln 11 .title, some (ln 12 .word), some ⟨13, .word, true, true⟩, [ln 14 .attr]⟩
example : bs.all Before.ok = true ∧ hd.ok false = true ∧ [Item.comment (ln 9 .comment)].all Item.ok = true := by decide
example : parseHeader false (bs.flatMap Before.chunks ++ (linesOf [.comment (ln 9 .comment)] ++ hd.lines) :: [[ln 16 .word]]) =
    (⟨some (ln 11 .title), some (ln 12 .word), some ⟨13, .word, true, true⟩⟩, ⟨[], [[ln 16 .word]]⟩) := by decide +kernel
/-- the author is known from an attribute entry, the line behind the title names nobody -/
example : Head.ok true ⟨[], ln 0 .title, some ⟨1, .word, false, false⟩, some ⟨2, .word, true, true⟩, []⟩ = true := by decide
end Example

end Verif.Props
