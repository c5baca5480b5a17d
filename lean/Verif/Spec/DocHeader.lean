import Verif.Model.DocHeader
/-!
Specification: how a document with a header is written.

The lines of a document are given in chunks: between two chunks there is an empty line, inside a chunk there is none.
-/
namespace Verif.DocHeader

/-- what may stand before the title: comment lines, attribute entries, comment blocks -/
inductive Item where
  | comment (l : Line)
  | attr (l : Line)
  | block (first : Line) (inside : List Line) (last : Line)

/-- the lines -/
def Item.lines : Item → List Line
  | .comment l => [l]
  | .attr l => [l]
  | .block a ls b => a :: (ls ++ [b])

/-- comment blocks stand between delimiters -/
def Item.ok : Item → Bool
  | .comment l => l.kind = .comment
  | .attr l => l.kind = .attr
  | .block a ls b => a.kind = .delim && b.kind = .delim && ls.all (·.kind ≠ .delim)

/-- the lines of items -/
def linesOf (is : List Item) : List Line := is.flatMap Item.lines

/-- a comment block with empty lines in it: the lines of its first, its inner and its last chunk -/
structure Long where
  first : Line
  start : List Line
  inner : List (List Line)
  stop : List Line
  last : Line

/-- the block stands between delimiters -/
def Long.ok (b : Long) : Bool :=
  b.first.kind = .delim && b.last.kind = .delim && b.start.all (·.kind ≠ .delim) &&
    b.inner.all (fun c => c.all (·.kind ≠ .delim)) && b.stop.all (·.kind ≠ .delim)

/-- chunks before the header: items, at the end of which there may be a long comment block -/
structure Before where
  items : List Item
  long : Option Long

/-- the chunks -/
def Before.chunks (b : Before) : List (List Line) :=
  match b.long with
  | none => [linesOf b.items]
  | some l => (linesOf b.items ++ l.first :: l.start) :: (l.inner ++ [l.stop ++ [l.last]])

/-- all of it is as it should be -/
def Before.ok (b : Before) : Bool := b.items.all Item.ok && b.long.all Long.ok

/-- the header of a document: block attributes for the title, the title, the author line, the revision line, attribute entries -/
structure Head where
  metas : List Line
  title : Line
  author : Option Line
  rev : Option Line
  attrs : List Line

/-- its lines -/
def Head.lines (h : Head) : List Line := h.metas ++ h.title :: (h.author.toList ++ h.rev.toList ++ h.attrs)

/-- The kinds of its lines. There may be comment lines behind block attributes. A revision line needs an author line, and an author
in it, unless the author is known already (`hasAuthor`). A line behind the author line that can be read as a revision line is
one. -/
def Head.ok (hasAuthor : Bool) (h : Head) : Bool :=
  h.metas.all (fun l => l.kind = .attrList || l.kind = .anchor || l.kind = .comment) && h.metas.head?.all (·.kind ≠ .comment) && h.title.kind = .title &&
    h.author.all (fun l => l.kind = .word && (l.author || (h.rev.isNone || hasAuthor))) && (h.rev.isNone || h.author.isSome) && h.rev.all (·.rev) &&
    h.attrs.all (fun l => l.kind = .attr && !l.rev)

/-- a line of the body: not a comment, not an attribute entry, no comment block -/
def startsBody (l : Line) : Bool := !([.comment, .attr, .delim].contains l.kind)

end Verif.DocHeader
