/-!
Model of the document header: `parser/src/tasks/parse_doc_header.rs`.

A document is a list of chunks; a chunk is a non-empty list of lines without an empty line between them
(`parser/src/parser.rs:156-192`, `read_lines`). What the lines are is decided by their tokens
(`parser/src/line.rs:268-309, 401-411, 1013-1015`, `parser/src/tasks/heading_level.rs:4-12`); here each line carries
its kind. The cases are exclusive: they differ in the first token, or in the second (`[` and `[[`), or in its length
(`//` and `////`).

Not modelled: locations, diagnostics, the table of contents, the inline content of the title.
-/
namespace Verif.DocHeader

/-- what a line is -/
inductive Kind where
  /-- `line.rs:409-411` — `is_comment` -/
  | comment
  /-- `line.rs:1013-1015` — `is_attr_decl` -/
  | attr
  /-- `line.rs:307-309` — `is_comment_block_delimiter` -/
  | delim
  /-- `heading_level.rs:4-12` — a heading of level 0 -/
  | title
  /-- `line.rs:268-273` — `is_block_attr_list` -/
  | attrList
  /-- `line.rs:275-285` — `is_block_anchor` -/
  | anchor
  /-- `line.rs:287-292` — `is_chunk_title` -/
  | chunkTitle
  /-- it starts with a word -/
  | word
  | other
deriving DecidableEq, Repr

/-- a line: its number, its kind, whether `parse_author_line` finds an author in it, and whether `parse_revision_line`
takes it -/
structure Line where
  no : Nat
  kind : Kind
  author : Bool := true
  rev : Bool := false
deriving DecidableEq, Repr

/-- what is left when the header has been read: the lines of the current chunk (`peeked_lines`, and before them the lines
of `peeked_meta`) and the chunks after it -/
structure Left where
  cur : List Line
  chunks : List (List Line)
deriving DecidableEq, Repr

/-- what the header consists of -/
structure Header where
  title : Option Line := none
  author : Option Line := none
  rev : Option Line := none
deriving DecidableEq, Repr

/-- `contiguous_lines.rs:246-253` — `discard_leading_comment_lines` -/
def skipComments (ls : List Line) : List Line := ls.dropWhile (·.kind = .comment)

/-- `parse_doc_header.rs:189-199` — `skip_header_doc_attrs` -/
def skipAttrs (ls : List Line) : List Line := ls.dropWhile (·.kind = .attr)

/-- `contiguous_lines.rs:261-269` — `discard_until` with `is_comment_block_delimiter`, and the delimiter is taken: the rest
of the lines -/
def untilDelim : List Line → Option (List Line)
  | [] => none
  | l :: ls => if l.kind = .delim then some ls else untilDelim ls

/-- `parse_doc_header.rs:72-81` — a comment block that goes on after an empty line; the lines behind its end in the last
chunk (`next_lines`) are not kept. `none`: the block is not closed. -/
def closeBlock : List (List Line) → Option (List (List Line))
  | [] => none
  | c :: cs =>
    match untilDelim c with
    | some _ => some cs
    | none => closeBlock cs

/-- `parse_doc_header.rs:58-82` — `discard_comment_block`, for a chunk that starts with the delimiter: what is left of the
chunk and the chunks after it -/
def commentBlock (rest : List Line) (chunks : List (List Line)) : List Line × List (List Line) :=
  match untilDelim rest with
  | some after => (after, chunks)
  | none =>
    match closeBlock chunks with
    | some cs => ([], cs)
    | none => ([], [])

/-- the number of lines and chunks -/
def size (cur : List Line) (chunks : List (List Line)) : Nat := cur.length + (chunks.map (fun c => c.length + 1)).sum

/-- `parse_doc_header.rs:25-56` — `parse_prefixed_exception_blocks`; the lines to go on with (`none` at the end of the
document) and the chunks after them. An empty `cur` is a chunk that has been used up (`restore_lines` keeps no empty
lines). The number is a step budget. -/
def prefixed : Nat → List Line → List (List Line) → Option (List Line) × List (List Line)
  | 0, _, chunks => (none, chunks)
  | _ + 1, [], [] => (none, [])
  | n + 1, [], c :: cs => prefixed n c cs
  | n + 1, l :: ls, chunks =>
    match skipComments (l :: ls) with
    | [] => prefixed n [] chunks
    | m :: ms =>
      if m.kind = .attr then prefixed n (skipAttrs (m :: ms)) chunks
      else if m.kind = .delim then
        let (after, cs) := commentBlock ms chunks
        prefixed n after cs
      else (some (m :: ms), chunks)

/-- `parse_doc_header.rs:169-180` — `is_doc_header` -/
def isDocHeader : List Line → Bool
  | [] => false
  | l :: ls =>
    match l.kind with
    | .title => true
    | .comment | .attrList | .anchor => isDocHeader ls
    | .attr => true
    | _ => false

/-- `parser.rs:300-347` — `parse_chunk_meta`: the lines it takes; `seen`: an attribute list or a title has been seen.
Anchors are taken to be valid. -/
def takeMeta : Bool → List Line → List Line × List Line
  | _, [] => ([], [])
  | seen, l :: ls =>
    match l.kind with
    | .chunkTitle | .attrList | .anchor => let (a, b) := takeMeta true ls; (l :: a, b)
    | .comment => if seen then (let (a, b) := takeMeta seen ls; (l :: a, b)) else ([], l :: ls)
    | _ => ([], l :: ls)

/-- `parse_doc_header.rs:154-164` — the author line and the revision line behind the title; what is left of the chunk -/
def authorRev (hasAuthor : Bool) (title : Line) : List Line → Header × List Line
  | [] => ({ title := some title }, [])
  | l :: ls =>
    if l.kind ≠ .word then ({ title := some title }, l :: ls)
    else match ls with
      | [] => ({ title := some title, author := some l }, [])
      | r :: rs =>
        if (hasAuthor || l.author) && r.rev then ({ title := some title, author := some l, rev := some r }, rs)
        else ({ title := some title, author := some l }, r :: rs)

/-- `parse_doc_header.rs:108-167` — `parse_doc_title_author_revision`: the header, the lines put aside as `peeked_meta`, what
is left of the chunk -/
def titleAuthorRev (hasAuthor : Bool) (ls : List Line) : Header × List Line × List Line :=
  match ls with
  | [] => ({}, [], [])
  | _ =>
    match takeMeta false ls with
    | (ms, t :: rest) =>
      if t.kind = .title then
        let (h, left) := authorRev hasAuthor t rest
        (h, [], left)
      else ({}, ms, t :: rest)
    | (ms, []) => ({}, ms, [])

/-- `parse_doc_header.rs:5-23` — `parse_document_header`: the header and what is left for the body. `hasAuthor`: the attribute
`author` is set otherwise. What is left of the chunk of the header after its attribute entries is not kept. -/
def parseHeader (hasAuthor : Bool) (chunks : List (List Line)) : Header × Left :=
  match prefixed (size [] chunks + 1) [] chunks with
  | (none, cs) => ({}, ⟨[], cs⟩)
  | (some block, cs) =>
    if isDocHeader block then
      let (h, ms, rest) := titleAuthorRev hasAuthor (skipAttrs block)
      let _dropped := skipAttrs rest
      (h, ⟨ms, cs⟩)
    else ({}, ⟨block, cs⟩)

end Verif.DocHeader
