/-!
Model of the metadata of blocks, from the lines before a block to the block: `parser/src/parser.rs:245-257,300-347`,
`parser/src/tasks/parse_block.rs:6-24,215-238`, and how the header leaves metadata behind (`parse_doc_header.rs:5-56,108-125,169-180`).

Simplifications: a chunk (lines with no empty line between) is one block after its metadata; there are no sections (see `Model/Sections.lean`),
no comment blocks between delimiters (see `Model/DocHeader.lean`); anchors are valid; attribute entries in the body are like text.
-/
namespace Verif.BlockMeta

/-- A line, by what `is_block_attr_list`, `is_block_anchor`, `is_chunk_title`, `is_comment`, `is_attr_decl` and `line_heading_level` say of it.
An attribute list may be empty. The number tells lines apart. -/
inductive Line where
  | attrs (n : Nat) (empty : Bool)
  | anchor (n : Nat)
  | title (n : Nat)
  | comment
  | decl
  | docTitle
  | text (n : Nat)
deriving DecidableEq, Repr

/-- `chunk_meta.rs` `ChunkMeta`: the attribute lists, and whether they are empty; the title -/
structure Meta where
  attrs : List (Nat × Bool) := []
  title : Option Nat := none
deriving DecidableEq, Repr

/-- `multi_attr_list.rs:23-25` — no list, or only empty lists -/
def noAttrs (as : List (Nat × Bool)) : Bool := as.all (·.2)

/-- `chunk_meta.rs:35-37` — `is_empty` -/
def Meta.isEmpty (m : Meta) : Bool := noAttrs m.attrs && m.title.isNone

/-- `parser.rs:314-345` — the loop of `parse_chunk_meta` -/
def metaLoop : Meta → List Line → Meta × List Line
  | m, .title n :: ls => metaLoop { m with title := some n } ls
  | m, .attrs n e :: ls => metaLoop { m with attrs := m.attrs ++ [(n, e)] } ls
  | m, .anchor n :: ls => metaLoop { m with attrs := m.attrs ++ [(n, false)] } ls
  | m, .comment :: ls => if !noAttrs m.attrs || m.title.isSome then metaLoop m ls else (m, .comment :: ls)
  | m, ls => (m, ls)

/-- `parser.rs:300-347` — `parse_chunk_meta`; `peeked`: metadata that was put back -/
def chunkMeta (peeked : Option Meta) (ls : List Line) : Meta × List Line :=
  match peeked with
  | some m => (m, ls)
  | none => metaLoop {} ls

/-- `parser.rs:245-250` — `restore_peeked_meta` when nothing is put back already -/
def restoreMeta (m : Meta) : Option Meta := if m.isEmpty then none else some m

/-- a block: a comment, or lines with metadata -/
inductive Block where
  | comment
  | block (m : Meta) (lines : List Line)
deriving DecidableEq, Repr

/-- ways to end without a document -/
inductive Fail where
  | panic
  /-- "Unattached block metadata", in strict mode -/
  | unattached
deriving DecidableEq, Repr

/-- `contiguous_lines.rs` `discard_leading_comment_lines` -/
def dropComments (ls : List Line) : List Line := ls.dropWhile (· = .comment)

/-- `parse_block.rs:6-24,217-238` — `parse_block` for each chunk: the blocks, and how many times metadata is reported -/
def parseBlocks (strict : Bool) : Option Meta → List (List Line) → Except Fail (List Block × Nat)
  | _, [] => .ok ([], 0)
  | peeked, c :: cs =>
    match dropComments c with
    | [] =>
      if peeked.any (!·.isEmpty) then .error .panic
      else (parseBlocks strict none cs).map fun r => (.comment :: r.1, r.2)
    | l :: ls =>
      match chunkMeta peeked (l :: ls) with
      | (_, []) =>
        if strict then .error .unattached
        else (parseBlocks strict none cs).map fun r => (r.1, r.2 + 1)
      | (m, rest) => (parseBlocks strict none cs).map fun r => (.block m rest :: r.1, r.2)

/-- `parse_doc_header.rs:25-56` — `parse_prefixed_exception_blocks`: comments and attribute entries come first -/
def prefixed : List (List Line) → List (List Line)
  | [] => []
  | c :: cs =>
    match c.dropWhile fun l => l = .comment || l = .decl with
    | [] => prefixed cs
    | ls => ls :: cs

/-- `parse_doc_header.rs:169-180` — `is_doc_header` -/
def isDocHeader : List Line → Bool
  | [] => false
  | .docTitle :: _ => true
  | .comment :: ls => isDocHeader ls
  | .attrs _ _ :: ls => isDocHeader ls
  | .anchor _ :: ls => isDocHeader ls
  | .decl :: _ => true
  | _ => false

/-- `parse_doc_header.rs:5-23,108-125` — `parse_document_header`: the metadata that is put back, and what is left for the body. What is left of
the chunk of a header is not kept. -/
def header (chunks : List (List Line)) : Option Meta × List (List Line) :=
  match prefixed chunks with
  | [] => (none, [])
  | c :: cs =>
    if isDocHeader c then
      match metaLoop {} (c.dropWhile (· = .decl)) with
      | (_, .docTitle :: _) => (none, cs)
      | (m, _) => (restoreMeta m, cs)
    else (none, c :: cs)

/-- `parser.rs:257-284` — `parse` of a document without sections -/
def parseDoc (strict : Bool) (chunks : List (List Line)) : Except Fail (List Block × Nat) :=
  let (m, cs) := header chunks
  parseBlocks strict m cs

end Verif.BlockMeta
