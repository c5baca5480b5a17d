import Verif.Model.SpecialSect
/-!
The block level of parsing: how headings become sections, parts and entries of
the table of contents.

Models `parser/src/tasks/parse_section.rs:3-213`, `parse_book.rs:3-92`,
`parse_book_part.rs:5-75`, `parser/src/tasks/parse_block.rs:6-50,70-78,292-420`
and `parser/src/parser.rs:177-206,246-312` at the level of chunks.

A source is a sequence of chunks (maximal runs of lines without an empty line
between), a chunk a sequence of items: headings, delimiter lines of blocks that
contain blocks, and everything else. Simplifications: every other block
(paragraph, list, table, verbatim block, …) is one opaque item; block metadata
belongs to the item it precedes; heading levels are those computed by
`line_heading_level` (see `Model/LevelOffset.lean`); the open block around a
part introduction is kept; an unfinished chunk of metadata is not modelled.
-/
namespace Verif.Sections

/-- One piece of a chunk. `special`: the heading carries a special section name
(`[appendix]`, `[preface]`, …);
`discrete`: it carries `[discrete]` or `[float]`. -/
inductive Item where
  | heading (level title : Nat) (special : Option SpecialSection) (discrete : Bool)
  | para (n : Nat)
  | delim (k : Nat)
  deriving DecidableEq, Repr

/-- `ast/src/toc.rs` `TocNode`. -/
inductive Toc where
  | node (level title : Nat) (children : List Toc)
  deriving Repr

def Toc.level : Toc → Nat | .node l _ _ => l

/-- Parsed blocks: `Block` with `Content::Section`, `Content::Compound` and all
others. `closed`: the closing delimiter was found. -/
inductive Node where
  | leaf (i : Item)
  | sect (i : Item) (level : Nat) (inner : List Node)
  | compound (k : Nat) (closed : Bool) (inner : List Node)
  deriving Repr

/-- `ast/src/book.rs` `Part`. -/
structure Part where
  title : Item
  intro : List Node
  sections : List Node

/-- `ast/src/doc_content.rs` `DocContent`. -/
inductive Doc where
  | blocks (bs : List Node)
  | sections (preamble secs : List Node)
  | parts (preamble opening : List Node) (parts : List Part) (closing : List Node)

/-- Diagnostics raised here, with the title (or delimiter) they are about. -/
inductive Err where
  | levelZero (title : Nat)
  | outOfSequence (title : Nat)
  | nestedSpecial (title : Nat)
  | unclosed (k : Nat)
  | emptyPart (title : Nat)
  deriving DecidableEq, Repr

/-- Ways to end without a result: a diagnostic in strict mode, a panic, or (in
the model only) running out of the step bound. -/
inductive Fail where
  | diag (e : Err)
  | panic
  | diverged
  deriving DecidableEq, Repr

abbrev Res (α : Type) := Except Fail α

/-- What parsing a document depends on: strict mode, `doctype=book`, the
attribute `toclevels`. -/
structure Env where
  strict : Bool
  book : Bool
  toclevels : Nat := 2

/-- Parser state: the lines read but put back (`peeked_lines`, empty when
`None`), the chunks not read yet, whether blank lines end the source, the
context (`section_level`, `delimiter`), the table of contents if wanted, and
the collected diagnostics. -/
structure St where
  peeked : List Item := []
  rest : List (Item × List Item)
  trailing : Bool := false
  level : Nat := 0
  delim : Option Nat := none
  toc : Option (List Toc) := none
  errs : List Err := []

/-- `parser.rs:177-206` `read_lines`: the lines put back, or else the next
chunk; at the end blank lines have been skipped. -/
def read (st : St) : Option (Item × List Item × St) :=
  match st.peeked with
  | i :: more => some (i, more, { st with peeked := [] })
  | [] =>
    match st.rest with
    | [] => none
    | (i, more) :: rest => some (i, more, { st with rest := rest })

/-- the effect of `read_lines` at the end of the source -/
def atEnd (st : St) : St := { st with trailing := false }

/-- `parser.rs:260-265` `restore_lines`. -/
def restore (st : St) (items : List Item) : St := { st with peeked := items }

/-- `root_lexer.rs:260-262` `is_eof`: nothing is left unread; lines put back do
not count. -/
def isEof (st : St) : Bool := st.rest.isEmpty && !st.trailing

/-- `diagnostic.rs:176-183` `handle_err`. -/
def report (env : Env) (st : St) (e : Err) : Res St :=
  if env.strict then .error (.diag e) else .ok { st with errs := st.errs ++ [e] }

/-- `parse_section.rs:207-212`: going down `d` times into the last node, which
must exist, and appending there. -/
def pushAt : Nat → List Toc → Toc → Option (List Toc)
  | 0, nodes, n => some (nodes ++ [n])
  | d + 1, nodes, n =>
    match nodes.getLast? with
    | none => none
    | some (.node l t ch) =>
      match pushAt d ch n with
      | none => none
      | some ch => some (nodes.dropLast ++ [.node l t ch])

/-- `parse_section.rs:168-213` `push_toc_node`; `none` is the panic of the
`unwrap` in its loop. -/
def pushToc (toclevels : Nat) (nodes : List Toc) (authored semantic title : Nat) : Option (List Toc) :=
  if authored > toclevels then some nodes
  else match nodes.getLast? with
    | none => some (nodes ++ [.node authored title []])
    | some (.node last _ ch) =>
      if authored < last ∨ authored = 0 then some (nodes ++ [.node authored title []])
      else
        let depth := if last = 0 ∧ semantic = 2 ∧ ch.any (fun n => n.level == 1) = false then 1 else semantic
        pushAt (depth - last) nodes (.node authored title [])

/-- `push_toc_node` on the state. -/
def pushTocSt (env : Env) (st : St) (authored semantic title : Nat) : Res St :=
  match st.toc with
  | none => .ok st
  | some nodes =>
    match pushToc env.toclevels nodes authored semantic title with
    | none => .error .panic
    | some nodes => .ok { st with toc := some nodes }

/-- `while let Some(x) = step()? { xs.push(x) }` -/
def loop {α : Type} (step : St → Res (Option α × St)) : Nat → St → Res (List α × St)
  | 0, _ => .error .diverged
  | n + 1, st =>
    match step st with
    | .error e => .error e
    | .ok (none, st) => .ok ([], st)
    | .ok (some a, st) =>
      match loop step n st with
      | .error e => .error e
      | .ok (as, st) => .ok (a :: as, st)

/-- titles of the sections directly among `blocks` -/
def directSections : List Node → List Nat
  | [] => []
  | .sect (.heading _ t _ _) _ _ :: bs => t :: directSections bs
  | _ :: bs => directSections bs

/-- several diagnostics in a row -/
def reportAll (env : Env) (st : St) : List Err → Res St
  | [] => .ok st
  | e :: es =>
    match report env st e with
    | .error f => .error f
    | .ok st => reportAll env st es

/-- A peeked heading: `PeekedSection` with the lines after the heading. -/
structure Peeked where
  authored : Nat
  semantic : Nat
  title : Nat
  special : Option SpecialSection
  item : Item
  more : List Item

/-- `parse_section.rs:22-51` `peek_section`: `[discrete]` is not looked at. -/
def peekSection (st : St) : Option Peeked × St :=
  match read st with
  | none => (none, atEnd st)
  | some (.heading l t sp d, more, st) => (some ⟨l, l, t, sp, .heading l t sp d, more⟩, st)
  | some (i, more, st) => (none, restore st (i :: more))

/-- `parse_section.rs:53-162` `parse_peeked_section`; `inner` is its loop over
`parse_block`. -/
def peekedSection (env : Env) (inner : St → Res (List Node × St)) (p : Peeked) (st : St) : Res (Node × St) :=
  let last := st.level
  let st := { st with level := p.semantic }
  let oos := p.semantic > last ∧ p.semantic - last > 1
  match (if oos then report env st (.outOfSequence p.title) else .ok st) with
  | .error f => .error f
  | .ok st =>
    match (if oos then .ok st else pushTocSt env st p.authored p.semantic p.title) with
    | .error f => .error f
    | .ok st =>
      match inner (restore st p.more) with
      | .error f => .error f
      | .ok (blocks, st) =>
        match (if p.special.any (!·.supportsSubsections) then reportAll env st ((directSections blocks).map .nestedSpecial)
               else .ok st) with
        | .error f => .error f
        | .ok st => .ok (.sect p.item p.semantic blocks, { st with level := last })

/-- `parse_section.rs:4-20` `parse_section`. -/
def parseSection (env : Env) (inner : St → Res (List Node × St)) (st : St) : Res (Option Node × St) :=
  match peekSection st with
  | (none, st) => .ok (none, st)
  | (some p, st) =>
    if p.semantic = 0 ∧ env.book = true then .ok (none, restore st (p.item :: p.more))
    else
      match (if p.semantic = 0 then report env st (.levelZero p.title) else .ok st) with
      | .error f => .error f
      | .ok st =>
        match peekedSection env inner p st with
        | .error f => .error f
        | .ok (s, st) => .ok (some s, st)

/-- `parse_block.rs:334-340,391-420` `parse_delimited_block` for blocks that
contain blocks. The chunk read in search of the closing delimiter is not put
back when it is something else. -/
def delimited (env : Env) (inner : St → Res (List Node × St)) (k : Nat) (st : St) : Res (Node × St) :=
  let prev := st.delim
  match inner { st with delim := some k } with
  | .error f => .error f
  | .ok (blocks, st) =>
    match read st with
    | some (.delim k', more, st) =>
      if k' = k then .ok (.compound k true blocks, { restore st more with delim := prev })
      else
        match report env st (.unclosed k) with
        | .error f => .error f
        | .ok st => .ok (.compound k false blocks, { st with delim := prev })
    | some (_, _, st) =>
      match report env st (.unclosed k) with
      | .error f => .error f
      | .ok st => .ok (.compound k false blocks, { st with delim := prev })
    | none =>
      match report env (atEnd st) (.unclosed k) with
      | .error f => .error f
      | .ok st => .ok (.compound k false blocks, { st with delim := prev })

/-- `parse_block.rs:6-78` `parse_block`, with `heading_level.rs:14-34`
`section_start_level` (a discrete heading starts no section). The number bounds nesting and is shown
to be enough when it exceeds the number of items. -/
def parseBlock (env : Env) : Nat → St → Res (Option Node × St)
  | 0, _ => .error .diverged
  | n + 1, st =>
    match read st with
    | none => .ok (none, atEnd st)
    | some (.para m, more, st) => .ok (some (.leaf (.para m)), restore st more)
    | some (.delim k, more, st) =>
      if st.delim = some k then .ok (none, restore st (.delim k :: more))
      else
        match delimited env (loop (parseBlock env n) n) k (restore st more) with
        | .error f => .error f
        | .ok (b, st) => .ok (some b, st)
    | some (.heading l t sp d, more, st) =>
      if d = true then .ok (some (.leaf (.heading l t sp d)), restore st more)
      else if l ≤ 1 then
        if st.delim.isSome then .ok (some (.leaf (.heading l t sp d)), restore st more)
        else .ok (none, restore st (.heading l t sp d :: more))
      else if l ≤ st.level then .ok (none, restore st (.heading l t sp d :: more))
      else
        match parseSection env (loop (parseBlock env n) n) (restore st (.heading l t sp d :: more)) with
        | .error f => .error f
        | .ok (none, _) => .error .panic
        | .ok (some s, st) => .ok (some s, st)

/-- `parser.rs:300-312` `parse_sectioned`. -/
def parseSectioned (env : Env) (n : Nat) (st : St) : Res ((List Node × List Node) × St) :=
  match loop (parseBlock env n) n st with
  | .error f => .error f
  | .ok (pre, st) =>
    match loop (parseSection env (loop (parseBlock env n) n)) n st with
    | .error f => .error f
    | .ok (secs, st) => .ok ((pre, secs), st)

/-- `parse_book.rs:76-91` `parse_special_sect`. -/
def parseSpecial (env : Env) (n : Nat) (st : St) : Res (Option Node × St) :=
  match peekSection st with
  | (none, st) => .ok (none, st)
  | (some p, st) =>
    if p.special = none then .ok (none, restore st (p.item :: p.more))
    else
      match peekedSection env (loop (parseBlock env n) n) { p with semantic := 1 } st with
      | .error f => .error f
      | .ok (s, st) => .ok (some s, st)

/-- `parse_book_part.rs:6-75` `parse_book_part`. -/
def parsePart (env : Env) (n : Nat) (st : St) : Res (Option Part × St) :=
  match peekSection st with
  | (none, st) => .ok (none, st)
  | (some p, st) =>
    if p.authored ≠ 0 ∨ p.special ≠ none then .ok (none, restore st (p.item :: p.more))
    else
      match pushTocSt env st p.authored p.semantic p.title with
      | .error f => .error f
      | .ok st =>
        match parseSectioned env n (restore st p.more) with
        | .error f => .error f
        | .ok ((pre, secs), st) =>
          match (if secs.isEmpty then report env st (.emptyPart p.title) else .ok st) with
          | .error f => .error f
          | .ok st => .ok (some ⟨p.item, pre, secs⟩, st)

/-- `parse_book.rs:4-74` `parse_book` of a book; `n` bounds the inner loops,
the last argument the recursion. -/
def parseBook (env : Env) (n : Nat) : Nat → St → Res (Doc × St)
  | 0, _ => .error .diverged
  | r + 1, st =>
    match loop (parseSpecial env n) n st with
    | .error f => .error f
    | .ok (opening, st) =>
      if isEof st && !opening.isEmpty then .ok (.sections [] opening, st)
      else
        match loop (parsePart env n) n st with
        | .error f => .error f
        | .ok (part :: parts, st) =>
          match loop (parseSpecial env n) n st with
          | .error f => .error f
          | .ok (closing, st) => .ok (.parts [] opening (part :: parts) closing, st)
        | .ok ([], st) =>
          match peekSection st with
          | (some p, st) =>
            match parseSectioned env n (restore st (p.item :: p.more)) with
            | .error f => .error f
            | .ok ((pre, secs), st) => .ok (.sections pre (opening ++ secs), st)
          | (none, st) =>
            match loop (parseBlock env n) n st with
            | .error f => .error f
            | .ok (blocks, st) =>
              if isEof st then .ok (.blocks blocks, st)
              else
                match parseBook env n r st with
                | .error f => .error f
                | .ok (.sections pre secs, st) => .ok (.sections (blocks ++ pre) secs, st)
                | .ok (.blocks _, _) => .error .panic
                | .ok (.parts pre op ps cl, st) => .ok (.parts (blocks ++ pre) op ps cl, st)

/-- number of items of a source -/
def size (chunks : List (Item × List Item)) : Nat := (chunks.map fun c => c.2.length + 1).sum

/-- `parser.rs:282-291`: the content of a document. -/
def parseDoc (env : Env) (chunks : List (Item × List Item)) (trailing toc : Bool) : Res (Doc × St) :=
  let st : St := { rest := chunks, trailing, toc := if toc then some [] else none }
  let n := size chunks + 2
  if env.book then parseBook env n n st
  else
    match parseSectioned env n st with
    | .error f => .error f
    | .ok ((pre, secs), st) => .ok (if secs.isEmpty then .blocks pre else .sections pre secs, st)

end Verif.Sections
