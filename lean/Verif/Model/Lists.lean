/-! Model of the list parser: `parser/src/list_context.rs`, `parser/src/tasks/parse_list.rs` and the parts of
`parser/src/tasks/parse_block.rs` that lists are made of.

Lines are classified, not tokenized: which of the kinds of `Ln` a line has is decided by `Line::list_marker`,
`is_list_continuation` and friends (`parser/src/line.rs`), which are not modelled here. Not modelled: comment lines,
block titles and anchors, section titles, tables, macros, delimited blocks other than one kind (`====`), the rest of a
description list item's line starting another block, inline content. -/
namespace Verif.Lists

abbrev Text := List Char

/-- `ast/src/list.rs:72-84` — `ListMarker` -/
inductive Marker where
  | dot (n : Nat)
  | digits (n : Nat)
  | dash
  | star (n : Nat)
  | colons (n : Nat)
  | semicolons
  | callout (n : Option Nat)
deriving DecidableEq, Repr

def Marker.isDigits : Marker → Bool
  | .digits _ => true
  | _ => false

def Marker.isCallout : Marker → Bool
  | .callout _ => true
  | _ => false

/-- `ast/src/list.rs:102-104` -/
def Marker.isDescription : Marker → Bool
  | .colons _ => true
  | .semicolons => true
  | _ => false

/-- `list_context.rs:15-29`. The stack is kept with the innermost list first. -/
def startsNested (stack : List Marker) (next : Marker) : Bool :=
  if stack.isEmpty then false
  else match next with
    | .digits _ => stack.all fun m => !m.isDigits
    | .callout _ => stack.all fun m => !m.isCallout
    | m => !stack.contains m

/-- `list_context.rs:31-37` -/
def continuesCurrent (stack : List Marker) (next : Marker) : Bool :=
  match stack with
  | [] => false
  | last :: _ =>
    match last, next with
    | .digits _, .digits _ => true
    | .callout _, .callout _ => true
    | last, next => last == next

/-- The kinds of lines. `item`: `* text`, `. text`, `1. text`, `- text`, `<1> text`. `term`: `text:: rest`.
`plus`: a lone `+`. `plusText`: any other line that starts with `+`. `attrs`: `[…]`. `delim`: `====`. `text`: the
others. -/
inductive Ln where
  | item (m : Marker) (t : Text)
  | term (m : Marker) (t : Text) (rest : Option Text)
  | text (t : Text)
  | plusText (t : Text)
  | plus
  | attrs (t : Text)
  | delim
deriving DecidableEq, Repr

/-- `line.rs:758-821` — `list_marker`, given the kind of the line -/
def Ln.marker : Ln → Option Marker
  | .item m _ => some m
  | .term m _ _ => some m
  | _ => none

def Ln.isAttrs : Ln → Bool
  | .attrs _ => true
  | _ => false

def Ln.isTerm : Ln → Bool
  | .term _ _ _ => true
  | _ => false

/-- `line.rs:834-843` — `continues_list_item_principle` -/
def Ln.continuesPrinciple : Ln → Bool
  | .text _ => true
  | _ => false

mutual
/-- blocks; `depth` is that of `BlockContent::List` -/
inductive Block where
  | para (lines : List Ln)
  | list (depth : Nat) (items : List Item)
  | exampleBlock (blocks : List Block)
/-- list items: marker, text of the first line and the lines that continue it; further terms and description
of description lists; attached blocks and nested lists -/
inductive Item where
  | mk (marker : Marker) (text : Text) (more : List Ln) (extra : List Text) (desc : Option Block)
      (blocks : List Block)
end

/-- The state of the parser. `chunks` is what is left to read: blank lines separate the chunks, the first of which may
have been read in part (`peeked_lines`). `conts` is `parsing_continuations`. -/
structure St where
  chunks : List (List Ln)
  stack : List Marker := []
  conts : Bool := false
  inDelim : Bool := false
  problems : Nat := 0

/-- `parser.rs:239-244` — `restore_lines` -/
def St.restore (s : St) (lines : List Ln) : St :=
  if lines.isEmpty then s else { s with chunks := lines :: s.chunks }

def St.problem (s : St) : St := { s with problems := s.problems + 1 }

/-- `parse_context.rs:215-222` — `parsing_description_list` -/
def St.inDescription (s : St) : Bool :=
  !s.inDelim && match s.stack with
    | m :: _ => m.isDescription
    | [] => false

/-- `parse_inlines/mod.rs:998-1022` — `should_stop_at` -/
def St.stopsAt (s : St) (l : Ln) : Bool :=
  l == .delim || (l.isAttrs && !s.inDelim) || (s.inDescription && (l.isTerm || l == .plus)) ||
    (s.conts && l == .plus)

/-- `contiguous_lines.rs:213-225` and `line.rs:868-873` — `starts_nested_list` -/
def linesStartNested (stack : List Marker) (allowAttrs : Bool) (lines : List Ln) : Bool :=
  let first (ls : List Ln) : Bool :=
    match ls with
    | [] => false
    | l :: _ => match l.marker with
      | some m => startsNested stack m
      | none => false
  match lines with
  | [] => false
  | l :: tl => if !allowAttrs || !l.isAttrs then first (l :: tl) else first tl

/-- `contiguous_lines.rs:227-235` — `starts_list_continuation` -/
def startsContinuation : List Ln → Bool
  | .plus :: _ :: _ => true
  | _ => false

/-- the rest of a line, put back in front of the following lines (`restore_if_nonempty`) -/
def withRest (r : Option Text) (tl : List Ln) : List Ln :=
  match r with
  | some r => .text r :: tl
  | none => tl

/-- `parse_list.rs:250-270` — `gather_extra_terms`; `none`: out of fuel -/
def gatherTerms (m : Marker) : Nat → St → Option (List Text × St)
  | 0, _ => none
  | n + 1, s =>
    match s.chunks with
    | (.term m' t r :: tl) :: rest =>
      if m' = m then
        (gatherTerms m n (St.restore { s with chunks := rest } (withRest r tl))).bind fun (ts, s) => some (t :: ts, s)
      else some ([], s)
    | _ => some ([], s)

/-- `parse_list.rs:213-221` — the further terms, if nothing follows the first on its line -/
def extraTerms (m : Marker) (n : Nat) (s : St) (r : Option Text) (tl : List Ln) : Option (List Text × St) :=
  match r with
  | none => gatherTerms m n (s.restore tl)
  | some r => some ([], s.restore (.text r :: tl))

/-- `parse_block.rs:397-411` — the end of a delimited block. Lines that are read in search of the closing delimiter and
are not it are dropped. -/
def closeDelimited (s : St) (outer : Bool) : St :=
  let s := match s.chunks with
    | (.delim :: tl) :: rest => St.restore { s with chunks := rest } tl
    | _ :: rest => { s with chunks := rest }.problem
    | [] => s.problem
  { s with inDelim := outer }

/-- the marker of the first line, if there is one and it starts a list item -/
def firstMarker : List Ln → Option Marker
  | l :: _ => l.marker
  | [] => none

mutual
/-- `parse_block.rs:6-195` — `parse_block`, with `parse_paragraph` (`422-456`). The result is `none` when the fuel is
used up. -/
def parseBlock : Nat → St → Option (Option Block × St)
  | 0, _ => none
  | n + 1, s =>
    match s.chunks with
    | [] => some (none, s)
    | lines :: rest =>
      let s1 := { s with chunks := rest }
      match lines.dropWhile Ln.isAttrs with
      | [] => parseBlock n s1.problem
      | .delim :: tl =>
        if s.inDelim then some (none, s1.restore (.delim :: tl))
        else parseDelimited n (s1.restore tl)
      | .item m t :: tl => parseList n s1 m (.item m t :: tl)
      | .term m t r :: tl => parseList n s1 m (.term m t r :: tl)
      | lines =>
        let content := lines.takeWhile fun l => !s.stopsAt l
        let s2 := s1.restore (lines.dropWhile fun l => !s.stopsAt l)
        some (if content.isEmpty then none else some (.para content), s2)

/-- `parse_block.rs:287-420` — `parse_delimited_block`, for a compound block -/
def parseDelimited : Nat → St → Option (Option Block × St)
  | 0, _ => none
  | n + 1, s =>
    (parseBlocks n { s with inDelim := true }).bind fun (blocks, s2) =>
      some (some (.exampleBlock blocks), closeDelimited s2 s.inDelim)

/-- `parse_block.rs:389-393` and `parser.rs:294-297` — blocks until there are no more -/
def parseBlocks : Nat → St → Option (List Block × St)
  | 0, _ => none
  | n + 1, s =>
    (parseBlock n s).bind fun
      | (none, s2) => some ([], s2)
      | (some b, s2) => (parseBlocks n s2).bind fun (bs, s3) => some (b :: bs, s3)

/-- `parse_list.rs:5-50` — `parse_list`; callouts and bibliographies are left out -/
def parseList : Nat → St → Marker → List Ln → Option (Option Block × St)
  | 0, _, _, _ => none
  | n + 1, s, m, lines =>
    let s1 := s.restore lines
    let s2 := { s1 with stack := m :: s1.stack }
    (parseItems n s2).bind fun (items, s3) =>
      some (some (.list (s2.stack.length % 256) items), { s3 with stack := s3.stack.tail })

/-- `parse_list.rs:32-35` -/
def parseItems : Nat → St → Option (List Item × St)
  | 0, _ => none
  | n + 1, s =>
    (parseItem n s).bind fun
      | (none, s2) => some ([], s2)
      | (some i, s2) => (parseItems n s2).bind fun (is, s3) => some (i :: is, s3)

/-- `parse_list.rs:52-127` — `parse_list_item`, and `205-233` — `parse_description_list_item` -/
def parseItem : Nat → St → Option (Option Item × St)
  | 0, _ => none
  | n + 1, s =>
    match s.chunks with
    | (.item m t :: tl) :: rest =>
      if continuesCurrent s.stack m then
        (itemBlocks n { s with chunks := rest } (tl.dropWhile Ln.continuesPrinciple)).bind fun (blocks, s2) =>
          some (some (.mk m t (tl.takeWhile Ln.continuesPrinciple) [] none blocks), s2)
      else some (none, s)
    | (.term m t r :: tl) :: rest =>
      if continuesCurrent s.stack m then
        (extraTerms m n { s with chunks := rest } r tl).bind fun (extra, s2) =>
          (parseBlock n s2).bind fun (desc, s3) =>
            (descBlocks n s3).bind fun (blocks, s4) => some (some (.mk m t [] extra desc blocks), s4)
      else some (none, s)
    | _ => some (none, s)

/-- `parse_list.rs:129-166` — `parse_list_item_blocks` -/
def itemBlocks : Nat → St → List Ln → Option (List Block × St)
  | 0, _, _ => none
  | n + 1, s, lines =>
    if linesStartNested s.stack true lines then
      (parseBlock n (s.restore lines)).bind fun (b, s2) => some (b.toList, s2)
    else if startsContinuation lines then contBlocks n (s.restore lines)
    else if !lines.isEmpty then some ([], s.restore lines)
    else nestedList n s

/-- `parse_list.rs:154-165` and `172-180` — a nested list, if the next lines start one -/
def nestedList : Nat → St → Option (List Block × St)
  | 0, _ => none
  | n + 1, s =>
    match s.chunks with
    | [] => some ([], s)
    | next :: rest =>
      match firstMarker next with
      | none => some ([], s)
      | some m =>
        if linesStartNested s.stack false next then
          (parseList n { s with chunks := rest } m next).bind fun (b, s2) => some (b.toList, s2)
        else some ([], s)

/-- `parse_list.rs:168-203` — `parse_list_continuation_blocks` -/
def contBlocks : Nat → St → Option (List Block × St)
  | 0, _ => none
  | n + 1, s =>
    match s.chunks with
    | (.plus :: l :: tl) :: rest =>
      let s1 := St.restore { s with chunks := rest } (l :: tl)
      if l.marker.any (continuesCurrent s.stack) then some ([], s1.problem)
      else
        (parseBlock n { s1 with conts := true }).bind fun (b, s2) =>
          (contBlocks n { s2 with conts := false }).bind fun (bs, s3) => some (b.toList ++ bs, s3)
    | _ => nestedList n s

/-- `parse_list.rs:272-290` — `parse_description_list_item_blocks` -/
def descBlocks : Nat → St → Option (List Block × St)
  | 0, _ => none
  | n + 1, s =>
    match s.chunks with
    | [] => some ([], s)
    | lines :: _ =>
      if startsContinuation lines then contBlocks n s
      else if linesStartNested s.stack true lines then
        (parseBlock n s).bind fun (b, s2) => some (b.toList, s2)
      else some ([], s)
end

/-- `parser.rs:292-304` — the blocks of a document without sections -/
def parseDoc (n : Nat) (chunks : List (List Ln)) : Option (List Block × St) := parseBlocks n { chunks }

end Verif.Lists
