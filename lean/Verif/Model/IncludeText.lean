/-!
Model of how the text of an included file is cut down:
`parser/src/tasks/directives/includes/normalize_includes.rs`, `tags.rs` and `_set_indentation` of
`process_includes.rs`. Bytes are `UInt8`; attribute values are character lists.
-/
namespace Verif.IncludeText

abbrev Bytes := List UInt8

/-- `bytes.split(|&b| b == b'\n')`: always at least one piece -/
def splitNl : Bytes → List Bytes
  | [] => [[]]
  | b :: bs =>
    if b = 10 then [] :: splitNl bs
    else
      match splitNl bs with
      | [] => [[b]]
      | l :: ls => (b :: l) :: ls

/-- `asciidorkinclude::[false]`, the mark for a line left out -/
def placeholder : Bytes := "asciidorkinclude::[false]".toList.map fun c => UInt8.ofNat c.toNat

/-! ### lines= -/

/-- white space of `str::trim`, ASCII part -/
def isWs (c : Char) : Bool := c = ' ' || c = '\t' || c = '\n' || c = '\r' || c = '\x0b' || c = '\x0c'

/-- `str::trim` -/
def trim (l : List Char) : List Char := ((l.dropWhile isWs).reverse.dropWhile isWs).reverse

/-- `str::split([',', ';'])` -/
def splitParts : List Char → List (List Char)
  | [] => [[]]
  | c :: cs =>
    if c = ',' ∨ c = ';' then [] :: splitParts cs
    else
      match splitParts cs with
      | [] => [[c]]
      | w :: ws => (c :: w) :: ws

/-- `str::split_once("..")` -/
def splitDots : List Char → Option (List Char × List Char)
  | '.' :: '.' :: cs => some ([], cs)
  | c :: cs => (splitDots cs).map fun (a, b) => (c :: a, b)
  | [] => none

/-- `usize::MAX` on a 64 bit machine -/
def usizeMax : Nat := 2 ^ 64 - 1

/-- drop an optional leading `+` -/
def stripPlus : List Char → List Char
  | [] => []
  | c :: cs => if c = '+' then cs else c :: cs

/-- `str::parse::<usize>`: an optional `+`, at least one digit, in range -/
def parseUsize (l : List Char) : Option Nat :=
  let ds := stripPlus l
  if ds = [] ∨ ds.any (fun c => !c.isDigit) then none
  else
    let n := ds.foldl (fun n c => n * 10 + (c.toNat - 48)) 0
    if n ≤ usizeMax then some n else none

/-- one part of a `lines` value (`normalize_includes.rs:158-175`): a half open range, or nothing. Outer `none`:
overflow of `high_n + 1` or `n + 1`. -/
def parseRange (part : List Char) : Option (Option (Nat × Nat)) :=
  let part := trim part
  match splitDots part with
  | some (low, high) =>
    match parseUsize low with
    | none => some none
    | some lowN =>
      if high = ['-', '1'] ∨ high = [] then some (some (lowN, usizeMax))
      else match parseUsize high with
        | some highN =>
          if lowN ≤ highN then (if highN + 1 ≤ usizeMax then some (some (lowN, highN + 1)) else none)
          else some none
        | none => some none
  | none =>
    match parseUsize part with
    | some n => if n + 1 ≤ usizeMax then some (some (n, n + 1)) else none
    | none => some none

/-- `normalize_includes.rs:155-177` — `parse_line_ranges` -/
def parseLineRanges (s : List Char) : Option (List (Nat × Nat)) :=
  ((splitParts s).mapM parseRange).map fun rs => rs.filterMap id

/-- `normalize_includes.rs:54-70` — `select_line_ranges` -/
def selectLineRanges (lines : List Char) (bytes : Bytes) : Option Bytes := do
  let ranges ← parseLineRanges lines
  if ranges = [] then return bytes
  return (splitNl bytes).zipIdx.flatMap fun (line, i) =>
    if ranges.any fun (a, b) => a ≤ i + 1 && i + 1 < b then line ++ [10] else placeholder ++ [10]

/-! ### tag= and tags= -/

abbrev Tag := List Char

/-- `tags.rs:8-20` -/
inductive Spec where
  | allNonTagDirectiveLines | noLines | allTaggedRegions | allUntaggedRegions
  | tag (t : Tag) | allLinesExcl (t : Tag) | tagExclAllNested (t : Tag) | tagExclNested (incl excl : Tag)
  | allTaggedExcl (t : Tag) | allUntaggedIncl (t : Tag)
deriving DecidableEq, Repr

/-- `tags.rs:28-44` — `satisfied_by`; the stack is kept top first -/
def Spec.satisfiedBy (stack : List Tag) : Spec → Bool
  | .allNonTagDirectiveLines => true
  | .noLines => false
  | .allTaggedRegions => !stack.isEmpty
  | .allUntaggedRegions => stack.isEmpty
  | .tag t => stack.contains t
  | .allLinesExcl t => !stack.contains t
  | .tagExclAllNested t => stack.head? == some t
  | .tagExclNested i e => stack.contains i && !stack.contains e
  | .allTaggedExcl t => !stack.isEmpty && !stack.contains t
  | .allUntaggedIncl t => stack.isEmpty || stack.head? == some t

/-- `tags.rs:50-58` — whether the strategy is `All` -/
def strategyAll (specs : List Spec) : Bool :=
  specs.head? == some .allNonTagDirectiveLines ||
    specs.all fun s => match s with | .allLinesExcl _ => true | _ => false

/-- `tags.rs:60-72` — `expected_tags` -/
def expectedTags (specs : List Spec) : List Tag :=
  specs.filterMap fun s => match s with
    | .tag t | .tagExclAllNested t | .tagExclNested t _ | .allUntaggedIncl t => some t
    | _ => none

/-- `tags.rs:74-119` — `TagSpecs::push`; the vector is kept last element first -/
def pushSpec (specs : List Spec) (spec : Spec) : List Spec :=
  match specs, spec with
  | .tag prev :: rest, .allLinesExcl t => .tagExclNested prev t :: rest
  | .tag prev :: rest, .allUntaggedRegions => .tagExclAllNested prev :: rest
  | .allTaggedRegions :: rest, .allLinesExcl t =>
    if rest.contains .allNonTagDirectiveLines then .allLinesExcl t :: rest else .allTaggedExcl t :: rest
  | .allUntaggedRegions :: rest, .tag t =>
    if rest.head? = some .noLines then .tagExclAllNested t :: rest else .allUntaggedIncl t :: rest
  | .allNonTagDirectiveLines :: rest, .tag _ => .allNonTagDirectiveLines :: rest
  | .noLines :: rest, .allLinesExcl t => .allTaggedExcl t :: rest
  | specs, spec =>
    match specs, spec with
    | .allUntaggedIncl prev :: rest, .allLinesExcl t =>
      if prev = t then .allUntaggedRegions :: rest else spec :: specs
    | _, .allNonTagDirectiveLines => [.allNonTagDirectiveLines]
    | _, _ => spec :: specs

/-- `strip_prefix('!')` (`tags.rs:142-145`) -/
def stripBang : List Char → List Char × Bool
  | [] => ([], false)
  | c :: cs => if c = '!' then (cs, true) else (c :: cs, false)

/-- `tags.rs:126-155` — `parse_spec` -/
def parseSpec (s : List Char) : Option Spec :=
  let part := trim s
  if part = ['*', '*'] then some .allNonTagDirectiveLines
  else if part = ['!', '*', '*'] then some .noLines
  else if part = ['*'] then some .allTaggedRegions
  else if part = ['!', '*'] then some .allUntaggedRegions
  else if part = [] then none
  else
    let (tag, negated) := stripBang part
    if tag ≠ [] ∧ tag.all (fun c => !isWs c) then
      some (if negated then .allLinesExcl tag else .tag tag)
    else none

/-- `tags.rs:157-166` — `parse_selection`, in the order of the vector -/
def parseSelection (s : List Char) : List Spec :=
  (((splitParts (trim s)).filterMap parseSpec).foldl pushSpec []).reverse

/-- a tag directive in a line (`tags.rs:326-344`) -/
inductive TagDir where
  | start (t : Tag)
  | stop (t : Tag)
deriving DecidableEq, Repr

inductive TagErr where
  | unexpectedEnd (t : Tag) (line : Nat)
  | mismatchedEnd (expected found : Tag) (line : Nat)
  | notClosed (t : Tag) (line : Nat)
  | notFound (ts : List Tag)
deriving DecidableEq, Repr

/-- whether a line is selected under the tags open around it (`tags.rs:222-227`) -/
def selected (specs : List Spec) (stack : List Tag) : Bool :=
  if strategyAll specs then specs.all (Spec.satisfiedBy stack) else specs.any (Spec.satisfiedBy stack)

/-- One round of the loop `tags.rs:193-240`: what the line becomes (`none`: nothing; the flag says that it is a
selected line, not a mark), the new stack and errors. `dir` is the tag directive found in the line. -/
def tagLine (specs : List Spec) (stack : List (Tag × Nat)) (idx : Nat) (line : Bytes) (dir : Option TagDir) :
    Option (Bool × Bytes) × List (Tag × Nat) × List TagErr :=
  match dir with
  | some (.start t) => (some (false, placeholder), (t, idx) :: stack, [])
  | some (.stop t) =>
    match stack with
    | (top, i) :: rest =>
      if top = t then (some (false, placeholder), rest, [])
      else (some (false, placeholder), (top, i) :: rest,
        if (expectedTags specs).contains t then [.mismatchedEnd top t (idx + 1)] else [])
    | [] => (some (false, placeholder), [],
        if (expectedTags specs).contains t then [.unexpectedEnd t (idx + 1)] else [])
  | none => (if selected specs (stack.map Prod.fst) then some (true, line) else none, stack, [])

/-- the loop over the lines -/
def tagLines (recognise : Bytes → Option TagDir) (specs : List Spec) :
    List (Tag × Nat) → Nat → List Bytes → List (Bool × Bytes) × List (Tag × Nat) × List TagErr
  | stack, _, [] => ([], stack, [])
  | stack, idx, l :: ls =>
    let (out, stack, errs) := tagLine specs stack idx l (recognise l)
    let (outs, stack, errs') := tagLines recognise specs stack (idx + 1) ls
    (out.toList ++ outs, stack, errs ++ errs')

/-- `tags.rs:182-275` — `_select_tagged_lines`: the new bytes and the diagnostics (non-strict mode). `recognise` is
`tag_directive`, a regular expression, left open. -/
def selectTaggedLines (recognise : Bytes → Option TagDir) (specs : List Spec) (src : Bytes) :
    Bytes × List TagErr :=
  let lines := splitNl src
  let (outs, stack, errs) := tagLines recognise specs [] 0 lines
  let errs := errs ++ (match stack with
    | (t, i) :: _ => if (expectedTags specs).contains t then [.notClosed t (i + 1)] else []
    | [] => [])
  let missing := (expectedTags specs).filter fun t => !lines.any fun l => recognise l == some (.start t)
  let errs := errs ++ (if missing = [] then [] else [.notFound missing])
  let pushedNonEmpty := outs.any fun (real, l) => real && l ≠ []
  (if pushedNonEmpty then outs.flatMap (fun (_, l) => l ++ [10]) else [], errs)

/-! ### indent= -/

/-- number of leading spaces -/
def indentOf (line : Bytes) : Nat := (line.takeWhile (· == 32)).length

/-- the least indentation so far (`process_includes.rs:246-256`) -/
def minStep (acc : Option Nat) (line : Bytes) : Option Nat :=
  if line = placeholder then acc
  else match acc with
    | some cur => some (Nat.min cur (indentOf line))
    | none => some (indentOf line)

/-- `process_includes.rs:240-276` — `_set_indentation` -/
def setIndentation (indent : Nat) (buf : Bytes) : Bytes :=
  let trimmed := if buf.getLast? = some 10 then buf.dropLast else buf
  let min := (splitNl trimmed).foldl minStep none
  match min with
  | none => buf
  | some min =>
    if indent ≠ min then
      ((splitNl buf).flatMap fun line =>
        if indentOf line ≥ min then
          List.replicate (indentOf line - min + indent) 32 ++ line.drop (indentOf line) ++ [10]
        else []).dropLast
    else buf

/-! ### normalisation -/

/-- `normalize_includes.rs:141-147` — `trim_trailing_whitespace`, on the reversed buffer -/
def trimTrailingRev (rev : Bytes) : Bytes := rev.dropWhile fun b => b == 32 || b == 9

/-- the loop of `normalize_includes.rs:34-52` — `normalize_asciidoc`; `dest` is reversed -/
def normalizeLoop : Bytes → Bytes → Bytes
  | dest, [] => dest
  | dest, b :: bs =>
    if b = 10 then normalizeLoop (10 :: trimTrailingRev dest) bs
    else if b = 13 ∧ bs.head? = some 10 then normalizeLoop dest bs
    else normalizeLoop (b :: dest) bs

/-- `normalize_includes.rs:34-52`, for a path with an AsciiDoc extension -/
def normalizeAsciidoc (bytes : Bytes) : Bytes := (normalizeLoop [] bytes).reverse

end Verif.IncludeText
