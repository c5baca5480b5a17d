/-! Model of `parser/src/tasks/section_id.rs`. The Unicode tables behind `char::is_alphanumeric`,
`char::to_lowercase` and the regex class `\d` are parameters, so every theorem holds for all tables. -/
namespace Verif.SectionId

/-- the Unicode tables used -/
structure Unicode where
  alnum : Char → Bool
  lower : Char → List Char
  digit : Char → Bool

/-- `char::is_ascii_alphanumeric` -/
def asciiAlnum (c : Char) : Bool :=
  ('a' ≤ c && c ≤ 'z') || ('A' ≤ c && c ≤ 'Z') || ('0' ≤ c && c ≤ '9')

/-- `char::make_ascii_lowercase` -/
def asciiLower (c : Char) : Char := if 'A' ≤ c && c ≤ 'Z' then Char.ofNat (c.toNat + 32) else c

/-- `[A-Za-z]` -/
def asciiLetter (c : Char) : Bool := ('a' ≤ c && c ≤ 'z') || ('A' ≤ c && c ≤ 'Z')

/-- `[\dA-Fa-f]` -/
def hexDigit (U : Unicode) (c : Char) : Bool := U.digit c || ('A' ≤ c && c ≤ 'F') || ('a' ≤ c && c ≤ 'f')

/-- a run of characters of a class, `lo` to `hi` of them, followed by `;`: what is left -/
def classThenSemi (p : Char → Bool) (lo hi : Nat) (s : List Char) : Option (List Char) :=
  let run := s.takeWhile p
  if lo ≤ run.length ∧ run.length ≤ hi then
    match s.dropWhile p with
    | ';' :: rest => some rest
    | _ => none
  else none

/-- `section_id.rs:135-140` — `ENTITY_RE` after the `&`: what is left after a match -/
def matchEntity (U : Unicode) (s : List Char) : Option (List Char) :=
  match s with
  | '#' :: 'x' :: rest => classThenSemi (hexDigit U) 2 5 rest
  | '#' :: rest => classThenSemi U.digit 2 6 rest
  | _ =>
    if 2 ≤ (s.takeWhile asciiLetter).length then classThenSemi U.digit 0 2 (s.dropWhile asciiLetter) else none

theorem classThenSemi_length {p : Char → Bool} {lo hi : Nat} {s r : List Char} (h : classThenSemi p lo hi s = some r) :
    r.length < s.length := by
  unfold classThenSemi at h
  simp only at h
  split at h
  · have hl := congrArg List.length (List.takeWhile_append_dropWhile (p := p) (l := s))
    simp only [List.length_append] at hl
    split at h
    · rename_i rest hd
      cases h
      rw [hd] at hl
      simp only [List.length_cons] at hl
      omega
    · cases h
  · cases h

theorem matchEntity_length {U : Unicode} {s r : List Char} (h : matchEntity U s = some r) : r.length < s.length := by
  unfold matchEntity at h
  split at h
  · have := classThenSemi_length h; simp only [List.length_cons]; omega
  · have := classThenSemi_length h; simp only [List.length_cons]; omega
  · split at h
    · have h1 := classThenSemi_length h
      have hl := congrArg List.length (List.takeWhile_append_dropWhile (p := asciiLetter) (l := s))
      simp only [List.length_append] at hl
      omega
    · cases h

/-- `section_id.rs:82` — `ENTITY_RE.replace_all(line, "")` -/
def removeEntities (U : Unicode) : List Char → List Char
  | [] => []
  | c :: cs =>
    if c = '&' then
      match _h : matchEntity U cs with
      | some rest => removeEntities U rest
      | none => c :: removeEntities U cs
    else c :: removeEntities U cs
termination_by s => s.length
decreasing_by
  · have := matchEntity_length _h; simp only [List.length_cons]; omega
  · simp
  · simp

/-- after `[[`: what is left after the first `]]` on the line -/
def findClose : List Char → Option (List Char)
  | [] => none
  | c :: cs => if c = ']' ∧ cs.head? = some ']' then some cs.tail else if c = '\n' then none else findClose cs

theorem findClose_length {s r : List Char} (h : findClose s = some r) : r.length < s.length := by
  induction s with
  | nil => cases h
  | cons c cs ih =>
    unfold findClose at h
    split at h
    · cases h; simp; omega
    · split at h
      · cases h
      · have := ih h; simp; omega

/-- `section_id.rs:78` — `AUX_ID_RE.replace_all(line, "$1")`; the pattern has no group, so a match is removed -/
def removeAux : List Char → List Char
  | [] => []
  | c :: cs =>
    if c = '[' ∧ cs.head? = some '[' then
      match _h : findClose cs.tail with
      | some rest => removeAux rest
      | none => c :: removeAux cs
    else c :: removeAux cs
termination_by s => s.length
decreasing_by
  · have := findClose_length _h; simp at this; simp only [List.length_cons]; omega
  · simp
  · simp

/-- the result of one pass over the line -/
inductive Scan where
  | done (id : List Char) (last : Char)
  | aux
  | entity

/-- `section_id.rs:60-98` — the loop. `skip` stands for the `chars.next()` that drops the second `<` of `<<`. -/
def scan (U : Unicode) (sep : Option Char) (removedEntities removedAux : Bool) :
    List Char → List Char → Char → Bool → Bool → Scan
  | [], id, last, _, _ => .done id last
  | c :: cs, id, last, inTag, skip =>
    let go := scan U sep removedEntities removedAux cs
    if skip then go id last inTag false
    else if c = '<' then
      if cs.head? = some '<' then go id last inTag true else go id last true false
    else if c = '>' then go id last false false
    else if c = ' ' ∨ c = '-' ∨ c = '.' ∨ c = ',' ∨ c = '\t' then
      match sep with
      | some s => if s ≠ last then go (id ++ [s]) s inTag false else go id last inTag false
      | none => go id last inTag false
    else if c = '[' ∧ cs.head? = some '[' ∧ removedAux = false then .aux
    else if c = '&' ∧ removedEntities = false then .entity
    else if inTag then go id last inTag false
    else if asciiAlnum c then go (id ++ [asciiLower c]) (asciiLower c) inTag false
    else if U.alnum c then go (id ++ U.lower c) ((U.lower c).getLast?.getD last) inTag false
    else go id last inTag false

/-- `section_id.rs:46-98` — `_autogen_sect_id` up to the end of the loop, with its recursive calls -/
def collect (U : Unicode) (pre : List Char) (sep : Option Char) (removedEntities removedAux : Bool) (line : List Char) :
    List Char × Char :=
  match scan U sep removedEntities removedAux line pre (pre.getLast?.getD '\x00') false false with
  | .done id last => (id, last)
  | .aux => if removedAux then (pre, ' ') else collect U pre sep removedEntities true (removeAux line)
  | .entity => if removedEntities then (pre, ' ') else collect U pre sep true removedAux (removeEntities U line)
termination_by (if removedEntities then 0 else 1) + (if removedAux then 0 else 1)
decreasing_by all_goals simp_all

/-- an outcome: an id, a panic, or (for the loop of `sequence_sectid`) more rounds than allowed for -/
inductive AutoId where
  | ok (id : List Char)
  | panic
  | diverged
deriving DecidableEq, Repr

/-- `i.to_string()` -/
def decimal (n : Nat) : List Char := Nat.toDigits 10 n

/-- `section_id.rs:121-124` — the `i`-th candidate -/
def candidate (base : List Char) (sep : Option Char) (i : Nat) : List Char := base ++ sep.toList ++ decimal i

/-- `section_id.rs:116-131` — the loop of `sequence_sectid`, for a number of rounds. (`i` is an `i32` in the code:
more than two thousand million ids are not modelled.) -/
def sequence (ids : List (List Char)) (base : List Char) (sep : Option Char) : Nat → Nat → AutoId
  | 0, _ => .diverged
  | n + 1, i => if candidate base sep i ∈ ids then sequence ids base sep n (i + 1) else .ok (candidate base sep i)

/-- `section_id.rs:100-113` — the end of `_autogen_sect_id` -/
def finish (ids : List (List Char)) (pre : List Char) (sep : Option Char) (id : List Char) (last : Char) : AutoId :=
  let id := if some last = sep then id.dropLast else id
  if sep.isSome ∧ id = [] then sequence ids id sep (ids.length + 1) 2
  else
    -- `id[1..]` is a byte index
    let stripped : Option (List Char) := match sep with
      | some s => if pre = [] ∧ id.head? = some s then (if s.utf8Size = 1 then some id.tail else none) else some id
      | none => some id
    match stripped with
    | none => .panic
    | some id => if id ∈ ids then sequence ids id sep (ids.length + 1) 2 else .ok id

/-- `section_id.rs:36-44` — `autogen_sect_id` -/
def autogen (U : Unicode) (ids : List (List Char)) (line pre : List Char) (sep : Option Char) : AutoId :=
  let r := collect U pre sep false false line
  finish ids pre sep r.1 r.2

/-- the attributes that configure ids (`section_id.rs:12-28`) -/
structure Cfg where
  enabled : Bool
  pre : List Char
  sep : Option Char

/-- `section_id.rs:7-33` — `section_id`: `custom` is the id written in the attributes of the section. Returns the id
and the ids known afterwards; `none` for a panic or an endless loop. -/
def sectionId (U : Unicode) (cfg : Cfg) (ids : List (List Char)) (custom : Option (List Char)) (title : List Char) :
    Option (Option (List Char) × List (List Char)) :=
  if !cfg.enabled then some (none, ids)
  else match custom with
    | some id => some (some id, id :: ids)
    | none =>
      match autogen U ids title cfg.pre cfg.sep with
      | .ok id => some (some id, id :: ids)
      | _ => none

end Verif.SectionId
