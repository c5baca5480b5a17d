/-!
Model of `parser/src/substitutions.rs` and `parser/src/tasks/customize_subs.rs`: the set of active
substitutions of a block, kept twice, as an ordered array of seven slots and as bit flags.
-/
namespace Verif

/-- `parser/src/substitutions.rs:4-12` -/
inductive Sub where
  | specialChars | inlineFormatting | attrRefs | charReplacement | macros | postReplacement | callouts
deriving DecidableEq, Repr

/-- `substitutions.rs:198-218` — `bitflag_pos` and the bit constants. -/
def Sub.bit : Sub → UInt8
  | .specialChars => 0b00000001
  | .inlineFormatting => 0b00000010
  | .attrRefs => 0b00000100
  | .charReplacement => 0b00001000
  | .macros => 0b00010000
  | .postReplacement => 0b00100000
  | .callouts => 0b01000000

/-- `substitutions.rs:15-18`; `order` is the array `[Option<Subs>; 7]` (its length 7 is an invariant
proved in `Lemmas/Subs.lean`). -/
structure Substitutions where
  order : List (Option Sub)
  flags : UInt8
deriving DecidableEq, Repr

namespace Substitutions

/-- `substitutions.rs:27-29` -/
def contains (s : Substitutions) (x : Sub) : Bool := (s.flags &&& x.bit) != 0

/-- `substitutions.rs:31-45` -/
def normal : Substitutions :=
  ⟨[some .specialChars, some .inlineFormatting, some .attrRefs, some .charReplacement,
    some .macros, some .postReplacement, none], 0b00111111⟩
/-- `substitutions.rs:47-60` -/
def attrValue : Substitutions :=
  ⟨[some .specialChars, some .inlineFormatting, some .attrRefs, some .charReplacement,
    none, none, none], 0b00001111⟩
/-- `substitutions.rs:62-75` -/
def verbatim : Substitutions :=
  ⟨[some .specialChars, some .callouts, none, none, none, none, none], 0b01000001⟩
/-- `substitutions.rs:77-82` -/
def onlySpecialChars : Substitutions :=
  ⟨[some .specialChars, none, none, none, none, none, none], 0b00000001⟩
/-- `substitutions.rs:84-97` -/
def all : Substitutions :=
  ⟨[some .specialChars, some .inlineFormatting, some .attrRefs, some .charReplacement,
    some .macros, some .postReplacement, some .callouts], 0b01111111⟩
/-- `substitutions.rs:99-101` -/
def none : Substitutions := ⟨List.replicate 7 Option.none, 0⟩

/-- The loop of `insert` (`substitutions.rs:136-141`): put `x` in the first free slot among the next
`n` slots, if there is one. -/
def fillFirst (x : Sub) : Nat → List (Option Sub) → List (Option Sub)
  | 0, l => l
  | _, [] => []
  | _ + 1, Option.none :: l => some x :: l
  | n + 1, some y :: l => some y :: fillFirst x n l

/-- `substitutions.rs:131-143` — `insert`, in a release build (the final `debug_assert!(false)`, line
142, is reached exactly when none of the slots 0..6 is free, see `insertAsserts`). The loop bound is
the literal `0..6` of line 136. -/
def insert (s : Substitutions) (x : Sub) : Substitutions :=
  if s.contains x then s
  else ⟨fillFirst x 6 s.order, s.flags ||| x.bit⟩

/-- `substitutions.rs:136-142` — whether `insert` runs into `debug_assert!(false)`. -/
def insertAsserts (s : Substitutions) (x : Sub) : Bool :=
  !s.contains x && (s.order.take 6).all Option.isSome

/-- `substitutions.rs:145-160` — `remove`: keep the other slots in order, pad with empty slots. -/
def remove (s : Substitutions) (x : Sub) : Substitutions :=
  if !s.contains x then s
  else
    let kept := s.order.filter (· != some x)
    ⟨kept ++ List.replicate (7 - kept.length) Option.none, s.flags &&& ~~~x.bit⟩

/-- `substitutions.rs:162-177` — `prepend`. Result `none` models writing past slot 6. -/
def prepend (s : Substitutions) (x : Sub) : Option Substitutions :=
  let next := x :: (s.order.filterMap id).filter (· != x)
  if next.length ≤ 7 then
    some ⟨next.map some ++ List.replicate (7 - next.length) Option.none, s.flags ||| x.bit⟩
  else Option.none

/-- `substitutions.rs:179-194` — `append`. Result `none` models writing past slot 6. -/
def append (s : Substitutions) (x : Sub) : Option Substitutions :=
  let live := s.order.filterMap id
  let next := if live.getLast? ≠ some x then live ++ [x] else live
  if next.length ≤ 7 then
    some ⟨next.map some ++ List.replicate (7 - next.length) Option.none, s.flags ||| x.bit⟩
  else Option.none

end Substitutions

/-- `customize_subs.rs:103-108` -/
inductive SubStrategy where
  | replace | append | prepend | remove
deriving DecidableEq, Repr

/-- `customize_subs.rs:111-122` -/
inductive StepOrGroup where
  | none | normal | verbatim | specialChars | callouts | quotes | attributes | replacements | macros
  | postReplacements
deriving DecidableEq, Repr

/-- `customize_subs.rs:124-140` — names of steps and groups. -/
def StepOrGroup.ofString (s : String) : Option StepOrGroup :=
  if s = "none" then some .none
  else if s = "normal" then some .normal
  else if s = "verbatim" then some .verbatim
  else if s = "specialchars" then some .specialChars
  else if s = "callouts" then some .callouts
  else if s = "quotes" then some .quotes
  else if s = "attributes" then some .attributes
  else if s = "replacements" then some .replacements
  else if s = "macros" then some .macros
  else if s = "post_replacements" then some .postReplacements
  else Option.none

/-- `customize_subs.rs:31-52, 61-95` — the substitutions each step or group touches, in the order the
code touches them (the `Replace` and the modify tables are identical). -/
def StepOrGroup.subs : StepOrGroup → List Sub
  | .none => []
  | .normal => [.specialChars, .inlineFormatting, .attrRefs, .charReplacement, .macros, .postReplacement]
  | .verbatim => [.specialChars, .charReplacement]
  | .specialChars => [.specialChars]
  | .callouts => [.callouts]
  | .quotes => [.inlineFormatting]
  | .attributes => [.attrRefs]
  | .replacements => [.charReplacement]
  | .macros => [.macros]
  | .postReplacements => [.postReplacement]

/-- `customize_subs.rs:17-23` — strategy and name of one comma separated part. Parts shorter than 4
bytes are ignored (lines 11-15). Simplification: characters instead of bytes (a part with a non-ASCII
character never names a step, so both ignore it). -/
def parsePart (part : List Char) : Option (SubStrategy × StepOrGroup) :=
  if part.length < 4 then Option.none
  else
    let (st, name) :=
      if part.head? = some '+' then (SubStrategy.append, part.tail)
      else if part.getLast? = some '+' then (SubStrategy.prepend, part.dropLast)
      else if part.head? = some '-' then (SubStrategy.remove, part.tail)
      else (SubStrategy.replace, part)
    (StepOrGroup.ofString (String.ofList name)).map (st, ·)

/-- `customize_subs.rs:55-60` — the modifying method for a strategy (`Append` uses `insert`). -/
def SubStrategy.apply1 (st : SubStrategy) (s : Substitutions) (x : Sub) : Option Substitutions :=
  match st with
  | .replace => some (s.insert x)
  | .append => some (s.insert x)
  | .prepend => s.prepend x
  | .remove => some (s.remove x)

/-- `customize_subs.rs:30-97` — one part applied to the running value. -/
def applyPart (s : Substitutions) (p : SubStrategy × StepOrGroup) : Option Substitutions :=
  p.2.subs.foldlM (fun s x => p.1.apply1 s x) s

/-- `customize_subs.rs:4-100` — `from_meta` on the parts of the `subs` attribute; `incremental` is
`subs.contains(['-', '+'])` (line 9). -/
def customize (current : Substitutions) (incremental : Bool) (parts : List (List Char)) :
    Option Substitutions :=
  (parts.filterMap parsePart).foldlM applyPart (if incremental then current else Substitutions.none)

end Verif
