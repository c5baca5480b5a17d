/-!
Model of heading levels and level offsets: `parser/src/tasks/heading_level.rs`, the offset kept with each source
(`parser/src/lexer/root_lexer.rs`) and its assignments. Machine integers `i8` are `Int` with explicit overflow
(`none`: a panic in a build with overflow checks).
-/
namespace Verif.LevelOffset

/-- fits `i8` -/
def inI8 (n : Int) : Bool := -128 ≤ n && n ≤ 127

/-- digits of `str::parse::<i8>`: at least one, all ASCII digits -/
def parseDigits (l : List Char) : Option Nat :=
  if l = [] ∨ l.any (fun c => !c.isDigit) then none else some (l.foldl (fun n c => n * 10 + (c.toNat - 48)) 0)

/-- `str::parse::<i8>` -/
def parseI8 (l : List Char) : Option Int :=
  let r : Option Int := match l with
    | [] => none
    | c :: cs =>
      if c = '+' then (parseDigits cs).map fun n => (n : Int)
      else if c = '-' then (parseDigits cs).map fun n => -(n : Int)
      else (parseDigits (c :: cs)).map fun n => (n : Int)
  r.filter inI8

/-- `AttrValue` -/
inductive AttrValue where
  | str (s : List Char)
  | bool (b : Bool)
deriving DecidableEq, Repr

/-- checked `i8` result -/
def checked (n : Int) : Option Int := if inI8 n then some n else none

/-- `heading_level.rs:36-50` — `adjust_leveloffset` -/
def adjust (offset : Int) : AttrValue → Option Int
  | .str s =>
    match s with
    | [] => some offset
    | c :: cs =>
      if c = '+' then checked (offset + (parseI8 cs).getD 0)
      else if c = '-' then checked (offset - (parseI8 cs).getD 0)
      else some ((parseI8 (c :: cs)).getD offset)
  | .bool false => some 0
  | .bool true => some offset

/-- `heading_level.rs:53-59` — `adjusted_leveloffset`; the `u8` result as a natural number. Simplification: the
written level is at most 127, so that `heading_level as i8` does not wrap (a heading has at most 6 equal signs). -/
def adjusted (offset : Int) (level : Nat) : Option Nat :=
  if offset = 0 then some level
  else (checked (level + offset)).map fun n => if n < 0 then 0 else n.toNat

/-- The parts of the parser that decide a level: `ctx.leveloffset` and the offset of each source, in the order they
were pushed (`root_lexer.rs:84-107`, `source_lexer.rs:13`). -/
structure State where
  ctx : Int
  sources : List Int
deriving DecidableEq, Repr

/-- `heading_level.rs:4-12` — `line_heading_level`: level of a heading written with level `unadjusted` in source
`src`; `none` on overflow or an unknown source -/
def headingLevel (st : State) (src : Nat) (unadjusted : Nat) : Option Nat := do
  let a ← adjusted st.ctx unadjusted
  let o ← st.sources[src]?
  adjusted o a

/-- `process_includes.rs:92-107`: entering an include with an optional `leveloffset` attribute -/
def pushInclude (st : State) (attr : Option (List Char)) : Option State := do
  let o ← match attr with
    | some s => adjust 0 (.str s)
    | none => some 0
  pure { st with sources := st.sources ++ [o] }

/-- `parse_doc_attrs.rs:169-171`: an attribute entry `:leveloffset: v` -/
def assign (st : State) (v : AttrValue) : Option State := do
  let c ← adjust st.ctx v
  pure { st with ctx := c }

end Verif.LevelOffset
