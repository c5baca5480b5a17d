import Verif.Model.Directives
/-!
Model of the expression part of `parser/src/tasks/directives/ifeval.rs:49-140`.

Simplifications: `replace_attr_vals` has been applied already; floats are an arbitrary type `F` with Rust's
`partial_cmp` and an arbitrary parser; `isize` is 64 bits wide.
-/
namespace Verif.Ifeval

/-- `ifeval.rs:111-119` -/
inductive Value (F : Type) where
  | int (i : Int)
  | float (f : F)
  | str (s : List Char)
  | bool (b : Bool)
  | nil
deriving DecidableEq, Repr

/-- `ifeval.rs:121-129` -/
inductive Op where
  | eq | ne | lt | le | gt | ge
deriving DecidableEq, Repr

/-- `ifeval.rs:131-143` -/
def Op.fromStr : List Char → Option Op
  | ['=', '='] => some .eq
  | ['!', '='] => some .ne
  | ['<'] => some .lt
  | ['<', '='] => some .le
  | ['>'] => some .gt
  | ['>', '='] => some .ge
  | _ => none

/-- `str::parse::<isize>` on a 64 bit machine: an optional sign, at least one digit, in range -/
def parseInt (l : List Char) : Option Int :=
  let digits (ds : List Char) : Option Nat :=
    if ds = [] ∨ ds.any (fun c => !c.isDigit) then none
    else some (ds.foldl (fun n c => n * 10 + (c.toNat - 48)) 0)
  match l with
  | '+' :: ds => (digits ds).bind fun n => if n < 2 ^ 63 then some n else none
  | '-' :: ds => (digits ds).bind fun n => if n ≤ 2 ^ 63 then some (-n) else none
  | ds => (digits ds).bind fun n => if n < 2 ^ 63 then some n else none

/-- ASCII white space (`char::is_ascii_whitespace`) -/
def isAsciiWs (c : Char) : Bool := c = ' ' || c = '\t' || c = '\n' || c = '\r' || c = '\x0c'

/-- `ifeval.rs:49-74` — `coerce_eval_expr`; `none` is the panic of slicing `[1..0]` -/
def coerce {F : Type} (parseFloat : List Char → Option F) (expr : List Char) : Option (Value F) :=
  if expr = "true".toList then some (.bool true)
  else if expr = "false".toList then some (.bool false)
  else if expr = [] then some .nil
  else match parseInt expr with
    | some i => some (.int i)
    | none =>
      match parseFloat expr with
      | some f => some (.float f)
      | none =>
        if (expr.head? = some '\'' ∧ expr.getLast? = some '\'') ∨ (expr.head? = some '"' ∧ expr.getLast? = some '"')
        then if expr.length < 2 then none else some (.str (expr.drop 1).dropLast)
        else if expr.all isAsciiWs then some (.str [' '])
        else some (.int 0)

/-- `ifeval.rs:77-108` — `eval`; `pcmp` is `f32::partial_cmp`, which the comparison operators follow -/
def eval {F : Type} (pcmp : F → F → Option Ordering) : Value F → Op → Value F → Bool
  | .str a, .eq, .str b => a == b
  | .str a, .ne, .str b => a != b
  | .str a, .lt, .str b => decide (a < b)
  | .str a, .le, .str b => decide (a ≤ b)
  | .str a, .gt, .str b => decide (a > b)
  | .str a, .ge, .str b => decide (a ≥ b)
  | .int a, .eq, .int b => a == b
  | .int a, .ne, .int b => a != b
  | .int a, .lt, .int b => decide (a < b)
  | .int a, .le, .int b => decide (a ≤ b)
  | .int a, .gt, .int b => decide (a > b)
  | .int a, .ge, .int b => decide (a ≥ b)
  | .float a, .eq, .float b => pcmp a b == some .eq
  | .float a, .ne, .float b => pcmp a b != some .eq
  | .float a, .lt, .float b => pcmp a b == some .lt
  | .float a, .le, .float b => pcmp a b == some .lt || pcmp a b == some .eq
  | .float a, .gt, .float b => pcmp a b == some .gt
  | .float a, .ge, .float b => pcmp a b == some .gt || pcmp a b == some .eq
  | .bool a, .eq, .bool b => a == b
  | .bool a, .ne, .bool b => a != b
  | .nil, .eq, .nil => true
  | .nil, .ne, .nil => false
  | .nil, .eq, _ => false
  | .nil, .ne, _ => true
  | _, _, _ => false

end Verif.Ifeval
