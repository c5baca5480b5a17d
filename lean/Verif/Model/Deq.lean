/-!
Model of `parser/src/deq.rs` (lines 5-157): the queue used for token and line buffers.
`buf` is the backing vector, `pos` the index of the first live item. `none` models a panic
(failed `assert!`, out of bounds index, `usize` underflow in a debug build).
`bump`, `with_capacity`, `reserve` have no observable effect and are not modelled.
-/
namespace Verif

/-- `parser/src/deq.rs:10-14` -/
structure Deq (α : Type) where
  buf : List α
  pos : Nat
deriving Repr, DecidableEq

namespace Deq
variable {α : Type}

/-- `deq.rs:17-23` -/
def new : Deq α := ⟨[], 0⟩
/-- `deq.rs:33-35` -/
def fromVec (buf : List α) : Deq α := ⟨buf, 0⟩
/-- `deq.rs:37-40` -/
def clear (_ : Deq α) : Deq α := ⟨[], 0⟩
/-- `deq.rs:42-44` -/
def extend (d : Deq α) (xs : List α) : Deq α := { d with buf := d.buf ++ xs }
/-- `deq.rs:46-48` -/
def get (d : Deq α) (i : Nat) : Option α := d.buf[i + d.pos]?
/-- `deq.rs:54-56` -/
def push (d : Deq α) (x : α) : Deq α := { d with buf := d.buf ++ [x] }
/-- `deq.rs:73-75` — `self.buf.len() - self.pos`; outer `none` is the underflow panic. -/
def len (d : Deq α) : Option Nat := if d.pos ≤ d.buf.length then some (d.buf.length - d.pos) else none
/-- `deq.rs:69-71` -/
def isEmpty (d : Deq α) : Option Bool := d.len.map (· == 0)
/-- `deq.rs:58-63` -/
def pop (d : Deq α) : Option (Deq α × Option α) :=
  match d.isEmpty with
  | none => none
  | some true => some (d, none)
  | some false => some ({ d with buf := d.buf.dropLast }, d.buf.getLast?)
/-- `deq.rs:65-67` — truncates the backing vector, not the live part. -/
def truncate (d : Deq α) (n : Nat) : Deq α := { d with buf := d.buf.take n }
/-- `deq.rs:77-79` -/
def first (d : Deq α) : Option α := d.buf[d.pos]?
/-- `deq.rs:81-86` -/
def last (d : Deq α) : Option (Option α) :=
  match d.isEmpty with
  | none => none
  | some true => some none
  | some false => some d.buf.getLast?
/-- `deq.rs:95-97, 103-105, 133-139` — `iter`, `into_iter`, `into_vec`: the live items in order. -/
def iter (d : Deq α) : List α := d.buf.drop d.pos
/-- `deq.rs:111-113` — no bounds check. -/
def removeFirst (d : Deq α) : Deq α := { d with pos := d.pos + 1 }
/-- `deq.rs:118-122` -/
def restoreFront (d : Deq α) (x : α) : Option (Deq α) :=
  if d.pos = 0 then none
  else if d.pos - 1 < d.buf.length then some ⟨d.buf.set (d.pos - 1) x, d.pos - 1⟩
  else none
/-- `deq.rs:124-131` -/
def slowlyPushFront (d : Deq α) (x : α) : Option (Deq α) :=
  if d.pos = 0 then some { d with buf := x :: d.buf }
  else if d.pos - 1 < d.buf.length then some ⟨d.buf.set (d.pos - 1) x, d.pos - 1⟩
  else none
/-- `deq.rs:148-156` — `pop_front`, swapping in the default value `dflt`. -/
def popFront (dflt : α) (d : Deq α) : Option (Deq α × Option α) :=
  match d.isEmpty with
  | none => none
  | some true => some (d, none)
  | some false =>
    match d.buf[d.pos]? with
    | none => none
    | some x => some (⟨d.buf.set d.pos dflt, d.pos + 1⟩, some x)

end Deq

/-- The public operations of the queue, as a history can apply them. -/
inductive DeqOp (α : Type) where
  | push (x : α) | extend (xs : List α) | pop | popFront | removeFirst
  | restoreFront (x : α) | slowlyPushFront (x : α) | clear | truncate (n : Nat)
  | len | get (i : Nat) | first | last | iter
deriving Repr, DecidableEq

/-- What a call returns. -/
inductive DeqOut (α : Type) where
  | unit | item (x : Option α) | num (n : Nat) | items (xs : List α)
deriving Repr, DecidableEq

/-- One call on the concrete queue (`none` = panic). -/
def Deq.step {α : Type} (dflt : α) (d : Deq α) : DeqOp α → Option (Deq α × DeqOut α)
  | .push x => some (d.push x, .unit)
  | .extend xs => some (d.extend xs, .unit)
  | .pop => d.pop.map fun (d', o) => (d', .item o)
  | .popFront => (d.popFront dflt).map fun (d', o) => (d', .item o)
  | .removeFirst => some (d.removeFirst, .unit)
  | .restoreFront x => (d.restoreFront x).map fun d' => (d', .unit)
  | .slowlyPushFront x => (d.slowlyPushFront x).map fun d' => (d', .unit)
  | .clear => some (d.clear, .unit)
  | .truncate n => some (d.truncate n, .unit)
  | .len => d.len.map fun n => (d, .num n)
  | .get i => some (d, .item (d.get i))
  | .first => some (d, .item d.first)
  | .last => d.last.map fun o => (d, .item o)
  | .iter => some (d, .items d.iter)

/-- A whole history of calls, collecting the returned values. -/
def Deq.run {α : Type} (dflt : α) (d : Deq α) : List (DeqOp α) → Option (Deq α × List (DeqOut α))
  | [] => some (d, [])
  | op :: ops => do
    let (d', o) ← d.step dflt op
    let (d'', os) ← Deq.run dflt d' ops
    return (d'', o :: os)

end Verif
