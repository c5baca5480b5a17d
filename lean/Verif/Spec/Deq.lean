import Verif.Model.Deq
/-!
Specification of a double-ended queue: a plain list. The second component `slack` counts front slots
freed by earlier front removals; it only serves to say when the documented precondition of
`restore_front` ("we know we have a slot to overwrite") holds.
-/
namespace Verif
variable {α : Type}

structure ListQ (α : Type) where
  items : List α
  slack : Nat
deriving Repr, DecidableEq

/-- One call on a plain list. -/
def ListQ.step (q : ListQ α) : DeqOp α → ListQ α × DeqOut α
  | .push x => ({ q with items := q.items ++ [x] }, .unit)
  | .extend xs => ({ q with items := q.items ++ xs }, .unit)
  | .pop => ({ q with items := q.items.dropLast }, .item q.items.getLast?)
  | .popFront =>
    match q.items with
    | [] => (q, .item none)
    | x :: xs => (⟨xs, q.slack + 1⟩, .item (some x))
  | .removeFirst => (⟨q.items.tail, q.slack + 1⟩, .unit)
  | .restoreFront x => (⟨x :: q.items, q.slack - 1⟩, .unit)
  | .slowlyPushFront x => (⟨x :: q.items, q.slack - 1⟩, .unit)
  | .clear => (⟨[], 0⟩, .unit)
  | .truncate n => ({ q with items := q.items.take n }, .unit)
  | .len => (q, .num q.items.length)
  | .get i => (q, .item q.items[i]?)
  | .first => (q, .item q.items.head?)
  | .last => (q, .item q.items.getLast?)
  | .iter => (q, .items q.items)

def ListQ.run (q : ListQ α) : List (DeqOp α) → ListQ α × List (DeqOut α)
  | [] => (q, [])
  | op :: ops =>
    let (q', o) := q.step op
    let (q'', os) := ListQ.run q' ops
    (q'', o :: os)

/-- Documented preconditions: `remove_first` needs an item, `restore_front` a freed slot. -/
def ListQ.Allowed (q : ListQ α) : DeqOp α → Prop
  | .removeFirst => q.items ≠ []
  | .restoreFront _ => 0 < q.slack
  | _ => True

/-- Every call of the history meets its precondition. -/
def ListQ.AllAllowed (q : ListQ α) : List (DeqOp α) → Prop
  | [] => True
  | op :: ops => q.Allowed op ∧ (q.step op).1.AllAllowed ops

/-- The extra restriction under which `truncate` is right: no freed slot, or nothing to cut. -/
def ListQ.TruncOk (q : ListQ α) : List (DeqOp α) → Prop
  | [] => True
  | op :: ops =>
    (∀ n, op = .truncate n → q.slack = 0 ∨ q.slack + q.items.length ≤ n) ∧ (q.step op).1.TruncOk ops

end Verif
