import Verif.Lemmas.Deq
namespace Verif.Props
open Verif

/-- C24, full statement: every history of calls that respects the documented preconditions returns
what a plain list would return. False of the code because of `truncate`, see `C24_truncate_violated`. -/
def C24_statement : Prop :=
  ∀ (dflt : Nat) (ops : List (DeqOp Nat)), (ListQ.mk [] 0).AllAllowed ops →
    (Deq.new.run dflt ops).map Prod.snd = some ((ListQ.mk [] 0).run ops).2

/-- C24 is violated: after a `pop_front`, `truncate` cuts one item too many. -/
theorem C24_truncate_violated : ¬ C24_statement := by
  intro h
  have := h 0 [.extend [1, 2, 3], .popFront, .truncate 1, .iter] (by simp [ListQ.AllAllowed, ListQ.Allowed])
  revert this; decide

/-- … and it can make the next `len()` panic. -/
theorem C24_truncate_then_len_panics :
    (Deq.new.run 0 [.extend [1, 2, 3], .popFront, .truncate 0, .len]) = none := by decide

/-- C24 (partial): any history over any item type, starting from an empty queue or from a vector,
returns exactly what a plain list returns and never panics, provided preconditions are met and
`truncate` is only called with no front slot freed or with nothing to cut. Missing: `truncate` after
front removals (violated). -/
theorem C24_deq_refines_list_partial {α : Type} (dflt : α) (init : List α) (ops : List (DeqOp α))
    (ha : (ListQ.mk init 0).AllAllowed ops) (ht : (ListQ.mk init 0).TruncOk ops) :
    ∃ d', (Deq.fromVec init).run dflt ops = some (d', ((ListQ.mk init 0).run ops).2) ∧
      d'.iter = ((ListQ.mk init 0).run ops).1.items := by
  obtain ⟨d', h, hR⟩ := Deq.run_R dflt ops (Deq.fromVec init) ⟨init, 0⟩ (by simp [Deq.R, Deq.fromVec]) ha ht
  exact ⟨d', h, hR.2.1.symm⟩

-- non-vacuity: a history using both ends, a restore and a harmless truncate
example : (ListQ.mk [7, 8] 0).AllAllowed
      [.push 9, .popFront, .restoreFront 5, .truncate 2, .removeFirst, .slowlyPushFront 1, .last] ∧
    (ListQ.mk [7, 8] 0).TruncOk
      [.push 9, .popFront, .restoreFront 5, .truncate 2, .removeFirst, .slowlyPushFront 1, .last] := by
  simp [ListQ.AllAllowed, ListQ.Allowed, ListQ.TruncOk, ListQ.step]

end Verif.Props
