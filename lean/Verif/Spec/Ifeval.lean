import Verif.Model.Ifeval
namespace Verif.Ifeval

/-- what an operator says about an order relation -/
def Op.means : Op → Ordering → Bool
  | .eq, .eq => true
  | .ne, .lt | .ne, .gt => true
  | .lt, .lt => true
  | .le, .lt | .le, .eq => true
  | .gt, .gt => true
  | .ge, .gt | .ge, .eq => true
  | _, _ => false

/-- how an operator is written -/
def Op.spelling : Op → String
  | .eq => "==" | .ne => "!=" | .lt => "<" | .le => "<=" | .gt => ">" | .ge => ">="

/-- the operator that holds exactly when this one does not -/
def Op.neg : Op → Op
  | .eq => .ne | .ne => .eq | .lt => .ge | .ge => .lt | .gt => .le | .le => .gt

/-- the operator with exchanged operands -/
def Op.flip : Op → Op
  | .eq => .eq | .ne => .ne | .lt => .gt | .gt => .lt | .le => .ge | .ge => .le

/-- the order of two operands of the same type, if they have one -/
inductive Ordered {F : Type} (pcmp : F → F → Option Ordering) : Value F → Value F → Ordering → Prop where
  | intLt {a b} : a < b → Ordered pcmp (.int a) (.int b) .lt
  | intEq {a} : Ordered pcmp (.int a) (.int a) .eq
  | intGt {a b} : b < a → Ordered pcmp (.int a) (.int b) .gt
  | strLt {a b} : a < b → Ordered pcmp (.str a) (.str b) .lt
  | strEq {a} : Ordered pcmp (.str a) (.str a) .eq
  | strGt {a b} : b < a → Ordered pcmp (.str a) (.str b) .gt
  | float {a b o} : pcmp a b = some o → Ordered pcmp (.float a) (.float b) o

end Verif.Ifeval
