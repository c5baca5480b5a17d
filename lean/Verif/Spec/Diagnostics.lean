import Verif.Model.Diagnostics
namespace Verif.Diagnostics

mutual
/-- the diagnostics of a parse in the order in which they are raised; those of a cell count lines from the start of the
document, not of the cell -/
def raised : List Act → List Diagnostic
  | [] => []
  | a :: as => raisedBy a ++ raised as
def raisedBy : Act → List Diagnostic
  | .report d => [d]
  | .cell k acts => (raised acts).map fun d => { d with lineNum := d.lineNum + k }
  | .readFirst acts => raised acts
end

mutual
/-- no diagnostic is raised while the first paragraph of an inline document is read -/
def quietStart : List Act → Bool
  | [] => true
  | a :: as => quietAct a && quietStart as
def quietAct : Act → Bool
  | .report _ => true
  | .cell _ acts => quietStart acts
  | .readFirst acts => (raised acts).isEmpty && quietStart acts
end

end Verif.Diagnostics
