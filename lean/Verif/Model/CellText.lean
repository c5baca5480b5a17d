/-!
Model of the text of table cells that are not documents: `parser/src/tasks/table/parse_table.rs:300-352`, `parser/src/line.rs:938-948`.
-/
namespace Verif.CellText

/-- an inline node: a newline, or something else -/
inductive Node (α : Type)
  | newline | other (a : α)
  deriving DecidableEq, Repr

/-- `parse_table.rs:331-352` — the loop of `split_paragraphs`; `done` are the paragraphs before the current one, `last` is the last paragraph,
backwards. -/
def splitLoop {α : Type} (done : List (List (Node α))) (last : List (Node α)) : List (Node α) → List (List (Node α))
  | [] => done ++ [last.reverse]
  | .newline :: ns =>
    match last with
    | .newline :: l => splitLoop (done ++ [l.reverse]) [] ns
    | l => splitLoop done (.newline :: l) ns
  | .other a :: ns => splitLoop done (.other a :: last) ns

/-- `parse_table.rs:331-352` — `split_paragraphs` -/
def splitParagraphs {α : Type} (ns : List (Node α)) : List (List (Node α)) :=
  if ns = [] then [] else splitLoop [] [] ns

/-- a token of a cell: a newline, white space, or something else -/
inductive Tok (α : Type)
  | newline | space (a : α) | other (a : α)

def Tok.isSpace {α : Type} : Tok α → Bool | .other _ => false | _ => true
def Tok.isNewline {α : Type} : Tok α → Bool | .newline => true | _ => false

/-- `line.rs:938-948` — `trim_for_cell` -/
def trimForCell {α : Type} (literal : Bool) (ts : List (Tok α)) : List (Tok α) :=
  let ts := if literal then ts.dropWhile Tok.isNewline else ts
  (ts.reverse.dropWhile Tok.isSpace).reverse

end Verif.CellText
