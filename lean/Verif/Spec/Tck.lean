import Verif.Model.Tck
/-!
Specification of the graph: what nodes show, and where bytes are.
-/
namespace Verif.Tck

/-- what is shown: characters, and the starts and ends of bold text -/
inductive Piece where
  | char (c : Char) | start | stop
deriving DecidableEq, Repr

def Nodes.shown : Nodes → List Piece
  | .nil => []
  | .text s _ _ rest => s.map .char ++ rest.shown
  | .newline _ _ rest => .char '\n' :: rest.shown
  | .bold inner _ _ rest => .start :: inner.shown ++ .stop :: rest.shown
  | .other _ _ rest => rest.shown

def Vals.shown : Vals → List Piece
  | .nil => []
  | .text s _ rest => s.map .char ++ rest.shown
  | .strong inner _ rest => .start :: inner.shown ++ .stop :: rest.shown

/-- the first node is text -/
def Vals.startsText : Vals → Bool
  | .text _ _ _ => true
  | _ => false

/-- No text follows text. -/
def Vals.merged : Vals → Prop
  | .nil => True
  | .text _ _ rest => rest.startsText = false ∧ rest.merged
  | .strong inner _ rest => inner.merged ∧ rest.merged

/-- Every line end comes after text, and there are only text, line ends and bold text. The first argument: text comes before. -/
def Nodes.plain : Bool → Nodes → Prop
  | _, .nil => True
  | _, .text _ _ _ rest => rest.plain true
  | t, .newline _ _ rest => t = true ∧ rest.plain true
  | _, .bold inner _ _ rest => inner.plain false ∧ rest.plain false
  | _, .other _ _ _ => False

/-- a run of text and line ends (`none`), each with its range of bytes, before other nodes -/
def Nodes.after : List (Option (List Char) × Nat × Nat) → Nodes → Nodes
  | [], rest => rest
  | (some s, a, e) :: run, rest => .text s a e (Nodes.after run rest)
  | (none, a, e) :: run, rest => .newline a e (Nodes.after run rest)

/-- the first node is text or a line end -/
def Nodes.startsRun : Nodes → Bool
  | .text _ _ _ _ => true
  | .newline _ _ _ => true
  | _ => false

/-- the text of a run -/
def runText (run : List (Option (List Char) × Nat × Nat)) : List Char := run.flatMap fun p => p.1.getD ['\n']

/-- the end of a run, if it has one -/
def runEnd (e : Nat) (run : List (Option (List Char) × Nat × Nat)) : Nat := (run.getLast?.map (·.2.2)).getD e

/-- The graph of nodes: a run of text and line ends (as long as possible) is one text, with the place from the start of its first node to the end of its last one;
bold text is a node with the graph of its nodes. -/
inductive Graph (src : List UInt8) : Nodes → Vals → Prop where
  | nil : Graph src .nil .nil
  | text (s a e run rest v) : rest.startsRun = false → Graph src rest v →
      Graph src (.text s a e (Nodes.after run rest)) (.text (s ++ runText run) (span src a (runEnd e run)) v)
  | bold (inner a e rest iv v) : Graph src inner iv → Graph src rest v → Graph src (.bold inner a e rest) (.strong iv (span src a e) v)

/-- the text of a source: lines, each with its line end -/
def source (lines : List (List UInt8)) : List UInt8 := lines.flatMap (· ++ [10])

end Verif.Tck
