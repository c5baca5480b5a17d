import Verif.Model.Email
/-!
From a text to the lines that the inline parser sees: the tokens of `parser/src/lexer/source_lexer.rs`
(`Model/Lexer.lean`) cut into lines, with the email addresses found (`Model/Email.lean`).

Simplification: ASCII text without attribute references with values, conditional directives and includes.
-/
namespace Verif.Inlines
open Verif TokenKind

/-- `root_lexer.rs:289-323` with `token.rs:6-13` — the tokens of a text -/
def tokensOf (s : String) : List Tok :=
  let src := Lexer.bs s
  match Lexer.lexFrom src [] 0 (src.length + 1) 0 with
  | none => []
  | some (l, _) => l.map fun t =>
      { kind := t.kind, lexeme := t.lexeme.map (fun b => Char.ofNat b.toNat),
        -- `root_lexer.rs:161-163` — `byte_before`
        before := (if t.start = 0 then none else src[t.start - 1]?).map (fun b => Char.ofNat b.toNat),
        loc := t.start }

/-- `parser/src/parser.rs:104-154` — `read_line`: the line ends at the token of the line end, which is left out -/
def cutLines : List Tok → List (List Tok)
  | [] => []
  | t :: ts =>
    if t.kind = Newline then [] :: cutLines ts
    else match cutLines ts with
      | [] => [[t]]
      | l :: ls => (t :: l) :: ls

/-- the lines of a text -/
def linesOf (s : String) : List Line := (cutLines (tokensOf s)).map fun l => Line.new (finishLine l)

/-! ### comparing nodes -/

mutual
/-- equality of nodes can be decided -/
def decNode : (a b : Node) → Decidable (a = b)
  | .leaf a, .leaf b => if h : a = b then .isTrue (h ▸ rfl) else .isFalse (fun e => h (by injection e))
  | .leaf _, .wrap _ _ => .isFalse (fun e => by cases e)
  | .wrap _ _, .leaf _ => .isFalse (fun e => by cases e)
  | .wrap v a, .wrap w b =>
    if h : v = w then
      match decNodes a b with
      | .isTrue hc => .isTrue (h ▸ hc ▸ rfl)
      | .isFalse hc => .isFalse (fun e => hc (by injection e))
    else .isFalse (fun e => h (by injection e))
/-- equality of lists of nodes can be decided -/
def decNodes : (a b : List Node) → Decidable (a = b)
  | [], [] => .isTrue rfl
  | [], _ :: _ => .isFalse (fun e => by cases e)
  | _ :: _, [] => .isFalse (fun e => by cases e)
  | a :: as, b :: bs =>
    match decNode a b with
    | .isFalse h => .isFalse (fun e => h (by injection e))
    | .isTrue h =>
      match decNodes as bs with
      | .isTrue hc => .isTrue (h ▸ hc ▸ rfl)
      | .isFalse hc => .isFalse (fun e => hc (by injection e))
end

instance : DecidableEq Node := decNode
deriving instance DecidableEq for Out

/-- the nodes of a result -/
def nodesOf (r : Except Fail Out) : Except Fail (List Node) := r.map Out.nodes

instance [DecidableEq α] [DecidableEq β] : DecidableEq (Except α β)
  | .error a, .error b => if h : a = b then .isTrue (h ▸ rfl) else .isFalse (fun e => h (by injection e))
  | .ok a, .ok b => if h : a = b then .isTrue (h ▸ rfl) else .isFalse (fun e => h (by injection e))
  | .error _, .ok _ => .isFalse (fun e => by cases e)
  | .ok _, .error _ => .isFalse (fun e => by cases e)

end Verif.Inlines
