import Verif.Model.Lexer
/-! Specification vocabulary for the tokenizer. -/
namespace Verif.Lexer

/-- `bs` is the UTF-8 encoding of some text -/
def ValidUtf8 (bs : List UInt8) : Prop := ∃ cs : List Char, bs = cs.flatMap String.utf8EncodeChar

/-- the tokens cover `a..b` without gap or overlap, each of them non-empty -/
def Covers (a b : Nat) : List Tok → Prop
  | [] => a = b
  | t :: ts => t.start = a ∧ a < t.stop ∧ Covers t.stop b ts

/-- `r` is `l` without its trailing ASCII white space -/
def TrimmedEnd (l r : List UInt8) : Prop :=
  ∃ ws, l = r ++ ws ∧ (∀ b ∈ ws, b ∈ [(32 : UInt8), 9, 10, 12, 13]) ∧
    ∀ b, r.getLast? = some b → b ∉ [(32 : UInt8), 9, 10, 12, 13]

end Verif.Lexer
