import Verif.Model.KeptNotes
/-!
Specification of kept footnotes: what is written, and what should come of it.
-/
namespace Verif.KeptNotes

inductive Piece where
  | text (n : Nat)
  /-- `footnote:id[…]` -/
  | note (id : Nat) (inner : List Nat)
  /-- a reference to an attribute with the value `pass:subs[footnote:id[…]]` -/
  | kept (s : Subs) (id : Nat) (inner : List Nat)
deriving DecidableEq, Repr

def Piece.toks : Piece → List Tok
  | .text n => [.text n]
  | .note id inner => .foot id :: inner.map .text ++ [.close]
  | .kept s id inner => .kept s :: .foot id :: inner.map .text ++ [.close, .close]

/-- Text gets the substitutions of the block, and text in a kept footnote those it was kept with. -/
def Piece.evs (s : Subs) : Piece → List Ev
  | .text n => [.text n s]
  | .note id inner => .note id :: inner.map (.text · s) ++ [.shut]
  | .kept p id inner => .note id :: inner.map (.text · p) ++ [.shut]

end Verif.KeptNotes
