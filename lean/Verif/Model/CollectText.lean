import Verif.Model.SourceLoc
/-! Model of `parser/src/tasks/collect_text.rs`. Strings are lists of characters; byte lengths are counted in UTF-8.
The position arithmetic is on naturals (`u32` in the code, overflow above 4 GiB is not modelled); subtractions that
would underflow are `none`. -/
namespace Verif.CollectText
open Verif.SourceLoc

/-- `str::len`: the number of UTF-8 bytes -/
def bytes (s : List Char) : Nat := (s.map Char.utf8Size).sum

/-- `char::is_whitespace`: the Unicode property `White_Space` -/
def isWhite (c : Char) : Bool :=
  let n := c.toNat
  (9 ≤ n && n ≤ 13) || n == 32 || n == 0x85 || n == 0xA0 || n == 0x1680 || (0x2000 ≤ n && n ≤ 0x200A) ||
    n == 0x2028 || n == 0x2029 || n == 0x202F || n == 0x205F || n == 0x3000

/-- `str::trim_end` -/
def trimEndStr (s : List Char) : List Char := (s.reverse.dropWhile isWhite).reverse

/-- `collect_text.rs:3-7`; the `Option` around the string is always `Some` between calls -/
structure CT where
  text : List Char
  loc : Loc
deriving DecidableEq, Repr

/-- `collect_text.rs:10-16` -/
def CT.new (loc : Loc) : CT := ⟨[], loc⟩

/-- `collect_text.rs:18-21` -/
def CT.pushToken (c : CT) (lexeme : List Char) (loc : Loc) : CT := ⟨c.text ++ lexeme, c.loc.extend loc⟩

/-- `collect_text.rs:23-26` -/
def CT.pushStr (c : CT) (s : List Char) : CT := ⟨c.text ++ s, { c.loc with stop := c.loc.stop + bytes s }⟩

/-- `String::pop` `n` times: characters, not bytes -/
def popN (n : Nat) (s : List Char) : List Char := s.take (s.length - n)

/-- `collect_text.rs:32-44` — the number of bytes of white space at the end is used as a number of characters to pop -/
def CT.trimEnd (c : CT) : Option CT :=
  if c.text.getLast? = some ' ' then
    let delta := bytes c.text - bytes (trimEndStr c.text)
    if delta ≤ c.loc.stop then some ⟨popN delta c.text, { c.loc with stop := c.loc.stop - delta }⟩ else none
  else some c

/-- `collect_text.rs:46-53` — `drop_last` with its `debug_assert!` -/
def CT.dropLast (c : CT) (n : Nat) : Option CT :=
  if n ≤ bytes c.text ∧ n ≤ c.loc.stop then some ⟨popN n c.text, { c.loc with stop := c.loc.stop - n }⟩ else none

/-- `collect_text.rs:55-61` — `take` -/
def CT.take (c : CT) : List Char × CT := (c.text, ⟨[], c.loc.clampEnd⟩)

/-- `collect_text.rs:63-66` — `take_src` -/
def CT.takeSrc (c : CT) : (List Char × Loc) × CT := ((c.text, c.loc), c.take.2)

/-- an inline node: text, or anything else -/
inductive Content (α : Type) where
  | text (s : List Char)
  | other (a : α)
deriving DecidableEq, Repr

/-- `collect_text.rs:72-87` — `commit_inlines` -/
def CT.commit {α} (c : CT) (nodes : List (Content α × Loc)) : CT × List (Content α × Loc) :=
  if c.text = [] then (c, nodes)
  else match nodes.getLast? with
    | some (.text t, loc) =>
      let (s, c') := c.take
      (c', nodes.dropLast ++ [(.text (t ++ s), loc.extend c'.loc)])
    | _ =>
      let (s, c') := c.take
      ({ c' with loc := c'.loc.clampEnd }, nodes ++ [(.text s, c.loc)])

end Verif.CollectText
