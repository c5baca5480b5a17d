/-!
Model of which `<…>` of a verbatim line are callouts, and of the text around them: `parser/src/tasks/parse_inlines/mod.rs:399-441,1023-1044,1124-1134`,
`parser/src/line.rs:457-466`, `parser/src/tasks/collect_text.rs:32-53`.

The substitutions are those of a listing (special characters and callouts). Simplifications: tokens are those the code asks for; locations and the numbers
of callouts (`Model/Callouts.lean`) are left out.
-/
namespace Verif.Conums

inductive Tok where
  | text (s : List Char)
  /-- blanks and tabs -/
  | white (s : List Char)
  /-- `<`, `>` or `&` -/
  | special (c : Char)
  /-- `#`, `//` or `;;` -/
  | mark (s : List Char)
  /-- `<1>`, `<.>` or `<!--1-->`: what stands between the `<` and the `>` -/
  | conum (s : List Char)
deriving DecidableEq, Repr

inductive Node where
  | text (s : List Char)
  | special (c : Char)
  | tuck (s : List Char)
  | callout (s : List Char)
deriving DecidableEq, Repr

/-- `char::is_whitespace` -/
def isWs (c : Char) : Bool :=
  c = ' ' || (9 ≤ c.toNat && c.toNat ≤ 13) || c.toNat = 0x85 || c.toNat = 0xA0 || c.toNat = 0x1680 || (0x2000 ≤ c.toNat && c.toNat ≤ 0x200A) ||
    c.toNat = 0x2028 || c.toNat = 0x2029 || c.toNat = 0x202F || c.toNat = 0x205F || c.toNat = 0x3000

/-- `str::len` -/
def byteLen (l : List Char) : Nat := (l.map Char.utf8Size).sum

/-- `str::trim_end` -/
def trimEnd (l : List Char) : List Char := (l.reverse.dropWhile isWs).reverse

/-- `collect_text.rs:32-44` — `trim_end`: as many characters are taken off as there are bytes of whitespace -/
def collectTrimEnd (l : List Char) : List Char :=
  if l.getLast? = some ' ' then l.take (l.length - (byteLen l - byteLen (trimEnd l))) else l

/-- `line.rs:457-466` — `continues_valid_callout_nums` -/
def onlyConums : List Tok → Bool
  | [] => true
  | .white _ :: r => onlyConums r
  | .conum _ :: r => onlyConums r
  | _ :: _ => false

/-- `inline_utils.rs:99-101` — `commit` -/
def commit (text : List Char) : List Node := if text = [] then [] else [.text text]

/-- `mod.rs:1023-1044` — `recover_custom_line_comment`, with `drop_last` (`collect_text.rs:46-53`), which takes off as many characters as it is given bytes:
the nodes it pushes, and the text it leaves. `cm` is the `line-comment` attribute of the block. -/
def recover (cm : Option (List Char)) (text : List Char) : List Node × List Char :=
  match cm with
  | none => ([], text)
  | some cm =>
    let blank := if text.getLast? = some ' ' then [' '] else []
    if (cm ++ blank) <:+ text then
      (commit (text.take (text.length - byteLen (cm ++ blank))) ++ [.tuck (cm ++ blank)], [])
    else ([], text)

/-- `mod.rs:399-441,1124-1134` — the loop of `parse_inlines_until` over a line, with the text collected so far -/
def run (cm : Option (List Char)) (text : List Char) : List Tok → List Node
  | [] => commit text
  | .text s :: r => run cm (text ++ s) r
  | .white s :: r => run cm (text ++ s) r
  | .special c :: r => commit text ++ .special c :: run cm [] r
  | .mark s :: .white w :: r =>
    if onlyConums r then commit text ++ .tuck (s ++ [' ']) :: run cm [] r else run cm (text ++ s ++ w) r
  | .mark s :: r => run cm (text ++ s) r
  | .conum s :: r =>
    if onlyConums r then (recover cm text).1 ++ commit (collectTrimEnd (recover cm text).2) ++ .callout s :: run cm [] r
    else commit text ++ .special '<' :: commit s ++ .special '>' :: run cm [] r

/-- a line of a block with this `line-comment` attribute -/
def line (cm : Option (List Char)) (l : List Tok) : List Node := run cm [] l

end Verif.Conums
