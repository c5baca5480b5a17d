/-!
Model of the regular expressions of the crate `regex` that the code uses: leftmost-first matching with backtracking
(greedy and lazy repetition, groups, anchors, word boundaries).

The classes `\w`, `\s` and `\d` are Unicode classes. White space is given here; word characters and digits are parameters
(`Classes`).
-/
namespace Verif.Regex

/-- White space: the property `White_Space` of Unicode. It is `\s` of the crate `regex` and `char::is_whitespace`. -/
def space (c : Char) : Bool :=
  (9 ≤ c.toNat && c.toNat ≤ 13) || c.toNat == 0x20 || c.toNat == 0x85 || c.toNat == 0xa0 || c.toNat == 0x1680 ||
    (0x2000 ≤ c.toNat && c.toNat ≤ 0x200a) || c.toNat == 0x2028 || c.toNat == 0x2029 || c.toNat == 0x202f || c.toNat == 0x205f ||
    c.toNat == 0x3000

/-- the classes `\w` and `\d` -/
structure Classes where
  word : Char → Bool
  digit : Char → Bool
  /-- among the ASCII characters, the word characters are the letters, the digits and the underscore -/
  word_ascii : ∀ c, c.toNat < 128 → word c = (c.isAlphanum || c = '_')
  /-- among the ASCII characters, the digits are `0` to `9` -/
  digit_ascii : ∀ c, c.toNat < 128 → digit c = c.isDigit
  /-- digits are word characters -/
  digit_word : ∀ c, digit c = true → word c = true
  /-- white space is no word character -/
  word_space : ∀ c, word c = true → space c = false

/-- regular expressions -/
inductive Re where
  /-- one character of a class -/
  | set (p : Char → Bool)
  | eps
  | seq (a b : Re)
  | alt (a b : Re)
  /-- `a*`, or `a*?` -/
  | star (greedy : Bool) (a : Re)
  /-- a capture group -/
  | cap (n : Nat) (a : Re)
  /-- `^` -/
  | bol
  /-- `$` -/
  | eol
  /-- `\b` -/
  | wordB

/-- a position in the text: what has been read (the last character first), what is to be read, and what the groups have
captured (the last capture first) -/
structure St where
  before : List Char
  rest : List Char
  caps : List (Nat × List Char)
deriving DecidableEq, Repr

/-- the class of a character that may be missing -/
def isWord (word : Char → Bool) : Option Char → Bool
  | some c => word c
  | none => false

/-- the iterations of a repetition; each of them reads something -/
def loop (step : St → (St → Option St) → Option St) (greedy : Bool) (k : St → Option St) : Nat → St → Option St
  | 0, st => k st
  | n + 1, st =>
    let again := fun (_ : Unit) => step st fun s => if s.rest.length < st.rest.length then loop step greedy k n s else none
    if greedy then (again ()).or (k st) else (k st).or (again ())

/-- A match from a position on, with what has to match after it: the alternatives are tried in order, the first one that
leads to a match of everything counts. -/
def run (word : Char → Bool) : Re → St → (St → Option St) → Option St
  | .set p, st, k =>
    match st.rest with
    | [] => none
    | c :: cs => if p c then k ⟨c :: st.before, cs, st.caps⟩ else none
  | .eps, st, k => k st
  | .seq a b, st, k => run word a st fun s => run word b s k
  | .alt a b, st, k => (run word a st k).or (run word b st k)
  | .star g a, st, k => loop (run word a) g k st.rest.length st
  | .cap n a, st, k => run word a st fun s => k { s with caps := (n, st.rest.take (st.rest.length - s.rest.length)) :: s.caps }
  | .bol, st, k => if st.before = [] then k st else none
  | .eol, st, k => if st.rest = [] then k st else none
  | .wordB, st, k => if isWord word st.before.head? ≠ isWord word st.rest.head? then k st else none

/-- `a+` -/
def Re.plus (a : Re) : Re := .seq a (.star true a)
/-- `a+?` -/
def Re.plusLazy (a : Re) : Re := .seq a (.star false a)
/-- `a?` -/
def Re.opt (a : Re) : Re := .alt a .eps
/-- one character -/
def Re.ch (c : Char) : Re := .set (· = c)

/-- a match: how many characters stand before it (after the start of the search), and the position at its end -/
structure Match where
  skipped : Nat
  stop : St
deriving DecidableEq, Repr

/-- `Regex::captures_at`: the leftmost match -/
def search (word : Char → Bool) (r : Re) (skipped : Nat) (before : List Char) : List Char → Option Match
  | [] => (run word r ⟨before, [], []⟩ some).map (⟨skipped, ·⟩)
  | c :: cs =>
    match run word r ⟨before, c :: cs, []⟩ some with
    | some s => some ⟨skipped, s⟩
    | none => search word r (skipped + 1) (c :: before) cs

/-- `Regex::captures` -/
def captures (word : Char → Bool) (r : Re) (text : List Char) : Option Match := search word r 0 [] text

/-- `Regex::captures_iter`, for expressions that match no empty text. The number is a step budget. -/
def capturesIter (word : Char → Bool) (r : Re) : Nat → List Char → List Char → List Match
  | 0, _, _ => []
  | n + 1, before, text =>
    match search word r 0 before text with
    | none => []
    | some m => m :: capturesIter word r n m.stop.before m.stop.rest

/-- `Captures::get` -/
def Match.group (m : Match) (n : Nat) : Option (List Char) := m.stop.caps.lookup n

/-- `str::trim_end` -/
def trimEnd (l : List Char) : List Char := (l.reverse.dropWhile space).reverse

end Verif.Regex
