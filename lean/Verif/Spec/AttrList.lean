import Verif.Model.AttrList
/-!
Specification of attribute lists: where they are cut, and what an author who writes one means.
-/
namespace Verif.AttrList
open TokenKind

/-- a quotation mark -/
def isQuote (k : TokenKind) : Bool := k = DoubleQuote ∨ k = SingleQuote

/-- the other quotation mark -/
def other (k : TokenKind) : TokenKind := if k = DoubleQuote then SingleQuote else DoubleQuote

/-- `q` occurs -/
def occurs (q : TokenKind) (l : List Tk) : Bool := l.any (·.kind = q)

/-- The pieces of the list between its brackets: cut at each comma outside quotes. A quotation mark opens a
quoted string if the same mark occurs again later; otherwise it is an ordinary character. `mode` is the mark
that ends the quoted string being read. -/
def topSplit (cur : List Tk) (mode : Option TokenKind) : List Tk → List (List Tk)
  | [] => [cur]
  | t :: ts =>
    match mode with
    | some q => topSplit (cur ++ [t]) (if t.kind = q then none else some q) ts
    | none =>
      if t.kind = Comma then cur :: topSplit [] none ts
      else if isQuote t.kind = true ∧ occurs t.kind ts = true then topSplit (cur ++ [t]) (some t.kind) ts
      else topSplit (cur ++ [t]) none ts

/-- No stray marks: each quoted string holds an even number of the other mark, unless that mark does not occur
after the string. (`mode`: the mark that ends the string being read, and whether the count is even so far.) -/
def noStray (mode : Option (TokenKind × Bool)) : List Tk → Bool
  | [] => true
  | t :: ts =>
    match mode with
    | some (q, even) =>
      if t.kind = q then (even || !occurs (other q) ts) && noStray none ts
      else noStray (some (q, if t.kind = other q then !even else even)) ts
    | none =>
      if isQuote t.kind = true ∧ occurs t.kind ts = true then noStray (some (t.kind, true)) ts
      else noStray none ts

/-- pieces, each followed by a comma -/
def withCommas (ps : List (List Tk × Tk)) : List Tk := ps.flatMap (fun p => p.1 ++ [p.2])

/-- `l` is `ps` with one comma between neighbours -/
def Joined (ps : List (List Tk)) (l : List Tk) : Prop :=
  ∃ (init : List (List Tk × Tk)) (last : List Tk),
    ps = init.map (·.1) ++ [last] ∧ (∀ p ∈ init, p.2.kind = Comma) ∧ l = withCommas init ++ last

/-- the marks of the shorthand notation -/
inductive Mark where
  | role | id | option
deriving DecidableEq, Repr

/-- `.`, `#`, `%` -/
def Mark.tk : Mark → Tk
  | .role => ⟨Dots, ['.']⟩
  | .id => ⟨Hash, ['#']⟩
  | .option => ⟨Percent, ['%']⟩

/-- a word -/
def word (w : List Char) : Tk := ⟨Word, w⟩
/-- a quotation mark: double if `d` -/
def quote (d : Bool) : Tk := if d then ⟨DoubleQuote, ['"']⟩ else ⟨SingleQuote, ['\'']⟩

/-- an attribute as an author writes it -/
inductive Written where
  /-- nothing between two commas -/
  | nothing
  /-- `foo` -/
  | word (w : List Char)
  /-- `"foo, bar"` or `'foo, bar'` -/
  | quoted (d : Bool) (v : List Tk)
  /-- `key=foo` -/
  | namedWord (k w : List Char)
  /-- `key="foo, bar"` -/
  | named (k : List Char) (d : Bool) (v : List Tk)
  /-- `role="a b c"` -/
  | roles (d : Bool) (w : List Char) (ws : List (List Char))
  /-- `options="a,b,c"` -/
  | options (d : Bool) (w : List Char) (ws : List (List Char))
  /-- `style#id.role%option` -/
  | shorthand (style : Option (List Char)) (m : Mark × List Char) (ms : List (Mark × List Char))
deriving DecidableEq, Repr

/-- the tokens of a shorthand -/
def markToks (ms : List (Mark × List Char)) : List Tk := ms.flatMap (fun m => [m.1.tk, AttrList.word m.2])

/-- its tokens -/
def Written.toks : Written → List Tk
  | .nothing => []
  | .word w => [AttrList.word w]
  | .quoted d v => quote d :: v ++ [quote d]
  | .namedWord k w => [AttrList.word k, ⟨EqualSigns, ['=']⟩, AttrList.word w]
  | .named k d v => AttrList.word k :: ⟨EqualSigns, ['=']⟩ :: quote d :: v ++ [quote d]
  | .roles d w ws =>
    AttrList.word "role".toList :: ⟨EqualSigns, ['=']⟩ :: quote d :: AttrList.word w ::
      ws.flatMap (fun w => [⟨Whitespace, [' ']⟩, AttrList.word w]) ++ [quote d]
  | .options d w ws =>
    AttrList.word "options".toList :: ⟨EqualSigns, ['=']⟩ :: quote d :: AttrList.word w ::
      ws.flatMap (fun w => [⟨Comma, [',']⟩, AttrList.word w]) ++ [quote d]
  | .shorthand style m ms => (match style with | some s => [AttrList.word s] | none => []) ++ markToks (m :: ms)

/-- what one mark of a shorthand means -/
def applyMark (a : Attrs) (m : Mark × List Char) : Attrs :=
  match m.1 with
  | .role => { a with roles := a.roles ++ [m.2] }
  | .id => { a with id := some m.2 }
  | .option => { a with options := a.options ++ [m.2] }

/-- what the attribute means: the attributes with this one added -/
def Written.apply (a : Attrs) : Written → Attrs
  | .nothing => { a with positional := a.positional ++ [none] }
  | .word w => { a with positional := a.positional ++ [some [AttrList.word w]] }
  | .quoted _ v => { a with positional := a.positional ++ [some v] }
  | .namedWord k w => { a with named := a.named ++ [(k, [AttrList.word w])], positional := a.positional ++ [none] }
  | .named k _ v => { a with named := a.named ++ [(k, v)], positional := a.positional ++ [none] }
  | .roles _ w ws => { a with roles := a.roles ++ w :: ws }
  | .options _ w ws => { a with options := a.options ++ w :: ws }
  | .shorthand style m ms =>
    (m :: ms).foldl applyMark (match style with
      | some s => { a with positional := a.positional ++ [some [AttrList.word s]] }
      | none => a)

/-- the ids the attribute sets -/
def Written.ids : Written → Nat
  | .shorthand _ m ms => ((m :: ms).filter (·.1 = .id)).length
  | _ => 0

/-- a quoted value: it does not hold its own mark, a closing bracket or an attribute reference, and holds an
even number of the other mark -/
def okValue (d : Bool) (v : List Tk) : Bool :=
  v.all (fun t => t.kind ≠ (quote d).kind && t.kind ≠ CloseBracket && t.kind ≠ AttrRef)
    && (v.filter (·.kind = other (quote d).kind)).length % 2 = 0

/-- a name that is not treated specially -/
def okName (k : List Char) : Bool :=
  k ≠ "options".toList && k ≠ "opts".toList && k ≠ "role".toList && k ≠ "id".toList

/-- the attribute is written as the syntax asks -/
def Written.ok : Written → Bool
  | .quoted d v => okValue d v
  | .namedWord k _ => okName k
  | .named k d v => okName k && okValue d v
  | _ => true

/-- an attribute with spaces around it -/
structure Spaced where
  before : List Tk
  attr : Written
  after : List Tk
deriving DecidableEq, Repr

def Spaced.toks (s : Spaced) : List Tk := s.before ++ s.attr.toks ++ s.after
/-- only spaces around it -/
def Spaced.ok (s : Spaced) : Bool :=
  s.before.all (·.kind = Whitespace) && s.after.all (·.kind = Whitespace) && s.attr.ok

/-- the list between its brackets -/
def writeList : Spaced → List Spaced → List Tk
  | s, [] => s.toks
  | s, s' :: ss => s.toks ++ ⟨Comma, [',']⟩ :: writeList s' ss

end Verif.AttrList
