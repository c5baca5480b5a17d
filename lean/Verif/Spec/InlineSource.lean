import Verif.Model.Inlines
/-!
Specification: what part of the source an inline node stands for.

`Reads ns s` says that the nodes `ns` are what is written as `s`: nothing of the text is left out, nothing is there twice
or at another place. It says nothing about which of several readings is the right one.
-/
namespace Verif.Inlines
open Verif TokenKind

/-- nothing, or one space -/
def OptSpace (s : List Char) : Prop := s = [] ∨ s = [' ']
/-- nothing, or a line end -/
def OptNewline (s : List Char) : Prop := s = [] ∨ s = ['\n']
/-- white space inside a line -/
def Blank (s : List Char) : Prop := ∀ c ∈ s, c = ' ' ∨ c = '\t' ∨ c = '\x0b' ∨ c = '\x0c'

/-- the sources of a sign -/
def symSource : Sym → List Char
  | .copyright => "(C)".toList
  | .trademark => "(TM)".toList
  | .registered => "(R)".toList
  | .emDash => "--".toList
  | .tripleDash => "---".toList
  | .ellipsis => "...".toList
  | .singleRightArrow => "->".toList
  | .doubleRightArrow => "=>".toList
  | .singleLeftArrow => "<-".toList
  | .doubleLeftArrow => "<=".toList

/-- the sources of a special character -/
def specialSource : Special → List Char
  | .ampersand => ['&']
  | .lessThan => ['<']
  | .greaterThan => ['>']

/-- the sources of a curly quote -/
def curlySource : Curly → List Char
  | .leftDouble => "\"`".toList
  | .rightDouble => "`\"".toList
  | .leftSingle => "'`".toList
  | .rightSingle => "`'".toList
  | .apostrophe => "'".toList

/-- the sources of a node without children -/
inductive LeafSrc : Leaf → List Char → Prop
  | text (s) : LeafSrc (.text s) s
  | newline : LeafSrc .newline ['\n']
  | special (k) : LeafSrc (.special k) (specialSource k)
  | symbol (k) : LeafSrc (.symbol k) (symSource k)
  | curly (k) : LeafSrc (.curly k) (curlySource k)
  | spaces (s) : LeafSrc (.spaces s) s
  | link (s) : LeafSrc (.link s) s
  | angle (s) : LeafSrc (.angle s) ('<' :: s ++ ['>'])
  | passthru (s) : LeafSrc (.passthru s) s
  /-- a backslash that is not shown -/
  | discarded : LeafSrc .discarded ['\\']
  /-- a space and a plus sign at the end of a line, with the line end -/
  | lineBreak (a b) : Blank a → OptNewline b → LeafSrc .lineBreak (a ++ '+' :: b)
  /-- a dash takes the spaces around it -/
  | dashes (n a b) : n = 2 ∨ n = 3 → OptSpace a → OptSpace b → LeafSrc (.dashes n .none) (a ++ List.replicate n '-' ++ b)
  /-- a dash at the start of a line takes the line end -/
  | leading (n b) : n = 2 ∨ n = 3 → OptSpace b → LeafSrc (.dashes n .leading) ('\n' :: List.replicate n '-' ++ b)
  /-- so does one at the end of a line, which counts as two dashes even if it is three -/
  | trailing (k a b) : k = 2 ∨ k = 3 → OptSpace a → OptSpace b →
      LeafSrc (.dashes 2 .trailing) (a ++ List.replicate k '-' ++ b ++ ['\n'])

/-- the text of tokens; an attribute reference counts as the text of its value, whose tokens come after it -/
def srcOf (ts : List Tok) : List Char := (ts.filter (·.kind ≠ AttrRef)).flatMap (·.lexeme)

/-- the marks of a span -/
def marks : Span → List (String × String)
  | .bold => [("*", "*"), ("**", "**")]
  | .italic => [("_", "_"), ("__", "__")]
  | .mono => [("`", "`"), ("``", "``")]
  | .litMono => [("`+", "+`")]
  | .highlight => [("#", "#"), ("##", "##")]
  | .text => [("#", "#"), ("##", "##")]
  | .superscript => [("^", "^")]
  | .subscript => [("~", "~")]

/-- the attribute list before a span -/
def pendSource : Option Pend → List Char
  | some p => srcOf p.toks
  | none => []

/-- what stands before and after the text of a node -/
inductive Marked : Wrap → List Char → List Char → Prop
  /-- marked text is `text` if it has attributes, `highlight` if not -/
  | span (k p o c) : (o, c) ∈ marks k → (k = .highlight → p = none) → (k = .text → p.isSome) →
      Marked (.span k p) (pendSource p ++ o.toList) c.toList
  | double : Marked (.quote true) "\"`".toList "`\"".toList
  | single : Marked (.quote false) "'`".toList "`'".toList

/-- the text without its backslashes -/
def unescaped (s : List Char) : List Char := s.filter (· ≠ '\\')

/-- what is written for the address of a link with brackets -/
inductive Address : List Char → List Char → Prop
  | url (target) : Address target target
  | link : unescaped target = unescaped t → Address target ("link:".toList ++ t)

/-- the text of a link may stand in quotes -/
def Quotes (q : List Char) : Prop := q = [] ∨ q = ['"'] ∨ q = ['\'']

/-- what stands before the text of a footnote or of a cross reference with brackets -/
inductive NoteMark : Wrap → List Char → Prop
  | footnote : NoteMark (.footnote none) "footnote:[".toList
  | named : unescaped name = unescaped t → NoteMark (.footnote (some name)) ("footnote:".toList ++ t ++ "[".toList)
  | xref : unescaped target = unescaped t → NoteMark (.xrefMacro target) ("xref:".toList ++ t ++ "[".toList)

mutual
/-- the sources of a node -/
inductive Src : Node → List Char → Prop
  | leaf : LeafSrc l s → Src (.leaf l) s
  /-- a line end right after the opening mark is not shown -/
  | closed : Marked w o c → OptNewline e → Srcs ch s → Src (.wrap w ch) (o ++ e ++ s ++ c)
  | xref : unescaped target = unescaped t → Src (.wrap (.xref target false) []) ("<<".toList ++ t ++ ">>".toList)
  | xrefComma : unescaped target = unescaped t → Blank b →
      Src (.wrap (.xref target false) []) ("<<".toList ++ t ++ ',' :: b ++ ">>".toList)
  | xrefText : unescaped target = unescaped t → Blank b → Srcs ch s →
      Src (.wrap (.xref target true) ch) ("<<".toList ++ t ++ ',' :: b ++ s ++ ">>".toList)
  | xrefUnclosed : unescaped target = unescaped t → Blank b → Unclosed ch s →
      Src (.wrap (.xref target true) ch) ("<<".toList ++ t ++ ',' :: b ++ s ++ ">>".toList)
  | anchor : Src (.wrap (.anchor name false) []) ("[[".toList ++ name ++ "]]".toList)
  | anchorComma : Src (.wrap (.anchor name false) []) ("[[".toList ++ name ++ ",]]".toList)
  /-- the text of an anchor is shown elsewhere -/
  | anchorText : Src (.wrap (.anchor name true) ch) ("[[".toList ++ name ++ ',' :: s ++ "]]".toList)
  | linkEmpty : Address target x → Src (.wrap (.link target false false) []) (x ++ "[]".toList)
  | linkText : Address target x → Quotes q → Srcs ch s →
      Src (.wrap (.link target false true) ch) (x ++ '[' :: (q ++ s ++ q) ++ [']'])
  /-- a caret at the end of the text is not shown -/
  | linkWindow : Address target x → Quotes q → Srcs ch s →
      Src (.wrap (.link target true true) ch) (x ++ '[' :: (q ++ (s ++ ['^']) ++ q) ++ [']'])
  | linkUnclosed : Address target x → Quotes q → Unclosed ch s →
      Src (.wrap (.link target false true) ch) (x ++ '[' :: (q ++ s ++ q) ++ [']'])
  /-- a line end right after a footnote or a cross reference with brackets is not shown
  (`C93_line_end_violated`) -/
  | note : NoteMark w o → Srcs ch s → OptNewline e → Src (.wrap w ch) (o ++ s ++ [']'] ++ e)
/-- the sources of a list of nodes -/
inductive Srcs : List Node → List Char → Prop
  | nil : Srcs [] []
  | cons : Src n s → Srcs ns t → Srcs (n :: ns) (s ++ t)
/-- nodes that end with one whose closing mark is missing -/
inductive Unclosed : List Node → List Char → Prop
  | last : Srcs ns s → Marked w o c → OptNewline e → Srcs ch t → Unclosed (ns ++ [.wrap w ch]) (s ++ (o ++ e ++ t))
  | inner : Srcs ns s → Marked w o c → OptNewline e → Unclosed ch t → Unclosed (ns ++ [.wrap w ch]) (s ++ (o ++ e ++ t))
  | note : Srcs ns s → NoteMark w o → Srcs ch t → Unclosed (ns ++ [.wrap w ch]) (s ++ (o ++ t))
  | noteInner : Srcs ns s → NoteMark w o → Unclosed ch t → Unclosed (ns ++ [.wrap w ch]) (s ++ (o ++ t))
end

/-- the nodes are what is written as `s` -/
def Reads (ns : List Node) (s : List Char) : Prop := Srcs ns s ∨ Unclosed ns s

/-- the text of lines -/
def sourceOf : List Line → List Char
  | [] => []
  | l :: ls => srcOf l.toks ++ ls.flatMap (fun l => '\n' :: srcOf l.toks)

/-! ### the text that the theorem is about -/

/-- a token is written as its kind says -/
def Spelled (t : Tok) : Prop :=
  match t.kind with
  | Star => t.lexeme = ['*']
  | Underscore => t.lexeme = ['_']
  | Backtick => t.lexeme = ['`']
  | Hash => t.lexeme = ['#']
  | Caret => t.lexeme = ['^']
  | Tilde => t.lexeme = ['~']
  | Plus => t.lexeme = ['+']
  | OpenBracket => t.lexeme = ['[']
  | CloseBracket => t.lexeme = [']']
  | LessThan => t.lexeme = ['<']
  | GreaterThan => t.lexeme = ['>']
  | Comma => t.lexeme = [',']
  | DoubleQuote => t.lexeme = ['"']
  | SingleQuote => t.lexeme = ['\'']
  | Backslash => t.lexeme = ['\\']
  | Ampersand => t.lexeme = ['&']
  | Newline => t.lexeme = ['\n']
  | OpenParens => t.lexeme = List.replicate t.lexeme.length '('
  | CloseParens => t.lexeme = List.replicate t.lexeme.length ')'
  | Dashes => t.lexeme = List.replicate t.lexeme.length '-'
  | Dots => t.lexeme = List.replicate t.lexeme.length '.'
  | EqualSigns => t.lexeme = List.replicate t.lexeme.length '='
  | ForwardSlashes => t.lexeme = List.replicate t.lexeme.length '/'
  | CalloutNumber => t.lexeme = '<' :: (t.lexeme.drop 1).dropLast ++ ['>']
  | Whitespace => Blank t.lexeme
  | AttrRef => t.lexeme.head? = some '{'
  | Discard => t.lexeme = []
  | _ => True

/-- A line of text that is kept; `refs`: it may have attribute references. Each condition rules out a way to lose or
repeat text (theorems `C66_…_violated`). -/
structure Kept (refs : Bool) (l : List Tok) : Prop where
  spelled : ∀ t ∈ l, Spelled t
  /-- no escaped closing bracket -/
  bracket : hasSeq [.kind Backslash, .kind CloseBracket] l = false
  /-- no curly quote after an attribute list -/
  quote : hasSeq [.kind CloseBracket, .kind Backtick, .oneOf [DoubleQuote, SingleQuote]] l = false
  /-- no text of a link that looks like a comment -/
  slashes : hasSeq [.kind OpenBracket, .len 2 ForwardSlashes] l = false ∧
    hasSeq [.kind OpenBracket, .oneOf [DoubleQuote, SingleQuote], .len 2 ForwardSlashes] l = false
  none : refs = false → ∀ t ∈ l, t.kind ≠ AttrRef
  /-- no text in which references are not replaced -/
  literal : refs = true → hasSeq [.kind Backtick, .kind Plus] l = false
  escaped : refs = true → hasSeq [.kind Backslash, .kind AttrRef] l = false
  /-- no reference beside a link or an anchor -/
  url : refs = true → (∀ t ∈ l, t.kind ≠ AttrRef) ∨
    (∀ t ∈ l, t.kind ≠ UriScheme ∧ ¬ (t.kind = MacroName ∧ t.lexeme = "link:".toList)) ∧ hasSeq [.kind OpenBracket, .kind OpenBracket] l = false

/-- a whole line of text that is kept, not a comment -/
structure KeptLine (refs : Bool) (l : Line) : Prop where
  kept : Kept refs l.toks
  nonempty : l.toks ≠ []
  full : l.full = true
  comment : isComment l = false

/-! ### the same for a text -/

/-- `x` stands somewhere in the text -/
def occurs (x : List Char) : List Char → Bool
  | [] => x.isEmpty
  | c :: cs => x.isPrefixOf (c :: cs) || occurs x cs

/-- Text that is kept: ASCII, no empty lines, no comment lines, no attribute references, no escaped closing bracket, no
curly quote right after a closing bracket and no two slashes right after an opening bracket. -/
structure PlainText (s : List Char) : Prop where
  ascii : ∀ c ∈ s, c.toNat < 128
  without : ∀ x ∈ ["\n\n", "\n//", "\r", "{", "\\]", "]`\"", "]`'", "[//", "[\"//", "['//"], occurs x.toList ('\n' :: s ++ ['\n']) = false

end Verif.Inlines
