import Verif.Model.Token
import Verif.Model.Subs
import Verif.Model.AttrList
import Verif.Model.CollectText
/-!
Model of the inline parser: `parser/src/tasks/parse_inlines/mod.rs` with the parts of `inline_utils.rs`, `line.rs`,
`contiguous_lines.rs` and `collect_text.rs` that it uses.

Simplifications.
* Nodes have no locations. A token keeps the byte before it in the source (the only use of its location in deciding what
  is markup) and a number for its location (compared to find the tokens put in for an attribute reference).
* Passthroughs have been taken out of the lines before (`mod.rs:68-71`; modelled in `Model/Passthrough.lean`), so
  `PreprocPassthru` tokens are leaves here.
* Of the macros with a bracket, links (`https://x[text]`, `link:x[text]`), cross references (`xref:x[text]`) and footnotes
  (`footnote:x[text]`) are modelled. The other macros, links with a list of attributes in the brackets, index terms,
  double-plus attribute values and bibliography anchors are not: reaching one of them is the result `unsupported`.
* The three nodes of a link in angle brackets (`Discarded`, `Link`, `Discarded`) are one leaf here.
* Text is committed only when a node is pushed; the code also commits between tokens that are not adjacent in the source,
  which gives the same nodes because `commit_inlines` joins texts.
* The tables of anchors, references and callouts are not updated here.
* A panic (`unwrap`, `assert!`, `debug_assert!`) is the result `panic`; running out of the step budget is `diverged`.
-/
namespace Verif.Inlines
open Verif TokenKind

/-- `parser/src/token.rs:6-13` — `Token`, with the byte before it (`root_lexer.rs:161-163`) -/
structure Tok where
  kind : TokenKind
  lexeme : List Char
  before : Option Char := none
  /-- `attr_replacement`: the token comes from the value of an attribute -/
  attr : Bool := false
  loc : Nat := 0
deriving DecidableEq, Repr

/-- `token.rs:126-128` -/
def Tok.len (t : Tok) : Nat := t.lexeme.length
/-- the token as the model of attribute lists sees it -/
def Tok.tk (t : Tok) : Tk := ⟨t.kind, t.lexeme⟩

/-- `parser/src/token.rs:71-77` — `TokenSpec` -/
inductive TSpec where
  | kind (k : TokenKind)
  | len (n : Nat) (k : TokenKind)
  | not (k : TokenKind)
  | oneOf (ks : List TokenKind)
  | notOneOf (ks : List TokenKind)
deriving DecidableEq, Repr

/-- `token.rs:235-243` — `satisfies` -/
def TSpec.sat (s : TSpec) (t : Tok) : Bool :=
  match s with
  | .kind k => t.kind = k
  | .not k => t.kind ≠ k
  | .len n k => t.kind = k && t.len = n
  | .oneOf ks => ks.contains t.kind
  | .notOneOf ks => !ks.contains t.kind

/-- `token.rs:275-277` — `kind` of an optional token -/
def isKind (k : TokenKind) (t : Option Tok) : Bool :=
  match t with
  | some t => t.kind = k
  | none => false
/-- `token.rs:287-289` — `satisfies` of an optional token -/
def satOpt (s : TSpec) (t : Option Tok) : Bool :=
  match t with
  | some t => s.sat t
  | none => false
/-- `token.rs:295-297` — `is_attr_replacement` of an optional token -/
def attrOpt (t : Option Tok) : Bool :=
  match t with
  | some t => t.attr
  | none => false
/-- `token.rs:200-202` — `is_whitespaceish` -/
def wsish (t : Option Tok) : Bool := isKind Whitespace t || isKind Newline t

/-- `parser/src/line.rs:5-11` — `Line`: what is left of it, and how many tokens it had -/
structure Line where
  toks : List Tok
  orig : Nat
deriving DecidableEq, Repr

/-- `line.rs:14-22` — `Line::new` -/
def Line.new (toks : List Tok) : Line := ⟨toks, toks.length⟩
/-- `line.rs:908-910` — `is_fully_unconsumed` -/
def Line.full (l : Line) : Bool := l.toks.length = l.orig

/-- every spec fits the token at its position -/
def matchSeq : List TSpec → List Tok → Bool
  | [], _ => true
  | _ :: _, [] => false
  | s :: ss, t :: ts => s.sat t && matchSeq ss ts

/-- `line.rs:380-391`, `417-419` — `starts_with_seq` -/
def startsSeq (specs : List TSpec) (l : List Tok) : Bool := !specs.isEmpty && matchSeq specs l

/-- `line.rs:429-455` — `index_of_seq` -/
def indexOfSeq (specs : List TSpec) : List Tok → Option Nat
  | [] => none
  | t :: ts => if matchSeq specs (t :: ts) then some 0 else (indexOfSeq specs ts).map (· + 1)

/-- `line.rs:433-455` — `index_of_seq_from` -/
def indexOfSeqFrom (specs : List TSpec) (l : List Tok) (start : Nat) : Option Nat :=
  (indexOfSeq specs (l.drop start)).map (· + start)

/-- `line.rs:421-423` — `contains_seq` -/
def hasSeq (specs : List TSpec) (l : List Tok) : Bool := (indexOfSeq specs l).isSome

/-- `inline_utils.rs:225-227` — `contains_seq` over the line and the lines after it -/
def containsSeq (specs : List TSpec) (l : List Tok) (lines : List Line) : Bool :=
  hasSeq specs l || lines.any (fun x => hasSeq specs x.toks)

/-- `parse_context.rs:45-60` — `InlineCtx` -/
inductive Ctx where
  | none
  | linkMacroAttrs
  | specs (l : List TSpec)
deriving DecidableEq, Repr

/-- `parse_context.rs:53-59` -/
def Ctx.specs? : Ctx → Option (List TSpec)
  | .specs l => some l
  | _ => Option.none

/-- `line.rs:561-571` — an outer span that ends first keeps the inner one from ending -/
def endsBefore (ctx : Ctx) (l : List Tok) (n : Nat) : Bool :=
  match ctx.specs? with
  | none => false
  | some specs =>
    match indexOfSeq specs l with
    | none => false
    | some m => m < n && !attrOpt l[m]?

/-- `line.rs:535-541` — the token before is a mark of the same kind -/
def inRun (stop : List TSpec) (prev : Option Tok) : Bool :=
  stop.length = 1 && match prev with
    | some t => stop.head? = some (.kind t.kind) && !t.attr
    | none => false

/-- `line.rs:547-554` — the token after is a mark of the same kind -/
def runGoesOn (stop : List TSpec) (next : Option Tok) : Bool :=
  match next with
  | some t => [Underscore, Star, Backtick, Hash].contains t.kind && stop = [.kind t.kind] && !t.attr
  | none => false

/-- `line.rs:521-572` — `terminates_constrained_in`; the first number is a step budget (one more than the tokens is
enough: every round starts further to the right) -/
def termFrom (stop : List TSpec) (ctx : Ctx) (l : List Tok) : Nat → Nat → Bool
  | 0, _ => false
  | fuel + 1, start =>
    match indexOfSeqFrom stop l start with
    | none => false
    | some 0 => false
    | some (p + 1) =>
      if inRun stop l[p]? then termFrom stop ctx l fuel (p + 2)
      else if isKind Word l[p + 2]? || wsish l[p]? then false
      else if runGoesOn stop l[p + 2]? then termFrom stop ctx l fuel (p + 2)
      else if isKind SingleQuote l[p + 2]? && stop = [.kind Backtick] then false
      else !endsBefore ctx l (p + 1)

/-- `line.rs:517-519` — `terminates_constrained` -/
def terminates (stop : List TSpec) (ctx : Ctx) (l : List Tok) : Bool := termFrom stop ctx l (l.length + 1) 0

/-- `line.rs:369-378` — `first_nonescaped`; `esc`: the token before is a backslash -/
def firstNonescaped (k : TokenKind) : Bool → List Tok → Option Nat
  | _, [] => none
  | esc, t :: ts =>
    if t.kind = k ∧ !esc then some 0 else (firstNonescaped k (t.kind = Backslash) ts).map (· + 1)

/-- `line.rs:496-515` — `no_whitespace_until` -/
def noWhitespaceUntil (k : TokenKind) : Bool → List Tok → Bool
  | _, [] => false
  | true, _ :: ts => noWhitespaceUntil k false ts
  | false, t :: ts =>
    if t.kind = k then true
    else if t.kind = AttrRef ∧ t.lexeme = "{sp}".toList then noWhitespaceUntil k true ts
    else if t.kind = Whitespace then false
    else noWhitespaceUntil k false ts

/-- `line.rs:912-923` — `continues_formatted_text_attr_list` -/
def continuesFormatted (l : List Tok) : Bool :=
  satOpt (.notOneOf [OpenBracket, CloseBracket]) l.head? &&
    match indexOfSeq [.kind CloseBracket, .oneOf [Hash, Star, Underscore, Backtick, Tilde, Caret]] l with
    | none => false
    | some i => i ≠ 0 && firstNonescaped CloseBracket false l = some i

/-- `line.rs:925-936` — `continues_inline_anchor` -/
def continuesAnchor (l : List Tok) : Bool :=
  startsSeq [.kind OpenBracket, .oneOf [Word, Colon]] l &&
    match indexOfSeq [.kind CloseBracket, .kind CloseBracket] l with
    | none => false
    | some i =>
      match firstNonescaped CloseBracket false l with
      | none => true
      | some p => p = i

/-- `line.rs:486-493` — `continues_xref_shorthand` -/
def continuesXref (l : List Tok) : Bool :=
  isKind LessThan l.head? && l.length > 3 && hasSeq [.kind GreaterThan, .kind GreaterThan] l &&
    !isKind GreaterThan l[1]? && !isKind LessThan l[1]? && !isKind Whitespace l[1]?

/-- `line.rs:457-466` — `continues_valid_callout_nums` -/
def continuesCallouts (l : List Tok) : Bool := l.all (fun t => t.kind = Whitespace || t.kind = CalloutNumber)

/-- `line.rs:469-484` — `continues_inline_macro` -/
def continuesMacro (prev : Tok) (l : List Tok) : Bool :=
  !isKind Whitespace l.head? &&
    match indexOfSeq [.kind OpenBracket] l, indexOfSeq [.not Backslash, .kind CloseBracket] l with
    | some o, some e => o ≤ e && (!isKind Colon l.head? || prev.lexeme = "xref:".toList)
    | _, _ => false

/-! ### nodes -/

/-- `ast/src/inline.rs:81-94` — `SymbolKind` -/
inductive Sym where
  | copyright | trademark | registered | emDash | tripleDash | ellipsis
  | singleRightArrow | doubleRightArrow | singleLeftArrow | doubleLeftArrow
deriving DecidableEq, Repr

/-- `ast/src/inline.rs:67-71` — `SpecialCharKind` -/
inductive Special where
  | ampersand | lessThan | greaterThan
deriving DecidableEq, Repr

/-- `ast/src/inline.rs:58-64` — `CurlyKind` -/
inductive Curly where
  | leftDouble | rightDouble | leftSingle | rightSingle | apostrophe
deriving DecidableEq, Repr

/-- `ast/src/inline.rs:74-78` — `AdjacentNewline` -/
inductive Adj where
  | none | leading | trailing
deriving DecidableEq, Repr

/-- `ast/src/inline.rs:40-55` — `SpanKind` -/
inductive Span where
  | bold | italic | mono | litMono | highlight | text | superscript | subscript
deriving DecidableEq, Repr

/-- `ast/src/inline.rs:17-37` — the inline nodes without inline nodes in them -/
inductive Leaf where
  | text (s : List Char)
  | newline
  | lineComment (s : List Char)
  | special (k : Special)
  | symbol (k : Sym)
  | dashes (n : Nat) (adj : Adj)
  | curly (k : Curly)
  | spaces (s : List Char)
  | lineBreak
  | discarded
  | tuck (s : List Char)
  | callout (s : List Char)
  /-- a bare URL or an email address (`Macro(Link { attrs: None, .. })`) -/
  | link (s : List Char)
  /-- a URL in angle brackets, with the two brackets that are not shown -/
  | angle (s : List Char)
  | passthru (s : List Char)
deriving DecidableEq, Repr

/-- the attribute list before a span: its tokens with the brackets, and what they mean -/
structure Pend where
  toks : List Tok
  attrs : AttrList.Attrs
deriving DecidableEq, Repr

/-- `ast/src/inline.rs:17-37` — the inline nodes with inline nodes in them -/
inductive Wrap where
  | span (k : Span) (attrs : Option Pend)
  | quote (double : Bool)
  /-- `<<target,text>>`; the flag says whether there is a text -/
  | xref (target : List Char) (hasText : Bool)
  /-- `[[id,reftext]]`; the code keeps the text in the table of anchors -/
  | anchor (id : List Char) (hasText : Bool)
  /-- a link with brackets (`Macro(Link { attrs: Some(_), .. })`): its address, whether it opens in a new window, and
  whether there is a text in the brackets -/
  | link (target : List Char) (caret : Bool) (hasText : Bool)
  /-- `xref:target[text]` -/
  | xrefMacro (target : List Char)
  /-- `footnote:id[text]` -/
  | footnote (id : Option (List Char))
  /-- `((term))` (`IndexTermType::Visible`); only `Model/IndexTerms.lean` makes these -/
  | indexTerm
  /-- `(((a,b,c)))` (`IndexTermType::Concealed`): its nodes are its terms -/
  | concealed
  /-- a term of a concealed index term -/
  | concealedTerm
deriving DecidableEq, Repr

/-- `ast/src/inline.rs:17-37` — `Inline` -/
inductive Node where
  | leaf (l : Leaf)
  | wrap (w : Wrap) (ch : List Node)

/-- `inline_utils.rs:87-90` — `Accum` -/
structure Acc where
  nodes : List Node
  text : List Char

/-- `collect_text.rs:72-87` — `commit_inlines` (locations: `Model/CollectText.lean`) -/
def Acc.commit (a : Acc) : Acc :=
  if a.text = [] then a
  else match a.nodes.getLast? with
    | some (.leaf (.text s)) => ⟨a.nodes.dropLast ++ [.leaf (.text (s ++ a.text))], []⟩
    | _ => ⟨a.nodes ++ [.leaf (.text a.text)], []⟩

/-- `inline_utils.rs:103-107` — `push_node` -/
def Acc.push (a : Acc) (n : Node) : Acc := ⟨a.commit.nodes ++ [n], []⟩
/-- `inline_utils.rs:103-107` — `push_node` of a node without children -/
def Acc.leaf (a : Acc) (l : Leaf) : Acc := a.push (.leaf l)
/-- `inline_utils.rs:178-187` — `push_text_token` -/
def Acc.putText (a : Acc) (s : List Char) : Acc := ⟨a.nodes, a.text ++ s⟩
/-- `mod.rs:888-893` — `push_unused_inline_attrs`; attribute references in the list (`replace_attr_vals`) have been
replaced by the tokens of their values -/
def Acc.unused (a : Acc) (p : Option Pend) : Acc :=
  match p with
  | some p => a.putText ((p.toks.filter (·.kind ≠ AttrRef)).flatMap (·.lexeme))
  | none => a

/-- `inline_nodes.rs:81-88` — `remove_trailing_newline` -/
def dropNewline (ns : List Node) : List Node :=
  match ns.getLast? with
  | some (.leaf .newline) => ns.dropLast
  | _ => ns
/-- `inline_nodes.rs:102-110` — `discard_trailing_newline` -/
def discardNewline (ns : List Node) : List Node :=
  match ns.getLast? with
  | some (.leaf .newline) => ns.dropLast ++ [.leaf .discarded]
  | _ => ns
/-- `inline_utils.rs:168-170` — a `Discarded` node at the end goes -/
def dropDiscarded (ns : List Node) : List Node :=
  match ns.getLast? with
  | some (.leaf .discarded) => ns.dropLast
  | _ => ns

/-- `inline_utils.rs:165-175` — `trimmed_inlines`; the number is a step budget (the number of nodes is enough) -/
def trimFrom : Nat → List Node → List Node
  | 0, ns => ns
  | fuel + 1, ns =>
    match ns.getLast? with
    | some (.leaf (.lineComment _)) => trimFrom fuel (dropDiscarded (dropNewline ns.dropLast))
    | _ => ns
/-- `inline_utils.rs:165-175` — `trimmed_inlines` -/
def trimmed (ns : List Node) : List Node := trimFrom (ns.length + 1) ns

/-- `mod.rs:895-903` — `finish_inlines` -/
def finish (a : Acc) (p : Option Pend) : List Node := trimmed (a.unused p).commit.nodes

/-- `inline_utils.rs:148-163` — `maybe_push_joining_newline` -/
def joinNewline (a : Acc) (lines : List Line) : Acc :=
  if lines.isEmpty then a
  else
    let c := a.commit
    match c.nodes.getLast? with
    | some (.leaf (.dashes _ .none)) => ⟨c.nodes.dropLast ++ [.leaf (.dashes 2 .trailing)], []⟩
    | _ => c.leaf .newline

/-- `mod.rs:1136-1163` — `push_newline_if_needed` -/
def newlineIfNeeded (a : Acc) (lines : List Line) : Acc :=
  match lines with
  | l :: _ => if l.full then a.leaf .newline else a
  | [] => a

/-- `contiguous_lines.rs:106-110` — `restore_if_nonempty` -/
def restore (l : Line) (lines : List Line) : List Line := if l.toks.isEmpty then lines else l :: lines

/-- `inline_utils.rs:249-251` — `is_word_char`; letters and digits outside ASCII are not told apart from other
characters here: the letters are a parameter -/
def wordChar (alnum : Char → Bool) (c : Char) : Bool := alnum c || c = '_'

/-- what the parser asks of its surroundings -/
structure Env where
  /-- `mod.rs:999-1021` — `should_stop_at` -/
  stops : Line → Bool
  /-- `char::is_alphanumeric` -/
  alnum : Char → Bool
  /-- `table_cell_ctx != TableCellContext::None` -/
  tableCell : Bool := false
  /-- `custom_line_comment` -/
  comment : Option (List Char) := none

/-- what to do after a token -/
inductive Act where
  /-- go on in the line -/
  | next (acc : Acc) (pend : Option Pend) (line : Line)
  /-- go on with the lines -/
  | brk (acc : Acc) (pend : Option Pend) (lines : List Line)
  /-- `mod.rs:947-997` — `parse_node`: parse up to the stop tokens, push the node, go on with the lines -/
  | nest (w : Wrap) (stop : List TSpec) (ctx : Ctx) (subs : Substitutions) (acc : Acc) (pend : Option Pend)
      (lines : List Line)
  /-- parse a line of its own, push the node, go on in the line -/
  | sub (w : Wrap) (inner : Option Line) (acc : Acc) (pend : Option Pend) (line : Line)
  /-- `parse_attr_list.rs:150-159` — parse the text of a link, push the node, go on in the line -/
  | link (target : List Char) (caret : Bool) (inner : Line) (acc : Acc) (pend : Option Pend) (line : Line)
  /-- `mod.rs:164-210` — parse up to a closing bracket, push the node, go on with the lines -/
  | note (w : Wrap) (acc : Acc) (pend : Option Pend) (lines : List Line)
  | panic
  | unsupported

/-! ### the cases of the `match` in `parse_inlines_until`

Each group of cases is a function that gives `none` if no case of the group applies. -/

variable (env : Env) (subs : Substitutions) (stop : List TSpec) (ctx : Ctx) (acc : Acc) (pend : Option Pend)

/-- `mod.rs:84-86` — an attribute list before a span -/
def attrsCase (t : Tok) (line : Line) : Option Act :=
  if t.kind = OpenBracket ∧ subs.contains .inlineFormatting ∧ continuesFormatted line.toks then
    match AttrList.parseFormatted (line.toks.map Tok.tk) with
    | none => some .panic
    | some (a, rest) =>
      let n := line.toks.length - rest.length
      some (.next acc (some ⟨t :: line.toks.take n, a⟩) ⟨line.toks.drop n, line.orig⟩)
  else none

/-- `mod.rs:93-107` — the sign for a word in parentheses -/
def parensSign (s : List Char) : Option Sym :=
  if s = "C".toList then some .copyright
  else if s = "TM".toList then some .trademark
  else if s = "R".toList then some .registered
  else none

/-- `inline_utils.rs:109-142` — `push_emdash` -/
def emdash (t : Tok) (line : Line) : Act :=
  let last := acc.text.getLast?
  let nextTok := line.toks.head?
  let next := nextTok.bind (fun n => n.lexeme.head?)
  if last.any (wordChar env.alnum) ∧ next.any (wordChar env.alnum) then
    .next (acc.leaf (.symbol (if t.len = 2 then .emDash else .tripleDash))) pend line
  else if last = none ∧ next = none then .next (acc.putText t.lexeme) pend line
  else if (last = none ∨ last = some ' ') ∧ (next = none ∨ next = some ' ') then
    let (acc, adj) :=
      if last.isSome then ((⟨acc.nodes, acc.text.dropLast⟩ : Acc), Adj.none)
      else match acc.nodes.getLast? with
        | some (.leaf .newline) => (⟨acc.nodes.dropLast, acc.text⟩, Adj.leading)
        | _ => (acc, Adj.none)
    let acc := acc.leaf (.dashes t.len adj)
    match line.toks with
    | [] => .next acc pend line
    | n :: ts =>
      match n.lexeme with
      | [] => .panic
      | _ :: cs => .next acc pend ⟨{ n with lexeme := cs, kind := if cs.isEmpty then Discard else Word } :: ts, line.orig⟩
  else .next (acc.putText t.lexeme) pend line

/-- the line without its first tokens -/
def Line.drop (l : Line) (n : Nat) : Line := ⟨l.toks.drop n, l.orig⟩

/-- `index_term.rs:243-251`, `line.rs:574-587` — `terminates` (whether it gives a length) -/
def endsIndexTerm (line : Line) (lines : List Line) : Bool :=
  let first (l : List Tok) : Bool := (l.find? (·.kind = CloseParens)).any (fun t => t.len ≥ 2)
  !isKind CloseParens line.toks.head? && (first line.toks || lines.any (fun l => first l.toks))

/-- `mod.rs:88-146` — replacements of characters -/
def replaceCase (t : Tok) (line : Line) (lines : List Line) : Option Act :=
  let r := subs.contains .charReplacement
  if t.kind = OpenParens ∧ r ∧ t.len = 1 ∧ startsSeq [.kind Word, .len 1 CloseParens] line.toks then
    match (line.toks.head?.map (·.lexeme)).bind parensSign with
    | some s => some (.next (acc.leaf (.symbol s)) pend (line.drop 2))
    | none => some (.next (acc.putText t.lexeme) pend line)
  else if t.kind = OpenParens ∧ t.len ≥ 2 ∧ subs.contains .macros then
    if endsIndexTerm line lines then some .unsupported
    else some (.next ((acc.unused pend).putText t.lexeme) none line)
  else if t.kind = Dashes ∧ r ∧ (t.len = 2 ∨ t.len = 3) then some (emdash env acc pend t line)
  else if t.kind = Dots ∧ r ∧ t.len = 3 then some (.next (acc.leaf (.symbol .ellipsis)) pend line)
  else if t.kind = Dashes ∧ t.len = 1 ∧ r ∧ isKind GreaterThan line.toks.head? then
    some (.next (acc.leaf (.symbol .singleRightArrow)) pend (line.drop 1))
  else if t.kind = EqualSigns ∧ t.len = 1 ∧ r ∧ isKind GreaterThan line.toks.head? then
    some (.next (acc.leaf (.symbol .doubleRightArrow)) pend (line.drop 1))
  else if t.kind = LessThan ∧ r ∧ satOpt (.len 1 Dashes) line.toks.head? then
    some (.next (acc.leaf (.symbol .singleLeftArrow)) pend (line.drop 1))
  else if t.kind = LessThan ∧ r ∧ satOpt (.len 1 EqualSigns) line.toks.head? then
    some (.next (acc.leaf (.symbol .doubleLeftArrow)) pend (line.drop 1))
  else none

/-- `line.rs:590-604` — `consume_to_string_until`: references and backslashes are left out -/
def plainOf (ts : List Tok) : List Char :=
  (ts.filter (fun t => t.kind ≠ AttrRef && t.kind ≠ Backslash)).flatMap (·.lexeme)

/-- `parse_attr_list.rs:111-134` — the loop of `_parse_link_macro_attr_list`: the number of tokens of the text, or `none`
if it is to be read as a list of attributes; `dq`, `nested`: inside double quotes, inside brackets -/
def linkScan (last : TokenKind) (dq nested : Bool) : List Tok → Option Nat
  | [] => some 0
  | t :: ts =>
    if last = Backslash ∧ t.kind = CloseBracket ∧ nested then (linkScan t.kind dq false ts).map (· + 1)
    else if last = Backslash ∧ (t.kind = CloseBracket ∨ t.kind = OpenBracket ∨ t.kind = DoubleQuote) then
      (linkScan t.kind dq nested ts).map (· + 1)
    else if t.kind = DoubleQuote then (linkScan t.kind (!dq) nested ts).map (· + 1)
    else if t.kind = OpenBracket then (linkScan t.kind dq true ts).map (· + 1)
    else if t.kind = CloseBracket then
      if nested then (linkScan t.kind dq false ts).map (· + 1) else some 0
    else if t.kind = EqualSigns ∧ t.len = 1 ∧ !dq then none
    else (linkScan t.kind dq nested ts).map (· + 1)

/-- `parse_attr_list.rs:550-559` — `unquote` -/
def unquoteToks (l : List Tok) : List Tok :=
  if l.length > 1 ∧ ((isKind DoubleQuote l.head? ∧ isKind DoubleQuote l.getLast?) ∨
      (isKind SingleQuote l.head? ∧ isKind SingleQuote l.getLast?)) then l.tail.dropLast
  else l

/-- `mod.rs:236-245`, `920-927`, `parse_attr_list.rs:110-164` — what stands in the brackets of a link; `line` begins after
the opening bracket. An empty line makes `parse_inlines_until` panic (`mod.rs:28`); a text that is not followed by a
bracket fails a `debug_assert!` (without it the token is lost). -/
def linkAct (target : List Char) (line : Line) : Act :=
  match linkScan Eof false false line.toks.dropLast with
  | none => .unsupported
  | some n =>
    if isKind CloseBracket line.toks.head? then .sub (.link target false false) none acc pend (line.drop 1)
    else
      let inner := unquoteToks ((line.toks.take n).filter (·.kind ≠ AttrRef))
      if inner = [] then .panic
      else if isKind CloseBracket line.toks[n]? then
        .link target (line.toks.any (·.kind = Caret)) (Line.new inner) acc pend (line.drop (n + 1))
      else .panic

/-- `mod.rs:1102-1122` — `link_macro_blank_window_shorthand`, for the nodes of the text -/
def linkNode (target : List Char) (caret : Bool) (ns : List Node) : Node :=
  match ns.getLast? with
  | some (.leaf (.text s)) =>
    if caret && s.getLast? = some '^' then .wrap (.link target true true) (ns.dropLast ++ [.leaf (.text s.dropLast)])
    else .wrap (.link target false true) ns
  | _ => .wrap (.link target false true) ns

/-- `token.rs:111-124` — `to_url_scheme` -/
def knownScheme (s : List Char) : Bool :=
  s = "https://".toList || s = "http://".toList || s = "ftp://".toList || s = "irc://".toList || s = "mailto:".toList ||
    s = "file:///".toList

/-- the line from its first opening bracket on, without the bracket -/
def Line.inBrackets (l : Line) : Line := ⟨(l.toks.dropWhile (·.kind ≠ OpenBracket)).drop 1, l.orig⟩
/-- what stands before the first opening bracket -/
def beforeBracket (ts : List Tok) : List Tok := ts.takeWhile (·.kind ≠ OpenBracket)

/-- `mod.rs:915-945` — `parse_uri_scheme_macro` -/
def uriMacroAct (t : Tok) (line : Line) : Act :=
  if knownScheme t.lexeme then
    linkAct acc pend (t.lexeme ++ (beforeBracket line.toks).flatMap (·.lexeme)) line.inBrackets
  else .panic

/-- `mod.rs:147-345` — a macro with brackets -/
def macroAct (t : Tok) (line : Line) (lines : List Line) : Act :=
  if t.lexeme = "footnote:".toList then
    let id := if isKind OpenBracket line.toks.head? then none else some (plainOf (beforeBracket line.toks))
    .note (.footnote id) acc pend (restore line.inBrackets lines)
  else if t.lexeme = "xref:".toList then
    .note (.xrefMacro (plainOf (beforeBracket line.toks))) acc pend (restore line.inBrackets lines)
  else if t.lexeme = "link:".toList then
    if noWhitespaceUntil OpenBracket false line.toks then
      if startsSeq [.kind PreprocPassthru, .kind OpenBracket] line.toks then .unsupported
      else linkAct acc pend (plainOf (beforeBracket line.toks)) line.inBrackets
    else match line.toks with
      | n :: _ => .next ((acc.commit.putText t.lexeme).putText n.lexeme) pend (line.drop 1)
      | [] => .panic
  else .unsupported

/-- `mod.rs:147-366` — macros -/
def macroCase (t : Tok) (line : Line) (lines : List Line) : Option Act :=
  let m := subs.contains .macros
  if t.kind = MacroName ∧ m ∧ continuesMacro t line.toks then some (macroAct acc pend t line lines)
  else if t.kind = MacroName ∧ m ∧ isKind UriScheme line.toks.head? ∧ t.lexeme = "link:".toList then
    match line.toks with
    | n :: _ => some (.next ((acc.putText t.lexeme).putText n.lexeme) pend (line.drop 1))
    | [] => some .panic
  else if t.kind = UriScheme ∧ m ∧ continuesMacro t line.toks then some (uriMacroAct acc pend t line)
  else none

/-- `mod.rs:368-397` — attribute references: the tokens of the value follow the token of the reference -/
def attrRefCase (t : Tok) (line : Line) : Option Act :=
  if t.kind = AttrRef ∧ !subs.contains .attrRefs then
    some (.next (acc.putText t.lexeme) pend ⟨line.toks.dropWhile (fun u => u.loc = t.loc), line.orig⟩)
  else if t.kind = AttrPassDbl then some .unsupported
  else if t.kind = AttrRef ∧ env.tableCell ∧ line.toks.head?.any (fun u => u.loc ≠ t.loc) then
    some (.next (acc.leaf .discarded) pend line)
  else none

/-- `mod.rs:1023-1044` — `recover_custom_line_comment` (the comment marker is ASCII) -/
def recoverComment : Acc :=
  match env.comment with
  | none => acc
  | some c =>
    let sp := acc.text.getLast? = some ' '
    let body := if sp then acc.text.dropLast else acc.text
    let back := c.length + (if sp then 1 else 0)
    if c.isSuffixOf body then
      Acc.leaf ⟨acc.nodes, acc.text.take (acc.text.length - back)⟩
        (.tuck (acc.text.drop (acc.text.length - back)))
    else acc

/-- `collect_text.rs:32-44` — `trim_end` (the white space at the end is ASCII) -/
def Acc.trimEnd (a : Acc) : Acc :=
  if a.text.getLast? = some ' ' then ⟨a.nodes, CollectText.trimEndStr a.text⟩ else a

/-- `mod.rs:399-441` — callout numbers and the comment markers before them -/
def calloutCase (t : Tok) (line : Line) : Option Act :=
  let c := subs.contains .callouts
  if c ∧ ((t.kind = TermDelimiter ∧ t.len = 2 ∧ t.lexeme = ";;".toList) ∨ t.kind = Hash ∨ (t.kind = ForwardSlashes ∧ t.len = 2))
      ∧ isKind Whitespace line.toks.head? ∧ continuesCallouts line.toks then
    some (.next (acc.leaf (.tuck (t.lexeme ++ [' ']))) pend (line.drop 1))
  else if t.kind = CalloutNumber ∧ c ∧ continuesCallouts line.toks then
    some (.next ((recoverComment env acc).trimEnd.leaf (.callout t.lexeme)) pend line)
  else if t.kind = CalloutNumber ∧ subs.contains .specialChars then
    some (.next ((((acc.leaf (.special .lessThan)).putText (t.lexeme.drop 1).dropLast)).leaf (.special .greaterThan)) pend line)
  else none

/-- `mod.rs:443-467` — a cross reference `<<target,text>>`, after its first `<` -/
def xrefAct (line : Line) : Act :=
  match indexOfSeq [.kind GreaterThan, .kind GreaterThan] (line.toks.drop 1) with
  | none => .panic
  | some n =>
    let inner := (line.toks.drop 1).take n
    let rest := line.drop (n + 3)
    match inner with
    | [] => .panic
    | _ =>
      let target := inner.takeWhile (·.kind ≠ Comma)
      match inner.dropWhile (·.kind ≠ Comma) with
      | [] => .sub (.xref (plainOf target) false) none acc pend rest
      | _ :: more =>
        let text := more.dropWhile (·.kind = Whitespace)
        if text.isEmpty then .sub (.xref (plainOf target) false) none acc pend rest
        else .sub (.xref (plainOf target) true) (some ⟨text, n⟩) acc pend rest

/-- `mod.rs:469-501` — a link in angle brackets; `t` is the opening one -/
def angleAct (t : Tok) (line : Line) : Act :=
  match line.toks with
  | [] => .panic
  | u :: ts =>
    match indexOfSeq [.kind GreaterThan] ts with
    | none => .panic
    | some n =>
      let body := (ts.take n).flatMap (·.lexeme)
      if body.isEmpty then
        let acc := if subs.contains .specialChars then acc.leaf (.special .lessThan) else acc.putText t.lexeme
        .next (acc.putText u.lexeme) pend ⟨ts.drop n, line.orig⟩
      else if knownScheme u.lexeme then .next (acc.leaf (.angle (u.lexeme ++ body))) pend ⟨ts.drop (n + 1), line.orig⟩
      else .panic

/-- `mod.rs:443-515` — cross references, links in angle brackets, email addresses -/
def linkCase (t : Tok) (line : Line) : Option Act :=
  let m := subs.contains .macros
  if t.kind = LessThan ∧ continuesXref line.toks then some (xrefAct acc pend line)
  else if t.kind = LessThan ∧ m ∧ isKind UriScheme line.toks.head? ∧ noWhitespaceUntil GreaterThan false line.toks then
    some (angleAct subs acc pend t line)
  else if t.kind = Email ∧ m then some (.next (acc.leaf (.link t.lexeme)) pend line)
  else none

/-- `inline_utils.rs:42-60` — characters that may stand before a constrained span -/
def beforeSpan (c : Option Char) : Bool :=
  match c with
  | none => true
  | some c => c = ' ' || c = '\t' || c = '\n' || c = '\x0c' || c = '\r' || "]`*_[#+|'=\",(-".toList.contains c

/-- `inline_utils.rs:27-65` — `starts_constrained` (the mark is the last of the stop tokens by the callers' cases) -/
def startsConstrained (stop : List TSpec) (t : Tok) (line : Line) (lines : List Line) : Bool :=
  !t.attr && beforeSpan t.before && !isKind Whitespace line.toks.head? &&
    (terminates stop ctx line.toks || lines.any (fun l => terminates stop ctx l.toks))

/-- `inline_utils.rs:67-83` — `starts_unconstrained` for two marks of the kind -/
def startsUnconstrained (k : TokenKind) (t : Tok) (line : Line) (lines : List Line) : Bool :=
  !t.attr && isKind k line.toks.head? && containsSeq [.kind k, .kind k] line.toks lines

/-- `mod.rs:947-961` — the call of `parse_node` after the marks have been taken off the line -/
def nestAct (w : Wrap) (stop : List TSpec) (ctx : Ctx) (subs : Substitutions) (pend : Option Pend) (line : Line)
    (lines : List Line) : Act :=
  .nest w stop ctx subs acc pend (restore (line.drop (stop.length - 1)) lines)

/-- `mod.rs:517-563` — italic and bold -/
def emphasisCase (t : Tok) (line : Line) (lines : List Line) : Option Act :=
  let f := subs.contains .inlineFormatting
  let one (k : TokenKind) := [TSpec.kind k]
  let two (k : TokenKind) := [TSpec.kind k, TSpec.kind k]
  if t.kind = Underscore ∧ f ∧ startsConstrained ctx (one Underscore) t line lines then
    some (nestAct acc (.span .italic pend) (one Underscore) (.specs (one Underscore)) subs none line lines)
  else if t.kind = Underscore ∧ f ∧ startsUnconstrained Underscore t line lines then
    some (nestAct acc (.span .italic pend) (two Underscore) (.specs (two Underscore)) subs none line lines)
  else if t.kind = Star ∧ f ∧ startsConstrained ctx (one Star) t line lines then
    some (nestAct acc (.span .bold pend) (one Star) (.specs (one Star)) subs none line lines)
  else if t.kind = Star ∧ f ∧ startsUnconstrained Star t line lines then
    some (nestAct acc (.span .bold pend) (two Star) (.specs (two Star)) subs none line lines)
  else none

/-- `line.rs:855-859` — `discard_leading_whitespace`: the token stays, marked to show nothing -/
def discardLeading (l : List Tok) : List Tok :=
  match l with
  | w :: ws => if w.kind = Whitespace then { w with kind := Discard } :: ws else w :: ws
  | [] => []

/-- `parse_attr_list.rs:57-107` — an inline anchor after its two brackets, which stands before a word or a colon -/
def anchorAct (line : Line) : Act :=
  let inner := line.toks.drop 1
  let stopAt (t : Tok) : Bool := t.kind = Comma || t.kind = CloseBracket
  let id := inner.takeWhile (fun t => !stopAt t)
  let idText := id.flatMap (·.lexeme)
  if idText.isEmpty then .panic
  else match inner.dropWhile (fun t => !stopAt t) with
    | [] => .panic
    | t :: more =>
      if t.kind = CloseBracket then .sub (.anchor idText false) none acc pend ⟨more.drop 1, line.orig⟩
      else
        let more := discardLeading more
        let text := more.takeWhile (·.kind ≠ CloseBracket)
        match more.dropWhile (·.kind ≠ CloseBracket) with
        | _ :: b :: rest =>
          if b.kind ≠ CloseBracket then .panic
          else if text.isEmpty then .sub (.anchor idText false) none acc pend ⟨rest, line.orig⟩
          else .sub (.anchor idText true) (some (Line.new text)) acc pend ⟨rest, line.orig⟩
        | _ => .panic

/-- `mod.rs:565-602` — anchors (bibliography anchors are not modelled: the context is not a bibliography list) -/
def anchorCase (t : Tok) (line : Line) : Option Act :=
  if t.kind = OpenBracket ∧ startsSeq [.kind OpenBracket, .kind OpenBracket] line.toks then
    some (.next (acc.putText t.lexeme) pend line)
  else if t.kind = OpenBracket ∧ continuesAnchor line.toks then some (anchorAct acc pend line)
  else none

/-- `mod.rs:604-709` — monospace, superscript, subscript, quotes -/
def monoCase (t : Tok) (line : Line) (lines : List Line) : Option Act :=
  let f := subs.contains .inlineFormatting
  let one (k : TokenKind) := [TSpec.kind k]
  if t.kind = Backtick ∧ f ∧ startsSeq [.kind Plus, .not Plus] line.toks
      ∧ ¬ startsSeq [.kind Plus, .kind Backtick] line.toks ∧ containsSeq [.len 1 Plus, .kind Backtick] line.toks lines then
    some (nestAct acc (.span .litMono pend) [.len 1 Plus, .kind Backtick] ctx
      ((subs.remove .inlineFormatting).remove .attrRefs) none line lines)
  else if t.kind = Caret ∧ f ∧ noWhitespaceUntil Caret false line.toks then
    some (nestAct acc (.span .superscript pend) (one Caret) ctx subs none line lines)
  else if t.kind = Backtick ∧ f ∧ startsConstrained ctx (one Backtick) t line lines then
    some (nestAct acc (.span .mono pend) (one Backtick) (.specs (one Backtick)) subs none line lines)
  else if t.kind = Backtick ∧ f ∧ startsUnconstrained Backtick t line lines then
    some (nestAct acc (.span .mono pend) [.kind Backtick, .kind Backtick] ctx subs none line lines)
  else if t.kind = DoubleQuote ∧ f ∧ isKind Backtick line.toks.head?
      ∧ startsConstrained ctx [.kind Backtick, .kind DoubleQuote] t line lines then
    some (nestAct acc (.quote true) [.kind Backtick, .kind DoubleQuote] ctx subs pend line lines)
  else if t.kind = SingleQuote ∧ f ∧ isKind Backtick line.toks.head?
      ∧ startsConstrained ctx [.kind Backtick, .kind SingleQuote] t line lines then
    some (nestAct acc (.quote false) [.kind Backtick, .kind SingleQuote] ctx subs pend line lines)
  else if t.kind = Tilde ∧ f ∧ noWhitespaceUntil Tilde false line.toks then
    some (nestAct acc (.span .subscript pend) (one Tilde) ctx subs none line lines)
  else none

/-- `mod.rs:1165-1178` — `push_simple` -/
def pushSimple (l : Leaf) (line : Line) (lines : List Line) : Act :=
  let lines := restore (line.drop 1) lines
  .brk (newlineIfNeeded (acc.leaf l) lines) pend lines

/-- `mod.rs:711-737` — curly quotes -/
def curlyCase (t : Tok) (line : Line) (lines : List Line) : Option Act :=
  let f := subs.contains .inlineFormatting
  if t.kind = Backtick ∧ f ∧ isKind DoubleQuote line.toks.head? then
    some (pushSimple acc pend (.curly .rightDouble) line lines)
  else if t.kind = DoubleQuote ∧ f ∧ isKind Backtick line.toks.head? ∧ stop ≠ [.kind Backtick] then
    some (pushSimple acc pend (.curly .leftDouble) line lines)
  else if t.kind = Backtick ∧ f ∧ isKind SingleQuote line.toks.head? then
    some (pushSimple acc pend (.curly .rightSingle) line lines)
  else if t.kind = SingleQuote ∧ f ∧ isKind Backtick line.toks.head? ∧ stop ≠ [.kind Backtick] then
    some (pushSimple acc pend (.curly .leftSingle) line lines)
  else none

/-- `mod.rs:739-763` — marked text; a span with attributes is not highlighted -/
def hashCase (t : Tok) (line : Line) (lines : List Line) : Option Act :=
  let f := subs.contains .inlineFormatting
  let k : Span := if pend.isSome then .text else .highlight
  if t.kind = Hash ∧ f ∧ startsUnconstrained Hash t line lines then
    some (nestAct acc (.span k pend) [.kind Hash, .kind Hash] (.specs [.kind Hash, .kind Hash]) subs none line lines)
  else if t.kind = Hash ∧ f ∧ startsConstrained ctx [.kind Hash] t line lines then
    some (nestAct acc (.span k pend) [.kind Hash] (.specs [.kind Hash]) subs none line lines)
  else none

/-- `char::is_ascii_punctuation` -/
def asciiPunct (c : Char) : Bool :=
  let n := c.toNat
  (33 ≤ n && n ≤ 47) || (58 ≤ n && n ≤ 64) || (91 ≤ n && n ≤ 96) || (123 ≤ n && n ≤ 126)

/-- `mod.rs:765-796` — special characters, apostrophes, runs of white space -/
def charCase (t : Tok) (line : Line) : Option Act :=
  let f := subs.contains .inlineFormatting
  let s := subs.contains .specialChars
  if t.kind = Ampersand ∧ startsSeq [.kind Hash, .kind Digits, .kind SemiColon] line.toks then
    some (.next (acc.putText t.lexeme) pend line)
  else if t.kind = Ampersand ∧ s then some (.next (acc.leaf (.special .ampersand)) pend line)
  else if t.kind = LessThan ∧ s then some (.next (acc.leaf (.special .lessThan)) pend line)
  else if t.kind = GreaterThan ∧ s then some (.next (acc.leaf (.special .greaterThan)) pend line)
  else if t.kind = SingleQuote ∧ isKind Word line.toks.head? ∧ f then
    if acc.text.getLast?.all (fun c => CollectText.isWhite c || asciiPunct c) then
      some (.next (acc.putText t.lexeme) pend line)
    else some (.next (acc.leaf (.curly .apostrophe)) pend line)
  else if t.kind = Whitespace ∧ t.len > 1 ∧ f then some (.next (acc.leaf (.spaces t.lexeme)) pend line)
  else none

/-- `mod.rs:798-821` — line breaks, line ends inside a table cell, tokens that show nothing -/
def breakCase (t : Tok) (line : Line) (lines : List Line) : Option Act :=
  if t.kind = Whitespace ∧ isKind Plus line.toks.head? ∧ (line.toks[1]? = none ∨ isKind Newline line.toks[1]?) then
    match line.toks.drop 1 with
    | [] => some (.brk (acc.leaf .lineBreak) pend lines)
    | _ :: ts => some (.next (acc.leaf .lineBreak) pend ⟨ts, line.orig⟩)
  else if t.kind = Newline then some (.next (acc.leaf .newline) pend line)
  else if t.kind = Discard then some (.next acc pend line)
  else if t.kind = AttrRef then some (.next acc pend line)
  else none

/-- one `Discarded` node for each of `n` backslashes -/
def discards : Nat → Acc → Acc
  | 0, a => a
  | n + 1, a => discards n (a.leaf .discarded)

/-- `mod.rs:823-845` — a backslash -/
def backslashAct (t : Tok) (line : Line) (lines : List Line) : Act :=
  match line.toks with
  | [] => .next (acc.putText t.lexeme) pend line
  | n :: _ =>
    if n.kind = Word then .next (acc.putText t.lexeme) pend line
    else if n.kind = OpenParens ∧ n.len > 2 ∧ endsIndexTerm line lines then .unsupported
    else
      let bs := line.toks.takeWhile (·.kind = Backslash)
      let acc := discards (bs.length + 1) acc
      match line.toks.dropWhile (·.kind = Backslash) with
      | [] => .panic
      | u :: rest =>
        if !subs.contains .specialChars || u.kind ≠ Ampersand then .next (acc.putText u.lexeme) pend ⟨rest, line.orig⟩
        else .next acc pend ⟨u :: rest, line.orig⟩

/-- `line.rs:687-700` — the tokens of a bare URL after its scheme -/
def urlLen (l : List Tok) : Nat :=
  let n := (l.takeWhile (fun t => ![Whitespace, GreaterThan, OpenBracket, OpenParens, CloseParens, Bang, SemiColon, Colon,
    Star, QuestionMark].contains t.kind)).length
  if n > 0 ∧ isKind Dots l[n - 1]? then n - 1 else n

/-- `mod.rs:847-869` — a bare URL -/
def urlAct (t : Tok) (line : Line) : Act :=
  if line.toks.isEmpty then .panic
  else
    let n := urlLen line.toks
    let rest := (line.toks.take n).flatMap (·.lexeme)
    if rest.isEmpty then .next (acc.putText t.lexeme) pend (line.drop n)
    else if knownScheme t.lexeme then .next (acc.leaf (.link (t.lexeme ++ rest))) pend (line.drop n)
    else .panic

/-- `mod.rs:823-881` — the last cases -/
def lastCase (t : Tok) (line : Line) (lines : List Line) : Act :=
  if t.kind = Backslash then backslashAct subs acc pend t line lines
  else if t.kind = UriScheme ∧ subs.contains .macros ∧ ctx ≠ .linkMacroAttrs then urlAct acc pend t line
  else if t.kind = PreprocPassthru then .next (acc.leaf (.passthru t.lexeme)) pend line
  else .next ((acc.unused pend).putText t.lexeme) none line

/-- `mod.rs:83-882` — the `match` on the token -/
def act (t : Tok) (line : Line) (lines : List Line) : Act :=
  match attrsCase subs acc t line with
  | some a => a
  | none =>
  match replaceCase env subs acc pend t line lines with
  | some a => a
  | none =>
  match macroCase subs acc pend t line lines with
  | some a => a
  | none =>
  match attrRefCase env subs acc pend t line with
  | some a => a
  | none =>
  match calloutCase env subs acc pend t line with
  | some a => a
  | none =>
  match linkCase subs acc pend t line with
  | some a => a
  | none =>
  match emphasisCase subs ctx acc pend t line lines with
  | some a => a
  | none =>
  match anchorCase acc pend t line with
  | some a => a
  | none =>
  match monoCase subs ctx acc pend t line lines with
  | some a => a
  | none =>
  match curlyCase subs stop acc pend t line lines with
  | some a => a
  | none =>
  match hashCase subs ctx acc pend t line lines with
  | some a => a
  | none =>
  match charCase subs acc pend t line with
  | some a => a
  | none =>
  match breakCase acc pend t line lines with
  | some a => a
  | none => lastCase subs ctx acc pend t line lines

omit env subs stop ctx acc pend

/-- why parsing gives no nodes -/
inductive Fail where
  | panic | diverged | unsupported
deriving DecidableEq, Repr

/-- nodes, the context left behind, and the lines not consumed -/
structure Out where
  nodes : List Node
  ctx : Ctx
  lines : List Line

/-- `line.rs:409-411` — `is_comment` -/
def isComment (l : Line) : Bool := l.full && satOpt (.len 2 ForwardSlashes) l.toks.head?

/-- `mod.rs:41-60` — a comment line -/
def commentLine (acc : Acc) (l : Line) (lines : List Line) : Acc :=
  let acc : Acc := if lines.isEmpty then ⟨discardNewline acc.nodes, acc.text⟩ else acc
  acc.leaf (.lineComment ((l.toks.drop 1).flatMap (·.lexeme)))

/-- `mod.rs:18-886` — `parse_inlines_until`. `cur` is the line in the inner loop, `none` between the lines. The first
number is a step budget; `Lemmas/Inlines.lean` shows how much is enough. -/
def go (env : Env) : Nat → Substitutions → List TSpec → Acc → Option Pend → Ctx → Option Line → List Line → Except Fail Out
  | 0, _, _, _, _, _, _, _ => .error .diverged
  | _ + 1, _, _, acc, pend, ctx, none, [] => .ok ⟨finish acc pend, ctx, []⟩
  | n + 1, subs, stop, acc, pend, ctx, none, l :: ls =>
    if env.stops l then .ok ⟨finish ⟨dropNewline acc.nodes, acc.text⟩ pend, ctx, restore l ls⟩
    else if isComment l && !subs.contains .callouts then
      go env n subs stop (commentLine acc l ls) pend ctx none ls
    else go env n subs stop acc pend ctx (some l) ls
  | n + 1, subs, stop, acc, pend, ctx, some l, ls =>
    if startsSeq stop l.toks then .ok ⟨finish acc.commit pend, ctx, restore (l.drop stop.length) ls⟩
    else match l.toks with
      | [] => go env n subs stop (joinNewline acc ls) pend ctx none ls
      | t :: ts =>
        match act env subs stop ctx acc pend t ⟨ts, l.orig⟩ ls with
        | .next acc pend l => go env n subs stop acc pend ctx (some l) ls
        | .brk acc pend ls => go env n subs stop acc pend ctx none ls
        | .nest w stop' ctx' subs' acc pend ls =>
          match go env n subs' stop' ⟨[], []⟩ none ctx' none ls with
          | .error e => .error e
          | .ok o => go env n subs stop (newlineIfNeeded (acc.push (.wrap w o.nodes)) o.lines) pend .none none o.lines
        | .sub w none acc pend l => go env n subs stop (acc.push (.wrap w [])) pend ctx (some l) ls
        | .sub w (some il) acc pend l =>
          match go env n subs [] ⟨[], []⟩ none ctx none [il] with
          | .error e => .error e
          | .ok o => go env n subs stop (acc.push (.wrap w o.nodes)) pend o.ctx (some l) ls
        | .link target caret il acc pend l =>
          match go env n subs [] ⟨[], []⟩ none .linkMacroAttrs none [il] with
          | .error e => .error e
          | .ok o => go env n subs stop (acc.push (linkNode target caret o.nodes)) pend .none (some l) ls
        | .note w acc pend ls =>
          match go env n subs [.kind CloseBracket] ⟨[], []⟩ none ctx none ls with
          | .error e => .error e
          | .ok o => go env n subs stop (acc.push (.wrap w o.nodes)) pend o.ctx none o.lines
        | .panic => .error .panic
        | .unsupported => .error .unsupported

/-- the size of a line that has still to be consumed -/
def Line.cost (l : Line) : Nat := 2 * l.toks.length + 2
/-- a bound for the steps that parsing takes -/
def cost (lines : List Line) : Nat := (lines.map Line.cost).sum

/-- `mod.rs:11-16` — `parse_inlines` -/
def parse (env : Env) (subs : Substitutions) (lines : List Line) : Except Fail Out :=
  go env (cost lines + 1) subs [] ⟨[], []⟩ none .none none lines

end Verif.Inlines
