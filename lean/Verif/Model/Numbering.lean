import Verif.Model.Roman
/-! Model of section, part and appendix numbers: `backend/src/html/backend.rs`
(`push_section_number_prefix` and its callers), driven by `eval/src/eval.rs`
(`eval_section`, `eval_book_part`, `eval_toc_level`). Only the text printed in
front of a heading is kept; the markup around it is not. -/
namespace Verif.Numbering
open Verif.Roman

/-- `SpecialSection` (core/src/doctype.rs, ast/src/special_sect.rs). -/
inductive Special
  | abstract | colophon | dedication | acknowledgments | preface | appendix
  | glossary | bibliography | index
  deriving DecidableEq, Repr

/-- `DocType` (core/src/doctype.rs:1-45); manpage and inline behave alike here. -/
inductive DocType
  | article | book | other
  deriving DecidableEq, Repr

/-- `DocType::supports_special_section` (core/src/doctype.rs:47-70). -/
def supports : DocType → Special → Bool
  | .article, .abstract | .article, .appendix | .article, .glossary | .article, .bibliography
  | .article, .index => true
  | .book, _ => true
  | _, _ => false

/-- The value of `sectnums` as `should_number_section` looks at it
(backend/src/html/backend.rs:508-529). -/
inductive SectNums
  | unset | all | yes | other
  deriving DecidableEq, Repr

/-- The value of `appendix-caption` as `push_appendix_caption` looks at it
(backend/src/html/backend.rs:452-466): a text, the value false, or neither. -/
inductive Caption
  | text (s : List Char) | isFalse | neither
  deriving DecidableEq, Repr

/-- The document attributes in force when a heading is written. `levels` is
`section_num_levels` (backend/src/html/backend.rs:17). -/
structure Cfg where
  doctype : DocType
  sectnums : SectNums
  levels : Int
  chapterSignifier : Option (List Char)
  partnums : Bool
  partSignifier : Option (List Char)
  caption : Caption
  deriving DecidableEq, Repr

/-- `BackendState` (backend/src/html/backend.rs:14-27), the fields used here.
`nums` has five entries (`[u16; 5]`). -/
structure St where
  nums : List Nat
  inAppendix : Bool
  captionNum : Nat
  partNum : Nat
  deriving DecidableEq, Repr

/-- `[0; 5]` -/
def zeros : List Nat := [0, 0, 0, 0, 0]

/-- the state in which a document starts (`BackendState::default`) -/
def St.init : St := { nums := zeros, inAppendix := false, captionNum := 0, partNum := 0 }

/-- `u16::to_string` -/
def digits (n : Nat) : List Char := Nat.toDigits 10 n

/-- One component of a number (backend/src/html/backend.rs:481-490): a letter in
front in appendices, `b'A' + n as u8` with the overflow check of debug builds
(`none`). -/
def component (letter : Bool) (n : Nat) : Option (List Char) :=
  if letter then
    if 65 + n % 256 ≤ 255 then some [Char.ofNat (65 + n % 256), '.'] else none
  else some (digits n ++ ['.'])

/-- The loop over the components, `first` at the first one. -/
def components (appendix first : Bool) : List Nat → Option (List Char)
  | [] => some []
  | n :: ns => do
    let c ← component (appendix && first) n
    let rest ← components appendix false ns
    return c ++ rest

/-- `push_section_number_prefix` (backend/src/html/backend.rs:468-494). `none`
is a panic: level 0 or above 5, or more than 65535 sections. -/
def numberPrefix (st : St) (level : Nat) : Option (List Char × St) :=
  if level = 0 ∨ 5 < level then none
  else
    let n := st.nums.getD (level - 1) 0 + 1
    if 65535 < n then none
    else
      let nums := st.nums.take (level - 1) ++ n :: List.replicate (5 - level) 0
      match components st.inAppendix true (nums.take level) with
      | none => none
      | some t => some (t ++ [' '], { st with nums := nums })

/-- `should_number_section` (backend/src/html/backend.rs:508-529). -/
def shouldNumber (cfg : Cfg) (level : Nat) (special : Option Special) : Bool :=
  match cfg.sectnums with
  | .unset => false
  | s =>
    if cfg.levels < level then false
    else match s, special with
      | .all, _ => true
      | .yes, some sp => supports cfg.doctype sp
      | .yes, none => true
      | _, _ => false

/-- `push_section_heading_prefix` (backend/src/html/backend.rs:496-506). -/
def headingPrefix (cfg : Cfg) (st : St) (level : Nat) (special : Option Special) : Option (List Char × St) :=
  if shouldNumber cfg level special then
    let sig := match level, cfg.doctype, cfg.chapterSignifier with
      | 1, .book, some s => s ++ [' ']
      | _, _, _ => []
    match numberPrefix st level with
    | none => none
    | some (t, st) => some (sig ++ t, st)
  else some ([], st)

/-- `push_appendix_caption` (backend/src/html/backend.rs:452-466). `none`: the
letter overflows. -/
def appendixCaption (cfg : Cfg) (st : St) : Option (List Char × St) :=
  if 65 + st.captionNum ≤ 255 then
    let before := match cfg.caption with
      | .text s => s ++ [' ']
      | _ => []
    let after := if cfg.caption = .isFalse then ['.', ' '] else [':', ' ']
    some (before ++ Char.ofNat (65 + st.captionNum) :: after, { st with captionNum := st.captionNum + 1 })
  else none

/-- `push_part_prefix` (backend/src/html/backend.rs:531-546). -/
def partPrefix (cfg : Cfg) (st : St) : Option (List Char × St) :=
  if cfg.partnums then
    let st := { st with partNum := st.partNum + 1 }
    if st.partNum ≤ 3999 then
      match toRoman st.partNum with
      | none => none
      | some r =>
        let sig := match cfg.partSignifier with
          | some s => s ++ [' ']
          | none => []
        some (sig ++ r ++ [':', ' '], st)
    else some ([], st)
  else some ([], st)

/-- A section or book part as the evaluator meets it: the attributes in force at
its heading, whether it is a part, the level it was written at and the level it
is treated as (`authored_level` and `semantic_level`,
parser/src/tasks/parse_section.rs:218-224), its kind, and the sections inside. -/
inductive Sect
  | mk (cfg : Cfg) (part : Bool) (authored level : Nat) (special : Option Special) (children : List Sect)

/-- `enter_section_state` and `exit_section_state`
(backend/src/html/backend.rs:693-729), also done for TOC nodes (668-673, 683-688). -/
def enterState (special : Option Special) (st : St) : St :=
  if special = some .appendix then { st with nums := zeros, inAppendix := true } else st

@[inherit_doc enterState]
def exitState (special : Option Special) (st : St) : St :=
  if special = some .appendix then { st with nums := zeros, inAppendix := false } else st

/-- What is printed before a section heading (`enter_section_heading`,
backend/src/html/backend.rs:748-752) or part title (`enter_book_part_title`,
dr-html-backend/src/asciidoctor_html.rs:213-224). -/
def bodyLabel (cfg : Cfg) (part : Bool) (level : Nat) (special : Option Special) (st : St) : Option (List Char × St) :=
  if part then partPrefix cfg st
  else if special = some .appendix then appendixCaption cfg st
  else headingPrefix cfg st level special

/-- What is printed before a TOC entry (`enter_toc_node`,
backend/src/html/backend.rs:662-680). -/
def tocLabel (cfg : Cfg) (level : Nat) (special : Option Special) (st : St) : Option (List Char × St) :=
  if special = some .appendix then appendixCaption cfg st
  else if level = 0 then partPrefix cfg st
  else headingPrefix cfg st level special

mutual
/-- `eval_section` and `eval_book_part` (eval/src/eval.rs:117-156): the labels
of a section and the sections inside it, in document order. -/
def walk : Sect → St → Option (List (List Char) × St)
  | .mk cfg part _ level special children, st =>
    let sp := if part then none else special
    match bodyLabel cfg part level special (enterState sp st) with
    | none => none
    | some (l, st) =>
      match walkAll children st with
      | none => none
      | some (ls, st) => some (l :: ls, exitState sp st)
@[inherit_doc walk]
def walkAll : List Sect → St → Option (List (List Char) × St)
  | [], st => some ([], st)
  | s :: ss, st =>
    match walk s st with
    | none => none
    | some (l, st) =>
      match walkAll ss st with
      | none => none
      | some (ls, st) => some (l ++ ls, st)
end

/-- `TocNode` (ast/src/toc.rs:10-17). -/
inductive Node
  | mk (level : Nat) (special : Option Special) (children : List Node)

mutual
/-- `eval_toc_level` (eval/src/eval.rs:702-716) with the attributes in force
where the TOC is printed. -/
def toc (cfg : Cfg) : Node → St → Option (List (List Char) × St)
  | .mk level special children, st =>
    match tocLabel cfg level special (enterState special st) with
    | none => none
    | some (l, st) =>
      match tocAll cfg children st with
      | none => none
      | some (ls, st) => some (l :: ls, exitState special st)
@[inherit_doc toc]
def tocAll (cfg : Cfg) : List Node → St → Option (List (List Char) × St)
  | [], st => some ([], st)
  | n :: ns, st =>
    match toc cfg n st with
    | none => none
    | some (l, st) =>
      match tocAll cfg ns st with
      | none => none
      | some (ls, st) => some (l ++ ls, st)
end

/-- `on_toc_exit` (backend/src/html/backend.rs:186-191). -/
def tocExit (st : St) : St := { st with nums := zeros, captionNum := 0, partNum := 0 }

/-- A whole TOC (`eval_toc_at`, eval/src/eval.rs:685-700). -/
def printToc (cfg : Cfg) (nodes : List Node) (st : St) : Option (List (List Char) × St) :=
  match tocAll cfg nodes st with
  | none => none
  | some (ls, st) => some (ls, tocExit st)

mutual
/-- The TOC of a document, for documents where sections nest one level at a time
(`push_toc_node`, parser/src/tasks/parse_section.rs:168-210; C32 shows that the
TOC then has this shape): sections written at most at level `toclevels`. -/
def nodeOf (toclevels : Nat) : Sect → List Node
  | .mk _ part authored _ special children =>
    if authored ≤ toclevels then [.mk authored (if part then none else special) (nodesOf toclevels children)] else []
@[inherit_doc nodeOf]
def nodesOf (toclevels : Nat) : List Sect → List Node
  | [] => []
  | s :: ss => nodeOf toclevels s ++ nodesOf toclevels ss
end

end Verif.Numbering
