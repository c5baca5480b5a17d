/-!
Model of the attribute store: `core/src/attrs.rs`, `core/src/validate.rs`, `core/src/job_attrs.rs`,
`core/src/document_meta.rs`, `core/src/job_settings.rs`, `core/src/types.rs`, `core/src/doctype.rs`.

Simplifications: a `HashMap<String, V>` is a function `String → Option V` (no iteration order);
error messages are reduced to an enumeration; `included_files` and `data_admonition_icons`
(document_meta.rs:15-16) are not touched by any modelled function and are left out.
-/
namespace Verif

/-- `core/src/attrs.rs:6-9` -/
inductive AttrValue where
  | string (s : String)
  | bool (b : Bool)
deriving DecidableEq, Repr

/-- `core/src/attrs.rs:20-26` -/
def AttrValue.str : AttrValue → Option String
  | .string s => some s
  | .bool true => some ""
  | .bool false => none

/-- A hash map. -/
abbrev Map (V : Type) := String → Option V

/-- `HashMap::insert` -/
def Map.insert {V : Type} (m : Map V) (k : String) (v : V) : Map V := fun k' => if k' = k then some v else m k'
/-- `HashMap::remove` -/
def Map.remove {V : Type} (m : Map V) (k : String) : Map V := fun k' => if k' = k then none else m k'
/-- `HashMap::new` -/
def Map.empty {V : Type} : Map V := fun _ => none

/-- `core/src/job_attrs.rs:7-10` -/
structure JobAttr where
  readonly : Bool
  value : AttrValue
deriving DecidableEq, Repr

/-- `core/src/doctype.rs:7-13` -/
inductive DocType where
  | article | book | manpage | inline
deriving DecidableEq, Repr

/-- `core/src/doctype.rs:15-24` -/
def DocType.toStr : DocType → String
  | .article => "article" | .book => "book" | .manpage => "manpage" | .inline => "inline"

/-- `core/src/doctype.rs:32-43` — `FromStr` -/
def DocType.parse (s : String) : Option DocType :=
  if s = "article" then some .article
  else if s = "book" then some .book
  else if s = "manpage" then some .manpage
  else if s = "inline" then some .inline
  else none

/-- `core/src/types.rs:4-10`; the derived order is the declaration order. -/
inductive SafeMode where
  | modeUnsafe | modeSafe | modeServer | modeSecure
deriving DecidableEq, Repr

/-- derived `PartialOrd` of `SafeMode` (`core/src/types.rs:3`) -/
def SafeMode.rank : SafeMode → Nat
  | .modeUnsafe => 0 | .modeSafe => 1 | .modeServer => 2 | .modeSecure => 3

/-- `core/src/types.rs:34-39` -/
structure Author where
  first : String
  middle : Option String
  last : String
  email : Option String
deriving DecidableEq, Repr

/-- `core/src/types.rs:42-52` -/
def Author.fullname (a : Author) : String :=
  a.first ++ (match a.middle with | some m => " " ++ m | none => "") ++ " " ++ a.last

/-- `core/src/types.rs:54-62`; `none` is the `unwrap` panic on an empty first or last name. -/
def Author.initials (a : Author) : Option String :=
  match a.first.toList.head?, a.last.toList.head? with
  | some f, some l =>
    some (String.ofList (f :: ((a.middle.bind fun m => m.toList.head?).toList ++ [l])))
  | _, _ => none

/-- reasons for a rejected assignment (error strings of the code) -/
inductive AttrErr where
  | jobOnly | headerOnly | invalidDoctype | bookOnly | invalidValue
deriving DecidableEq, Repr

/-- `core/src/validate.rs:23-42` — `one_of` -/
def validOneOf (options : List String) : AttrValue → Bool
  | .string s => options.contains s
  | .bool _ => false

/-- `core/src/validate.rs:44-52` — `bool` -/
def validBool : AttrValue → Bool
  | .bool _ => true
  | .string _ => false

/-- `core/src/validate.rs:9-14` — the value checks by key -/
def validValue (k : String) (v : AttrValue) : Bool :=
  if k = "attribute-missing" then validOneOf ["skip", "warn", "drop", "drop-line"] v
  else if k = "attribute-undefined" then validOneOf ["drop", "drop-line"] v
  else if k = "showtitle" ∨ k = "notitle" then validBool v
  else true

/-- `core/src/validate.rs:3-21` — `attr`: value check, then mutual removal of the title switches.
The map is threaded through the error path as well. -/
def validateAttr {V : Type} (m : Map V) (k : String) (v : AttrValue) : Map V × Option AttrErr :=
  if validValue k v then
    (if k = "showtitle" then m.remove "notitle"
     else if k = "notitle" then m.remove "showtitle"
     else m, none)
  else (m, some .invalidValue)

/-- `core/src/attrs.rs:198-203` — `Attrs::insert` -/
def attrsInsert (m : Map AttrValue) (k : String) (v : AttrValue) : Map AttrValue × Option AttrErr :=
  match validateAttr m k v with
  | (m', some e) => (m', some e)
  | (m', none) => (m'.insert k v, none)

/-- `core/src/job_attrs.rs:30-35` — `JobAttrs::insert` -/
def jobInsert (m : Map JobAttr) (k : String) (j : JobAttr) : Map JobAttr × Option AttrErr :=
  match validateAttr m k j.value with
  | (m', some e) => (m', some e)
  | (m', none) => (m'.insert k j, none)

/-- `core/src/document_meta.rs:253-266` -/
def JOB_ONLY : List String :=
  ["allow-uri-read", "max-attribute-value-size", "max-include-depth", "doc", "docdir",
   "docfile", "docfilesuffix", "docname"]

/-- `core/src/document_meta.rs:268-308` -/
def HEADER_ONLY : List String :=
  ["experimental", "reproducible", "skip-front-matter", "lang", "last-update-label",
   "manname-title", "nolang", "toc-title", "untitled-label", "version-label", "app-name",
   "author", "authorinitials", "authors", "copyright", "doctitle", "doctype", "description",
   "email", "firstname", "keywords", "lastname", "middlename", "orgname", "revdate",
   "revnumber", "revremark", "title", "copycss", "css-signature", "linkcss", "stylesdir",
   "stylesheet", "toc-class", "webfonts"]

/-- `core/src/attrs.rs:135-196` — `Attrs::defaults` (all strings). -/
def defaultTable : List (String × String) :=
  [("empty", ""), ("blank", ""), ("attribute-missing", "skip"),
   ("attribute-undefined", "drop-line"), ("appendix-caption", "Appendix"),
   ("appendix-refsig", "Appendix"), ("caution-caption", "Caution"),
   ("chapter-refsig", "Chapter"), ("example-caption", "Example"),
   ("figure-caption", "Figure"), ("important-caption", "Important"),
   ("last-update-label", "Last updated"), ("note-caption", "Note"), ("part-refsig", "Part"),
   ("section-refsig", "Section"), ("table-caption", "Table"), ("tip-caption", "Tip"),
   ("toc-title", "Table of Contents"), ("untitled-label", "Untitled"),
   ("version-label", "Version"), ("warning-caption", "Warning"), ("sp", " "),
   ("nbsp", "&#160;"), ("zwsp", "&#8203;"), ("wj", "&#8288;"), ("apos", "&#39;"),
   ("quot", "&#34;"), ("lsquo", "&#8216;"), ("rsquo", "&#8217;"), ("ldquo", "&#8220;"),
   ("rdquo", "&#8221;"), ("deg", "&#176;"), ("plus", "&#43;"), ("brvbar", "&#166;"),
   ("vbar", "|"), ("amp", "&"), ("lt", "<"), ("gt", ">"), ("startsb", "["), ("endsb", "]"),
   ("caret", "^"), ("asterisk", "*"), ("tilde", "~"), ("backslash", "\\"), ("backtick", "`"),
   ("two-colons", "::"), ("two-semicolons", ";;"), ("cpp", "C++"), ("pp", "&#43;&#43;"),
   ("copycss", ""), ("stylesdir", "."), ("iconsdir", "./images/icons"), ("stylesheet", ""),
   ("webfonts", "")]

/-- `core/src/attrs.rs:135-196` -/
def defaultAttrs : Map AttrValue := fun k => (defaultTable.lookup k).map .string

/-- `core/src/document_meta.rs:6-17` -/
structure DocumentMeta where
  authors : List Author
  doctype : DocType
  jobAttrs : Map JobAttr
  docAttrs : Map AttrValue
  headerAttrs : Map AttrValue
  safeMode : SafeMode
  embedded : Bool

namespace DocumentMeta

/-- `core/src/document_meta.rs:37-66` — the read-only attributes describing the safe mode. -/
def safeModeAttrs : SafeMode → List (String × JobAttr)
  | .modeUnsafe => [("safe-mode-unsafe", ⟨true, .bool true⟩), ("safe-mode-level", ⟨true, .string "0"⟩),
      ("safe-mode-name", ⟨true, .string "UNSAFE"⟩)]
  | .modeSafe => [("safe-mode-safe", ⟨true, .bool true⟩), ("safe-mode-level", ⟨true, .string "1"⟩),
      ("safe-mode-name", ⟨true, .string "SAFE"⟩)]
  | .modeServer => [("safe-mode-server", ⟨true, .bool true⟩), ("safe-mode-level", ⟨true, .string "10"⟩),
      ("safe-mode-name", ⟨true, .string "SERVER"⟩)]
  | .modeSecure => [("safe-mode-secure", ⟨true, .bool true⟩), ("safe-mode-level", ⟨true, .string "20"⟩),
      ("safe-mode-name", ⟨true, .string "SECURE"⟩)]

/-- `core/src/document_meta.rs:37-66` — `new` (`insert_unchecked` is plain map insertion,
job_attrs.rs:37-40). -/
def new (mode : SafeMode) (job : Map JobAttr) : DocumentMeta :=
  { authors := [], doctype := .article
    jobAttrs := (safeModeAttrs mode).foldl (fun m p => m.insert p.1 p.2) job
    docAttrs := Map.empty, headerAttrs := Map.empty, safeMode := mode, embedded := false }

/-- `core/src/document_meta.rs:188-194` — `set_doctype`. The `unwrap` of `Attrs::insert` cannot fail
because `doctype` is not a validated key. -/
def setDoctype (m : DocumentMeta) (d : DocType) : DocumentMeta :=
  { m with doctype := d, headerAttrs := (attrsInsert m.headerAttrs "doctype" (.string d.toStr)).1 }

/-- `core/src/job_settings.rs:57-76` — `From<JobSettings>` -/
def ofSettings (doctype : Option DocType) (mode : SafeMode) (job : Map JobAttr) (embedded : Bool) :
    DocumentMeta :=
  let job := match doctype with
    | some d => job.insert "doctype" ⟨true, .string d.toStr⟩
    | none => job.insert "doctype" ⟨false, .string "article"⟩
  let m := { new mode job with embedded := embedded }
  match doctype with
  | some d => m.setDoctype d
  | none => m

/-- `core/src/document_meta.rs:131-160` — `insert_header_attr` -/
def insertHeaderAttr (m : DocumentMeta) (k : String) (v : AttrValue) : DocumentMeta × Option AttrErr :=
  if k ∈ JOB_ONLY then (m, some .jobOnly)
  else if k = "doctype" then
    match v.str.bind DocType.parse with
    | some d => (m.setDoctype d, none)
    | none => (m, some .invalidDoctype)
  else if (k = "chapter-refsig" ∨ k = "chapter-signifier" ∨ k = "part-refsig" ∨ k = "part-signifier")
      ∧ m.doctype ≠ .book then (m, some .bookOnly)
  else
    let r := attrsInsert m.headerAttrs k v
    ({ m with headerAttrs := r.1 }, r.2)

/-- `core/src/document_meta.rs:162-174` — `insert_doc_attr` -/
def insertDocAttr (m : DocumentMeta) (k : String) (v : AttrValue) : DocumentMeta × Option AttrErr :=
  if k ∈ JOB_ONLY then (m, some .jobOnly)
  else if k ∈ HEADER_ONLY then (m, some .headerOnly)
  else
    let r := attrsInsert m.docAttrs k v
    ({ m with docAttrs := r.1 }, r.2)

/-- `core/src/document_meta.rs:176-182` — `insert_job_attr` -/
def insertJobAttr (m : DocumentMeta) (k : String) (j : JobAttr) : DocumentMeta × Option AttrErr :=
  let r := jobInsert m.jobAttrs k j
  ({ m with jobAttrs := r.1 }, r.2)

/-- `core/src/document_meta.rs:184-186` -/
def clearDocAttrs (m : DocumentMeta) : DocumentMeta := { m with docAttrs := Map.empty }

/-- `core/src/document_meta.rs:68-72` -/
def removeAttr (m : DocumentMeta) (k : String) : DocumentMeta :=
  { m with headerAttrs := m.headerAttrs.remove k, docAttrs := m.docAttrs.remove k
           jobAttrs := m.jobAttrs.remove k }

/-- `core/src/document_meta.rs:74-86` — `clone_for_cell` -/
def cloneForCell (m : DocumentMeta) : DocumentMeta :=
  ["toc", "toc-placement", "toc-position", "showtitle", "notitle"].foldl removeAttr
    (m.setDoctype .article)

/-- `core/src/document_meta.rs:92-94` — `insert_string_attr`: errors are ignored. -/
def insertStringAttr (m : DocumentMeta) (k : String) (v : String) : DocumentMeta :=
  { m with headerAttrs := (attrsInsert m.headerAttrs k (.string v)).1 }

/-- `if let Some(x) = opt { insert }` -/
def insertOptAttr (m : DocumentMeta) (k : String) : Option String → DocumentMeta
  | some v => m.insertStringAttr k v
  | none => m

/-- `core/src/document_meta.rs:96-129` — `add_author`; `none` is the panic of `initials` on an empty
name. -/
def addAuthor (m : DocumentMeta) (a : Author) : Option DocumentMeta := do
  let ini ← a.initials
  let m1 :=
    if m.authors.isEmpty then
      let m := m.insertStringAttr "author" a.fullname
      let m := m.insertOptAttr "email" a.email
      let m := m.insertStringAttr "lastname" a.last
      let m := m.insertOptAttr "middlename" a.middle
      let m := m.insertStringAttr "firstname" a.first
      m.insertStringAttr "authorinitials" ini
    else m
  let n := toString (m.authors.length + 1)
  let m2 := m1.insertStringAttr ("author_" ++ n) a.fullname
  let m2 := m2.insertOptAttr ("email_" ++ n) a.email
  let m2 := m2.insertStringAttr ("lastname_" ++ n) a.last
  let m2 := m2.insertOptAttr ("middlename_" ++ n) a.middle
  let m2 := m2.insertStringAttr ("firstname_" ++ n) a.first
  let m2 := m2.insertStringAttr ("authorinitials_" ++ n) ini
  let m3 := match m2.headerAttrs "authors" with
    | some (.string authors) => m2.insertStringAttr "authors" (authors ++ ", " ++ a.fullname)
    | _ => m2.insertStringAttr "authors" a.fullname
  return { m3 with authors := m.authors ++ [a] }

/-- `core/src/document_meta.rs:212-220` — `resolve_attr` -/
def resolveAttr (m : DocumentMeta) (k : String) : Option AttrValue :=
  match m.docAttrs k with
  | some v => some v
  | none => match m.headerAttrs k with
    | some v => some v
    | none => defaultAttrs k

/-- `core/src/document_meta.rs:233-251` — `ReadAttr::get` -/
def get (m : DocumentMeta) (k : String) : Option AttrValue :=
  if k = "doctype-article" then (if m.doctype = .article then some (.bool true) else none)
  else if k = "doctype-book" then (if m.doctype = .book then some (.bool true) else none)
  else if k = "doctype-inline" then (if m.doctype = .inline then some (.bool true) else none)
  else if k = "doctype-manpage" then (if m.doctype = .manpage then some (.bool true) else none)
  else match m.jobAttrs k with
    | some ⟨true, v⟩ => some v
    | some ⟨false, v⟩ => (m.resolveAttr k).or (some v)
    | none =>
      if k = "doctitle" then
        (m.resolveAttr "doctitle").or (m.resolveAttr "_asciidork_derived_doctitle")
      else m.resolveAttr k

/-- `core/src/attrs.rs:39-41` -/
def isTrue (m : DocumentMeta) (k : String) : Bool := m.get k == some (.bool true)
/-- `core/src/attrs.rs:43-45` -/
def isFalse (m : DocumentMeta) (k : String) : Bool := m.get k == some (.bool false)

/-- `core/src/document_meta.rs:226-230` — `show_doc_title` -/
def showDocTitle (m : DocumentMeta) : Bool :=
  !(m.isTrue "notitle" || m.isFalse "showtitle" ||
    (m.embedded && (!m.isTrue "showtitle" && !m.isFalse "notitle")))

end DocumentMeta
end Verif
