import Verif.Model.Meta
/-!
Specification of document attributes in terms of the *history* of assignments.
-/
namespace Verif

/-- assignments a job or document can make -/
inductive AttrOp where
  | job (k : String) (j : JobAttr)
  | header (k : String) (v : AttrValue)
  | body (k : String) (v : AttrValue)
  | clearBody
deriving Repr

/-- the code -/
def AttrOp.run (m : DocumentMeta) : AttrOp → DocumentMeta
  | .job k j => (m.insertJobAttr k j).1
  | .header k v => (m.insertHeaderAttr k v).1
  | .body k v => (m.insertDocAttr k v).1
  | .clearBody => m.clearDocAttrs

/-- accepted assignments so far, latest first, and the document type they imply -/
structure AttrLog where
  doctype : DocType
  job : List (String × JobAttr)
  header : List (String × AttrValue)
  body : List (String × AttrValue)

/-- attributes only the job may set (document attributes reference) -/
def jobOnlyNames : List String :=
  ["allow-uri-read", "doc", "docdir", "docfile", "docfilesuffix", "docname", "max-attribute-value-size",
   "max-include-depth"]

/-- attributes that may be set in the header but not in the body -/
def headerOnlyNames : List String :=
  ["app-name", "author", "authorinitials", "authors", "copycss", "copyright", "css-signature", "description",
   "doctitle", "doctype", "email", "experimental", "firstname", "keywords", "lang", "last-update-label", "lastname",
   "linkcss", "manname-title", "middlename", "nolang", "orgname", "reproducible", "revdate", "revnumber",
   "revremark", "skip-front-matter", "stylesdir", "stylesheet", "title", "toc-class", "toc-title",
   "untitled-label", "version-label", "webfonts"]

/-- assigning one title switch unsets the other -/
def opposite (k : String) : Option String :=
  if k = "showtitle" then some "notitle" else if k = "notitle" then some "showtitle" else none

/-- value of `k` after the assignments in `log` (latest first) on top of `base`: the latest assignment
of `k`, unless the opposite switch was assigned later -/
def latest {V : Type} (base : String → Option V) (k : String) : List (String × V) → Option V
  | [] => base k
  | (k', v) :: log =>
    if k' = k then some v else if opposite k' = some k then none else latest base k log

/-- values the documentation allows for the constrained attributes -/
def okValue (k : String) (v : AttrValue) : Prop :=
  (k = "attribute-missing" → v ∈ ["skip", "warn", "drop", "drop-line"].map AttrValue.string) ∧
  (k = "attribute-undefined" → v ∈ ["drop", "drop-line"].map AttrValue.string) ∧
  (k = "showtitle" ∨ k = "notitle" → v = .bool true ∨ v = .bool false)

open Classical in
/-- which assignments are accepted, and what they record -/
noncomputable def AttrLog.step (l : AttrLog) : AttrOp → AttrLog
  | .job k j => if okValue k j.value then { l with job := (k, j) :: l.job } else l
  | .header k v =>
    if k ∈ jobOnlyNames then l
    else if k = "doctype" then
      match v.str.bind DocType.parse with
      | some d => { l with doctype := d, header := ("doctype", .string d.toStr) :: l.header }
      | none => l
    else if k ∈ ["chapter-refsig", "chapter-signifier", "part-refsig", "part-signifier"]
        ∧ l.doctype ≠ .book then l
    else if okValue k v then { l with header := (k, v) :: l.header } else l
  | .body k v =>
    if k ∈ jobOnlyNames ∨ k ∈ headerOnlyNames then l
    else if okValue k v then { l with body := (k, v) :: l.body } else l
  | .clearBody => { l with body := [] }

/-- the four computed attributes -/
def doctypeFlags : List String := ["doctype-article", "doctype-book", "doctype-inline", "doctype-manpage"]

/-- the documented order of preference -/
def preferred (job : Option JobAttr) (body header dflt : String → Option AttrValue) (k : String) :
    Option AttrValue :=
  let derived := "_asciidork_derived_doctitle"
  let candidates : List (Option AttrValue) :=
    match job with
    | some ⟨true, v⟩ => [some v]
    | some ⟨false, v⟩ => [body k, header k, dflt k, some v]
    | none =>
      if k = "doctitle" then [body k, header k, dflt k, body derived, header derived, dflt derived]
      else [body k, header k, dflt k]
  candidates.findSome? id

/-- documented name of each safe mode -/
def SafeMode.specName : SafeMode → String
  | .modeUnsafe => "UNSAFE" | .modeSafe => "SAFE" | .modeServer => "SERVER" | .modeSecure => "SECURE"

/-- documented level of each safe mode -/
def SafeMode.specLevel : SafeMode → String
  | .modeUnsafe => "0" | .modeSafe => "1" | .modeServer => "10" | .modeSecure => "20"

/-- operations a document (as opposed to the job) can perform -/
inductive DocOp where
  | header (k : String) (v : AttrValue)
  | body (k : String) (v : AttrValue)
  | clearBody
  | author (a : Author)

/-- the code; `none` is a panic -/
def DocOp.run (m : DocumentMeta) : DocOp → Option DocumentMeta
  | .header k v => some (m.insertHeaderAttr k v).1
  | .body k v => some (m.insertDocAttr k v).1
  | .clearBody => some m.clearDocAttrs
  | .author a => m.addAuthor a

end Verif

namespace Verif

/-- the parts with a separator between them -/
def joinSep (sep : String) : List String → String
  | [] => ""
  | [x] => x
  | x :: xs => x ++ sep ++ joinSep sep xs

/-- full name: the parts separated by spaces -/
def Author.specFullname (a : Author) : String :=
  joinSep " " (a.first :: a.middle.toList ++ [a.last])

/-- initials: first letters of the parts -/
def Author.specInitials (a : Author) : String :=
  String.ofList ((a.first :: a.middle.toList ++ [a.last]).filterMap fun s => s.toList.head?)

/-- what the attributes of an author should be (`none`: not set) -/
def Author.specFields (a : Author) : List (String × Option String) :=
  [("author", some a.specFullname), ("email", a.email), ("lastname", some a.last),
   ("middlename", a.middle), ("firstname", some a.first), ("authorinitials", some a.specInitials)]

end Verif
