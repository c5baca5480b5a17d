import Verif.Model.Meta
import Verif.Model.Path
/-!
Model of what a document is told about its file: `parser/src/tasks/attr_refs.rs:12-40`, `103-109`, `core/src/path.rs:112-123`,
`parser/src/parser.rs:47-55`.

Simplification: the home directory of the user (`std::env::home_dir`) is a parameter; one that is no UTF-8 is `.`, as in the code.
-/
namespace Verif.SourceAttrs
open Verif Verif.Path

/-- `rsplit_once('.')`, `rfind('.')`: what is before the last dot, and from it on -/
def lastDot : List Char → Option (List Char × List Char)
  | [] => none
  | c :: cs =>
    match lastDot cs with
    | some (before, from_) => some (c :: before, from_)
    | none => if c = '.' then some ([], c :: cs) else none

/-- `path.rs:112-118` — `file_stem`, of a file name -/
def stem (f : List Char) : List Char := match lastDot f with | some (before, _) => before | none => f

/-- `path.rs:120-123` — `extension`, of a file name -/
def extension (f : List Char) : List Char := match lastDot f with | some (_, from_) => from_ | none => []

/-- `attr_refs.rs:103-109` — `insert_job_attr`; its `unwrap` cannot fail for keys that are not checked -/
def put (m : DocumentMeta) (k : String) (v : List Char) : DocumentMeta :=
  (m.insertJobAttr k ⟨true, .string (String.ofList v)⟩).1

/-- where a document is from -/
inductive Source
  | stdin | path (p : Path) | tmp

/-- `attr_refs.rs:12-40` — `set_source_file_attrs`; `none`: the path has no file name, and the program stops -/
def setSourceFileAttrs (home : Option (List Char)) (m : DocumentMeta) : Source → Option DocumentMeta
  | .path p =>
    match p.fileName with
    | none => none
    | some f =>
      let filename := stem f ++ extension f
      let m := put m "docfilesuffix" (extension f)
      let m := put m "docname" (stem f)
      let m := put m "asciidork-docfilename" filename
      match m.safeMode with
      | .modeServer | .modeSecure => some (put (put (put m "docdir" []) "docfile" filename) "user-home" ['.'])
      | .modeSafe | .modeUnsafe =>
        let m := put m "docfile" p.display
        let m := put m "docdir" p.dirname
        match home with
        | some h => some (put m "user-home" h)
        | none => some m
  | _ => some m

/-- `parser.rs:47-55` — the attributes of a document after `apply_job_settings` -/
def started (doctype : Option DocType) (mode : SafeMode) (job : Map JobAttr) (embedded : Bool) (home : Option (List Char)) (s : Source) :
    Option DocumentMeta :=
  setSourceFileAttrs home (DocumentMeta.ofSettings doctype mode job embedded) s

end Verif.SourceAttrs
