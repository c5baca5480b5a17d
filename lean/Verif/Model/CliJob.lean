import Verif.Model.Meta
/-!
Model of how the command line becomes the settings of the job, and these the attributes of a document: `cli/src/args.rs:115-131`, on top of the
attribute store (`Model/Meta.lean`). The text of each `--attribute` is read by `parse_attr` (`Model/CliAttr.lean`); here they are names and values.
-/
namespace Verif.CliJob

/-- `args.rs:7-57` — the arguments that become settings -/
structure Args where
  doctype : Option DocType
  attributes : List (String × JobAttr)
  mode : SafeMode
  embedded : Bool

/-- `args.rs:125-127` — the loop of `try_from`, which stops at the first error -/
def insertAll (m : Map JobAttr) : List (String × JobAttr) → Except AttrErr (Map JobAttr)
  | [] => .ok m
  | (k, j) :: rest =>
    match jobInsert m k j with
    | (_, some e) => .error e
    | (m', none) => insertAll m' rest

/-- `args.rs:115-131` — `TryFrom<Args>`, then `From<JobSettings>` (`job_settings.rs:57-76`): the attributes a document starts with -/
def start (a : Args) : Except AttrErr DocumentMeta :=
  match insertAll Map.empty a.attributes with
  | .error e => .error e
  | .ok job => .ok (DocumentMeta.ofSettings a.doctype a.mode job a.embedded)

end Verif.CliJob
