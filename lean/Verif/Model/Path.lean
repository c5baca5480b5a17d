import Verif.Model.Split
/-!
Model of `core/src/path.rs`. Strings are character lists. `std::path::MAIN_SEPARATOR` is `/` (the model is of a build
on a Unix-like system).
-/
namespace Verif.Path
open Verif.Split

/-- `path.rs:1-9` -/
inductive Component where
  | uriScheme (s : List Char)
  | drivePrefix (s : List Char)
  | root
  | currentDir
  | parentDir
  | normal (s : List Char)
deriving DecidableEq, Repr

/-- `path.rs:11-15` -/
structure Path where
  separator : Char
  components : List Component
deriving DecidableEq, Repr

/-- `u8::is_ascii_alphabetic` -/
def asciiAlpha (c : Char) : Bool := ('a' ≤ c && c ≤ 'z') || ('A' ≤ c && c ≤ 'Z')

/-- `path.rs:204-215` — `drive_prefix`. Simplification: on characters; the code looks at the first two bytes, which
are ASCII when it accepts. -/
def drivePrefixOf : List Char → Option (List Char)
  | a :: b :: _ => if b = ':' && asciiAlpha a then some [a, b] else none
  | _ => none

/-- the closure of `path.rs:50-57`: one piece between separators -/
def component (s : List Char) : List Component :=
  if s = [] then []
  else if s = ['.'] then [.currentDir]
  else if s = ['.', '.'] then [.parentDir]
  else if s = "https:".toList then [.uriScheme "https".toList]
  else if s = "http:".toList then [.uriScheme "http".toList]
  else [.normal s]

/-- the inference of the separator of a path without drive (`path.rs:37-44`) -/
def inferSeparator (path : List Char) : Char := if '\\' ∈ path then '\\' else '/'

/-- `path.rs:46-57`: an optional root, then the pieces -/
def components (sep : Char) (path : List Char) : List Component :=
  match path with
  | [] => []
  | c :: cs => if c = sep then .root :: (splitOn sep cs).flatMap component
    else (splitOn sep (c :: cs)).flatMap component

/-- `path.rs:26-62` — `from_optional_sep` -/
def fromOptionalSep (path : List Char) (separator : Option Char) : Path :=
  match drivePrefixOf path with
  | some p => ⟨separator.getD '\\', .drivePrefix p :: components '\\' (path.drop 2)⟩
  | none =>
    let sep := inferSeparator path
    ⟨separator.getD sep, components sep path⟩

/-- `path.rs:22-24` — `Path::new` -/
def Path.new (path : List Char) : Path := fromOptionalSep path none

/-- `path.rs:161-163` — `is_uri` -/
def Path.isUri (p : Path) : Bool := match p.components.head? with | some (.uriScheme _) => true | _ => false

/-- `path.rs:72-79` — `is_absolute` -/
def Path.isAbsolute (p : Path) : Bool :=
  match p.components with
  | .uriScheme _ :: _ => true
  | .root :: _ => true
  | .drivePrefix _ :: .root :: _ => true
  | _ => false

/-- `path.rs:64-70` — `push` -/
def Path.push (p other : Path) : Path :=
  ⟨p.separator, (if other.isAbsolute then [] else p.components) ++ other.components⟩

/-- `path.rs:94-98` — `join` -/
def Path.join (p other : Path) : Path := p.push other

/-- `path.rs:85-92` — `pop` -/
def Path.pop (p : Path) : Path × Bool :=
  if p.components.length > 1 then (⟨p.separator, p.components.dropLast⟩, true) else (p, false)

/-- `path.rs:104-110` — `_file_name`, on the reversed components up to the index; `none`: `idx - 1` underflows -/
def fileNameRev : List Component → Option (List Char)
  | .normal s :: _ => some s
  | .currentDir :: rest => if rest = [] then none else fileNameRev rest
  | _ => some []

/-- `path.rs:100-102` — `file_name`; `none`: a panic (`len() - 1` underflows) -/
def Path.fileName (p : Path) : Option (List Char) :=
  if p.components = [] then none else fileNameRev p.components.reverse

/-- how one component is printed (`path.rs:182-192`) -/
def Component.display (sep : Char) : Component → List Char
  | .uriScheme s => s ++ [':', '/']
  | .drivePrefix s => s
  | .root => [sep]
  | .currentDir => ['.']
  | .parentDir => ['.', '.']
  | .normal s => s

/-- whether a separator follows a component that is not the last (`path.rs:193-198`) -/
def Component.sepAfter : Component → Bool
  | .root => false
  | .drivePrefix _ => false
  | _ => true

/-- `path.rs:178-201` — `Display` -/
def displayFrom (sep : Char) : List Component → List Char
  | [] => []
  | [c] => c.display sep
  | c :: cs => c.display sep ++ ((if c.sepAfter then [sep] else []) ++ displayFrom sep cs)

/-- `path.rs:178-201` -/
def Path.display (p : Path) : List Char := displayFrom p.separator p.components

/-- how a component is written by `dirname` (`path.rs:140-150`) -/
def Component.dirDisplay (sep : Char) : Component → List Char
  | .uriScheme s => s ++ [':']
  | c => c.display sep

/-- the loop of `path.rs:136-158` over all components but the last -/
def dirFrom (sep : Char) : List Component → List Char
  | [] => []
  | [c] => c.dirDisplay sep
  | c :: cs => c.dirDisplay sep ++ ((if c.sepAfter then [sep] else []) ++ dirFrom sep cs)

/-- `path.rs:125-159` — `dirname` -/
def Path.dirname (p : Path) : List Char :=
  match p.components with
  | [.root] => p.display
  | [.drivePrefix _, .root] => p.display
  | cs => dirFrom p.separator cs.dropLast

end Verif.Path
