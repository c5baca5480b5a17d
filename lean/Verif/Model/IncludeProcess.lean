import Verif.Model.Meta
import Verif.Model.Path
/-!
Model of how an include directive, a docinfo file or an embedded image reaches the resolver:
`parser/src/tasks/directives/includes/process_includes.rs`, `target.rs`, `include_resolver.rs`,
`parser/src/docinfo.rs`, `get_image_bytes` of `parser/src/tasks/parse_image_block.rs`, and of the resolver of the
command line program, `cli/src/resolver.rs`. The outside world (file contents, canonicalisation) is a parameter.
-/
namespace Verif.IncludeProcess
open Verif.Path Verif.Split

abbrev Bytes := List UInt8

/-- `include_resolver.rs:6-9` -/
inductive Target where
  | filePath (p : List Char)
  | uri (u : List Char)
deriving DecidableEq, Repr

/-- `include_resolver.rs:28-37` — `From<Path> for IncludeTarget` -/
def Target.ofPath (p : Path) : Target := if p.isUri then .uri p.display else .filePath p.display

/-- what a resolver can answer (`include_resolver.rs:77-86`); `other` stands for the remaining errors -/
inductive Resolved where
  | ok (bytes : Bytes)
  | notFound
  | io
  | other
deriving DecidableEq, Repr

/-- `parser.rs:392-396`; `Tmp` is never the current source here -/
inductive SourceFile where
  | stdin
  | path (p : Path)
deriving DecidableEq, Repr

/-- the token after `include::` is a `UriScheme` (`process_includes.rs:153`, `source_lexer.rs:344-349`, `656-666`) -/
def startsUri (target : List Char) : Bool :=
  ["http://", "https://", "ftp://", "mailto://", "irc://", "file:///"].any fun p => p.toList.isPrefixOf target

/-- result of `target.rs:6-36` -/
inductive Prepared where
  | ok (t : Target)
  | baseDirRequired
  /-- `unimplemented!` -/
  | panic
deriving DecidableEq, Repr

/-- `target.rs:6-36` — `prepare` -/
def prepare (target : List Char) (isUri : Bool) (src : SourceFile) (primary : Bool) (baseDir : Option (List Char)) :
    Prepared :=
  if isUri then .ok (.uri target)
  else
    let t := Path.new target
    if primary && !t.isAbsolute then
      match baseDir with
      | none => .baseDirRequired
      | some b => .ok (.filePath ((Path.new b).join t).display)
    else
      match src with
      | .path p => .ok (Target.ofPath (if t.isAbsolute then t else (Path.new p.dirname).join t))
      | .stdin => .panic

/-- `str::replace("include::", "link:")` -/
def replaceInclude : List Char → List Char
  | [] => []
  | c :: cs =>
    if "include::".toList.isPrefixOf (c :: cs) then "link:".toList ++ replaceInclude (cs.drop 8)
    else c :: replaceInclude cs
termination_by l => l.length
decreasing_by
  · simp only [List.length_drop, List.length_cons]; omega
  · simp

/-- the loop of `process_includes.rs:186-201`; each `[` is a token of its own -/
def insertRole (hasSpaces : Bool) : List Char → List Char
  | [] => []
  | c :: cs =>
    if c = '[' then (if hasSpaces then [']'] else []) ++ "[role=include,".toList ++ insertRole hasSpaces cs
    else c :: insertRole hasSpaces cs

/-- `process_includes.rs:171-203` — `substitute_link_for_include`, the text of the new line. Simplification: the first
token is `link:`, and the line contains no attribute reference. -/
def substituteLink (hasSpaces : Bool) (lineSrc : List Char) : List Char :=
  let src := replaceInclude lineSrc
  src.take 5 ++ (if hasSpaces then "pass:c[".toList else []) ++ insertRole hasSpaces (src.drop 5)

/-- `process_includes.rs:8-15`; `attrs` is the text between the brackets, `optional` whether it has that option -/
structure Directive where
  target : List Char
  attrs : List Char
  optional : Bool
deriving DecidableEq, Repr

/-- the line the directive was written in -/
def Directive.lineSrc (d : Directive) : List Char := "include::".toList ++ (d.target ++ '[' :: (d.attrs ++ [']']))

/-- `process_includes.rs:150` -/
def Directive.hasSpaces (d : Directive) : Bool := d.target.contains ' '

/-- the state the decision depends on -/
structure Env where
  mode : SafeMode
  allowUriRead : Bool
  /-- `exceeded_max_include_depth` (see the model of the include stack) -/
  exceeded : Bool
  strict : Bool
  hasResolver : Bool
  baseDir : Option (List Char)
  src : SourceFile
  primary : Bool

/-- what becomes of the line -/
inductive Action where
  | passthrough
  | substituteLine (line : List Char)
  /-- the directive is replaced by this text -/
  | included (bytes : Bytes)
  /-- the directive is dropped -/
  | dropped
  /-- "+++Unresolved directive …+++" is shown -/
  | unresolved
  /-- strict mode: the first problem ends the parse -/
  | failed
  | panic
deriving DecidableEq, Repr

/-- calls made to the resolver, what becomes of the line, number of problems reported -/
structure Outcome where
  calls : List Target
  action : Action
  problems : Nat
deriving DecidableEq, Repr

/-- report a problem: in strict mode this is the end (`err_at` and friends), otherwise go on with `action` -/
def report (env : Env) (calls : List Target) (action : Action) : Outcome :=
  ⟨calls, if env.strict then .failed else action, 1⟩

/-- `process_includes.rs:18-131` — `try_process_include_directive`, for a line that is an include directive.
`resolve` is the resolver, `prepareText` stands for `normalize_include_bytes`, `select_lines` and indentation
(`none`: the bytes could not be decoded); both are left open here. -/
def process (env : Env) (resolve : Target → Resolved) (prepareText : Bytes → Option Bytes) (d : Directive) : Outcome :=
  let link := Action.substituteLine (substituteLink d.hasSpaces d.lineSrc)
  if env.mode = .modeSecure then ⟨[], link, 0⟩
  else if startsUri d.target && (decide (env.mode.rank > SafeMode.modeServer.rank) || !env.allowUriRead) then
    report env [] link
  else if env.exceeded then report env [] .passthrough
  else if !env.hasResolver then report env [] .passthrough
  else
    match prepare d.target (startsUri d.target) env.src env.primary env.baseDir with
    | .baseDirRequired => report env [] link
    | .panic => ⟨[], .panic, 0⟩
    | .ok t =>
      match resolve t with
      | .ok bytes =>
        match prepareText bytes with
        | none => report env [t] link
        | some b => ⟨[t], .included b, 0⟩
      | .notFound => if d.optional then ⟨[t], .dropped, 0⟩ else report env [t] .unresolved
      | .io => report env [t] .unresolved
      | .other => report env [t] .passthrough

/-! ### the resolver of the command line program -/

abbrev Name := List Char

/-- a segment of a file system path -/
inductive Seg where
  | root | cur | up
  | name (n : Name)
deriving DecidableEq, Repr

/-- A file system: which absolute locations exist, which are symbolic links and to what, and the contents of files. -/
structure FS where
  exist : List Name → Bool
  link : List Name → Option (List Seg)
  content : List Name → Option Bytes

/-- `resolver.rs:56-99` — `resolve_filepath`. `segs` is how the operating system reads a path text, `canon` is
`dunce::canonicalize`. `mismatch` is the strict comparison of the written and the canonical path
(`resolver.rs:76-87`). Opening a path reads the file at its canonical location. -/
def cliResolveFile (canon : List Char → Option (List Name)) (fs : FS) (baseDir : Option (List Char)) (strict : Bool)
    (mismatch : List Char → List Name → Bool) (mode : SafeMode) (path : List Char) : Resolved :=
  match canon path with
  | none => .notFound
  | some pathc =>
    let inside : Option Bool :=
      if mode ≠ .modeUnsafe then
        match baseDir.bind canon with
        | none => none
        | some b => some (b.isPrefixOf pathc)
      else some true
    match inside with
    | none => .other
    | some false => .other
    | some true =>
      if strict && mismatch path pathc then .other
      else match fs.content pathc with
        | some bytes => .ok bytes
        | none => .io

/-! ### docinfo -/

/-- `str::trim` for ASCII white space -/
def isWs (c : Char) : Bool := c = ' ' || c = '\t' || c = '\n' || c = '\r' || c = '\x0b' || c = '\x0c'

/-- `str::trim` -/
def trim (l : List Char) : List Char := ((l.dropWhile isWs).reverse.dropWhile isWs).reverse

/-- the attributes docinfo depends on: `docinfo` (`none`: not set or not a string), whether `docinfo1` and `docinfo2`
are set, `docname`, `docinfodir`, `outfilesuffix` -/
structure DocinfoAttrs where
  docinfo : Option (List Char)
  docinfo1 : Bool
  docinfo2 : Bool
  docname : Option (List Char)
  docinfodir : Option (List Char)
  suffix : Option (List Char)

/-- `docinfo.rs:123-136` — `docinfo_attributes` -/
def docinfoAttributes (a : DocinfoAttrs) : List (List Char) :=
  match a.docinfo with
  | some (c :: cs) => ((splitOn ',' (c :: cs)).map trim).filter fun p => p ≠ []
  | _ =>
    if a.docinfo2 then ["private".toList, "shared".toList]
    else if a.docinfo1 then ["shared".toList]
    else if a.docinfo.isSome then ["private".toList]
    else []

/-- `docinfo.rs:138-158` — `docinfo_target` -/
def docinfoTarget (a : DocinfoAttrs) (baseDir : Option (List Char)) (file : List Char) : Target :=
  Target.ofPath <| match a.docinfodir with
    | some dir =>
      let dir := Path.new dir
      if dir.isAbsolute then dir.join (Path.new file)
      else match baseDir with
        | some b => ((Path.new b).join dir).join (Path.new file)
        | none => dir.join (Path.new file)
    | none => match baseDir with
      | some b => (Path.new b).join (Path.new file)
      | none => Path.new file

/-- `docinfo.rs:175-178` — `docinfo_filename` -/
def docinfoFilename (a : DocinfoAttrs) (qualifier : List Char) : List Char :=
  "docinfo".toList ++ qualifier ++ a.suffix.getD ".html".toList

/-- `docinfo.rs:42-75` — `resolve_docinfo_location`, the files requested -/
def docinfoFiles (a : DocinfoAttrs) (docinfo : List (List Char)) (sharedFile sharedKey privateKey : List Char) :
    List (List Char) :=
  (if docinfo.any fun v => v == "shared".toList || v == sharedKey then [sharedFile] else []) ++
  (match a.docname with
    | some n => if n ≠ [] ∧ docinfo.any (fun v => v == "private".toList || v == privateKey) then
        [n ++ '-' :: sharedFile] else []
    | none => [])

/-- `docinfo.rs:5-40` — `resolve_docinfo`, the targets requested from the resolver, in order -/
def docinfoRequests (mode : SafeMode) (hasResolver : Bool) (baseDir : Option (List Char)) (a : DocinfoAttrs) :
    List Target :=
  if decide (mode.rank ≥ SafeMode.modeSecure.rank) then []
  else
    let docinfo := docinfoAttributes a
    if docinfo = [] then []
    else if !hasResolver then []
    else
      (docinfoFiles a docinfo (docinfoFilename a []) "shared-head".toList "private-head".toList ++
       docinfoFiles a docinfo (docinfoFilename a "-header".toList) "shared-header".toList "private-header".toList ++
       docinfoFiles a docinfo (docinfoFilename a "-footer".toList) "shared-footer".toList
        "private-footer".toList).map (docinfoTarget a baseDir)

/-- `docinfo.rs:80-88`: `\r\n` and lone `\r` become `\n` -/
def docinfoNewlines : List Char → List Char
  | [] => []
  | '\r' :: '\n' :: cs => '\n' :: docinfoNewlines cs
  | '\r' :: cs => '\n' :: docinfoNewlines cs
  | c :: cs => c :: docinfoNewlines cs

/-- `split_inclusive('\n')` then `strip_suffix('\n')` (`docinfo.rs:94`, `109`): the pieces, without an empty last one -/
def linesOf (l : List Char) : List (List Char) :=
  let ps := splitOn '\n' l
  if ps.getLast? = some [] then ps.dropLast else ps

/-- `docinfo.rs:91-120` — `parse_docinfo_fragment` when `docinfosubs` asks for no substitution: the text that is
inserted -/
def docinfoText (content : List Char) : List Char := (linesOf (docinfoNewlines content)).flatten

/-! ### images -/

/-- the scheme part of `URI_SNIFF`, `^[a-zA-Z][a-zA-Z0-9.+-]+:` (`regx.rs:67`) -/
def uriSniff : List Char → Bool
  | [] => false
  | c :: cs =>
    asciiAlpha c &&
      (let s := cs.takeWhile fun d => asciiAlpha d || d.isDigit || d = '.' || d = '+' || d = '-'
       s ≠ [] && (cs.drop s.length).head? == some ':')

/-- `parse_image_block.rs:204-262` — `get_image_bytes`: the target requested, if any -/
def imageRequest (allowUriRead : Bool) (baseDir : Option (List Char)) (imagesdir : Option (List Char))
    (target : List Char) (isUri : Bool) : Option Target :=
  if isUri && !allowUriRead then none
  else if isUri then some (.uri target)
  else match baseDir with
    | none => none
    | some b =>
      match imagesdir with
      | none => some (Target.ofPath ((Path.new b).join (Path.new target)))
      | some dir =>
        if uriSniff dir && !allowUriRead then none
        else
          let p := if uriSniff dir then Path.new dir else (Path.new b).join (Path.new dir)
          some (Target.ofPath (p.join (Path.new target)))

end Verif.IncludeProcess
