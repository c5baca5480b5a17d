import Verif.Props.Head
import Verif.Props.IncludeProcess
import Verif.Lemmas.ImagePaths
/-!
C102: the stylesheet of a page.
-/
namespace Verif.Props
open Verif Verif.Head Verif.Spec.Head Verif.Images Verif.OpenTag Verif.StartTag Verif.Spec.Escape Verif.Spec.Images Verif.Path Verif.IncludeProcess

private theorem insert_css (m : DocumentMeta) (v : AttrValue) :
    m.insertHeaderAttr "_asciidork_resolved_custom_css" v =
      ({ m with headerAttrs := m.headerAttrs.insert "_asciidork_resolved_custom_css" v }, none) := by
  unfold DocumentMeta.insertHeaderAttr
  rw [if_neg (by decide), if_neg (by decide), if_neg (by simp)]
  have : attrsInsert m.headerAttrs "_asciidork_resolved_custom_css" v =
      (m.headerAttrs.insert "_asciidork_resolved_custom_css" v, none) := by
    have hv : validValue "_asciidork_resolved_custom_css" v = true := by
      unfold validValue
      rw [if_neg (by decide), if_neg (by decide), if_neg (by decide)]
    unfold attrsInsert validateAttr
    rw [if_pos hv, if_neg (by decide), if_neg (by decide)]
  rw [this]

/-- the components are shown so, and end with a name -/
private def ShownAs (s : Str) (cs : List Component) : Prop := displayFrom '/' cs = s ∧ ∃ c, cs.getLast? = some c ∧ c.sepAfter = true

private theorem push_eq {a t : Str} {cs : List Component} (ha : ShownAs a cs) (ht : Relative t ∨ Absolute t) :
    ∃ ds, (⟨'/', cs⟩ : Path).push (Path.new t) = ⟨'/', ds⟩ ∧ ShownAs (within a t) ds := by
  rcases ht with ⟨ws, h0, hws, rfl, hd⟩ | ⟨r, ⟨ws, h0, hws, rfl, hd⟩, rfl⟩
  · have hp := relative_printed h0 hws hd
    refine ⟨cs ++ ws.map compOf, ?_, ?_, ?_⟩
    · rw [hp.new]; simp [Path.push, parts_relative h0]
    · obtain ⟨c, k, he, hc⟩ := parts_cons h0 hws
      rw [displayFrom_append ha.2 (by simpa using h0), ha.1, hp.shown, within, if_neg (by rw [he]; simpa using hc)]
    · obtain ⟨c, hc, hs⟩ := parts_last h0
      exact ⟨c, by rw [List.getLast?_append, hc]; rfl, hs⟩
  · have hp := absolute_printed h0 hws
    refine ⟨.root :: ws.map compOf, join_absolute hp, ?_, hp.last⟩
    rw [hp.shown, within, if_pos (by simp)]

private theorem cssPath_eq {d : Disk} {m : DocumentMeta} {dir file : Str} (hc : Absolute d.cwd)
    (hdir : (headerStr m "stylesdir").getD ".".toList = dir) (hd : Relative dir ∨ Absolute dir) (hf : Relative file ∨ Absolute file) :
    cssPath d m file = within (within d.cwd dir) file := by
  obtain ⟨r, ⟨ws, h0, hws, rfl, _⟩, hr⟩ := hc
  have hp := absolute_printed h0 hws
  rw [← hr] at hp
  obtain ⟨ds, e1, h1⟩ := push_eq ⟨hp.shown, hp.last⟩ hd
  obtain ⟨es, e2, h2⟩ := push_eq h1 hf
  unfold cssPath
  rw [hdir, hp.new, e1, e2]
  exact h2.1

/-- the header of the document names this stylesheet, in this directory -/
structure Names (m : DocumentMeta) (dir file : Str) : Prop where
  name : m.headerAttrs "stylesheet" = some (.string (String.ofList file)) ∧ file ≠ []
  folder : (∃ s, m.headerAttrs "stylesdir" = some (.string s) ∧ dir = s.toList) ∨ (m.headerAttrs "stylesdir" = none ∧ dir = ".".toList)
  paths : (Relative dir ∨ Absolute dir) ∧ (Relative file ∨ Absolute file)
  /-- and nothing else does -/
  only : m.jobAttrs "stylesheet" = none ∧ m.docAttrs "stylesheet" = none ∧ m.jobAttrs "_asciidork_resolved_custom_css" = none ∧
    m.docAttrs "_asciidork_resolved_custom_css" = none

private theorem header_file {m : DocumentMeta} {dir file : Str} (h : Names m dir file) :
    headerStr m "stylesheet" = some file ∧ (headerStr m "stylesdir").getD ".".toList = dir ∧ str m "stylesheet" = some file := by
  refine ⟨?_, ?_, ?_⟩
  · unfold headerStr; rw [h.name.1]; simp [AttrValue.str]
  · unfold headerStr
    rcases h.folder with ⟨s, hs, rfl⟩ | ⟨hs, rfl⟩ <;> rw [hs] <;> rfl
  · unfold str DocumentMeta.get
    rw [if_neg (by decide), if_neg (by decide), if_neg (by decide), if_neg (by decide), h.only.1]
    simp only
    rw [if_neg (by decide)]
    unfold DocumentMeta.resolveAttr
    rw [h.only.2.1, h.name.1]
    simp [AttrValue.str]

private theorem get_css {m : DocumentMeta} (hj : m.jobAttrs "_asciidork_resolved_custom_css" = none)
    (hd : m.docAttrs "_asciidork_resolved_custom_css" = none) :
    m.get "_asciidork_resolved_custom_css" =
      match m.headerAttrs "_asciidork_resolved_custom_css" with | some v => some v | none => defaultAttrs "_asciidork_resolved_custom_css" := by
  unfold DocumentMeta.get
  rw [if_neg (by decide), if_neg (by decide), if_neg (by decide), if_neg (by decide), hj]
  simp only
  rw [if_neg (by decide)]
  unfold DocumentMeta.resolveAttr
  rw [hd]
  rfl

private theorem get_other (m : DocumentMeta) (v : AttrValue) {k : String} (hk : k ≠ "_asciidork_resolved_custom_css") :
    DocumentMeta.get { m with headerAttrs := m.headerAttrs.insert "_asciidork_resolved_custom_css" v } k = m.get k := by
  have : ∀ j, j ≠ "_asciidork_resolved_custom_css" →
      DocumentMeta.resolveAttr { m with headerAttrs := m.headerAttrs.insert "_asciidork_resolved_custom_css" v } j = m.resolveAttr j := by
    intro j hj
    unfold DocumentMeta.resolveAttr Map.insert
    simp only [if_neg hj]
  unfold DocumentMeta.get
  rw [this k hk, this "doctitle" (by decide), this "_asciidork_derived_doctitle" (by decide)]

/-- the text can be the text of a `style` element -/
def NoEnd (css : Str) : Prop := ¬ ∃ a b c, css = a ++ b ++ c ∧ b.map lower = "</style".toList

private theorem style_text {css : Str} (h : NoEnd css) : TextElement ("<style>".toList ++ css ++ "</style>".toList) "style" css := by
  have e1 : "<style>".toList = '<' :: "style".toList ++ ['>'] := by decide
  have e2 : "</style>".toList = '<' :: '/' :: "style".toList ++ ['>'] := by decide
  have e3 : "</style".toList = '<' :: '/' :: "style".toList := by decide
  refine ⟨?_, ?_⟩
  · rw [e1, e2]
    generalize "style".toList = a
    simp
  · unfold NoEnd at h
    rwa [e3] at h

/-- **C102** (the file named), partial: a stylesheet that the header of a document names is looked for in the directory of stylesheets, in the
working directory. If it may be read, the style of the page is what is in the file, and no other attribute is changed.

Missing: stylesheets named otherwise (`C102_command_line_violated`), files with an end tag of `style` in them. -/
theorem C102_named_partial {d : Disk} {m : DocumentMeta} {dir file css : Str} {place : List Name} (hc : Absolute d.cwd) (h : Names m dir file)
    (hplace : d.canon (within (within d.cwd dir) file) = some place) (hread : d.content place = some css)
    (hmay : m.safeMode = .modeUnsafe ∨ d.cwdPlace <+: place) (hcss : NoEnd css) (default : Str) :
    ∃ m', resolveCss d m = .done place m' ∧ TextElement (styleElement m' default) "style" css ∧ fontLink m' = [] ∧
      ∀ k, k ≠ "_asciidork_resolved_custom_css" → m'.get k = m.get k := by
  obtain ⟨h1, h2, h3⟩ := header_file h
  have hp := cssPath_eq hc h2 h.paths.1 h.paths.2
  have hs : ∀ v, str { m with headerAttrs := m.headerAttrs.insert "_asciidork_resolved_custom_css" v } "stylesheet" = some file := by
    intro v
    unfold str
    rw [get_other m v (by decide)]
    exact h3
  refine ⟨_, ?_, ?_, ?_, fun k hk => get_other m (.string (String.ofList css)) hk⟩
  · unfold resolveCss
    rw [h1]
    simp only
    rw [if_neg h.name.2, hp, hplace]
    simp only
    rw [if_neg (by rcases hmay with e | e <;> simp [e]), hread]
    simp only
    rw [insert_css]
  · unfold styleElement
    rw [hs, if_neg (by simpa using h.name.2)]
    have : str { m with headerAttrs := m.headerAttrs.insert "_asciidork_resolved_custom_css" (.string (String.ofList css)) }
        "_asciidork_resolved_custom_css" = some css := by
      unfold str
      rw [get_css (m := { m with headerAttrs := m.headerAttrs.insert "_asciidork_resolved_custom_css" (.string (String.ofList css)) }) h.only.2.2.1 h.only.2.2.2]
      simp [Map.insert, AttrValue.str]
    rw [this]
    exact style_text hcss
  · unfold fontLink
    rw [hs, if_neg (by simpa using h.name.2)]

/-- **C102** (stays inside): a file that is read as a stylesheet is the one that the path leads to, through all links; and except in unsafe
mode it is in the working directory. -/
theorem C102_stays_inside (fs : FS) (segs : Str → List Seg) {d : Disk} {m m' : DocumentMeta} {place : List Name}
    (hcanon : ∀ p c, d.canon p = some c → Leads fs [] (segs p) c) (h : resolveCss d m = .done place m') :
    (∃ p, Leads fs [] (segs p) place) ∧ (m.safeMode ≠ .modeUnsafe → d.cwdPlace <+: place) := by
  unfold resolveCss at h
  split at h
  · cases h
  · split at h
    · cases h
    · split at h
      · cases h
      · rename_i c hc
        split at h
        · cases h
        · rename_i hm
          split at h
          · cases h
          · rw [insert_css] at h
            simp only [CssResult.done.injEq] at h
            obtain ⟨rfl, -⟩ := h
            refine ⟨⟨_, hcanon _ _ hc⟩, fun hu => ?_⟩
            false_or_by_contra
            rename_i hn
            exact hm ⟨hu, hn⟩

/-- **C102** (nothing leaks): except in unsafe mode, what files outside the working directory say makes no difference. -/
theorem C102_outside (d e : Disk) (m : DocumentMeta) (hm : m.safeMode ≠ .modeUnsafe) (h1 : d.cwd = e.cwd) (h2 : d.cwdPlace = e.cwdPlace)
    (h3 : d.canon = e.canon) (h4 : ∀ p, d.cwdPlace <+: p → d.content p = e.content p) : resolveCss d m = resolveCss e m := by
  unfold resolveCss cssPath
  rw [h1, h3, ← h2]
  split
  · rfl
  · split
    · rfl
    · split
      · rfl
      · split
        · rfl
        · rename_i hn
          rw [h4]
          false_or_by_contra
          rename_i hx
          exact hn ⟨hm, hx⟩

/-- **C102** (problems): if the stylesheet that is named is not found, is not permitted or cannot be read, the page has no style, and nothing is
changed; unless the document has a text of its own for it (`C102_own_violated`). -/
theorem C102_problem {d : Disk} {m : DocumentMeta} {dir file : Str} (hc : Absolute d.cwd) (h : Names m dir file)
    (hown : m.headerAttrs "_asciidork_resolved_custom_css" = none)
    (hbad : ∀ place, d.canon (within (within d.cwd dir) file) = some place →
      (m.safeMode ≠ .modeUnsafe ∧ ¬ d.cwdPlace <+: place) ∨ d.content place = none) (default : Str) :
    (resolveCss d m = .notFound ∨ resolveCss d m = .notPermitted ∨ resolveCss d m = .unreadable) ∧
    (resolveCss d m).meta m = m ∧ styleElement m default = [] := by
  obtain ⟨h1, h2, h3⟩ := header_file h
  have hp := cssPath_eq hc h2 h.paths.1 h.paths.2
  have hst : styleElement m default = [] := by
    unfold styleElement
    rw [h3, if_neg (by simpa using h.name.2)]
    have : str m "_asciidork_resolved_custom_css" = none := by
      unfold str
      rw [get_css h.only.2.2.1 h.only.2.2.2, hown]
      decide +kernel
    rw [this]
  have key : resolveCss d m = .notFound ∨ resolveCss d m = .notPermitted ∨ resolveCss d m = .unreadable := by
    unfold resolveCss
    rw [h1]
    simp only
    rw [if_neg h.name.2, hp]
    cases hpl : d.canon (within (within d.cwd dir) file) with
    | none => exact .inl rfl
    | some place =>
      simp only
      by_cases hx : m.safeMode ≠ .modeUnsafe ∧ ¬ d.cwdPlace <+: place
      · rw [if_pos hx]; exact .inr (.inl rfl)
      · rw [if_neg hx, (hbad place hpl).resolve_left hx]; exact .inr (.inr rfl)
  refine ⟨key, ?_, hst⟩
  rcases key with k | k | k <;> rw [k] <;> rfl

/-- **C102** (default): a document that names no stylesheet has the default style, and no file is read for it; one that says there is none has
none. -/
theorem C102_default (d : Disk) (m : DocumentMeta) (default : Str)
    (hj : m.jobAttrs "stylesheet" = none ∧ m.docAttrs "stylesheet" = none ∧ m.jobAttrs "_asciidork_resolved_custom_css" = none ∧
      m.docAttrs "_asciidork_resolved_custom_css" = none ∧ m.headerAttrs "_asciidork_resolved_custom_css" = none) :
    ((m.headerAttrs "stylesheet" = none ∨ m.headerAttrs "stylesheet" = some (.string "") ∨ m.headerAttrs "stylesheet" = some (.bool true)) →
      resolveCss d m = .unasked ∧ styleElement m default = "<style>".toList ++ default ++ "</style>".toList) ∧
    (m.headerAttrs "stylesheet" = some (.bool false) → resolveCss d m = .unasked ∧ styleElement m default = [] ∧ fontLink m = []) := by
  have hg : m.get "stylesheet" = match m.headerAttrs "stylesheet" with | some v => some v | none => defaultAttrs "stylesheet" := by
    unfold DocumentMeta.get
    rw [if_neg (by decide), if_neg (by decide), if_neg (by decide), if_neg (by decide), hj.1]
    simp only
    rw [if_neg (by decide)]
    unfold DocumentMeta.resolveAttr
    rw [hj.2.1]
    rfl
  have hdef : defaultAttrs "stylesheet" = some (.string "") := by decide +kernel
  refine ⟨fun h => ⟨?_, ?_⟩, fun h => ⟨?_, ?_, ?_⟩⟩
  · unfold resolveCss headerStr
    rcases h with h | h | h <;> rw [h] <;> rfl
  · unfold styleElement str
    rw [hg]
    rcases h with h | h | h <;> rw [h]
    · simp only; rw [hdef, if_pos (by rfl)]
    · simp only; rw [if_pos (by rfl)]
    · simp only; rw [if_pos (by rfl)]
  · unfold resolveCss headerStr
    rw [h]; rfl
  · unfold styleElement
    have h1 : str m "stylesheet" = none := by unfold str; rw [hg, h]; rfl
    have h2 : str m "_asciidork_resolved_custom_css" = none := by
      unfold str
      rw [get_css hj.2.2.1 hj.2.2.2.1, hj.2.2.2.2]
      decide +kernel
    rw [h1, h2, if_neg nofun]
  · unfold fontLink
    have h1 : str m "stylesheet" = none := by unfold str; rw [hg, h]; rfl
    rw [h1, if_neg nofun]

/-- **C102** (fonts), partial: with the default style, the fonts that the document names, else the default ones, are linked. Missing: names with
quotes. -/
theorem C102_fonts_partial {m : DocumentMeta} {fonts : Str} (h : str m "stylesheet" = some [])
    (hf : (str m "webfonts" = some fonts ∧ fonts ≠ []) ∨ ((str m "webfonts" = none ∨ str m "webfonts" = some []) ∧ fonts =
      "Open+Sans:300,300italic,400,400italic,600,600italic%7CNoto+Serif:400,400italic,700,700italic%7CDroid+Sans+Mono:400,700".toList))
    (hq : '"' ∉ fonts) :
    Says (fontLink m) "link" [("rel", "stylesheet".toList), ("href", "https://fonts.googleapis.com/css?family=".toList ++ unescape fonts)] := by
  have e : fontLink m = "<link rel=\"stylesheet\" href=\"https://fonts.googleapis.com/css?family=".toList ++ fonts ++ "\" />".toList := by
    unfold fontLink
    rw [if_pos h]
    congr 2
    generalize "Open+Sans:300,300italic,400,400italic,600,600italic%7CNoto+Serif:400,400italic,700,700italic%7CDroid+Sans+Mono:400,700".toList = df at *
    rcases hf with ⟨h1, h2⟩ | ⟨h1 | h1, h2⟩
    · rw [h1, Option.filter_some, if_pos (by simpa using h2)]
    · rw [h1, h2]; rfl
    · rw [h1, h2]; rfl
  have p : Reader.read {} "<link rel=\"stylesheet\" href=\"https://fonts.googleapis.com/css?family=".toList =
      { state := .double, name := "link".toList,
        attrs := [("rel".toList, "stylesheet".toList)] ++ [("href".toList, "https://fonts.googleapis.com/css?family=".toList)] } := by decide +kernel
  refine ⟨[("rel".toList, "stylesheet".toList), ("href".toList, "https://fonts.googleapis.com/css?family=".toList ++ fonts)], ?_, ?_⟩
  · unfold IsTag
    rw [e, read_append, read_append, p, read_value fonts _ _ _ _ hq rfl rfl]
    have e3 : "\" />".toList = ['"', ' ', '/', '>'] := by decide
    rw [e3]
    simp [Reader.read, Reader.step, Reader.before, space, Reader.close]
  · simp only [List.map_cons, List.map_nil]
    rw [unescape_append (a := "https://fonts.googleapis.com/css?family=".toList) (by decide +kernel), unescape_plain (by decide +kernel)]
    simp

/-- **C102** (no panic): putting the text of the file into the document never fails. -/
theorem C102_no_panic (d : Disk) (m : DocumentMeta) : resolveCss d m ≠ .panic := by
  unfold resolveCss
  split
  · nofun
  · split
    · nofun
    · split
      · nofun
      · split
        · nofun
        · split
          · nofun
          · rw [insert_css]; nofun

/-! ### where it fails -/

/-- a working directory with one stylesheet in it -/
def cssDisk : Disk :=
  ⟨"/home/me".toList, ["home", "me"].map String.toList,
    fun p => if p = "/home/me/./my.css".toList then some (["home", "me", "my.css"].map String.toList) else none,
    fun p => if p = ["home", "me", "my.css"].map String.toList then some "p { margin: 0 }".toList else none⟩

/-- what came of it -/
def cssOutcome : CssResult → String
  | .unasked => "not asked" | .notFound => "not found" | .notPermitted => "not permitted" | .unreadable => "not readable" | .done _ _ => "read"
  | .panic => "panic"

/-- **C102**, violated: a stylesheet that is named on the command line is not read, and the page has no style at all. -/
theorem C102_command_line_violated :
    let m := DocumentMeta.ofSettings none .modeSafe (fun k => if k = "stylesheet" then some ⟨true, .string "my.css"⟩ else none) false
    cssOutcome (resolveCss cssDisk m) = "not asked" ∧ styleElement ((resolveCss cssDisk m).meta m) "default".toList = [] := by decide +kernel

/-- **C102**, violated: in secure mode, which lets no document include a file, the file is read and put into the page. -/
theorem C102_secure_violated :
    let m := someMeta .modeSecure [("stylesheet", .string "my.css")]
    cssOutcome (resolveCss cssDisk m) = "read" ∧
      styleElement ((resolveCss cssDisk m).meta m) [] = "<style>p { margin: 0 }</style>".toList := by decide +kernel

/-- **C102**, violated: a document can have a style without a stylesheet. -/
theorem C102_own_violated :
    let m := someMeta .modeSafe [("stylesheet", .string "none.css"), ("_asciidork_resolved_custom_css", .string "p { margin: 9 }")]
    cssOutcome (resolveCss cssDisk m) = "not found" ∧
      styleElement ((resolveCss cssDisk m).meta m) [] = "<style>p { margin: 9 }</style>".toList := by decide +kernel

/-! ### the hypotheses are met -/

example : let m := someMeta .modeSafe [("stylesheet", .string "my.css")]
    Names m ".".toList "my.css".toList ∧ Absolute cssDisk.cwd ∧
    (cssDisk.canon (within (within cssDisk.cwd ".".toList) "my.css".toList)) = some (["home", "me", "my.css"].map String.toList) ∧
    cssDisk.cwdPlace <+: ["home", "me", "my.css"].map String.toList := by
  refine ⟨⟨⟨by decide +kernel, by decide⟩, .inr ⟨by decide +kernel, rfl⟩, ⟨.inl ?_, .inl ?_⟩, by decide +kernel, rfl, by decide +kernel, rfl⟩, ?_,
    by decide +kernel, by decide +kernel⟩
  · exact ⟨[".".toList], by simp, by simp [Part], by simp [Split.joinWith], by simp⟩
  · exact ⟨["my.css".toList], by simp, by simp [Part], by simp [Split.joinWith], by simp⟩
  · exact ⟨"home/me".toList, ⟨["home".toList, "me".toList], by simp, by simp [Part], by simp [Split.joinWith], by simp⟩, by decide⟩

end Verif.Props
