import Verif.Lemmas.Docinfo
/-!
C59: what a docinfo file puts into the page.
-/
namespace Verif.Props
open Verif Verif.Docinfo Verif.Inlines

/-- **C59** (all files), partial: whatever is in a docinfo file, the page gets its lines in their order, each of them with the references
to attributes and the sequences of characters replaced as `docinfosubs` asks for and `attribute-missing` says, and nothing else is changed.

Missing: the line ends, which are lost (`C59_docinfo_newlines_violated`). -/
theorem C59_docinfo_partial (word : Char → Bool) (cfg : Cfg) (content : List Char) {refs seqs : Bool} (h : Asks cfg.subs refs seqs) :
    (∀ ls out, TextLines ls content → AllShown ⟨refs, seqs, policy cfg.missing, cfg.look⟩ ls out → items (fragment word cfg content) = out) ∧
    ∃ ls out, TextLines ls content ∧ AllShown ⟨refs, seqs, policy cfg.missing, cfg.look⟩ ls out := by
  have hs : cfg.settings = ⟨refs, seqs, policy cfg.missing, cfg.look⟩ := by simp only [Cfg.settings, asks_subs h]
  refine ⟨fun ls out hl ho => fragment_shown hl (by rw [hs]; exact ho), ?_⟩
  obtain ⟨ls, hl⟩ := textLines_exists _ content (Nat.le_refl _)
  obtain ⟨out, ho⟩ := allShown_exists ⟨refs, seqs, policy cfg.missing, cfg.look⟩ ls
  exact ⟨ls, out, hl, ho⟩

/-- **C59** (no substitutions): when `docinfosubs` names neither of them, only the line ends are lost. -/
theorem C59_no_subs_partial (word : Char → Bool) (cfg : Cfg) {ls : List (List Char)} {content : List Char} (h : Asks cfg.subs false false) (hl : TextLines ls content) :
    items (fragment word cfg content) = ls.flatten.map .char := by
  refine (C59_docinfo_partial word cfg content h).1 ls _ hl ?_
  have : ∀ ls : List (List Char), AllShown ⟨false, false, policy cfg.missing, cfg.look⟩ ls (ls.flatten.map .char) := by
    intro ls
    induction ls with
    | nil => exact .nil
    | cons l ls ih =>
      rw [List.flatten_cons, List.map_append]
      refine .cons ⟨l.map .char, rfl, ?_⟩ ih
      have h1 : (l.map Part.char).any (Part.missing cfg.look) = false := by
        rw [List.any_eq_false]; intro x hx; obtain ⟨c, _, rfl⟩ := List.mem_map.1 hx; simp [Part.missing]
      have h2 : (l.map Part.char).flatMap (Part.text (policy cfg.missing) cfg.look) = l := by
        induction l with
        | nil => rfl
        | cons c l ih => rw [List.map_cons, List.flatMap_cons, ih (by simpa using fun a ha => by (have := List.any_eq_false.1 h1 (.char a) (by simp [ha]); simpa using this))]; rfl
      rw [if_neg (by simp [h1]), h2]
      rfl
  exact this ls

/-- **C59** (two files): the file of all documents comes first, then a line end and the file of this document. -/
theorem C59_both_files (word : Char → Bool) (cfg : Cfg) (shared own : List Char) :
    (location word cfg (some shared) (some own)).map items = some (items (fragment word cfg shared) ++ .char '\n' :: items (fragment word cfg own)) ∧
    location word cfg (some shared) none = some (fragment word cfg shared) ∧ location word cfg none (some own) = some (fragment word cfg own) ∧
    location word cfg none none = none := by
  refine ⟨?_, rfl, rfl, rfl⟩
  simp only [location, Option.map_some, items_append, items_appendText]
  simp

private def sampleCfg : Cfg := ⟨some "replacements, attributes ".toList, none, fun n => if n = "x".toList then some (.string "1") else none⟩

private theorem sample_asks : Asks sampleCfg.subs true true :=
  .set (names := ["replacements".toList, "attributes".toList])
    (.cons (a := []) (b := []) (by decide) (by decide) (.last (a := [' ']) (n := "attributes".toList) (b := [' ']) (by decide) (by decide)))

/-- a file with references and sequences -/
example : Asks sampleCfg.subs true true ∧ TextLines ["<b>{x}</b>".toList, "p { q: {y} }---(C)".toList] "<b>{x}</b>\r\np { q: {y} }---(C)\n".toList ∧
    items (fragment Char.isAlphanum sampleCfg "<b>{x}</b>\r\np { q: {y} }---(C)\n".toList) =
      ("<b>1</b>".toList ++ "p { q: {y} }".toList).map .char ++ [.symbol .tripleDash, .symbol .copyright] := by
  refine ⟨sample_asks, ?_, by decide +kernel⟩
  exact .crlf (by decide) (by decide) (.lf (by decide) (by decide) .nil)

/-- **C59**, violated: with `attribute-missing=drop` (or `drop-line`), rules of style sheets disappear: what is between braces is
taken for a reference whenever there is no white space in it (`regx.rs:7`). -/
theorem C59_style_rule_violated :
    items (fragment Char.isAlphanum ⟨none, some "drop".toList, fun _ => none⟩ "<style>b{color:red}</style>".toList) =
      "<style>b</style>".toList.map .char ∧
    items (fragment Char.isAlphanum ⟨none, some "drop-line".toList, fun _ => none⟩ "<style>b{color:red}</style>".toList) = [] ∧
    items (fragment Char.isAlphanum ⟨none, some "drop".toList, fun _ => none⟩ "<style>b { color: red }</style>".toList) =
      "<style>b { color: red }</style>".toList.map .char := by
  decide +kernel

/-- **C59**, violated: with `replacements`, the end of a comment in the file is replaced and the comment does not end (`docinfo.rs:209-257`). -/
theorem C59_comment_violated :
    items (fragment Char.isAlphanum ⟨some "replacements".toList, none, fun _ => none⟩ "<!-- a --><b>".toList) =
      "<!".toList.map .char ++ [.symbol .emDash] ++ " a ".toList.map .char ++ [.symbol .emDash] ++ "><b>".toList.map .char := by
  decide +kernel

end Verif.Props
