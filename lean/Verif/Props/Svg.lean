import Verif.Lemmas.Svg
import Verif.Props.Images
/-!
C97: inlined SVG images.
-/
namespace Verif.Props
open Verif Verif.Images Verif.OpenTag Verif.StartTag Verif.Spec.Images Verif.Spec.Escape Verif.Escape Verif.IncludeProcess

/-- the text of a file with one SVG image -/
structure SvgFile (file : Str) (as : List SvgAttr) (body : Str) : Prop where
  /-- something before it, the start of its tag, attributes, the rest, and spaces -/
  parts : ∃ before spaces, file = before ++ ("<svg".toList ++ (svgAttrs as ++ body) ++ spaces) ∧
    (∀ c ∈ spaces, asciiSpace c = true) ∧ ¬ Has "<svg".toList (svgAttrs as ++ body ++ spaces)
  attrs : ∀ a ∈ as, a.Ok
  body : TagEnd body ∧ ∀ c, body.getLast? = some c → asciiSpace c = false

private theorem buf_eq {file : Str} {as : List SvgAttr} {body : Str} (h : SvgFile file as body) :
    trimAscii ((lastSvg file).getD file) = "<svg".toList ++ (svgAttrs as ++ body) := by
  obtain ⟨before, spaces, rfl, hsp, hno⟩ := h.parts
  obtain ⟨c, r, hb, -⟩ := h.body.1
  rw [List.append_assoc "<svg".toList, lastSvg_at hno, Option.getD_some, ← List.append_assoc "<svg".toList]
  refine trimAscii_end (s := "<svg".toList ++ (svgAttrs as ++ body)) ?_ ?_ ?_ hsp
  · intro c hc; cases hc; decide
  · intro d hd
    have hne : body ≠ [] := by rw [hb]; exact List.cons_ne_nil _ _
    refine h.body.2 d ?_
    rw [← hd, ← List.append_assoc, List.getLast?_append]
    cases hl : body.getLast? with
    | none => exact absurd (List.getLast?_eq_none_iff.1 hl) hne
    | some x => rfl
  · exact List.cons_ne_nil _ _

/-- **C97** (no size), partial: if no size is asked for, an inlined SVG image is put into the page as it is in the file, without what is
before and the spaces behind.

Missing: images with images in them (`C97_nested_violated`). -/
theorem C97_as_it_is_partial {a : Attrs} {file : Str} {as : List SvgAttr} {body : Str} (h : SvgFile file as body)
    (hw : (a.named "width" <|> a.pos 1) = none) (hh : (a.named "height" <|> a.pos 2) = none) :
    svgText a file = "<svg".toList ++ (svgAttrs as ++ body) := by
  unfold svgText
  simp only [hw, hh]
  exact buf_eq h

/-- **C97** (size), partial: if a size is asked for, the image gets it, and loses only its own size and style; the rest of it is as in the
file.

Missing: images with images in them (`C97_nested_violated`), or with widths, heights or styles inside (`C97_inside_violated`); the
space between width and height (`C97_no_space_violated`). -/
theorem C97_size_partial {a : Attrs} {file : Str} {as : List SvgAttr} {body : Str} (h : SvgFile file as body) (hs : ¬ HasSize body)
    (hw : (a.named "width" <|> a.pos 1).isSome = true ∨ (a.named "height" <|> a.pos 2).isSome = true) :
    svgText a file = "<svg ".toList ++ sizeText (a.named "width" <|> a.pos 1) (a.named "height" <|> a.pos 2) ++
      (svgAttrs (others as) ++ body) := by
  have hstrip : strip ("<svg".toList ++ (svgAttrs as ++ body)).length ("<svg".toList ++ (svgAttrs as ++ body)) =
      "<svg".toList ++ (svgAttrs (others as) ++ body) := by
    rw [stripAll_keep (attrs_ends h.attrs h.body.1), strip_attrs h.body.1 hs h.attrs]
    have := hasSize_skip (x := "<svg".toList) (y := []) (by
      have : ("<svg".toList.all fun c => !Regex.space c) = true := by decide +kernel
      intro c hc hwh
      have := List.all_eq_true.1 this c hc
      rw [show Regex.space c = true from hwh] at this
      cases this) hasSize_nil
    rwa [List.append_nil] at this
  unfold svgText
  rw [buf_eq h]
  simp only
  rw [if_neg, hstrip, replaceSvg_front, List.append_assoc "<svg ".toList]
  · rfl
  · cases h1 : (a.named "width" <|> a.pos 1) <;> cases h2 : (a.named "height" <|> a.pos 2) <;> simp [h1, h2] at hw ⊢

/-- the text that an image with this size should have -/
def svgShown (a : Attrs) (as : List SvgAttr) (body : Str) : Str :=
  if (a.named "width" <|> a.pos 1) = none ∧ (a.named "height" <|> a.pos 2) = none then "<svg".toList ++ (svgAttrs as ++ body)
  else "<svg ".toList ++ sizeText (a.named "width" <|> a.pos 1) (a.named "height" <|> a.pos 2) ++ (svgAttrs (others as) ++ body)

/-- what is expected of the settings of a document that inlines an image -/
structure Inlines (w : World) (m : DocumentMeta) (base target : Str) (a : Attrs) (block : Option Attrs) : Prop where
  resolver : w.resolver = true
  base : w.baseDir = some base ∧ Absolute base
  mode : m.safeMode ≠ .modeSecure
  dir : ∀ d, Images.str m "imagesdir" = some d → (Relative d ∨ Absolute d) ∧ ':' ∉ d
  path : Relative target ∨ Absolute target
  option : "inline" ∈ a.options ∨ ∃ b, block = some b ∧ "inline" ∈ b.options
  format : a.named "format" = some "svg".toList ∨ a.named "format" = none ∧ ∃ x, target = x ++ ".svg".toList

private theorem inlines {w : World} {m : DocumentMeta} {base target : Str} {a : Attrs} {block : Option Attrs}
    (h : Inlines w m base target a block) : inlined m target a block = true := by
  unfold inlined
  rw [if_neg, if_neg, if_neg]
  · intro hf
    simp only [Bool.and_eq_true, Bool.not_eq_true'] at hf
    rcases h.format with e | ⟨-, x, e⟩
    · rw [e] at hf; exact absurd hf.1 (by simp)
    · rw [e, svgTarget_end] at hf; exact absurd hf.2 (by simp)
  · have := h.mode
    cases hm : m.safeMode <;> simp_all [SafeMode.rank]
  · intro hf
    simp only [Bool.or_eq_true, Bool.and_eq_true, Bool.not_eq_true'] at hf
    rcases hf with ⟨h1, h2⟩ | hf
    · rcases h.option with ho | ⟨b, rfl, ho⟩
      · rw [List.contains_iff_mem.2 ho] at h1; cases h1
      · simp at h2; exact h2 ho
    · rcases h.format with e | ⟨e, -⟩
      · rw [e] at hf; simp at hf
      · rw [e] at hf; simp at hf

/-- **C97** (same file), partial: the file of an image that is inlined is the one its link would lead to, and the image of this file, with the
size asked for, is what is put into the page.

Missing: as in `C97_size_partial` and `C96_same_file_partial`. -/
theorem C97_inlined_partial {w : World} {m : DocumentMeta} {base target : Str} {a : Attrs} {block : Option Attrs} {bytes : Bytes} {file : Str}
    {as : List SvgAttr} {body : Str} (h : Inlines w m base target a block)
    (hread : w.read (.filePath (within base (withinOpt (Images.str m "imagesdir") target))) = .ok bytes)
    (hdec : w.decode bytes = some file) (hfile : SvgFile file as body) (hs : ¬ HasSize body) (isBlock : Bool) :
    imgPath m target = withinOpt (Images.str m "imagesdir") target ∧
    ∃ kind, imageKind w m target false a block = (kind, some (.filePath (within base (imgPath m target)))) ∧
      renderImage m target a kind isBlock = svgShown a as body := by
  have hp := imgPath_within (m := m) (t := target) (fun d hd => (h.dir d hd).1.imp_right .inl) h.path
  have hr := request_within (allow := m.isTrue "allow-uri-read") h.base.2 h.dir h.path
  refine ⟨hp, .inlineSvg (some (svgShown a as body)), ?_, rfl⟩
  have htext : svgText a file = svgShown a as body := by
    unfold svgShown
    split
    · rename_i hn; exact C97_as_it_is_partial hfile hn.1 hn.2
    · rename_i hn
      refine C97_size_partial hfile hs ?_
      cases h1 : (a.named "width" <|> a.pos 1) <;> cases h2 : (a.named "height" <|> a.pos 2) <;> simp [h1, h2] at hn ⊢
  have hne : svgShown a as body ≠ [] := by
    unfold svgShown
    split <;> exact List.cons_ne_nil _ _
  unfold imageKind
  rw [if_pos (inlines h)]
  unfold inlineSvg imageBytes
  rw [if_pos h.resolver, h.base.1]
  simp only [show Kind.inlineSvg.dir = "imagesdir" from rfl, hr, hread, contents, Option.bind_some, hdec, htext, if_neg hne, hp]

private theorem svgText_blank (a : Attrs) {file : Str} (h : ∀ c ∈ file, c ∈ [' ', '\t', '\n', '\r', '\x0c']) : svgText a file = [] := by
  have hs : ∀ c ∈ file, asciiSpace c = true := fun c hc => by
    have := h c hc
    simp only [List.mem_cons, List.not_mem_nil, or_false] at this
    rcases this with rfl | rfl | rfl | rfl | rfl <;> decide
  have h1 : lastSvg file = none := lastSvg_none (by
    rintro ⟨x, y, rfl⟩
    have := hs '<' (by simp)
    simp [asciiSpace] at this)
  have h2 : trimAscii file = [] := by
    have : file.dropWhile asciiSpace = [] := by
      clear h h1
      induction file with
      | nil => rfl
      | cons c file ih => rw [List.dropWhile_cons_of_pos (hs c (by simp)), ih fun d hd => hs d (by simp [hd])]
    simp [trimAscii, this]
  unfold svgText
  simp only [h1, Option.getD_none, h2]
  split
  · rfl
  · rw [strip_nil]; rfl

/-- **C97** (missing file): if the file cannot be read, is not in an encoding that can be, or is blank, the alternative text is shown. -/
theorem C97_missing {w : World} {m : DocumentMeta} {base target : Str} {a : Attrs} {block : Option Attrs} (h : Inlines w m base target a block)
    (hread : ∀ bytes file, contents (w.read (.filePath (within base (withinOpt (Images.str m "imagesdir") target)))) = some bytes →
      w.decode bytes = some file → ∀ c ∈ file, c ∈ [' ', '\t', '\n', '\r', '\x0c']) (isBlock : Bool) :
    renderImage m target a (imageKind w m target false a block).1 isBlock = "<span class=\"alt\">".toList ++ altOf target a ++ "</span>".toList := by
  have hr := request_within (allow := m.isTrue "allow-uri-read") h.base.2 h.dir h.path
  have : (imageKind w m target false a block).1 = .inlineSvg none := by
    unfold imageKind
    rw [if_pos (inlines h)]
    unfold inlineSvg imageBytes
    rw [if_pos h.resolver, h.base.1]
    simp only [show Kind.inlineSvg.dir = "imagesdir" from rfl, hr]
    cases hc : contents (w.read (.filePath (within base (withinOpt (Images.str m "imagesdir") target)))) with
    | none => simp only [Option.bind_none]
    | some bytes =>
      cases hd : w.decode bytes with
      | none => simp only [Option.bind_some, hd]
      | some file => simp only [Option.bind_some, hd, svgText_blank a (hread bytes file hc hd), if_true]
  rw [this]
  rfl

/-! ### violations -/

/-- width 7 and height 8 -/
def sized : Attrs := { pos := fun i => if i = 1 then some ['7'] else if i = 2 then some ['8'] else none }

/-- **C97**, violated: of an image with an image in it, only the inner one is left, with the end of the outer one. -/
theorem C97_nested_violated :
    svgText {} "<svg id=\"a\"><path/><svg id=\"b\"></svg><g/></svg>".toList = "<svg id=\"b\"></svg><g/></svg>".toList := by decide +kernel

/-- **C97**, violated: if a size is asked for, the elements inside lose their sizes and styles too, and so do texts. -/
theorem C97_inside_violated :
    svgText sized "<svg><rect x=\"1\" width=\"2\" height=\"3\"/></svg>".toList = "<svg width=\"7\"height=\"8\"><rect x=\"1\"/></svg>".toList := by
  decide +kernel

/-- **C97**, violated: there is no space between the width and the height, which no XML and no HTML document may have. -/
theorem C97_no_space_violated : svgText sized "<svg></svg>".toList = "<svg width=\"7\"height=\"8\"></svg>".toList := by decide +kernel

/-! ### the hypotheses are met -/

/-- the attributes of a start tag -/
def startAttrs : List SvgAttr := [⟨' ', "viewBox".toList, '"', "0 0 2 3".toList⟩, ⟨'\n', "width".toList, '\'', "2".toList⟩, ⟨' ', "id".toList, '"', "x".toList⟩]

private def ends (p : Str → Bool) : Str → Bool
  | [] => p []
  | c :: s => p (c :: s) && ends p s

private theorem ends_of {p : Str → Bool} {a b : Str} (h : ends p (a ++ b) = true) : p b = true := by
  induction a with
  | nil => cases b <;> simp_all [ends]
  | cons c a ih =>
    rw [List.cons_append, ends, Bool.and_eq_true] at h
    exact ih h.2

private def sizeFree : Str → Bool
  | c :: r => !Regex.space c || sizeNames.all fun n => !(n ++ ['=']).isPrefixOf r
  | [] => true

private theorem hasSize_check {s : Str} (h : ends sizeFree s = true) : ¬ HasSize s := by
  rintro ⟨c, n, hc, hn, a, b, e⟩
  rw [e, List.append_assoc] at h
  have := ends_of h
  rw [List.cons_append, List.cons_append, sizeFree, show Regex.space c = true from hc, Bool.not_true, Bool.false_or] at this
  have := List.all_eq_true.1 this n hn
  rw [isPrefixOf_append (n ++ ['=']) b] at this
  cases this

private theorem has_check {w s : Str} (h : ends (fun t => !w.isPrefixOf t) s = true) : ¬ Has w s := by
  rintro ⟨a, b, e⟩
  rw [e, List.append_assoc] at h
  have := ends_of h
  rw [isPrefixOf_append] at this
  cases this

example : SvgFile "<?xml?>\n<svg viewBox=\"0 0 2 3\"\nwidth='2' id=\"x\"><g width2=\"3\"/></svg> \n".toList startAttrs "><g width2=\"3\"/></svg>".toList ∧
    ¬ HasSize "><g width2=\"3\"/></svg>".toList ∧
    svgShown sized startAttrs "><g width2=\"3\"/></svg>".toList = "<svg width=\"7\"height=\"8\" viewBox=\"0 0 2 3\" id=\"x\"><g width2=\"3\"/></svg>".toList := by
  refine ⟨⟨⟨"<?xml?>\n".toList, " \n".toList, by decide +kernel, by decide, has_check (by decide +kernel)⟩, ?_, ⟨'>', "<g width2=\"3\"/></svg>".toList, by decide, .inr (.inl rfl)⟩, ?_⟩, hasSize_check (by decide +kernel), by decide +kernel⟩
  · intro a ha
    simp only [startAttrs, List.mem_cons, List.not_mem_nil, or_false] at ha
    rcases ha with rfl | rfl | rfl
    · exact ⟨by unfold White; decide, by unfold White; decide, .inl rfl, by decide, hasSize_check (by decide +kernel)⟩
    · exact ⟨by unfold White; decide, by unfold White; decide, .inr rfl, by decide, hasSize_check (by decide +kernel)⟩
    · exact ⟨by unfold White; decide, by unfold White; decide, .inl rfl, by decide, hasSize_check (by decide +kernel)⟩
  · decide

end Verif.Props
