import Verif.Lemmas.Images
import Verif.Lemmas.Meta
import Verif.Props.Meta
import Verif.Props.Base64
import Verif.Props.OpenTag
/-!
C96: the file of an image.
-/
namespace Verif.Props
open Verif Verif.Images Verif.OpenTag Verif.StartTag Verif.Spec.Images Verif.Spec.Escape Verif.Escape Verif.IncludeProcess

private theorem lockdown_dataUri {m : DocumentMeta} (h : m.safeMode = .modeSecure) :
    (lockdown m).jobAttrs "data-uri" = some ⟨true, .bool false⟩ ∧ (lockdown m).safeMode = .modeSecure := by
  have key : ∀ (m : DocumentMeta) (k : String) (j : JobAttr), k ≠ "data-uri" → validValue k j.value = true → k ≠ "showtitle" → k ≠ "notitle" →
      (m.insertJobAttr k j).1.jobAttrs "data-uri" = m.jobAttrs "data-uri" ∧ (m.insertJobAttr k j).1.safeMode = m.safeMode := by
    intro m k j hk hv h1 h2
    simp [DocumentMeta.insertJobAttr, jobInsert, validateAttr, hv, h1, h2, Map.insert, Ne.symm hk]
  have h0 : (m.insertJobAttr "data-uri" ⟨true, .bool false⟩).1.jobAttrs "data-uri" = some ⟨true, .bool false⟩ ∧
      (m.insertJobAttr "data-uri" ⟨true, .bool false⟩).1.safeMode = .modeSecure := by
    simp [DocumentMeta.insertJobAttr, jobInsert, validateAttr, validValue, Map.insert, h]
  have step : ∀ (b : Bool) (m : DocumentMeta) (k : String) (j : JobAttr), k ≠ "data-uri" → validValue k j.value = true → k ≠ "showtitle" → k ≠ "notitle" →
      (m.jobAttrs "data-uri" = some ⟨true, .bool false⟩ ∧ m.safeMode = .modeSecure) →
      (if b then (m.insertJobAttr k j).1 else m).jobAttrs "data-uri" = some ⟨true, .bool false⟩ ∧
        (if b then (m.insertJobAttr k j).1 else m).safeMode = .modeSecure := by
    intro b m k j hk hv h1 h2 h
    cases b with
    | false => simpa using h
    | true => have := key m k j hk hv h1 h2; simp only [if_true]; rw [this.1, this.2]; exact h
  unfold lockdown
  rw [if_pos h]
  exact step _ _ _ _ (by decide) (by decide) (by decide) (by decide)
    (step _ _ _ _ (by decide) (by decide) (by decide) (by decide)
      (step _ _ _ _ (by decide) (by decide) (by decide) (by decide) h0))

/-- **C96** (secure mode): whatever a document in secure mode sets, in its header or its body, no file is read for its images
and icons, and all of them are linked. -/
theorem C96_secure {m m' : DocumentMeta} {ops : List DocOp} (hm : m.safeMode = .modeSecure)
    (hrun : ops.foldlM DocOp.run (lockdown m) = some m') (w : World) (target : Str) (isUri : Bool) (a : Attrs) (block : Option Attrs)
    (kind : Admonition) (icon : Option Str) :
    imageKind w m' target isUri a block = (.standard, none) ∧ iconUri w m' kind icon = (none, none) := by
  obtain ⟨h1, h2⟩ := lockdown_dataUri hm
  obtain ⟨_, hg, hs⟩ := C19_readonly_fixed _ _ ops _ _ (by decide) h1 hrun
  have hd : m'.isTrue "data-uri" = false := by simp [DocumentMeta.isTrue, hg]
  have hi : inlined m' target a block = false := by
    unfold inlined
    split
    · rfl
    · rw [if_pos (by rw [hs, h2]; decide)]
  exact ⟨by simp [imageKind, hi, hd], by simp [iconUri, hd]⟩

/-- a document in secure mode that tries to embed its images -/
example : ∃ m', [DocOp.header "data-uri" (.bool true), .body "data-uri" (.bool true), .body "icons" (.bool true)].foldlM DocOp.run
    (lockdown (DocumentMeta.ofSettings none .modeSecure Map.empty false)) = some m' := ⟨_, rfl⟩

private theorem svgAt_iff (s : Str) : svgAt s = true ↔ ∃ x v g rest, s = x :: v :: g :: rest ∧ x ∈ ['s', 'S', 'ſ'] ∧ v ∈ ['v', 'V'] ∧
    g ∈ ['g', 'G'] ∧ (rest = [] ∨ ∃ c r, rest = c :: r ∧ (c = '?' ∨ c = '[')) := by
  constructor
  · intro h
    match s with
    | [] | [_] | [_, _] => simp [svgAt] at h
    | x :: v :: g :: rest =>
      refine ⟨x, v, g, rest, rfl, ?_⟩
      cases rest <;> simp [svgAt, or_assoc] at h ⊢ <;> grind
  · rintro ⟨x, v, g, rest, rfl, h1, h2, h3, h4⟩
    rcases h4 with rfl | ⟨c, r, rfl, h4⟩ <;> simp [svgAt] at h1 h2 h3 ⊢ <;> grind

private theorem svgTarget_iff : ∀ s : Str, svgTarget s = true ↔ SvgName s
  | [] => by simp [svgTarget, SvgName]
  | c :: cs => by
    rw [svgTarget, Bool.or_eq_true, Bool.and_eq_true, svgAt_iff, svgTarget_iff cs, decide_eq_true_eq]
    constructor
    · rintro (⟨rfl, x, v, g, rest, rfl, h⟩ | ⟨pre, x, v, g, rest, rfl, h⟩)
      · exact ⟨[], x, v, g, rest, rfl, h⟩
      · exact ⟨c :: pre, x, v, g, rest, rfl, h⟩
    · rintro ⟨pre, x, v, g, rest, he, h⟩
      cases pre with
      | nil => injection he with h1 h2; exact .inl ⟨h1, x, v, g, rest, h2, h⟩
      | cons p pre => injection he with h1 h2; exact .inr ⟨pre, x, v, g, rest, h2, h⟩

private theorem asciiAlpha_eq (c : Char) : Path.asciiAlpha c = c.isAlpha := by
  have h1 : ∀ a b : Char, a ≤ b ↔ a.val ≤ b.val := fun _ _ => Iff.rfl
  rw [Bool.eq_iff_iff]
  simp only [Path.asciiAlpha, Char.isAlpha, Char.isUpper, Char.isLower, Bool.or_eq_true, Bool.and_eq_true, decide_eq_true_eq, h1]
  exact or_comm

private theorem uriSniff_iff (s : Str) : uriSniff s = true ↔ Address s := by
  have hc : ∀ d : Char, (Path.asciiAlpha d || d.isDigit || decide (d = '.') || decide (d = '+') || decide (d = '-')) = true ↔ SchemeChar d := by
    intro d
    simp [SchemeChar, asciiAlpha_eq, or_assoc]
  constructor
  · intro h
    match s with
    | [] => cases h
    | c :: cs =>
      simp only [uriSniff, Bool.and_eq_true, decide_eq_true_eq, beq_iff_eq] at h
      obtain ⟨h1, h2, h3⟩ := h
      generalize ht : cs.takeWhile _ = t at h2 h3
      have hall : ∀ x ∈ t, SchemeChar x := fun x hx => by
        rw [← ht] at hx
        exact (hc x).1 (List.all_eq_true.1 (List.all_takeWhile ..) x hx)
      have hsplit : cs = t ++ cs.drop t.length := by
        have := List.takeWhile_append_dropWhile (p := fun d => Path.asciiAlpha d || d.isDigit || decide (d = '.') || decide (d = '+') || decide (d = '-')) (l := cs)
        rw [ht] at this
        conv => lhs; rw [← this]
        congr 1
        conv => rhs; rw [← this]
        simp
      cases hdr : cs.drop t.length with
      | nil => rw [hdr] at h3; cases h3
      | cons x rest =>
        rw [hdr] at h3 hsplit
        simp only [List.head?_cons, Option.some.injEq] at h3
        subst h3
        cases t with
        | nil => exact absurd rfl h2
        | cons d t => exact ⟨c, d, t, rest, by rw [hsplit]; simp, by rwa [asciiAlpha_eq] at h1, hall⟩
  · rintro ⟨c, d, cs, rest, rfl, h1, h2⟩
    have hcolon : (Path.asciiAlpha ':' || (':' : Char).isDigit || decide (':' = '.') || decide (':' = '+') || decide (':' = '-')) = false := by decide
    have ht : (d :: cs ++ ':' :: rest).takeWhile (fun d => Path.asciiAlpha d || d.isDigit || decide (d = '.') || decide (d = '+') || decide (d = '-')) = d :: cs := by
      rw [List.takeWhile_append_of_pos fun x hx => (hc x).2 (h2 x hx)]
      rw [List.takeWhile_cons_of_neg (by rw [hcolon]; simp)]
      simp
    rw [List.cons_append, uriSniff]
    dsimp only
    rw [ht]
    simp [asciiAlpha_eq, h1]

/-- **C96** (which images): an image is put into the page as it is exactly if the document asks for it, the mode is below secure and it is a
SVG image, by the format given or else by its name. Of the others, those are embedded for which the document wants it, except if the target
is itself the data, or if it would have to be read from an address and the document may not do that. All others are linked. -/
theorem C96_which {w : World} {m : DocumentMeta} {target : Str} {isUri : Bool} {a : Attrs} {block : Option Attrs} :
    let wanted := ("inline" ∈ a.options ∨ ∃ b, block = some b ∧ "inline" ∈ b.options) ∧ m.safeMode ≠ .modeSecure ∧
      (a.named "format" = some "svg".toList ∨ a.named "format" = none ∧ SvgName target)
    let remote := isUri = true ∨ ∃ d, Images.str m "imagesdir" = some d ∧ Address d
    let embed := m.get "data-uri" = some (.bool true) ∧ ¬ "data:".toList <+: target ∧ (remote → m.get "allow-uri-read" = some (.bool true))
    ((∃ t, (imageKind w m target isUri a block).1 = .inlineSvg t) ↔ wanted) ∧
      ((∃ d, (imageKind w m target isUri a block).1 = .dataUri d) ↔ ¬ wanted ∧ embed) ∧
      ((imageKind w m target isUri a block).1 = .standard ↔ ¬ wanted ∧ ¬ embed) := by
  intro wanted remote embed
  have hw : inlined m target a block = true ↔ wanted := by
    have hrank : SafeMode.modeSecure.rank ≤ m.safeMode.rank ↔ m.safeMode = .modeSecure := by cases m.safeMode <;> decide
    unfold inlined
    simp only [hrank, wanted, ← svgTarget_iff]
    generalize "svg".toList = svg
    cases hf : a.named "format" <;> cases hb : block <;> by_cases h1 : "inline" ∈ a.options <;> simp [h1] <;> grind
  have hd : disallowed m isUri .dataUri = false ↔ (remote → m.get "allow-uri-read" = some (.bool true)) := by
    have hr : dirIsUri m .dataUri = true ↔ ∃ d, Images.str m "imagesdir" = some d ∧ Address d := by
      unfold dirIsUri
      rw [show Kind.dataUri.dir = "imagesdir" from rfl]
      cases Images.str m "imagesdir" with
      | none => simp
      | some d => simp [uriSniff_iff]
    have ha : m.isTrue "allow-uri-read" = true ↔ m.get "allow-uri-read" = some (.bool true) := by simp [DocumentMeta.isTrue]
    unfold disallowed
    simp only [remote, ← hr, ← ha]
    cases isUri <;> cases dirIsUri m .dataUri <;> cases m.isTrue "allow-uri-read" <;> simp
  have hu : m.isTrue "data-uri" = true ↔ m.get "data-uri" = some (.bool true) := by simp [DocumentMeta.isTrue]
  have hp : "data:".toList.isPrefixOf target = true ↔ "data:".toList <+: target := List.isPrefixOf_iff_prefix
  have hi : (inlineSvg w m target isUri a).1 = .inlineSvg none ∨ ∃ t, (inlineSvg w m target isUri a).1 = .inlineSvg (some t) := by
    unfold inlineSvg
    dsimp only
    split
    · exact .inl rfl
    · split
      · exact .inl rfl
      · exact .inr ⟨_, rfl⟩
  unfold imageKind
  simp only [embed]
  rw [← hd, ← hw, ← hu, ← hp]
  generalize "data:".toList.isPrefixOf target = pre
  cases hh : inlined m target a block
  · cases m.isTrue "data-uri" <;> cases pre <;> cases disallowed m isUri .dataUri <;> simp [dataUri]
  · rcases hi with hi | ⟨t, hi⟩ <;> simp [hi]

/-- **C96** (only if asked for): a file is read for an image only if the image is to be inlined and is a SVG image, or if the
document wants its images embedded and the target is not itself the data. -/
theorem C96_only_if_asked {w : World} {m : DocumentMeta} {target : Str} {isUri : Bool} {a : Attrs} {block : Option Attrs} {t : Target}
    (h : (imageKind w m target isUri a block).2 = some t) :
    (m.safeMode ≠ .modeSecure ∧ ("inline" ∈ a.options ∨ ∃ b, block = some b ∧ "inline" ∈ b.options) ∧
        (a.named "format" = some "svg".toList ∨ a.named "format" = none ∧ svgTarget target = true)) ∨
      (m.get "data-uri" = some (.bool true) ∧ ¬ "data:".toList <+: target) := by
  unfold imageKind at h
  split at h
  · rename_i hi
    left
    unfold inlined at hi
    split at hi
    · cases hi
    · rename_i h1
      split at hi
      · cases hi
      · rename_i h2
        split at hi
        · cases hi
        · rename_i h3
          simp only [Bool.or_eq_true, Bool.and_eq_true, Bool.not_eq_true', not_or, not_and, Bool.not_eq_false] at h1 h3
          refine ⟨fun e => h2 (by rw [e]; exact Nat.le_refl _), ?_, ?_⟩
          · by_cases ho : "inline" ∈ a.options
            · exact .inl ho
            · right
              have := h1.1 (by simpa using ho)
              cases block with
              | none => simp at this
              | some b => exact ⟨b, rfl, by simpa using this⟩
          · cases hf : a.named "format" with
            | none => exact .inr ⟨rfl, h3 (by simp [hf])⟩
            | some f =>
              have := h1.2
              rw [hf] at this
              simp only [Option.any_some, ne_eq, decide_not, Bool.not_eq_true', decide_eq_false_iff_not, Decidable.not_not] at this
              exact .inl (by rw [this])
  · split at h
    · cases h
    · rename_i h1
      right
      simp only [Bool.or_eq_true, Bool.not_eq_true', not_or, Bool.not_eq_true, Bool.not_eq_false] at h1
      refine ⟨by simpa [DocumentMeta.isTrue] using h1.1.1, fun hp => ?_⟩
      rw [← List.isPrefixOf_iff_prefix] at hp
      rw [hp] at h1
      exact absurd h1.1.2 (by decide)

/-- what is expected of the settings of a document that embeds its images -/
structure Embeds (w : World) (m : DocumentMeta) (base target : Str) (a : Attrs) (block : Option Attrs) : Prop where
  resolver : w.resolver = true
  base : w.baseDir = some base ∧ Absolute base
  data : m.isTrue "data-uri" = true
  /-- the directory of images is on the same machine -/
  dir : ∀ d, Images.str m "imagesdir" = some d → (Relative d ∨ Absolute d) ∧ ':' ∉ d
  path : (Relative target ∨ Absolute target) ∧ ¬ "data:".toList <+: target
  /-- it is not to be inlined -/
  inline : "inline" ∉ a.options ∧ ∀ b, block = some b → "inline" ∉ b.options

/-- **C96** (same file), partial: the file that is embedded for an image is the one its link would lead to: the target, in the directory
of images, in the directory of the document.

Missing: paths of Windows; directories and targets with a `http:` part (`C58_image_remote_violated`). -/
theorem C96_same_file_partial {w : World} {m : DocumentMeta} {base target : Str} {a : Attrs} {block : Option Attrs}
    (h : Embeds w m base target a block) :
    imgPath m target = withinOpt (Images.str m "imagesdir") target ∧
    imageKind w m target false a block =
      (.dataUri ((contents (w.read (.filePath (within base (imgPath m target))))).bind Base64.encode),
        some (.filePath (within base (imgPath m target)))) := by
  have hp := imgPath_within (m := m) (t := target) (fun d hd => (h.dir d hd).1.imp_right .inl) h.path.1
  refine ⟨hp, ?_⟩
  have hn : "data:".toList.isPrefixOf target = false := by
    cases hb : "data:".toList.isPrefixOf target with
    | false => rfl
    | true => exact absurd (List.isPrefixOf_iff_prefix.1 hb) h.path.2
  have hdis : disallowed m false .dataUri = false := by
    have : dirIsUri m .dataUri = false := by
      unfold dirIsUri
      cases hd : Images.str m Kind.dataUri.dir with
      | none => rfl
      | some d => exact sniff_colon (h.dir d hd).2
    simp [disallowed, this]
  have hr := request_within (allow := m.isTrue "allow-uri-read") h.base.2 h.dir h.path.1
  have hb : imageBytes w m target false .dataUri = ⟨some (.filePath (within base (imgPath m target))),
      contents (w.read (.filePath (within base (imgPath m target))))⟩ := by
    unfold imageBytes
    rw [if_pos h.resolver, h.base.1]
    simp only [show Kind.dataUri.dir = "imagesdir" from rfl, hr, hp]
  have hin : inlined m target a block = false := by
    unfold inlined
    rw [if_pos]
    obtain ⟨h1, h2⟩ := h.inline
    cases block with
    | none => simp [h1]
    | some b => simp [h1, h2 b rfl]
  unfold imageKind
  rw [hin, hn, hdis, h.data]
  simp only [Bool.not_true, Bool.or_false, Bool.false_eq_true, if_false]
  unfold dataUri
  simp only [hb]

/-- **C96** (same address): with a directory of images on the web and permission to read from it, the address that is read is the
one of the link. -/
theorem C96_same_address {w : World} {m : DocumentMeta} {base target d : Str} (hr : w.resolver = true) (hb : w.baseDir = some base)
    (hd : Images.str m "imagesdir" = some d ∧ Remote d) (ha : m.isTrue "allow-uri-read" = true) (ht : Relative target) :
    imgPath m target = d ++ '/' :: target ∧ (imageBytes w m target false .dataUri).asked = some (.uri (imgPath m target)) := by
  have hp : imgPath m target = d ++ '/' :: target := by
    rw [imgPath_within (fun d' hd' => by rw [hd.1] at hd'; cases hd'; exact .inr (.inr hd.2)) (.inl ht), hd.1]
    have : target.head? ≠ some '/' := by
      obtain ⟨ws, h0, hws, rfl, _⟩ := ht
      obtain ⟨c, cs, he, hc⟩ := parts_cons h0 hws
      rw [he]; simpa using hc
    exact if_neg this
  refine ⟨hp, ?_⟩
  unfold imageBytes
  rw [if_pos hr, hb, ha, show Kind.dataUri.dir = "imagesdir" from rfl, hd.1, request_remote hd.2 ht, hp]

/-- the kind of image that a file with this ending is -/
def mediaType (e : Str) : Str := if e = "svg".toList then "image/svg+xml".toList else "image/".toList ++ e

private theorem basename_of {dir name : Str} (hdir : dir = [] ∨ dir.getLast? = some '/') (hn : ∀ c ∈ name, c ≠ '/' ∧ c ≠ '\\') :
    basename (dir ++ name) = name := by
  unfold basename
  rw [List.reverse_append, List.takeWhile_append_of_pos fun c hc => by simp [hn c (by simpa using hc)]]
  rcases hdir with rfl | hdir
  · simp
  · obtain ⟨ys, rfl⟩ := List.getLast?_eq_some_iff.1 hdir
    simp

private theorem ext_of {dir name e : Str} (hdir : dir = [] ∨ dir.getLast? = some '/') (hn : ∀ c ∈ name, c ≠ '/' ∧ c ≠ '\\')
    (he : ∀ c ∈ e, c ≠ '/' ∧ c ≠ '\\' ∧ c ≠ '.') : ext (dir ++ name ++ '.' :: e) = some e := by
  have hb : basename (dir ++ name ++ '.' :: e) = name ++ '.' :: e := by
    rw [List.append_assoc]
    refine basename_of hdir fun c hc => ?_
    simp only [List.mem_append, List.mem_cons] at hc
    rcases hc with hc | rfl | hc
    · exact hn c hc
    · decide
    · exact ⟨(he c hc).1, (he c hc).2.1⟩
  unfold ext hasExt
  rw [hb, if_pos (by simp)]
  rw [List.reverse_append, List.reverse_cons, List.append_assoc, List.takeWhile_append_of_pos fun c hc => by simp [he c (by simpa using hc)]]
  simp

/-- **C96** (embedded), partial: an image whose file is embedded is one `img` with the alternative text, the size and the title that the
document gives it, and with a source that names the kind of image after the ending of the file and holds exactly its bytes.

Missing: files without an ending (`C96_no_ending_violated`). -/
theorem C96_embedded_partial {m : DocumentMeta} {dir name e : Str} {bytes : List UInt8} {a : Attrs} {isBlock : Bool}
    (hdir : dir = [] ∨ dir.getLast? = some '/') (hn : ∀ c ∈ name, c ≠ '/' ∧ c ≠ '\\')
    (he : ∀ c ∈ e, c ≠ '/' ∧ c ≠ '\\' ∧ c ≠ '.') (hp : Plain e) (halt : Fits (altOf (dir ++ name ++ '.' :: e) a))
    (hw : ∀ v, (a.named "width" <|> a.pos 1) = some v → Fits v)
    (hh : ∀ v, (a.named "height" <|> a.pos 2) = some v → Fits v) (ht : ∀ v, a.named "title" = some v → Fits v) :
    ∃ data, Base64Spec.decode data = some (bytes.map UInt8.toNat) ∧
      Says (renderImage m (dir ++ name ++ '.' :: e) a (.dataUri (Base64.encode bytes)) isBlock) "img"
        (imageSays ("data:".toList ++ mediaType e ++ ";base64,".toList ++ data) (altOf (dir ++ name ++ '.' :: e) a) a isBlock) := by
  obtain ⟨out, ho, hdec⟩ := C26_base64_round_trip bytes
  refine ⟨out, hdec, ?_⟩
  have hs : dataSrc (dir ++ name ++ '.' :: e) (Base64.encode bytes) = "data:".toList ++ mediaType e ++ ";base64,".toList ++ out := by
    unfold dataSrc mediaType
    rw [ext_of hdir hn he, ho]
    simp only [Option.getD_some]
    split <;> simp
  have hpl : Plain ("data:".toList ++ mediaType e ++ ";base64,".toList ++ out) := by
    have ⟨h1, h2⟩ := encode_plain ho
    have h3 : Plain (mediaType e) := by
      unfold mediaType
      split
      · exact ⟨by decide, by decide⟩
      · exact ⟨by simp [hp.1], by simp [hp.2]⟩
    exact ⟨by simp [h1, h3.1], by simp [h2, h3.2]⟩
  have := img_says (isBlock := isBlock) hpl halt hw hh ht
  unfold renderImage dataImage
  simp only
  rw [hs]
  exact this

/-- **C96** (missing file): if the file cannot be read, the image is still there, with its alternative text and without data. -/
theorem C96_missing {m : DocumentMeta} {dir name e : Str} {a : Attrs} {isBlock : Bool}
    (hdir : dir = [] ∨ dir.getLast? = some '/') (hn : ∀ c ∈ name, c ≠ '/' ∧ c ≠ '\\')
    (he : ∀ c ∈ e, c ≠ '/' ∧ c ≠ '\\' ∧ c ≠ '.') (hp : Plain e) (halt : Fits (altOf (dir ++ name ++ '.' :: e) a))
    (hw : ∀ v, (a.named "width" <|> a.pos 1) = some v → Fits v)
    (hh : ∀ v, (a.named "height" <|> a.pos 2) = some v → Fits v) (ht : ∀ v, a.named "title" = some v → Fits v) :
    Says (renderImage m (dir ++ name ++ '.' :: e) a (.dataUri none) isBlock) "img"
      (imageSays ("data:".toList ++ mediaType e ++ ";base64,".toList) (altOf (dir ++ name ++ '.' :: e) a) a isBlock) := by
  have hs : dataSrc (dir ++ name ++ '.' :: e) none = "data:".toList ++ mediaType e ++ ";base64,".toList := by
    unfold dataSrc mediaType
    rw [ext_of hdir hn he]
    simp only [Option.getD_none]
    split <;> simp
  have hpl : Plain ("data:".toList ++ mediaType e ++ ";base64,".toList) := by
    have h3 : Plain (mediaType e) := by
      unfold mediaType
      split
      · exact ⟨by decide, by decide⟩
      · exact ⟨by simp [hp.1], by simp [hp.2]⟩
    exact ⟨by simp [h3.1], by simp [h3.2]⟩
  have := img_says (isBlock := isBlock) hpl halt hw hh ht
  unfold renderImage dataImage
  simp only
  rw [hs]
  exact this

/-- **C96** (linked), partial: an image that is linked is one `img` with the path of the target in the directory of images, and with
the alternative text, the size and the title that the document gives it.

Missing: as in `C70_images_partial`. -/
theorem C96_linked_partial {m : DocumentMeta} {target : Str} {a : Attrs} {isBlock : Bool}
    (hdir : ∀ d, Images.str m "imagesdir" = some d → Relative d ∨ Absolute d ∨ Remote d)
    (htar : (Relative target ∨ Absolute target) ∧ ¬ "data:".toList <+: target)
    (hi : "interactive" ∉ a.options ∨ m.safeMode = .modeSecure)
    (hp : Plain (withinOpt (Images.str m "imagesdir") target) ∧ '%' ∉ withinOpt (Images.str m "imagesdir") target)
    (halt : Fits (altOf target a)) (hw : ∀ v, (a.named "width" <|> a.pos 1) = some v → Fits v)
    (hh : ∀ v, (a.named "height" <|> a.pos 2) = some v → Fits v) (ht : ∀ v, a.named "title" = some v → Fits v) :
    ∃ src, percentDecode src = withinOpt (Images.str m "imagesdir") target ∧ (∀ c ∈ src, c ≠ ' ' ∧ c ≠ ',') ∧
      Says (renderImage m target a .standard isBlock) "img" (imageSays src (altOf target a) a isBlock) := by
  have hn : "data:".toList.isPrefixOf target = false := by
    cases hb : "data:".toList.isPrefixOf target with
    | false => rfl
    | true => exact absurd (List.isPrefixOf_iff_prefix.1 hb) htar.2
  have hpath := imgPath_within hdir htar.1
  rw [← hpath] at hp ⊢
  have : renderImage m target a .standard isBlock = innerImage target (imgPath m target) a isBlock := by
    unfold renderImage
    simp only
    rw [if_neg]
    rintro ⟨-, h1, h2⟩
    rcases hi with hi | hi
    · exact hi h1
    · exact h2 hi
  rw [this]
  exact C70_images_partial hn hp halt hw hh ht

/-! ### violations -/

/-- settings with some attributes -/
def someMeta (mode : SafeMode) (attrs : List (String × AttrValue)) : DocumentMeta :=
  { DocumentMeta.ofSettings none mode Map.empty false with headerAttrs := fun k => attrs.lookup k }

/-- **C96**, violated: a file without an ending is said to be of the kind `image/application/octet-stream`. -/
theorem C96_no_ending_violated :
    readTag (renderImage (someMeta .modeSafe []) "logo".toList {} (.dataUri (some "AAAA".toList)) true) =
      [("src", "data:image/application/octet-stream;base64,AAAA"), ("alt", "logo")] := by decide +kernel

/-- **C96**, violated: the alternative text of a file with two full stops is cut at the first. -/
theorem C96_two_stops_violated :
    readTag (renderImage (someMeta .modeSafe []) "v1.2-setup.png".toList {} .standard true) =
      [("src", "v1.2-setup.png"), ("alt", "v1")] := by decide +kernel

/-! ### the hypotheses are met -/

/-- settings of a document that embeds its images -/
def embedding : DocumentMeta := someMeta .modeSafe [("data-uri", .bool true), ("imagesdir", .string "img/big")]

private theorem rel_ok (ws : List Str) (h0 : ws ≠ []) (h : ∀ w ∈ ws, Part w) (hd : ∀ c rest, Split.joinWith '/' ws ≠ c :: ':' :: rest) :
    Relative (Split.joinWith '/' ws) := ⟨ws, h0, h, rfl, hd⟩

example : Embeds ⟨true, some "/home/me".toList, fun _ => .notFound, fun _ => none⟩ embedding "/home/me".toList "../my pic.png".toList {} none ∧
    imgPath embedding "../my pic.png".toList = "img/big/../my pic.png".toList ∧
    within "/home/me".toList "img/big/../my pic.png".toList = "/home/me/img/big/../my pic.png".toList := by
  refine ⟨⟨rfl, ⟨rfl, _, rel_ok ["home".toList, "me".toList] (by decide) ?_ ?_, by decide⟩, by decide +kernel, ?_, ⟨.inl ?_, by decide⟩, by simp⟩,
    by decide +kernel, by decide +kernel⟩
  · simp [Part]
  · intro c r; simp [Split.joinWith]
  · intro d hd
    have : Images.str embedding "imagesdir" = some "img/big".toList := by decide +kernel
    rw [this] at hd
    cases hd
    refine ⟨.inl (rel_ok ["img".toList, "big".toList] (by decide) ?_ ?_), by decide⟩
    · simp [Part]
    · intro c r; simp [Split.joinWith]
  · refine rel_ok ["..".toList, "my pic.png".toList] (by decide) ?_ ?_
    · simp [Part]
    · intro c r; simp [Split.joinWith]

/-- the tag of an embedded image -/
example : readTag (renderImage embedding "x/my-pic.svg".toList {} (.dataUri (Base64.encode [102, 111])) true) =
    [("src", "data:image/svg+xml;base64,Zm8="), ("alt", "my pic")] := by decide +kernel

/-- a name that only begins like that of a SVG image, and a SVG image on the web -/
example : (imageKind ⟨true, none, fun _ => .notFound, fun _ => none⟩ embedding "a.svgz".toList false { options := ["inline"] } none).1 = .dataUri none ∧
    (imageKind ⟨true, none, fun _ => .notFound, fun _ => none⟩ embedding "http://a/b.svg".toList true {} none).1 = .standard ∧
    (imageKind ⟨true, none, fun _ => .notFound, fun _ => none⟩ embedding "a.SVG?x".toList false { options := ["inline"] } none).1 = .inlineSvg none := by
  decide +kernel

end Verif.Props
