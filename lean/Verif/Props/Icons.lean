import Verif.Props.Images
/-!
C98: the icons of admonitions. C99: the links of images.
-/
namespace Verif.Props
open Verif Verif.Images Verif.OpenTag Verif.StartTag Verif.Spec.Images Verif.Spec.Escape Verif.Escape Verif.IncludeProcess

/-! ### icons -/

/-- the ending of icons in this document -/
def iconEnding (m : DocumentMeta) : Str :=
  match Images.str m "icontype" with | some [] => "png".toList | some t => t | none => "png".toList

/-- the element of an icon -/
def iconElement (src label : Str) : Str := "<img src=\"".toList ++ src ++ "\" alt=\"".toList ++ label ++ "\">".toList

/-- what is expected of a document that embeds the icons of its admonitions -/
structure EmbedsIcons (w : World) (m : DocumentMeta) (base dir : Str) : Prop where
  resolver : w.resolver = true
  base : w.baseDir = some base ∧ Absolute base
  data : m.isTrue "data-uri" = true
  icons : m.get "icons" = some (.bool true)
  /-- by default it is `./images/icons` -/
  dir : Images.str m "iconsdir" = some dir ∧ (Relative dir ∨ Absolute dir) ∧ ':' ∉ dir

private theorem relative_head {t : Str} (h : Relative t) : t.head? ≠ some '/' := by
  obtain ⟨ws, h0, hws, rfl, _⟩ := h
  obtain ⟨c, cs, he, hc⟩ := parts_cons h0 hws
  rw [he]; simpa using hc

private theorem noExt {name : Str} (h : '.' ∉ name) : hasExt name = false := by
  unfold hasExt basename
  cases hc : ((name.reverse.takeWhile fun c => c ≠ '/' && c ≠ '\\').reverse).contains '.' with
  | false => rfl
  | true =>
    rw [List.contains_iff_mem, List.mem_reverse] at hc
    exact absurd (by simpa using List.takeWhile_subset _ hc) h

private theorem iconExt_eq {m : DocumentMeta} (h : Images.str m "icons" = some []) : iconExt m = '.' :: iconEnding m := by
  unfold iconExt iconEnding
  rw [h, Option.filter_some, if_neg (by simp)]
  generalize "png".toList = png
  cases Images.str m "icontype" with
  | none => rw [Option.filter_none]
  | some t =>
    cases t with
    | nil => rw [Option.filter_some, if_neg (by simp)]
    | cons c t => rw [Option.filter_some, if_pos (by simp)]

private theorem ending_eq {m : DocumentMeta} (h : Images.str m "icons" = some []) :
    (if (Images.str m "icontype").getD ((Images.str m "icons").getD "png".toList) = [] then "png".toList
      else (Images.str m "icontype").getD ((Images.str m "icons").getD "png".toList)) = iconEnding m := by
  unfold iconEnding
  rw [h, Option.getD_some]
  generalize "png".toList = png
  cases Images.str m "icontype" with
  | none => rw [Option.getD_none, if_pos rfl]
  | some t =>
    cases t with
    | nil => rw [Option.getD_some, if_pos rfl]
    | cons c t => rw [Option.getD_some, if_neg (List.cons_ne_nil _ _)]

private theorem filter_gone {m : DocumentMeta} (hm : iconMode m = .image) (icon : Option Str) (u : Str) :
    icon.filter (fun _ => decide (iconMode m ≠ .image ∨ (some u).isNone = true)) = none := by
  rw [hm]
  cases icon <;> simp

/-- the name of an admonition -/
def wordOf : Admonition → Str
  | .note => "note".toList
  | .tip => "tip".toList
  | .important => "important".toList
  | .warning => "warning".toList
  | .caution => "caution".toList

/-- the label of an admonition in English, and the attribute a document changes it with -/
def englishOf : Admonition → Str × String
  | .note => ("Note".toList, "note-caption")
  | .tip => ("Tip".toList, "tip-caption")
  | .important => ("Important".toList, "important-caption")
  | .warning => ("Warning".toList, "warning-caption")
  | .caution => ("Caution".toList, "caution-caption")

private theorem lower_eq (kind : Admonition) : kind.lower = wordOf kind := by cases kind <;> rfl

private theorem english_eq (kind : Admonition) : (kind.label, kind.captionName) = englishOf kind := by cases kind <;> rfl

/-- the label of an admonition: what the block says, else what the document says, else its English name -/
def labelOf (m : DocumentMeta) (kind : Admonition) (caption : Option Str) : Str :=
  match caption with
  | some c => c
  | none => match m.get (englishOf kind).2 with
    | some (.string s) => s.toList
    | some (.bool _) => []
    | none => (englishOf kind).1

private theorem textLabel_eq (m : DocumentMeta) (kind : Admonition) (caption : Option Str) : textLabel m kind caption = labelOf m kind caption := by
  unfold textLabel labelOf Images.str DocumentMeta.isFalse
  rw [← english_eq]
  simp only
  cases caption with
  | some c => rfl
  | none =>
    cases hg : m.get kind.captionName with
    | none => rfl
    | some v =>
      cases v with
      | string s => rfl
      | bool b => cases b <;> simp [AttrValue.str]

/-- **C98** (same icon), partial: the file that is embedded as the icon of an admonition is the one that would be linked: the name of
the admonition, or the one given by the block, with the ending of icons, in the directory of icons, in the directory of the document. The data
are its bytes.

Missing: names of icons with full stops (`C98_ending_violated`), `icons` with the value `image` or a type (`C98_not_embedded_violated`), an
empty directory of icons (`C98_empty_dir_violated`). -/
theorem C98_same_icon_partial {w : World} {m : DocumentMeta} {base dir : Str} (h : EmbedsIcons w m base dir) (kind : Admonition)
    (icon caption : Option Str) {name : Str} (hname : name = icon.getD (wordOf kind)) (hdot : '.' ∉ name)
    (hrel : Relative (name ++ '.' :: iconEnding m)) :
    iconCell m kind icon caption none = iconElement (dir ++ '/' :: name ++ '.' :: iconEnding m) (labelOf m kind caption) ∧
    ∃ uri, iconUri w m kind icon = (some uri, some (.filePath (within base (dir ++ '/' :: name ++ '.' :: iconEnding m)))) ∧
      iconCell m kind icon caption (some uri) = iconElement uri (labelOf m kind caption) ∧
      ∀ bytes, w.read (.filePath (within base (dir ++ '/' :: name ++ '.' :: iconEnding m))) = .ok bytes →
        ∃ data, Base64Spec.decode data = some (bytes.map UInt8.toNat) ∧
          uri = "data:".toList ++ mediaType (iconEnding m) ++ ";base64,".toList ++ data := by
  rw [← lower_eq] at hname
  rw [← textLabel_eq]
  have hicons : Images.str m "icons" = some [] := by unfold Images.str; rw [h.icons]; rfl
  have htrue : m.isTrue "icons" = true := by unfold DocumentMeta.isTrue; rw [h.icons]; rfl
  have hmode : iconMode m = .image := by unfold iconMode; rw [h.icons]
  have hdne : dir ≠ [] := by
    rcases h.dir.2.1 with ⟨ws, h0, hws, rfl, _⟩ | ⟨r, _, rfl⟩
    · obtain ⟨c, cs, he, hc⟩ := parts_cons h0 hws
      rw [he]; exact List.cons_ne_nil _ _
    · exact List.cons_ne_nil _ _
  have hdir : iconDir m = dir ++ ['/'] := by
    unfold iconDir
    rw [h.dir.1, Option.filter_some, if_pos (by simpa using hdne)]
  have hext : iconExt m = '.' :: iconEnding m := by
    exact iconExt_eq hicons
  have hlink : iconCell m kind icon caption none = iconElement (dir ++ '/' :: name ++ '.' :: iconEnding m) (textLabel m kind caption) := by
    have hi : iconImage = iconElement := rfl
    unfold iconCell
    cases icon with
    | none =>
      rw [Option.getD_none] at hname
      rw [Option.filter_none, hmode, ← hname]
      have hp : iconPath m name [] = dir ++ '/' :: name ++ '.' :: iconEnding m := by
        rw [iconPath, hdir, hext]
        simp only [List.append_nil, List.append_assoc, List.cons_append, List.nil_append]
      rw [hp]
      rfl
    | some c =>
      rw [Option.getD_some] at hname
      subst hname
      rw [Option.filter_some, if_pos (decide_eq_true (.inr rfl))]
      simp only [noExt hdot, hdir, hext, Bool.false_eq_true, if_false, hi]
      exact congrArg (iconElement · _) (by simp)
  have hpath : within dir (name ++ '.' :: iconEnding m) = dir ++ '/' :: name ++ '.' :: iconEnding m := by
    unfold within
    rw [if_neg (relative_head hrel)]
    simp
  have hdis : disallowed m false .admonitionIcon = false := by
    have : dirIsUri m .admonitionIcon = false := by
      unfold dirIsUri
      rw [show Kind.admonitionIcon.dir = "iconsdir" from rfl, h.dir.1]
      exact sniff_colon h.dir.2.2
    simp [disallowed, this]
  have hr := request_within (allow := m.isTrue "allow-uri-read") (dir := some dir) h.base.2
    (fun d hd => by cases hd; exact h.dir.2) (.inl hrel)
  have hb : imageBytes w m (name ++ '.' :: iconEnding m) false .admonitionIcon =
      ⟨some (.filePath (within base (dir ++ '/' :: name ++ '.' :: iconEnding m))),
        contents (w.read (.filePath (within base (dir ++ '/' :: name ++ '.' :: iconEnding m))))⟩ := by
    unfold imageBytes
    rw [if_pos h.resolver, h.base.1, show Kind.admonitionIcon.dir = "iconsdir" from rfl, h.dir.1, hr]
    simp only [withinOpt, hpath]
  have huri : iconUri w m kind icon = (some ("data:image/".toList ++ (if iconEnding m = "svg".toList then "svg+xml".toList else iconEnding m) ++
      ";base64,".toList ++ ((contents (w.read (.filePath (within base (dir ++ '/' :: name ++ '.' :: iconEnding m))))).bind Base64.encode).getD []),
      some (.filePath (within base (dir ++ '/' :: name ++ '.' :: iconEnding m)))) := by
    unfold iconUri
    rw [h.data, htrue, hdis]
    simp only [Bool.not_true, Bool.false_eq_true, if_false, Bool.false_or]
    rw [if_neg (by rw [hicons]; simp), ending_eq hicons, ← hname]
    simp only [hb]
  refine ⟨hlink, _, huri, ?_, ?_⟩
  · unfold iconCell
    generalize "data:image/".toList ++ _ ++ _ ++ _ = u
    rw [filter_gone hmode icon u, hmode]
    rfl
  · intro bytes hread
    obtain ⟨out, ho, hdec⟩ := C26_base64_round_trip bytes
    refine ⟨out, hdec, ?_⟩
    rw [hread]
    simp only [contents, Option.bind_some, ho, Option.getD_some, mediaType]
    split <;> simp

/-- **C98** (label): whatever icons the document wants, the label of an admonition is there: as its title, as the alternative text of the
icon, or as the title of the icon. -/
theorem C98_label (m : DocumentMeta) (kind : Admonition) (icon caption uri : Option Str) :
    let label := labelOf m kind caption
    iconCell m kind icon caption uri = "<div class=\"title\">".toList ++ label ++ "</div>".toList ∨
    (∃ src, iconCell m kind icon caption uri = iconElement src label) ∨
    iconCell m kind icon caption uri = "<i class=\"fa icon-".toList ++ wordOf kind ++ "\" title=\"".toList ++ label ++ "\"></i>".toList := by
  simp only
  rw [← lower_eq]
  rw [← textLabel_eq]
  unfold iconCell
  split
  · exact .inr (.inl ⟨_, rfl⟩)
  · unfold kindIcon
    split
    · exact .inl rfl
    · exact .inr (.inl ⟨_, rfl⟩)
    · exact .inr (.inr rfl)

/-- where icons are: in the directory of icons, else in the directory of images, else in `./images/icons` -/
def IconsIn (m : DocumentMeta) (dir : Str) : Prop :=
  (Images.str m "iconsdir" = some dir ∧ dir ≠ []) ∨
  ((Images.str m "iconsdir" = none ∨ Images.str m "iconsdir" = some []) ∧
    ((Images.str m "imagesdir" = some dir ∧ dir ≠ []) ∨
      ((Images.str m "imagesdir" = none ∨ Images.str m "imagesdir" = some []) ∧ dir = "./images/icons".toList)))

private theorem iconDir_eq {m : DocumentMeta} {dir : Str} (h : IconsIn m dir) : iconDir m = dir ++ ['/'] := by
  unfold iconDir
  unfold IconsIn at h
  generalize "./images/icons".toList = df at *
  rcases h with ⟨h, h0⟩ | ⟨h | h, ⟨h', h0⟩ | ⟨h' | h', h0⟩⟩ <;> simp [*, Option.filter]

private theorem iconExt_eq' {m : DocumentMeta}
    (h : m.get "icons" = some (.bool true) ∨ m.get "icons" = some (.string "") ∨ m.get "icons" = some (.string "image")) :
    iconExt m = '.' :: iconEnding m := by
  have hs : (Images.str m "icons").filter (fun i => i ≠ "font".toList ∧ i ≠ "image".toList ∧ i ≠ []) = none := by
    unfold Images.str
    rcases h with h | h | h <;> rw [h] <;> decide +kernel
  unfold iconExt iconEnding
  rw [hs]
  generalize "png".toList = png
  cases Images.str m "icontype" with
  | none => rfl
  | some t =>
    cases t with
    | nil => rw [Option.filter_some, if_neg (by simp)]
    | cons c t => rw [Option.filter_some, if_pos (by simp)]

/-- **C98** (form): `icons` decides what an admonition without an icon of its own and a callout show. If it is set, empty or `image`, these
are the image named after the admonition, and the image in `callouts` named after the number; if it is `font`, these are icons of the font;
otherwise they are the label, and the number in parentheses. -/
theorem C98_form (m : DocumentMeta) (kind : Admonition) (caption : Option Str) (n : Str) (xml : Bool) {dir : Str} (hdir : IconsIn m dir) :
    (m.get "icons" = some (.bool true) ∨ m.get "icons" = some (.string "") ∨ m.get "icons" = some (.string "image") →
      iconCell m kind none caption none = iconElement (dir ++ '/' :: wordOf kind ++ '.' :: iconEnding m) (labelOf m kind caption) ∧
      calloutMark m n xml = iconElement (dir ++ "/callouts/".toList ++ n ++ '.' :: iconEnding m) n) ∧
    (m.get "icons" = some (.string "font") →
      iconCell m kind none caption none =
        "<i class=\"fa icon-".toList ++ wordOf kind ++ "\" title=\"".toList ++ labelOf m kind caption ++ "\"></i>".toList ∧
      calloutMark m n xml = "<i class=\"conum\" data-value=\"".toList ++ n ++ "\"></i><b>(".toList ++ n ++ ")</b>".toList) ∧
    ((∀ v, m.get "icons" = some v → v = .bool false ∨ ∃ s, v = .string s ∧ s ≠ "" ∧ s ≠ "image" ∧ s ≠ "font") →
      iconCell m kind none caption none = "<div class=\"title\">".toList ++ labelOf m kind caption ++ "</div>".toList ∧
      calloutMark m n xml = if xml then "&lt;!--<b class=\"conum\">(".toList ++ n ++ ")</b>--&gt;".toList
        else "<b class=\"conum\">(".toList ++ n ++ ")</b>".toList) := by
  rw [← lower_eq]
  have e : iconCell m kind none caption none = kindIcon (iconMode m) (iconPath m kind.lower []) (labelOf m kind caption) kind none := by
    unfold iconCell
    rw [Option.filter_none, textLabel_eq]
  rw [e]
  refine ⟨fun h => ?_, fun h => ?_, fun h => ?_⟩
  · have hm : iconMode m = .image := by
      unfold iconMode
      rcases h with h | h | h <;> rw [h] <;> simp
    unfold calloutMark iconPath
    rw [hm, iconDir_eq hdir, iconExt_eq' h]
    have e2 : "/callouts/".toList = '/' :: "callouts/".toList := by decide
    rw [e2]
    generalize "callouts/".toList = cs
    constructor
    · show iconElement _ _ = _
      simp
    · show iconElement _ _ = _
      simp
  · have hm : iconMode m = .font := by unfold iconMode; rw [h]; simp
    unfold calloutMark
    rw [hm]
    exact ⟨rfl, rfl⟩
  · have hm : iconMode m = .text := by
      unfold iconMode
      cases hg : m.get "icons" with
      | none => rfl
      | some v =>
        rcases h v hg with rfl | ⟨s, rfl, h1, h2, h3⟩
        · rfl
        · simp [h1, h2, h3]
    unfold calloutMark
    rw [hm]
    refine ⟨rfl, ?_⟩
    cases xml
    · simp
    · have e1 : "&lt;!--<b class=\"conum\">(".toList = "&lt;!--".toList ++ "<b class=\"conum\">(".toList := by decide +kernel
      have e2 : ")</b>--&gt;".toList = ")</b>".toList ++ "--&gt;".toList := by decide +kernel
      rw [if_pos rfl, if_pos rfl, if_pos rfl, e1, e2]
      generalize "&lt;!--".toList = x1
      generalize "<b class=\"conum\">(".toList = x2
      generalize ")</b>".toList = x3
      generalize "--&gt;".toList = x4
      simp

/-- settings that embed icons -/
def iconMeta : DocumentMeta := someMeta .modeSafe [("data-uri", .bool true), ("icons", .bool true), ("iconsdir", .string "pics")]

/-- someone's directory, with no files in it -/
def emptyWorld : World := ⟨true, some "/home/me".toList, fun _ => .notFound, fun _ => none⟩

/-- **C98**, violated: an icon whose name has an ending is linked as such, but looked for with a further ending. -/
theorem C98_ending_violated :
    iconCell iconMeta .tip (some "hint.png".toList) none none = iconElement "pics/hint.png".toList "Tip".toList ∧
    (iconUri emptyWorld iconMeta .tip (some "hint.png".toList)).2 = some (.filePath "/home/me/pics/hint.png.png".toList) := by decide +kernel

/-- **C98**, violated: with `icons` set to `image`, icons are images but are not embedded. -/
theorem C98_not_embedded_violated :
    let m := someMeta .modeSafe [("data-uri", .bool true), ("icons", .string "image"), ("iconsdir", .string "pics")]
    iconCell m .tip none none none = iconElement "pics/tip.png".toList "Tip".toList ∧ iconUri emptyWorld m .tip none = (none, none) := by
  decide +kernel

/-- **C98**, violated: with an empty directory of icons, the icon that is linked is another than the one that is embedded. -/
theorem C98_empty_dir_violated :
    let m := someMeta .modeSafe [("data-uri", .bool true), ("icons", .bool true), ("iconsdir", .string "")]
    iconCell m .tip none none none = iconElement "./images/icons/tip.png".toList "Tip".toList ∧
    (iconUri emptyWorld m .tip none).2 = some (.filePath "/home/me/tip.png".toList) := by decide +kernel

/-- **C98**, violated: a quote in a label ends the alternative text of the icon. -/
theorem C98_quote_violated :
    readTag (iconCell (someMeta .modeSafe [("icons", .bool true), ("tip-caption", .string "a\" b")]) .tip none none none) =
      [("src", "./images/icons/tip.png"), ("alt", "a"), ("b\"", "")] := by decide +kernel

private theorem rel2 (a b : Str) (ha : Part a) (hb : Part b) (h : ∀ c rest, a ++ '/' :: b ≠ c :: ':' :: rest) : Relative (a ++ '/' :: b) :=
  ⟨[a, b], by simp, by simp [ha, hb], by simp [Split.joinWith], h⟩

private theorem rel1 (a : Str) (ha : Part a) (h : ∀ c rest, a ≠ c :: ':' :: rest) : Relative a :=
  ⟨[a], by simp, by simp [ha], by simp [Split.joinWith], h⟩

example : EmbedsIcons emptyWorld iconMeta "/home/me".toList "pics".toList ∧ Relative (wordOf .tip ++ '.' :: iconEnding iconMeta) := by
  refine ⟨⟨rfl, ⟨rfl, _, rel2 "home".toList "me".toList (by simp [Part]) (by simp [Part]) (by simp), by decide⟩, by decide +kernel,
    by decide +kernel, by decide +kernel, .inl (rel1 _ (by simp [Part]) (by simp)), by decide⟩, ?_⟩
  have : wordOf .tip ++ '.' :: iconEnding iconMeta = "tip.png".toList := by decide +kernel
  rw [this]
  exact rel1 _ (by simp [Part]) (by simp)

example : IconsIn iconMeta "pics".toList ∧ iconMeta.get "icons" = some (.bool true) ∧
    calloutMark iconMeta "2".toList false = "<img src=\"pics/callouts/2.png\" alt=\"2\">".toList :=
  ⟨.inl (by decide +kernel), by decide +kernel, by decide +kernel⟩

/-! ### links of images -/

/-- what the tag of the link around an image should say -/
def imageLinkSays (href : Str) (a : Attrs) : List (String × Str) :=
  [("class", "image".toList), ("href", href)] ++ opt "title" ((a.named "title").map seen) ++ opt "target" (a.named "window") ++
    rel (a.named "window" = some "_blank".toList || ((a.named "window").isSome && decide ("noopener" ∈ a.options)))
      (decide ("nofollow" ∈ a.options))

/-- the conditions on the other attributes of a link -/
structure OkImageLink (a : Attrs) : Prop where
  title : ∀ i, a.named "title" = some i → Fits i
  window : ∀ w, a.named "window" = some w → Plain w
  nofollow : "nofollow" ∈ a.options → ∀ w, a.named "window" = some w → w = "_blank".toList ∨ "noopener" ∈ a.options

private theorem link_says {href : Str} {a : Attrs} (hq : '"' ∉ href) (h : OkImageLink a) :
    Says (linkTag href a) "a" (imageLinkSays (unescape href) a) := by
  refine says_of (l := [("class".toList, "image".toList), ("href".toList, href)] ++
    (a.named "title").toList.map (fun v => ("title".toList, escape true v)) ++ consOf a false) ?_ ⟨'a', [], rfl, by decide⟩ (by decide) ?_ ?_
  · have hl := linkAttrs_eq { a with roles := [] } true false
      { buf := "<a class=\"image\" href=\"".toList ++ href ++ ['"'] } rfl rfl rfl
    have hc := cons_written (a := a) (blank := false) fun hn => ⟨rfl, h.nofollow hn⟩
    simp only [Bool.false_eq_true, if_false] at hc
    have e : linkTag href a = (Tag.linkAttrs { buf := "<a class=\"image\" href=\"".toList ++ href ++ ['"'] } { a with roles := [] } true false).finish := by
      unfold linkTag
      have : (((Tag.new true "a".toList {}).cls "image".toList).str "\" href=\"".toList) =
          ({ buf := "<a class=\"image\" href=\"".toList, opened := true } : Tag) := by
        simp [Tag.new, Tag.cls, Tag.str]
      simp only [this]
      rfl
    have hcons : linkConstraints { a with roles := [] } = linkConstraints a := rfl
    rw [e, hl, hcons]
    simp only [Bool.false_eq_true, if_false]
    rw [hc]
    have e2 : "<a class=\"image\" href=\"".toList ++ href ++ ['"'] =
        '<' :: "a".toList ++ ([("class".toList, "image".toList), ("href".toList, href)]).flatMap written := by
      simp [written]
    rw [e2]
    simp [clsOf, List.flatMap_append]
  · intro p hp
    simp only [List.mem_append, List.mem_cons, List.not_mem_nil, or_false] at hp
    rcases hp with ((rfl | rfl) | hp) | hp
    · exact ⟨(names "class" (by simp)).1, (names "class" (by simp)).2, by decide⟩
    · exact ⟨(names "href" (by simp)).1, (names "href" (by simp)).2, hq⟩
    · obtain ⟨v, hv, rfl⟩ := List.mem_map.1 hp
      exact ⟨(names "title" (by simp)).1, (names "title" (by simp)).2, escape_quote v⟩
    · rcases List.mem_append.1 hp with hp | hp
      · obtain ⟨w, hw, rfl⟩ := List.mem_map.1 hp
        refine ⟨(names "target" (by simp)).1, (names "target" (by simp)).2, ?_⟩
        simp only [Option.mem_toList, windowOf, Bool.false_eq_true, if_false] at hw
        exact (h.window w hw).1
      · obtain ⟨q, hq, rfl⟩ := List.mem_map.1 hp
        unfold rel at hq
        split at hq
        all_goals first
          | (rw [List.mem_singleton.1 hq]; exact ⟨(names "rel" (by simp)).1, (names "rel" (by simp)).2, by decide⟩)
          | cases hq
  · have himg : unescape "image".toList = "image".toList := by decide
    simp only [List.map_append, imageLinkSays, consOf, windowOf, Bool.false_eq_true, if_false]
    rw [List.append_assoc (_ ++ opt "title" _)]
    refine congr (congrArg HAppend.hAppend (congr (congrArg HAppend.hAppend ?_) ?_)) (congr (congrArg HAppend.hAppend ?_) ?_)
    · simp only [List.map_cons, List.map_nil, himg, String.ofList_toList]
    · cases hs : a.named "title" with
      | none => rfl
      | some s => simp [opt, seen_eq (h.title s hs)]
    · cases hs : a.named "window" with
      | none => rfl
      | some s => simp [opt, unescape_plain (h.window s hs).2]
    · unfold rel
      split <;> decide

/-- **C99** (links in lines), partial: an image with a link in a line of text is the image, in a link that leads there.

Missing: links with apostrophes (`C99_apostrophe_violated`). -/
theorem C99_inline_partial {m : DocumentMeta} {target l : Str} {a : Attrs} (kind : ImageKind) (hl : a.named "link" = some l)
    (hself : l ≠ "self".toList) (hq : '\'' ∉ l) (hf : Fits l) (h : OkImageLink a) :
    ∃ tag, inlineImage m target a kind = tag ++ renderImage m target a kind false ++ "</a>".toList ∧ Says tag "a" (imageLinkSays l a) := by
  refine ⟨linkTag (escape true l) a, ?_, ?_⟩
  · unfold inlineImage inlineHref
    rw [hl, Option.filter_some, if_pos (decide_eq_true (.inr hself)), Option.map_some, if_neg hself]
  · have := link_says (escape_quote l) h
    rw [seen_eq hf] at this
    have hs : seen l = l := by
      unfold seen
      conv => rhs; rw [← List.map_id l]
      refine List.map_congr_left fun c hc => ?_
      have : c ≠ '\'' := fun e => hq (e ▸ hc)
      simp [curl, this]
    rwa [hs] at this

/-- **C99** (links to the image itself), partial: with the link `self`, an image in a line of text is in a link to its own file; one that
is embedded or inlined is not in a link.

Missing: as in `C96_linked_partial`; image blocks (`C99_self_violated`). -/
theorem C99_self_partial {m : DocumentMeta} {target : Str} {a : Attrs} (hl : a.named "link" = some "self".toList)
    (hdir : ∀ d, Images.str m "imagesdir" = some d → Relative d ∨ Absolute d ∨ Remote d) (htar : Relative target ∨ Absolute target)
    (hp : Plain (withinOpt (Images.str m "imagesdir") target) ∧ '%' ∉ withinOpt (Images.str m "imagesdir") target) (h : OkImageLink a) :
    (∃ href tag, percentDecode href = withinOpt (Images.str m "imagesdir") target ∧ (∀ c ∈ href, c ≠ ' ' ∧ c ≠ ',') ∧
      inlineImage m target a .standard = tag ++ renderImage m target a .standard false ++ "</a>".toList ∧ Says tag "a" (imageLinkSays href a)) ∧
    ∀ kind, kind ≠ .standard → inlineImage m target a kind = renderImage m target a kind false := by
  constructor
  · have hpath := imgPath_within hdir htar
    rw [← hpath] at hp ⊢
    have henc := C50_url_encoding _ hp.2
    have hpl := urlEncode_plain hp.1
    refine ⟨urlEncode (imgPath m target), linkTag (urlEncode (imgPath m target)) a, henc.2, henc.1, ?_, ?_⟩
    · unfold inlineImage inlineHref
      rw [hl, Option.filter_some, if_pos (decide_eq_true (.inl rfl)), Option.map_some, if_pos rfl]
    · have := link_says hpl.1 h
      rwa [unescape_plain hpl.2] at this
  · intro kind hk
    unfold inlineImage inlineHref
    rw [hl, Option.filter_some, if_neg (by rw [decide_eq_true_eq]; exact fun h => h.elim hk (fun h => h rfl))]
    rfl

/-- **C99** (links of blocks), partial: an image block with a link is the image, in a link that leads there; a link of the block goes before
one in the brackets of the macro.

Missing: links with quotes or ampersands (`C99_block_quote_violated`), and `self` (`C99_self_violated`). -/
theorem C99_block_partial {m : DocumentMeta} {target l : Str} {a block : Attrs} (kind : ImageKind)
    (hl : (block.named "link" <|> a.named "link") = some l) (hself : l ≠ "self".toList) (hp : Plain l) (h : OkImageLink a) :
    ∃ tag, blockImage m target a block kind = tag ++ renderImage m target a kind true ++ "</a>".toList ∧ Says tag "a" (imageLinkSays l a) := by
  refine ⟨linkTag l a, ?_, ?_⟩
  · unfold blockImage blockHref
    rw [hl, Option.filter_some, if_pos (decide_eq_true (.inr hself))]
  · have := link_says hp.1 h
    rwa [unescape_plain hp.2] at this

/-- **C99** (no link): an image without a link is in none. -/
theorem C99_no_link {m : DocumentMeta} {target : Str} {a block : Attrs} (kind : ImageKind) (ha : a.named "link" = none) :
    inlineImage m target a kind = renderImage m target a kind false ∧
    (block.named "link" = none → blockImage m target a block kind = renderImage m target a kind true) := by
  constructor
  · unfold inlineImage inlineHref; rw [ha]; rfl
  · intro hb; unfold blockImage blockHref; rw [ha, hb]; rfl

/-- attributes with a link -/
def linked (l : String) : Attrs := { named := fun n => if n = "link" then some l.toList else none }

/-- the attributes of the tag that a text starts with -/
def firstTag (s : Str) : List (String × String) := readTag (s.takeWhile (· ≠ '>') ++ ['>'])

/-- **C99**, violated: an image block with the link `self` leads to a file of this name. -/
theorem C99_self_violated :
    firstTag (blockImage (someMeta .modeSafe []) "a.png".toList (linked "self") {} .standard) = [("class", "image"), ("href", "self")] := by
  decide +kernel

/-- **C99**, violated: in a line of text, an apostrophe in a link becomes a typographic one, and the link leads elsewhere. -/
theorem C99_apostrophe_violated :
    firstTag (inlineImage (someMeta .modeSafe []) "a.png".toList (linked "it's.html") .standard) = [("class", "image"), ("href", "it&#8217;s.html")] := by
  decide +kernel

/-- **C99**, violated: a quote in the link of an image block ends it, and what follows is read as attributes. -/
theorem C99_block_quote_violated :
    firstTag (blockImage (someMeta .modeSafe []) "a.png".toList (linked "x\" onclick=\"y()") {} .standard) =
      [("class", "image"), ("href", "x"), ("onclick", "y()")] := by decide +kernel

/-- **C99**, violated: in the second backend, the link `self` of an image block leaves out the directory of images. -/
theorem C99_second_backend_violated :
    let m := someMeta .modeSafe [("imagesdir", .string "img")]
    blockHref5 m "a.png".toList (linked "self") {} = some "a.png".toList ∧ imgPath m "a.png".toList = "img/a.png".toList := by decide +kernel

/-- the tags of some links -/
example : firstTag (inlineImage (someMeta .modeSafe [("imagesdir", .string "my pics")]) "a.png".toList (linked "self") .standard) =
    [("class", "image"), ("href", "my%20pics/a.png")] ∧
    firstTag (inlineImage (someMeta .modeSafe []) "a.png".toList { linked "/b.html?c&d" with options := ["nofollow"] } .standard) =
    [("class", "image"), ("href", "/b.html?c&amp;d"), ("rel", "nofollow")] := by decide +kernel

example : OkImageLink { linked "/b.html?c&d" with options := ["nofollow"] } ∧ Fits "/b.html?c&d".toList :=
  ⟨⟨fun _ h => (by cases h), fun _ h => (by cases h), fun _ _ h => (by cases h)⟩, C50_ascii_fits _ (by decide)⟩

end Verif.Props
