import Verif.Lemmas.Media
/-!
C92: videos and audio are played as the document says.
-/
namespace Verif.Props
open Verif Verif.OpenTag Verif.StartTag Verif.Spec.Escape Verif.Escape Verif.Media

private theorem seen_eq {s : Str} (h : Fits s) : unescape (escape true s) = seen s := C50_roundtrip_partial true s h

private theorem names : ∀ n ∈ ["src", "width", "height", "frameborder", "allowfullscreen", "class", "name", "poster", "autoplay", "muted", "loop", "preload", "controls"],
    n.toList ≠ [] ∧ ∀ c ∈ n.toList, nameChar c = true := by decide

private theorem says_puts {s : Str} {name : String} {l : List (Str × Option Str)} {m : List (String × Str)}
    (h : s = '<' :: name.toList ++ l.flatMap put ++ ['>']) (hne : ∃ c cs, name.toList = c :: cs ∧ c.isAlpha = true)
    (hname : ∀ c ∈ name.toList, nameChar c = true)
    (hl : ∀ p ∈ l, p.1 ≠ [] ∧ (∀ c ∈ p.1, nameChar c = true) ∧ ∀ v, p.2 = some v → '"' ∉ v)
    (hm : l.map (fun p => (String.ofList p.1, unescape (p.2.getD []))) = m) : Says s name m := by
  refine ⟨l.map fun p => (p.1, p.2.getD []), ?_, by rw [← hm, List.map_map]; rfl⟩
  have := isTag_puts hne hname hl
  rw [h]
  simpa using this

/-- **C92** (addresses): the target of a video or an audio file is taken as an address, and not looked for in the directory of
images, exactly when it starts with the name of a scheme and a colon. -/
theorem C92_scheme (s : Str) : isUri s = true ↔ NamesScheme s := by
  have a1 : ∀ c : Char, (('a' ≤ c && c ≤ 'z') || ('A' ≤ c && c ≤ 'Z')) = c.isAlpha := by
    intro c
    rw [Bool.eq_iff_iff]
    simp only [Char.isAlpha, Char.isUpper, Char.isLower, Bool.or_eq_true, Bool.and_eq_true, decide_eq_true_eq, Char.le_def, ge_iff_le]
    exact or_comm
  have a2 : ∀ c : Char, (c.isAlpha || ('0' ≤ c && c ≤ '9') || c = '.' || c = '+' || c = '-') = true ↔
      (c.isAlphanum = true ∨ c ∈ ['.', '+', '-']) := by
    intro c
    have : (decide ('0' ≤ c) && decide (c ≤ '9')) = c.isDigit := by
      simp only [Char.isDigit, Char.le_def, ge_iff_le]
    rw [this]
    simp [Char.isAlphanum, or_assoc]
  unfold isUri
  rw [Regex.captures_isSome]
  unfold uriSniff
  simp only [Verif.Inlines.reads_seq, Verif.Inlines.reads_set, Verif.Inlines.reads_plus, Regex.Re.ch, Verif.Inlines.reads_opt, a1]
  constructor
  · rintro ⟨a, u, b, rfl, x, y, rfl, hbol, x1, y1, rfl, ⟨c, rfl, hc⟩, x2, y2, rfl, ⟨hne, h2⟩, x3, y3, rfl, ⟨d, rfl, hd⟩, _⟩
    have : x = [] ∧ a = [] := by
      generalize hb : a.reverse = bf at hbol
      cases hbol
      exact ⟨rfl, by simpa using hb⟩
    obtain ⟨rfl, rfl⟩ := this
    have hd : d = ':' := by simpa using hd
    subst hd
    exact ⟨c, x2, y3 ++ b, by simp, hne, hc, fun x hx => (a2 x).1 (h2 x hx)⟩
  · rintro ⟨c, sch, rest, rfl, hne, hc, h2⟩
    exact ⟨[], c :: sch ++ [':'], rest, by simp, [], _, rfl, .bol, [c], sch ++ [':'], rfl, ⟨c, rfl, hc⟩, sch, [':'], rfl, ⟨hne, fun x hx => (a2 x).2 (h2 x hx)⟩, [':'], [], rfl,
      ⟨':', rfl, by simp⟩, [], [], rfl, .inl rfl, .inl rfl⟩

example : NamesScheme "https://example.org/a.mp4".toList := ⟨'h', "ttps".toList, "//example.org/a.mp4".toList, by decide, by decide, by decide, by decide⟩

private theorem clean_wanted {p : Provider} {target : Str} {a : Attrs} (ht : Clean target) (hn : ∀ n ∈ addressNames, ∀ v, a.named n = some v → Clean v)
    {k : String} {v : Str} (h : Wanted target a p k v) : CleanPair (k.toList, v) := by
  have key : ∀ n ∈ ["list", "playlist", "h", "autoplay", "autoPlay", "mute", "muted", "modestbranding", "loop", "endVideoBehavior", "rel", "theme", "hl", "end",
      "fs", "controls", "start", "time"], Clean n.toList ∧ '=' ∉ n.toList := by unfold Clean; decide
  have app : ∀ {x y : Str}, Clean (x ++ y) ↔ Clean x ∧ Clean y := by
    intro x y
    simp only [Clean, List.mem_append]
    exact ⟨fun h => ⟨fun c hc => h c (.inl hc), fun c hc => h c (.inr hc)⟩, fun h c hc => hc.elim (h.1 c) (h.2 c)⟩
  have cns : ∀ {c : Char} {y : Str}, Clean (c :: y) ↔ c ∉ ['"', '&', '#', '?'] ∧ Clean y := by
    intro c y
    simp only [Clean, List.mem_cons]
    exact ⟨fun h => ⟨h c (.inl rfl), fun d hd => h d (.inr hd)⟩, fun h d hd => hd.elim (fun e => e ▸ h.1) (h.2 d)⟩
  have fin : ∀ {n : String} {w : Str}, n ∈ ["list", "playlist", "h", "autoplay", "autoPlay", "mute", "muted", "modestbranding", "loop", "endVideoBehavior", "rel", "theme", "hl", "end",
      "fs", "controls", "start", "time"] → Clean w → CleanPair (n.toList, w) := fun hn hw => ⟨(key _ hn).1, (key _ hn).2, hw⟩
  have c1 : Clean ['1'] ∧ Clean ['0'] ∧ Clean "true".toList ∧ Clean "loop".toList ∧ Clean "reset".toList := by unfold Clean; decide
  cases h with
  | list e _ => exact fin (by decide) ((cns.1 (app.1 (e ▸ ht)).2).2)
  | hash e _ => exact fin (by decide) ((cns.1 (app.1 (e ▸ ht)).2).2)
  | ids _ _ => exact fin (by decide) ht
  | again _ _ _ _ => exact fin (by decide) ht
  | playlist _ _ h => exact fin (by decide) (app.2 ⟨ht, cns.2 ⟨by decide, hn "playlist" (by decide) _ h⟩⟩)
  | listNamed h => exact fin (by decide) (hn "list" (by decide) _ h)
  | hashNamed _ h => exact fin (by decide) (hn "hash" (by decide) _ h)
  | hashWistia h => exact fin (by decide) (hn "hash" (by decide) _ h)
  | hashYouTube _ _ _ h => exact fin (by decide) (hn "hash" (by decide) _ h)
  | theme h => exact fin (by decide) (hn "theme" (by decide) _ h)
  | lang h => exact fin (by decide) (hn "lang" (by decide) _ h)
  | end_ h => exact fin (by decide) (hn "end" (by decide) _ h)
  | start h => exact fin (by decide) (hn "start" (by decide) _ h)
  | time h => exact fin (by decide) (hn "start" (by decide) _ h)
  | autoplay _ _ | mute _ | mutedVimeo _ | modest _ | loop _ _ | related _ => exact fin (by decide) c1.1
  | unrelated _ | small _ | nocontrols _ => exact fin (by decide) c1.2.1
  | autoPlay _ | muted _ => exact fin (by decide) c1.2.2.1
  | loopWistia _ => exact fin (by decide) c1.2.2.2.1
  | reset _ => exact fin (by decide) c1.2.2.2.2

private theorem named_put (n : String) (i : Nat) (a : Attrs) :
    namedOrPos n i a = ((a.named n <|> a.pos i).toList.map fun v => (n.toList, some (escape true v))).flatMap put := by
  unfold namedOrPos
  cases (a.named n <|> a.pos i) with
  | none => rfl
  | some v => simp [attr_written, put]

private theorem video_service {p : Provider} {a : Attrs} (hp : a.pos 0 = some p.word) (imagesdir : Option Str) (target : Str) :
    video imagesdir target a = (service p target a).1 := by
  unfold video
  rw [hp]
  cases p <;> simp [Provider.word]

private theorem shows_clean {p : Provider} {target id : Str} (h : Shows p target id) (ht : Clean target) : Clean (p.start ++ id) := by
  have h0 : Clean p.start := by cases p <;> (unfold Clean; decide)
  intro c hc
  rcases List.mem_append.1 hc with hc | hc'
  · exact h0 c hc
  · cases h with
    | slash _ _ => exact ht c (List.mem_append.2 (.inl hc'))
    | first _ _ => exact ht c (List.mem_append.2 (.inl hc'))
    | alone _ _ => exact ht c hc'

/-- keys in order, some of them missing -/
private theorem keys_once {p : Provider} {target : Str} {a : Attrs} {ps : List (Str × Str)} (h2 : ps.length ≤ 1)
    (h5 : ∀ k v, (String.toList k, v) ∈ ps → k = "h" ∨ (p = .youTube ∧ k = "list" ∧ '/' ∈ target) ∨
      (p = .youTube ∧ k = "playlist" ∧ '/' ∉ target ∧ (',' ∈ target ∨ a.named "playlist" ≠ none))) (h : Once target a p) :
    ((ps ++ restPs target a p).map (·.1)).Nodup := by
  have sub : ∀ {x y z w : List Str}, x.Sublist y → z.Sublist w → (x ++ z).Sublist (y ++ w) := fun h1 h2 => h1.append h2
  have hx : ∃ x, ps.map (·.1) = x ∧ (x = [] ∨ x = ["h".toList] ∨ (x = ["list".toList] ∧ p = .youTube ∧ '/' ∈ target) ∨
      (x = ["playlist".toList] ∧ p = .youTube ∧ '/' ∉ target ∧ (',' ∈ target ∨ a.named "playlist" ≠ none))) := by
    refine ⟨_, rfl, ?_⟩
    cases ps with
    | nil => exact .inl rfl
    | cons q qs =>
      cases qs with
      | cons r rs => simp at h2
      | nil =>
        rcases h5 (String.ofList q.1) q.2 (by rw [String.toList_ofList]; simp) with e | ⟨hp, e, hs⟩ | ⟨hp, e, hs⟩ <;>
          (have e := congrArg String.toList e; rw [String.toList_ofList] at e)
        · exact .inr (.inl (by simp [e]))
        · exact .inr (.inr (.inl ⟨by simp [e], hp, hs⟩))
        · exact .inr (.inr (.inr ⟨by simp [e], hp, hs⟩))
  obtain ⟨x, hx, hx'⟩ := hx
  rw [List.map_append, hx]
  cases p with
  | youTube =>
    have hy : ∃ y, (lastPs target a).map (·.1) = y ∧ (y = [] ∨ (y = ["list".toList] ∧ a.named "list" ≠ none) ∨
        (y = ["playlist".toList] ∧ "loop" ∈ a.options ∧ '/' ∉ target ∧ ',' ∉ target ∧ a.named "list" = none)) := by
      refine ⟨_, rfl, ?_⟩
      unfold lastPs
      cases hl : a.named "list" with
      | some l => exact .inr (.inl ⟨rfl, nofun⟩)
      | none =>
        simp only
        split
        · rename_i hc
          simp only [Bool.and_eq_true, decide_eq_true_eq, Bool.not_eq_true', Bool.or_eq_false_iff, List.contains_eq_mem, decide_eq_false_iff_not] at hc
          exact .inr (.inr ⟨rfl, hc.1, hc.2.1, hc.2.2, trivial⟩)
        · exact .inl rfl
    obtain ⟨y, hy, hy'⟩ := hy
    have hs : (x ++ (restPs target a .youTube).map (·.1)).Sublist (x ++ ((["autoplay".toList] ++ ["mute".toList] ++ ["modestbranding".toList] ++ ["loop".toList]) ++
        (["rel".toList] ++ ["theme".toList] ++ ["hl".toList] ++ ["end".toList] ++ ["fs".toList] ++ ["controls".toList] ++ y) ++ ["start".toList])) := by
      refine sub (List.Sublist.refl _) ?_
      simp only [restPs, pairPs, morePs, startPs, if_true, List.map_append]
      refine sub (sub (sub (sub (sub ?_ ?_) ?_) ?_) (sub (sub (sub (sub (sub (sub ?_ ?_) ?_) ?_) ?_) ?_) ?_)) ?_ <;>
        first | exact keys_ifOpt .. | exact keys_ifNamed .. | exact List.Sublist.refl _ | exact hy ▸ List.Sublist.refl _
    refine hs.nodup ?_
    rcases hx' with rfl | rfl | ⟨rfl, _, h1⟩ | ⟨rfl, _, h1, h1'⟩ <;> rcases hy' with rfl | ⟨rfl, h3⟩ | ⟨rfl, h3, h3', h3'', h4⟩
    · decide
    · decide
    · decide
    · decide
    · decide
    · decide
    · decide
    · exact absurd ⟨h1, h3⟩ h.1
    · exact absurd h1 h3'
    · decide
    · decide
    · rcases h1' with h1' | h1'
      · exact absurd h1' h3''
      · exact absurd ⟨h3', h3'', h1', h3, h4⟩ h.2
  | vimeo =>
    have hs : (x ++ (restPs target a .vimeo).map (·.1)).Sublist (x ++ (["autoplay".toList] ++ ["muted".toList] ++ ["loop".toList])) := by
      refine sub (List.Sublist.refl _) ?_
      simp only [restPs, pairPs, startPs, reduceCtorEq, if_false, List.append_nil, List.map_append]
      exact sub (sub (keys_ifOpt ..) (keys_ifOpt ..)) (keys_ifOpt ..)
    refine hs.nodup ?_
    rcases hx' with rfl | rfl | ⟨_, h1, _⟩ | ⟨_, h1, _⟩
    · decide
    · decide
    · cases h1
    · cases h1
  | wistia =>
    have hs : (x ++ (restPs target a .wistia).map (·.1)).Sublist (x ++ (["autoPlay".toList] ++ ["muted".toList] ++ ["endVideoBehavior".toList] ++ ["time".toList])) := by
      refine sub (List.Sublist.refl _) ?_
      simp only [restPs, pairPs, startPs, reduceCtorEq, if_false, List.append_nil, List.map_append, List.append_assoc]
      refine sub (keys_ifOpt ..) (sub (keys_ifOpt ..) ?_)
      rw [← List.append_assoc]
      refine sub ?_ (keys_ifNamed ..)
      by_cases hl : "loop" ∈ a.options
      · have hr : "reset" ∉ a.options := fun hr => h ⟨hl, hr⟩
        simp [ifOpt, hl, hr]
      · rw [show ifOpt a "loop" "endVideoBehavior" "loop".toList = [] from if_neg hl]
        exact keys_ifOpt ..
    refine hs.nodup ?_
    rcases hx' with rfl | rfl | ⟨_, h1, _⟩ | ⟨_, h1, _⟩
    · decide
    · decide
    · cases h1
    · cases h1

/-- **C92** (videos at a provider), partial: a video whose attribute list begins with the name of a provider is one `iframe`
with the width and the height that are given and an address. A browser reads in the address the place where the provider
has its videos followed by the id of the video, and the parameters that the target, the attributes and the options ask for,
and no others; Vimeo is told where to start after `#`. Each parameter is there once unless it is asked for in two ways
(`C92_twice_violated`).

Missing: targets and attributes with `"`, `&`, `#` or `?`, which are written as they are (`C92_quote_violated`). -/
theorem C92_service_partial {p : Provider} {target : Str} {a : Attrs} (imagesdir : Option Str) (hp : a.pos 0 = some p.word) (ht : Clean target)
    (hn : ∀ n ∈ addressNames, ∀ v, a.named n = some v → Clean v)
    (hw : ∀ v, (a.named "width" <|> a.pos 1) = some v → Fits v) (hh : ∀ v, (a.named "height" <|> a.pos 2) = some v → Fits v) :
    ∃ url id params, Shows p target id ∧ (∀ k v, (String.toList k, v) ∈ params ↔ Wanted target a p k v) ∧
      (Once target a p → (params.map (·.1)).Nodup) ∧
      readAddress url = ⟨embeds p ++ id, params, if p = .vimeo then (a.named "start").map ("at=".toList ++ ·) else none⟩ ∧
      Says (video imagesdir target a) "iframe"
        (opt "width" ((a.named "width" <|> a.pos 1).map seen) ++ opt "height" ((a.named "height" <|> a.pos 2).map seen) ++
          [("src", url), ("frameborder", ['0'])] ++ bare "allowfullscreen" ("nofullscreen" ∉ a.options) ++
          (if p = .wistia then [("class", "wistia_embed".toList), ("name", "wistia_embed".toList)] else [])) := by
  obtain ⟨id, ps, h1, h2, h3, h5, h4⟩ := wanted_iff p target a
  have hid := shows_clean h1 ht
  have hps : ∀ q ∈ ps ++ restPs target a p, CleanPair q := by
    intro q hq
    have := clean_wanted ht hn ((h4 (String.ofList q.1) q.2).1 (by rw [String.toList_ofList]; exact hq))
    rwa [String.toList_ofList] at this
  have hf : fragOf a p = if p = .vimeo then (a.named "start").map ("at=".toList ++ ·) else none := by cases p <;> rfl
  have hfc : Clean (hashed (fragOf a p)) ∨ ∃ f, hashed (fragOf a p) = '#' :: f ∧ Clean f := by
    rw [hf]
    split
    · cases hs : a.named "start" with
      | none => exact .inl (by intro c hc; cases hc)
      | some s =>
        refine .inr ⟨"at=".toList ++ s, rfl, fun c hc => ?_⟩
        rcases List.mem_append.1 hc with hc | hc
        · exact (by decide : ∀ c ∈ "at=".toList, c ∉ ['"', '&', '#', '?']) c hc
        · exact hn "start" (by decide) s hs c hc
    · exact .inl (by intro c hc; cases hc)
  have hfa : '&' ∉ hashed (fragOf a p) ∧ '"' ∉ hashed (fragOf a p) := by
    rcases hfc with h | ⟨f, e, h⟩
    · exact ⟨h.not_mem.2.1, h.not_mem.1⟩
    · rw [e]
      simp only [List.mem_cons, not_or]
      exact ⟨⟨by decide, h.not_mem.2.1⟩, by decide, h.not_mem.1⟩
  refine ⟨p.start ++ id ++ query ['&'] (ps ++ restPs target a p) ++ hashed (fragOf a p), id, ps ++ restPs target a p, h1, h4, keys_once h2 h5, ?_, ?_⟩
  · rw [read_address hid hps, hf, show p.start = embeds p by cases p <;> decide]
  · rw [video_service hp]
    have hu := serviceUrl_eq h3
    have huq : '"' ∉ serviceUrl p target a := by
      rw [hu]
      simp only [List.mem_append, not_or]
      refine ⟨⟨by simpa using hid.not_mem.1, fun h => ?_⟩, hfa.2⟩
      rcases mem_query h with h | h | ⟨q, hq, h⟩
      · exact absurd h (by decide)
      · exact absurd h (by decide)
      · exact (hps q hq).kv.not_mem.1 h
    refine says_puts (l := (a.named "width" <|> a.pos 1).toList.map (fun v => ("width".toList, some (escape true v))) ++
      (a.named "height" <|> a.pos 2).toList.map (fun v => ("height".toList, some (escape true v))) ++
      [("src".toList, some (serviceUrl p target a)), ("frameborder".toList, some ['0'])] ++
      (if "nofullscreen" ∈ a.options then [] else [("allowfullscreen".toList, none)]) ++
      (if p = .wistia then [("class".toList, some "wistia_embed".toList), ("name".toList, some "wistia_embed".toList)] else []))
      ?_ ⟨'i', "frame".toList, rfl, by decide⟩ (by decide) ?_ ?_
    · unfold service dims
      rw [named_put, named_put]
      have e1 : (if "nofullscreen" ∈ a.options then [] else " allowfullscreen".toList) =
          (if "nofullscreen" ∈ a.options then [] else [("allowfullscreen".toList, none)]).flatMap put := by split <;> rfl
      have e2 : (if p = .wistia then " class=\"wistia_embed\" name=\"wistia_embed\"".toList else []) =
          (if p = .wistia then [("class".toList, some "wistia_embed".toList), ("name".toList, some "wistia_embed".toList)] else []).flatMap put := by
        split <;> decide
      rw [e1, e2]
      have e3 : "<iframe".toList = '<' :: "iframe".toList := by decide
      have e4 : ∀ s : Str, put ("src".toList, some s) = " src=\"".toList ++ s ++ ['"'] := fun s => by
        rw [put, written, show " src=\"".toList = ' ' :: "src".toList ++ "=\"".toList by decide]
      have e5 : put ("frameborder".toList, some ['0']) = " frameborder=\"0\"".toList := by decide
      have e6 : "\" frameborder=\"0\"".toList = ['"'] ++ " frameborder=\"0\"".toList := by decide
      simp only [List.flatMap_append, List.flatMap_cons, List.flatMap_nil, e4, e5, e6, e3, List.append_assoc, List.append_nil, List.cons_append, List.nil_append]
    · intro q hq
      simp only [List.mem_append, List.mem_cons, List.not_mem_nil, or_false] at hq
      rcases hq with (((hq | hq) | hq | hq) | hq) | hq
      · obtain ⟨v, _, rfl⟩ := List.mem_map.1 hq
        exact ⟨(names "width" (by decide)).1, (names "width" (by decide)).2, fun w e => by cases e; exact escape_quote _⟩
      · obtain ⟨v, _, rfl⟩ := List.mem_map.1 hq
        exact ⟨(names "height" (by decide)).1, (names "height" (by decide)).2, fun w e => by cases e; exact escape_quote _⟩
      · subst hq
        exact ⟨(names "src" (by decide)).1, (names "src" (by decide)).2, fun w e => by cases e; exact huq⟩
      · subst hq
        exact ⟨(names "frameborder" (by decide)).1, (names "frameborder" (by decide)).2, fun w e => by cases e; decide⟩
      · split at hq
        · cases hq
        · rw [List.mem_singleton.1 hq]
          exact ⟨(names "allowfullscreen" (by decide)).1, (names "allowfullscreen" (by decide)).2, nofun⟩
      · split at hq
        · simp only [List.mem_cons, List.not_mem_nil, or_false] at hq
          rcases hq with rfl | rfl
          · exact ⟨(names "class" (by decide)).1, (names "class" (by decide)).2, fun w e => by cases e; decide⟩
          · exact ⟨(names "name" (by decide)).1, (names "name" (by decide)).2, fun w e => by cases e; decide⟩
        · cases hq
    · simp only [List.map_append]
      refine congr (congrArg HAppend.hAppend (congr (congrArg HAppend.hAppend (congr (congrArg HAppend.hAppend
        (congr (congrArg HAppend.hAppend ?_) ?_)) ?_)) ?_)) ?_
      · cases hx : (a.named "width" <|> a.pos 1) with
        | none => rfl
        | some v => simp [opt, seen_eq (hw v hx)]
      · cases hx : (a.named "height" <|> a.pos 2) with
        | none => rfl
        | some v => simp [opt, seen_eq (hh v hx)]
      · have := unescape_query (f := hashed (fragOf a p)) hid.not_mem.2.1 hps hfa.1
        rw [← hu] at this
        simp only [List.map_cons, List.map_nil, Option.getD, this, String.ofList_toList]
        rw [show unescape ['0'] = ['0'] by decide]
      · unfold bare
        by_cases h : "nofullscreen" ∈ a.options <;> simp [h, unescape]
      · split
        · decide
        · rfl


private theorem native_says {name : String} (hname : name = "video" ∨ name = "audio") {imagesdir : Option Str} {target : Str} {a : Attrs} {l : List (Str × Option Str)}
    {m : List (String × Str)} (hpl : Plain (mediaPath imagesdir target))
    (hs : ∀ v, a.named "start" = some v → Plain v) (he : ∀ v, a.named "end" = some v → Plain v)
    (hl : ∀ p ∈ l, p.1 ≠ [] ∧ (∀ c ∈ p.1, nameChar c = true) ∧ ∀ v, p.2 = some v → '"' ∉ v)
    (hm : l.map (fun p => (String.ofList p.1, unescape (p.2.getD []))) = m) :
    Says ('<' :: name.toList ++ " src=\"".toList ++ mediaPath imagesdir target ++ mediaTime a ++ ['"'] ++ l.flatMap put ++ ['>']) name
      (("src", mediaPath imagesdir target ++ mediaTime a) :: m) := by
  have hpt : Plain (mediaTime a) := by
    have app : ∀ {x y : Str}, Plain x → Plain y → Plain (x ++ y) := fun h1 h2 =>
      ⟨fun h => (List.mem_append.1 h).elim h1.1 h2.1, fun h => (List.mem_append.1 h).elim h1.2 h2.2⟩
    unfold mediaTime
    have p1 : Plain "#t=,".toList ∧ Plain "#t=".toList ∧ Plain [','] ∧ Plain [] := by unfold Plain; decide
    cases h1 : a.named "start" with
    | none =>
      cases h2 : a.named "end" with
      | none => exact p1.2.2.2
      | some e => exact app p1.1 (he e h2)
    | some s =>
      cases h2 : a.named "end" with
      | none => exact app p1.2.1 (hs s h1)
      | some e => exact app (app (app p1.2.1 (hs s h1)) p1.2.2.1) (he e h2)
  have hq : '"' ∉ mediaPath imagesdir target ++ mediaTime a := fun h => (List.mem_append.1 h).elim hpl.1 hpt.1
  have ha : '&' ∉ mediaPath imagesdir target ++ mediaTime a := fun h => (List.mem_append.1 h).elim hpl.2 hpt.2
  refine says_puts (l := ("src".toList, some (mediaPath imagesdir target ++ mediaTime a)) :: l) ?_ ?_ ?_ ?_ ?_
  · have e4 : ∀ s : Str, put ("src".toList, some s) = " src=\"".toList ++ s ++ ['"'] := fun s => by
      rw [put, written, show " src=\"".toList = ' ' :: "src".toList ++ "=\"".toList by decide]
    rw [List.flatMap_cons, e4]
    simp only [List.append_assoc]
  · rcases hname with rfl | rfl
    · exact ⟨'v', "ideo".toList, rfl, by decide⟩
    · exact ⟨'a', "udio".toList, rfl, by decide⟩
  · rcases hname with rfl | rfl <;> decide
  · intro q hq'
    rcases List.mem_cons.1 hq' with rfl | hq'
    · exact ⟨(names "src" (by decide)).1, (names "src" (by decide)).2, fun w e => by cases e; exact hq⟩
    · exact hl q hq'
  · rw [List.map_cons, hm]
    simp only [Option.getD, String.ofList_toList]
    rw [unescape_plain ha]

private theorem media_file (imagesdir : Option Str) (target : Str) : File imagesdir target (mediaPath imagesdir target) := by
  unfold File mediaPath
  rw [← C92_scheme]
  cases imagesdir with
  | none => cases isUri target <;> simp
  | some dir => cases isUri target <;> simp

private theorem media_plays {a : Attrs} {path : Str} (hp : '#' ∉ path) (hs : ∀ v, a.named "start" = some v → ',' ∉ v) :
    ∃ f, cut '#' (path ++ mediaTime a) = (path, f) ∧ Plays f (a.named "start") (a.named "end") := by
  unfold mediaTime
  cases h1 : a.named "start" with
  | none =>
    cases h2 : a.named "end" with
    | none => exact ⟨none, by simp [cut_none hp], by simp [Plays]⟩
    | some e => exact ⟨some ("t=,".toList ++ e), cut_append hp _, .inr nofun, ',' :: e, rfl, cut_append (a := []) (by simp) e⟩
  | some s =>
    cases h2 : a.named "end" with
    | none => exact ⟨some ("t=".toList ++ s), cut_append hp _, .inl nofun, s, rfl, cut_none (hs s h1)⟩
    | some e =>
      refine ⟨some ("t=".toList ++ s ++ [','] ++ e), cut_append hp _, .inl nofun, s ++ ',' :: e, by simp, cut_append (hs s h1) e⟩

private theorem flag_put {a : Attrs} {o n : String} {s : Str} (h : s = blank n.toList) :
    flag a o s = (if o ∈ a.options then [(n.toList, none)] else []).flatMap put := by
  subst h
  unfold flag
  split <;> simp [put]

private theorem flag_ok {b : Prop} [Decidable b] {n : String} (hn : n.toList ≠ [] ∧ ∀ c ∈ n.toList, nameChar c = true) {q : Str × Option Str}
    (hq : q ∈ if b then [(n.toList, none)] else []) : q.1 ≠ [] ∧ (∀ c ∈ q.1, nameChar c = true) ∧ ∀ v, q.2 = some v → '"' ∉ v := by
  split at hq
  · rw [List.mem_singleton.1 hq]
    exact ⟨hn.1, hn.2, nofun⟩
  · cases hq

private theorem flag_says {b : Prop} [Decidable b] (n : String) :
    (if b then [(n.toList, (none : Option Str))] else []).map (fun p => (String.ofList p.1, unescape (p.2.getD []))) = bare n b := by
  unfold bare
  split
  · rw [List.map_singleton, Option.getD_none, String.ofList_toList]; rfl
  · rfl

private theorem controls_put (a : Attrs) : (if "nocontrols" ∈ a.options then [] else " controls".toList) =
    (if "nocontrols" ∉ a.options then [("controls".toList, none)] else []).flatMap put := by
  by_cases h : "nocontrols" ∈ a.options
  · simp [h]
  · rw [if_neg h, if_pos h]; rfl

private theorem path_clean {imagesdir : Option Str} {target : Str} (hd : ∀ d, imagesdir = some d → Clean d) (ht : Clean target) :
    Clean (mediaPath imagesdir target) := by
  unfold mediaPath
  cases imagesdir with
  | none => exact ht
  | some d =>
    simp only
    split
    · exact ht
    · intro c hc
      rcases List.mem_append.1 hc with hc | hc
      · exact hd d rfl c hc
      · rcases List.mem_cons.1 hc with rfl | hc
        · decide
        · exact ht c hc

/-- **C92** (audio), partial: audio is one `audio` tag whose address is the target itself when it names a scheme, and otherwise
the target in the directory of images, followed by the part that is to be played. It starts by itself or is repeated when the
document says so, and has controls unless the document forbids them.

Missing: quotes, ampersands and `#` in the address, which are written as they are (`C92_quote_violated`). -/
theorem C92_audio_partial {imagesdir : Option Str} {target : Str} {a : Attrs} (hd : ∀ d, imagesdir = some d → Clean d) (ht : Clean target)
    (hs : ∀ v, a.named "start" = some v → Plain v ∧ ',' ∉ v) (he : ∀ v, a.named "end" = some v → Plain v) :
    ∃ src path fragment, cut '#' src = (path, fragment) ∧ File imagesdir target path ∧ Plays fragment (a.named "start") (a.named "end") ∧
      Says (audio imagesdir target a) "audio" ([("src", src)] ++ bare "autoplay" ("autoplay" ∈ a.options) ++ bare "loop" ("loop" ∈ a.options) ++
        bare "controls" ("nocontrols" ∉ a.options)) := by
  have hc := path_clean hd ht
  obtain ⟨f, h1, h2⟩ := media_plays (path := mediaPath imagesdir target) hc.not_mem.2.2.1 fun v hv => (hs v hv).2
  refine ⟨mediaPath imagesdir target ++ mediaTime a, _, f, h1, media_file _ _, h2, ?_⟩
  have := native_says (name := "audio") (l := (if "autoplay" ∈ a.options then [("autoplay".toList, none)] else []) ++
    (if "loop" ∈ a.options then [("loop".toList, none)] else []) ++ (if "nocontrols" ∉ a.options then [("controls".toList, none)] else []))
    (.inr rfl) (imagesdir := imagesdir) (target := target) ⟨hc.not_mem.1, hc.not_mem.2.1⟩ (fun v hv => (hs v hv).1) he (by
      intro q hq
      simp only [List.mem_append] at hq
      rcases hq with (hq | hq) | hq
      · exact flag_ok (names "autoplay" (by decide)) hq
      · exact flag_ok (names "loop" (by decide)) hq
      · exact flag_ok (names "controls" (by decide)) hq)
    (by rw [List.map_append, List.map_append, flag_says, flag_says, flag_says])
  have e : audio imagesdir target a = '<' :: "audio".toList ++ " src=\"".toList ++ mediaPath imagesdir target ++ mediaTime a ++ ['"'] ++
      ((if "autoplay" ∈ a.options then [("autoplay".toList, none)] else []) ++
    (if "loop" ∈ a.options then [("loop".toList, none)] else []) ++ (if "nocontrols" ∉ a.options then [("controls".toList, none)] else [])).flatMap put ++ ['>'] := by
    unfold audio
    rw [flag_put (n := "autoplay") (by decide), flag_put (n := "loop") (by decide), controls_put,
      show "<audio src=\"".toList = '<' :: "audio".toList ++ " src=\"".toList by decide]
    simp only [List.flatMap_append, List.append_assoc]
  rw [e]
  simpa only [List.cons_append, List.nil_append, List.append_assoc] using this

/-- **C92** (video files), partial: a video whose attribute list does not begin with the name of a provider is one `video` tag
with the address of the file and the part to be played, the width and the height, the picture that is shown before it is
played, and the options.

Missing: quotes, ampersands and `#` in the address, which are written as they are (`C92_quote_violated`). -/
theorem C92_file_partial {imagesdir : Option Str} {target : Str} {a : Attrs} (hp : ∀ p : Provider, a.pos 0 ≠ some p.word)
    (hd : ∀ d, imagesdir = some d → Clean d) (ht : Clean target)
    (hs : ∀ v, a.named "start" = some v → Plain v ∧ ',' ∉ v) (he : ∀ v, a.named "end" = some v → Plain v)
    (hw : ∀ v, (a.named "width" <|> a.pos 1) = some v → Fits v) (hh : ∀ v, (a.named "height" <|> a.pos 2) = some v → Fits v)
    (hpo : ∀ v, (a.named "poster" <|> a.pos 0) = some v → Fits v ∧ Plain v) (hpr : ∀ v, a.named "preload" = some v → Fits v) :
    ∃ src path fragment poster, cut '#' src = (path, fragment) ∧ File imagesdir target path ∧ Plays fragment (a.named "start") (a.named "end") ∧
      Poster imagesdir (a.named "poster" <|> a.pos 0) poster ∧
      Says (video imagesdir target a) "video" ([("src", src)] ++ opt "width" ((a.named "width" <|> a.pos 1).map seen) ++
        opt "height" ((a.named "height" <|> a.pos 2).map seen) ++ opt "poster" poster ++ bare "autoplay" ("autoplay" ∈ a.options) ++
        bare "muted" ("muted" ∈ a.options) ++ bare "loop" ("loop" ∈ a.options) ++ opt "preload" ((a.named "preload").map seen) ++
        bare "controls" ("nocontrols" ∉ a.options)) := by
  have hc := path_clean hd ht
  obtain ⟨f, h1, h2⟩ := media_plays (path := mediaPath imagesdir target) hc.not_mem.2.2.1 fun v hv => (hs v hv).2
  have hvid : video imagesdir target a = nativeVideo imagesdir target a (a.named "poster" <|> a.pos 0) := by
    unfold video
    cases h0 : a.pos 0 with
    | none => cases a.named "poster" <;> rfl
    | some v =>
      have n1 : v ≠ "youtube".toList := fun e => hp .youTube (by rw [h0, e]; rfl)
      have n2 : v ≠ "vimeo".toList := fun e => hp .vimeo (by rw [h0, e]; rfl)
      have n3 : v ≠ "wistia".toList := fun e => hp .wistia (by rw [h0, e]; rfl)
      simp only
      rw [if_neg n1, if_neg n2, if_neg n3]
  -- the picture, as it is written and as it is read
  have hpost : ∃ raw poster : Option Str, Poster imagesdir (a.named "poster" <|> a.pos 0) poster ∧
      posterText imagesdir (a.named "poster" <|> a.pos 0) = (raw.toList.map fun v => ("poster".toList, some v)).flatMap put ∧
      (∀ v, raw = some v → '"' ∉ v) ∧ raw.map unescape = poster := by
    unfold posterText
    cases hx : (a.named "poster" <|> a.pos 0) with
    | none => exact ⟨none, none, rfl, rfl, nofun, rfl⟩
    | some v =>
      obtain ⟨hf, hpl⟩ := hpo v hx
      cases imagesdir with
      | none =>
        refine ⟨some (escape true v), some (seen v), .inl ⟨.inl rfl, rfl⟩, ?_, fun w e => by cases e; exact escape_quote _, ?_⟩
        · simp [attr_written, put]
        · simp [seen_eq hf]
      | some dir =>
        by_cases hu : isUri v = true
        · refine ⟨some (escape true v), some (seen v), .inl ⟨.inr ((C92_scheme v).1 hu), rfl⟩, ?_, fun w e => by cases e; exact escape_quote _, ?_⟩
          · simp only [hu, if_true]
            simp [attr_written, put]
          · simp [seen_eq hf]
        · have hdir := (hd dir rfl).not_mem
          have hq : '"' ∉ dir ++ '/' :: v ∧ '&' ∉ dir ++ '/' :: v := by
            simp only [List.mem_append, List.mem_cons, not_or]
            exact ⟨⟨hdir.1, by decide, hpl.1⟩, hdir.2.1, by decide, hpl.2⟩
          refine ⟨some (dir ++ '/' :: v), some (dir ++ '/' :: v), .inr ⟨fun h => hu ((C92_scheme v).2 h), dir, rfl, rfl⟩, ?_, fun w e => by cases e; exact hq.1, ?_⟩
          · simp only [hu, if_false]
            rw [show " poster=\"".toList = ' ' :: "poster".toList ++ "=\"".toList by decide]
            simp only [put, written, Option.toList, List.map_cons, List.map_nil, List.flatMap_cons, List.flatMap_nil, List.append_assoc, List.append_nil,
              Bool.false_eq_true, if_false]
          · simp only [Option.map_some, unescape_plain hq.2]
  obtain ⟨raw, poster, hp1, hp2, hp3, hp4⟩ := hpost
  have hpre : (match a.named "preload" with | some p => Escape.attr "preload".toList p | none => []) =
      ((a.named "preload").toList.map fun v => ("preload".toList, some (escape true v))).flatMap put := by
    cases a.named "preload" with
    | none => rfl
    | some v => simp [attr_written, put]
  refine ⟨mediaPath imagesdir target ++ mediaTime a, _, f, poster, h1, media_file _ _, h2, hp1, ?_⟩
  have := native_says (name := "video") (l := (a.named "width" <|> a.pos 1).toList.map (fun v => ("width".toList, some (escape true v))) ++
      (a.named "height" <|> a.pos 2).toList.map (fun v => ("height".toList, some (escape true v))) ++
      raw.toList.map (fun v => ("poster".toList, some v)) ++
      (if "autoplay" ∈ a.options then [("autoplay".toList, none)] else []) ++
      (if "muted" ∈ a.options then [("muted".toList, none)] else []) ++
      (if "loop" ∈ a.options then [("loop".toList, none)] else []) ++
      (a.named "preload").toList.map (fun v => ("preload".toList, some (escape true v))) ++
      (if "nocontrols" ∉ a.options then [("controls".toList, none)] else []))
    (m := opt "width" ((a.named "width" <|> a.pos 1).map seen) ++
        opt "height" ((a.named "height" <|> a.pos 2).map seen) ++ opt "poster" poster ++ bare "autoplay" ("autoplay" ∈ a.options) ++
        bare "muted" ("muted" ∈ a.options) ++ bare "loop" ("loop" ∈ a.options) ++ opt "preload" ((a.named "preload").map seen) ++
        bare "controls" ("nocontrols" ∉ a.options))
    (.inl rfl) (imagesdir := imagesdir) (target := target) ⟨hc.not_mem.1, hc.not_mem.2.1⟩ (fun v hv => (hs v hv).1) he (by
      intro q hq
      simp only [List.mem_append] at hq
      rcases hq with ((((((hq | hq) | hq) | hq) | hq) | hq) | hq) | hq
      · obtain ⟨v, _, rfl⟩ := List.mem_map.1 hq
        exact ⟨(names "width" (by decide)).1, (names "width" (by decide)).2, fun w e => by cases e; exact escape_quote _⟩
      · obtain ⟨v, _, rfl⟩ := List.mem_map.1 hq
        exact ⟨(names "height" (by decide)).1, (names "height" (by decide)).2, fun w e => by cases e; exact escape_quote _⟩
      · obtain ⟨v, hv, rfl⟩ := List.mem_map.1 hq
        exact ⟨(names "poster" (by decide)).1, (names "poster" (by decide)).2, fun w e => by cases e; exact hp3 v (by simpa using hv)⟩
      · exact flag_ok (names "autoplay" (by decide)) hq
      · exact flag_ok (names "muted" (by decide)) hq
      · exact flag_ok (names "loop" (by decide)) hq
      · obtain ⟨v, _, rfl⟩ := List.mem_map.1 hq
        exact ⟨(names "preload" (by decide)).1, (names "preload" (by decide)).2, fun w e => by cases e; exact escape_quote _⟩
      · exact flag_ok (names "controls" (by decide)) hq)
    (by
      simp only [List.map_append, flag_says]
      refine congr (congrArg HAppend.hAppend (congr (congrArg HAppend.hAppend (congr (congrArg HAppend.hAppend (congr (congrArg HAppend.hAppend
        (congr (congrArg HAppend.hAppend (congr (congrArg HAppend.hAppend (congr (congrArg HAppend.hAppend ?_) ?_)) ?_)) rfl)) rfl)) rfl)) ?_)) rfl
      · cases hx : (a.named "width" <|> a.pos 1) with
        | none => rfl
        | some v => simp [opt, seen_eq (hw v hx)]
      · cases hx : (a.named "height" <|> a.pos 2) with
        | none => rfl
        | some v => simp [opt, seen_eq (hh v hx)]
      · rw [← hp4]
        cases raw with
        | none => rfl
        | some v => simp [opt]
      · cases hx : a.named "preload" with
        | none => rfl
        | some v => simp [opt, seen_eq (hpr v hx)])
  rw [hvid]
  have e : nativeVideo imagesdir target a (a.named "poster" <|> a.pos 0) = '<' :: "video".toList ++ " src=\"".toList ++ mediaPath imagesdir target ++ mediaTime a ++ ['"'] ++
      ((a.named "width" <|> a.pos 1).toList.map (fun v => ("width".toList, some (escape true v))) ++
      (a.named "height" <|> a.pos 2).toList.map (fun v => ("height".toList, some (escape true v))) ++
      raw.toList.map (fun v => ("poster".toList, some v)) ++
      (if "autoplay" ∈ a.options then [("autoplay".toList, none)] else []) ++
      (if "muted" ∈ a.options then [("muted".toList, none)] else []) ++
      (if "loop" ∈ a.options then [("loop".toList, none)] else []) ++
      (a.named "preload").toList.map (fun v => ("preload".toList, some (escape true v))) ++
      (if "nocontrols" ∉ a.options then [("controls".toList, none)] else [])).flatMap put ++ ['>'] := by
    unfold nativeVideo dims
    rw [named_put, named_put, flag_put (n := "autoplay") (by decide), flag_put (n := "muted") (by decide), flag_put (n := "loop") (by decide), controls_put,
      show "<video src=\"".toList = '<' :: "video".toList ++ " src=\"".toList by decide]
    simp only [List.flatMap_append, List.append_assoc]
    rw [← hpre, ← hp2]
    cases a.named "preload" <;> rfl
  rw [e]
  simpa only [List.cons_append, List.nil_append, List.append_assoc] using this

/-- **C92**, violated: a quote in the target of a video ends its address, and what follows is read as attributes. -/
theorem C92_quote_violated : ∃ (target : Str) (a : Attrs) (attrs : List (String × Str)), a.pos 0 = some "youtube".toList ∧
    Says (video none target a) "iframe" attrs ∧ ("onload", "x".toList) ∈ attrs :=
  ⟨"a\" onload=x b=\"".toList, { pos := fun i => if i = 0 then some "youtube".toList else none },
    [("src", "https://www.youtube.com/embed/a".toList), ("onload", "x".toList), ("b", "?rel=0".toList), ("frameborder", ['0']), ("allowfullscreen", [])],
    rfl, ⟨[("src".toList, "https://www.youtube.com/embed/a".toList), ("onload".toList, "x".toList), ("b".toList, "?rel=0".toList), ("frameborder".toList, ['0']), ("allowfullscreen".toList, [])],
      by unfold IsTag; decide +kernel, by decide +kernel⟩, by decide⟩

/-- **C92**, violated: a YouTube video that is repeated and has a playlist is given two playlists; a target with a list and a
list attribute gives two lists; a Wistia video that is repeated and reset is told both. -/
theorem C92_twice_violated :
    readAddress (unescape (serviceUrl .youTube "a".toList { options := ["loop"], named := fun n => if n = "playlist" then some "b".toList else none })) =
      ⟨"https://www.youtube.com/embed/a".toList, [("playlist".toList, "a,b".toList), ("loop".toList, ['1']), ("rel".toList, ['0']), ("playlist".toList, "a".toList)], none⟩ ∧
    readAddress (unescape (serviceUrl .youTube "a/b".toList { named := fun n => if n = "list" then some "c".toList else none })) =
      ⟨"https://www.youtube.com/embed/a".toList, [("list".toList, "b".toList), ("rel".toList, ['0']), ("list".toList, "c".toList)], none⟩ ∧
    readAddress (unescape (serviceUrl .wistia "a".toList { options := ["loop", "reset"] })) =
      ⟨"https://fast.wistia.com/embed/iframe/a".toList, [("endVideoBehavior".toList, "loop".toList), ("endVideoBehavior".toList, "reset".toList)], none⟩ := by
  decide +kernel

/-- a video, for the theorems above -/
private def sample : Attrs :=
  { pos := fun i => if i = 0 then some "youtube".toList else if i = 1 then some "640".toList else none, options := ["loop", "nocontrols"],
    named := fun n => if n = "start" then some "60".toList else if n = "theme" then some "light".toList else none }

example : video none "id1,id2".toList sample =
    ("<iframe width=\"640\" src=\"https://www.youtube.com/embed/id1?playlist=id1,id2&amp;loop=1&amp;rel=0&amp;theme=light&amp;controls=0&amp;start=60\"" ++
      " frameborder=\"0\" allowfullscreen>").toList := by decide +kernel

private theorem fits_plain {s : Str} (h : '&' ∉ s) : Fits s := by
  rintro r ⟨t, rfl⟩ hr
  cases r with
  | nil => cases hr
  | cons c r =>
    cases hr
    simp at h

example : ∃ url id params, Shows .youTube "id1,id2".toList id ∧ (∀ k v, (String.toList k, v) ∈ params ↔ Wanted "id1,id2".toList sample .youTube k v) ∧
    (Once "id1,id2".toList sample .youTube → (params.map (·.1)).Nodup) ∧
    readAddress url = ⟨embeds .youTube ++ id, params, none⟩ ∧ ∃ attrs, Says (video none "id1,id2".toList sample) "iframe" attrs := by
  obtain ⟨u, i, ps, h1, h2, h3, h4, h5⟩ := C92_service_partial (p := .youTube) (target := "id1,id2".toList) (a := sample) none rfl (by unfold Clean; decide)
    (by
      intro n hn v hv
      simp only [sample] at hv
      split at hv
      · cases hv; unfold Clean; decide
      · split at hv
        · cases hv; unfold Clean; decide
        · cases hv)
    (fun v hv => by
      rw [show (sample.named "width" <|> sample.pos 1) = some "640".toList by decide +kernel] at hv
      cases hv
      exact fits_plain (by decide))
    (fun v hv => by
      rw [show (sample.named "height" <|> sample.pos 2) = none by decide +kernel] at hv
      cases hv)
  exact ⟨u, i, ps, h1, h2, h3, h4, _, h5⟩

example : Once "id1,id2".toList sample .youTube := by
  refine ⟨?_, ?_⟩ <;> (simp only [sample]; decide)

/-- a file, for the theorems above -/
private def clip : Attrs :=
  { pos := fun i => if i = 0 then some "still.png".toList else none, options := ["autoplay"],
    named := fun n => if n = "start" then some "10".toList else if n = "end" then some "20".toList else none }

example : video (some "images".toList) "a.mp4".toList clip =
    "<video src=\"images/a.mp4#t=10,20\" poster=\"images/still.png\" autoplay controls>".toList := by decide +kernel

example : audio (some "images".toList) "https://example.org/a.mp3".toList clip =
    "<audio src=\"https://example.org/a.mp3#t=10,20\" autoplay controls>".toList := by decide +kernel

example : ∃ src path fragment poster, cut '#' src = (path, fragment) ∧ File (some "images".toList) "a.mp4".toList path ∧
    Plays fragment (clip.named "start") (clip.named "end") ∧ Poster (some "images".toList) (some "still.png".toList) poster ∧
    ∃ attrs, Says (video (some "images".toList) "a.mp4".toList clip) "video" attrs := by
  have hk : ∀ n v, clip.named n = some v → v = "10".toList ∨ v = "20".toList := by
    intro n v hv
    simp only [clip] at hv
    split at hv
    · cases hv; exact .inl rfl
    · split at hv
      · cases hv; exact .inr rfl
      · cases hv
  have hpl : ∀ n v, clip.named n = some v → Plain v ∧ ',' ∉ v := by
    intro n v hv
    rcases hk n v hv with rfl | rfl <;> (unfold Plain; decide)
  obtain ⟨s, p, f, po, h1, h2, h3, h4, h5⟩ := C92_file_partial (imagesdir := some "images".toList) (target := "a.mp4".toList) (a := clip)
    (by intro p; cases p <;> (simp only [clip, Provider.word]; decide)) (by rintro d ⟨⟩; unfold Clean; decide) (by unfold Clean; decide)
    (fun v hv => hpl _ v hv) (fun v hv => (hpl _ v hv).1)
    (fun v hv => by
      rw [show (clip.named "width" <|> clip.pos 1) = none by decide +kernel] at hv
      cases hv)
    (fun v hv => by
      rw [show (clip.named "height" <|> clip.pos 2) = none by decide +kernel] at hv
      cases hv)
    (fun v hv => by
      rw [show (clip.named "poster" <|> clip.pos 0) = some "still.png".toList by decide +kernel] at hv
      cases hv
      exact ⟨fits_plain (by decide), by unfold Plain; decide⟩)
    (fun v hv => by
      rw [show clip.named "preload" = none by decide +kernel] at hv
      cases hv)
  exact ⟨s, p, f, po, h1, h2, h3, h4, _, h5⟩

end Verif.Props
