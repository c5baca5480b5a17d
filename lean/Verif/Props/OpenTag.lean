import Verif.Lemmas.StartTag
import Verif.Model.InlineText
/-!
C70: start tags say what the document says.
-/
namespace Verif.Props
open Verif Verif.OpenTag Verif.StartTag Verif.Spec.Escape Verif.Escape

/-- the names of attributes that are written -/
theorem names : ∀ n ∈ ["id", "href", "class", "title", "target", "rel", "style", "src", "alt", "width", "height"],
    n.toList ≠ [] ∧ ∀ c ∈ n.toList, nameChar c = true := by decide

/-- from tags that are written to tags that are read -/
theorem says_of {s : Str} {name : String} {l : List (Str × Str)} {m : List (String × Str)}
    (h : s = '<' :: name.toList ++ l.flatMap written ++ ['>']) (hne : ∃ c cs, name.toList = c :: cs ∧ c.isAlpha = true)
    (hname : ∀ c ∈ name.toList, nameChar c = true)
    (hl : ∀ p ∈ l, p.1 ≠ [] ∧ (∀ c ∈ p.1, nameChar c = true) ∧ '"' ∉ p.2)
    (hm : l.map (fun (n, v) => (String.ofList n, unescape v)) = m) : Says s name m := by
  refine ⟨l, ?_, hm⟩
  have := isTag_written hne hname hl
  rw [h]
  simpa using this

theorem seen_eq {s : Str} (h : Fits s) : unescape (escape true s) = seen s := C50_roundtrip_partial true s h

private theorem shown_eq {s : Str} (h : Fits s) : unescape (escape false s) = s := by
  rw [C50_roundtrip_partial false s h]
  have : curl false = id := by funext c; simp [curl]
  rw [this, List.map_id]

/-- the attributes of an opening tag as they are written -/
private theorem foldl_attr (pre : List (String × Str)) (t : Tag) :
    pre.foldl (fun t p => t.attr p.1 p.2) t = { t with buf := t.buf ++ (pre.map fun p => (p.1.toList, escape true p.2)).flatMap written } := by
  induction pre generalizing t with
  | nil => simp
  | cons p pre ih => rw [List.foldl_cons, ih]; simp [Tag.attr, Tag.str, attr_written]

private theorem cls_ok {cs : List Str} (h : ∀ r ∈ cs, Plain r) {p : Str × Str} (hp : p ∈ clsOf cs) :
    p.1 ≠ [] ∧ (∀ c ∈ p.1, nameChar c = true) ∧ '"' ∉ p.2 := by
  unfold clsOf at hp
  split at hp
  · cases hp
  · rw [List.mem_singleton.1 hp]
    exact ⟨(names "class" (by simp)).1, (names "class" (by simp)).2, (joined_plain h).1⟩

private theorem cls_seen {cs : List Str} (h : ∀ r ∈ cs, Plain r) :
    (clsOf cs).map (fun (n, v) => (String.ofList n, unescape v)) = classes cs := by
  unfold clsOf classes
  split
  · rfl
  · simp [unescape_plain (joined_plain h).2]

/-- styles with semicolons between them -/
def styleOf : List Str → Option Str
  | [] => none
  | s :: ss => some (ss.foldl (fun a b => a ++ "; ".toList ++ b) s)

private theorem foldl_style (ss : List Str) (t : Tag) (h : t.styles = none) : ss.foldl Tag.style t = { t with styles := styleOf ss } := by
  have key : ∀ (ss : List Str) (t : Tag) (p : Str), t.styles = some p →
      ss.foldl Tag.style t = { t with styles := some (ss.foldl (fun a b => a ++ "; ".toList ++ b) p) } := by
    intro ss
    induction ss with
    | nil => intro t p h; obtain ⟨a, b, c, d⟩ := t; simp only at h; subst h; rfl
    | cons s ss ih =>
      intro t p h
      rw [List.foldl_cons, ih (t.style s) (p ++ "; ".toList ++ s) (by simp [Tag.style, h])]
      simp [Tag.style]
  cases ss with
  | nil => obtain ⟨a, b, c, d⟩ := t; simp only at h; subst h; rfl
  | cons s ss =>
    rw [List.foldl_cons, key ss (t.style s) s (by simp [Tag.style, h])]
    simp [Tag.style, styleOf]

/-- **C70** (any tag), partial: a tag that is started for an element with an attribute list, and to which attributes, then
classes, then styles are added, is read by a browser as a tag of that element with the id, those attributes, the classes and
the roles in order, and the styles.

Missing: quotes and ampersands in classes and roles, which are written as they are (`C70_role_violated`). -/
theorem C70_tags_partial (elem : String) (a : Attrs) (withId : Bool) (pre : List (String × Str)) (cs ss : List Str)
    (helem : ∃ c r, elem.toList = c :: r ∧ c.isAlpha = true) (hchars : ∀ c ∈ elem.toList, nameChar c = true)
    (hpre : ∀ p ∈ pre, p.1.toList ≠ [] ∧ (∀ c ∈ p.1.toList, nameChar c = true) ∧ Fits p.2)
    (hid : ∀ i, a.id = some i → Fits i) (hroles : ∀ r ∈ cs ++ a.roles, Plain r) (hss : ∀ s, styleOf ss = some s → Fits s) :
    Says ((ss.foldl Tag.style (cs.foldl Tag.cls (pre.foldl (fun t p => t.attr p.1 p.2) (Tag.new withId elem.toList a)))).finish)
      elem
      ((if withId then opt "id" (a.id.map seen) else []) ++ pre.map (fun p => (p.1, seen p.2)) ++ classes (cs ++ a.roles) ++
        opt "style" ((styleOf ss).map seen)) := by
  have hb : ∀ b, (Tag.new b elem.toList a).buf = '<' :: elem.toList ++ (if b then idOf a else []).flatMap written := by
    intro b
    cases b with
    | false => simp [Tag.new]
    | true => simpa using new_buf elem.toList a
  have hsty : ∀ t : Tag, t.styles = none →
      (ss.foldl Tag.style t).finish = { t with styles := styleOf ss }.finish := fun t h => by rw [foldl_style _ _ h]
  have hst : ∀ (cs : List Str) (t : Tag), (cs.foldl Tag.cls t).styles = t.styles := by
    intro cs
    induction cs with
    | nil => intro t; rfl
    | cons c cs ih => intro t; rw [List.foldl_cons, ih]; unfold Tag.cls; split <;> rfl
  have hfc : ∀ (t : Tag) (s), ({ t with styles := s } : Tag).finishClasses = { t.finishClasses with styles := s } := by
    intro t s
    obtain ⟨b, o, p, st⟩ := t
    cases p <;> cases o <;> simp [Tag.finishClasses, Tag.cls]
  rw [hsty _ (by rw [hst, foldl_attr]; rfl), foldl_attr]
  refine says_of (l := (if withId then idOf a else []) ++ pre.map (fun p => (p.1.toList, escape true p.2)) ++
    clsOf (cs ++ a.roles) ++ (styleOf ss).toList.map (fun s => ("style".toList, escape true s))) ?_ helem hchars ?_ ?_
  · rw [Tag.finish]
    have hcl := finishClasses_many cs { Tag.new withId elem.toList a with buf := ((Tag.new withId elem.toList a).buf ++
      (pre.map (fun p => (p.1.toList, escape true p.2))).flatMap written) } rfl a.roles (new_append withId elem.toList a)
    rw [hfc, hcl]
    cases hs : styleOf ss with
    | none => simp [hb]
    | some s => simp [hb, Tag.attr, Tag.str, attr_written]
  · intro p hp
    simp only [List.mem_append] at hp
    rcases hp with ((hp | hp) | hp) | hp
    · split at hp
      · obtain ⟨i, hi, rfl⟩ := List.mem_map.1 hp
        exact ⟨(names "id" (by simp)).1, (names "id" (by simp)).2, escape_quote i⟩
      · cases hp
    · obtain ⟨q, hq, rfl⟩ := List.mem_map.1 hp
      exact ⟨(hpre q hq).1, (hpre q hq).2.1, escape_quote _⟩
    · exact cls_ok hroles hp
    · obtain ⟨s, hs, rfl⟩ := List.mem_map.1 hp
      exact ⟨(names "style" (by simp)).1, (names "style" (by simp)).2, escape_quote _⟩
  · simp only [List.map_append]
    refine congr (congrArg HAppend.hAppend (congr (congrArg HAppend.hAppend (congr (congrArg HAppend.hAppend ?_) ?_)) ?_)) ?_
    · cases withId with
      | false => rfl
      | true =>
        cases hi : a.id with
        | none => simp [idOf, hi, opt]
        | some i => simp [idOf, hi, opt, seen_eq (hid i hi)]
    · rw [List.map_map]
      refine List.map_congr_left fun p hp => ?_
      simp [seen_eq (hpre p hp).2.2]
    · exact cls_seen hroles
    · cases hs : styleOf ss with
      | none => rfl
      | some s => simp [opt, seen_eq (hss s hs)]

/-- the window and relation of a link as they are written -/
def consOf (a : Attrs) (blank : Bool) : List (Str × Str) :=
  (windowOf a blank).toList.map (fun w => ("target".toList, w)) ++
    (rel (windowOf a blank = some "_blank".toList || ((windowOf a blank).isSome && decide ("noopener" ∈ a.options)))
      (decide ("nofollow" ∈ a.options))).map fun p => (p.1.toList, p.2)

theorem cons_written {a : Attrs} {blank : Bool} (h : "nofollow" ∈ a.options → blank = false ∧
      ∀ w, a.named "window" = some w → w = "_blank".toList ∨ "noopener" ∈ a.options) :
    (if blank then " target=\"_blank\" rel=\"noopener\"".toList else linkConstraints a) = (consOf a blank).flatMap written := by
  have e1 : ∀ w : Str, " target=\"".toList ++ w ++ "\" rel=\"noopener".toList ++ " nofollow\"".toList =
      [("target".toList, w), ("rel".toList, "noopener nofollow".toList)].flatMap written := by
    intro w; simp [written]
  have e2 : ∀ w : Str, " target=\"".toList ++ w ++ "\" rel=\"noopener".toList ++ "\"".toList =
      [("target".toList, w), ("rel".toList, "noopener".toList)].flatMap written := by
    intro w; simp [written]
  have e3 : ∀ w : Str, " target=\"".toList ++ w ++ [] ++ "\"".toList = [("target".toList, w)].flatMap written := by
    intro w; simp [written]
  have e4 : " rel=\"nofollow\"".toList = [("rel".toList, "nofollow".toList)].flatMap written := by decide
  unfold consOf linkConstraints windowOf
  by_cases hn : "nofollow" ∈ a.options
  · obtain ⟨hb, hx⟩ := h hn
    subst hb
    cases hw : a.named "window" with
    | none => rw [decide_eq_true hn]; simp only [hn]; exact e4
    | some w =>
      have hx := hx w hw
      have hy : (decide (some w = some "_blank".toList) || (some w).isSome && decide ("noopener" ∈ a.options)) = true := by
        rcases hx with hx | hx
        · rw [hx]; simp
        · rw [decide_eq_true hx]; simp
      simp only [Bool.false_eq_true, if_false]
      rw [if_pos hx, if_pos hn, decide_eq_true hn, hy]
      exact e1 w
  · rw [decide_eq_false hn]
    cases blank with
    | true =>
      simp only [if_true]
      rw [show decide True = true from rfl, Bool.true_or]
      decide
    | false =>
      simp only [Bool.false_eq_true, if_false]
      cases hw : a.named "window" with
      | none => simp only [hn, if_false]; rfl
      | some w =>
        simp only
        rw [if_neg hn]
        by_cases hx : w = "_blank".toList ∨ "noopener" ∈ a.options
        · have hy : (decide (some w = some "_blank".toList) || (some w).isSome && decide ("noopener" ∈ a.options)) = true := by
            rcases hx with hx | hx
            · rw [hx]; simp
            · rw [decide_eq_true hx]; simp
          rw [if_pos hx, hy]
          exact e2 w
        · have hy : (decide (some w = some "_blank".toList) || (some w).isSome && decide ("noopener" ∈ a.options)) = false := by
            rw [decide_eq_false fun e => hx (.inl (Option.some.inj e)), decide_eq_false fun e => hx (.inr e)]; simp
          rw [if_neg hx, hy]
          exact e3 w

/-- the attributes of a link, as they are written -/
theorem linkAttrs_eq (a : Attrs) (hasText blank : Bool) (t : Tag) (h : t.opened = false) (hs : t.styles = none)
    (ha : t.append = if a.roles = [] then none else some (joined a.roles)) :
    (t.linkAttrs a hasText blank).finish =
      t.buf ++ (clsOf ((if hasText then [] else ["bare".toList]) ++ a.roles)).flatMap written ++
        ((a.named "title").toList.map (fun v => ("title".toList, escape true v))).flatMap written ++
        (if blank then " target=\"_blank\" rel=\"noopener\"".toList else linkConstraints a) ++ ['>'] := by
  have hcs : (if hasText = true then t else t.cls "bare".toList) = (if hasText then [] else ["bare".toList]).foldl Tag.cls t := by
    cases hasText <;> rfl
  unfold Tag.linkAttrs
  simp only [hcs]
  rw [finishClasses_many _ t h a.roles ha]
  generalize " target=\"_blank\" rel=\"noopener\"".toList = x
  generalize linkConstraints a = y
  generalize (clsOf ((if hasText then [] else ["bare".toList]) ++ a.roles)).flatMap written = z
  have hfin : ∀ (b : Str), ({ buf := b, opened := false, append := none, styles := none } : Tag).finish = b ++ ['>'] := by
    intro b; simp [Tag.finish, Tag.finishClasses]
  obtain ⟨b, o, p, st⟩ := t
  simp only at h hs
  subst h hs
  cases a.named "title" with
  | none => cases blank <;> simp only [Tag.str, hfin, Option.toList_none, List.map_nil, List.flatMap_nil, List.append_nil,
      if_true, Bool.false_eq_true, if_false]
  | some v =>
    cases blank <;> simp only [Tag.str, Tag.attr, attr_written, hfin, Option.toList_some, List.map_cons, List.map_nil,
      List.flatMap_cons, List.flatMap_nil, List.append_nil, if_true, Bool.false_eq_true, if_false]

/-- the conditions on a link -/
structure OkLink (target : Str) (attrs : Option Attrs) (mailto hasText blank : Bool) : Prop where
  target : '"' ∉ target ∧ Fits target
  id : ∀ a, attrs = some a → ∀ i, a.id = some i → Fits i
  title : ∀ a, attrs = some a → ∀ i, a.named "title" = some i → Fits i
  roles : ∀ a, attrs = some a → ∀ r ∈ a.roles, Plain r
  window : ∀ a, attrs = some a → ∀ w, a.named "window" = some w → Plain w
  /-- the parser makes attributes for every link that asks for a new window -/
  asks : attrs = none → blank = false
  mail : mailto = true → hasText = true ∨ attrs = none
  nofollow : ∀ a, attrs = some a → "nofollow" ∈ a.options → blank = false ∧
    ∀ w, a.named "window" = some w → w = "_blank".toList ∨ "noopener" ∈ a.options

/-- **C70** (links), partial: the tag of a link is read as one with the id, target, class, roles, title, window and relation
that the document gives it.

Missing: quotes in the target (`C70_target_violated`), quotes and ampersands in roles and in the window, `nofollow` on links
that open in another window (`C70_nofollow_violated`), mail addresses without text. -/
theorem C70_links_partial {target : Str} {attrs : Option Attrs} {mailto hasText blank : Bool}
    (h : OkLink target attrs mailto hasText blank) :
    Says (enterLink target attrs mailto hasText blank) "a" (linkSays target (attrs.getD {}) mailto hasText blank) := by
  have hhref : '"' ∉ (if mailto then "mailto:".toList else []) ++ escape false target := by
    rw [List.mem_append, not_or]
    exact ⟨by split <;> decide, escape_false_quote h.target.1⟩
  have hhref2 : unescape ((if mailto then "mailto:".toList else []) ++ escape false target) =
      (if mailto then "mailto:".toList else []) ++ target := by
    rw [unescape_append (by split <;> decide), shown_eq h.target.2]
  have hbuf : ∀ t : Tag, ((if mailto then (t.str " href=\"".toList).str "mailto:".toList else t.str " href=\"".toList).str
        (escape false target)).str ['"'] =
      t.str (written ("href".toList, (if mailto then "mailto:".toList else []) ++ escape false target)) := by
    intro t
    cases mailto <;> simp [Tag.str, written]
  cases attrs with
  | none =>
    have hbl := h.asks rfl
    subst hbl
    refine says_of (l := [("href".toList, (if mailto then "mailto:".toList else []) ++ escape false target)] ++
      clsOf (if hasText || mailto then [] else ["bare".toList])) ?_ ⟨'a', [], rfl, by decide⟩ (by decide) ?_ ?_
    · simp only [enterLink, hbuf, Option.getD_none]
      have key : ∀ cs, (cs.foldl Tag.cls ((Tag.new true "a".toList {}).str
          (written ("href".toList, (if mailto then "mailto:".toList else []) ++ escape false target)))).finish =
          '<' :: "a".toList ++ ([("href".toList, (if mailto then "mailto:".toList else []) ++ escape false target)] ++
            clsOf cs).flatMap written ++ ['>'] := by
        intro cs
        rw [Tag.finish, finishClasses_many cs _ rfl [] rfl]
        simp [Tag.new, Tag.str]
      cases hasText <;> cases mailto
      · exact key ["bare".toList]
      · exact key []
      · exact key []
      · exact key []
    · intro p hp
      rcases List.mem_append.1 hp with hp | hp
      · rw [List.mem_singleton.1 hp]
        exact ⟨(names "href" (by simp)).1, (names "href" (by simp)).2, hhref⟩
      · unfold clsOf at hp
        split at hp
        · cases hp
        · rw [List.mem_singleton.1 hp]
          refine ⟨(names "class" (by simp)).1, (names "class" (by simp)).2, ?_⟩
          decide
    · have h0 : opt "id" (({} : Attrs).id.map seen) = [] := rfl
      simp only [List.map_append, List.map_cons, List.map_nil, hhref2, linkSays, Option.getD_none, opt, windowOf, rel]
      cases hasText <;> cases mailto <;> simp [clsOf, classes, joined, unescape]
  | some a =>
    refine says_of (l := idOf a ++ [("href".toList, (if mailto then "mailto:".toList else []) ++ escape false target)] ++
      clsOf ((if hasText || mailto then [] else ["bare".toList]) ++ a.roles) ++
      (a.named "title").toList.map (fun v => ("title".toList, escape true v)) ++ consOf a blank) ?_
      ⟨'a', [], rfl, by decide⟩ (by decide) ?_ ?_
    · have hc : (if hasText then [] else ["bare".toList]) = if hasText || mailto then [] else ["bare".toList] := by
        have := h.mail
        cases hasText <;> cases mailto <;> simp at this ⊢
      have hl := linkAttrs_eq a hasText blank ((Tag.new true "a".toList a).str
        (written ("href".toList, (if mailto then "mailto:".toList else []) ++ escape false target))) rfl rfl
        (new_append true "a".toList a)
      rw [hc, cons_written (h.nofollow a rfl)] at hl
      simp only [enterLink, hbuf, Option.getD_some]
      rw [if_neg (by simp), hl]
      simp only [Tag.str, new_buf, List.flatMap_append, List.append_assoc, List.flatMap_cons, List.flatMap_nil, List.append_nil]
    · have hpl : ∀ r ∈ (if hasText || mailto then [] else ["bare".toList]) ++ a.roles, Plain r := by
        intro r hr
        rcases List.mem_append.1 hr with hr | hr
        · split at hr
          · cases hr
          · rw [List.mem_singleton.1 hr]; exact ⟨by decide, by decide⟩
        · exact h.roles a rfl r hr
      intro p hp
      simp only [List.mem_append, List.mem_singleton] at hp
      rcases hp with (((hp | hp) | hp) | hp) | hp
      · obtain ⟨i, hi, rfl⟩ := List.mem_map.1 hp
        exact ⟨(names "id" (by simp)).1, (names "id" (by simp)).2, escape_quote i⟩
      · subst hp
        exact ⟨(names "href" (by simp)).1, (names "href" (by simp)).2, hhref⟩
      · exact cls_ok hpl hp
      · obtain ⟨v, hv, rfl⟩ := List.mem_map.1 hp
        exact ⟨(names "title" (by simp)).1, (names "title" (by simp)).2, escape_quote v⟩
      · rcases List.mem_append.1 hp with hp | hp
        · obtain ⟨w, hw, rfl⟩ := List.mem_map.1 hp
          refine ⟨(names "target" (by simp)).1, (names "target" (by simp)).2, ?_⟩
          simp only [Option.mem_toList, windowOf] at hw
          split at hw
          · cases hw; decide
          · exact (h.window a rfl w hw).1
        · obtain ⟨q, hq, rfl⟩ := List.mem_map.1 hp
          unfold rel at hq
          split at hq
          all_goals first
            | (rw [List.mem_singleton.1 hq]; exact ⟨(names "rel" (by simp)).1, (names "rel" (by simp)).2, by decide⟩)
            | cases hq
    · have hpl : ∀ r ∈ (if hasText || mailto then [] else ["bare".toList]) ++ a.roles, Plain r := by
        intro r hr
        rcases List.mem_append.1 hr with hr | hr
        · split at hr
          · cases hr
          · rw [List.mem_singleton.1 hr]; exact ⟨by decide, by decide⟩
        · exact h.roles a rfl r hr
      simp only [List.map_append, linkSays, consOf, Option.getD_some]
      rw [List.append_assoc (_ ++ _ ++ _ ++ opt "title" _)]
      refine congr (congrArg HAppend.hAppend (congr (congrArg HAppend.hAppend (congr (congrArg HAppend.hAppend
        (congr (congrArg HAppend.hAppend ?_) ?_)) ?_)) ?_)) (congr (congrArg HAppend.hAppend ?_) ?_)
      · cases hi : a.id with
        | none => simp [idOf, hi, opt]
        | some i => simp [idOf, hi, opt, seen_eq (h.id a rfl i hi)]
      · simp only [List.map_cons, List.map_nil, hhref2, String.ofList_toList]
      · exact cls_seen hpl
      · cases hs : a.named "title" with
        | none => rfl
        | some s => simp [opt, seen_eq (h.title a rfl s hs)]
      · cases hw : windowOf a blank with
        | none => rfl
        | some w =>
          have : '&' ∉ w := by
            unfold windowOf at hw
            split at hw
            · cases hw; decide
            · exact (h.window a rfl w hw).2
          simp [opt, unescape_plain this]
      · generalize (decide (windowOf a blank = some "_blank".toList) || (windowOf a blank).isSome && decide ("noopener" ∈ a.options)) = x
        generalize decide ("nofollow" ∈ a.options) = y
        cases x <;> cases y <;> decide

private theorem urlEncode_mem {c : Char} (h1 : c ≠ '%') (h2 : c ≠ '2') (h3 : c ≠ '0') (h4 : c ≠ 'C') {s : Str} (h : c ∈ urlEncode s) : c ∈ s := by
  induction s with
  | nil => cases h
  | cons d s ih =>
    rw [urlEncode, List.mem_append] at h
    rcases h with h | h
    · split at h
      · simp [h1, h2, h3] at h
      · split at h
        · simp [h1, h2, h4] at h
        · simp at h; simp [h]
    · exact List.mem_cons_of_mem _ (ih h)

theorem urlEncode_plain {s : Str} (h : Plain s) : Plain (urlEncode s) :=
  ⟨fun hm => h.1 (urlEncode_mem (by decide) (by decide) (by decide) (by decide) hm),
    fun hm => h.2 (urlEncode_mem (by decide) (by decide) (by decide) (by decide) hm)⟩

/-- the address that a mail link leads to, with the subject and the body as they are encoded in it -/
def mailHref (address : Str) (subject body : Option Str) : Str :=
  "mailto:".toList ++ address ++
    (match subject, body with
    | none, none => []
    | some s, none => "?subject=".toList ++ s
    | none, some b => "?body=".toList ++ b
    | some s, some b => "?subject=".toList ++ s ++ "&body=".toList ++ b)

/-- an encoding of a text in an address -/
def Encodes (e : Option Str) (t : Option Str) : Prop :=
  e.map percentDecode = t ∧ ∀ v, e = some v → ∀ c ∈ v, c ≠ ' ' ∧ c ≠ ','

/-- **C70** (mail links), partial: the tag of a mail link is read as one with the id and roles that the document gives it and
leads to the address with the subject and the body.

Missing: quotes and ampersands in address, subject and body, which are written as they are (`C70_subject_violated`);
percent signs. -/
theorem C70_mail_links_partial {address : Str} {subject body : Option Str} {attrs : Option Attrs} (ha : Plain address)
    (hs : ∀ v, subject = some v → Plain v ∧ '%' ∉ v) (hb : ∀ v, body = some v → Plain v ∧ '%' ∉ v)
    (hid : ∀ i, (attrs.getD {}).id = some i → Fits i) (hroles : ∀ r ∈ (attrs.getD {}).roles, Plain r) :
    ∃ s b, Encodes s subject ∧ Encodes b body ∧
      Says (enterMailto address subject body attrs) "a"
        (opt "id" ((attrs.getD {}).id.map seen) ++ [("href", mailHref address s b)] ++ classes (attrs.getD {}).roles) := by
  have enc : ∀ t : Option Str, (∀ v, t = some v → Plain v ∧ '%' ∉ v) → Encodes (t.map urlEncode) t := by
    intro t ht
    cases t with
    | none => exact ⟨rfl, nofun⟩
    | some v =>
      have := C50_url_encoding v (ht v rfl).2
      exact ⟨by simp [this.2], fun w hw => by cases hw; exact this.1⟩
  refine ⟨subject.map urlEncode, body.map urlEncode, enc _ hs, enc _ hb, ?_⟩
  -- the query as it is written
  obtain ⟨q, hq1, hq2, hq3⟩ : ∃ q : Str, '"' ∉ q ∧ (∀ t : Str, '&' ∉ t →
      unescape (t ++ q) = t ++ (match subject.map urlEncode, body.map urlEncode with
        | none, none => []
        | some s, none => "?subject=".toList ++ s
        | none, some b => "?body=".toList ++ b
        | some s, some b => "?subject=".toList ++ s ++ "&body=".toList ++ b)) ∧
      enterMailto address subject body attrs = ((Tag.new true "a".toList (attrs.getD {})).str
        (written ("href".toList, "mailto:".toList ++ address ++ q))).finish := by
    cases subject with
    | none =>
      cases body with
      | none =>
        refine ⟨[], by simp, fun t ht => by simp [unescape_plain ht], ?_⟩
        simp only [enterMailto]
        congr 1
        simp [Tag.str, written]
      | some b =>
        have hb := urlEncode_plain (hb b rfl).1
        refine ⟨"?body=".toList ++ urlEncode b, ?_, ?_, ?_⟩
        · rw [List.mem_append, not_or]; exact ⟨by decide, hb.1⟩
        · intro t ht
          rw [← List.append_assoc, unescape_append (by rw [List.mem_append, not_or]; exact ⟨ht, by decide⟩), unescape_plain hb.2]
          simp
        · simp only [enterMailto]
          congr 1
          simp [Tag.str, written]
    | some x =>
      have hs := urlEncode_plain (hs x rfl).1
      cases body with
      | none =>
        refine ⟨"?subject=".toList ++ urlEncode x, ?_, ?_, ?_⟩
        · rw [List.mem_append, not_or]; exact ⟨by decide, hs.1⟩
        · intro t ht
          rw [← List.append_assoc, unescape_append (by rw [List.mem_append, not_or]; exact ⟨ht, by decide⟩), unescape_plain hs.2]
          simp
        · simp only [enterMailto]
          congr 1
          simp [Tag.str, written]
      | some b =>
        have hb := urlEncode_plain (hb b rfl).1
        refine ⟨"?subject=".toList ++ urlEncode x ++ "&amp;body=".toList ++ urlEncode b, ?_, ?_, ?_⟩
        · simp only [List.mem_append, not_or]; exact ⟨⟨⟨by decide, hs.1⟩, by decide⟩, hb.1⟩
        · intro t ht
          have e : t ++ ("?subject=".toList ++ urlEncode x ++ "&amp;body=".toList ++ urlEncode b) =
              (t ++ "?subject=".toList ++ urlEncode x) ++ ('&' :: 'a' :: 'm' :: 'p' :: ';' :: ("body=".toList ++ urlEncode b)) := by
            simp
          rw [e, unescape_append (by simp only [List.mem_append, not_or]; exact ⟨⟨ht, by decide⟩, hs.2⟩), unescape,
            unescape_append (by decide), unescape_plain hb.2]
          simp
        · simp only [enterMailto]
          congr 1
          simp [Tag.str, written]
  rw [hq3]
  generalize attrs.getD {} = a at hid hroles ⊢
  refine says_of (l := idOf a ++ [("href".toList, "mailto:".toList ++ address ++ q)] ++ clsOf ([] ++ a.roles)) ?_
    ⟨'a', [], rfl, by decide⟩ (by decide) ?_ ?_
  · have := finishClasses_many [] ((Tag.new true "a".toList a).str
      (written ("href".toList, "mailto:".toList ++ address ++ q))) rfl a.roles (new_append true "a".toList a)
    simp only [List.foldl_nil] at this
    rw [Tag.finish, this]
    simp only [Tag.new, Tag.str]
    have hn := new_buf "a".toList a
    simp only [Tag.new] at hn
    simp only [hn, List.flatMap_append, List.flatMap_cons, List.flatMap_nil, List.append_nil, List.append_assoc]
  · intro p hp
    simp only [List.mem_append, List.mem_singleton] at hp
    rcases hp with (hp | hp) | hp
    · obtain ⟨i, hi, rfl⟩ := List.mem_map.1 hp
      exact ⟨(names "id" (by simp)).1, (names "id" (by simp)).2, escape_quote i⟩
    · subst hp
      refine ⟨(names "href" (by simp)).1, (names "href" (by simp)).2, ?_⟩
      simp only [List.mem_append, not_or]
      exact ⟨⟨by decide, ha.1⟩, hq1⟩
    · exact cls_ok hroles hp
  · simp only [List.map_append]
    refine congr (congrArg HAppend.hAppend (congr (congrArg HAppend.hAppend ?_) ?_)) ?_
    · cases hi : a.id with
      | none => simp [idOf, hi, opt]
      | some i => simp [idOf, hi, opt, seen_eq (hid i hi)]
    · simp only [List.map_cons, List.map_nil, String.ofList_toList]
      rw [hq2 _ (by rw [List.mem_append, not_or]; exact ⟨by decide, ha.2⟩)]
      rfl
    · exact cls_seen hroles

/-- the alternative text of an image: as given, or made from the name of the file -/
def altOf (target : Str) (a : Attrs) : Str :=
  match a.named "alt" <|> a.pos 0 with
  | some alt => alt
  | none => (stem target).map fun c => if c = '-' ∨ c = '_' then ' ' else c

/-- **C70** (alternative texts): an image without an alternative text gets the name of its file, without the directories and from
the first full stop on, with spaces for hyphens and underscores. -/
theorem C70_alt_from_file {dir name ext : Str} {a : Attrs} (ha : a.named "alt" = none ∧ a.pos 0 = none)
    (hdir : dir = [] ∨ dir.getLast? = some '/') (hname : ∀ c ∈ name, c ≠ '/' ∧ c ≠ '\\' ∧ c ≠ '.')
    (hext : ext = [] ∨ ext.head? = some '.' ∧ ∀ c ∈ ext, c ≠ '/' ∧ c ≠ '\\') :
    altOf (dir ++ name ++ ext) a = name.map fun c => if c = '-' then ' ' else if c = '_' then ' ' else c := by
  have hb : basename (dir ++ name ++ ext) = name ++ ext := by
    unfold basename
    have h1 : ∀ c ∈ (name ++ ext).reverse, (c ≠ '/' && c ≠ '\\' : Bool) = true := by
      intro c hc
      rw [List.mem_reverse, List.mem_append] at hc
      rcases hc with hc | hc
      · have := hname c hc; simp [this.1, this.2.1]
      · rcases hext with h | h
        · rw [h] at hc; cases hc
        · have := h.2 c hc; simp [this.1, this.2]
    rw [List.append_assoc, List.reverse_append, List.takeWhile_append_of_pos h1]
    rcases hdir with rfl | hdir
    · simp
    · obtain ⟨ys, rfl⟩ := List.getLast?_eq_some_iff.1 hdir
      simp
  have hs : stem (dir ++ name ++ ext) = name := by
    rw [stem, hb, List.takeWhile_append_of_pos fun c hc => by simp [(hname c hc).2.2]]
    rcases hext with rfl | ⟨h, -⟩
    · simp
    · cases ext with
      | nil => cases h
      | cons c cs => cases h; simp
  have hn : (a.named "alt" <|> a.pos 0) = none := by rw [ha.1, ha.2]; rfl
  simp only [altOf, hn, hs]
  refine List.map_congr_left fun c _ => ?_
  by_cases h1 : c = '-' <;> by_cases h2 : c = '_' <;> simp [h1, h2]

/-- the tag of an image with any source -/
theorem img_says {src alt : Str} {a : Attrs} {isBlock : Bool} (hpl : Plain src) (halt : Fits alt)
    (hw : ∀ v, (a.named "width" <|> a.pos 1) = some v → Fits v)
    (hh : ∀ v, (a.named "height" <|> a.pos 2) = some v → Fits v) (ht : ∀ v, a.named "title" = some v → Fits v) :
    Says ("<img src=\"".toList ++ src ++ "\" alt=\"".toList ++ escape true alt ++ ['"'] ++ namedOrPos "width" 1 a ++ namedOrPos "height" 2 a ++
        (if isBlock then [] else match a.named "title" with | some v => Escape.attr "title".toList v | none => []) ++ ['>'])
      "img" (imageSays src alt a isBlock) := by
  have named : ∀ n i, namedOrPos n i a = ((a.named n <|> a.pos i).toList.map fun v => (n.toList, escape true v)).flatMap written := by
    intro n i
    unfold namedOrPos
    cases (a.named n <|> a.pos i) with
    | none => rfl
    | some v => simp [attr_written]
  have title : (if isBlock then [] else match a.named "title" with | some v => Escape.attr "title".toList v | none => []) =
      ((if isBlock then [] else (a.named "title").toList).map fun v => ("title".toList, escape true v)).flatMap written := by
    cases isBlock with
    | true => rfl
    | false =>
      cases a.named "title" with
      | none => rfl
      | some v => simp [attr_written]
  refine says_of (l := [("src".toList, src), ("alt".toList, escape true (alt))] ++
    (a.named "width" <|> a.pos 1).toList.map (fun v => ("width".toList, escape true v)) ++
    (a.named "height" <|> a.pos 2).toList.map (fun v => ("height".toList, escape true v)) ++
    (if isBlock then [] else (a.named "title").toList).map (fun v => ("title".toList, escape true v))) ?_
    ⟨'i', ['m', 'g'], rfl, by decide⟩ (by decide) ?_ ?_
  · have e : "<img src=\"".toList = '<' :: "img".toList ++ ' ' :: "src".toList ++ "=\"".toList := by decide
    have e2 : "\" alt=\"".toList = ['"'] ++ (' ' :: "alt".toList ++ "=\"".toList) := by decide
    clear halt hw hh ht
    rw [named, named, title, e, e2]
    generalize "img".toList = l1
    generalize "src".toList = l2
    generalize "alt".toList = l3
    simp only [written, List.flatMap_append, List.flatMap_cons, List.flatMap_nil, List.append_nil, List.nil_append, List.append_assoc, List.cons_append]
  · intro p hpm
    simp only [List.mem_append, List.mem_cons, List.not_mem_nil, or_false] at hpm
    rcases hpm with (((hp | hp) | hp) | hp) | hp
    · subst hp; exact ⟨(names "src" (by simp)).1, (names "src" (by simp)).2, hpl.1⟩
    · subst hp; exact ⟨(names "alt" (by simp)).1, (names "alt" (by simp)).2, escape_quote _⟩
    · obtain ⟨v, _, rfl⟩ := List.mem_map.1 hp
      exact ⟨(names "width" (by simp)).1, (names "width" (by simp)).2, escape_quote _⟩
    · obtain ⟨v, _, rfl⟩ := List.mem_map.1 hp
      exact ⟨(names "height" (by simp)).1, (names "height" (by simp)).2, escape_quote _⟩
    · obtain ⟨v, _, rfl⟩ := List.mem_map.1 hp
      exact ⟨(names "title" (by simp)).1, (names "title" (by simp)).2, escape_quote _⟩
  · simp only [List.map_append, imageSays]
    refine congr (congrArg HAppend.hAppend (congr (congrArg HAppend.hAppend (congr (congrArg HAppend.hAppend ?_) ?_)) ?_)) ?_
    · simp only [List.map_cons, List.map_nil, String.ofList_toList, unescape_plain hpl.2, seen_eq halt]
    · cases hs : (a.named "width" <|> a.pos 1) with
      | none => rfl
      | some s => simp [opt, seen_eq (hw s hs)]
    · cases hs : (a.named "height" <|> a.pos 2) with
      | none => rfl
      | some s => simp [opt, seen_eq (hh s hs)]
    · cases isBlock with
      | true => rfl
      | false =>
        cases hs : a.named "title" with
        | none => rfl
        | some s => simp [opt, seen_eq (ht s hs)]

/-- **C70** (images), partial: the tag of an image is read as one with the path, the alternative text, the size and the title
that the document gives it.

Missing: quotes, ampersands and percent signs in the path, which are written as they are (`C70_image_violated`). -/
theorem C70_images_partial {target path : Str} {a : Attrs} {isBlock : Bool} (hd : "data:".toList.isPrefixOf target = false)
    (hp : Plain path ∧ '%' ∉ path) (halt : Fits (altOf target a)) (hw : ∀ v, (a.named "width" <|> a.pos 1) = some v → Fits v)
    (hh : ∀ v, (a.named "height" <|> a.pos 2) = some v → Fits v) (ht : ∀ v, a.named "title" = some v → Fits v) :
    ∃ src, percentDecode src = path ∧ (∀ c ∈ src, c ≠ ' ' ∧ c ≠ ',') ∧
      Says (innerImage target path a isBlock) "img" (imageSays src (altOf target a) a isBlock) := by
  have henc := C50_url_encoding path hp.2
  have hpl := urlEncode_plain hp.1
  refine ⟨urlEncode path, henc.2, henc.1, ?_⟩
  have := img_says (isBlock := isBlock) hpl halt hw hh ht
  rw [show innerImage target path a isBlock = "<img src=\"".toList ++
        (if "data:".toList.isPrefixOf target then target else urlEncode path) ++ "\" alt=\"".toList ++
        escape true (altOf target a) ++ ['"'] ++ namedOrPos "width" 1 a ++ namedOrPos "height" 2 a ++
        (if isBlock then [] else match a.named "title" with | some v => Escape.attr "title".toList v | none => []) ++ ['>'] from by
      unfold innerImage altOf; rfl, hd, if_neg Bool.false_ne_true]
  exact this

/-! ### violations -/

/-- what a browser reads -/
def readTag (s : Str) : List (String × String) :=
  (Reader.read {} s).attrs.map fun p => (String.ofList p.1, String.ofList p.2)

/-- **C70**, violated: a quote in a role ends the class attribute. -/
theorem C70_role_violated :
    readTag ((Tag.new true "div".toList { roles := ["x\" onclick=\"f()".toList] }).finish) = [("class", "x"), ("onclick", "f()")] := by
  decide +kernel

/-- **C70**, violated: a quote in the target of a link ends the target. -/
theorem C70_target_violated :
    readTag (enterLink "http://a\" onclick=\"f()".toList none false true false) = [("href", "http://a"), ("onclick", "f()")] := by
  decide +kernel

/-- **C70**, violated: `nofollow` becomes a part of the name of the window, and is lost where a new window is asked for with `^`. -/
theorem C70_nofollow_violated :
    readTag (enterLink "a".toList (some { named := fun n => if n = "window" then some "w".toList else none, options := ["nofollow"] })
      false true false) = [("href", "a"), ("target", "w nofollow")] ∧
    readTag (enterLink "a".toList (some { options := ["nofollow"] }) false true true) =
      [("href", "a"), ("target", "_blank"), ("rel", "noopener")] := by
  decide +kernel

/-- **C70**, violated: an ampersand in the subject of a mail starts another field. -/
theorem C70_subject_violated :
    readTag (enterMailto "a@b.c".toList (some "Q&bcc=d@e.f".toList) none none) = [("href", "mailto:a@b.c?subject=Q&bcc=d@e.f")] ∧
    readTag (enterMailto "a@b.c".toList (some "Q\"onclick=\"f()".toList) none none) =
      [("href", "mailto:a@b.c?subject=Q"), ("onclick", "f()")] := by
  decide +kernel

/-- **C70**, violated: a quote in the path of an image ends the path. -/
theorem C70_image_violated :
    readTag (innerImage "a\"onerror=\"f()".toList "a\"onerror=\"f()".toList {} true) =
      [("src", "a"), ("onerror", "f()"), ("alt", "a&quot;onerror=&quot;f()")] := by
  decide +kernel

/-! ### the hypotheses are met -/

/-- a link with everything -/
def someLink : Attrs where
  id := some "i\"d".toList
  roles := ["x".toList, "y".toList]
  named := fun n => if n = "title" then some "T < \"U\"".toList else if n = "window" then some "_blank".toList else none
  options := ["nofollow"]

example : OkLink "http://a?b&c".toList (some someLink) false false false where
  target := ⟨by decide, C50_ascii_fits _ (by decide +kernel)⟩
  id := by intro a h i hi; cases h; cases hi; exact C50_ascii_fits _ (by decide +kernel)
  title := by
    intro a h i hi; cases h
    have : i = "T < \"U\"".toList := (Option.some.inj hi).symm
    rw [this]
    exact C50_ascii_fits _ (by decide +kernel)
  roles := by
    intro a h r hr; cases h
    have hr : r ∈ ["x".toList, "y".toList] := hr
    rw [List.mem_cons, List.mem_singleton] at hr
    rcases hr with rfl | rfl <;> exact ⟨by decide, by decide⟩
  window := by intro a h w hw; cases h; cases hw; exact ⟨by decide, by decide⟩
  asks := nofun
  mail := nofun
  nofollow := by intro a h _; cases h; exact ⟨rfl, fun w hw => by cases hw; exact .inl rfl⟩

example : readTag (enterLink "http://a?b&c".toList (some someLink) false false false) =
    [("id", "i&quot;d"), ("href", "http://a?b&amp;c"), ("class", "bare x y"), ("title", "T &lt; &quot;U&quot;"), ("target", "_blank"),
      ("rel", "noopener nofollow")] := by decide +kernel

example : Plain "a@b.c".toList ∧ Plain "Hello, you".toList ∧ '%' ∉ "Hello, you".toList := by
  refine ⟨⟨?_, ?_⟩, ⟨?_, ?_⟩, ?_⟩ <;> decide

example : "data:".toList.isPrefixOf "img/my-pic.png".toList = false ∧ Plain "img/my-pic.png".toList ∧
    altOf "img/my-pic.png".toList {} = "my pic".toList := by
  refine ⟨?_, ⟨?_, ?_⟩, ?_⟩ <;> decide

example : altOf "a.b/img/my-pic_2.tar.gz".toList {} = "my pic 2".toList :=
  C70_alt_from_file (dir := "a.b/img/".toList) (name := "my-pic_2".toList) (ext := ".tar.gz".toList) ⟨rfl, rfl⟩ (by decide) (by decide)
    (by decide)

end Verif.Props
