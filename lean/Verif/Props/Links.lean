import Verif.Model.Links
import Verif.Spec.Links
import Verif.Props.OpenTag
/-!
# What links without a text show

**C107**: a link without a text shows the address that it leads to, without its scheme if the document hides schemes; a link with a text shows the text. Both lead to the whole address.
-/
namespace Verif.Props
open Verif.Links Verif.Spec.Links Verif.Spec.Details Verif.OpenTag Verif.StartTag Verif.Spec.Escape Verif.Escape

private theorem split_some {s a r : Str} (h : splitScheme s = some (a, r)) : s = a ++ "://".toList ++ r := by
  fun_induction splitScheme s generalizing a r with
  | case1 => cases h
  | case2 r' => cases h; rfl
  | case3 c r' _ ih =>
    cases hs : splitScheme r' with
    | none => rw [hs] at h; cases h
    | some p =>
      rw [hs] at h
      cases h
      rw [ih (a := p.1) (r := p.2) hs]
      rfl

private theorem split_of {a r : Str} (h : ':' ∉ a) : splitScheme (a ++ ':' :: '/' :: '/' :: r) = some (a, r) := by
  induction a with
  | nil => rfl
  | cons c cs ih =>
    rw [List.mem_cons, not_or] at h
    rw [List.cons_append, splitScheme, ih h.2]
    · rfl
    · intro _ hc
      exact absurd hc.symm h.1

private theorem split_has {t rest : Str} (h : Has t rest) : ∃ sc ∈ schemes, splitScheme t = some (sc.toList, rest) := by
  obtain ⟨_, sc, hsc, rfl⟩ := h
  refine ⟨sc, hsc, ?_⟩
  have hc : ∀ s ∈ schemes, ':' ∉ s.toList := by decide
  rw [List.append_assoc]
  exact split_of (hc sc hsc)

/-- what is shown is one thing -/
theorem C107_one {hide : Bool} {target a b : Str} (ha : Shown hide target a) (hb : Shown hide target b) : a = b := by
  rcases ha with ⟨h, ha⟩ | ⟨rfl, ha⟩ <;> rcases hb with ⟨h', hb⟩ | ⟨rfl, hb⟩
  · obtain ⟨_, _, h1⟩ := split_has ha
    obtain ⟨_, _, h2⟩ := split_has hb
    rw [h1] at h2
    exact (Prod.mk.inj (Option.some.inj h2)).2
  · exact absurd ⟨h, _, ha⟩ hb
  · exact absurd ⟨h', _, hb⟩ ha
  · rfl

private theorem removed (t : Str) : Shown true t (removeScheme t) := by
  unfold removeScheme
  have no : (∀ sc ∈ schemes, ∀ r, r ≠ [] → splitScheme t ≠ some (sc.toList, r)) → Shown true t t := fun h =>
    .inr ⟨rfl, fun ⟨_, r, hr⟩ => by
      obtain ⟨sc, hsc, e⟩ := split_has hr
      exact h sc hsc r hr.1 e⟩
  have hl : schemes.map String.toList = ["http".toList, "https".toList, "ftp".toList, "mailto".toList, "irc".toList, "file".toList] := rfl
  cases hs : splitScheme t with
  | none => exact no (by rw [hs]; nofun)
  | some p =>
    obtain ⟨a, r⟩ := p
    simp only
    split
    · rename_i h0
      refine no fun _ _ r' hr' e => ?_
      rw [hs] at e
      cases e
      exact hr' h0
    · rename_i h0
      rw [← hl]
      split
      · rename_i hm
        obtain ⟨sc, hsc, rfl⟩ := List.mem_map.1 hm
        exact .inl ⟨rfl, h0, sc, hsc, split_some hs⟩
      · rename_i hm
        refine no fun sc hsc r' _ e => ?_
        rw [hs] at e
        cases e
        exact hm (List.mem_map.2 ⟨sc, hsc, rfl⟩)

private theorem shown_as (hide : Bool) (t : Str) : Shown hide t (if hide then removeScheme t else t) := by
  cases hide with
  | true => exact removed t
  | false => exact .inr ⟨rfl, fun h => nomatch h.1⟩

private theorem shown_fits {hide : Bool} {t s : Str} (h : Shown hide t s) (hf : Fits t) : Fits s := by
  rcases h with ⟨_, _, sc, _, rfl⟩ | ⟨rfl, _⟩
  · exact fun r hr => hf r (hr.trans ⟨_, rfl⟩)
  · exact hf

private theorem back {s : Str} (h : Fits s) : unescape (escape false s) = s := by
  rw [C50_roundtrip_partial false s h]
  have : curl false = id := by funext c; simp [curl]
  rw [this, List.map_id]

private theorem text_end {s : Str} (h : Fits s) : Shows (escape false s ++ "</a>".toList) (said s ++ [.stop "a"]) := by
  have he : Shows "</a>".toList [.stop "a"] := Shows.stop "a" .nil
  unfold said
  split
  · rename_i h0
    subst h0
    exact he
  · rename_i h0
    have hne : escape false s ≠ [] := by
      intro e
      have := back h
      rw [e] at this
      exact h0 this.symm
    have := Shows.text hne (fun hm => (C50_no_raw false s _ hm).1 rfl) (by simp [textFirst]) he
    rw [back h] at this
    exact this

/-- **C107** (links without a text), partial: a browser reads a link to the target, with the target as its text, but for the scheme if schemes are
hidden.

Missing: what `OkLink` leaves out (`C70_links_partial`). -/
theorem C107_without_text_partial {target : Str} {attrs : Option Attrs} {mailto blank hide : Bool} {shown : Str}
    (h : OkLink target attrs mailto false blank) (hs : Shown hide target shown) :
    Shows (link target attrs mailto blank hide none)
      (element "a" (linkSays target (attrs.getD {}) mailto false blank) shown) := by
  have e : shown = if hide then removeScheme target else target := C107_one hs (shown_as hide target)
  have hl : link target attrs mailto blank hide none =
      enterLink target attrs mailto false blank ++ (escape false shown ++ "</a>".toList) := by
    rw [e]
    cases hide <;> simp [link, exitLink]
  rw [hl]
  exact .start (C70_links_partial h) (text_end (shown_fits hs h.target.2))

/-- there is always something to show, and nothing only for a link to nowhere -/
theorem C107_always (hide : Bool) (target : Str) : ∃ shown, Shown hide target shown ∧ (shown = [] → target = []) := by
  refine ⟨_, shown_as hide target, fun h => ?_⟩
  rcases shown_as hide target with ⟨_, h1, _⟩ | ⟨h1, _⟩
  · exact absurd h h1
  · rw [← h1]; exact h

/-- **C107** (links with a text), partial: the link shows its text and nothing else, whatever the text is, and leads to the target.

Missing: what `OkLink` leaves out. -/
theorem C107_with_text_partial {target : Str} {attrs : Option Attrs} {mailto blank hide : Bool} {text : Str} {ps : List Piece}
    (h : OkLink target attrs mailto true blank) (ht : Shows (text ++ "</a>".toList) (ps ++ [.stop "a"])) :
    Shows (link target attrs mailto blank hide (some text))
      (.start "a" (linkSays target (attrs.getD {}) mailto true blank) :: (ps ++ [.stop "a"])) := by
  have hl : link target attrs mailto blank hide (some text) = enterLink target attrs mailto true blank ++ (text ++ "</a>".toList) := by
    simp [link, exitLink]
  rw [hl]
  exact .start (C70_links_partial h) ht

/-- **C107** (mail links), partial: one without a text shows the address.

Missing: characters in addresses that mean something in HTML (`C107_mail_violated`), and what `C70_mail_links_partial` leaves out. -/
theorem C107_mail_partial {address : Str} {subject body : Option Str} {attrs : Option Attrs} (ha : Clean address)
    (hs : ∀ v, subject = some v → Plain v ∧ '%' ∉ v) (hb : ∀ v, body = some v → Plain v ∧ '%' ∉ v)
    (hid : ∀ i, (attrs.getD {}).id = some i → Fits i) (hroles : ∀ r ∈ (attrs.getD {}).roles, Plain r) :
    ∃ s b, Encodes s subject ∧ Encodes b body ∧
      Shows (mailLink address subject body attrs)
        (element "a" (opt "id" ((attrs.getD {}).id.map seen) ++ [("href", mailHref address s b)] ++ classes (attrs.getD {}).roles) address) := by
  obtain ⟨s, b, h1, h2, h3⟩ := C70_mail_links_partial (address := address) ⟨ha.2.2, ha.2.1⟩ hs hb hid hroles
  refine ⟨s, b, h1, h2, ?_⟩
  unfold mailLink
  rw [List.append_assoc]
  refine .start h3 ?_
  have he : Shows "</a>".toList [.stop "a"] := Shows.stop "a" .nil
  unfold said
  split
  · rename_i h0; rw [h0]; exact he
  · rename_i h0
    have := Shows.text h0 ha.1 (by simp [textFirst]) he
    rw [StartTag.unescape_plain ha.2.1] at this
    exact this

/-- **C107 violated**: the address of a mail link is written as it is, where one of any other link is escaped. -/
theorem C107_mail_violated :
    mailLink "a<b>".toList none none none = "<a href=\"mailto:a<b>\">a<b></a>".toList ∧
    link "a<b>".toList none false false false none = "<a href=\"a&lt;b&gt;\" class=\"bare\">a&lt;b&gt;</a>".toList := by decide +kernel

/-! ### the hypotheses are met -/

example : Shown true "https://a.b/c://d".toList "a.b/c://d".toList := .inl ⟨rfl, by decide, "https", by decide, rfl⟩

example : Shown true "tel://1".toList "tel://1".toList := .inr ⟨rfl, fun ⟨_, r, h⟩ => by
  obtain ⟨sc, hsc, e⟩ := split_has h
  rw [show splitScheme "tel://1".toList = some ("tel".toList, "1".toList) from by decide] at e
  have hc : ∀ s ∈ schemes, s.toList ≠ "tel".toList := by decide
  exact hc sc hsc (Prod.mk.inj (Option.some.inj e)).1.symm⟩

example : link "https://a.b?c&d".toList none false false true none =
    "<a href=\"https://a.b?c&amp;d\" class=\"bare\">a.b?c&amp;d</a>".toList := by decide +kernel

example : OkLink "https://a.b?c&d".toList none false false false where
  target := ⟨by decide, C50_ascii_fits _ (by decide +kernel)⟩
  id := nofun
  title := nofun
  roles := nofun
  window := nofun
  asks := fun _ => rfl
  mail := nofun
  nofollow := nofun

example : Clean "me@a.b".toList := ⟨by decide, by decide, by decide⟩

example : Shows ("here".toList ++ "</a>".toList) ([.text "here".toList] ++ [.stop "a"]) := by
  have := Shows.text (s := "here".toList) (by decide) (by decide) (ps := [.stop "a"]) (by simp [textFirst]) (Shows.stop "a" .nil)
  rw [show unescape "here".toList = "here".toList from by decide +kernel] at this
  exact this

end Verif.Props
