import Verif.Model.Details
import Verif.Spec.Details
import Verif.Props.OpenTag
import Verif.Props.Images
/-!
# The details in the header of a page

**C106**: they are the authors with their addresses, and the number, the date and the remark of the revision, as the document says; no id is there twice.
-/
namespace Verif.Props
open Verif.Details Verif.Spec.Details Verif.OpenTag Verif.StartTag Verif.Spec.Escape Verif.Images

/-- a name of an element or an attribute -/
private def okName (n : String) : Bool := !n.toList.isEmpty && n.toList.all nameChar

private theorem tag_says {s : Str} {name : String} {l : List (String × Str)} {as : List (String × Str)} (hn : okName name = true)
    (ha : name.toList.head?.any Char.isAlpha = true)
    (hs : s = '<' :: name.toList ++ l.flatMap (fun p => written (p.1.toList, p.2)) ++ ['>']) (h : ∀ p ∈ l, okName p.1 = true)
    (hq : ∀ p ∈ l, '"' ∉ p.2) (has : as = l.map fun p => (p.1, unescape p.2)) : Says s name as := by
  simp only [okName, Bool.and_eq_true, List.all_eq_true] at hn h
  refine says_of (l := l.map fun p => (p.1.toList, p.2)) ?_ ?_ hn.2 ?_ ?_
  · rw [hs, List.flatMap_map]
  · cases hc : name.toList with
    | nil => rw [hc] at ha; simp at ha
    | cons c cs => rw [hc] at ha; exact ⟨c, cs, rfl, by simpa using ha⟩
  · intro p hp
    obtain ⟨q, hq', rfl⟩ := List.mem_map.1 hp
    refine ⟨?_, (h q hq').2, hq q hq'⟩
    have := (h q hq').1
    intro e
    simp only at e
    rw [e] at this
    simp at this
  · rw [has, List.map_map]
    apply List.map_congr_left
    intro p _
    simp

/-- some text shows some pieces, whatever comes after it -/
private def Pre (x : Str) (p : List Piece) : Prop := ∀ r ps, Shows r ps → Shows (x ++ r) (p ++ ps)

private theorem pre_nil : Pre [] [] := fun _ _ h => h

private theorem pre_append {x y : Str} {p q : List Piece} (h1 : Pre x p) (h2 : Pre y q) : Pre (x ++ y) (p ++ q) := fun r ps h => by
  rw [List.append_assoc, List.append_assoc]
  exact h1 _ _ (h2 _ _ h)

private theorem pre_start {s : Str} {name : String} {as : List (String × Str)} (h : Says s name as) : Pre s [.start name as] :=
  fun _ _ hr => .start h hr

private theorem pre_stop {s : Str} {name : String} (h : s = '<' :: '/' :: name.toList ++ ['>']) : Pre s [.stop name] := fun r ps hr => by
  have e : s ++ r = '<' :: '/' :: name.toList ++ '>' :: r := by rw [h]; simp
  rw [e]
  exact .stop name hr

private theorem pre_element {s t e : Str} {name : String} {as : List (String × Str)} (h : Says s name as) (ht : '<' ∉ t) (ht' : '&' ∉ t)
    (he : e = '<' :: '/' :: name.toList ++ ['>']) : Pre (s ++ t ++ e) (element name as t) := fun r ps hr => by
  unfold element said
  rw [List.append_assoc, List.append_assoc]
  have h2 := pre_stop he r ps hr
  split
  · rename_i h0
    rw [h0]
    exact .start h h2
  · rename_i h0
    refine .start h ?_
    have := Shows.text h0 ht (by simp [textFirst]) h2
    rw [unescape_plain ht'] at this
    exact this

private theorem no_mem_digits {c : Char} (hc : c.isDigit = false) (n : Nat) : c ∉ Nat.toDigits 10 n := fun h => by
  have := Nat.isDigit_of_mem_toDigits (by omega) (by omega) h
  rw [hc] at this
  cases this

private theorem nth_eq (i : Nat) : idNumber i = nth i := by
  unfold idNumber nth
  by_cases h : i = 0
  · rw [if_neg (by omega), if_pos h]
  · rw [if_pos (by omega), if_neg h]

private theorem nth_clean (i : Nat) : '"' ∉ nth i ∧ '&' ∉ nth i := by
  unfold nth
  split
  · simp
  · exact ⟨no_mem_digits rfl _, no_mem_digits rfl _⟩

private theorem says_br : Says "<br>".toList "br" [] := tag_says (l := []) (by decide) (by decide) (by decide) nofun nofun rfl

private theorem says_id {w : Str} {s : Str} (name : String) (hn : okName name = true) (ha : name.toList.head?.any Char.isAlpha = true)
    (hw : '"' ∉ w) (hw' : '&' ∉ w) (hs : s = '<' :: name.toList ++ " id=\"".toList ++ w ++ "\">".toList) : Says s name [("id", w)] := by
  refine tag_says (l := [("id", w)]) hn ha ?_ (by simp only [List.mem_cons, List.not_mem_nil, or_false]; rintro _ rfl; exact (by decide : okName "id" = true))
    (by simp only [List.mem_cons, List.not_mem_nil, or_false]; rintro _ rfl; exact hw) (by simp [unescape_plain hw'])
  have e1 : " id=\"".toList = ' ' :: "id".toList ++ "=\"".toList := by decide
  have e3 : "\">".toList = ['"'] ++ ['>'] := by decide
  rw [hs, e1, e3]
  simp only [List.flatMap_cons, List.flatMap_nil, written]
  generalize name.toList = a
  generalize "id".toList = b
  generalize "=\"".toList = c
  simp

private theorem says_two {s : Str} (name a b : String) {v w : Str} (hn : okName name = true) (ha : name.toList.head?.any Char.isAlpha = true)
    (hna : okName a = true) (hnb : okName b = true) (hv : '"' ∉ v) (hv' : '&' ∉ v) (hw : '"' ∉ w) (hw' : '&' ∉ w)
    (hs : s = '<' :: name.toList ++ (' ' :: a.toList ++ "=\"".toList) ++ v ++ (['"'] ++ ' ' :: b.toList ++ "=\"".toList) ++ w ++ "\">".toList) :
    Says s name [(a, v), (b, w)] := by
  refine tag_says (l := [(a, v), (b, w)]) hn ha ?_ ?_ ?_ (by simp [unescape_plain hv', unescape_plain hw'])
  · have e3 : "\">".toList = ['"'] ++ ['>'] := by decide
    rw [hs, e3]
    simp only [List.flatMap_cons, List.flatMap_nil, written]
    generalize name.toList = a
    generalize "=\"".toList = c
    simp
  · simp only [List.mem_cons, List.not_mem_nil, or_false]; rintro _ (rfl | rfl) <;> assumption
  · simp only [List.mem_cons, List.not_mem_nil, or_false]; rintro _ (rfl | rfl) <;> assumption

private theorem mem_app {c : Char} {a b : Str} (h : c ∉ a) (h' : c ∉ b) : c ∉ a ++ b := fun hm => (List.mem_append.1 hm).elim h h'

private theorem pre_mail {e : String} (he : Clean e.toList) :
    Pre ("<a href=\"mailto:".toList ++ e.toList ++ "\">".toList ++ e.toList ++ "</a>".toList)
      (element "a" [("href", "mailto:".toList ++ e.toList)] e.toList) := by
  refine pre_element ?_ he.1 he.2.1 (by decide)
  have hq : '"' ∉ "mailto:".toList ++ e.toList := mem_app (by decide) he.2.2
  have ha : '&' ∉ "mailto:".toList ++ e.toList := mem_app (by decide) he.2.1
  refine tag_says (l := [("href", "mailto:".toList ++ e.toList)]) (by decide) (by decide) ?_
    (by simp only [List.mem_cons, List.not_mem_nil, or_false]; rintro _ rfl; exact (by decide : okName "href" = true))
    (by simp only [List.mem_cons, List.not_mem_nil, or_false]; rintro _ rfl; exact hq) (by simp only [List.map_cons, List.map_nil, unescape_plain ha])
  have e1 : "<a href=\"mailto:".toList = '<' :: "a".toList ++ (' ' :: "href".toList ++ "=\"".toList) ++ "mailto:".toList := by decide
  have e3 : "\">".toList = ['"'] ++ ['>'] := by decide
  rw [e1, e3]
  simp only [List.flatMap_cons, List.flatMap_nil, written]
  generalize "a".toList = a
  generalize "href".toList = b
  generalize "=\"".toList = c
  generalize "mailto:".toList = d
  simp

private theorem pre_author (i : Nat) {a : Author} (hn : Clean a.fullname.toList) (he : ∀ e, a.email = some e → Clean e.toList) :
    Pre (authorDetail i a) (author i a) := by
  unfold authorDetail author
  rw [nth_eq]
  refine pre_append (pre_append (pre_element ?_ hn.1 hn.2.1 (by decide)) (pre_start says_br)) ?_
  · refine says_two "span" "id" "class" (by decide) (by decide) (by decide) (by decide) (mem_app (by decide) (nth_clean i).1)
      (mem_app (by decide) (nth_clean i).2) (by decide) (by decide) ?_
    have e1 : "<span id=\"author".toList = '<' :: "span".toList ++ (' ' :: "id".toList ++ "=\"".toList) ++ "author".toList := by decide
    have e2 : "\" class=\"author\">".toList = (['"'] ++ ' ' :: "class".toList ++ "=\"".toList) ++ "author".toList ++ "\">".toList := by decide
    rw [e1, e2]
    generalize "author".toList = x
    generalize '<' :: "span".toList ++ (' ' :: "id".toList ++ "=\"".toList) = y
    generalize ['"'] ++ ' ' :: "class".toList ++ "=\"".toList = z
    generalize "\">".toList = w
    simp only [List.append_assoc]
  · cases hem : a.email with
    | none => exact pre_nil
    | some e =>
      have hm := pre_mail (he e hem)
      have hs : Says ("<span id=\"email".toList ++ nth i ++ "\" class=\"email\">".toList) "span" [("id", "email".toList ++ nth i), ("class", "email".toList)] := by
        refine says_two "span" "id" "class" (by decide) (by decide) (by decide) (by decide) (mem_app (by decide) (nth_clean i).1)
          (mem_app (by decide) (nth_clean i).2) (by decide) (by decide) ?_
        have e1 : "<span id=\"email".toList = '<' :: "span".toList ++ (' ' :: "id".toList ++ "=\"".toList) ++ "email".toList := by decide
        have e2 : "\" class=\"email\">".toList = (['"'] ++ ' ' :: "class".toList ++ "=\"".toList) ++ "email".toList ++ "\">".toList := by decide
        rw [e1, e2]
        generalize "email".toList = x
        generalize '<' :: "span".toList ++ (' ' :: "id".toList ++ "=\"".toList) = y
        generalize ['"'] ++ ' ' :: "class".toList ++ "=\"".toList = z
        generalize "\">".toList = w
        simp only [List.append_assoc]
      have := pre_append (pre_start hs) (pre_append hm (pre_append (pre_stop (s := "</span>".toList) (name := "span") (by decide)) (pre_start says_br)))
      simp only [List.append_assoc] at this ⊢
      exact this

private theorem pre_author5 (i : Nat) {a : Author} (hn : Clean a.fullname.toList) (he : ∀ e, a.email = some e → Clean e.toList) :
    Pre (authorDetail5 i a) (author5 i a) := by
  unfold authorDetail5 author5
  rw [nth_eq]
  refine pre_append (pre_append (pre_element ?_ hn.1 hn.2.1 (by decide)) (pre_start says_br)) ?_
  · refine says_two "span" "class" "id" (by decide) (by decide) (by decide) (by decide) (by decide) (by decide)
      (mem_app (by decide) (nth_clean i).1) (mem_app (by decide) (nth_clean i).2) ?_
    have e1 : "<span class=\"author\" id=\"author".toList = '<' :: "span".toList ++ (' ' :: "class".toList ++ "=\"".toList) ++ "author".toList ++
          (['"'] ++ ' ' :: "id".toList ++ "=\"".toList) ++ "author".toList := by decide
    rw [e1]
    generalize "author".toList = x
    generalize '<' :: "span".toList ++ (' ' :: "class".toList ++ "=\"".toList) = y
    generalize ['"'] ++ ' ' :: "id".toList ++ "=\"".toList = z
    generalize "\">".toList = w
    simp only [List.append_assoc]
  · cases hem : a.email with
    | none => exact pre_nil
    | some e =>
      have hm := pre_mail (he e hem)
      have hs : Says ("<span class=\"email\" id=\"email".toList ++ nth i ++ "\">".toList) "span" [("class", "email".toList), ("id", "email".toList ++ nth i)] := by
        refine says_two "span" "class" "id" (by decide) (by decide) (by decide) (by decide) (by decide) (by decide)
          (mem_app (by decide) (nth_clean i).1) (mem_app (by decide) (nth_clean i).2) ?_
        have e1 : "<span class=\"email\" id=\"email".toList = '<' :: "span".toList ++ (' ' :: "class".toList ++ "=\"".toList) ++ "email".toList ++
          (['"'] ++ ' ' :: "id".toList ++ "=\"".toList) ++ "email".toList := by decide
        rw [e1]
        generalize "email".toList = x
        generalize '<' :: "span".toList ++ (' ' :: "class".toList ++ "=\"".toList) = y
        generalize ['"'] ++ ' ' :: "id".toList ++ "=\"".toList = z
        generalize "\">".toList = w
        simp only [List.append_assoc]
      have hb : Pre (if i = 0 then "<br>".toList else []) (if i = 0 then [.start "br" []] else []) := by
        split
        · exact pre_start says_br
        · exact pre_nil
      have := pre_append (pre_start hs) (pre_append hm (pre_append (pre_stop (s := "</span>".toList) (name := "span") (by decide)) hb))
      simp only [List.append_assoc] at this ⊢
      exact this

private theorem pre_authors {f : Nat → Author → Str} {g : Nat → Author → List Piece} : ∀ (as : List Author) (i : Nat),
    (∀ i, ∀ a ∈ as, Pre (f i a) (g i a)) → Pre (authorDetails f i as) (authors g i as)
  | [], _, _ => pre_nil
  | a :: as, i, h => pre_append (h i a List.mem_cons_self) (pre_authors as (i + 1) fun i x hx => h i x (List.mem_cons_of_mem _ hx))

private theorem says_details : Says "<div class=\"details\">".toList "div" [("class", "details".toList)] :=
  tag_says (l := [("class", "details".toList)]) (by decide) (by decide) (by decide) (by decide) (by decide) (by decide)

private theorem pre_revision {lower : Str → Str} {m : DocumentMeta} (hl : Clean (lower ((str m "version-label").getD [])))
    (hn : ∀ v, str m "revnumber" = some v → Clean v) :
    Pre (revNumber lower m []) (revision (lower ((str m "version-label").getD [])) m []) := by
  unfold revNumber revision
  generalize lower ((str m "version-label").getD []) = l at *
  have hs : Says "<span id=\"revnumber\">".toList "span" [("id", "revnumber".toList)] :=
    says_id "span" (by decide) (by decide) (by decide) (by decide) (by decide)
  cases h : str m "revnumber" with
  | none => exact pre_nil
  | some n =>
    have hc := hn n h
    cases hd : m.get "revdate" with
    | none =>
      simp only [Option.isSome_none, Bool.false_eq_true, if_false, List.append_nil]
      exact pre_element hs (mem_app hl.1 (by simp [hc.1])) (mem_app hl.2.1 (by simp [hc.2.1])) (by decide)
    | some d =>
      simp only [Option.isSome_some, if_true, List.append_nil]
      exact pre_element hs (mem_app (mem_app hl.1 (by simp [hc.1])) (by decide)) (mem_app (mem_app hl.2.1 (by simp [hc.2.1])) (by decide)) (by decide)

private theorem pre_remark {m : DocumentMeta} (hn : ∀ v, str m "revremark" = some v → Clean v) : Pre (revRemark m) (remark m) := by
  unfold revRemark remark
  have hs : Says "<span id=\"revremark\">".toList "span" [("id", "revremark".toList)] :=
    says_id "span" (by decide) (by decide) (by decide) (by decide) (by decide)
  cases h : str m "revremark" with
  | none => exact pre_nil
  | some n =>
    have hc := hn n h
    have := pre_append (pre_start says_br) (pre_element (e := "</span>".toList) hs hc.1 hc.2.1 (by decide))
    simp only [List.append_assoc] at this ⊢
    exact this

/-- **C106**: the details in the header of a page are the authors of the document, counted, each with the link for mails if there is an address, and
the number, the date and the remark of its revision, each if it has one.

Missing: texts with characters that mean something in HTML (`C106_markup_violated`). -/
theorem C106_details_partial {lower : Str → Str} {m : DocumentMeta} (h : CleanDetails (lower ((str m "version-label").getD [])) m) :
    Shows (details lower m) (wanted (lower ((str m "version-label").getD [])) m) := by
  have ha := pre_authors (f := authorDetail) (g := author) m.authors 0 fun i a hm => pre_author i (h.names a hm) (h.emails a hm)
  have hr := pre_revision h.label (h.revision "revnumber" (by decide))
  have hd : Pre (revDate m) (match str m "revdate" with
      | some d => element "span" [("id", "revdate".toList)] d
      | none => []) := by
    unfold revDate
    cases hd : str m "revdate" with
    | none => exact pre_nil
    | some d =>
      have hc := h.revision "revdate" (by decide) d hd
      exact pre_element (says_id "span" (by decide) (by decide) (by decide) (by decide) (by decide)) hc.1 hc.2.1 (by decide)
  have := pre_append (pre_append (pre_append (pre_append (pre_append (pre_start says_details) ha) hr) hd)
    (pre_remark (h.revision "revremark" (by decide)))) (pre_stop (s := "</div>".toList) (name := "div") (by decide)) [] [] .nil
  simp only [List.append_nil] at this
  exact this

/-- **C106**: so they are in the header of a semantic page; the date is also there as programs read it, if the library understands it.

Missing: as above. -/
theorem C106_semantic_partial {lower : Str → Str} {iso : Str → Option Str} {m : DocumentMeta}
    (h : CleanDetails (lower ((str m "version-label").getD [])) m) (hiso : ∀ d i, iso d = some i → Clean i) :
    Shows (details5 lower iso m) (wanted5 (lower ((str m "version-label").getD [])) iso m) := by
  have ha := pre_authors (f := authorDetail5) (g := author5) m.authors 0 fun i a hm => pre_author5 i (h.names a hm) (h.emails a hm)
  have hd : Pre (revDate5 iso m) (match str m "revdate" with
      | some d => element "time" [("id", "revdate".toList), ("datetime", (iso d).getD d)] d
      | none => []) := by
    unfold revDate5
    cases hd : str m "revdate" with
    | none => exact pre_nil
    | some d =>
      have hc := h.revision "revdate" (by decide) d hd
      have hi : Clean ((iso d).getD d) := by
        cases he : iso d with
        | none => exact hc
        | some i => exact hiso d i he
      refine pre_element (says_two "time" "id" "datetime" (by decide) (by decide) (by decide) (by decide) (by decide) (by decide) hi.2.2 hi.2.1 ?_) hc.1 hc.2.1
        (by decide)
      have e : "<time id=\"revdate\" datetime=\"".toList = '<' :: "time".toList ++ (' ' :: "id".toList ++ "=\"".toList) ++ "revdate".toList ++
        (['"'] ++ ' ' :: "datetime".toList ++ "=\"".toList) := by decide
      rw [e]
  have hend := pre_append hd (pre_append (pre_remark (h.revision "revremark" (by decide))) (pre_stop (s := "</div>".toList) (name := "div") (by decide)))
    [] [] .nil
  simp only [List.append_nil] at hend
  have hr : Shows (revNumber lower m [' '] ++ (revDate5 iso m ++ (revRemark m ++ "</div>".toList)))
      (revision (lower ((str m "version-label").getD [])) m [.text [' ']] ++ ((match str m "revdate" with
        | some d => element "time" [("id", "revdate".toList), ("datetime", (iso d).getD d)] d
        | none => []) ++ (remark m ++ [.stop "div"]))) := by
    have hp := pre_revision h.label (h.revision "revnumber" (by decide))
    unfold revNumber revision at hp ⊢
    cases hn : str m "revnumber" with
    | none => exact hend
    | some n =>
      rw [hn] at hp
      cases hg : m.get "revdate" with
      | none => rw [hg] at hp; exact hp _ _ hend
      | some d =>
        rw [hg] at hp
        simp only [Option.isSome_some, if_true, List.append_nil] at hp ⊢
        rw [List.append_assoc, List.append_assoc _ [Piece.text [' ']]]
        refine hp _ _ (Shows.text (s := [' ']) (by decide) (by decide) ?_ hend)
        cases str m "revdate" with
        | none =>
          unfold remark
          cases str m "revremark" <;> simp [textFirst, element]
        | some d => simp [textFirst, element]
  have := (pre_append (pre_start says_details) ha) _ _ hr
  unfold details5 wanted5
  simp only [List.append_assoc] at this ⊢
  exact this

private theorem ids_append (a b : List Piece) : ids (a ++ b) = ids a ++ ids b := List.flatMap_append

private theorem ids_said (t : Str) : ids (said t) = [] := by unfold said; split <;> rfl

private theorem ids_element (name : String) (as : List (String × Str)) (t : Str) : ids (element name as t) = ids [.start name as] := by
  unfold element
  rw [show (Piece.start name as :: (said t ++ [.stop name])) = [.start name as] ++ (said t ++ [.stop name]) from rfl, ids_append, ids_append, ids_said]
  simp [ids]

private theorem ids_author (i : Nat) (a : Author) :
    ids (author i a) = ("author".toList ++ nth i) :: (if a.email.isSome then ["email".toList ++ nth i] else []) := by
  unfold author
  rw [ids_append, ids_append, ids_element]
  cases a.email with
  | none => simp [ids]
  | some e =>
    simp only [Option.isSome_some, if_true]
    rw [show ∀ l : List Piece, (Piece.start "span" [("id", "email".toList ++ nth i), ("class", "email".toList)] :: l) =
      [Piece.start "span" [("id", "email".toList ++ nth i), ("class", "email".toList)]] ++ l from fun _ => rfl, ids_append, ids_append, ids_element]
    simp [ids]

private theorem ids_author5 (i : Nat) (a : Author) :
    ids (author5 i a) = ("author".toList ++ nth i) :: (if a.email.isSome then ["email".toList ++ nth i] else []) := by
  unfold author5
  rw [ids_append, ids_append, ids_element]
  cases a.email with
  | none => simp [ids]
  | some e =>
    simp only [Option.isSome_some, if_true]
    rw [show ∀ l : List Piece, (Piece.start "span" [("class", "email".toList), ("id", "email".toList ++ nth i)] :: l) =
      [Piece.start "span" [("class", "email".toList), ("id", "email".toList ++ nth i)]] ++ l from fun _ => rfl, ids_append, ids_append, ids_element]
    split <;> simp [ids]

private theorem nth_inj {i j : Nat} (h : nth i = nth j) : i = j := by
  have hne : ∀ n, Nat.toDigits 10 n ≠ [] := fun n hn => by
    have := Nat.length_toDigits_pos (b := 10) (n := n)
    rw [hn] at this
    exact absurd this (by decide)
  unfold nth at h
  split at h <;> split at h
  · omega
  · exact absurd h.symm (hne _)
  · exact absurd h (hne _)
  · have := congrArg (fun l => Nat.ofDigitChars 10 l 0) h
    simp only [Nat.ofDigitChars_toDigits (b := 10) (by omega) (by omega)] at this
    omega

private theorem author_ne_email (a b : Str) : "author".toList ++ a ≠ "email".toList ++ b := fun h => by
  have e1 : "author".toList = 'a' :: "uthor".toList := by decide
  have e2 : "email".toList = 'e' :: "mail".toList := by decide
  rw [e1, e2, List.cons_append, List.cons_append] at h
  exact absurd (List.cons.inj h).1 (by decide)

/-- the ids of authors from some index on -/
private def AuthorId (i : Nat) (x : Str) : Prop := ∃ j, i ≤ j ∧ (x = "author".toList ++ nth j ∨ x = "email".toList ++ nth j)

private theorem ids_authors {g : Nat → Author → List Piece}
    (hg : ∀ i a, ids (g i a) = ("author".toList ++ nth i) :: (if a.email.isSome then ["email".toList ++ nth i] else [])) :
    ∀ (as : List Author) (i : Nat), (ids (authors g i as)).Nodup ∧ ∀ x ∈ ids (authors g i as), AuthorId i x
  | [], _ => ⟨by simp [authors, ids], by simp [authors, ids]⟩
  | a :: as, i => by
    obtain ⟨h1, h2⟩ := ids_authors hg as (i + 1)
    have hmem : ∀ x ∈ ids (g i a), x = "author".toList ++ nth i ∨ x = "email".toList ++ nth i := by
      intro x hx
      rw [hg] at hx
      rcases List.mem_cons.1 hx with rfl | hx
      · exact .inl rfl
      · split at hx
        · exact .inr (by simpa using hx)
        · cases hx
    have hnd : (ids (g i a)).Nodup := by
      rw [hg]
      refine List.nodup_cons.2 ⟨?_, ?_⟩
      · split
        · simp only [List.mem_cons, List.not_mem_nil, or_false]
          exact author_ne_email _ _
        · simp
      · split <;> simp
    unfold authors
    rw [ids_append]
    refine ⟨List.nodup_append.2 ⟨hnd, h1, ?_⟩, ?_⟩
    · intro x hx y hy hxy
      subst hxy
      obtain ⟨j, hj, hx'⟩ := h2 x hy
      rcases hmem x hx with rfl | rfl <;> rcases hx' with hx' | hx'
      · have := nth_inj (List.append_cancel_left hx'); omega
      · exact author_ne_email _ _ hx'
      · exact author_ne_email _ _ hx'.symm
      · have := nth_inj (List.append_cancel_left hx'); omega
    · intro x hx
      rcases List.mem_append.1 hx with hx | hx
      · exact ⟨i, Nat.le_refl _, hmem x hx⟩
      · obtain ⟨j, hj, h⟩ := h2 x hx
        exact ⟨j, by omega, h⟩

private theorem not_author {w : String} {c : Char} {r : Str} (hw : w.toList = c :: r) (ha : c ≠ 'a') (he : c ≠ 'e') : ¬ AuthorId 0 w.toList := by
  rintro ⟨j, -, h | h⟩
  · have e1 : "author".toList = 'a' :: "uthor".toList := by decide
    rw [hw, e1, List.cons_append] at h
    exact ha (List.cons.inj h).1
  · have e2 : "email".toList = 'e' :: "mail".toList := by decide
    rw [hw, e2, List.cons_append] at h
    exact he (List.cons.inj h).1

private theorem ids_revision (label : Str) (m : DocumentMeta) {b : List Piece} (hb : ids b = []) :
    ids (revision label m b) = [] ∨ ids (revision label m b) = ["revnumber".toList] := by
  unfold revision
  cases str m "revnumber" with
  | none => exact .inl rfl
  | some n =>
    cases m.get "revdate" with
    | none => right; simp only [ids_element]; rfl
    | some d => right; simp only [ids_append, ids_element, hb]; rfl

private theorem ids_remark (m : DocumentMeta) : ids (remark m) = [] ∨ ids (remark m) = ["revremark".toList] := by
  unfold remark
  cases str m "revremark" with
  | none => exact .inl rfl
  | some n =>
    right
    simp only
    rw [show ∀ l : List Piece, (Piece.start "br" [] :: l) = [Piece.start "br" []] ++ l from fun _ => rfl, ids_append, ids_element]
    rfl

private theorem nodup_all {a r d k : List Str} (ha : a.Nodup) (hm : ∀ x ∈ a, AuthorId 0 x) (hr : r = [] ∨ r = ["revnumber".toList])
    (hd : d = [] ∨ d = ["revdate".toList]) (hk : k = [] ∨ k = ["revremark".toList]) : (a ++ r ++ d ++ k).Nodup := by
  have h : (r ++ d ++ k).Nodup ∧ ∀ x ∈ r ++ d ++ k, ¬ AuthorId 0 x := by
    refine ⟨?_, ?_⟩
    · rcases hr with rfl | rfl <;> rcases hd with rfl | rfl <;> rcases hk with rfl | rfl <;> decide
    · intro x hx
      have hx' : x = "revnumber".toList ∨ x = "revdate".toList ∨ x = "revremark".toList := by
        rcases List.mem_append.1 hx with hx | hx
        · rcases List.mem_append.1 hx with hx | hx
          · rcases hr with rfl | rfl
            · cases hx
            · exact .inl (by simpa using hx)
          · rcases hd with rfl | rfl
            · cases hx
            · exact .inr (.inl (by simpa using hx))
        · rcases hk with rfl | rfl
          · cases hx
          · exact .inr (.inr (by simpa using hx))
      rcases hx' with rfl | rfl | rfl
      · exact not_author (c := 'r') (r := "evnumber".toList) (by decide) (by decide) (by decide)
      · exact not_author (c := 'r') (r := "evdate".toList) (by decide) (by decide) (by decide)
      · exact not_author (c := 'r') (r := "evremark".toList) (by decide) (by decide) (by decide)
  rw [List.append_assoc, List.append_assoc, ← List.append_assoc r]
  refine List.nodup_append.2 ⟨ha, h.1, ?_⟩
  rintro x hx y hy rfl
  exact h.2 x hy (hm x hx)

/-- **C106**: no id is there twice, however many authors there are. -/
theorem C106_ids (label : Str) (iso : Str → Option Str) (m : DocumentMeta) :
    (ids (wanted label m)).Nodup ∧ (ids (wanted5 label iso m)).Nodup := by
  constructor
  · unfold wanted
    obtain ⟨h1, h2⟩ := ids_authors ids_author m.authors 0
    have hd : ids (match str m "revdate" with
        | some d => element "span" [("id", "revdate".toList)] d
        | none => []) = [] ∨ ids (match str m "revdate" with
        | some d => element "span" [("id", "revdate".toList)] d
        | none => []) = ["revdate".toList] := by
      cases str m "revdate" with
      | none => exact .inl rfl
      | some d => right; simp only [ids_element]; rfl
    have := nodup_all h1 h2 (ids_revision label m (b := []) rfl) hd (ids_remark m)
    rw [ids_append, ids_append, ids_append, ids_append, ids_append]
    have e1 : ids [.start "div" [("class", "details".toList)]] = [] := rfl
    have e2 : ids [.stop "div"] = [] := rfl
    rw [e1, e2, List.nil_append, List.append_nil]
    exact this
  · unfold wanted5
    obtain ⟨h1, h2⟩ := ids_authors ids_author5 m.authors 0
    have hd : ids (match str m "revdate" with
        | some d => element "time" [("id", "revdate".toList), ("datetime", (iso d).getD d)] d
        | none => []) = [] ∨ ids (match str m "revdate" with
        | some d => element "time" [("id", "revdate".toList), ("datetime", (iso d).getD d)] d
        | none => []) = ["revdate".toList] := by
      cases str m "revdate" with
      | none => exact .inl rfl
      | some d => right; simp only [ids_element]; rfl
    have := nodup_all h1 h2 (ids_revision label m (b := [.text [' ']]) rfl) hd (ids_remark m)
    rw [ids_append, ids_append, ids_append, ids_append, ids_append]
    have e1 : ids [.start "div" [("class", "details".toList)]] = [] := rfl
    have e2 : ids [.stop "div"] = [] := rfl
    rw [e1, e2, List.nil_append, List.append_nil]
    exact this

/-- **C106**: the details are at the end of the header, if there is a header and anything to tell.

Missing: as in `C106_details_partial`. -/
theorem C106_header_partial {lower : Str → Str} {m : DocumentMeta} (h : CleanDetails (lower ((str m "version-label").getD [])) m) :
    (m.embedded = false → m.isTrue "noheader" = false → Any m →
      Shows (exitHeader lower m) (wanted (lower ((str m "version-label").getD [])) m ++ [.stop "div"])) ∧
    (m.embedded = false → m.isTrue "noheader" = false → ¬ Any m → Shows (exitHeader lower m) [.stop "div"]) ∧
    (m.embedded = true ∨ m.isTrue "noheader" = true → exitHeader lower m = []) := by
  have key : (m.authors ≠ [] ∨ (m.get "revnumber").isSome ∨ (m.get "revdate").isSome ∨ (m.get "revremark").isSome) ↔ Any m := by
    unfold Any
    simp only [Option.isSome_iff_exists]
  have hstop := pre_stop (s := "</div>".toList) (name := "div") (by decide) [] [] .nil
  simp only [List.append_nil] at hstop
  refine ⟨fun he hn ha => ?_, fun he hn ha => ?_, fun he => ?_⟩
  · unfold exitHeader
    rw [if_pos ⟨he, hn⟩, if_pos (key.2 ha)]
    have ha := pre_authors (f := authorDetail) (g := author) m.authors 0 fun i a hm => pre_author i (h.names a hm) (h.emails a hm)
    have hr := pre_revision h.label (h.revision "revnumber" (by decide))
    have hd : Pre (revDate m) (match str m "revdate" with
        | some d => element "span" [("id", "revdate".toList)] d
        | none => []) := by
      unfold revDate
      cases hd : str m "revdate" with
      | none => exact pre_nil
      | some d =>
        have hc := h.revision "revdate" (by decide) d hd
        exact pre_element (says_id "span" (by decide) (by decide) (by decide) (by decide) (by decide)) hc.1 hc.2.1 (by decide)
    exact pre_append (pre_append (pre_append (pre_append (pre_append (pre_start says_details) ha) hr) hd)
      (pre_remark (h.revision "revremark" (by decide)))) (pre_stop (s := "</div>".toList) (name := "div") (by decide)) _ _ hstop
  · unfold exitHeader
    rw [if_pos ⟨he, hn⟩, if_neg fun hk => ha (key.1 hk)]
    exact hstop
  · unfold exitHeader
    rw [if_neg]
    rintro ⟨h1, h2⟩
    rcases he with he | he
    · rw [h1] at he; cases he
    · rw [h2] at he; cases he

private theorem says_division {m : DocumentMeta} (hw : ∀ w, str m "max-width" = some w → Clean w) :
    Says (divisionStart m "footer".toList) "div"
      (("id", "footer".toList) :: (opt "style" ((str m "max-width").map fun w => "max-width: ".toList ++ w ++ [';']))) := by
  unfold divisionStart
  cases h : str m "max-width" with
  | none => exact says_id "div" (by decide) (by decide) (by decide) (by decide) (by decide)
  | some w =>
    have hc := hw w h
    refine says_two "div" "id" "style" (by decide) (by decide) (by decide) (by decide) (by decide) (by decide) (mem_app (mem_app (by decide) hc.2.2) (by decide))
      (mem_app (mem_app (by decide) hc.2.1) (by decide)) ?_
    have e1 : "<div id=\"".toList = '<' :: "div".toList ++ (' ' :: "id".toList ++ "=\"".toList) := by decide
    have e2 : " style=\"max-width: ".toList = (' ' :: "style".toList ++ "=\"".toList) ++ "max-width: ".toList := by decide
    have e3 : ";\">".toList = [';'] ++ "\">".toList := by decide
    simp only [e1, e2, e3]
    generalize "div".toList = a
    generalize "id".toList = b
    generalize "=\"".toList = c
    generalize "style".toList = d
    generalize "max-width: ".toList = e
    generalize "footer".toList = f
    simp

/-- **C106**: the footer tells the number of the revision, if there is a footer and a number.

Missing: as in `C106_details_partial`. -/
theorem C106_footer_partial {m : DocumentMeta} (hw : ∀ w, str m "max-width" = some w → Clean w) (hl : Clean ((str m "version-label").getD []))
    (hn : ∀ n, str m "revnumber" = some n → Clean n) :
    (m.embedded = false → m.isTrue "nofooter" = false → Shows (footer m) (wantedFooter m)) ∧
    (m.embedded = true ∨ m.isTrue "nofooter" = true → footer m = []) := by
  have hstop := pre_stop (s := "</div>".toList) (name := "div") (by decide)
  refine ⟨fun he hf => ?_, fun he => ?_⟩
  · unfold footer wantedFooter footerStart
    rw [if_pos ⟨he, hf⟩]
    have hs := pre_start (says_division hw)
    cases h : str m "revnumber" with
    | none =>
      have := pre_append hs hstop [] [] .nil
      simp only [List.append_nil] at this ⊢
      exact this
    | some n =>
      have hc := hn n h
      have ht : Says "<div id=\"footer-text\">".toList "div" [("id", "footer-text".toList)] :=
        says_id "div" (by decide) (by decide) (by decide) (by decide) (by decide)
      have h1 := pre_append (pre_append (pre_start says_br) hstop) hstop [] [] .nil
      have hlt : '<' ∉ (str m "version-label").getD [] ++ ' ' :: n := mem_app hl.1 (by simp [hc.1])
      have hamp : '&' ∉ (str m "version-label").getD [] ++ ' ' :: n := mem_app hl.2.1 (by simp [hc.2.1])
      have h2 := Shows.text (by simp) hlt (by simp [textFirst]) h1
      have h3 := pre_append hs (pre_start ht) _ _ h2
      rw [unescape_plain hamp] at h3
      simp only [List.append_assoc, List.append_nil, List.cons_append, List.nil_append] at h3 ⊢
      exact h3
  · unfold footer
    rw [if_neg]
    rintro ⟨h1, h2⟩
    rcases he with he | he
    · rw [h1] at he; cases he
    · rw [h2] at he; cases he

/-- **C106**, violated: texts are written as they are, so that a remark can be a program. -/
theorem C106_markup_violated :
    details id (someMeta .modeSecure [("revremark", .string "<script>x()</script>")]) =
      "<div class=\"details\"><br><span id=\"revremark\"><script>x()</script></span></div>".toList := by decide +kernel

/-! ### the hypotheses are met -/

/-- a document with two authors and a revision -/
def authoredMeta : DocumentMeta :=
  { someMeta .modeSafe [("revnumber", .string "1.2"), ("revdate", .string "2024-02-29"), ("revremark", .string "soon"), ("version-label", .string "version")]
    with authors := [⟨"Ada", some "M", "Blue", some "ada@example.org"⟩, ⟨"Bo", none, "Red", some "bo@example.org"⟩] }

example : CleanDetails (id ((str authoredMeta "version-label").getD [])) authoredMeta where
  names := by unfold Clean; decide +kernel
  emails := by
    intro a ha e he
    have hm : e ∈ ["ada@example.org", "bo@example.org"] := by
      simp only [authoredMeta, List.mem_cons, List.not_mem_nil, or_false] at ha
      rcases ha with rfl | rfl <;> simp_all
    simp only [List.mem_cons, List.not_mem_nil, or_false] at hm
    rcases hm with rfl | rfl <;> (unfold Clean; decide)
  label := by unfold Clean; decide +kernel
  revision := by
    intro k hk v hv
    have : ∀ k ∈ ["revnumber", "revdate", "revremark"], ((str authoredMeta k).getD []).all (fun c => c ≠ '<' && c ≠ '&' && c ≠ '"') = true := by
      decide +kernel
    have h := this k hk
    rw [hv] at h
    simp only [Option.getD_some, List.all_eq_true] at h
    exact ⟨fun hm => absurd (h _ hm) (by decide), fun hm => absurd (h _ hm) (by decide), fun hm => absurd (h _ hm) (by decide)⟩

example : details id authoredMeta =
    ("<div class=\"details\"><span id=\"author\" class=\"author\">Ada M Blue</span><br>".toList ++
      "<span id=\"email\" class=\"email\"><a href=\"mailto:ada@example.org\">ada@example.org</a></span><br>".toList ++
      "<span id=\"author2\" class=\"author\">Bo Red</span><br>".toList ++
      "<span id=\"email2\" class=\"email\"><a href=\"mailto:bo@example.org\">bo@example.org</a></span><br>".toList ++
      "<span id=\"revnumber\">version 1.2,</span><span id=\"revdate\">2024-02-29</span><br><span id=\"revremark\">soon</span></div>".toList) := by
  decide +kernel

example : ids (wanted "version".toList authoredMeta) =
    ["author", "email", "author2", "email2", "revnumber", "revdate", "revremark"].map String.toList := by decide +kernel

end Verif.Props
