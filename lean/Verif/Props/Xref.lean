import Verif.Lemmas.Xref
import Verif.Props.OpenTag
/-!
C71: cross references lead to what they name, and those that lead nowhere are reported.
-/
namespace Verif.Props
open Verif.Xref Verif.OpenTag Verif.Escape Verif.StartTag

/-- **C71** (links): a reference to an anchor leads to it; a reference to a file leads to the page of the file, or to its place
on the same page if its text is there; with the anchor behind it. -/
theorem C71_links {m : Meta} {kind : Kind} {hash : Bool} {r : Ref} (h : r.Wf kind hash) :
    Leads m kind (href (r.written hash) m kind true) r := by
  cases r with
  | top => cases kind <;> rfl
  | anchor id =>
    obtain ⟨h0, h⟩ := h
    show href (if hash then '#' :: id else id) m kind true = '#' :: id
    cases hash with
    | true => simp [href, isInterdoc, removeLeadingHash]
    | false =>
      obtain ⟨h1, h2⟩ := h rfl
      have hh : id.head? ≠ some '#' := by simpa using head_hash (r := []) h1 h0
      have hc : id.contains '#' = false := by simpa using h1
      have hi : isInterdoc id kind = false := by
        rw [isInterdoc.eq_def, if_neg hh]
        cases kind with
        | shorthand => exact hc
        | «macro» =>
          show (id.contains '#' || (basename id).contains '.') = false
          rw [hc, Bool.false_or]
          have := h2 rfl
          obtain ⟨d, hd, _⟩ := basename_suffix id
          rw [hd, List.mem_append, not_or] at this
          simpa using this.2
      simp [href, hi, removeLeadingHash, hh]
  | file dir name e id =>
    obtain ⟨hd, hdh, hn, he, hne, hid, hlast⟩ := h
    have hp : '#' ∉ dir ++ name ++ dotted e := by
      simp only [List.mem_append, not_or]
      exact ⟨⟨hdh, hn.2.2.1⟩, not_mem_dotted (by decide) fun x hx => (he x hx).2.2.1⟩
    have hinc := pathWasIncluded_iff (m := m) hd hn he
    -- the parts of the target
    obtain ⟨t, ht, hi⟩ : ∃ t, t = (Ref.file dir name e id).written hash ∧ isInterdoc t kind = true ∧
        (splitHash t).1 = dir ++ name ++ dotted e ∧ (splitHash t).2.filter (!·.isEmpty) = id := by
      refine ⟨_, rfl, ?_⟩
      show isInterdoc (dir ++ name ++ dotted e ++ _) kind = true ∧ _
      rw [isInterdoc.eq_def, if_neg (head_hash hp hne)]
      cases id with
      | some id =>
        refine ⟨by cases kind <;> simp, ?_⟩
        show (splitHash (dir ++ name ++ dotted e ++ '#' :: id)).1 = _ ∧ (splitHash (dir ++ name ++ dotted e ++ '#' :: id)).2.filter _ = _
        rw [splitHash_id hp]
        refine ⟨rfl, ?_⟩
        have : id ≠ [] := fun x => hid (by rw [x])
        simp [this]
      | none =>
        cases hash with
        | true =>
          refine ⟨by cases kind <;> simp, ?_⟩
          show (splitHash (dir ++ name ++ dotted e ++ '#' :: [])).1 = _ ∧ (splitHash (dir ++ name ++ dotted e ++ '#' :: [])).2.filter _ = _
          rw [splitHash_id hp]
          exact ⟨rfl, rfl⟩
        | false =>
          obtain ⟨rfl, hs⟩ := hlast rfl rfl
          show ((dir ++ name ++ dotted e ++ []).contains '#' || (basename (dir ++ name ++ dotted e ++ [])).contains '.') = true ∧
            (splitHash (dir ++ name ++ dotted e ++ [])).1 = _ ∧ (splitHash (dir ++ name ++ dotted e ++ [])).2.filter _ = _
          rw [List.append_nil, splitHash_plain hp]
          refine ⟨?_, rfl, rfl⟩
          have := hasExt_path hd hn he
          rw [hasExt] at this
          rw [this, hs, Bool.or_true]
    rw [← ht]
    obtain ⟨h1, h2, h3⟩ := hi
    have hb : (basename (dir ++ name ++ dotted e)).contains '.' = e.isSome := hasExt_path hd hn he
    have hsuf : suffix m = (m.relfilesuffix <|> m.outfilesuffix).getD [] := by
      rw [suffix]; cases m.relfilesuffix <;> rfl
    have hhref : href t m kind true = interdocHref t m kind true := by rw [href, h1]; rfl
    rw [hhref, interdocHref, h2, h3]
    constructor
    · intro hon
      rw [if_pos (hinc.2 hon)]
    · intro hon
      rw [if_neg (fun x => hon (hinc.1 x)), hasAdocExt_path hd hn he, removeExt_path hd hn he, hb, hsuf]
      rw [page]
      generalize (m.relfilesuffix <|> m.outfilesuffix).getD [] = suf
      simp only [Bool.not_true, Bool.false_eq_true, if_false]
      have key : (if (decide (kind = .shorthand) || e.any (· ∈ adocs) || !e.isSome) = true then
          m.relfileprefix.getD [] ++ (if e.any (· ∈ adocs) = true then dir ++ name else dir ++ name ++ dotted e) ++ suf
        else m.relfileprefix.getD [] ++ (if e.any (· ∈ adocs) = true then dir ++ name else dir ++ name ++ dotted e)) =
          m.relfileprefix.getD [] ++ dir ++ name ++ (if e.any (· ∈ adocs) = true then [] else dotted e) ++
            (if kind = .macro ∧ e.any (· ∉ adocs) = true then [] else suf) := by
        cases e with
        | none => cases kind <;> simp [dotted]
        | some x => by_cases hx : x ∈ adocs <;> cases kind <;> simp [hx, dotted]
      rw [key]
      cases id with
      | none => simp
      | some id => rfl

/-- **C71** (tags), partial: the tag is read as a link to that place.

Missing: quotes and ampersands, which are written as they are (`C71_quote_violated`). -/
theorem C71_tags_partial {target : Xref.Str} {m : Meta} {kind : Kind} (h : Plain (href target m kind true)) :
    Says (enterXref target m kind) "a" [("href", href target m kind true)] := by
  refine says_of (l := [("href".toList, href target m kind true)]) ?_ ⟨'a', [], rfl, by decide⟩ (by decide) ?_ ?_
  · have e : "<a href=\"".toList = '<' :: "a".toList ++ ' ' :: "href".toList ++ "=\"".toList := by decide
    have e2 : "\">".toList = ['"'] ++ ['>'] := by decide
    have e0 : enterXref target m kind = "<a href=\"".toList ++ href target m kind true ++ "\">".toList := rfl
    rw [e0, e, e2]
    generalize href target m kind true = x
    generalize "href".toList = l2
    simp only [written, List.flatMap_cons, List.flatMap_nil, List.append_nil, List.nil_append, List.append_assoc, List.cons_append]
  · intro p hp
    rw [List.mem_singleton] at hp
    subst hp
    exact ⟨(names "href" (by simp)).1, (names "href" (by simp)).2, h.1⟩
  · simp only [List.map_cons, List.map_nil, String.ofList_toList, unescape_plain h.2]

/-- a reference in a document: what it names, whether it has a `#` it does not need, the kind and the place -/
structure Use where
  ref : Ref
  hash : Bool
  kind : Kind
  loc : Loc

/-- what the parser sees of it -/
def Use.seen (u : Use) : Xref.Str × Loc := (u.ref.written u.hash, u.loc)

/-- **C71** (reports), partial: in a document without includes the references to anchors that do not exist are reported, each
name once and at the place of one of the references that have it, in whatever order the references are kept; references to
anchors that exist are not.

Missing: includes (`C71_included_violated`), names that look like the file of the document, the name `__self__`
(`C71_self_violated`), more than one reference with the same name (`C71_repeated_violated`), files
(`C71_other_document_violated`). -/
theorem C71_reports_partial {p : Parsed} {us : List Use} {order : List (Xref.Str × Loc)}
    (hone : ∀ u ∈ us, u.loc.1 = 0) (hanchors : ∀ id s, p.anchors id = some s → s = 0)
    (hwf : ∀ u ∈ us, u.ref.Wf u.kind u.hash) (horder : order.Perm (collect (us.map Use.seen))) :
    (∀ u ∈ us, ∀ id, u.ref = .anchor id → '#' ∉ id → hasAdocExt id = false → id ≠ "__self__".toList →
      ((∃ l, (id, l) ∈ diagnose p order) ↔ p.anchors id = none)) ∧
    (∀ x ∈ diagnose p order, ∃ u ∈ us, x = (u.seen.1, u.loc) ∨ '#' :: x.1 = u.seen.1 ∧ x.2 = (u.loc.1, u.loc.2 + 1)) ∧
    ((diagnose p order).map Prod.fst).Nodup := by
  obtain ⟨h1, h2, h3⟩ := collect_spec (us.map Use.seen) [] List.nodup_nil
  have hmem : ∀ x, x ∈ order ↔ x ∈ (us.map Use.seen).foldl pushXref [] := fun x => horder.mem_iff
  have hloc : ∀ x ∈ order, x.2.1 = 0 := by
    intro x hx
    rcases h1 x ((hmem x).1 hx) with h | ⟨y, hy, rfl⟩
    · cases h
    · obtain ⟨u, hu, rfl⟩ := List.mem_map.1 hy
      have := hone u hu
      unfold key Use.seen
      split <;> simpa using this
  refine ⟨?_, ?_, ?_⟩
  · intro u hu id hid hh ha hs
    have hne : id ≠ [] := by
      have := hwf u hu; rw [hid] at this; exact this.1
    have hhead : id.head? ≠ some '#' := by simpa using head_hash (r := []) hh hne
    have hk : (key u.seen).1 = id := by
      have hw : u.seen.1 = if u.hash then '#' :: id else id := by rw [Use.seen, hid]; rfl
      unfold key
      rw [hw]
      cases hb : u.hash with
      | true =>
        have : 0 < id.length := List.length_pos_iff.2 hne
        simp [this]
      | false => rw [hb] at hw; simpa [hhead] using hw
    have hex : ∃ l, (id, l) ∈ order := by
      have := (h2 id).2 (.inr ⟨u.seen, List.mem_map.2 ⟨u, hu, rfl⟩, hk.symm⟩)
      obtain ⟨⟨k, l⟩, hy, rfl⟩ := List.mem_map.1 this
      exact ⟨l, (hmem _).2 hy⟩
    have hinv : ∀ l, (id, l) ∈ order → (invalid p (id, l) = true ↔ p.anchors id = none) := by
      intro l hl
      have hl0 : l.1 = 0 := hloc _ hl
      have hc : id.contains '#' = false := by simpa using hh
      have htd : targetData p id l.1 = some (0, id) := by
        have : id ≠ ['#'] := by rintro rfl; simp at hh
        simp [targetData, this, hhead, ha, hl0, hh]
      rw [invalid, htd]
      simp only [hs, if_false]
      cases hp : p.anchors id with
      | none => simp
      | some s => simp [hanchors id s hp]
    obtain ⟨l, hl⟩ := hex
    constructor
    · rintro ⟨l', hl'⟩
      rw [diagnose, List.mem_filter] at hl'
      exact (hinv l' hl'.1).1 hl'.2
    · intro hn
      exact ⟨l, List.mem_filter.2 ⟨hl, (hinv l hl).2 hn⟩⟩
  · intro x hx
    rw [diagnose, List.mem_filter] at hx
    rcases h1 x ((hmem x).1 hx.1) with h | ⟨y, hy, rfl⟩
    · cases h
    · obtain ⟨u, hu, rfl⟩ := List.mem_map.1 hy
      refine ⟨u, hu, ?_⟩
      unfold key
      split
      · rename_i hc
        right
        simp only [gt_iff_lt, Bool.and_eq_true, decide_eq_true_eq] at hc
        refine ⟨?_, rfl⟩
        cases hw : u.seen.1 with
        | nil => rw [hw] at hc; simp at hc
        | cons a r =>
          rw [hw] at hc
          have ha : a = '#' := by simpa using hc.2
          simp [ha]
      · exact .inl rfl
  · have hnd : (order.map Prod.fst).Nodup := (horder.map Prod.fst).nodup_iff.2 h3
    exact hnd.sublist (List.Sublist.map _ List.filter_sublist)

/-- **C71** (nothing reported), partial: if nothing is reported in a document without includes, every reference to an anchor
leads to an anchor of the document. Missing: as above. -/
theorem C71_silence_partial {p : Parsed} {m : Meta} {us : List Use} {order : List (Xref.Str × Loc)}
    (hone : ∀ u ∈ us, u.loc.1 = 0) (hanchors : ∀ id s, p.anchors id = some s → s = 0)
    (hwf : ∀ u ∈ us, u.ref.Wf u.kind u.hash) (horder : order.Perm (collect (us.map Use.seen)))
    (hsilent : diagnose p order = []) {u : Use} (hu : u ∈ us) {id : Xref.Str} (hid : u.ref = .anchor id) (hh : '#' ∉ id)
    (ha : hasAdocExt id = false) (hs : id ≠ "__self__".toList) :
    href u.seen.1 m u.kind true = '#' :: id ∧ (p.anchors id).isSome := by
  have h1 := C71_links (m := m) (hwf u hu)
  have h2 := (C71_reports_partial hone hanchors hwf horder).1 u hu id hid hh ha hs
  rw [hsilent] at h2
  rw [hid] at h1
  refine ⟨by rw [Use.seen, hid]; exact h1, ?_⟩
  cases hp : p.anchors id with
  | some s => rfl
  | none => exact absurd (h2.2 hp) (by simp)

/-- **C71** (the text of a reference without text): the title of the document for its top, the name in brackets for an anchor
that does not exist. -/
theorem C71_missing_text {m : Meta} {kind : Kind} {hash : Bool} {reftext title : Option Xref.Str} :
    missingXref (Ref.top.written hash) m kind reftext title = ((reftext <|> title).getD "[^top]".toList) ∧
    ∀ id, Ref.Wf kind hash (.anchor id) → some ((Ref.anchor id).written hash) ≠ m.docfilename →
      missingXref ((Ref.anchor id).written hash) m kind reftext title = '[' :: id ++ [']'] := by
  constructor
  · cases reftext <;> simp [missingXref, Ref.written]
  · intro id hw hd
    have hl := C71_links (m := m) hw
    have hne : (Ref.anchor id).written hash ≠ ['#'] := by
      show (if hash then '#' :: id else id) ≠ ['#']
      cases hash with
      | true => simpa using hw.1
      | false => intro e; have := (hw.2 rfl).1; simp only [Bool.false_eq_true, if_false] at e; rw [e] at this; simp at this
    have hi : isInterdoc ((Ref.anchor id).written hash) kind = false ∧ removeLeadingHash ((Ref.anchor id).written hash) = id := by
      show isInterdoc (if hash then '#' :: id else id) kind = false ∧ removeLeadingHash (if hash then '#' :: id else id) = id
      cases hash with
      | true => simp [isInterdoc, removeLeadingHash]
      | false =>
        obtain ⟨h1, h2⟩ := hw.2 rfl
        have hh : id.head? ≠ some '#' := by simpa using head_hash (r := []) h1 hw.1
        have hc : id.contains '#' = false := by simpa using h1
        refine ⟨?_, by simp [removeLeadingHash, hh]⟩
        rw [isInterdoc.eq_def]
        simp only [Bool.false_eq_true, if_false]
        rw [if_neg hh]
        cases kind with
        | shorthand => exact hc
        | «macro» =>
          show (id.contains '#' || (basename id).contains '.') = false
          rw [hc, Bool.false_or]
          have := h2 rfl
          obtain ⟨d, hd, _⟩ := basename_suffix id
          rw [hd, List.mem_append, not_or] at this
          simpa using this.2
    rw [missingXref.eq_def, hi.1, hi.2]
    simp [hne, hd]

/-! ### violations -/

/-- **C71**, violated: the target is written into the tag as it is. -/
theorem C71_quote_violated :
    readTag (enterXref "a\" onclick=\"f()".toList {} .shorthand) = [("href", "#a"), ("onclick", "f()")] := by decide +kernel

/-- a document that includes `b.adoc`, in which the anchor `x` is; `main.adoc` has the anchor `y` -/
def withInclude : Parsed where
  sources := [.path "main.adoc".toList "/main.adoc".toList, .path "b.adoc".toList "/b.adoc".toList]
  anchors := fun id => if id = ['x'] then some 1 else if id = ['y'] then some 0 else none

/-- **C71**, violated: `<<x>>` leads to the anchor of an included file on the same page, but it is reported as invalid. -/
theorem C71_included_violated :
    href ['x'] {} .shorthand true = "#x".toList ∧ diagnose withInclude (collect [(['x'], (0, 7))]) = [(['x'], (0, 7))] := by
  decide +kernel

/-- **C71**, violated: only one of several references with the same name is looked at. A reference in an included file is
reported or not depending on a later one. -/
theorem C71_repeated_violated :
    diagnose withInclude (collect [(['z'], (0, 3)), (['z'], (0, 30))]) = [(['z'], (0, 30))] ∧
    diagnose withInclude (collect [(['y'], (1, 3))]) = [(['y'], (1, 3))] ∧
    diagnose withInclude (collect [(['y'], (1, 3)), (['y'], (0, 30))]) = [] := by
  decide +kernel

/-- **C71**, violated: a reference to another document is reported, although nothing is known of its anchors. The page
`a.html` is linked in both cases. -/
theorem C71_other_document_violated :
    href "a.adoc#x".toList {} .macro true = "a.html#x".toList ∧
    diagnose withInclude (collect [("a.adoc#x".toList, (0, 3))]) = [("a.adoc#x".toList, (0, 3))] ∧
    href "a#x".toList {} .macro true = "a.html#x".toList ∧
    diagnose withInclude (collect [("a#y".toList, (0, 3))]) = [("a#y".toList, (0, 3))] := by
  decide +kernel

/-- **C71**, violated: a path is taken to be an included file if the name of that file ends with it: `n.adoc` for `main.adoc`.
The link leads to another page and nothing is reported. -/
theorem C71_suffix_violated :
    href "n.adoc#y".toList {} .macro true = "n.html#y".toList ∧
    diagnose withInclude (collect [("n.adoc#y".toList, (0, 3))]) = [] := by
  decide +kernel

/-- **C71**, violated: a dot in the name of an anchor makes a file of it in a macro, and nothing is reported. -/
theorem C71_dot_violated :
    href "v1.0".toList {} .macro true = "v1.0".toList ∧
    diagnose { sources := [.stdin], anchors := fun id => if id = "v1.0".toList then some 0 else none }
      (collect [("v1.0".toList, (0, 3))]) = [] := by
  decide +kernel

/-- **C71**, violated: the name `__self__` is never reported, nor is one that ends the name of the file. -/
theorem C71_self_violated :
    diagnose withInclude (collect [("__self__".toList, (0, 3)), (".adoc".toList, (0, 9))]) = [] ∧
    href "__self__".toList {} .shorthand true = "#__self__".toList := by
  decide +kernel

/-- **C71**: a file is taken for the target of a reference only if it has the name of the target, or its path ends with the
target, or ends so without its extension and the target has none; and the last part of a name that has an extension
of its own must have that extension. -/
theorem C71_files (target : Xref.Str) (s : Source) (h : s.matches target = true) :
    ∃ name full, s = .path name full ∧
      (name = target ∨ (target <:+ full ∧ (ext target = none ∨ ext target = ext name)) ∨
        (target <:+ removeExt full ∧ ext target = none)) := by
  cases s with
  | stdin => cases h
  | tmp => cases h
  | path name full =>
    refine ⟨name, full, rfl, ?_⟩
    simp only [Source.matches] at h
    repeat' split at h
    · left; assumption
    · cases h
    · rename_i h1 h2 h3
      refine .inr (.inl ⟨List.isSuffixOf_iff_suffix.1 h3, ?_⟩)
      cases he : ext target with
      | none => exact .inl rfl
      | some x =>
        right
        false_or_by_contra
        rename_i hc
        exact h2 (by simp [he]; exact fun h => hc h)
    · cases h
    · rename_i h1 h2 h3 h4
      refine .inr (.inr ⟨List.isSuffixOf_iff_suffix.1 h, ?_⟩)
      cases he : ext target with
      | none => rfl
      | some x => exact absurd (by simp [he]) h4

example : (Source.path "b.adoc".toList "/x/b.adoc".toList).matches "x/b".toList = true ∧
    (Source.path "b.adoc.adoc".toList "/x/b.adoc.adoc".toList).matches "x/b.adoc".toList = false := by decide +kernel

/-! ### the hypotheses are met -/

example : Ref.Wf .macro false (.file "../a.b/".toList "my-file".toList (some "adoc".toList) (some "x".toList)) := by
  refine ⟨.inr rfl, by decide, by unfold Simple; decide, ?_, by decide, by decide, nofun⟩
  intro x hx; cases hx; unfold Simple; decide

example : href "../a.b/my-file.adoc#x".toList { relfileprefix := some "p/".toList } .macro true = "p/../a.b/my-file.html#x".toList ∧
    href "../a.b/my-file.adoc#x".toList { included := ["../a.b/my-file.adoc".toList] } .macro true = "#x".toList ∧
    href "a.net#".toList {} .shorthand true = "a.net.html".toList ∧ href "a.pdf".toList {} .macro true = "a.pdf".toList := by
  decide +kernel

/-- two references, one of which leads nowhere -/
def twoUses : List Use := [⟨.anchor ['y'], true, .macro, (0, 2)⟩, ⟨.anchor "no where".toList, false, .shorthand, (0, 12)⟩]

example : (∀ u ∈ twoUses, u.loc.1 = 0) ∧ (∀ u ∈ twoUses, u.ref.Wf u.kind u.hash) ∧
    diagnose { sources := [.stdin], anchors := fun id => if id = ['y'] then some 0 else none } (collect (twoUses.map Use.seen)) =
      [("no where".toList, (0, 12))] := by
  refine ⟨?_, ?_, by decide +kernel⟩
  · intro u hu; simp only [twoUses, List.mem_cons, List.not_mem_nil, or_false] at hu; rcases hu with rfl | rfl <;> rfl
  · intro u hu; simp only [twoUses, List.mem_cons, List.not_mem_nil, or_false] at hu
    rcases hu with rfl | rfl
    · exact ⟨by decide, nofun⟩
    · exact ⟨by decide, fun _ => ⟨by decide, nofun⟩⟩

end Verif.Props
