import Verif.Lemmas.NumberingToc
import Verif.Props.Roman
/-! C46 and C47: section numbers. -/
namespace Verif.Props
open Verif.Numbering Verif.Spec.Numbering

private theorem at_init : At St.init [] 0 := ⟨rfl, rfl, fun _ => rfl⟩

/-- **C46** (sections): the labels printed are the positions of the sections
among their numbered siblings, for every tree of sections whose levels go down
one at a time, without parts and appendices, where sections inside unnumbered
ones are unnumbered. -/
theorem C46_positions_partial (ss : List Sect) (hp : PlainAll 1 ss) (hl : ss.length ≤ 65535) :
    ∃ st, walkAll ss .init = some (labelsAll [] [] 0 ss, st) := by
  obtain ⟨st, h, _⟩ := walkAll_plain ss .init [] 0 [] [] hp at_init (by simpa using hl) rfl (by simp [St.init])
  exact ⟨st, h⟩

/-- **C46** (books): parts are counted in roman numerals and chapters are
counted through all parts. -/
theorem C46_book_partial (cfg : Cfg) (parts : List (List Sect)) (hp : ∀ p ∈ parts, PlainAll 1 p)
    (hl : parts.flatten.length ≤ 65535) (hn : parts.length ≤ 3999) (special : Option Special) :
    ∃ st, walkAll (parts.map (.mk cfg true 0 0 special)) .init = some (partsLabels cfg 0 0 parts, st) := by
  suffices ∀ (parts : List (List Sect)) (i k : Nat) (st : St), (∀ p ∈ parts, PlainAll 1 p) → k + parts.flatten.length ≤ 65535 →
      i + parts.length ≤ 3999 → At st [] k → st.inAppendix = false → (cfg.partnums = true → st.partNum = i) →
      ∃ st', walkAll (parts.map (.mk cfg true 0 0 special)) st = some (partsLabels cfg i k parts, st') by
    exact this parts 0 0 .init hp (by omega) (by omega) at_init rfl (fun _ => rfl)
  intro parts
  induction parts with
  | nil => intro i k st _ _ _ _ _ _; exact ⟨st, rfl⟩
  | cons p ps ih =>
    intro i k st hp hl hn hat happ hnum
    simp only [List.flatten_cons, List.length_append, List.length_cons] at hl hn
    rw [List.map_cons, walkAll, walk, partsLabels]
    have key : ∃ st1, partPrefix cfg st = some (partLabel cfg (i + 1), st1) ∧ st1.nums = st.nums ∧ st1.inAppendix = st.inAppendix ∧
        (cfg.partnums = true → st1.partNum = i + 1) := by
      unfold partPrefix partLabel
      by_cases hpn : cfg.partnums = true
      · rw [if_pos hpn, if_pos hpn]
        obtain ⟨r, hr, _⟩ := C51_value (i + 1) (by omega) (by omega)
        dsimp only
        rw [hnum hpn, if_pos (by omega), hr]
        refine ⟨{ st with partNum := i + 1 }, ?_, rfl, rfl, fun _ => rfl⟩
        cases cfg.partSignifier <;> simp
      · rw [if_neg hpn, if_neg hpn]
        exact ⟨st, by simp, rfl, rfl, fun h => absurd h hpn⟩
    obtain ⟨st1, e1, n1, a1, p1⟩ := key
    have hat1 : At st1 [] k := ⟨by rw [n1]; exact hat.len, by simp, fun h => by rw [n1]; exact hat.count h⟩
    obtain ⟨st2, e2, at2, s2⟩ := walkAll_plain p st1 [] k [] [] (hp p (by simp)) hat1 (by omega) rfl (by rw [a1, happ]; simp)
    obtain ⟨st3, e3⟩ := ih (i + 1) (k + p.countP (Numbered ·)) st2 (fun q hq => hp q (by simp [hq])) (by
        have : p.countP (Numbered ·) ≤ p.length := List.countP_le_length
        omega) (by omega) at2 (by rw [s2.1, a1, happ]) (fun h => by rw [s2.2.2, p1 h])
    refine ⟨st3, ?_⟩
    have eb : bodyLabel cfg true 0 special (enterState none st) = some (partLabel cfg (i + 1), st1) := by
      rw [bodyLabel, if_pos rfl]; exact e1
    simp only [if_true, eb, e2, exitState_plain (special := none) (by simp), e3]

/-- **C46** (the first appendix): after ordinary sections, the first appendix is
lettered A and its subsections are numbered by position after `A.`. -/
theorem C46_first_appendix_partial (main : List Sect) (cfg : Cfg) (authored : Nat) (children : List Sect) (hp : PlainAll 1 main)
    (hl : main.length ≤ 65535) (hc : PlainAll 2 children) (hlc : children.length ≤ 65535) :
    ∃ st, walkAll (main ++ [.mk cfg false authored 1 (some .appendix) children]) .init =
      some (labelsAll [] [] 0 main ++ caption cfg 'A' :: labelsAll "A.".toList [] 0 children, st) := by
  obtain ⟨st, h, _, s⟩ := walkAll_plain main .init [] 0 [] [] hp at_init (by simpa using hl) rfl (by simp [St.init])
  rw [walkAll_append, h]
  simp only [walkAll, walk, Bool.false_eq_true, if_false]
  have hcap : (enterState (some .appendix) st).captionNum = 0 := by rw [enterState_caption, s.2.1]; rfl
  obtain ⟨c, hcc, e⟩ := appendixCaption_eq (cfg := cfg) (st := enterState (some .appendix) st) (by rw [hcap]; decide)
  rw [hcap] at hcc
  have hcA : c = 'A' := by
    have : alphabet[0]? = some 'A' := by decide +kernel
    rw [this] at hcc; injection hcc with hcc; exact hcc.symm
  subst hcA
  have eb : bodyLabel cfg false 1 (some .appendix) (enterState (some .appendix) st) =
      some (caption cfg 'A', { enterState (some .appendix) st with captionNum := (enterState (some .appendix) st).captionNum + 1 }) := by
    rw [bodyLabel, if_neg (by simp), if_pos rfl]; exact e
  rw [eb]
  simp only
  obtain ⟨st2, e2, _⟩ := walkAll_plain children
    { enterState (some .appendix) st with captionNum := (enterState (some .appendix) st).captionNum + 1 } [0] 0 "A.".toList []
    hc ⟨rfl, rfl, fun _ => rfl⟩ (by omega) (by simp [enterState, components, component]) (by simp)
  rw [e2]
  exact ⟨exitState (some .appendix) st2, by simp⟩

/-- **C46** (letters): captions of up to 26 appendices count A, B, C, … -/
theorem C46_letters_partial (apps : List (Cfg × Nat × Nat × List Sect)) (hl : apps.length ≤ 26)
    (hn : ∀ a ∈ apps, NoAppendixAll a.2.2.2) (st : St) (hs : st.captionNum = 0) (ls : List (List Char)) (st' : St)
    (h : walkAll (apps.map fun a => .mk a.1 false a.2.1 a.2.2.1 (some .appendix) a.2.2.2) st = some (ls, st')) :
    ∃ blocks : List (List (List Char)), ls = blocks.flatten ∧ blocks.length = apps.length ∧
      ∀ (i : Nat) (a : Cfg × Nat × Nat × List Sect), apps[i]? = some a →
        ∃ c rest, alphabet[i]? = some c ∧ blocks[i]? = some (caption a.1 c :: rest) := by
  suffices ∀ (apps : List (Cfg × Nat × Nat × List Sect)) (k : Nat) (st : St) (ls : List (List Char)), k + apps.length ≤ 26 →
      (∀ a ∈ apps, NoAppendixAll a.2.2.2) → st.captionNum = k →
      walkAll (apps.map fun a => .mk a.1 false a.2.1 a.2.2.1 (some .appendix) a.2.2.2) st = some (ls, st') →
      ∃ blocks : List (List (List Char)), ls = blocks.flatten ∧ blocks.length = apps.length ∧
        ∀ (i : Nat) (a : Cfg × Nat × Nat × List Sect), apps[i]? = some a →
          ∃ c rest, alphabet[k + i]? = some c ∧ blocks[i]? = some (caption a.1 c :: rest) by
    obtain ⟨b, h1, h2, h3⟩ := this apps 0 st ls (by omega) hn hs h
    exact ⟨b, h1, h2, fun i a ha => by have := h3 i a ha; rwa [Nat.zero_add] at this⟩
  intro apps
  induction apps with
  | nil =>
    intro k st ls _ _ _ h
    injection h with h; injection h with h _; subst h
    exact ⟨[], rfl, rfl, by simp⟩
  | cons a as ih =>
    intro k st ls hl hn hs h
    obtain ⟨cfg, au, lv, ch⟩ := a
    simp only [List.length_cons] at hl
    rw [List.map_cons] at h
    obtain ⟨l, st1, l2, h1, h2, rfl⟩ := walkAll_some h
    obtain ⟨l0, st2, ls2, st3, hb, hw, rfl, rfl⟩ := walk_some h1
    simp only [Bool.false_eq_true, if_false] at hb
    rw [bodyLabel, if_neg (by simp), if_pos rfl] at hb
    obtain ⟨c, hcc, e⟩ := appendixCaption_eq (cfg := cfg) (st := enterState (some .appendix) st) (by rw [enterState_caption]; omega)
    rw [e] at hb
    injection hb with hb; injection hb with hb1 hb2
    rw [enterState_caption, hs] at hcc
    have hcap : (exitState (some .appendix) st3).captionNum = k + 1 := by
      rw [exitState_caption, walkAll_caption ch st2 ls2 st3 (hn (cfg, au, lv, ch) (by simp)) hw, ← hb2]
      simp only [enterState_caption, hs]
    obtain ⟨bs, e1, e2, e3⟩ := ih (k + 1) _ l2 (by omega) (fun b hb => hn b (by simp [hb])) hcap h2
    refine ⟨(l0 :: ls2) :: bs, by simp [e1], by simp [e2], ?_⟩
    intro i b hi
    cases i with
    | zero =>
      simp at hi
      subst hi
      exact ⟨c, ls2, hcc, by simp [hb1]⟩
    | succ i =>
      have := e3 i b (by simpa using hi)
      rw [show k + 1 + i = k + (i + 1) by omega] at this
      simpa using this

/-- **C47**: a table of contents printed before the sections (at the top, at the
side, or after the preamble) shows exactly the labels the listed sections have in
the body, and leaves the counters as they were, for every document whose
attributes do not change, where levels strictly increase inwards and appendices
are at listed levels. -/
theorem C47_toc_matches_partial (cfg : Cfg) (d : Nat) (ss : List Sect) (hs : SteadyAll cfg d 0 ss) (ls : List (List Char)) (st : St)
    (h : walkAll ss .init = some (ls, st)) :
    printToc cfg (nodesOf d ss) .init = some (listed d (levelsAll ss) ls, .init) := by
  obtain ⟨t', e, _⟩ := walkAll_toc cfg d ss 0 .init .init st ls hs ⟨rfl, rfl, rfl, rfl, rfl, rfl⟩ h
  rw [printToc, e]
  have := tocAll_app cfg _ _ _ _ rfl e
  simp only [Option.some.injEq, Prod.mk.injEq, true_and]
  unfold tocExit St.init
  rw [this]

/-- every label is listed against its section: the list of labels is as long as
the list of sections -/
theorem C47_one_label_each (ss : List Sect) (ls : List (List Char)) (st st' : St) (h : walkAll ss st = some (ls, st')) :
    ls.length = (levelsAll ss).length := (walkAll_length ss st ls st' h).symm

/-! ### violations -/

private def art : Cfg := { doctype := .article, sectnums := .yes, levels := 3, chapterSignifier := none, partnums := false, partSignifier := none, caption := .text "Appendix".toList }
private def sec (level : Nat) (children : List Sect) : Sect := .mk art false level level none children
private def app (children : List Sect) : Sect := .mk art false 1 1 (some .appendix) children

/-- **C46 violated**: subsections of the second appendix are lettered A again. -/
theorem C46_second_appendix_violated : (walkAll [app [sec 2 []], app [sec 2 []]] .init).map (·.1) =
    some (["Appendix A: ", "A.1. ", "Appendix B: ", "A.1. "].map String.toList) := by decide +kernel

/-- **C46 violated**: sections after an appendix start at 1 again. -/
theorem C46_after_appendix_violated : (walkAll [sec 1 [], app [], sec 1 []] .init).map (·.1) =
    some (["1. ", "Appendix A: ", "1. "].map String.toList) := by decide +kernel

/-- **C46 violated**: numbered sections inside an unnumbered one go on counting
those of the section before, or start with 0. -/
theorem C46_inside_unnumbered_violated :
    (walkAll [.mk art false 1 1 (some .dedication) [sec 2 []], sec 1 [sec 2 []], .mk art false 1 1 (some .dedication) [sec 2 []]] .init).map
      (·.1) = some (["", "0.1. ", "1. ", "1.1. ", "", "1.2. "].map String.toList) := by decide +kernel

/-- **C46 violated**: after the letter Z comes `[`. -/
theorem C46_after_z_violated : (appendixCaption art { St.init with captionNum := 26 }).map (·.1) = some "Appendix [: ".toList := by
  decide +kernel

/-- **C47 violated**: a TOC placed by a macro after the first section counts on
from it, and the sections after it start at 1 again. -/
theorem C47_macro_violated :
    ((walkAll [sec 1 []] .init).bind fun r1 => (printToc art (nodesOf 2 [sec 1 [], sec 1 []]) r1.2).bind fun r2 =>
      (walkAll [sec 1 []] r2.2).map fun r3 => (r1.1 ++ r3.1, r2.1)) =
    some (["1. ".toList, "1. ".toList], ["2. ".toList, "3. ".toList]) := by decide +kernel

/-- **C47 violated**: `sectnums` switched on or off between sections is not seen
by the TOC. -/
theorem C47_switched_violated :
    (printToc art (nodesOf 2 [sec 1 [], .mk { art with sectnums := .unset } false 1 1 none []]) .init).map (·.1) = some (["1. ", "2. "].map String.toList) ∧
    (walkAll [sec 1 [], .mk { art with sectnums := .unset } false 1 1 none []] .init).map (·.1) = some (["1. ", ""].map String.toList) := by
  decide +kernel

private def book : Cfg := { doctype := .book, sectnums := .yes, levels := 3, chapterSignifier := none, partnums := true, partSignifier := some "Part".toList, caption := .neither }

/-- **C47 violated**: a preface written at level 0 in a book is shown as a part in
the TOC, and the parts after it have the wrong number there. -/
theorem C47_preface_violated :
    (printToc book (nodesOf 2 [.mk book false 0 1 (some .preface) [], .mk book true 0 0 none []]) .init).map (·.1) =
      some (["Part I: ", "Part II: "].map String.toList) ∧
    (walkAll [.mk book false 0 1 (some .preface) [], .mk book true 0 0 none []] .init).map (·.1) =
      some (["1. ", "Part I: "].map String.toList) := by
  decide +kernel

/-! ### the hypotheses are met -/

/-- a document with three levels, an unnumbered section and an appendix -/
example : PlainAll 1 [sec 1 [sec 2 [sec 3 []], sec 2 []], .mk art false 1 1 (some .dedication) [], sec 1 []] := by
  simp [PlainAll, Plain, sec, SilentAll, Numbered, art, supports]

example : labelsAll [] [] 0 [sec 1 [sec 2 [sec 3 []], sec 2 []], .mk art false 1 1 (some .dedication) [], sec 1 []] =
    ["1. ".toList, "1.1. ".toList, "1.1.1. ".toList, "1.2. ".toList, [], "2. ".toList] := by decide +kernel

example : SteadyAll art 2 0 [sec 1 [sec 2 [sec 3 []], sec 2 []], app [sec 2 []], app []] ∧
    (walkAll [sec 1 [sec 2 [sec 3 []], sec 2 []], app [sec 2 []], app []] .init).isSome = true := by
  refine ⟨?_, by decide +kernel⟩
  simp [SteadyAll, Steady, sec, app]

example : listed 2 [1, 2, 3, 2] ["1. ".toList, "1.1. ".toList, "1.1.1. ".toList, "1.2. ".toList] =
    ["1. ".toList, "1.1. ".toList, "1.2. ".toList] := by decide +kernel

example : ∀ p ∈ [[sec 1 [sec 2 []]], [sec 1 []]], PlainAll 1 p := by
  simp [PlainAll, Plain, sec, SilentAll, Numbered, art]

end Verif.Props
