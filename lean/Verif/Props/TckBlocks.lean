import Verif.Spec.TckBlocks
import Verif.Props.Tck
/-! C123: the blocks of the graph that is written for the compatibility kit. -/
namespace Verif.Props
open Verif.Tck

theorem lastEnd_ranges (ns : Nodes) : ns.lastEnd = (ns.ranges.getLast?).map (·.2) := by
  induction ns with
  | nil => rfl
  | text s a e rest ih => cases h : rest.ranges <;> simp_all [Nodes.lastEnd, Nodes.ranges, List.getLast?_cons]
  | newline a e rest ih => cases h : rest.ranges <;> simp_all [Nodes.lastEnd, Nodes.ranges, List.getLast?_cons]
  | bold i a e rest ih1 ih => cases h : rest.ranges <;> simp_all [Nodes.lastEnd, Nodes.ranges, List.getLast?_cons]
  | other a e rest ih => cases h : rest.ranges <;> simp_all [Nodes.lastEnd, Nodes.ranges, List.getLast?_cons]

theorem finish_of (ns : Nodes) (e : Nat) (h : ns.lastEnd = some e) : ns.finish = e := by
  rw [Nodes.finish, ← lastEnd_ranges, h]; rfl

mutual
theorem tckBlocks_marks (src : List UInt8) : ∀ (bs : Blocks) (v : BVals), genBlocks src bs = some v → bs.usual → v.marks = bs.marks src
  | .nil, v, h, _ => by
    simp only [genBlocks, Option.some.injEq] at h
    subst h; rfl
  | .para ns a e rest, v, h, hu => by
    simp only [genBlocks, Option.bind_eq_bind, Option.bind_eq_some_iff, Option.some.injEq] at h
    obtain ⟨x, h1, r, h2, rfl⟩ := h
    simp only [BVals.marks, Blocks.marks, C119_text _ _ _ h1, tckBlocks_marks src rest r h2 hu]
  | .ulist is a e rest, v, h, hu => by
    simp only [genBlocks, Option.bind_eq_bind, Option.bind_eq_some_iff, Option.some.injEq] at h
    obtain ⟨x, h1, r, h2, rfl⟩ := h
    simp only [BVals.marks, Blocks.marks, tckItems_marks src is x h1 hu.1, tckBlocks_marks src rest r h2 hu.2]
  | .listing d ns a e rest, v, h, hu => by
    simp only [genBlocks, Option.bind_eq_bind, Option.bind_eq_some_iff, Option.some.injEq] at h
    obtain ⟨x, h1, r, h2, rfl⟩ := h
    have hd : d = ['-', '-', '-', '-'] := hu.1.trans (by decide)
    simp only [BVals.marks, Blocks.marks, C119_text _ _ _ h1, tckBlocks_marks src rest r h2 hu.2, hd]
  | .sidebar d bs a e rest, v, h, hu => by
    simp only [genBlocks, Option.bind_eq_bind, Option.bind_eq_some_iff, Option.some.injEq] at h
    obtain ⟨x, h1, r, h2, rfl⟩ := h
    have hd : d = ['*', '*', '*', '*'] := hu.1.trans (by decide)
    simp only [BVals.marks, Blocks.marks, tckBlocks_marks src bs x h1 hu.2.1, tckBlocks_marks src rest r h2 hu.2.2, hd]
  | .sect .., v, h, _ => by simp [genBlocks] at h
  | .other .., v, h, _ => by simp [genBlocks] at h
theorem tckItems_marks (src : List UInt8) : ∀ (is : ListItems) (v : IVals), genItems src is = some v → is.usual → v.marks = is.marks src
  | .nil, v, h, _ => by
    simp only [genItems, Option.some.injEq] at h
    subst h; rfl
  | .item m a p bs rest, v, h, hu => by
    simp only [genItems, Option.bind_eq_bind, Option.bind_eq_some_iff, Option.some.injEq] at h
    obtain ⟨x, h1, e, h2, r, h3, rfl⟩ := h
    obtain ⟨rfl, hb, hr⟩ := hu
    cases bs <;> first | cases hb; done | skip
    simp only [IVals.marks, ListItems.marks, Blocks.marks, C119_text _ _ _ h1, finish_of _ _ h2, tckItems_marks src rest r h3 hr, List.append_nil]
end

theorem tckSects_marks (src : List UInt8) : ∀ (ss : Sects) (v : BVals), genSects src ss = some v → ss.usual → v.marks = ss.marks src
  | .nil, v, h, _ => by
    simp only [genSects, Option.some.injEq] at h
    subst h; rfl
  | .sect l t bs a e rest, v, h, hu => by
    simp only [genSects, Option.bind_eq_bind, Option.bind_eq_some_iff, Option.some.injEq] at h
    obtain ⟨x, h1, y, h2, r, h3, rfl⟩ := h
    simp only [BVals.marks, Sects.marks, C119_text _ _ _ h1, tckBlocks_marks src bs y h2 hu.1, tckSects_marks src rest r h3 hu.2]

/-- **C123**: when a document is written the kit's own way, the graph that is written for it, read from top to bottom, has the same blocks in
the same nesting, with the same places, markers, levels, titles and text, as the document. Partial: see the violations below. -/
theorem C123_blocks_partial (src : List UInt8) (d : Document) (g : DVal) (h : genDoc src d = some g) (hu : d.content.usual) :
    (g.blocks.map (·.marks)).getD [] = d.content.marks src := by
  simp only [genDoc, Option.bind_eq_bind, Option.bind_eq_some_iff] at h
  obtain ⟨hd, _, bs, hb, h⟩ := h
  split at h
  · cases h
  · cases h
    unfold genContent at hb
    split at hb
    · cases hb; rename_i hc; rw [hc]; simp [Content.marks, Blocks.marks]
    · rename_i x hx hc
      rw [hc] at hu ⊢
      simp only [Option.map_eq_some_iff] at hb
      obtain ⟨v, h1, rfl⟩ := hb
      exact tckBlocks_marks src x v h1 hu
    · rename_i pre ss hc
      rw [hc] at hu ⊢
      simp only [Option.map_eq_some_iff] at hb
      obtain ⟨v, h1, rfl⟩ := hb
      obtain ⟨rfl, hu⟩ := hu
      simp only [Content.marks, Option.map_some, Option.getD_some, Option.map_none, Option.getD_none, List.nil_append]
      exact tckSects_marks src ss v h1 hu
    · cases hb

/-- **C123** (header): the graph has a header exactly when the document has one, with the title it shows and its place, and the attributes
set in it under their names, in order, except those the parser adds for itself; the text of an attribute is the one that was written. -/
theorem C123_header (src : List UInt8) (d : Document) (g : DVal) (h : genDoc src d = some g) :
    g.header.map (fun x => (x.title.map (·.shown), x.loc)) =
      d.header.map (fun x => (x.title.map (·.shown), span src x.start x.stop)) ∧
    (d.header = none → g.attributes = none) ∧
    (d.header ≠ none → ∃ as, g.attributes = some as ∧
      as.map (·.1) = (d.attrs.map (·.1)).filter (fun k => !("_asciidork_derived_".toList.isPrefixOf k)) ∧
      (∀ k s, (k, AttrVal.str s) ∈ d.attrs → "_asciidork_derived_".toList.isPrefixOf k = false → (k, s) ∈ as) ∧
      (∀ k s, (k, s) ∈ as → s ≠ [] → (k, AttrVal.str s) ∈ d.attrs)) := by
  simp only [genDoc, Option.bind_eq_bind, Option.bind_eq_some_iff] at h
  obtain ⟨hd, hh, bs, _, h⟩ := h
  split at h
  · cases h
  · cases h
    have e : derived = "_asciidork_derived_".toList := rfl
    refine ⟨?_, fun h => by simp [h], fun hne => ?_⟩
    · split at hh
      · rename_i hc; cases hh; simp [hc]
      · rename_i x hc
        simp only [Option.map_eq_some_iff] at hh
        obtain ⟨w, hw, rfl⟩ := hh
        unfold genHeader at hw
        split at hw
        · rename_i ht; cases hw; simp [hc, ht]
        · rename_i ns ht
          simp only [Option.map_eq_some_iff] at hw
          obtain ⟨v, hv, rfl⟩ := hw
          simp [hc, ht, C119_text _ _ _ hv]
    · cases hc : d.header with
      | none => exact absurd hc hne
      | some x =>
        refine ⟨genAttrs d.attrs, rfl, ?_, ?_, ?_⟩
        · rw [genAttrs, ← e]
          generalize derived = p
          induction d.attrs with
          | nil => rfl
          | cons a as ih =>
            simp only [List.filter_cons, List.map_cons]
            split <;> simp [ih]
        · rw [← e, genAttrs]
          generalize derived = p
          intro k s hk hp
          exact List.mem_map.2 ⟨(k, .str s), List.mem_filter.2 ⟨hk, by simp [hp]⟩, rfl⟩
        · rw [genAttrs]
          generalize derived = p
          intro k s hk hs
          obtain ⟨⟨k', v⟩, h1, h2⟩ := List.mem_map.1 hk
          cases v with
          | str t =>
            simp only [Prod.mk.injEq] at h2
            obtain ⟨rfl, rfl⟩ := h2
            exact (List.mem_filter.1 h1).1
          | bool b =>
            simp only [Prod.mk.injEq] at h2
            exact absurd h2.2.symm hs

theorem lastEnd_some (ns : Nodes) (h : ns ≠ .nil) : ∃ e, ns.lastEnd = some e := by
  cases ns with
  | nil => exact absurd rfl h
  | _ => exact ⟨_, rfl⟩

mutual
theorem tckBlocks_some (src : List UInt8) : ∀ bs : Blocks, bs.known → ∃ v, genBlocks src bs = some v
  | .nil, _ => ⟨.nil, by simp [genBlocks]⟩
  | .para ns a e rest, h => by
    obtain ⟨x, hx⟩ := C119_answer_partial src ns h.1
    obtain ⟨r, hr⟩ := tckBlocks_some src rest h.2
    exact ⟨_, by simp only [genBlocks, hx, hr]; rfl⟩
  | .ulist is a e rest, h => by
    obtain ⟨x, hx⟩ := tckItems_some src is h.1
    obtain ⟨r, hr⟩ := tckBlocks_some src rest h.2
    exact ⟨_, by simp only [genBlocks, hx, hr]; rfl⟩
  | .listing d ns a e rest, h => by
    obtain ⟨x, hx⟩ := C119_answer_partial src ns h.1
    obtain ⟨r, hr⟩ := tckBlocks_some src rest h.2
    exact ⟨_, by simp only [genBlocks, hx, hr]; rfl⟩
  | .sidebar d bs a e rest, h => by
    obtain ⟨x, hx⟩ := tckBlocks_some src bs h.1
    obtain ⟨r, hr⟩ := tckBlocks_some src rest h.2
    exact ⟨_, by simp only [genBlocks, hx, hr]; rfl⟩
  | .sect .., h => h.elim
  | .other .., h => h.elim
theorem tckItems_some (src : List UInt8) : ∀ is : ListItems, is.known → ∃ v, genItems src is = some v
  | .nil, _ => ⟨.nil, by simp [genItems]⟩
  | .item m a p bs rest, h => by
    obtain ⟨x, hx⟩ := C119_answer_partial src p h.2.1
    obtain ⟨e, he⟩ := lastEnd_some p h.1
    obtain ⟨r, hr⟩ := tckItems_some src rest h.2.2
    exact ⟨_, by simp only [genItems, hx, he, hr]; rfl⟩
end

theorem tckSects_some (src : List UInt8) : ∀ ss : Sects, ss.known → ∃ v, genSects src ss = some v
  | .nil, _ => ⟨.nil, rfl⟩
  | .sect l t bs a e rest, h => by
    obtain ⟨x, hx⟩ := C119_answer_partial src t h.1
    obtain ⟨y, hy⟩ := tckBlocks_some src bs h.2.1
    obtain ⟨r, hr⟩ := tckSects_some src rest h.2.2
    exact ⟨_, by simp only [genSects, hx, hy, hr]; rfl⟩

/-- **C123** (an answer): a document that is not empty and has only blocks the kit knows gets a graph. Partial: for others there is a panic. -/
theorem C123_answer_partial (src : List UInt8) (d : Document) (hs : src ≠ []) (hc : d.content.known)
    (hh : ∀ h ns, d.header = some h → h.title = some ns → ns.plain false) : ∃ g, genDoc src d = some g := by
  have hb : ∃ b, genContent src d.content = some b := by
    unfold genContent
    split
    · exact ⟨_, rfl⟩
    · rename_i x hx hc'
      rw [hc'] at hc
      obtain ⟨v, hv⟩ := tckBlocks_some src x hc
      exact ⟨_, by rw [hv]; rfl⟩
    · rename_i pre ss hc'
      rw [hc'] at hc
      obtain ⟨v, hv⟩ := tckSects_some src ss hc
      exact ⟨_, by rw [hv]; rfl⟩
    · rename_i hc'
      rw [hc'] at hc
      exact hc.elim
  obtain ⟨b, hb⟩ := hb
  have he : src.isEmpty = false := by cases src <;> simp_all
  cases hd : d.header with
  | none => exact ⟨_, by simp only [genDoc, hd, hb, he]; rfl⟩
  | some h =>
    have : ∃ w, genHeader src h = some w := by
      unfold genHeader
      split
      · exact ⟨_, rfl⟩
      · rename_i ns ht
        obtain ⟨v, hv⟩ := C119_answer_partial src ns (hh h ns hd ht)
        exact ⟨_, by rw [hv]; rfl⟩
    obtain ⟨w, hw⟩ := this
    exact ⟨_, by simp only [genDoc, hd, hb, he, hw]; rfl⟩

/-- `= T`, `:a: 1`, `:b:`, then `== S`, a list of `* x` and a sidebar with a listing -/
private def demo : Document :=
  ⟨some ⟨some (.text ['T'] 2 3 .nil), 0, 15⟩, [(['a'], .str ['1']), (['b'], .bool true), ("_asciidork_derived_c".toList, .str ['d'])],
    .sections none (.sect 1 (.text ['S'] 20 21 .nil)
      (.ulist (.item ['*'] 23 (.text ['x'] 25 26 .nil) .nil .nil) 23 26
        (.sidebar "****".toList (.listing "----".toList (.text ['y'] 38 39 .nil) 33 44 .nil) 28 49 .nil)) 17 49 .nil)⟩

private def demoSrc : List UInt8 := "= T\n:a: 1\n:b:\n\n\n== S\n\n* x\n\n****\n----\ny\n----\n****".toUTF8.toList

example : demo.content.usual ∧ demo.content.known ∧ demoSrc ≠ [] ∧
    (∀ h ns, demo.header = some h → h.title = some ns → ns.plain false) := by
  refine ⟨⟨rfl, ⟨⟨rfl, trivial, trivial⟩, rfl, ⟨rfl, trivial⟩, trivial⟩, trivial⟩, ?_, by decide +kernel, ?_⟩
  · exact ⟨trivial, ⟨⟨nofun, trivial, trivial⟩, ⟨trivial, trivial⟩, trivial⟩, trivial⟩
  · intro h ns e1 e2
    cases e1; cases e2; trivial

/-- **C123** (place of the document): it is from the first column of the first line to the last column of the last line. -/
theorem C123_place (src : List UInt8) (d : Document) (g : DVal) (h : genDoc src d = some g) (before : List (List UInt8)) (line : List UInt8)
    (hs : src = source before ++ line) (hb : ∀ l ∈ before, (10 : UInt8) ∉ l) (hl : (10 : UInt8) ∉ line) (hne : line ≠ []) :
    g.loc = (⟨1, 1⟩, ⟨before.length + 1, line.length⟩) := by
  simp only [genDoc, Option.bind_eq_bind, Option.bind_eq_some_iff] at h
  obtain ⟨_, _, _, _, h⟩ := h
  split at h
  · cases h
  · cases h
    have hp : 0 < line.length := List.length_pos_iff.2 hne
    have e := fromPos_line before line [] hb hl (line.length - 1) (by omega)
    rw [List.append_nil, ← hs] at e
    have el : src.length - 1 = (source before).length + (line.length - 1) := by rw [hs, List.length_append]; omega
    simp only [el, e, Loc.incr]
    rw [show line.length - 1 + 1 = line.length by omega]

/-- **C123 violated** (preamble): blocks before the first section are not in the graph, whatever they are. -/
theorem C123_preamble_violated (src : List UInt8) (pre : Blocks) (ss : Sects) (h : Option Header) (as : List (List Char × AttrVal)) :
    genDoc src ⟨h, as, .sections (some pre) ss⟩ = genDoc src ⟨h, as, .sections none ss⟩ := rfl

/-- **C123 violated** (list items): neither the blocks attached to an item nor its marker are in the graph. -/
theorem C123_items_violated (src : List UInt8) (m : List Char) (a : Nat) (p : Nodes) (bs : Blocks) (rest : ListItems) :
    genItems src (.item m a p bs rest) = genItems src (.item ['*'] a p .nil rest) := by simp only [genItems]

/-- **C123 violated** (delimiters): longer delimiters are not in the graph. -/
theorem C123_delimiter_violated (src : List UInt8) (d : List Char) (ns : Nodes) (a e : Nat) (rest : Blocks) :
    genBlocks src (.listing d ns a e rest) = genBlocks src (.listing "----".toList ns a e rest) := by simp only [genBlocks]

/-- **C123 violated** (attributes): an attribute that was unset looks like one that was set to nothing. -/
theorem C123_unset_violated (k : List Char) : genAttrs [(k, .bool false)] = genAttrs [(k, .bool true)] := by
  simp only [genAttrs, List.filter_cons]
  split <;> rfl

/-- **C123 violated** (panics): there is no graph for a section in a section, nor for an empty document. -/
theorem C123_answer_violated :
    (∀ src l t l' t' bs a e rest a' e' rest', genSects src (.sect l t (.sect l' t' bs a e rest) a' e' rest') = none) ∧
    (∀ d, genDoc [] d = none) := by
  refine ⟨?_, ?_⟩
  · intros
    simp only [genSects, genBlocks]
    cases nodeValues _ _ <;> rfl
  · intro d
    simp only [genDoc]
    cases genContent [] d.content <;> cases d.header <;> simp

end Verif.Props
