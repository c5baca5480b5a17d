import Verif.Spec.ListMarks
/-! Lists with the state of the backend and without it -/
namespace Verif.ListMarks
open Verif.OpenTag

theorem kinds_four : kinds.getD 4 ("upperroman".toList, "I".toList) = ("upperroman".toList, "I".toList) := by decide +kernel

theorem kindAt_five (n : Nat) : kindAt (n + 5) = ("upperroman".toList, "I".toList) := by
  have : min (n + 5 - 1) 4 = 4 := by omega
  rw [kindAt, this, kinds_four]

theorem typeFromDepth_eq {d : Nat} (hd : 0 < d) : typeFromDepth d = (kindAt d).2 := by
  by_cases h1 : d = 1
  · subst h1; decide +kernel
  by_cases h2 : d = 2
  · subst h2; decide +kernel
  by_cases h3 : d = 3
  · subst h3; decide +kernel
  by_cases h4 : d = 4
  · subst h4; decide +kernel
  obtain ⟨n, rfl⟩ : ∃ n, d = n + 5 := ⟨d - 5, by omega⟩
  have e1 := kindAt_five n
  unfold typeFromDepth
  generalize "upperroman".toList = x at *
  generalize "I".toList = y at *
  rw [e1, if_neg h1, if_neg h2, if_neg h3, if_neg h4]

theorem classFromDepth_eq {d : Nat} (hd : 0 < d) : classFromDepth d = (kindAt d).1 := by
  by_cases h1 : d = 1
  · subst h1; decide +kernel
  by_cases h2 : d = 2
  · subst h2; decide +kernel
  by_cases h3 : d = 3
  · subst h3; decide +kernel
  by_cases h4 : d = 4
  · subst h4; decide +kernel
  obtain ⟨n, rfl⟩ : ∃ n, d = n + 5 := ⟨d - 5, by omega⟩
  have e1 := kindAt_five n
  unfold classFromDepth
  generalize "upperroman".toList = x at *
  generalize "I".toList = y at *
  rw [e1, if_neg h1, if_neg h2, if_neg h3, if_neg h4]

theorem kinds_known : ∀ k ∈ kinds, numberStyles.contains k.1 = true ∧ typeFromClass k.1 = some k.2 ∧
    kinds.find? (·.1 = k.1) = some k := by decide +kernel

theorem styles_known : ∀ s ∈ numberStyles, (kinds.find? (·.1 = s)).isSome = true ∨
    (kinds.find? (·.1 = s) = none ∧ typeFromClass s = none ∧ letterless.contains s = true) := by decide +kernel

theorem letterless_known : ∀ s ∈ letterless, numberStyles.contains s = true := by decide +kernel

theorem kindOf_eq {d : Nat} (hd : 0 < d) (asked : Option Str) :
    ((asked.filter (numberStyles.contains ·)).getD (classFromDepth d),
      ((asked.filter (numberStyles.contains ·)).bind typeFromClass).getD (typeFromDepth d)) = kindOf d asked := by
  rw [classFromDepth_eq hd, typeFromDepth_eq hd]
  unfold kindOf
  cases asked with
  | none => rfl
  | some s =>
    rw [Option.bind_some]
    cases hf : kinds.find? (·.1 = s) with
    | some k =>
      have hm := List.mem_of_find?_eq_some hf
      have hk : k.1 = s := by simpa using List.find?_some hf
      obtain ⟨h1, h2, -⟩ := kinds_known k hm
      rw [hk] at h1 h2
      simp only [Option.filter, h1, if_true, Option.getD_some, Option.bind_some, h2]
      rw [← hk]
    | none =>
      by_cases hs : numberStyles.contains s = true
      · rcases styles_known s (List.contains_iff_mem.1 hs) with h | ⟨-, h2, h3⟩
        · rw [hf] at h; cases h
        · simp only [Option.filter, hs, if_true, Option.getD_some, Option.bind_some, h2, h3, Option.getD_none]
      · have hl : letterless.contains s = false := by
          cases hl : letterless.contains s with
          | false => rfl
          | true => exact absurd (letterless_known s (List.contains_iff_mem.1 hl)) hs
        have hs : numberStyles.contains s = false := by simpa using hs
        simp only [Option.filter, hs, hl]
        rfl

theorem openOrdered_eq {depth desc : Nat} (h : desc < depth) (a : ListAttrs) {items : List Item} (hne : items ≠ []) :
    openOrdered depth desc a items = some (olOf (depth - desc) a items) := by
  have hk := kindOf_eq (d := depth - desc) (by omega) a.style
  have hs : startOf a items = some (olOf (depth - desc) a items).start := by
    unfold startOf olOf
    cases a.start with
    | some s => rfl
    | none =>
      match items, hne with
      | .mk m c inner :: is, _ => cases m <;> simp [Item.marker, written1]
  unfold openOrdered
  simp only [sub8, if_pos (Nat.le_of_lt h), hs, bind, Option.bind, pure]
  have h1 := congrArg Prod.fst hk
  have h2 := congrArg Prod.snd hk
  dsimp only at h1 h2
  simp only [Option.bind] at h2
  rw [h1, h2]
  rfl

theorem markerStyles_eq : markerStyles = bullets := by decide +kernel

/-- the numbers of callouts that are shown are small -/
def Small (o : List Out) : Prop := ∀ n, Out.callout n ∈ o → n + 1 < 256

theorem Small.left {a b : List Out} (h : Small (a ++ b)) : Small a := fun n hn => h n (List.mem_append_left _ hn)
theorem Small.right {a b : List Out} (h : Small (a ++ b)) : Small b := fun n hn => h n (List.mem_append_right _ hn)
theorem Small.tail {a : Out} {b : List Out} (h : Small (a :: b)) : Small b := fun n hn => h n (List.mem_cons_of_mem _ hn)

mutual
theorem run_eq (icons : Images.IconMode) (n around : Nat) (l : Lst) (s : St) (hd : s.desc + around = n) (hh : n + height l < 256)
    (hr : regular l = true) (hs : Small (listShows icons around l)) :
    ∃ c, run icons n l s = some (listShows icons around l, { s with conum := c }) ∧ (calls l = false → c = s.conum) := by
  match l with
  | .mk v a items =>
    simp only [height] at hh
    simp only [regular, Bool.and_eq_true, Bool.not_eq_true', List.isEmpty_eq_false_iff] at hr
    obtain ⟨⟨hne, hcc⟩, hri⟩ := hr
    cases v with
    | ordered =>
      simp only [listShows, List.cons_append] at hs ⊢
      obtain ⟨c, h1, h2⟩ := runItems_eq icons (n + 1) (around + 1) .ordered false 0 items
        { s with stack := false :: s.stack } (by dsimp only; omega) (by omega) hri hs.tail.left (fun _ => rfl) nofun
      have h2 := h2 nofun
      refine ⟨c, ?_, fun hc => h2 (by simpa [calls] using hc)⟩
      have hm : (n + 1) % 256 = n + 1 := Nat.mod_eq_of_lt (by omega)
      simp only [run, hm, openOrdered_eq (show s.desc < n + 1 by omega) a hne, bind, Option.bind, h1, pure, List.tail_cons]
      rw [show n + 1 - s.desc = around + 1 by omega]
      rfl
    | unordered =>
      simp only [listShows, List.cons_append] at hs ⊢
      obtain ⟨c, h1, h2⟩ := runItems_eq icons (n + 1) (around + 1) .unordered a.interactive 0 items
        { s with stack := a.interactive :: s.stack } (by dsimp only; omega) (by omega) hri hs.tail.left
        (fun _ => by cases a.interactive <;> rfl) nofun
      have h2 := h2 nofun
      refine ⟨c, ?_, fun hc => h2 (by simpa [calls] using hc)⟩
      simp only [run, bind, Option.bind, h1, pure, List.tail_cons, markerStyles_eq]
      rfl
    | callout =>
      simp only [listShows, List.cons_append] at hs ⊢
      obtain ⟨c, h1, -⟩ := runItems_eq icons (n + 1) (around + 1) .callout false 1 items
        { s with conum := 1 } (by dsimp only; omega) (by omega) hri hs.tail.left (fun h => by simp at h)
        (fun _ => ⟨by simpa using hcc, fun _ => rfl⟩)
      refine ⟨c, ?_, fun hc => by simp [calls] at hc⟩
      simp only [run, bind, Option.bind, h1, pure]
      rfl
    | description =>
      simp only [listShows, List.cons_append] at hs ⊢
      obtain ⟨c, h1, h2⟩ := runItems_eq icons (n + 1) around .description false 0 items
        { s with desc := s.desc + 1 } (by dsimp only; omega) (by omega) hri hs.tail.left (fun h => by simp at h) nofun
      have h2 := h2 nofun
      refine ⟨c, ?_, fun hc => h2 (by simpa [calls] using hc)⟩
      simp only [run, succ8, if_pos (show s.desc + 1 < 256 by omega), bind, Option.bind, h1, pure, sub8,
        if_pos (show 1 ≤ s.desc + 1 by omega), Nat.add_sub_cancel]
      rfl

theorem runItems_eq (icons : Images.IconMode) (n around : Nat) (v : Variant) (inter : Bool) (next : Nat) (is : List Item) (s : St)
    (hd : s.desc + around = n) (hh : n + itemsHeight is < 256) (hr : itemsRegular is = true)
    (hs : Small (itemsShow icons around v inter next is))
    (ht : v = .ordered ∨ v = .unordered → decide (s.stack.head? = some true) = inter)
    (hc : v = .callout → itemsCall is = false ∧ (icons ≠ .text → s.conum = next)) :
    ∃ c, runItems icons n v is s = some (itemsShow icons around v inter next is, { s with conum := c }) ∧
      (v ≠ .callout → itemsCall is = false → c = s.conum) := by
  match is with
  | [] => exact ⟨s.conum, by simp [runItems, itemsShow], fun _ _ => rfl⟩
  | i :: is =>
    simp only [itemsHeight] at hh
    simp only [itemsRegular, Bool.and_eq_true] at hr
    simp only [itemsShow] at hs
    obtain ⟨c, h1, h2, h3⟩ := runItem_eq icons n around v inter next i s hd (by omega) hr.1 hs.left ht
      (fun h => ⟨by have := (hc h).1; simp [itemsCall] at this; exact this.1, (hc h).2⟩)
    obtain ⟨d, h4, h5⟩ := runItems_eq icons n around v inter (numberOf next i.marker + 1) is { s with conum := c } hd (by omega) hr.2
      hs.right ht (fun h => ⟨by have := (hc h).1; simp [itemsCall] at this; exact this.2, fun hi => h3 h hi⟩)
    refine ⟨d, ?_, ?_⟩
    · simp only [runItems, h1, h4, bind, Option.bind, pure, itemsShow]
    · intro hv hi
      simp only [itemsCall, Bool.or_eq_false_iff] at hi
      rw [h5 hv hi.2, ← h2 hv hi.1]

theorem runItem_eq (icons : Images.IconMode) (n around : Nat) (v : Variant) (inter : Bool) (next : Nat) (i : Item) (s : St)
    (hd : s.desc + around = n) (hh : n + itemHeight i < 256) (hr : itemRegular i = true)
    (hs : Small (itemShows icons around v inter next i))
    (ht : v = .ordered ∨ v = .unordered → decide (s.stack.head? = some true) = inter)
    (hc : v = .callout → itemCalls i = false ∧ (icons ≠ .text → s.conum = next)) :
    ∃ c, runItem icons n v i s = some (itemShows icons around v inter next i, { s with conum := c }) ∧
      (v ≠ .callout → itemCalls i = false → c = s.conum) ∧
      (v = .callout → icons ≠ .text → c = numberOf next i.marker + 1) := by
  match i with
  | .mk m ch inner =>
    simp only [itemHeight] at hh
    simp only [itemRegular] at hr
    simp only [itemShows] at hs
    have hm : ∃ c, mark icons v m ch s = some (markOf icons v inter next m ch, { s with conum := c }) ∧
        (v ≠ .callout → c = s.conum) ∧ (v = .callout → icons ≠ .text → c = numberOf next m + 1) := by
      cases v with
      | description => exact ⟨s.conum, rfl, fun _ => rfl, nofun⟩
      | callout =>
        by_cases hi : icons = .text
        · exact ⟨s.conum, by simp [mark, markOf, hi], fun h => absurd rfl h, fun _ h => absurd hi h⟩
        · refine ⟨numberOf next m + 1, ?_, fun h => absurd rfl h, fun _ _ => rfl⟩
          have hlt : numberOf next m + 1 < 256 := hs (numberOf next m) (by simp [markOf, hi])
          have hn : calloutNum s.conum m = numberOf next m := by
            rw [(hc rfl).2 hi]
            cases m with
            | callout o => cases o <;> rfl
            | _ => rfl
          simp only [mark, if_neg hi, hn, succ8, if_pos hlt, bind, Option.bind, pure, markOf]
      | ordered =>
        refine ⟨s.conum, ?_, fun _ => rfl, nofun⟩
        cases ch with
        | none => rfl
        | some b => simp only [mark, markOf, ht (.inl rfl)]
      | unordered =>
        refine ⟨s.conum, ?_, fun _ => rfl, nofun⟩
        cases ch with
        | none => rfl
        | some b => simp only [mark, markOf, ht (.inr rfl)]
    obtain ⟨c, h1, h2, h3⟩ := hm
    obtain ⟨d, h4, h5⟩ := runLsts_eq icons n around inner { s with conum := c } hd hh hr hs.tail
    refine ⟨d, ?_, ?_, ?_⟩
    · simp only [runItem, h1, h4, bind, Option.bind, pure, itemShows]
    · intro hv hi
      rw [h5 (by simpa [itemCalls] using hi), ← h2 hv]
    · intro hv hi
      have := (hc hv).1
      rw [h5 (by simpa [itemCalls] using this)]
      exact h3 hv hi

theorem runLsts_eq (icons : Images.IconMode) (n around : Nat) (ls : List Lst) (s : St) (hd : s.desc + around = n)
    (hh : n + listsHeight ls < 256) (hr : listsRegular ls = true) (hs : Small (listsShow icons around ls)) :
    ∃ c, runLsts icons n ls s = some (listsShow icons around ls, { s with conum := c }) ∧ (listsCall ls = false → c = s.conum) := by
  match ls with
  | [] => exact ⟨s.conum, by simp [runLsts, listsShow], fun _ => rfl⟩
  | l :: ls =>
    simp only [listsHeight] at hh
    simp only [listsRegular, Bool.and_eq_true] at hr
    simp only [listsShow] at hs
    obtain ⟨c, h1, h2⟩ := run_eq icons n around l s hd (by omega) hr.1 hs.left
    obtain ⟨d, h3, h4⟩ := runLsts_eq icons n around ls { s with conum := c } hd (by omega) hr.2 hs.right
    refine ⟨d, ?_, ?_⟩
    · simp only [runLsts, h1, h3, bind, Option.bind, pure, listsShow]
    · intro hc
      simp only [listsCall, Bool.or_eq_false_iff] at hc
      rw [h4 hc.2, ← h2 hc.1]
end

end Verif.ListMarks
