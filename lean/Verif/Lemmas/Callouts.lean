import Verif.Spec.Callouts
import Verif.Lemmas.IncludeText
namespace Verif.Callouts
set_option linter.unusedSimpArgs false

/-! ### what is written -/

theorem filter_digits (n : Nat) : (Nat.toDigits 10 n).filter Char.isDigit = Nat.toDigits 10 n := by
  rw [List.filter_eq_self]
  intro c hc
  exact Nat.isDigit_of_mem_toDigits (by decide) (by decide) hc

theorem parse_write (m : Mark) : parseCalloutNum m.write = m.number.bind fun n => if n ≤ 255 then some n else none := by
  obtain ⟨num, xml⟩ := m
  have h1 : (if xml = true then "<!--".toList else ['<']).filter Char.isDigit = [] := by cases xml <;> decide
  have h2 : (if xml = true then "-->".toList else ['>']).filter Char.isDigit = [] := by cases xml <;> decide
  unfold parseCalloutNum Mark.write
  simp only [List.filter_append, h1, h2, List.nil_append, List.append_nil]
  cases num with
  | none => decide
  | some n =>
    simp only [filter_digits, Option.bind_some]
    have hne : Nat.toDigits 10 n ≠ [] := Nat.toDigits_ne_nil
    rw [if_neg (by simp), Nat.ofDigitChars_ten_toDigits]

theorem xml_write (m : Mark) : ['<', '!', '-', '-'].isPrefixOf m.write = m.xml := by
  obtain ⟨num, xml⟩ := m
  cases xml with
  | true => simp [Mark.write]
  | false =>
    simp only [Mark.write, Bool.false_eq_true, if_false, List.cons_append, List.nil_append]
    cases num with
    | none => decide
    | some n =>
      have hne : Nat.toDigits 10 n ≠ [] := Nat.toDigits_ne_nil
      cases hl : Nat.toDigits 10 n with
      | nil => exact absurd hl hne
      | cons c cs =>
        have hd := Nat.isDigit_of_mem_toDigits (b := 10) (n := n) (by decide) (by decide) (c := c) (by rw [hl]; simp)
        have : c ≠ '!' := by rintro rfl; revert hd; decide
        simp only [hl]; simp [List.isPrefixOf, this.symm]

theorem parse_ok {m : Mark} (h : m.ok) : parseCalloutNum m.write = m.number := by
  rw [parse_write]
  cases hm : m.number with
  | none => rfl
  | some n => simp [(h n (by simp [hm])).2]

/-! ### the callouts of a group -/

theorem succ8_eq {n : Nat} (h : n < 255) : succ8 n = some (n + 1) := by simp [succ8, h]

/-- callouts in the order of their ids -/
def Ids (l i : Nat) : List Callout → Prop
  | [] => True
  | c :: cs => c.listIdx = l ∧ c.calloutIdx = i ∧ Ids l (i + 1) cs

theorem run_append (s : St) (a b : List Ev) :
    run s (a ++ b) = (run s a).bind fun (o, s) => (run s b).bind fun (os, s) => some (o ++ os, s) := by
  induction a generalizing s with
  | nil =>
    simp only [List.nil_append, run, Option.bind_some]
    cases run s b with
    | none => rfl
    | some r => simp
  | cons e es ih =>
    simp only [List.cons_append, run]
    cases step s e with
    | none => rfl
    | some r =>
      simp only [Option.bind_some, ih]
      cases run r.2 es with
      | none => rfl
      | some r2 =>
        simp only [Option.bind_some]
        cases run r2.2 b with
        | none => rfl
        | some r3 => simp

def blockEvs (bs : List (List Mark)) : List Ev := bs.flatMap fun b => .block :: b.map fun m => .callout m.write

/-- more callouts, after one whose number is not zero -/
theorem callouts_more (autos : List Nat) : ∀ (ms : List Mark) (cs : List Callout) (last : Callout), cs.getLast? = some last →
    last.number ≠ 0 → (∀ m ∈ ms, m.ok) → (∀ n ∈ numbers last.number ms, n ≤ 255) → last.calloutIdx + ms.length ≤ 255 →
    ∃ shown, run ⟨cs, autos⟩ (ms.map fun m => .callout m.write) = some (shown.map .callout, ⟨cs ++ shown, autos⟩) ∧
      shown.map Callout.number = numbers last.number ms ∧ shown.map Callout.xml = ms.map Mark.xml ∧
      Ids last.listIdx (last.calloutIdx + 1) shown := by
  intro ms
  induction ms with
  | nil => intro cs last _ _ _ _ _; exact ⟨[], by simp [run, numbers, Ids]⟩
  | cons m ms ih =>
    intro cs last hlast hz hok hle hlen
    have hm := hok m (by simp)
    simp only [numbers, List.length_cons] at hle hlen
    let c : Callout := ⟨last.listIdx, last.calloutIdx + 1, m.number.getD (last.number + 1), m.xml⟩
    have hpos : c.number ≠ 0 := by
      show m.number.getD (last.number + 1) ≠ 0
      cases hn : m.number with
      | none => simp
      | some n => have := (hm n (by simp [hn])).1; simp; omega
    have hstep : step ⟨cs, autos⟩ (.callout m.write) = some ([.callout c], ⟨cs ++ [c], autos⟩) := by
      simp only [step, parse_ok hm, xml_write, pushCallout, hlast, if_neg hz, succ8_eq (show last.calloutIdx < 255 by omega),
        Option.bind_some]
      cases hn : m.number with
      | none =>
        have : last.number + 1 ≤ 255 := hle _ (by simp [hn])
        simp [succ8_eq (show last.number < 255 by omega), c, hn]
      | some n => simp [c, hn]
    obtain ⟨shown, h1, h2, h3, h4⟩ := ih (cs ++ [c]) c (by simp) hpos (fun x hx => hok x (by simp [hx]))
      (fun n hn => hle n (by simp only [List.mem_cons]; exact .inr hn)) (by show last.calloutIdx + 1 + ms.length ≤ 255; omega)
    refine ⟨c :: shown, ?_, ?_, ?_, ?_⟩
    · simp only [List.map_cons, run, hstep, Option.bind_some, h1]
      simp
    · simp [numbers, h2, c]
    · simp [h3, c]
    · exact ⟨rfl, rfl, h4⟩

/-- before the callouts of a group: there were none yet, or a list has just ended -/
def Fresh (l : Nat) (cs : List Callout) : Prop := (cs = [] ∧ l = 0) ∨ ∃ b, cs = [⟨l, 0, 0, b⟩]

theorem callouts_group (autos : List Nat) (l : Nat) (cs : List Callout) (hcs : Fresh l cs) (ms : List Mark)
    (hok : ∀ m ∈ ms, m.ok) (hle : ∀ n ∈ numbers 0 ms, n ≤ 255) (hlen : ms.length ≤ 256) :
    ∃ shown, run ⟨cs, autos⟩ (ms.map fun m => .callout m.write) = some (shown.map .callout, ⟨if ms = [] then cs else shown, autos⟩) ∧
      shown.map Callout.number = numbers 0 ms ∧ shown.map Callout.xml = ms.map Mark.xml ∧ Ids l 0 shown := by
  cases ms with
  | nil => exact ⟨[], by simp [run, numbers, Ids]⟩
  | cons m ms =>
    have hm := hok m (by simp)
    simp only [numbers, List.length_cons] at hle hlen
    let c : Callout := ⟨l, 0, m.number.getD 1, m.xml⟩
    have hpos : c.number ≠ 0 := by
      show m.number.getD 1 ≠ 0
      cases hn : m.number with
      | none => simp
      | some n => have := (hm n (by simp [hn])).1; simp; omega
    have hstep : step ⟨cs, autos⟩ (.callout m.write) = some ([.callout c], ⟨[c], autos⟩) := by
      rcases hcs with ⟨rfl, rfl⟩ | ⟨b, rfl⟩ <;>
        simp [step, parse_ok hm, xml_write, pushCallout, c]
    obtain ⟨shown, h1, h2, h3, h4⟩ := callouts_more autos ms [c] c (by simp) hpos (fun x hx => hok x (by simp [hx]))
      (fun n hn => hle n (by simp only [List.mem_cons]; exact .inr hn)) (by show 0 + ms.length ≤ 255; omega)
    refine ⟨c :: shown, ?_, ?_, ?_, ?_⟩
    · simp only [List.map_cons, run, hstep, Option.bind_some, h1]
      simp
    · simp [numbers, h2, c]
    · simp [h3, c]
    · exact ⟨rfl, rfl, h4⟩

theorem run_blocks (s : St) (bs : List (List Mark)) :
    run s (blockEvs bs) = run s (bs.flatten.map fun m => .callout m.write) := by
  induction bs generalizing s with
  | nil => rfl
  | cons b bs ih =>
    simp only [blockEvs, List.flatMap_cons, List.flatten_cons, List.map_append]
    rw [run_append, run_append]
    have : run s (.block :: b.map fun m => .callout m.write) = run s (b.map fun m => .callout m.write) := by
      simp only [run, step, Option.bind_some]
      cases run s (b.map fun m => Ev.callout m.write) with
      | none => rfl
      | some r => simp
    rw [this]
    cases run s (b.map fun m => Ev.callout m.write) with
    | none => rfl
    | some r =>
      simp only [Option.bind_some]
      have h2 := ih r.2
      unfold blockEvs at h2
      rw [h2]

theorem run_items (cs shown : List Callout) (autos : List Nat) (hcs : ∀ n, 1 ≤ n → getCallouts cs n = shown.filter fun c => c.number = n) :
    ∀ (items : List Mark) (prev : Nat), (∀ m ∈ items, m.ok) → (∀ n ∈ numbers prev items, n ≤ 254) →
    ∃ next, run ⟨cs, (prev + 1) :: autos⟩ (items.map fun m => .item m.write) = some (itemOuts shown prev items, ⟨cs, next :: autos⟩) := by
  intro items
  induction items with
  | nil => intro prev _ _; exact ⟨prev + 1, by simp [run, itemOuts]⟩
  | cons m ms ih =>
    intro prev hok hle
    have hm := hok m (by simp)
    simp only [numbers] at hle
    have hn254 : m.number.getD (prev + 1) ≤ 254 := hle _ (by simp)
    have hpos : 1 ≤ m.number.getD (prev + 1) := by
      cases hn : m.number with
      | none => simp
      | some n => exact (hm n (by simp [hn])).1
    obtain ⟨next, h⟩ := ih (m.number.getD (prev + 1)) (fun x hx => hok x (by simp [hx]))
      (fun n hn => hle n (by simp only [List.mem_cons]; exact .inr hn))
    refine ⟨next, ?_⟩
    simp only [List.map_cons, run, step, parse_ok hm, succ8_eq (show m.number.getD (prev + 1) < 255 by omega), Option.bind_some, h,
      itemOuts, hcs _ hpos]
    congr 3
    simp only [List.cons_append, List.nil_append, List.cons.injEq, Out.item.injEq, true_and, and_true]
    rw [Bool.eq_iff_iff]
    simp [List.filter_eq_nil_iff]

/-! ### documents -/

theorem ids_facts {l i : Nat} {cs : List Callout} (h : Ids l i cs) :
    (∀ c ∈ cs, c.listIdx = l ∧ i ≤ c.calloutIdx) ∧ (cs.map fun c => (c.listIdx, c.calloutIdx)).Nodup := by
  induction cs generalizing i with
  | nil => simp
  | cons c cs ih =>
    obtain ⟨h1, h2, h3⟩ := h
    obtain ⟨a, b⟩ := ih h3
    refine ⟨?_, ?_⟩
    · intro x hx
      rcases List.mem_cons.mp hx with rfl | hx
      · exact ⟨h1, by omega⟩
      · have := a x hx; exact ⟨this.1, by omega⟩
    · simp only [List.map_cons, List.nodup_cons, List.mem_map, Prod.mk.injEq, not_exists, not_and]
      refine ⟨?_, b⟩
      intro x hx _ h
      have := a x hx
      omega

theorem itemOuts_callout (shown : List Callout) (prev : Nat) (items : List Mark) : (itemOuts shown prev items).filterMap Out.callout? = [] := by
  induction items generalizing prev with
  | nil => rfl
  | cons m ms ih => simp only [itemOuts, List.filterMap_cons, Out.callout?, ih]

theorem map_callout (shown : List Callout) : (shown.map Out.callout).filterMap Out.callout? = shown := by
  induction shown with
  | nil => rfl
  | cons c cs ih => simp only [List.map_cons, List.filterMap_cons, Out.callout?, ih]

theorem run_groups : ∀ (gs : List Group) (l : Nat) (cs : List Callout), Fresh l cs → (∀ g ∈ gs, GroupOk g) → l + gs.length ≤ 255 →
    ∃ outs s, run ⟨cs, []⟩ (gs.flatMap Group.events) = some (outs, s) ∧ Shows gs outs ∧
      (∀ c ∈ outs.filterMap Out.callout?, l ≤ c.listIdx) ∧
      ((outs.filterMap Out.callout?).map fun c => (c.listIdx, c.calloutIdx)).Nodup := by
  intro gs
  induction gs with
  | nil => intro l cs _ _ _; exact ⟨[], ⟨cs, []⟩, by simp [run, Shows]⟩
  | cons g gs ih =>
    intro l cs hcs hok hlen
    obtain ⟨h1, h2, h3, h4, h5⟩ := hok g (by simp)
    simp only [List.length_cons] at hlen
    obtain ⟨shown, hr1, hn, hx, hid⟩ := callouts_group [] l cs hcs g.marks h1 h3 h4
    obtain ⟨hidl, hidn⟩ := ids_facts hid
    -- the callouts that the items see
    have hsee : ∀ n, 1 ≤ n → getCallouts (if g.marks = [] then cs else shown) n = shown.filter fun c => c.number = n := by
      intro n hn'
      by_cases he : g.marks = []
      · simp only [he, if_true]
        have : shown = [] := by rw [he] at hn; simpa [numbers] using hn
        subst this
        rcases hcs with ⟨rfl, _⟩ | ⟨b, rfl⟩
        · rfl
        · simp [getCallouts]; omega
      · simp only [he, if_false]; rfl
    obtain ⟨next, hr2⟩ := run_items _ shown [] hsee g.items 0 h2 h5
    -- the end of the list
    obtain ⟨l', cs', hadv, hfresh, hl1, hl2⟩ : ∃ l' cs', advance (if g.marks = [] then cs else shown) = some cs' ∧ Fresh l' cs' ∧
        l' ≤ l + 1 ∧ (shown ≠ [] → l' = l + 1) ∧ (l ≤ l') := by
      by_cases he : g.marks = []
      · simp only [he, if_true]
        have : shown = [] := by rw [he] at hn; simpa [numbers] using hn
        subst this
        rcases hcs with ⟨rfl, rfl⟩ | ⟨b, rfl⟩
        · exact ⟨0, [], by simp [advance], .inl ⟨rfl, rfl⟩, by omega, by simp, by omega⟩
        · exact ⟨l + 1, [⟨l + 1, 0, 0, false⟩], by simp [advance, succ8_eq (show l < 255 by omega)], .inr ⟨_, rfl⟩, by omega, by simp, by omega⟩
      · simp only [he, if_false]
        have hne : shown ≠ [] := by
          intro h
          subst h
          have := congrArg List.length hx
          simp at this
          exact he (List.eq_nil_of_length_eq_zero this.symm)
        refine ⟨l + 1, [⟨l + 1, 0, 0, false⟩], ?_, .inr ⟨_, rfl⟩, by omega, fun _ => rfl, by omega⟩
        unfold advance
        rw [List.getLast?_eq_some_getLast hne]
        simp [(hidl _ (List.getLast_mem hne)).1, succ8_eq (show l < 255 by omega)]
    obtain ⟨outs, s, hr3, hs3, hb3, hn3⟩ := ih l' cs' hfresh (fun x hx => hok x (by simp [hx])) (by omega)
    refine ⟨shown.map .callout ++ itemOuts shown 0 g.items ++ outs, s, ?_, ?_, ?_, ?_⟩
    · simp only [List.flatMap_cons]
      rw [run_append]
      have hg : run ⟨cs, []⟩ g.events = some (shown.map .callout ++ itemOuts shown 0 g.items, ⟨cs', []⟩) := by
        unfold Group.events
        rw [List.append_assoc, run_append]
        have := run_blocks ⟨cs, []⟩ g.blocks
        unfold blockEvs at this
        rw [this, show g.blocks.flatten = g.marks from rfl, hr1]
        simp only [Option.bind_some, List.cons_append, run, step]
        rw [run_append, hr2]
        simp only [Option.bind_some, run, step, hadv]
        simp
      rw [hg]
      simp only [Option.bind_some, hr3]
    · exact ⟨shown, outs, rfl, hn, hx, hs3⟩
    · simp only [List.filterMap_append, itemOuts_callout, map_callout, List.append_nil, List.mem_append]
      rintro c (hc | hc)
      · have := (hidl c hc).1; omega
      · have := hb3 c hc; omega
    · simp only [List.filterMap_append, itemOuts_callout, map_callout, List.append_nil, List.map_append, List.nodup_append]
      refine ⟨hidn, hn3, ?_⟩
      intro a ha b hb hab
      simp only [List.mem_map] at ha hb
      obtain ⟨x, hx1, rfl⟩ := ha
      obtain ⟨y, hy1, rfl⟩ := hb
      simp only [Prod.mk.injEq] at hab
      have h1 := (hidl x hx1).1
      have h2 := hb3 y hy1
      have h3 := hl2.1 (List.ne_nil_of_mem hx1)
      omega

/-- only automatic callouts -/
theorem numbers_auto (ms : List Mark) (h : ∀ m ∈ ms, m.number = none) (prev : Nat) :
    numbers prev ms = List.range' (prev + 1) ms.length := by
  induction ms generalizing prev with
  | nil => rfl
  | cons m ms ih =>
    simp [numbers, h m (by simp), ih (fun x hx => h x (by simp [hx])), List.range'_succ]

end Verif.Callouts
