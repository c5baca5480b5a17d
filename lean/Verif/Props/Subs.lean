import Verif.Lemmas.Subs
namespace Verif.Props
open Verif Substitutions

/-- C25, full statement: after any history from the empty set, the slot list has no duplicates and
holds exactly the substitutions reported active. Violated, see below. -/
def C25_statement : Prop :=
  ∀ (ops : List SubOp) (s : Substitutions), ops.foldlM SubOp.run Substitutions.none = some s →
    s.list.Nodup ∧ ∀ x, x ∈ s.list ↔ s.contains x = true

/-- C25 is violated by `insert`: the seventh distinct insertion sets the flag but not a slot
(`[subs="normal,callouts"]`); a debug build stops on `debug_assert!(false)`. -/
theorem C25_insert_violated : ¬ C25_statement := by
  intro h
  have := (h ([.specialChars, .inlineFormatting, .attrRefs, .charReplacement, .macros,
    .postReplacement, .callouts].map SubOp.insert) _ rfl).2 .callouts
  revert this; decide

/-- the same witness through the user-facing `subs` attribute -/
theorem C25_subs_attribute_violated :
    ∃ s, customize Substitutions.normal false ["normal".toList, "callouts".toList] = some s ∧
      s.contains .callouts = true ∧ Sub.callouts ∉ s.list := by
  exact ⟨_, rfl, by decide, by decide⟩

/-- C25 is violated by `append`: appending an active substitution that is not last duplicates it. -/
theorem C25_append_violated : ¬ C25_statement := by
  intro h
  have := (h [.insert .macros, .insert .callouts, .append .macros] _ rfl).1
  revert this; decide

/-- … and `append` on a full set writes past the array. -/
theorem C25_append_panics : Substitutions.all.append .macros = Option.none := by decide

/-- the calls for which the code is right: `insert` of an active one or with fewer than six active,
`append` of an inactive one or of the last one -/
def SubAllowed (l : List Sub) : SubOp → Prop
  | .insert x => x ∈ l ∨ l.length < 6
  | .append x => x ∉ l ∨ l.getLast? = some x
  | _ => True

def SubAllAllowed (l : List Sub) : List SubOp → Prop
  | [] => True
  | op :: ops => SubAllowed l op ∧ SubAllAllowed (op.spec l) ops

/-- one step of the refinement -/
theorem C25_step (s : Substitutions) (l : List Sub) (op : SubOp) (hs : Shape s l)
    (hm : ∀ x, x ∈ l ↔ s.contains x = true) (ha : SubAllowed l op) :
    ∃ s', SubOp.run s op = some s' ∧ Shape s' (op.spec l) ∧
      ∀ x, x ∈ op.spec l ↔ s'.contains x = true := by
  cases op with
  | insert x =>
    by_cases hx : x ∈ l
    · have hc := (hm x).mp hx
      exact ⟨s, by simp [SubOp.run, Substitutions.insert, hc], by simpa [SubOp.spec, hx] using hs,
        by simpa [SubOp.spec, hx] using hm⟩
    · have hc : s.contains x = false := by
        cases h : s.contains x with
        | false => rfl
        | true => exact absurd ((hm x).mpr h) hx
      have hl : l.length < 6 := by rcases ha with h | h; exact absurd h hx; exact h
      refine ⟨_, rfl, by simpa [SubOp.spec, hx] using hs.insert_new hx hc hl, ?_⟩
      intro y
      rw [contains_insert]
      by_cases hxy : x = y
      · subst hxy; simp [SubOp.spec, hx]
      · simp [SubOp.spec, hx, hm y, hxy, Ne.symm hxy]
  | remove x =>
    refine ⟨_, rfl, ?_, ?_⟩
    · by_cases hc : s.contains x = true
      · exact hs.remove_mem hc
      · have hx : x ∉ l := fun h => hc ((hm x).mp h)
        have : s.remove x = s := by simp [Substitutions.remove, hc]
        rw [this]; simpa [SubOp.spec, List.erase_of_not_mem hx] using hs
    · intro y
      rw [contains_remove]
      by_cases hxy : x = y
      · subst hxy; simp [SubOp.spec, hs.1.mem_erase_iff]
      · simp [SubOp.spec, hs.1.mem_erase_iff, hm y, hxy, Ne.symm hxy]
  | prepend x =>
    obtain ⟨s', h1, h2⟩ := hs.prepend (x := x)
    refine ⟨s', h1, h2, ?_⟩
    intro y
    rw [contains_prepend h1]
    by_cases hxy : x = y
    · simp [SubOp.spec, hxy]
    · simp [SubOp.spec, hs.1.mem_erase_iff, hm y, hxy, Ne.symm hxy]
  | append x =>
    obtain ⟨s', h1, h2⟩ := hs.append_new (x := x) ha
    refine ⟨s', h1, h2, ?_⟩
    intro y
    rw [contains_append h1]
    by_cases hxy : x = y
    · simp [SubOp.spec, hxy]
    · simp [SubOp.spec, hs.1.mem_erase_iff, hm y, hxy, Ne.symm hxy]

/-- C25 (partial): for every history within `SubAllowed`, the slot list is the one the list
specification computes, has no duplicates and agrees with the reported membership; no call panics.
Missing: the seventh insertion and `append` of an active non-last substitution (both violated). -/
theorem C25_substitutions_consistent_partial (ops : List SubOp) (ha : SubAllAllowed [] ops) :
    ∃ s, ops.foldlM SubOp.run Substitutions.none = some s ∧
      s.list = ops.foldl SubOp.spec [] ∧ s.list.Nodup ∧ ∀ x, x ∈ s.list ↔ s.contains x = true := by
  suffices ∀ (ops : List SubOp) (s : Substitutions) (l : List Sub), Shape s l →
      (∀ x, x ∈ l ↔ s.contains x = true) → SubAllAllowed l ops →
      ∃ s', ops.foldlM SubOp.run s = some s' ∧ s'.list = ops.foldl SubOp.spec l ∧
        s'.list.Nodup ∧ ∀ x, x ∈ s'.list ↔ s'.contains x = true by
    exact this ops _ [] ⟨by simp, rfl⟩ (by intro x; cases x <;> decide) ha
  intro ops
  induction ops with
  | nil => intro s l hs hm _; exact ⟨s, rfl, hs.list, by rw [hs.list]; exact hs.1, by rwa [hs.list]⟩
  | cons op ops ih =>
    intro s l hs hm ha
    obtain ⟨s1, e1, hs1, hm1⟩ := C25_step s l op hs hm ha.1
    obtain ⟨s2, e2, r⟩ := ih s1 _ hs1 hm1 ha.2
    exact ⟨s2, by simp [e1, e2], by simpa using r⟩

example : SubAllAllowed [] [.insert .macros, .prepend .callouts, .append .attrRefs, .remove .callouts,
    .insert .macros] := by
  simp [SubAllAllowed, SubAllowed, SubOp.spec]

/-- C25 (the `subs` attribute): for every attribute value, the active set is obtained by starting from
the block's set (if the value contains `+` or `-`) or from the empty set, and adding or removing the
named steps part by part; no call panics. -/
theorem C25_subs_attribute_membership (start : Bool) (parts : List (List Char)) (cur : Substitutions)
    (hcur : cur ∈ [Substitutions.normal, .attrValue, .verbatim, .onlySpecialChars, .all, .none]) :
    ∃ s, customize cur start parts = some s ∧ ∀ x, s.contains x =
      (parts.filterMap parsePart).foldl (fun m p => p.1.mem p.2 m)
        (fun y => start && cur.contains y) x := by
  have hw : Weak cur := by
    simp only [List.mem_cons, List.not_mem_nil, or_false] at hcur
    rcases hcur with rfl | rfl | rfl | rfl | rfl | rfl
    · exact ⟨normal.list, by unfold Shape; decide, by decide⟩
    · exact ⟨attrValue.list, by unfold Shape; decide, by decide⟩
    · exact ⟨verbatim.list, by unfold Shape; decide, by decide⟩
    · exact ⟨onlySpecialChars.list, by unfold Shape; decide, by decide⟩
    · exact ⟨all.list, by unfold Shape; decide, by decide⟩
    · exact ⟨[], by unfold Shape; decide, by decide⟩
  have hw0 : Weak (if start then cur else Substitutions.none) := by
    cases start
    · simp only [Bool.false_eq_true, if_false]
      exact ⟨[], by unfold Shape; decide, by decide⟩
    · exact hw
  have hc0 : ∀ x, (if start then cur else Substitutions.none).contains x = (start && cur.contains x) := by
    intro x; cases start
    · simp only [Bool.false_eq_true, if_false, Bool.false_and]; cases x <;> decide
    · simp
  unfold customize
  generalize (if start then cur else Substitutions.none) = s0 at hw0 hc0
  generalize parts.filterMap parsePart = ps
  have hfun : s0.contains = fun y => (start && cur.contains y) := funext hc0
  rw [← hfun]
  clear hfun hc0
  induction ps generalizing s0 with
  | nil => exact ⟨s0, rfl, fun x => rfl⟩
  | cons p ps ih =>
    obtain ⟨s1, e1, w1, c1⟩ := Weak.applyList p.1 p.2.subs hw0
    obtain ⟨s2, e2, c2⟩ := ih s1 w1
    refine ⟨s2, by simp [applyPart, e1, e2], ?_⟩
    intro x
    rw [c2 x]
    have : s1.contains = p.1.mem p.2 s0.contains := by
      funext y; rw [c1 y]; rcases p with ⟨st, g⟩; cases st <;> rfl
    rw [List.foldl_cons, this]

example : ∃ s, customize Substitutions.verbatim true ["+attributes".toList, "quotes+".toList, "-callouts".toList]
    = some s ∧ s.list = [.inlineFormatting, .specialChars, .attrRefs] := ⟨_, rfl, by decide⟩

theorem parsePart_write (m : SubMark) (e : List Char × List Sub) (he : e ∈ subNames) :
    ∃ st g, parsePart (m.write e.1) = some (st, g) ∧ g.subs = e.2 ∧ ∀ s x, st.apply1 s x = (m.op x).run s := by
  simp only [subNames, List.mem_cons, List.not_mem_nil, or_false] at he
  have h1 : ∀ s x, SubStrategy.apply1 .replace s x = (SubMark.op .plain x).run s := fun _ _ => rfl
  have h2 : ∀ s x, SubStrategy.apply1 .append s x = (SubMark.op .before x).run s := fun _ _ => rfl
  have h3 : ∀ s x, SubStrategy.apply1 .prepend s x = (SubMark.op .after x).run s := fun _ _ => rfl
  have h4 : ∀ s x, SubStrategy.apply1 .remove s x = (SubMark.op .minus x).run s := fun _ _ => rfl
  rcases he with rfl | rfl | rfl | rfl | rfl | rfl | rfl | rfl | rfl | rfl <;> cases m <;>
    first
    | exact ⟨.replace, _, rfl, rfl, h1⟩
    | exact ⟨.append, _, rfl, rfl, h2⟩
    | exact ⟨.prepend, _, rfl, rfl, h3⟩
    | exact ⟨.remove, _, rfl, rfl, h4⟩

theorem foldlM_map_op (m : SubMark) (xs : List Sub) (s : Substitutions) :
    xs.foldlM (fun s x => (m.op x).run s) s = (xs.map m.op).foldlM SubOp.run s := by
  induction xs generalizing s with
  | nil => rfl
  | cons x xs ih =>
    simp only [List.foldlM_cons, List.map_cons]
    cases (m.op x).run s with
    | none => rfl
    | some t => exact ih t

theorem customize_write (cur : Substitutions) (start : Bool) (parts : List (SubMark × List Char × List Sub))
    (hp : ∀ p ∈ parts, p.2 ∈ subNames) :
    customize cur start (parts.map fun p => p.1.write p.2.1) =
      (parts.flatMap fun p => p.2.2.map p.1.op).foldlM SubOp.run (if start then cur else Substitutions.none) := by
  unfold customize
  generalize (if start then cur else Substitutions.none) = s0
  induction parts generalizing s0 with
  | nil => rfl
  | cons p ps ih =>
    obtain ⟨st, g, e1, e2, e3⟩ := parsePart_write p.1 p.2 (hp p (by simp))
    have ih := fun s => ih (fun q hq => hp q (by simp [hq])) s
    simp only [List.map_cons, List.filterMap_cons, e1, List.foldlM_cons, List.flatMap_cons, List.foldlM_append, applyPart, e2]
    rw [← foldlM_map_op, show (fun s x => st.apply1 s x) = fun s x => (p.1.op x).run s from funext fun s => funext fun x => e3 s x]
    cases p.2.2.foldlM (fun s x => (p.1.op x).run s) s0 with
    | none => rfl
    | some t => exact ih t

/-- C25 (the `subs` attribute, in terms of what the author writes): for every list of parts, each one a
known name marked in one of the four ways, the ordered list of substitutions is obtained from the
block's own list (`start`: the value contains `+` or `-`) or from the empty one by removing, putting
first or putting last what the parts name, in order (missing: values that run into the two violations
above). -/
theorem C25_subs_attribute_order_partial (cur : Substitutions) (start : Bool) (parts : List (SubMark × List Char × List Sub))
    (hcur : cur ∈ [Substitutions.normal, .attrValue, .verbatim, .onlySpecialChars, .all, .none])
    (hp : ∀ p ∈ parts, p.2 ∈ subNames)
    (ha : SubAllAllowed (if start then cur.list else []) (parts.flatMap fun p => p.2.2.map p.1.op)) :
    ∃ s, customize cur start (parts.map fun p => p.1.write p.2.1) = some s ∧
      s.list = (parts.flatMap fun p => p.2.2.map p.1.op).foldl SubOp.spec (if start then cur.list else []) ∧
      s.list.Nodup ∧ ∀ x, x ∈ s.list ↔ s.contains x = true := by
  rw [customize_write cur start parts hp]
  generalize (parts.flatMap fun p => p.2.2.map p.1.op) = ops at ha
  have h0 : Shape (if start then cur else Substitutions.none) (if start then cur.list else []) ∧
      ∀ x, x ∈ (if start then cur.list else []) ↔ (if start then cur else Substitutions.none).contains x = true := by
    simp only [List.mem_cons, List.not_mem_nil, or_false] at hcur
    cases start
    · simp only [Bool.false_eq_true, if_false]
      exact ⟨⟨by simp, rfl⟩, by intro x; cases x <;> decide⟩
    · rcases hcur with rfl | rfl | rfl | rfl | rfl | rfl <;>
        exact ⟨by unfold Shape; decide, by intro x; cases x <;> decide⟩
  revert h0 ha
  generalize (if start then cur else Substitutions.none) = s
  generalize (if start then cur.list else []) = l
  intro ha h0
  induction ops generalizing s l with
  | nil => exact ⟨s, rfl, h0.1.list, by rw [h0.1.list]; exact h0.1.1, by rw [h0.1.list]; exact h0.2⟩
  | cons op ops ih =>
    obtain ⟨s1, e1, hs1, hm1⟩ := C25_step s l op h0.1 h0.2 ha.1
    obtain ⟨s2, e2, r⟩ := ih s1 _ ha.2 ⟨hs1, hm1⟩
    exact ⟨s2, by simp [e1, e2], by simpa using r⟩

example : (∀ p ∈ [(SubMark.after, "quotes".toList, [Sub.inlineFormatting]), (.minus, "callouts".toList, [.callouts])], p.2 ∈ subNames) ∧
    SubAllAllowed Substitutions.verbatim.list [SubMark.op .after .inlineFormatting, SubMark.op .minus .callouts] ∧
    [SubMark.op .after .inlineFormatting, SubMark.op .minus .callouts].foldl SubOp.spec Substitutions.verbatim.list = [.inlineFormatting, .specialChars] := by
  refine ⟨by decide, ?_, by decide⟩
  simp [SubAllAllowed, SubAllowed, SubMark.op]

/-- A named group should mean the built-in set of that name: true for `normal` and `none`. -/
theorem C25_normal_group_means_normal (cur : Substitutions) :
    customize cur false ["normal".toList] = some Substitutions.normal ∧
    customize cur false ["none".toList] = some Substitutions.none := by
  have : ∀ p, customize cur false p = customize Substitutions.none false p := fun _ => rfl
  rw [this, this]; decide

/-- … but violated for `verbatim`, which turns on character replacements instead of callouts. -/
theorem C25_verbatim_group_violated (cur : Substitutions) :
    ∃ s, customize cur false ["verbatim".toList] = some s ∧
      s.contains .callouts = false ∧ Substitutions.verbatim.contains .callouts = true ∧
      s.contains .charReplacement = true ∧ Substitutions.verbatim.contains .charReplacement = false := by
  have : ∀ p, customize cur false p = customize Substitutions.none false p := fun _ => rfl
  rw [this]
  exact ⟨_, rfl, by decide, by decide, by decide, by decide⟩

end Verif.Props
