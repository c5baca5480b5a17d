import Verif.Spec.Xref
namespace Verif.Xref

theorem basename_append (dir : Str) (s : Str) (hd : dir = [] ∨ dir.getLast? = some '/') (hs : '/' ∉ s ∧ '\\' ∉ s) :
    basename (dir ++ s) = s := by
  have h1 : ∀ c ∈ s.reverse, (fun c => decide (c ≠ '/') && decide (c ≠ '\\')) c = true := by
    intro c hc
    rw [List.mem_reverse] at hc
    simp only [Bool.and_eq_true, decide_eq_true_eq]
    exact ⟨fun e => hs.1 (e ▸ hc), fun e => hs.2 (e ▸ hc)⟩
  rw [basename, List.reverse_append, List.takeWhile_append_of_pos h1]
  rcases hd with rfl | hd
  · simp
  · rw [List.getLast?_eq_head?_reverse] at hd
    cases hr : dir.reverse with
    | nil => simp
    | cons a r =>
      rw [hr] at hd
      cases hd
      simp

theorem not_mem_dotted {e : Option Str} {c : Char} (hc : c ≠ '.') (h : ∀ x, e = some x → c ∉ x) : c ∉ dotted e := by
  cases e with
  | none => simp [dotted]
  | some x => simp [dotted, hc, h x rfl]

theorem basename_path {dir name : Str} {e : Option Str} (hd : dir = [] ∨ dir.getLast? = some '/') (hn : Simple name)
    (he : ∀ x, e = some x → Simple x) : basename (dir ++ name ++ dotted e) = name ++ dotted e := by
  rw [List.append_assoc]
  refine basename_append dir _ hd ⟨?_, ?_⟩ <;> rw [List.mem_append, not_or]
  · exact ⟨hn.1, not_mem_dotted (by decide) fun x hx => (he x hx).1⟩
  · exact ⟨hn.2.1, not_mem_dotted (by decide) fun x hx => (he x hx).2.1⟩

theorem hasExt_path {dir name : Str} {e : Option Str} (hd : dir = [] ∨ dir.getLast? = some '/') (hn : Simple name)
    (he : ∀ x, e = some x → Simple x) : hasExt (dir ++ name ++ dotted e) = e.isSome := by
  rw [hasExt, basename_path hd hn he]
  cases e with
  | none => simpa [dotted] using hn.2.2.2
  | some x => simp [dotted]

theorem takeWhile_dot (x y : Str) (h : '.' ∉ x) : (x ++ '.' :: y).takeWhile (· ≠ '.') = x := by
  rw [List.takeWhile_append_of_pos]
  · simp
  · intro c hc
    simp only [ne_eq, decide_not, Bool.not_eq_eq_eq_not, Bool.not_true, decide_eq_false_iff_not]
    exact fun e => h (e ▸ hc)

theorem dropWhile_dot (x y : Str) (h : '.' ∉ x) : (x ++ '.' :: y).dropWhile (· ≠ '.') = '.' :: y := by
  rw [List.dropWhile_append_of_pos]
  · simp
  · intro c hc
    simp only [ne_eq, decide_not, Bool.not_eq_eq_eq_not, Bool.not_true, decide_eq_false_iff_not]
    exact fun e => h (e ▸ hc)

theorem ext_path {dir name : Str} {e : Option Str} (hd : dir = [] ∨ dir.getLast? = some '/') (hn : Simple name)
    (he : ∀ x, e = some x → Simple x) : ext (dir ++ name ++ dotted e) = e := by
  rw [ext, hasExt_path hd hn he, basename_path hd hn he]
  cases e with
  | none => rfl
  | some x =>
    have := takeWhile_dot x.reverse name.reverse (by simpa using (he x rfl).2.2.2)
    simp only [Option.isSome_some, if_true, dotted, List.reverse_append, List.reverse_cons, List.append_assoc, List.singleton_append]
    rw [this, List.reverse_reverse]

theorem hasAdocExt_path {dir name : Str} {e : Option Str} (hd : dir = [] ∨ dir.getLast? = some '/') (hn : Simple name)
    (he : ∀ x, e = some x → Simple x) : hasAdocExt (dir ++ name ++ dotted e) = e.any (· ∈ adocs) := by
  rw [hasAdocExt, ext_path hd hn he]
  cases e with
  | none => rfl
  | some x =>
    simp only [adocs, Option.any_some, List.map_cons, List.map_nil, List.mem_cons, List.not_mem_nil, or_false, Bool.decide_or,
      Bool.or_assoc]

theorem removeExt_path {dir name : Str} {e : Option Str} (hd : dir = [] ∨ dir.getLast? = some '/') (hn : Simple name)
    (he : ∀ x, e = some x → Simple x) : removeExt (dir ++ name ++ dotted e) = dir ++ name := by
  rw [removeExt, hasExt_path hd hn he]
  cases e with
  | none => simp [dotted]
  | some x =>
    have := dropWhile_dot x.reverse (dir ++ name).reverse (by simpa using (he x rfl).2.2.2)
    simp only [Option.isSome_some, if_true, dotted]
    rw [List.reverse_append, List.reverse_cons, List.append_assoc, List.singleton_append, this]
    simp

/-- `basename` is the end of the path -/
theorem basename_suffix (s : Str) : ∃ d, s = d ++ basename s ∧ (d = [] ∨ d.getLast? = some '/' ∨ d.getLast? = some '\\') := by
  refine ⟨(s.reverse.dropWhile fun c => c ≠ '/' && c ≠ '\\').reverse, ?_, ?_⟩
  · rw [basename, ← List.reverse_append, List.takeWhile_append_dropWhile, List.reverse_reverse]
  · rw [List.getLast?_reverse]
    cases h : s.reverse.dropWhile fun c => decide (c ≠ '/') && decide (c ≠ '\\') with
    | nil => simp
    | cons a r =>
      have := List.head?_dropWhile_not (p := fun c => decide (c ≠ '/') && decide (c ≠ '\\')) (l := s.reverse)
      rw [h] at this
      simp at this
      refine .inr ?_
      simp only [List.head?_cons, Option.some.injEq]
      by_cases ha : a = '/'
      · exact .inl ha
      · exact .inr (this ha)

theorem basename_clean (s : Str) : '/' ∉ basename s ∧ '\\' ∉ basename s := by
  constructor <;> intro h <;> rw [basename, List.mem_reverse] at h <;>
    · have := List.all_takeWhile (p := fun c => decide (c ≠ '/') && decide (c ≠ '\\')) (l := s.reverse)
      rw [List.all_eq_true] at this
      have := this _ h
      simp at this

/-- a file without its extension is the path: there is no extension, or the path goes on with one -/
theorem removeExt_eq {f path : Str} (hp : hasExt path = false) :
    removeExt f = path ↔ f = path ∨ ∃ e, '.' ∉ e ∧ '/' ∉ e ∧ '\\' ∉ e ∧ f = path ++ '.' :: e := by
  have split : ∀ f, hasExt f = true → ∃ e, '.' ∉ e ∧ '/' ∉ e ∧ '\\' ∉ e ∧ f = removeExt f ++ '.' :: e := by
    intro f hf
    have hm : '.' ∈ f.reverse := by
      obtain ⟨d, hd, _⟩ := basename_suffix f
      rw [hasExt, List.contains_iff_mem] at hf
      rw [List.mem_reverse, hd, List.mem_append]
      exact .inr hf
    obtain ⟨x, y, hxy, hx⟩ := List.append_of_mem hm |>.elim fun x h => h.elim fun y h => (⟨x, y, h⟩ : ∃ x y, f.reverse = x ++ '.' :: y) |>
      fun _ => show ∃ x y, f.reverse = x ++ '.' :: y ∧ '.' ∉ x from by
        refine ⟨f.reverse.takeWhile (· ≠ '.'), (f.reverse.dropWhile (· ≠ '.')).drop 1, ?_, ?_⟩
        · have h1 : f.reverse.dropWhile (· ≠ '.') = '.' :: (f.reverse.dropWhile (· ≠ '.')).drop 1 := by
            cases h : f.reverse.dropWhile (· ≠ '.') with
            | nil =>
              have e := List.takeWhile_append_dropWhile (p := (· ≠ '.')) (l := f.reverse)
              rw [h, List.append_nil] at e
              have := List.all_takeWhile (p := (· ≠ '.')) (l := f.reverse)
              rw [e, List.all_eq_true] at this
              have := this _ hm
              simp at this
            | cons a r =>
              have := List.head?_dropWhile_not (p := (· ≠ '.')) (l := f.reverse)
              rw [h] at this
              simp at this
              rw [this]; rfl
          rw [← h1, List.takeWhile_append_dropWhile]
        · intro h
          have := List.all_takeWhile (p := (· ≠ '.')) (l := f.reverse)
          rw [List.all_eq_true] at this
          have := this _ h
          simp at this
    have hr : removeExt f = y.reverse := by
      rw [removeExt, hf, if_pos rfl, hxy, dropWhile_dot x y hx]; simp
    have hf' : f = y.reverse ++ '.' :: x.reverse := by
      rw [← List.reverse_reverse f, hxy]; simp
    refine ⟨x.reverse, by simpa using hx, ?_, ?_, by rw [hr]; exact hf'⟩
    all_goals
      intro hs
      obtain ⟨d, hd, _⟩ := basename_suffix f
      have hb := basename_clean f
      rw [hasExt, List.contains_iff_mem] at hf
      -- the dot of the name would be the last one
      obtain ⟨p, q, hpq⟩ := List.append_of_mem hf
      have e := hd.symm.trans hf'
      rw [hpq, ← List.append_assoc] at e
      have hq : '/' ∉ q ∧ '\\' ∉ q := by
        rw [hpq] at hb
        simp only [List.mem_append, List.mem_cons, not_or] at hb
        exact ⟨hb.1.2.2, hb.2.2.2⟩
      rw [List.append_eq_append_iff] at e
      rcases e with ⟨as, h1, h2⟩ | ⟨bs, h1, h2⟩
      · cases as with
        | nil =>
          simp only [List.nil_append, List.cons.injEq, true_and] at h2
          rw [h2] at hq
          first | exact hq.1 hs | exact hq.2 hs
        | cons a as =>
          simp only [List.cons_append, List.cons.injEq] at h2
          rw [h2.2] at hq
          simp only [List.mem_append, List.mem_cons, not_or] at hq
          first | exact hq.1.2.2 hs | exact hq.2.2.2 hs
      · cases bs with
        | nil =>
          simp only [List.nil_append, List.cons.injEq, true_and] at h2
          rw [← h2] at hq
          first | exact hq.1 hs | exact hq.2 hs
        | cons b bs =>
          simp only [List.cons_append, List.cons.injEq] at h2
          refine hx ?_
          have : '.' ∈ x.reverse := by rw [h2.2]; simp
          simpa using this
  constructor
  · intro h
    cases hf : hasExt f with
    | false => left; rw [removeExt, hf] at h; simpa using h
    | true =>
      right
      obtain ⟨e, he1, he2, he3, he4⟩ := split f hf
      exact ⟨e, he1, he2, he3, h ▸ he4⟩
  · rintro (rfl | ⟨e, h1, h2, h3, rfl⟩)
    · rw [removeExt, hp]; rfl
    · have hx : hasExt (path ++ '.' :: e) = true := by
        rw [hasExt, List.contains_iff_mem, basename, List.mem_reverse, List.reverse_append, List.reverse_cons, List.append_assoc,
          List.takeWhile_append_of_pos]
        · simp
        · intro c hc
          rw [List.mem_reverse] at hc
          simp only [Bool.and_eq_true, decide_eq_true_eq]
          exact ⟨fun e => h2 (e ▸ hc), fun e => h3 (e ▸ hc)⟩
      rw [removeExt, hx, if_pos rfl, List.reverse_append, List.reverse_cons, List.append_assoc, List.singleton_append,
        dropWhile_dot _ _ (by simpa using h1)]
      simp

theorem pathWasIncluded_iff {m : Meta} {dir name : Str} {e : Option Str} (hd : dir = [] ∨ dir.getLast? = some '/')
    (hn : Simple name) (he : ∀ x, e = some x → Simple x) :
    pathWasIncluded (dir ++ name ++ dotted e) m = true ↔ OnPage m dir name e := by
  rw [pathWasIncluded, hasAdocExt_path hd hn he, hasExt_path hd hn he]
  cases e with
  | none =>
    have hp : hasExt (dir ++ name) = false := by
      have := hasExt_path (e := none) hd hn he
      simpa [dotted] using this
    rw [show dir ++ name ++ dotted none = dir ++ name from List.append_nil _]
    simp only [Option.any_none, Bool.false_eq_true, if_false, Option.isSome_none, Bool.not_false, if_true,
      List.any_eq_true, decide_eq_true_eq, OnPage, removeExt_eq hp]
  | some x =>
    by_cases hx : x ∈ adocs
    · rw [show dir ++ name ++ dotted (some x) = dir ++ name ++ '.' :: x from rfl]
      simp only [Option.any_some, hx, decide_true, if_true, OnPage, true_and]
      by_cases h : some (dir ++ name ++ '.' :: x) = m.docfilename
      · rw [if_pos h]; simp [h.symm]
      · have h' : ¬ m.docfilename = some (dir ++ name ++ '.' :: x) := fun e => h e.symm
        rw [if_neg h, List.any_eq_true]
        simp only [h', false_or, decide_eq_true_eq]; exact ⟨fun ⟨_, a, b⟩ => b ▸ a, fun a => ⟨_, a, rfl⟩⟩
    · simp [Option.any_some, hx, OnPage]

theorem splitHash_plain {s : Str} (h : '#' ∉ s) : splitHash s = (s, none) := by
  have : s.contains '#' = false := by simpa using h
  rw [splitHash, this]
  simp only [Bool.false_eq_true, if_false, Prod.mk.injEq, and_true]
  have := List.takeWhile_append_of_pos (p := fun c => decide (c ≠ '#')) (l₁ := s) (l₂ := []) (by
    intro c hc
    simp only [ne_eq, decide_not, Bool.not_eq_eq_eq_not, Bool.not_true, decide_eq_false_iff_not]
    exact fun e => h (e ▸ hc))
  simpa using this

theorem splitHash_id {s id : Str} (h : '#' ∉ s) : splitHash (s ++ '#' :: id) = (s, some id) := by
  have hc : ∀ c ∈ s, (fun c => decide (c ≠ '#')) c = true := by
    intro c hc
    simp only [ne_eq, decide_not, Bool.not_eq_eq_eq_not, Bool.not_true, decide_eq_false_iff_not]
    exact fun e => h (e ▸ hc)
  have : (s ++ '#' :: id).contains '#' = true := by simp
  rw [splitHash, this, List.takeWhile_append_of_pos hc, List.dropWhile_append_of_pos hc]
  simp

theorem head_hash {s r : Str} (h : '#' ∉ s) (hs : s ≠ []) : (s ++ r).head? ≠ some '#' := by
  cases s with
  | nil => exact absurd rfl hs
  | cons a s =>
    simp only [List.cons_append, List.head?_cons, ne_eq, Option.some.injEq]
    rintro rfl
    simp at h

end Verif.Xref

namespace Verif.Xref

/-- what is remembered of a reference -/
def key (x : Str × Loc) : Str × Loc :=
  if x.1.length > 1 && x.1.head? = some '#' then (x.1.drop 1, (x.2.1, x.2.2 + 1)) else x

theorem pushXref_eq (r : List (Str × Loc)) (x : Str × Loc) : pushXref r x = put r (key x).1 (key x).2 := by
  unfold pushXref key; split <;> rfl

theorem mem_put {r : List (Str × Loc)} {t : Str} {l : Loc} {y : Str × Loc} (h : y ∈ put r t l) : y = (t, l) ∨ y ∈ r := by
  induction r with
  | nil => simpa [put] using h
  | cons a r ih =>
    obtain ⟨k, b⟩ := a
    rw [put] at h
    split at h
    · rename_i hk
      rcases List.mem_cons.1 h with rfl | h
      · exact .inl (by rw [hk])
      · exact .inr (List.mem_cons_of_mem _ h)
    · rcases List.mem_cons.1 h with rfl | h
      · exact .inr (List.mem_cons_self ..)
      · rcases ih h with h | h
        · exact .inl h
        · exact .inr (List.mem_cons_of_mem _ h)

theorem keys_put (r : List (Str × Loc)) (t : Str) (l : Loc) (k : Str) :
    k ∈ (put r t l).map Prod.fst ↔ k = t ∨ k ∈ r.map Prod.fst := by
  induction r with
  | nil => simp [put]
  | cons a r ih =>
    obtain ⟨k', b⟩ := a
    rw [put]
    split
    · rename_i hk; subst hk; simp
    · rw [List.map_cons, List.mem_cons, ih, List.map_cons, List.mem_cons]
      constructor
      · rintro (h | h | h) <;> simp [h]
      · rintro (h | h | h) <;> simp [h]

theorem nodup_put {r : List (Str × Loc)} (t : Str) (l : Loc) (h : (r.map Prod.fst).Nodup) : ((put r t l).map Prod.fst).Nodup := by
  induction r with
  | nil => simp [put]
  | cons a r ih =>
    obtain ⟨k', b⟩ := a
    rw [List.map_cons, List.nodup_cons] at h
    rw [put]
    split
    · rw [List.map_cons, List.nodup_cons]; exact h
    · rename_i hk
      rw [List.map_cons, List.nodup_cons, keys_put]
      refine ⟨?_, ih h.2⟩
      rintro (e | e)
      · exact hk e
      · exact h.1 e

theorem collect_spec (xs r : List (Str × Loc)) (hr : (r.map Prod.fst).Nodup) :
    (∀ y ∈ xs.foldl pushXref r, y ∈ r ∨ ∃ x ∈ xs, y = key x) ∧
    (∀ k, k ∈ (xs.foldl pushXref r).map Prod.fst ↔ k ∈ r.map Prod.fst ∨ ∃ x ∈ xs, k = (key x).1) ∧
    ((xs.foldl pushXref r).map Prod.fst).Nodup := by
  induction xs generalizing r with
  | nil => simpa using hr
  | cons x xs ih =>
    obtain ⟨h1, h2, h3⟩ := ih (pushXref r x) (by rw [pushXref_eq]; exact nodup_put _ _ hr)
    refine ⟨?_, ?_, h3⟩
    · intro y hy
      rcases h1 y hy with h | ⟨z, hz, e⟩
      · rw [pushXref_eq] at h
        rcases mem_put h with h | h
        · exact .inr ⟨x, List.mem_cons_self .., h⟩
        · exact .inl h
      · exact .inr ⟨z, List.mem_cons_of_mem _ hz, e⟩
    · intro k
      rw [List.foldl_cons, h2, pushXref_eq, keys_put]
      constructor
      · rintro ((h | h) | ⟨z, hz, e⟩)
        · exact .inr ⟨x, List.mem_cons_self .., h⟩
        · exact .inl h
        · exact .inr ⟨z, List.mem_cons_of_mem _ hz, e⟩
      · rintro (h | ⟨z, hz, e⟩)
        · exact .inl (.inr h)
        · rcases List.mem_cons.1 hz with rfl | hz
          · exact .inl (.inl e)
          · exact .inr ⟨z, hz, e⟩

end Verif.Xref
