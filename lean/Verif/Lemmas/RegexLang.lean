import Verif.Spec.RegexLang
import Verif.Lemmas.Regex
/-! Lemmas: the search for a match finds one exactly when the expression matches. -/
namespace Verif.Regex

variable {word : Char → Bool}

/-- a match that is found is one -/
theorem run_sound : ∀ (r : Re) (st x : St) (k : St → Option St), run word r st k = some x →
    ∃ u s, st.rest = u ++ s.rest ∧ s.before = u.reverse ++ st.before ∧ Reads word r st.before u s.rest ∧ k s = some x := by
  intro r
  induction r with
  | set p =>
    intro st x k h
    unfold run at h
    split at h
    · cases h
    · rename_i c cs hc
      split at h
      · rename_i hp
        exact ⟨[c], _, by simpa using hc, by simp, .set hp, h⟩
      · cases h
  | eps => intro st x k h; exact ⟨[], st, rfl, rfl, .eps, h⟩
  | seq a b iha ihb =>
    intro st x k h
    unfold run at h
    obtain ⟨u, s, h1, h2, h3, h4⟩ := iha _ _ _ h
    obtain ⟨v, t, g1, g2, g3, g4⟩ := ihb _ _ _ h4
    refine ⟨u ++ v, t, by rw [h1, g1]; simp, by rw [g2, h2]; simp, .seq (by rw [← g1]; exact h3) (by rw [← h2]; exact g3), g4⟩
  | alt a b iha ihb =>
    intro st x k h
    unfold run at h
    cases ha : run word a st k with
    | some y =>
      rw [ha] at h
      obtain ⟨u, s, h1, h2, h3, h4⟩ := iha _ _ _ ha
      exact ⟨u, s, h1, h2, .left h3, by simpa using h4.trans h⟩
    | none =>
      rw [ha] at h
      obtain ⟨u, s, h1, h2, h3, h4⟩ := ihb _ _ _ h
      exact ⟨u, s, h1, h2, .right h3, h4⟩
  | star g a ih =>
    intro st x k h
    unfold run at h
    generalize st.rest.length = n at h
    induction n generalizing st with
    | zero => exact ⟨[], st, rfl, rfl, .stop, h⟩
    | succ n ihn =>
      unfold loop at h
      dsimp only at h
      have key : run word a st (fun s => if s.rest.length < st.rest.length then loop (run word a) g k n s else none) = some x →
          ∃ u s, st.rest = u ++ s.rest ∧ s.before = u.reverse ++ st.before ∧ Reads word (.star g a) st.before u s.rest ∧ k s = some x := by
        intro h
        obtain ⟨u, s, h1, h2, h3, h4⟩ := ih _ _ _ h
        split at h4
        · rename_i hlt
          obtain ⟨v, t, g1, g2, g3, g4⟩ := ihn _ h4
          have hu : u ≠ [] := by rintro rfl; rw [h1] at hlt; simp at hlt
          exact ⟨u ++ v, t, by rw [h1, g1]; simp, by rw [g2, h2]; simp, .more hu (by rw [← g1]; exact h3) (by rw [← h2]; exact g3), g4⟩
        · cases h4
      split at h
      · cases hr : run word a st (fun s => if s.rest.length < st.rest.length then loop (run word a) g k n s else none) with
        | some y => rw [hr] at h; exact key (hr.trans (by simpa using h))
        | none => rw [hr] at h; exact ⟨[], st, rfl, rfl, .stop, h⟩
      · cases hk : k st with
        | some y => rw [hk] at h; exact ⟨[], st, rfl, rfl, .stop, hk.trans (by simpa using h)⟩
        | none => rw [hk] at h; exact key h
  | cap n a ih =>
    intro st x k h
    unfold run at h
    obtain ⟨u, s, h1, h2, h3, h4⟩ := ih _ _ _ h
    exact ⟨u, { s with caps := (n, st.rest.take (st.rest.length - s.rest.length)) :: s.caps }, h1, h2, .cap h3, h4⟩
  | bol =>
    intro st x k h
    unfold run at h
    split at h
    · rename_i hb
      exact ⟨[], st, rfl, rfl, by rw [hb]; exact .bol, h⟩
    · cases h
  | eol =>
    intro st x k h
    unfold run at h
    split at h
    · rename_i hb
      exact ⟨[], st, rfl, rfl, by rw [hb]; exact .eol, h⟩
    · cases h
  | wordB =>
    intro st x k h
    unfold run at h
    split at h
    · rename_i hb
      exact ⟨[], st, rfl, rfl, .wordB hb, h⟩
    · cases h

/-- a match that there is, is found, or another one -/
theorem run_complete {r : Re} {bf u af : List Char} (h : Reads word r bf u af) : ∀ (cp : List (Nat × List Char)) (k : St → Option St),
    (∀ cp', (k ⟨u.reverse ++ bf, af, cp'⟩).isSome = true) → (run word r ⟨bf, u ++ af, cp⟩ k).isSome = true := by
  have hloop : ∀ (a : Re) (g : Bool) (bf u af : List Char) (n : Nat) (cp : List (Nat × List Char)) (k : St → Option St),
      (k ⟨bf, u ++ af, cp⟩).isSome = true → (loop (run word a) g k n ⟨bf, u ++ af, cp⟩).isSome = true := by
    intro a g bf u af n cp k h
    cases n with
    | zero => exact h
    | succ n =>
      unfold loop
      dsimp only
      split <;> simp [Option.isSome_or, h]
  -- repetitions with any budget that suffices
  suffices H : ∀ {r : Re} {bf u af : List Char}, Reads word r bf u af →
      (∀ (cp : List (Nat × List Char)) (k : St → Option St), (∀ cp', (k ⟨u.reverse ++ bf, af, cp'⟩).isSome = true) →
        (run word r ⟨bf, u ++ af, cp⟩ k).isSome = true) ∧
      (∀ g a, r = .star g a → ∀ n, u.length ≤ n → ∀ (cp : List (Nat × List Char)) (k : St → Option St),
        (∀ cp', (k ⟨u.reverse ++ bf, af, cp'⟩).isSome = true) → (loop (run word a) g k n ⟨bf, u ++ af, cp⟩).isSome = true) from (H h).1
  intro r bf u af h
  induction h with
  | set hp =>
    refine ⟨fun cp k hk => ?_, nofun⟩
    unfold run
    simp only [List.cons_append, List.nil_append, hp, if_true]
    exact hk cp
  | eps => exact ⟨fun cp k hk => by simpa [run] using hk cp, nofun⟩
  | @seq a b bf u v af _ _ iha ihb =>
    refine ⟨fun cp k hk => ?_, nofun⟩
    unfold run
    rw [List.append_assoc]
    refine iha.1 _ _ fun cp' => ?_
    refine ihb.1 _ _ fun cp'' => ?_
    simpa using hk cp''
  | left _ ih =>
    refine ⟨fun cp k hk => ?_, nofun⟩
    unfold run
    simp [Option.isSome_or, ih.1 cp k hk]
  | right _ ih =>
    refine ⟨fun cp k hk => ?_, nofun⟩
    unfold run
    simp [Option.isSome_or, ih.1 cp k hk]
  | @stop g a bf af =>
    refine ⟨fun cp k hk => ?_, fun g a e n _ cp k hk => hloop _ _ _ [] _ _ _ _ (by simpa using hk cp)⟩
    unfold run
    exact hloop _ _ _ [] _ _ _ _ (by simpa using hk cp)
  | @more g a bf u v af hu _ _ iha ihs =>
    have key : ∀ n, (u ++ v).length ≤ n → ∀ (cp : List (Nat × List Char)) (k : St → Option St),
        (∀ cp', (k ⟨(u ++ v).reverse ++ bf, af, cp'⟩).isSome = true) → (loop (run word a) g k n ⟨bf, u ++ v ++ af, cp⟩).isSome = true := by
      intro n hn cp k hk
      have hpos := List.length_pos_iff.2 hu
      cases n with
      | zero => rw [List.length_append] at hn; omega
      | succ n =>
        have h1 : (run word a ⟨bf, u ++ v ++ af, cp⟩ fun s => if s.rest.length < (u ++ v ++ af).length then loop (run word a) g k n s else none).isSome = true := by
          rw [List.append_assoc]
          refine iha.1 _ _ fun cp' => ?_
          rw [if_pos (by simp; omega)]
          refine ihs.2 g a rfl n ?_ _ _ fun cp'' => ?_
          · simp at hn; omega
          · simpa using hk cp''
        unfold loop
        dsimp only
        split
        · rw [Option.isSome_or, h1]; rfl
        · rw [Option.isSome_or, h1, Bool.or_true]
    refine ⟨fun cp k hk => ?_, fun g' a' e n hn cp k hk => ?_⟩
    · unfold run
      exact key _ (by simp) cp k hk
    · cases e; exact key n hn cp k hk
  | cap _ ih =>
    refine ⟨fun cp k hk => ?_, nofun⟩
    unfold run
    exact ih.1 _ _ fun cp' => hk _
  | bol => exact ⟨fun cp k hk => by simpa [run] using hk cp, nofun⟩
  | eol => exact ⟨fun cp k hk => by simpa [run] using hk cp, nofun⟩
  | wordB hw => exact ⟨fun cp k hk => by simpa [run, hw] using hk cp, nofun⟩

/-- there is a match in a text exactly when some part of it is matched -/
theorem captures_isSome {r : Re} {s : List Char} : (captures word r s).isSome = true ↔
    ∃ a u b, s = a ++ u ++ b ∧ Reads word r a.reverse u b := by
  have key : ∀ (l bf : List Char) (n : Nat), (search word r n bf l).isSome = true ↔
      ∃ a u b, l = a ++ u ++ b ∧ Reads word r (a.reverse ++ bf) u b := by
    intro l
    induction l with
    | nil =>
      intro bf n
      rw [search, Option.isSome_map]
      constructor
      · intro h
        obtain ⟨x, hx⟩ := Option.isSome_iff_exists.1 h
        obtain ⟨u, s, h1, h2, h3, h4⟩ := run_sound _ _ _ _ hx
        have h1 : [] = u ++ s.rest := h1
        exact ⟨[], u, s.rest, by simpa using h1, h3⟩
      · rintro ⟨a, u, b, h1, h2⟩
        have : a = [] ∧ u = [] ∧ b = [] := by
          have := congrArg List.length h1
          simp at this
          exact ⟨List.length_eq_zero_iff.1 (by omega), List.length_eq_zero_iff.1 (by omega), List.length_eq_zero_iff.1 (by omega)⟩
        obtain ⟨rfl, rfl, rfl⟩ := this
        exact run_complete h2 [] some fun _ => rfl
    | cons c cs ih =>
      intro bf n
      rw [search]
      constructor
      · intro h
        cases hr : run word r ⟨bf, c :: cs, []⟩ some with
        | some x =>
          obtain ⟨u, s, h1, h2, h3, h4⟩ := run_sound _ _ _ _ hr
          exact ⟨[], u, s.rest, by simpa using h1, h3⟩
        | none =>
          rw [hr] at h
          obtain ⟨a, u, b, h1, h2⟩ := (ih _ _).1 h
          exact ⟨c :: a, u, b, by simp [h1], by simpa using h2⟩
      · rintro ⟨a, u, b, h1, h2⟩
        cases hr : run word r ⟨bf, c :: cs, []⟩ some with
        | some x => rfl
        | none =>
          cases a with
          | nil =>
            have := run_complete h2 [] some fun _ => rfl
            simp only [List.nil_append] at h1
            simp only [List.reverse_nil, List.nil_append] at this
            rw [← h1, hr] at this
            cases this
          | cons d a =>
            simp only [List.cons_append, List.cons.injEq] at h1
            obtain ⟨rfl, h1⟩ := h1
            exact (ih _ _).2 ⟨a, u, b, h1, by simpa using h2⟩
  have := key s [] 0
  simpa [captures] using this

end Verif.Regex
