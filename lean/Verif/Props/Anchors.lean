import Verif.Model.Anchors
/-! C31: which anchor an id resolves to. -/
namespace Verif.Props
open Verif.Anchors

/-- The anchor an event describes. -/
def anchorOf : Event → Anchor
  | .inline _ loc reftext source biblio => ⟨some loc, reftext, "", source, biblio⟩
  | .heading _ reftext title source => ⟨none, reftext, title, source, false⟩

/-- The event is a section or part heading. -/
def isHeading : Event → Bool
  | .heading .. => true
  | .inline .. => false

private theorem get_put (t : Table) (id id' : String) (a : Anchor) :
    lookup (put t id a) id' = if id = id' then some a else lookup t id' := by
  induction t with
  | nil => rfl
  | cons p t ih =>
    obtain ⟨k, b⟩ := p
    unfold put
    by_cases h : k = id
    · subst h; rw [if_pos rfl]; unfold lookup; by_cases h2 : k = id' <;> simp [h2]
    · rw [if_neg h, lookup, lookup, ih]
      by_cases h2 : k = id'
      · subst h2; simp [Ne.symm h]
      · simp [h2]

private theorem step_get (s s' : State) (e : Event) (id : String) (h : step false s e = .ok s') :
    lookup s'.table id =
      if e.id = id ∧ (isHeading e = true ∨ lookup s.table id = none ∨ (lookup s.table id).map (·.loc) = some (anchorOf e).loc)
      then some (anchorOf e) else lookup s.table id := by
  cases e with
  | heading k r t so =>
    injection h with h; subst h
    simp only [insertHeading, get_put, Event.id, isHeading, true_or, and_true]; rfl
  | inline k l r so bi =>
    simp only [step, insertAnchor] at h
    by_cases hc : ((lookup s.table k).filter fun b => b.loc != some l).isSome
    · rw [if_pos hc] at h; simp at h; subst h
      cases hg : lookup s.table k with
      | none => simp [hg] at hc
      | some a =>
        rw [hg] at hc
        simp only [Option.filter] at hc
        have ha : a.loc ≠ some l := by intro e; simp [e] at hc
        by_cases hk : k = id
        · subst hk
          refine (if_neg ?_).symm
          simp [hg, ha, isHeading, anchorOf]
        · exact (if_neg (fun hc => hk hc.1)).symm
    · rw [if_neg hc] at h; injection h with h; subst h
      simp only [get_put]
      by_cases hk : k = id
      · subst hk
        rw [if_pos rfl]
        refine (if_pos ⟨rfl, .inr ?_⟩).symm
        cases hg : lookup s.table k with
        | none => exact .inl rfl
        | some a =>
          right
          rw [hg] at hc
          simp only [Option.filter] at hc
          simp only [Option.map_some, Option.some.injEq]
          by_cases ha : a.loc = some l
          · exact ha
          · exfalso; apply hc; simp [ha]
      · rw [if_neg hk]
        exact (if_neg (fun hc => hk hc.1)).symm

private theorem run_inline (es : List Event) (s s' : State) (id : String) (a : Anchor)
    (h : run false s es = .ok s') (hh : ∀ e ∈ es, e.id = id → isHeading e = false)
    (hg : lookup s.table id = some a) :
    ∃ b, lookup s'.table id = some b ∧ b.loc = a.loc ∧
      (b = a ∨ ∃ e ∈ es, e.id = id ∧ (anchorOf e).loc = a.loc ∧ b = anchorOf e) := by
  induction es generalizing s a with
  | nil => injection h with h; subst h; exact ⟨a, hg, rfl, .inl rfl⟩
  | cons e es ih =>
    unfold run at h
    split at h
    · cases h
    · rename_i s1 h1
      have hs := step_get s s1 e id h1
      by_cases hc : e.id = id ∧ (isHeading e = true ∨ lookup s.table id = none ∨ (lookup s.table id).map (·.loc) = some (anchorOf e).loc)
      · rw [if_pos hc] at hs
        have hl : (anchorOf e).loc = a.loc := by
          rcases hc.2 with h2 | h2 | h2
          · rw [hh e List.mem_cons_self hc.1] at h2; cases h2
          · rw [hg] at h2; cases h2
          · rw [hg] at h2; simpa using h2.symm
        obtain ⟨b, h3, h4, h5⟩ := ih s1 _ h (fun e' he' => hh e' (List.mem_cons_of_mem _ he')) hs
        refine ⟨b, h3, h4.trans hl, ?_⟩
        rcases h5 with h5 | ⟨e', he', h6, h7, h8⟩
        · exact .inr ⟨e, List.mem_cons_self, hc.1, hl, h5⟩
        · exact .inr ⟨e', List.mem_cons_of_mem _ he', h6, h7.trans hl, h8⟩
      · rw [if_neg hc, hg] at hs
        obtain ⟨b, h3, h4, h5⟩ := ih s1 _ h (fun e' he' => hh e' (List.mem_cons_of_mem _ he')) hs
        refine ⟨b, h3, h4, ?_⟩
        rcases h5 with h5 | ⟨e', he', h6⟩
        · exact .inl h5
        · exact .inr ⟨e', List.mem_cons_of_mem _ he', h6⟩

private theorem run_append (strict : Bool) (s : State) (a b : List Event) :
    run strict s (a ++ b) = (match run strict s a with | .error e => .error e | .ok s => run strict s b) := by
  induction a generalizing s with
  | nil => rfl
  | cons e a ih =>
    simp only [List.cons_append, run]
    split
    · rfl
    · exact ih _

private theorem run_none (es : List Event) (s s' : State) (id : String)
    (h : run false s es = .ok s') (hh : ∀ e ∈ es, e.id ≠ id) : lookup s'.table id = lookup s.table id := by
  induction es generalizing s with
  | nil => injection h with h; subst h; rfl
  | cons e es ih =>
    unfold run at h
    split at h
    · cases h
    · rename_i s1 h1
      rw [ih s1 h (fun e' he' => hh e' (List.mem_cons_of_mem _ he')), step_get s s1 e id h1, if_neg]
      exact fun hc => hh e List.mem_cons_self hc.1

/-- Without strict mode registering anchors never ends parsing. -/
theorem C31_never_stops (es : List Event) (s : State) : ∃ s', run false s es = .ok s' := by
  induction es generalizing s with
  | nil => exact ⟨s, rfl⟩
  | cons e es ih =>
    unfold run
    cases e with
    | heading => exact ih _
    | inline k l r so bi =>
      simp only [step, insertAnchor]
      split
      · rename_i id h
        split at h
        · simp at h
        · cases h
      · exact ih _

/-- If no heading comes later with the same id, the first anchor
with an id is the one references resolve to: the table holds an anchor written
at the same place as the first, and if no later one claims the same place — as
happens only when a table cell is parsed again — it holds exactly the first.
What is missing for the full claim: headings, see the next theorem. -/
theorem C31_first_wins_partial (pre post : List Event) (e : Event) (s : State)
    (hpre : ∀ x ∈ pre, x.id ≠ e.id)
    (hpost : ∀ x ∈ post, x.id = e.id → isHeading x = false)
    (h : run false {} (pre ++ e :: post) = .ok s) :
    ∃ b, lookup s.table e.id = some b ∧ b.loc = (anchorOf e).loc ∧
      ((∀ x ∈ post, x.id = e.id → (anchorOf x).loc ≠ (anchorOf e).loc) → b = anchorOf e) := by
  rw [run_append] at h
  split at h
  · cases h
  · rename_i s1 h1
    have hn := run_none pre _ _ e.id h1 hpre
    unfold run at h
    split at h
    · cases h
    · rename_i s2 h2
      have hg := step_get s1 s2 e e.id h2
      rw [if_pos ⟨rfl, .inr (.inl hn)⟩] at hg
      obtain ⟨b, h3, h4, h5⟩ := run_inline post s2 s e.id _ h hpost hg
      refine ⟨b, h3, h4, fun hx => ?_⟩
      rcases h5 with h5 | ⟨x, hx1, hx2, hx3, _⟩
      · exact h5
      · exact absurd hx3 (hx x hx1 hx2)

example : (run false {} [.inline "x" (0, 4, 0) (some "first") 0 false, .inline "y" (9, 12, 0) none 0 false,
    .inline "x" (20, 24, 0) (some "second") 0 true]).toOption.map (fun s => (lookup s.table "x", s.errors))
    = some (some ⟨some (0, 4, 0), some "first", "", 0, false⟩, ["x"]) := by decide

/-- The exact rule: the last heading with the id wins if there is one. -/
theorem C31_last_heading_wins (pre post : List Event) (id title : String) (reftext : Option String) (src : Nat) (s : State)
    (hpost : ∀ x ∈ post, x.id = id → isHeading x = false)
    (h : run false {} (pre ++ .heading id reftext title src :: post) = .ok s) :
    lookup s.table id = some ⟨none, reftext, title, src, false⟩ := by
  rw [run_append] at h
  split at h
  · cases h
  · rename_i s1 h1
    unfold run at h
    split at h
    · cases h
    · rename_i s2 h2
      have hg := step_get s1 s2 _ id h2
      rw [if_pos ⟨rfl, .inl rfl⟩] at hg
      obtain ⟨b, h3, h4, h5⟩ := run_inline post s2 s id _ h hpost hg
      rcases h5 with h5 | ⟨x, hx1, hx2, hx3, _⟩
      · rw [h3, h5]; rfl
      · exfalso
        have := hpost x hx1 hx2
        cases x <;> simp [isHeading, anchorOf] at this hx3

/-- The claim fails for headings: a heading silently takes over an id already
used, be it by an anchor or by an earlier heading, and nothing is reported even
in strict mode. -/
theorem C31_heading_overwrites_violated :
    (run true {} [.inline "x" (0, 4, 0) (some "first") 0 false, .heading "x" none "Second" 0]).toOption.map
        (fun s => (lookup s.table "x", s.errors)) = some (some ⟨none, none, "Second", 0, false⟩, []) ∧
    (run true {} [.heading "x" none "First" 0, .heading "x" none "Second" 0]).toOption.map
        (fun s => (lookup s.table "x", s.errors)) = some (some ⟨none, none, "Second", 0, false⟩, []) := by
  decide

/-- Ids reported as duplicated: exactly the inline anchors whose id was taken at
another place, in source order. `seen` lists what the table resolves to. -/
def duplicates (taken : String → Option (Option (Nat × Nat × Nat))) : List Event → List String
  | [] => []
  | e :: es =>
    let fresh : Bool := isHeading e || taken e.id == none || taken e.id == some (anchorOf e).loc
    (if fresh then [] else [e.id]) ++
      duplicates (fun k => if fresh && k == e.id then some (anchorOf e).loc else taken k) es

private theorem dup_congr (f g : String → Option (Option (Nat × Nat × Nat))) (es : List Event) (h : ∀ k, f k = g k) :
    duplicates f es = duplicates g es := by
  have : f = g := funext h
  rw [this]

private theorem run_errors (es : List Event) (s s' : State) (h : run false s es = .ok s') :
    s'.errors = s.errors ++ duplicates (fun k => (lookup s.table k).map (·.loc)) es := by
  induction es generalizing s with
  | nil => injection h with h; subst h; simp [duplicates]
  | cons e es ih =>
    unfold run at h
    split at h
    · cases h
    · rename_i s1 h1
      rw [ih s1 h]
      have hg := fun id => step_get s s1 e id h1
      have herr : s1.errors = s.errors ++ (if (isHeading e || (lookup s.table e.id).map (·.loc) == none || (lookup s.table e.id).map (·.loc) == some (anchorOf e).loc) = true then [] else [e.id]) := by
        cases e with
        | heading k r t so => injection h1 with h1; subst h1; simp [insertHeading, isHeading]
        | inline k l r so bi =>
          simp only [step, insertAnchor] at h1
          cases hk : lookup s.table k with
          | none => rw [hk] at h1; simp at h1; subst h1; simp [Event.id, hk]
          | some a =>
            rw [hk] at h1
            by_cases ha : a.loc = some l
            · simp [Option.filter, ha] at h1; subst h1; simp [Event.id, hk, ha, anchorOf]
            · simp [Option.filter, ha] at h1; subst h1; simp [Event.id, hk, ha, anchorOf, isHeading]
      rw [herr, duplicates, List.append_assoc]
      congr 2
      apply dup_congr
      intro k
      rw [hg k]
      by_cases hk : k = e.id
      · subst hk
        cases hh : isHeading e <;> cases hq : lookup s.table e.id <;> simp
        split <;> simp_all
      · have : ¬ e.id = k := fun h => hk h.symm
        simp [hk, this]

/-- Every duplicate inline anchor is reported, in order, and nothing else. -/
theorem C31_duplicates_reported (es : List Event) (s : State) (h : run false {} es = .ok s) :
    s.errors = duplicates (fun _ => none) es := by
  simpa [lookup] using run_errors es {} s h

example : duplicates (fun _ => none) [.inline "x" (0, 4, 0) none 0 false, .heading "x" none "T" 0,
    .inline "x" (30, 34, 0) none 0 false, .inline "y" (40, 44, 0) none 0 true, .inline "y" (40, 44, 0) none 0 true]
    = ["x"] := by decide

/-- In strict mode parsing ends with the first of these diagnostics, and only if
there is one. -/
theorem C31_strict_first_duplicate (es : List Event) (s : State) (h : run false {} es = .ok s) :
    (match run true {} es with
     | .error id => s.errors.head? = some id
     | .ok s' => s' = s ∧ s.errors = []) := by
  suffices H : ∀ (es : List Event) (t s : State), run false t es = .ok s →
      (match run true t es with
       | .error id => ∃ r, s.errors = t.errors ++ id :: r
       | .ok s' => s' = s ∧ s.errors = t.errors) by
    have := H es {} s h
    cases hr : run true {} es with
    | error id => rw [hr] at this; obtain ⟨r, hr⟩ := this; simp [hr]
    | ok s' => rw [hr] at this; exact this
  intro es
  induction es with
  | nil => intro t s h; injection h with h; subst h; exact ⟨rfl, rfl⟩
  | cons e es ih =>
    intro t s h
    cases e with
    | heading k r ti so =>
      simp only [run, step] at h ⊢
      exact ih _ s h
    | inline k l r so bi =>
      simp only [run, step, insertAnchor] at h ⊢
      by_cases hc : ((lookup t.table k).filter fun b => b.loc != some l).isSome
      · simp only [hc] at h ⊢
        simp only [if_true] at h ⊢
        have := run_errors es _ s h
        exact ⟨_, by rw [this, List.append_assoc]; rfl⟩
      · simp only [hc] at h ⊢
        exact ih _ s h

example : run true {} [.inline "x" (0, 4, 0) none 0 false, .inline "x" (9, 12, 0) none 0 false,
    .inline "y" (20, 24, 0) none 0 false, .inline "y" (30, 34, 0) none 0 false] = .error "x" := by rfl

end Verif.Props
