import Verif.Spec.CliAttr
import Verif.Lemmas.AuthorLine
/-! Lemmas: attributes on the command line. -/
namespace Verif.CliAttr
open Regex

variable {word : Char → Bool}

/-- an optional sign -/
theorem sign_run {n : Nat} {c : Char} {b : Bool} {l bf : List Char} {cp : List (Nat × List Char)} {k : St → Option St} {x : St} (hl : l.head? ≠ some c)
    (hk : k ⟨(if b then [c] else []).reverse ++ bf, l, (if b then [(n, [c])] else []) ++ cp⟩ = some x) :
    run word (.opt (.cap n (.ch c))) ⟨bf, (if b then [c] else []) ++ l, cp⟩ k = some x := by
  cases b with
  | true =>
    refine opt_some ?_
    simp only [if_true, List.cons_append, List.nil_append] at hk ⊢
    rw [run, run_ch]
    have : (c :: l).take ((c :: l).length - l.length) = [c] := AuthorLine.cap_take [c] l
    simp only [this]
    exact hk
  | false =>
    rw [opt_none]
    · simpa using hk
    · rw [run]
      exact run_ch_none (by simpa using hl)

def valText (a : Arg) : List Char := match a.value with | none => [] | some v => '=' :: v ++ if a.atEnd then ['@'] else []

def fullValue (a : Arg) : Option (List Char) := a.value.map fun v => v ++ if a.atEnd then ['@'] else []

theorem val_run {a : Arg} (h : ∀ v, a.value = some v → v ≠ [] ∧ ∀ c ∈ v, c ≠ '\n') (bf : List Char) (cp : List (Nat × List Char)) :
    ∃ bf', run word (.opt (.seq (.ch '=') (.cap 6 (.plus (.set (· ≠ '\n')))))) ⟨bf, valText a, cp⟩ some = some ⟨bf', [], (fullValue a).toList.map (fun v => (6, v)) ++ cp⟩ := by
  cases hv : a.value with
  | none =>
    refine ⟨bf, ?_⟩
    rw [opt_none]
    · simp [valText, fullValue, hv]
    · rw [run]; exact run_ch_none (by simp [valText, hv])
  | some v =>
    obtain ⟨h1, h2⟩ := h v hv
    let w := v ++ if a.atEnd then ['@'] else []
    refine ⟨w.reverse ++ '=' :: bf, opt_some ?_⟩
    have e : valText a = '=' :: w := by simp [valText, hv, w]
    have e2 : fullValue a = some w := by simp [fullValue, hv, w]
    rw [e, e2, run, run_ch, run]
    have := plus_all (word := word) (a := w) (b := []) (bf := '=' :: bf) (cp := cp) (p := fun c => decide (c ≠ '\n')) (by simp [w, h1]) (fun c hc => by
      rcases List.mem_append.1 hc with hc | hc
      · simp [h2 c hc]
      · have : c = '@' := by
          split at hc <;> simp at hc
          exact hc
        subst this; decide) (by simp) (k := fun s => some { s with caps := (6, w.take (w.length - s.rest.length)) :: s.caps }) (r := ⟨w.reverse ++ '=' :: bf, [], (6, w) :: cp⟩) (by simp)
    rw [List.append_nil] at this
    exact this

theorem val_head (a : Arg) : ∀ c ∈ (valText a).head?, c = '=' := by
  unfold valText
  cases a.value <;> simp

/-- the condition, in words -/
structure Ok (cl : Classes) (a : Arg) : Prop where
  nameHead : ∃ c cs, a.name = c :: cs ∧ cl.word c = true ∧ ∀ x ∈ cs, cl.word x = true ∨ x = '-'
  valOk : ∀ v, a.value = some v → v ≠ [] ∧ (∀ c ∈ v, c ≠ '\n') ∧ v.getLast? ≠ some '@'
  endOk : a.atEnd = true → a.value.isSome = true ∧ a.atBefore = false ∧ a.atAfter = false

theorem ok_of {cl : Classes} {a : Arg} (h : a.ok cl.word = true) : Ok cl a := by
  simp only [Arg.ok, Bool.and_eq_true, Bool.or_eq_true, Bool.not_eq_true'] at h
  obtain ⟨⟨⟨h1, h2⟩, h3⟩, h4⟩ := h
  refine ⟨?_, ?_, ?_⟩
  · cases hn : a.name with
    | nil => rw [hn] at h1; simp at h1
    | cons c cs =>
      rw [hn] at h1 h2
      refine ⟨c, cs, rfl, by simpa using h1, fun x hx => ?_⟩
      have := List.all_eq_true.1 h2 x (by simp [hx])
      simpa using this
  · intro v hv
    rw [hv] at h3
    simp only [Option.all_some, Bool.and_eq_true, List.all_eq_true, decide_eq_true_eq] at h3
    exact ⟨h3.1.1, h3.1.2, h3.2⟩
  · intro he
    rcases h4 with h4 | h4
    · rw [he] at h4; cases h4
    · exact ⟨h4.1.1, h4.1.2, h4.2⟩

/-- the captures -/
def capsOf (a : Arg) : List (Nat × List Char) :=
  (fullValue a).toList.map (fun v => (6, v)) ++ ((if a.atAfter then [(5, ['@'])] else []) ++ ((if a.bangAfter then [(4, ['!'])] else []) ++ ((3, a.name) ::
    ((if a.atBefore then [(2, ['@'])] else []) ++ ((if a.bangBefore then [(1, ['!'])] else []) ++ [])))))

theorem not_sign (cl : Classes) {c : Char} (h : cl.word c = true) : c ≠ '!' ∧ c ≠ '@' ∧ c ≠ '=' := by
  refine ⟨?_, ?_, ?_⟩ <;> (rintro rfl; rw [cl.word_ascii _ (by decide)] at h; revert h; decide)

theorem arg_match {cl : Classes} {a : Arg} (h : Ok cl a) : ∃ bf', captures cl.word (attrRe cl.word) a.text = some ⟨0, ⟨bf', [], capsOf a⟩⟩ := by
  obtain ⟨c, cs, hn, hc, hcs⟩ := h.nameHead
  obtain ⟨bf', e⟩ := val_run (word := cl.word) (a := a) (fun v hv => ⟨(h.valOk v hv).1, (h.valOk v hv).2.1⟩)
    ((if a.atAfter then ['@'] else []).reverse ++ ((if a.bangAfter then ['!'] else []).reverse ++ (cs.reverse ++ (c :: ((if a.atBefore then ['@'] else []).reverse ++
      ((if a.bangBefore then ['!'] else []).reverse ++ []))))))
    ((if a.atAfter then [(5, ['@'])] else []) ++ ((if a.bangAfter then [(4, ['!'])] else []) ++ ((3, a.name) ::
      ((if a.atBefore then [(2, ['@'])] else []) ++ ((if a.bangBefore then [(1, ['!'])] else []) ++ [])))))
  refine ⟨bf', AuthorLine.search_now ?_⟩
  have et : a.text = (if a.bangBefore then ['!'] else []) ++ ((if a.atBefore then ['@'] else []) ++ (a.name ++ ((if a.bangAfter then ['!'] else []) ++
      ((if a.atAfter then ['@'] else []) ++ valText a)))) := by
    unfold Arg.text valText
    simp only [List.append_assoc]
    rfl
  have hv : ∀ c ∈ (valText a).head?, c = '=' := val_head a
  have hns := not_sign cl hc
  rw [et, attrRe, run]
  refine sign_run ?_ ?_
  · cases a.atBefore
    · simp [hn, hns]
    · simp
  rw [run]
  refine sign_run ?_ ?_
  · simp [hn, hns]
  rw [run, run, run, hn, List.cons_append, run_set_cons, if_pos hc]
  refine star_all (fun x hx => by rcases hcs x hx with h | h <;> simp [h]) ?_ ?_
  · intro x hx
    have : x = '!' ∨ x = '@' ∨ x = '=' := by
      cases hb : a.bangAfter
      · cases ha : a.atAfter
        · rw [hb, ha] at hx
          exact .inr (.inr (hv x (by simpa using hx)))
        · rw [hb, ha] at hx
          simp at hx; exact .inr (.inl hx.symm)
      · rw [hb] at hx
        simp at hx; exact .inl hx.symm
    have hw : cl.word x = false := by
      cases hw : cl.word x with
      | false => rfl
      | true => have := not_sign cl hw; rcases this with ⟨h1, h2, h3⟩; rcases ‹x = '!' ∨ x = '@' ∨ x = '='› with h | h | h <;> contradiction
    rcases this with h | h | h <;> subst h <;> simp [hw]
  rw [run]
  have hct : ∀ (r : List Char), (c :: (cs ++ r)).take ((c :: (cs ++ r)).length - r.length) = c :: cs := fun r => AuthorLine.cap_take (c :: cs) r
  simp only [hct]
  refine sign_run ?_ ?_
  · cases a.atAfter
    · intro hh
      have := hv '!' (by rw [Option.mem_def]; simpa using hh)
      revert this; decide
    · simp
  rw [run]
  refine sign_run ?_ ?_
  · intro hh
    have := hv '@' (by rw [Option.mem_def]; exact hh)
    revert this; decide
  rw [hn] at e
  rw [e, capsOf, hn]

theorem trimAt_append {v : List Char} (h : v.getLast? ≠ some '@') : trimAt (v ++ ['@']) = v := by
  unfold trimAt
  rw [List.reverse_append, List.reverse_singleton, List.singleton_append, List.dropWhile_cons, if_pos (by simp)]
  cases hr : v.reverse with
  | nil => simp at hr; simp [hr]
  | cons x xs =>
    have hx : v.getLast? = some x := by rw [← List.head?_reverse, hr]; rfl
    rw [hx] at h
    rw [List.dropWhile_cons, if_neg (by simpa using h), ← hr, List.reverse_reverse]

theorem arg_read (cl : Classes) (lower : List Char → List Char) {a : Arg} (h : a.ok cl.word = true) : parseAttr cl.word lower a.text = some (a.meaning lower) := by
  have h' := ok_of h
  obtain ⟨bf', e⟩ := arg_match h'
  unfold parseAttr
  rw [e]
  have g3 : Match.group ⟨0, ⟨bf', [], capsOf a⟩⟩ 3 = some a.name := by
    unfold Match.group capsOf
    cases fullValue a <;> cases a.atAfter <;> cases a.bangAfter <;> rfl
  have g6 : Match.group ⟨0, ⟨bf', [], capsOf a⟩⟩ 6 = fullValue a := by
    unfold Match.group capsOf
    cases fullValue a <;> cases a.atAfter <;> cases a.bangAfter <;> cases a.atBefore <;> cases a.bangBefore <;> rfl
  have g1 : ((Match.group ⟨0, ⟨bf', [], capsOf a⟩⟩ 1).isSome || (Match.group ⟨0, ⟨bf', [], capsOf a⟩⟩ 4).isSome) = a.unset := by
    unfold Match.group capsOf Arg.unset
    cases fullValue a <;> cases a.atAfter <;> cases a.bangAfter <;> cases a.atBefore <;> cases a.bangBefore <;> rfl
  have g2 : ((Match.group ⟨0, ⟨bf', [], capsOf a⟩⟩ 2).isSome || (Match.group ⟨0, ⟨bf', [], capsOf a⟩⟩ 5).isSome) = (a.atBefore || a.atAfter) := by
    unfold Match.group capsOf
    cases fullValue a <;> cases a.atAfter <;> cases a.bangAfter <;> cases a.atBefore <;> cases a.bangBefore <;> rfl
  simp only [g3, g1, g2, g6]
  unfold Arg.meaning Arg.soft fullValue
  cases hv : a.value with
  | none =>
    have he : a.atEnd = false := by
      cases he : a.atEnd with
      | false => rfl
      | true => have := (h'.endOk he).1; rw [hv] at this; cases this
    rw [he]
    cases a.unset <;> cases a.atBefore <;> cases a.atAfter <;> rfl
  | some v =>
    obtain ⟨h1, h2, h3⟩ := h'.valOk v hv
    simp only [Option.map_some]
    cases he : a.atEnd with
    | false =>
      simp only [Bool.false_eq_true, if_false, List.append_nil, Bool.or_false]
      cases a.unset <;> cases a.atBefore <;> cases a.atAfter <;> simp [h3]
    | true =>
      obtain ⟨_, h5, h6⟩ := h'.endOk he
      rw [h5, h6]
      simp only [if_true, Bool.or_false, Bool.or_true]
      cases a.unset <;> simp [trimAt_append h3]

theorem arg_total (word : Char → Bool) (lower : List Char → List Char) (input : List Char) : parseAttr word lower input ≠ none := by
  unfold parseAttr
  split
  · simp
  · rename_i m hm
    obtain ⟨bf, l, h⟩ := search_some _ _ _ _ hm
    rw [attrRe, run] at h
    obtain ⟨s1, _, h⟩ := run_keep 0 _ (by decide) _ _ _ h
    rw [run] at h
    obtain ⟨s2, _, h⟩ := run_keep 0 _ (by decide) _ _ _ h
    rw [run, run] at h
    obtain ⟨s3, _, h⟩ := run_keep 0 _ (by simp [groups]) _ _ _ h
    obtain ⟨s4, h4, h5⟩ := run_keep 3 _ (by decide) _ _ _ h
    cases h5
    have : ∃ n, m.group 3 = some n := ⟨_, by rw [Match.group, h4]; rfl⟩
    obtain ⟨n, hn⟩ := this
    simp only [hn]
    split <;> try split
    all_goals simp

end Verif.CliAttr
