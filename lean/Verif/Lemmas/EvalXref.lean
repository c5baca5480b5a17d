import Verif.Lemmas.EvalOrder
/-! Lemmas about the evaluator: cross references and termination. -/
set_option linter.unusedSectionVars false
set_option linter.unusedVariables false
namespace Verif.Eval
open Verif.Ast Verif.Spec.Eval

theorem around_bound {c : Call} {a : List Ev} (h : .bound ∉ a) : .bound ∉ around c a := by simp [around, h]
theorem append_bound {a b : List Ev} (h : .bound ∉ a) (h' : .bound ∉ b) : .bound ∉ a ++ b := by simp [h, h']

/-- jumping to the anchor with this id does not reach the bound -/
def GoodT (env : Env) (jump : Jump) (t : Text) : Prop :=
  ∀ a, env.anchors t = some a → ∀ text ∈ anchorTexts a, .bound ∉ (jump text true).1

/-- the references that can be followed -/
def active (f : Bool) (ts : List Text) : List Text := if f then ts.tail else ts

theorem active_sub (f : Bool) (ts : List Text) : ∀ t ∈ active f ts, t ∈ ts := by
  intro t h
  cases f
  · exact h
  · exact List.mem_of_mem_tail h

theorem active_left (f : Bool) (a b : List Text) : ∀ t ∈ active f a, t ∈ active f (a ++ b) := by
  intro t h
  cases f with
  | false => exact List.mem_append_left _ h
  | true =>
    cases a with
    | nil => cases h
    | cons x a => exact List.mem_append_left _ h

/-- after the first part, with the flag it leaves -/
theorem active_right {f g : Bool} {a b : List Text} (hg : a = [] → g = f) (hf : f = false → g = false) :
    ∀ t ∈ active g b, t ∈ active f (a ++ b) := by
  intro t h
  cases f with
  | false => exact List.mem_append_right _ (active_sub _ _ t h)
  | true =>
    cases a with
    | nil => rw [hg rfl] at h; exact h
    | cons x a => exact List.mem_append_right _ (active_sub _ _ t h)

mutual
theorem evalInline_flag_false (env : Env) (jump : Jump) : ∀ n : Inline, (evalInline env jump n false).2 = false
  | .leaf _ => rfl
  | .skipped => rfl
  | .wrap k ns => evalInlines_flag_false env jump ns
  | .footnote id none => rfl
  | .footnote id (some ns) => evalInlines_flag_false env jump ns
  | .link none => rfl
  | .link (some ns) => evalInlines_flag_false env jump ns
  | .mailto none => rfl
  | .mailto (some ns) => evalInlines_flag_false env jump ns
  | .xref t none => rfl
  | .xref t (some ns) => rfl
  | .visibleTerm ns => by
    simp only [evalInline]; split
    · exact evalInlines_flag_false env jump ns
    · rfl
  | .concealedTerm p s t => by
    simp only [evalInline]; split
    · dsimp only
      rw [evalInlines_flag_false env jump p, evalTerm_flag_false env jump _ s, evalTerm_flag_false env jump _ t]
    · rfl
theorem evalInlines_flag_false (env : Env) (jump : Jump) : ∀ ns : List Inline, (evalInlines env jump ns false).2 = false
  | [] => rfl
  | n :: ns => by
    simp only [evalInlines]
    rw [evalInline_flag_false env jump n]; exact evalInlines_flag_false env jump ns
theorem evalTerm_flag_false (env : Env) (jump : Jump) (c : Call) : ∀ ns : Option (List Inline), (evalTerm env jump c ns false).2 = false
  | none => rfl
  | some ns => evalInlines_flag_false env jump ns
end

mutual
theorem evalInline_flag_none (env : Env) (jump : Jump) : ∀ (n : Inline) (f : Bool), nodeTargets n = [] → (evalInline env jump n f).2 = f
  | .leaf _, f, _ => rfl
  | .skipped, f, _ => rfl
  | .wrap k ns, f, h => evalInlines_flag_none env jump ns f h
  | .footnote id none, f, h => rfl
  | .footnote id (some ns), f, h => evalInlines_flag_none env jump ns f h
  | .link none, f, h => rfl
  | .link (some ns), f, h => evalInlines_flag_none env jump ns f h
  | .mailto none, f, h => rfl
  | .mailto (some ns), f, h => evalInlines_flag_none env jump ns f h
  | .xref t _, f, h => by simp [nodeTargets] at h
  | .visibleTerm ns, f, h => by
    simp only [evalInline]; split
    · exact evalInlines_flag_none env jump ns f h
    · rfl
  | .concealedTerm p s t, f, h => by
    simp only [nodeTargets, List.append_eq_nil_iff] at h
    simp only [evalInline]; split
    · dsimp only
      rw [evalInlines_flag_none env jump p f h.1.1, evalTerm_flag_none env jump _ s f h.1.2, evalTerm_flag_none env jump _ t f h.2]
    · rfl
theorem evalInlines_flag_none (env : Env) (jump : Jump) : ∀ (ns : List Inline) (f : Bool), targets ns = [] → (evalInlines env jump ns f).2 = f
  | [], f, _ => rfl
  | n :: ns, f, h => by
    simp only [targets, List.append_eq_nil_iff] at h
    simp only [evalInlines]
    rw [evalInline_flag_none env jump n f h.1]; exact evalInlines_flag_none env jump ns f h.2
theorem evalTerm_flag_none (env : Env) (jump : Jump) (c : Call) : ∀ (ns : Option (List Inline)) (f : Bool), optTargets ns = [] → (evalTerm env jump c ns f).2 = f
  | none, f, _ => rfl
  | some ns, f, h => evalInlines_flag_none env jump ns f h
end

theorem xrefInner_bound (env : Env) (jump : Jump) (t : Text) (own : Option (Bool × List Ev)) (f : Bool)
    (hg : f = false → GoodT env jump t) (ho : f = false → ∀ p, own = some p → .bound ∉ p.2) : .bound ∉ xrefInner env jump t own f := by
  have hm : .bound ∉ [Ev.visit (.missingXref t)] := by simp
  have hs : ∀ (b : Bool) (evs : List Ev), .bound ∉ evs → .bound ∉ around (.xrefText b) evs := fun b evs h => around_bound h
  unfold xrefInner
  cases f with
  | true => exact hm
  | false =>
    have hg := hg rfl
    have ho := ho rfl
    cases ha : env.anchors t with
    | none =>
      cases own with
      | none => exact hm
      | some p => exact hs _ _ (ho p rfl)
    | some a =>
      have hg := hg a ha
      obtain ⟨reftext, title, bib⟩ := a
      cases reftext with
      | none =>
        have hj := hg title (by simp [anchorTexts])
        cases own with
        | none => dsimp only; repeat' (first | exact hm | (apply hs; exact hj) | split)
        | some p =>
          have hp := ho p rfl
          obtain ⟨e, evs⟩ := p
          dsimp only at hp ⊢; repeat' (first | exact hm | (apply hs; exact hp) | split)
      | some text =>
        have hj := hg text (by simp [anchorTexts, optText])
        cases own with
        | none => dsimp only; repeat' (first | exact hm | (apply hs; exact hj) | split)
        | some p =>
          have hp := ho p rfl
          obtain ⟨e, evs⟩ := p
          dsimp only at hp ⊢; repeat' (first | exact hm | (apply hs; exact hj) | (apply hs; exact hp) | split)

mutual
theorem evalInline_bound (env : Env) (jump : Jump) : ∀ (n : Inline) (f : Bool), (∀ t ∈ active f (nodeTargets n), GoodT env jump t) →
    .bound ∉ (evalInline env jump n f).1
  | .leaf l, f, _ => by simp [evalInline]
  | .skipped, f, _ => by simp [evalInline]
  | .wrap k ns, f, h => around_bound (evalInlines_bound env jump ns f h)
  | .footnote id none, f, _ => around_bound (by simp)
  | .footnote id (some ns), f, h => around_bound (evalInlines_bound env jump ns f h)
  | .link none, f, _ => around_bound (by simp)
  | .link (some ns), f, h => around_bound (evalInlines_bound env jump ns f h)
  | .mailto none, f, _ => around_bound (by simp)
  | .mailto (some ns), f, h => around_bound (evalInlines_bound env jump ns f h)
  | .xref t none, f, h => around_bound (xrefInner_bound env jump t none f
      (fun hf => by subst hf; exact h t (List.mem_cons_self ..)) (fun _ _ h => (by cases h)))
  | .xref t (some ns), f, h => around_bound (xrefInner_bound env jump t _ f
      (fun hf => by subst hf; exact h t (List.mem_cons_self ..)) (fun hf p hp => by
        subst hf; cases hp
        exact evalInlines_bound env jump ns true (fun t' ht' => h t' (List.mem_cons_of_mem _ (active_sub _ _ _ ht')))))
  | .visibleTerm ns, f, h => by
    have := evalInlines_bound env jump ns f h
    simp only [evalInline]
    split <;> simp [this]
  | .concealedTerm p s t, f, h => by
    simp only [nodeTargets] at h
    simp only [evalInline]
    have h1 := evalInlines_bound env jump p f (fun x hx => h x (active_left _ _ _ _ (active_left _ _ _ _ hx)))
    have h2 := evalTerm_bound env jump .secondaryTerm s (evalInlines env jump p f).2 (fun x hx => h x (active_left _ _ _ _
      (active_right (evalInlines_flag_none env jump p f) (fun hf => by rw [hf]; exact evalInlines_flag_false env jump p) _ hx)))
    have h3 := evalTerm_bound env jump .tertiaryTerm t (evalTerm env jump .secondaryTerm s (evalInlines env jump p f).2).2
      (fun x hx => h x (active_right (fun he => by
        rw [List.append_eq_nil_iff] at he
        rw [evalTerm_flag_none env jump _ _ _ he.2, evalInlines_flag_none env jump _ _ he.1]) (fun hf => by
        rw [hf, evalInlines_flag_false, evalTerm_flag_false]) _ hx))
    split
    · exact around_bound (append_bound (append_bound (around_bound h1) h2) h3)
    · exact around_bound (by simp)
theorem evalInlines_bound (env : Env) (jump : Jump) : ∀ (ns : List Inline) (f : Bool), (∀ t ∈ active f (targets ns), GoodT env jump t) →
    .bound ∉ (evalInlines env jump ns f).1
  | [], f, _ => by simp [evalInlines]
  | n :: ns, f, h => append_bound (evalInline_bound env jump n f (fun x hx => h x (active_left _ _ _ _ hx)))
      (evalInlines_bound env jump ns _ (fun x hx => h x (active_right (evalInline_flag_none env jump n f)
        (fun hf => by rw [hf]; exact evalInline_flag_false env jump n) _ hx)))
theorem evalTerm_bound (env : Env) (jump : Jump) (c : Call) : ∀ (ns : Option (List Inline)) (f : Bool),
    (∀ t ∈ active f (optTargets ns), GoodT env jump t) → .bound ∉ (evalTerm env jump c ns f).1
  | none, f, _ => by simp [evalTerm]
  | some ns, f, h => around_bound (evalInlines_bound env jump ns f h)
end

/-- ranks that decrease along all references but the first of each text -/
def Ranked (env : Env) (rank : Text → Nat) : Prop :=
  ∀ id a, env.anchors id = some a → ∀ text ∈ anchorTexts a, ∀ t ∈ (targets text).tail, rank t < rank id

theorem goodT_of_ranked {env : Env} {rank : Text → Nat} (hr : Ranked env rank) : ∀ (n : Nat) (t : Text), rank t < n → GoodT env (evalJump env n) t
  | 0, _, h => by omega
  | n + 1, t, h => fun a ha text ht => evalInlines_bound env _ text true (fun x hx => by
      have := hr t a ha text ht x hx
      exact goodT_of_ranked hr n x (by omega))

theorem inlines_bound {env : Env} {rank : Text → Nat} (hr : Ranked env rank) (n : Nat) (ns : List Inline)
    (h : ∀ t ∈ targets ns, rank t < n) : .bound ∉ inlines env n ns :=
  evalInlines_bound env _ ns false (fun t ht => goodT_of_ranked hr n t (h t ht))

/-! A larger bound changes nothing once the bound is not reached. -/

section
variable {env : Env} {j j' : Jump} (hj : ∀ ns f, .bound ∉ (j ns f).1 → j ns f = j' ns f)

theorem bound_around {c : Call} {a : List Ev} (h : .bound ∉ around c a) : .bound ∉ a := by simpa [around] using h

include hj
theorem xrefInner_mono (t : Text) (own own' : Option (Bool × List Ev)) (f : Bool)
    (ho : own.map Prod.fst = own'.map Prod.fst) (he : ∀ p p', own = some p → own' = some p' → .bound ∉ p.2 → p.2 = p'.2)
    (h : .bound ∉ xrefInner env j t own f) : xrefInner env j t own f = xrefInner env j' t own' f := by
  revert h
  unfold xrefInner
  generalize env.anchors t = x
  intro h
  cases f with
  | true => rfl
  | false =>
    cases x with
    | none =>
      cases own with
      | none =>
        cases own' with
        | none => rfl
        | some p' => cases ho
      | some p =>
        cases own' with
        | none => cases ho
        | some p' =>
          have := he p p' rfl rfl (bound_around h)
          dsimp only; simp only [this]
    | some a =>
      obtain ⟨reftext, title, bib⟩ := a
      cases own with
      | none =>
        cases own' with
        | some p' => cases ho
        | none =>
          cases reftext with
          | none =>
            dsimp only at h ⊢
            simp only [Bool.false_eq_true, if_false] at h ⊢
            split
            · rfl
            · next hc =>
              rw [if_neg hc] at h
              rw [hj _ _ (bound_around h)]
          | some text =>
            dsimp only at h ⊢
            simp only [Bool.false_eq_true, if_false] at h ⊢
            split
            · rfl
            · next hc =>
              rw [if_neg hc] at h
              rw [hj _ _ (bound_around h)]
      | some p =>
        cases own' with
        | none => cases ho
        | some p' =>
          have he := he p p' rfl rfl
          obtain ⟨e, evs⟩ := p
          obtain ⟨e', evs'⟩ := p'
          have ho : e = e' := by simpa using ho
          subst ho
          dsimp only at he
          cases reftext with
          | none =>
            dsimp only at h ⊢
            simp only [Bool.false_eq_true, if_false, ite_self] at h ⊢
            rw [he (bound_around h)]
          | some text =>
            dsimp only at h ⊢
            simp only [Bool.false_eq_true, if_false] at h ⊢
            split
            · next hc =>
              rw [if_pos hc] at h
              rw [he (bound_around h)]
            · next hc =>
              rw [if_neg hc] at h
              rw [hj _ _ (bound_around h)]

mutual
theorem evalInline_mono : ∀ (n : Inline) (f : Bool), .bound ∉ (evalInline env j n f).1 → evalInline env j n f = evalInline env j' n f
  | .leaf l, f, _ => rfl
  | .skipped, f, _ => rfl
  | .wrap k ns, f, h => by simp only [evalInline]; rw [evalInlines_mono ns f (bound_around h)]
  | .footnote id none, f, _ => rfl
  | .footnote id (some ns), f, h => by simp only [evalInline]; rw [evalInlines_mono ns f (bound_around h)]
  | .link none, f, _ => rfl
  | .link (some ns), f, h => by simp only [evalInline]; rw [evalInlines_mono ns f (bound_around h)]
  | .mailto none, f, _ => rfl
  | .mailto (some ns), f, h => by simp only [evalInline]; rw [evalInlines_mono ns f (bound_around h)]
  | .xref t none, f, h => by
    simp only [evalInline]
    rw [xrefInner_mono hj t none none f rfl (fun _ _ h => (by cases h)) (bound_around h)]
  | .xref t (some ns), f, h => by
    simp only [evalInline] at h ⊢
    rw [xrefInner_mono hj t (some (ns.isEmpty, (evalInlines env j ns true).1)) (some (ns.isEmpty, (evalInlines env j' ns true).1)) f rfl (fun p p' hp hp' hb => by
      cases hp; cases hp'
      dsimp only at hb ⊢
      rw [evalInlines_mono ns true hb]) (bound_around h)]
  | .visibleTerm ns, f, h => by
    simp only [evalInline] at h ⊢
    split
    · next hv =>
      rw [if_pos hv] at h
      rw [evalInlines_mono ns f (fun h' => h (List.mem_cons_of_mem _ h'))]
    · rfl
  | .concealedTerm p s t, f, h => by
    simp only [evalInline] at h ⊢
    split
    · next hv =>
      rw [if_pos hv] at h
      have h := bound_around h
      rw [List.mem_append, List.mem_append, not_or, not_or] at h
      have e1 := evalInlines_mono p f (bound_around h.1.1)
      have e2 := evalTerm_mono .secondaryTerm s _ h.1.2
      have e3 := evalTerm_mono .tertiaryTerm t _ h.2
      rw [e3, e2, e1]
    · rfl
theorem evalInlines_mono : ∀ (ns : List Inline) (f : Bool), .bound ∉ (evalInlines env j ns f).1 → evalInlines env j ns f = evalInlines env j' ns f
  | [], f, _ => rfl
  | n :: ns, f, h => by
    simp only [evalInlines, List.mem_append, not_or] at h ⊢
    have e1 := evalInline_mono n f h.1
    have e2 := evalInlines_mono ns _ h.2
    rw [e2, e1]
theorem evalTerm_mono (c : Call) : ∀ (ns : Option (List Inline)) (f : Bool), .bound ∉ (evalTerm env j c ns f).1 → evalTerm env j c ns f = evalTerm env j' c ns f
  | none, f, _ => rfl
  | some ns, f, h => by simp only [evalTerm]; rw [evalInlines_mono ns f (bound_around h)]
end
end

theorem evalJump_mono (env : Env) : ∀ (n m : Nat), n ≤ m → ∀ (ns : List Inline) (f : Bool), .bound ∉ (evalJump env n ns f).1 → evalJump env n ns f = evalJump env m ns f
  | 0, _, _, _, _, h => by simp [evalJump] at h
  | n + 1, 0, hm, _, _, _ => by omega
  | n + 1, m + 1, hm, ns, f, h => evalInlines_mono (evalJump_mono env n m (by omega)) ns f h

theorem inlines_mono (env : Env) {n m : Nat} (hm : n ≤ m) (ns : List Inline) (h : .bound ∉ inlines env n ns) : inlines env n ns = inlines env m ns := by
  unfold inlines
  rw [evalInlines_mono (evalJump_mono env n m hm) ns false h]

theorem trace_mono (env : Env) {n m : Nat} (hm : n ≤ m) (d : Doc) (hw : WellFormed d) (h : .bound ∉ trace env n d) : trace env n d = trace env m d :=
  (visit_P (inl := inlines env n) (inl' := inlines env m) (fun ns => ⟨inlines_panic env n ns, inlines_mono env hm ns⟩) d hw).2.2.2 h

theorem exists_gt (rank : Text → Nat) : ∀ ts : List Text, ∃ n, ∀ t ∈ ts, rank t < n
  | [] => ⟨0, by simp⟩
  | t :: ts => by
    obtain ⟨n, h⟩ := exists_gt rank ts
    refine ⟨n + rank t + 1, fun x hx => ?_⟩
    rcases List.mem_cons.mp hx with hx | hx
    · subst hx; omega
    · have := h x hx; omega

theorem trace_terminates {env : Env} {rank : Text → Nat} (hr : Ranked env rank) (d : Doc) (hw : WellFormed d) : Terminates env d := by
  obtain ⟨n, hn⟩ := exists_gt rank ((docTexts d).flatMap targets)
  refine ⟨n, fun h => ?_⟩
  obtain ⟨ns, h1, h2⟩ := (visit_P (inl := inlines env n) (inl' := inlines env n) (fun ns => ⟨inlines_panic env n ns, fun _ => rfl⟩) d hw).2.2.1 h
  exact inlines_bound hr n ns (fun t ht => hn t (List.mem_flatMap.mpr ⟨ns, h1, ht⟩)) h2

end Verif.Eval
