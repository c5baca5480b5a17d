import Verif.Lemmas.Book
import Verif.Spec.Complaints
/-! The diagnostics of the block-level parser. -/
namespace Verif.Sections
open Verif.Spec.Sections

/-- `x` is a step of the parser when it is not strict, `y` when it is: the new diagnostics are `es` of the result; the strict step fails
with the first of them or gives the same result, and it gives no other results -/
def Told {α : Type} (e0 : List Err) (x y : Res (α × St)) (es : α → List Err) : Prop :=
  (∀ a st', x = .ok (a, st') → st'.errs = e0 ++ es a ∧ y = match es a with | [] => .ok (a, st') | e :: _ => .error (.diag e)) ∧
  ∀ r, y = .ok r → x = .ok r

theorem Told.mono {α : Type} {e0 : List Err} {x y : Res (α × St)} {es es' : α → List Err} (h : Told e0 x y es) (he : ∀ a st', x = .ok (a, st') → es a = es' a) :
    Told e0 x y es' := by
  refine ⟨fun a st' hx => ?_, h.2⟩
  rw [← he a st' hx]; exact h.1 a st' hx

theorem Told.same {α : Type} {e0 : List Err} {x : Res (α × St)} (h : ∀ a st', x = .ok (a, st') → st'.errs = e0) : Told e0 x x (fun _ => []) := by
  refine ⟨fun a st' hx => ⟨by rw [h a st' hx, List.append_nil], hx⟩, fun _ h => h⟩

/-- a step without diagnostics -/
theorem Told.ok {α : Type} {e0 : List Err} {a : α} {s : St} {es : α → List Err} (hs : s.errs = e0) (ha : es a = []) : Told e0 (.ok (a, s)) (.ok (a, s)) es := by
  refine (Told.same (fun a st' h => ?_)).mono (fun a' st' h => ?_)
  · injection h with h; injection h with _ h; rw [← h]; exact hs
  · injection h with h; injection h with h _; rw [← h]; exact ha.symm

theorem Told.error {α : Type} {e0 : List Err} {f g : Fail} {es : α → List Err} : Told e0 (.error f) (.error g) es :=
  ⟨fun _ _ h => (by cases h), fun _ h => (by cases h)⟩

/-- a step and what comes next -/
def bindR {α β : Type} (x : Res (α × St)) (f : α → St → Res (β × St)) : Res (β × St) :=
  match x with
  | .error e => .error e
  | .ok (a, s) => f a s

theorem Told.bind {α β : Type} {e0 : List Err} {x y : Res (α × St)} {es : α → List Err} (h : Told e0 x y es) (f g : α → St → Res (β × St)) {X Y : Res (β × St)}
    (hX : X = bindR x f) (hY : Y = bindR y g) {fs : β → List Err}
    (gs : α → β → List Err) (hf : ∀ a s, x = .ok (a, s) → Told s.errs (f a s) (g a s) (gs a)) (hs : ∀ a s b s', x = .ok (a, s) → f a s = .ok (b, s') → fs b = es a ++ gs a b) :
    Told e0 X Y fs := by
  subst hX; subst hY
  cases x with
  | error e =>
    refine ⟨fun a st' hx => by simp [bindR] at hx, fun r hr => ?_⟩
    cases y with
    | error e' => simp [bindR] at hr
    | ok p => exact absurd (h.2 _ rfl) (by simp)
  | ok p =>
    obtain ⟨a, s⟩ := p
    have h1 := h.1 a s rfl
    have h2 := hf a s rfl
    constructor
    · intro b s' hx
      simp only [bindR] at hx
      have h3 := h2.1 b s' hx
      rw [hs a s b s' rfl hx]
      refine ⟨by rw [h3.1, h1.1, List.append_assoc], ?_⟩
      rw [h1.2]
      cases he : es a with
      | nil => simp only [List.nil_append, bindR]; exact h3.2
      | cons e l => rfl
    · intro r hr
      have : y = .ok (a, s) := by
        cases hy : y with
        | error e => rw [hy] at hr; simp [bindR] at hr
        | ok q => rw [← h.2 q hy]
      rw [this] at hr
      exact h2.2 r hr

theorem Told.bind' {α β : Type} {e0 : List Err} {x y : Res (α × St)} {es : α → List Err} (h : Told e0 x y es) (f g : α → St → Res (β × St)) {X Y : Res (β × St)}
    (hX : X = bindR x f) (hY : Y = bindR y g) {fs : β → List Err}
    (hf : ∀ a s, x = .ok (a, s) → ∃ gs, Told s.errs (f a s) (g a s) gs ∧ ∀ b s', f a s = .ok (b, s') → fs b = es a ++ gs b) :
    Told e0 X Y fs := by
  refine h.bind f g hX hY (fun a b => (fs b).drop (es a).length) ?_ ?_
  · intro a s ha
    obtain ⟨gs, h1, h2⟩ := hf a s ha
    refine h1.mono fun b s' hb => ?_
    rw [h2 b s' hb, List.drop_left' rfl]
  · intro a s b s' ha hb
    obtain ⟨gs, h1, h2⟩ := hf a s ha
    rw [h2 b s' hb, List.drop_left' rfl]

/-- the same after other diagnostics have been reported -/
def ToldAfter {β : Type} (e0 pre : List Err) (X Y : Res (β × St)) (fs : β → List Err) : Prop :=
  ∃ gs, Told e0 X Y gs ∧ ∀ b s', X = .ok (b, s') → fs b = pre ++ gs b

theorem ToldAfter.bind {α β : Type} {e0 pre : List Err} {x y : Res (α × St)} {es : α → List Err} (h : Told e0 x y es) (f g : α → St → Res (β × St)) {X Y : Res (β × St)}
    (hX : X = bindR x f) (hY : Y = bindR y g) {fs : β → List Err} (hf : ∀ a s, x = .ok (a, s) → ToldAfter s.errs (pre ++ es a) (f a s) (g a s) fs) :
    ToldAfter e0 pre X Y fs := by
  refine ⟨fun b => (fs b).drop pre.length, h.bind' f g hX hY ?_, ?_⟩
  · intro a s ha
    obtain ⟨gs, h1, h2⟩ := hf a s ha
    exact ⟨gs, h1, fun b s' hb => by rw [h2 b s' hb, List.append_assoc, List.drop_left' rfl]⟩
  · intro b s' hb
    rw [hX] at hb
    cases x with
    | error f => cases hb
    | ok p =>
      obtain ⟨gs, h1, h2⟩ := hf p.1 p.2 rfl
      simp only
      rw [h2 b s' hb, List.append_assoc, List.drop_left' rfl]

theorem ToldAfter.ok {β : Type} {e0 pre : List Err} {a : β} {s : St} {fs : β → List Err} (hs : s.errs = e0) (ha : fs a = pre) : ToldAfter e0 pre (.ok (a, s)) (.ok (a, s)) fs :=
  ⟨fun _ => [], Told.ok hs rfl, fun b s' h => by injection h with h; injection h with h _; rw [← h, ha, List.append_nil]⟩

theorem complaintsAll_append (level : Nat) (xs ys : List Node) : complaintsAll level (xs ++ ys) = complaintsAll level xs ++ complaintsAll level ys := by
  induction xs with
  | nil => rfl
  | cons x xs ih => simp [complaintsAll, ih]

theorem directSections_eq (bs : List Node) : directSections bs = sectionTitles bs := by
  induction bs with
  | nil => rfl
  | cons b bs ih =>
    cases b with
    | leaf i => simpa [directSections, sectionTitles] using ih
    | compound k c inner => simpa [directSections, sectionTitles] using ih
    | sect i l inner => cases i <;> simpa [directSections, sectionTitles] using ih

theorem childless_eq (sp : Option SpecialSection) : sp.any (!·.supportsSubsections) = sp.any (childless.contains ·) := by
  cases sp with
  | none => rfl
  | some s => cases s <;> rfl

variable {b : Bool} {tl : Nat}

theorem reportAll_lax (st : St) (es : List Err) : reportAll ⟨false, b, tl⟩ st es = .ok { st with errs := st.errs ++ es } := by
  induction es generalizing st with
  | nil => simp [reportAll]
  | cons e es ih =>
    rw [reportAll]
    simp only [report]
    rw [if_neg (by simp)]
    simp only [ih]
    simp

theorem reportAll_strict (st : St) (es : List Err) : reportAll ⟨true, b, tl⟩ st es = match es with | [] => .ok st | e :: _ => .error (.diag e) := by
  cases es <;> rfl

/-- what is reported about a section, but for its level being 0 -/
def sectionComplaints (level : Nat) : Node → List Err
  | .sect (.heading _ t sp _) l inner =>
    (if level + 1 < l then [.outOfSequence t] else []) ++ complaintsAll l inner ++
      (if sp.any (childless.contains ·) then (sectionTitles inner).map .nestedSpecial else [])
  | _ => []

theorem pushTocSt_errs {env : Env} {s s' : St} {a c t : Nat} (h : pushTocSt env s a c t = .ok s') : s'.errs = s.errs := by
  rcases pushTocSt_ok h with ⟨_, h⟩ | ⟨_, _, _, _, h⟩ <;> (subst h; rfl)

/-- the end of `peekedSection` -/
def sectEnd (env : Env) (i : Item) (s : Nat) (sp : Option SpecialSection) (level : Nat) (blocks : List Node) (st : St) : Res (Node × St) :=
  match (if sp.any (!·.supportsSubsections) then reportAll env st ((directSections blocks).map .nestedSpecial) else .ok st) with
  | .error f => .error f
  | .ok st => .ok (.sect i s blocks, { st with level := level })

/-- the inner blocks, and the end of `peekedSection` -/
def sectTail (env : Env) (x : Res (List Node × St)) (i : Item) (s : Nat) (sp : Option SpecialSection) (level : Nat) : Res (Node × St) :=
  bindR x (sectEnd env i s sp level)

/-- the complaints after the sequence of levels -/
def tailComplaints : Node → List Err
  | .sect (.heading _ _ sp _) l inner => complaintsAll l inner ++ (if sp.any (childless.contains ·) then (sectionTitles inner).map .nestedSpecial else [])
  | _ => []

theorem sectEnd_ok {env : Env} {i : Item} {s : Nat} {sp : Option SpecialSection} {level : Nat} {blocks : List Node} {st st' : St} {n : Node}
    (h : sectEnd env i s sp level blocks st = .ok (n, st')) : n = .sect i s blocks := by
  unfold sectEnd at h
  split at h
  · cases h
  · injection h with h; injection h with h _; exact h.symm

theorem tail_told {e0 : List Err} {x y : Res (List Node × St)} {s : Nat} (h : Told e0 x y (complaintsAll s)) (l t : Nat) (sp : Option SpecialSection) (d : Bool) (level : Nat) :
    Told e0 (sectTail ⟨false, b, tl⟩ x (.heading l t sp d) s sp level) (sectTail ⟨true, b, tl⟩ y (.heading l t sp d) s sp level) tailComplaints := by
  refine h.bind _ _ rfl rfl (fun blocks _ => if sp.any (childless.contains ·) then (sectionTitles blocks).map .nestedSpecial else []) ?_ ?_
  · intro blocks s2 _
    simp only [childless_eq, directSections_eq, sectEnd]
    by_cases hc : sp.any (childless.contains ·) = true
    · simp only [hc, if_true, reportAll_lax, reportAll_strict]
      constructor
      · intro a st' hx
        injection hx with hx; injection hx with h1 h2
        subst h1; subst h2
        refine ⟨rfl, ?_⟩
        cases (sectionTitles blocks).map Err.nestedSpecial with
        | nil => simp
        | cons e es => rfl
      · intro r hr
        cases hm : (sectionTitles blocks).map Err.nestedSpecial with
        | nil => rw [hm] at hr; simpa using hr
        | cons e es => rw [hm] at hr; cases hr
    · simp only [hc]
      exact Told.ok rfl rfl
  · intro blocks s2 n s3 _ h2
    rw [sectEnd_ok h2]
    rfl

theorem tail_ok {env : Env} {x : Res (List Node × St)} {i : Item} {s : Nat} {sp : Option SpecialSection} {level : Nat} {n : Node} {st' : St}
    (h : sectTail env x i s sp level = .ok (n, st')) : ∃ blocks, n = .sect i s blocks := by
  unfold sectTail bindR at h
  split at h
  · cases h
  · exact ⟨_, sectEnd_ok h⟩

theorem peeked_told {iL iS : St → Res (List Node × St)} (hin : ∀ s, Told s.errs (iL s) (iS s) (complaintsAll s.level)) (l s t : Nat) (sp : Option SpecialSection) (d : Bool)
    (more : List Item) (st : St) :
    Told st.errs (peekedSection ⟨false, b, tl⟩ iL ⟨l, s, t, sp, .heading l t sp d, more⟩ st) (peekedSection ⟨true, b, tl⟩ iS ⟨l, s, t, sp, .heading l t sp d, more⟩ st)
      (sectionComplaints st.level) := by
  have key : ∀ s1 : St, s1.level = s → Told s1.errs (sectTail ⟨false, b, tl⟩ (iL (restore s1 more)) (.heading l t sp d) s sp st.level)
      (sectTail ⟨true, b, tl⟩ (iS (restore s1 more)) (.heading l t sp d) s sp st.level) tailComplaints := by
    intro s1 hs1
    have := hin (restore s1 more)
    rw [show (restore s1 more).level = s from hs1] at this
    exact tail_told (e0 := s1.errs) this l t sp d st.level
  have eq : ∀ (q : Bool) (iX : St → Res (List Node × St)), peekedSection ⟨q, b, tl⟩ iX ⟨l, s, t, sp, .heading l t sp d, more⟩ st =
      if s > st.level ∧ s - st.level > 1 then
        match report ⟨q, b, tl⟩ { st with level := s } (.outOfSequence t) with
        | .error f => .error f
        | .ok s1 => sectTail ⟨q, b, tl⟩ (iX (restore s1 more)) (.heading l t sp d) s sp st.level
      else
        match pushTocSt ⟨q, b, tl⟩ { st with level := s } l s t with
        | .error f => .error f
        | .ok s1 => sectTail ⟨q, b, tl⟩ (iX (restore s1 more)) (.heading l t sp d) s sp st.level := by
    intro q iX
    by_cases hoos : s > st.level ∧ s - st.level > 1
    · unfold peekedSection
      simp only [if_pos hoos]
      cases report ⟨q, b, tl⟩ { st with level := s } (.outOfSequence t) with
      | error f => rfl
      | ok s1 => simp only [sectTail, bindR]; cases iX (restore s1 more) <;> rfl
    · unfold peekedSection
      simp only [if_neg hoos]
      cases pushTocSt ⟨q, b, tl⟩ { st with level := s } l s t with
      | error f => rfl
      | ok s1 => simp only [sectTail, bindR]; cases iX (restore s1 more) <;> rfl
  rw [eq, eq]
  by_cases hoos : s > st.level ∧ s - st.level > 1
  · simp only [if_pos hoos, report, if_true]
    refine ⟨fun a st' hx => ?_, fun r hr => by cases hr⟩
    rw [if_neg (by simp)] at hx
    simp only at hx
    obtain ⟨h1, h2⟩ := (key _ rfl).1 a st' hx
    obtain ⟨blocks, rfl⟩ := tail_ok hx
    rw [sectionComplaints, if_pos (by omega), h1]
    exact ⟨by simp [tailComplaints], rfl⟩
  · simp only [if_neg hoos]
    have hp' : pushTocSt ⟨true, b, tl⟩ { st with level := s } l s t = pushTocSt ⟨false, b, tl⟩ { st with level := s } l s t := rfl
    rw [hp']
    cases hp : pushTocSt ⟨false, b, tl⟩ { st with level := s } l s t with
    | error f => exact ⟨fun a st' hx => (by cases hx), fun r hr => by cases hr⟩
    | ok s1 =>
      have hk := key s1 (pushTocSt_todo hp).2.2.1
      refine ⟨fun a st' hx => ?_, hk.2⟩
      obtain ⟨h1, h2⟩ := hk.1 a st' hx
      obtain ⟨blocks, rfl⟩ := tail_ok hx
      rw [sectionComplaints, if_neg (by omega), h1, pushTocSt_errs hp]
      exact ⟨rfl, h2⟩

/-- the end of `delimited` -/
def delimEnd (env : Env) (k : Nat) (prev : Option Nat) (blocks : List Node) (st : St) : Res (Node × St) :=
  match read st with
  | some (.delim k', more, st) =>
    if k' = k then .ok (.compound k true blocks, { restore st more with delim := prev })
    else
      match report env st (.unclosed k) with
      | .error f => .error f
      | .ok st => .ok (.compound k false blocks, { st with delim := prev })
  | some (_, _, st) =>
    match report env st (.unclosed k) with
    | .error f => .error f
    | .ok st => .ok (.compound k false blocks, { st with delim := prev })
  | none =>
    match report env (atEnd st) (.unclosed k) with
    | .error f => .error f
    | .ok st => .ok (.compound k false blocks, { st with delim := prev })

theorem unclosed_told (k : Nat) (prev : Option Nat) (blocks : List Node) (st : St) (e0 : List Err) (h : st.errs = e0) :
    Told e0 (match report ⟨false, b, tl⟩ st (.unclosed k) with | .error f => .error f | .ok st => .ok (Node.compound k false blocks, { st with delim := prev }))
      (match report ⟨true, b, tl⟩ st (.unclosed k) with | .error f => .error f | .ok st => .ok (Node.compound k false blocks, { st with delim := prev }))
      (fun n => match n with | .compound _ c _ => if c then [] else [.unclosed k] | _ => []) := by
  refine ⟨fun a st' hx => ?_, fun r hr => ?_⟩
  · simp only [report, Bool.false_eq_true, if_false] at hx
    injection hx with hx; injection hx with h3 h4
    subst h3; subst h4
    simp [report, h]
  · simp only [report, if_true] at hr; cases hr

theorem delimited_told {iL iS : St → Res (List Node × St)} (hin : ∀ s, Told s.errs (iL s) (iS s) (complaintsAll s.level)) (k : Nat) (st : St) :
    Told st.errs (delimited ⟨false, b, tl⟩ iL k st) (delimited ⟨true, b, tl⟩ iS k st) (complaints st.level) := by
  have hi := hin { st with delim := some k }
  have eq : ∀ (q : Bool) (iX : St → Res (List Node × St)), delimited ⟨q, b, tl⟩ iX k st = bindR (iX { st with delim := some k }) (delimEnd ⟨q, b, tl⟩ k st.delim) := by
    intro q iX
    unfold delimited bindR delimEnd
    simp only
    cases iX { st with delim := some k } with
    | error f => rfl
    | ok p =>
      simp only
      cases read p.2 with
      | none => rfl
      | some p => obtain ⟨i, more, s3⟩ := p; cases i <;> rfl
  refine hi.bind _ _ (eq _ _) (eq _ _) (fun _ n => match n with | .compound _ c _ => if c then [] else [.unclosed k] | _ => []) ?_ ?_
  · intro blocks s2 h2
    unfold delimEnd
    cases hr : read s2 with
    | none => exact unclosed_told (b := b) (tl := tl) k _ blocks _ _ rfl
    | some p =>
      obtain ⟨i, more, s3⟩ := p
      have he := (read_some hr).2.2.2.2.2
      cases i with
      | para n => exact unclosed_told (b := b) (tl := tl) k _ blocks _ _ he
      | heading _ _ _ _ => exact unclosed_told (b := b) (tl := tl) k _ blocks _ _ he
      | delim k' =>
        simp only
        split
        · exact Told.ok he rfl
        · exact unclosed_told (b := b) (tl := tl) k _ blocks _ _ he
  · intro blocks s2 n st' h1 h2
    have : ∃ c, n = .compound k c blocks := by
      unfold delimEnd at h2
      split at h2
      · split at h2
        · injection h2 with h2; injection h2 with h3 _; exact ⟨_, h3.symm⟩
        · simp only [report, Bool.false_eq_true, if_false] at h2
          injection h2 with h2; injection h2 with h3 _; exact ⟨_, h3.symm⟩
      · simp only [report, Bool.false_eq_true, if_false] at h2
        injection h2 with h2; injection h2 with h3 _; exact ⟨_, h3.symm⟩
      · simp only [report, Bool.false_eq_true, if_false] at h2
        injection h2 with h2; injection h2 with h3 _; exact ⟨_, h3.symm⟩
    obtain ⟨c, rfl⟩ := this
    rfl

/-- the rest of a loop -/
def loopEnd {α : Type} (l : St → Res (List α × St)) (r : Option α) (s : St) : Res (List α × St) :=
  match r with
  | none => .ok ([], s)
  | some a => bindR (l s) fun as s => .ok (a :: as, s)

theorem loop_told {α : Type} {fL fS : St → Res (Option α × St)} {es : α → List Err} (P : St → Prop)
    (h : ∀ s, P s → Told s.errs (fL s) (fS s) (fun r => r.toList.flatMap es)) (hP : ∀ s a s', P s → fL s = .ok (some a, s') → P s') (m : Nat) :
    ∀ s, P s → Told s.errs (loop fL m s) (loop fS m s) (·.flatMap es) := by
  induction m with
  | zero => intro s _; exact Told.error
  | succ m ih =>
    intro s hs
    have eq : ∀ (f : St → Res (Option α × St)), loop f (m + 1) s = bindR (f s) (loopEnd (loop f m)) := by
      intro f
      rw [loop]; unfold bindR
      cases f s with
      | error e => rfl
      | ok p =>
        obtain ⟨r, s'⟩ := p
        cases r with
        | none => rfl
        | some a => simp only [loopEnd, bindR]; cases loop f m s' <;> rfl
    refine (h s hs).bind _ _ (eq _) (eq _) (fun r as => match r with | none => [] | some _ => as.tail.flatMap es) ?_ ?_
    · intro r s' hr
      cases r with
      | none => exact Told.ok rfl rfl
      | some a =>
        refine (ih s' (hP s a s' hs hr)).bind _ _ rfl rfl (fun _ _ => []) ?_ ?_
        · intro as s'' _
          exact Told.ok rfl rfl
        · intro as s'' bs s3 _ h
          injection h with h; injection h with h _
          subst h; simp
    · intro r s' as s'' _ h2
      cases r with
      | none => injection h2 with h2; injection h2 with h2 _; subst h2; rfl
      | some a =>
        simp only [loopEnd, bindR] at h2
        split at h2
        · cases h2
        · injection h2 with h2; injection h2 with h2 _; subst h2; simp

theorem complaintsAll_eq (level : Nat) (bs : List Node) : complaintsAll level bs = bs.flatMap (complaints level) := by
  induction bs with
  | nil => rfl
  | cons b bs ih => rw [complaintsAll, ih]; rfl

/-- a block as the result of a step -/
def someR (x : Node) (s : St) : Res (Option Node × St) := .ok (some x, s)

theorem Told.some {e0 : List Err} {x y : Res (Node × St)} {es : Node → List Err} (h : Told e0 x y es) {X Y : Res (Option Node × St)} (hX : X = bindR x someR) (hY : Y = bindR y someR) :
    Told e0 X Y (fun r => r.toList.flatMap es) :=
  h.bind _ _ hX hY (fun _ _ => []) (fun _ _ _ => Told.ok rfl rfl)
    (fun a s' b' s'' _ h => by injection h with h; injection h with h _; rw [← h]; simp)

theorem block_told (n : Nat) : ∀ s, Told s.errs (parseBlock ⟨false, b, tl⟩ n s) (parseBlock ⟨true, b, tl⟩ n s) (fun r => r.toList.flatMap (complaints s.level)) := by
  induction n with
  | zero => intro s; exact Told.error
  | succ n ih =>
    have hin : ∀ s, Told s.errs (loop (parseBlock ⟨false, b, tl⟩ n) n s) (loop (parseBlock ⟨true, b, tl⟩ n) n s) (complaintsAll s.level) := by
      intro s
      refine (loop_told (es := complaints s.level) (fun s' => s'.level = s.level) (fun s' hs' => by rw [← hs']; exact ih s') ?_ n s rfl).mono ?_
      · intro s1 a s2 h1 h2
        rw [(block_le _ _ _ _ _ h2).1.level, h1]
      · intro a st' _; exact (complaintsAll_eq _ _).symm
    intro s
    unfold parseBlock
    cases hr : read s with
    | none => exact Told.ok rfl rfl
    | some p =>
      obtain ⟨i, more, s1⟩ := p
      obtain ⟨r1, r2, r3, r4, r5, r6⟩ := read_some hr
      cases i with
      | para m => exact Told.ok r6 rfl
      | delim k =>
        simp only
        split
        · exact Told.ok r6 rfl
        · have hd := delimited_told (b := b) (tl := tl) hin k (restore s1 more)
          rw [show (restore s1 more).level = s.level from r3, show (restore s1 more).errs = s.errs from r6] at hd
          refine hd.some ?_ ?_
          · cases delimited ⟨false, b, tl⟩ (loop (parseBlock ⟨false, b, tl⟩ n) n) k (restore s1 more) <;> rfl
          · cases delimited ⟨true, b, tl⟩ (loop (parseBlock ⟨true, b, tl⟩ n) n) k (restore s1 more) <;> rfl
      | heading l t sp d =>
        simp only
        split
        · exact Told.ok r6 rfl
        · split
          · split
            · exact Told.ok r6 rfl
            · exact Told.ok r6 rfl
          · split
            · exact Told.ok r6 rfl
            · rename_i h1 h2
              have hp := peeked_told (b := b) (tl := tl) hin l l t sp d more s1
              rw [r3, r6] at hp
              have hp := hp.mono (es' := complaints s.level) (fun a st' ha => by
                obtain ⟨_, _, blocks, _, _, e, _⟩ := peekedSection_ok ha
                subst e
                simp only [complaints, sectionComplaints]
                rw [if_neg (show ¬ l = 0 by omega)]; simp)
              have e : ∀ (st : Bool) (iX : St → Res (List Node × St)), (match parseSection ⟨st, b, tl⟩ iX (restore s1 (.heading l t sp d :: more)) with
                  | .error f => .error f
                  | .ok (none, _) => .error .panic
                  | .ok (some x, s') => .ok (some x, s')) =
                  bindR (peekedSection ⟨st, b, tl⟩ iX ⟨l, l, t, sp, .heading l t sp d, more⟩ s1) someR := by
                intro st iX
                unfold parseSection
                rw [peek_restored r2]
                simp only
                rw [if_neg (show ¬ (l = 0 ∧ _) by omega), if_neg (show ¬ l = 0 by omega)]
                simp only [bindR]
                cases peekedSection ⟨st, b, tl⟩ iX ⟨l, l, t, sp, .heading l t sp d, more⟩ s1 <;> rfl
              exact hp.some (e _ _) (e _ _)

theorem blocks_told (n m : Nat) (s : St) : Told s.errs (loop (parseBlock ⟨false, b, tl⟩ n) m s) (loop (parseBlock ⟨true, b, tl⟩ n) m s) (complaintsAll s.level) := by
  refine (loop_told (es := complaints s.level) (fun s' => s'.level = s.level) (fun s' hs' => by rw [← hs']; exact block_told n s') ?_ m s rfl).mono ?_
  · intro s1 a s2 h1 h2
    rw [(block_le _ _ _ _ _ h2).1.level, h1]
  · intro a st' _; exact (complaintsAll_eq _ _).symm

theorem peekSection_errs {st st' : St} {r : Option Peeked} (h : peekSection st = (r, st')) : st'.errs = st.errs ∧ st'.level = st.level := by
  unfold peekSection at h
  split at h
  · injection h with _ h; subst h; exact ⟨rfl, rfl⟩
  · rename_i l t sp d more s1 hr
    injection h with _ h; subst h
    exact ⟨(read_some hr).2.2.2.2.2, (read_some hr).2.2.1⟩
  · rename_i i more s1 _ hr
    injection h with _ h; subst h
    exact ⟨(read_some hr).2.2.2.2.2, (read_some hr).2.2.1⟩

theorem section_told (n m : Nat) (s : St) (hs : s.level = 0) : Told s.errs (parseSection ⟨false, b, tl⟩ (loop (parseBlock ⟨false, b, tl⟩ n) m) s)
    (parseSection ⟨true, b, tl⟩ (loop (parseBlock ⟨true, b, tl⟩ n) m) s) (fun r => r.toList.flatMap (complaints 0)) := by
  have eq : ∀ q, parseSection ⟨q, b, tl⟩ (loop (parseBlock ⟨q, b, tl⟩ n) m) s = match peekSection s with
      | (none, st) => .ok (none, st)
      | (some p, st) => if p.semantic = 0 ∧ b = true then .ok (none, restore st (p.item :: p.more)) else
          if p.semantic = 0 then
            (match report ⟨q, b, tl⟩ st (.levelZero p.title) with
             | .error f => .error f
             | .ok st => bindR (peekedSection ⟨q, b, tl⟩ (loop (parseBlock ⟨q, b, tl⟩ n) m) p st) someR)
          else bindR (peekedSection ⟨q, b, tl⟩ (loop (parseBlock ⟨q, b, tl⟩ n) m) p st) someR := by
    intro q
    unfold parseSection
    cases hp : peekSection s with
    | mk r s1 =>
      cases r with
      | none => rfl
      | some p =>
        simp only
        by_cases h0 : p.semantic = 0
        · simp only [h0, true_and, if_true]
          cases b with
          | true => rfl
          | false =>
            simp only [Bool.false_eq_true, if_false, bindR]
            cases report ⟨q, false, tl⟩ s1 (.levelZero p.title) with
            | error f => rfl
            | ok s2 => simp only; cases peekedSection ⟨q, false, tl⟩ (loop (parseBlock ⟨q, false, tl⟩ n) m) p s2 <;> rfl
        · simp only [h0, false_and, if_false, bindR]
          cases peekedSection ⟨q, b, tl⟩ (loop (parseBlock ⟨q, b, tl⟩ n) m) p s1 <;> rfl
  rw [eq, eq]
  cases hp : peekSection s with
  | mk r s1 =>
    obtain ⟨he, hlv⟩ := peekSection_errs hp
    cases r with
    | none => exact Told.ok he rfl
    | some p =>
      obtain ⟨l, t, sp, d, more, rfl, hr⟩ := peek_some hp
      simp only
      split
      · exact Told.ok he rfl
      · split
        · rename_i h1 h0
          simp only [report, if_true]
          refine ⟨fun a st' hx => ?_, fun r hr => by cases hr⟩
          rw [if_neg (by simp)] at hx
          have hp := (peeked_told (b := b) (tl := tl) (blocks_told (b := b) (tl := tl) n m) l l t sp d more { s1 with errs := s1.errs ++ [.levelZero t] }).some rfl rfl
          obtain ⟨h2, h3⟩ := hp.1 a st' hx
          simp only [bindR, someR] at hx
          split at hx
          · cases hx
          · rename_i x s3 hx3
            injection hx with hx; injection hx with hx _
            subst hx
            obtain ⟨_, _, blocks, _, _, e, _⟩ := peekedSection_ok hx3
            subst e
            simp only [Option.toList, List.flatMap_cons, List.flatMap_nil, List.append_nil, complaints, sectionComplaints] at h2 ⊢
            rw [if_pos (show l = 0 from h0), h2, he, h0]
            simp
        · rename_i h1 h0
          have hp := peeked_told (b := b) (tl := tl) (blocks_told (b := b) (tl := tl) n m) l l t sp d more s1
          rw [he, hlv, hs] at hp
          have hp := hp.mono (es' := complaints 0) (fun a st' ha => by
            obtain ⟨_, _, blocks, _, _, e, _⟩ := peekedSection_ok ha
            subst e
            simp only [complaints, sectionComplaints]
            rw [if_neg (show ¬ l = 0 from h0)]; simp)
          exact hp.some rfl rfl

theorem sections_told (n m k : Nat) (s : St) (hs : s.level = 0) : Told s.errs (loop (parseSection ⟨false, b, tl⟩ (loop (parseBlock ⟨false, b, tl⟩ n) m)) k s)
    (loop (parseSection ⟨true, b, tl⟩ (loop (parseBlock ⟨true, b, tl⟩ n) m)) k s) (complaintsAll 0) := by
  refine (loop_told (es := complaints 0) (fun s' => s'.level = 0) (fun s' hs' => section_told n m s' hs') ?_ k s hs).mono ?_
  · intro s1 a s2 h1 h2
    rw [(parseSection_step h2).level, h1]
  · intro a st' _; exact (complaintsAll_eq _ _).symm

theorem sectioned_told (n : Nat) (s : St) (hs : s.level = 0) : Told s.errs (parseSectioned ⟨false, b, tl⟩ n s) (parseSectioned ⟨true, b, tl⟩ n s)
    (fun r => complaintsAll 0 r.1 ++ complaintsAll 0 r.2) := by
  have hb := blocks_told (b := b) (tl := tl) n n s
  rw [hs] at hb
  have eq : ∀ q, parseSectioned ⟨q, b, tl⟩ n s = bindR (loop (parseBlock ⟨q, b, tl⟩ n) n s)
      fun pre st => bindR (loop (parseSection ⟨q, b, tl⟩ (loop (parseBlock ⟨q, b, tl⟩ n) n)) n st) fun secs st => .ok ((pre, secs), st) := by
    intro q
    unfold parseSectioned bindR
    cases loop (parseBlock ⟨q, b, tl⟩ n) n s with
    | error f => rfl
    | ok p => simp only; cases loop (parseSection ⟨q, b, tl⟩ (loop (parseBlock ⟨q, b, tl⟩ n) n)) n p.2 <;> rfl
  refine hb.bind _ _ (eq _) (eq _) (fun _ r => complaintsAll 0 r.2) ?_ ?_
  · intro pre s1 h1
    refine (sections_told n n n s1 ((blocks_le h1).level.trans hs)).bind _ _ rfl rfl (fun _ _ => []) (fun _ _ _ => Told.ok rfl rfl) ?_
    intro secs s2 r s3 _ h
    injection h with h; injection h with h _; subst h; simp
  · intro pre s1 r s2 _ h
    unfold bindR at h
    split at h
    · cases h
    · injection h with h; injection h with h _; subst h; rfl

theorem special_told (n : Nat) (s : St) (hs : s.level = 0) : Told s.errs (parseSpecial ⟨false, b, tl⟩ n s) (parseSpecial ⟨true, b, tl⟩ n s)
    (fun r => r.toList.flatMap (complaints 0)) := by
  unfold parseSpecial
  cases hp : peekSection s with
  | mk r s1 =>
    obtain ⟨he, hlv⟩ := peekSection_errs hp
    cases r with
    | none => exact Told.ok he rfl
    | some p =>
      obtain ⟨l, t, sp, d, more, rfl, hr⟩ := peek_some hp
      simp only
      split
      · exact Told.ok he rfl
      · have hp := peeked_told (b := b) (tl := tl) (blocks_told (b := b) (tl := tl) n n) l 1 t sp d more s1
        rw [he, hlv, hs] at hp
        have hp := hp.mono (es' := complaints 0) (fun a st' ha => by
          obtain ⟨_, _, blocks, _, _, e, _⟩ := peekedSection_ok ha
          subst e
          simp [complaints, sectionComplaints])
        refine hp.some ?_ ?_
        · unfold bindR
          cases peekedSection ⟨false, b, tl⟩ (loop (parseBlock ⟨false, b, tl⟩ n) n) ⟨l, 1, t, sp, .heading l t sp d, more⟩ s1 <;> rfl
        · unfold bindR
          cases peekedSection ⟨true, b, tl⟩ (loop (parseBlock ⟨true, b, tl⟩ n) n) ⟨l, 1, t, sp, .heading l t sp d, more⟩ s1 <;> rfl

theorem special_level {env : Env} {n : Nat} {s s' : St} {x : Node} (h : parseSpecial env n s = .ok (some x, s')) : s'.level = s.level := by
  rcases parseSpecial_ok h with ⟨h1, _⟩ | ⟨l, t, sp, d, more, s1, b', hr, _, _, hs⟩
  · cases h1
  · obtain ⟨_, _, _, _, _, _, _, e, _⟩ := peekedSection_ok hs
    rw [e]; exact (read_some hr).2.2.1

theorem specials_told (n k : Nat) (s : St) (hs : s.level = 0) : Told s.errs (loop (parseSpecial ⟨false, b, tl⟩ n) k s) (loop (parseSpecial ⟨true, b, tl⟩ n) k s) (complaintsAll 0) := by
  refine (loop_told (es := complaints 0) (fun s' => s'.level = 0) (fun s' hs' => special_told n s' hs') ?_ k s hs).mono ?_
  · intro s1 a s2 h1 h2
    rw [special_level h2, h1]
  · intro a st' _; exact (complaintsAll_eq _ _).symm

/-- the end of `parsePart` -/
def partEnd (env : Env) (i : Item) (t : Nat) (r : List Node × List Node) (st : St) : Res (Option Part × St) :=
  match (if r.2.isEmpty then report env st (.emptyPart t) else .ok st) with
  | .error f => .error f
  | .ok st => .ok (some ⟨i, r.1, r.2⟩, st)

theorem part_told (n : Nat) (s : St) (hs : s.level = 0) : Told s.errs (parsePart ⟨false, b, tl⟩ n s) (parsePart ⟨true, b, tl⟩ n s)
    (fun r => r.toList.flatMap partComplaints) := by
  unfold parsePart
  cases hp : peekSection s with
  | mk r s1 =>
    obtain ⟨he, hlv⟩ := peekSection_errs hp
    cases r with
    | none => exact Told.ok he rfl
    | some p =>
      obtain ⟨l, t, sp, d, more, rfl, hr⟩ := peek_some hp
      simp only
      split
      · exact Told.ok he rfl
      · have hp' : pushTocSt ⟨true, b, tl⟩ s1 l l t = pushTocSt ⟨false, b, tl⟩ s1 l l t := rfl
        rw [hp']
        cases hp : pushTocSt ⟨false, b, tl⟩ s1 l l t with
        | error f => exact Told.error
        | ok s2 =>
          simp only
          have hl2 : (restore s2 more).level = 0 := ((pushTocSt_todo hp).2.2.1.trans hlv).trans hs
          have he2 : (restore s2 more).errs = s.errs := (pushTocSt_errs hp).trans he
          have hs2 := sectioned_told (b := b) (tl := tl) n (restore s2 more) hl2
          rw [he2] at hs2
          have eq : ∀ q, (match parseSectioned ⟨q, b, tl⟩ n (restore s2 more) with
              | .error f => .error f
              | .ok ((pre, secs), st) =>
                match (if secs.isEmpty then report ⟨q, b, tl⟩ st (.emptyPart t) else .ok st) with
                | .error f => .error f
                | .ok st => .ok (some ⟨.heading l t sp d, pre, secs⟩, st)) = bindR (parseSectioned ⟨q, b, tl⟩ n (restore s2 more)) (partEnd ⟨q, b, tl⟩ (.heading l t sp d) t) := by
            intro q
            unfold bindR
            cases parseSectioned ⟨q, b, tl⟩ n (restore s2 more) <;> rfl
          refine hs2.bind _ _ (eq _) (eq _) (fun r _ => if r.2 = [] then [.emptyPart t] else []) ?_ ?_
          · rintro ⟨pre, secs⟩ s3 _
            cases secs with
            | nil =>
              simp only [partEnd, report, List.isEmpty_nil, if_true]
              refine ⟨fun a st' hx => ?_, fun r hr => by cases hr⟩
              rw [if_neg (by simp)] at hx
              injection hx with hx; injection hx with h1 h2
              subst h1; subst h2
              exact ⟨rfl, rfl⟩
            | cons x xs => exact Told.ok rfl rfl
          · rintro ⟨pre, secs⟩ s3 r s4 _ h
            have : r = some ⟨.heading l t sp d, pre, secs⟩ := by
              unfold partEnd at h
              split at h
              · cases h
              · injection h with h; injection h with h _; exact h.symm
            subst this
            simp [partComplaints]

theorem parts_told (n k : Nat) (s : St) (hs : s.level = 0) : Told s.errs (loop (parsePart ⟨false, b, tl⟩ n) k s) (loop (parsePart ⟨true, b, tl⟩ n) k s)
    (·.flatMap partComplaints) := by
  refine loop_told (es := partComplaints) (fun s' => s'.level = 0) (fun s' hs' => part_told n s' hs') ?_ k s hs
  intro s1 a s2 h1 h2
  rcases parsePart_ok h2 with ⟨h3, _⟩ | ⟨t, d, more, s3, s4, pre, secs, s5, errs, hr, hp, hsec, e, _⟩
  · cases h3
  · rw [e]
    exact (((sectioned_post hsec).level.trans (pushTocSt_todo hp).2.2.1).trans (read_some hr).2.2.1).trans h1

/-- the document after the blocks in front of it -/
def bookMerge (blocks : List Node) : Doc → St → Res (Doc × St)
  | .sections pre secs, st => .ok (.sections (blocks ++ pre) secs, st)
  | .blocks _, _ => .error .panic
  | .parts pre op ps cl, st => .ok (.parts (blocks ++ pre) op ps cl, st)

/-- a book without parts -/
def bookRest (env : Env) (n r : Nat) (opening : List Node) (s2 : St) : Res (Doc × St) :=
  match peekSection s2 with
  | (some p, st) => bindR (parseSectioned env n (restore st (p.item :: p.more))) fun q st => .ok (.sections q.1 (opening ++ q.2), st)
  | (none, st) => bindR (loop (parseBlock env n) n st) fun blocks st => if isEof st then .ok (.blocks blocks, st) else bindR (parseBook env n r st) (bookMerge blocks)

/-- a book after its first special sections -/
def bookParts (env : Env) (n r : Nat) (opening : List Node) (s1 : St) : Res (Doc × St) :=
  bindR (loop (parsePart env n) n s1) fun parts s2 =>
    match parts with
    | part :: parts => bindR (loop (parseSpecial env n) n s2) fun closing st => .ok (.parts [] opening (part :: parts) closing, st)
    | [] => bookRest env n r opening s2

theorem parseBook_eq (env : Env) (n r : Nat) (st : St) : parseBook env n (r + 1) st = bindR (loop (parseSpecial env n) n st) fun opening s1 =>
    if isEof s1 && !opening.isEmpty then .ok (.sections [] opening, s1) else bookParts env n r opening s1 := by
  rw [parseBook]
  cases loop (parseSpecial env n) n st with
  | error f => rfl
  | ok p =>
    obtain ⟨opening, s1⟩ := p
    simp only [bindR]
    split
    · rfl
    · unfold bookParts
      cases loop (parsePart env n) n s1 with
      | error f => rfl
      | ok p =>
        obtain ⟨parts, s2⟩ := p
        cases parts with
        | cons part parts =>
          simp only [bindR]
          cases loop (parseSpecial env n) n s2 <;> rfl
        | nil =>
          simp only [bindR, bookRest]
          cases peekSection s2 with
          | mk q s3 =>
            cases q with
            | some p =>
              simp only
              cases parseSectioned env n (restore s3 (p.item :: p.more)) <;> rfl
            | none =>
              simp only
              cases loop (parseBlock env n) n s3 with
              | error f => rfl
              | ok p =>
                obtain ⟨blocks, s4⟩ := p
                simp only
                split
                · rfl
                · cases parseBook env n r s4 with
                  | error f => rfl
                  | ok p =>
                    obtain ⟨doc, s5⟩ := p
                    cases doc <;> rfl

theorem book_told (n r : Nat) : ∀ st : St, st.delim = none → st.level = 0 →
    ToldAfter st.errs [] (parseBook ⟨false, b, tl⟩ n r st) (parseBook ⟨true, b, tl⟩ n r st) docComplaints := by
  induction r with
  | zero => intro st _ _; exact ⟨fun _ => [], Told.error, fun _ _ h => by cases h⟩
  | succ r ih =>
    intro st hd hl
    refine ToldAfter.bind (specials_told n n st hl) _ _ (parseBook_eq _ _ _ _) (parseBook_eq _ _ _ _) ?_
    intro opening s1 h1
    obtain ⟨a1, a2, a3, a4, a5, a6, a7, a8, a9⟩ := specials_post hd h1
    have hd1 := a2.trans hd
    have hl1 := a1.trans hl
    by_cases hc : (isEof s1 && !opening.isEmpty) = true
    · simp only [hc, if_true]
      exact ToldAfter.ok rfl (by simp [docComplaints, complaintsAll])
    · simp only [hc]
      refine ToldAfter.bind (parts_told n n s1 hl1) _ _ rfl rfl ?_
      intro parts s2 h2
      obtain ⟨b1, b2, b3, b4, b5, b6, b7, b8⟩ := parts_post hd1 hl1 h2
      cases parts with
      | cons part parts =>
        refine ToldAfter.bind (specials_told n n s2 b1) _ _ rfl rfl ?_
        intro closing s3 h3
        exact ToldAfter.ok rfl (by simp [docComplaints, complaintsAll])
      | nil =>
        obtain ⟨b7, _⟩ := b7 rfl
        simp only [bookRest]
        cases hpk : peekSection s2 with
        | mk q s3 =>
          obtain ⟨he3, hl3⟩ := peekSection_errs hpk
          cases q with
          | some p =>
            obtain ⟨l, t, sp0, d, more, hp, hr⟩ := peek_some hpk
            obtain ⟨r1, r2, r3, r4, r5, r6⟩ := read_some hr
            subst hp
            have hd3 : (restore s3 (.heading l t sp0 d :: more)).delim = none := r4.trans b2
            have e1 : todo (restore s3 (.heading l t sp0 d :: more)) = todo s1 := by
              rw [todo_restore _ r2, ← b7, r1]
            have hs := sectioned_told (b := b) (tl := tl) n (restore s3 (.heading l t sp0 d :: more)) (hl3.trans b1)
            rw [show (restore s3 (.heading l t sp0 d :: more)).errs = s2.errs from he3] at hs
            refine ToldAfter.bind hs _ _ rfl rfl ?_
            rintro ⟨pre, secs⟩ s4 h4
            obtain ⟨sm, hb1, hb2⟩ := sectioned_ok h4
            have hpre : opening ≠ [] → pre = [] := by
              intro ho
              rcases a5 ho with ⟨h7, _⟩ | ⟨l', t', sp', more', h7, h8⟩
              · rw [← e1, todo_restore _ r2] at h7; cases h7
              · exact blocks_at_heading (l := l') (t := t') (sp := sp') hd3 (rest := more' ++ sourceItems s1.rest)
                  (by rw [e1]; simp [todo, h7]) h8 hb1
            refine ToldAfter.ok rfl ?_
            by_cases ho : opening = []
            · simp [docComplaints, ho, complaintsAll]
            · simp [docComplaints, hpre ho, complaintsAll, complaintsAll_append]
          | none =>
            obtain ⟨p1, p2, p3, p4, p5⟩ := peek_none hpk
            have ho : opening = [] := by
              apply Classical.byContradiction
              intro ho
              rcases a5 ho with ⟨h7, h8⟩ | ⟨l', t', sp', more', h7, h8⟩
              · apply hc
                simp [h8]
                cases opening <;> simp_all
              · have e : todo s3 = .heading l' t' sp' false :: (more' ++ sourceItems s1.rest) := by
                  rw [p1, b7]; simp [todo, h7]
                rcases p5 with ⟨h9, _⟩ | ⟨i, more, h9, h10⟩
                · rw [h9] at e; cases e
                · simp only [todo, h9, List.cons_append] at e
                  injection e with e
                  exact h10 _ _ _ _ e
            subst ho
            have hb := blocks_told (b := b) (tl := tl) n n s3
            rw [he3, hl3, b1] at hb
            refine ToldAfter.bind hb _ _ rfl rfl ?_
            intro blocks s4 h4
            have hle := blocks_le h4
            have hd4 : s4.delim = none := hle.delim.trans (p3.trans b2)
            have hl4 : s4.level = 0 := hle.level.trans (p2.trans b1)
            by_cases hc4 : isEof s4 = true
            · simp only [hc4, if_true]
              exact ToldAfter.ok rfl (by simp [docComplaints, complaintsAll])
            · simp only [hc4]
              obtain ⟨gs, g1, g2⟩ := ih s4 hd4 hl4
              have g3 := g1.mono (es' := docComplaints) (fun a st' ha => by rw [g2 a st' ha]; rfl)
              refine ToldAfter.bind g3 _ _ rfl rfl ?_
              intro doc s5 h5
              cases doc with
              | blocks bs => exact ⟨fun _ => [], Told.error, fun _ _ h => by cases h⟩
              | sections pre secs => exact ToldAfter.ok rfl (by simp [docComplaints, complaintsAll, complaintsAll_append])
              | parts pre op ps cl => exact ToldAfter.ok rfl (by simp [docComplaints, complaintsAll, complaintsAll_append])

theorem doc_told (chunks : List (Item × List Item)) (trailing toc : Bool) :
    Told [] (parseDoc ⟨false, b, tl⟩ chunks trailing toc) (parseDoc ⟨true, b, tl⟩ chunks trailing toc) docComplaints := by
  unfold parseDoc
  simp only
  cases b with
  | true =>
    simp only [if_true]
    obtain ⟨gs, g1, g2⟩ := book_told (b := true) (tl := tl) (size chunks + 2) (size chunks + 2) { rest := chunks, trailing, toc := if toc then some [] else none } rfl rfl
    exact g1.mono (fun a st' ha => by rw [g2 a st' ha]; rfl)
  | false =>
    simp only [Bool.false_eq_true, if_false]
    have eq : ∀ q, (match parseSectioned ⟨q, false, tl⟩ (size chunks + 2) { rest := chunks, trailing, toc := if toc then some [] else none } with
        | .error f => .error f
        | .ok ((pre, secs), st) => .ok (if secs.isEmpty then Doc.blocks pre else .sections pre secs, st)) =
        bindR (parseSectioned ⟨q, false, tl⟩ (size chunks + 2) { rest := chunks, trailing, toc := if toc then some [] else none })
          (fun r st => .ok (if r.2.isEmpty then Doc.blocks r.1 else .sections r.1 r.2, st)) := by
      intro q
      unfold bindR
      cases parseSectioned ⟨q, false, tl⟩ (size chunks + 2) { rest := chunks, trailing, toc := if toc then some [] else none } <;> rfl
    refine (sectioned_told (b := false) (tl := tl) (size chunks + 2) _ rfl).bind _ _ (eq _) (eq _) (fun _ _ => []) (fun _ _ _ => Told.ok rfl rfl) ?_
    rintro ⟨pre, secs⟩ s d s' _ h
    injection h with h; injection h with h _
    subst h
    cases secs <;> simp [docComplaints, complaintsAll]

end Verif.Sections
