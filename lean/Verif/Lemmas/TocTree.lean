import Verif.Lemmas.Toc
/-! In strict mode the table of contents has the shape of the section tree; and
when parsing cannot panic. -/
namespace Verif.Sections
open Verif.Spec.Sections

/-- A loop keeps an invariant about the elements so far and never panics. -/
theorem loop_inv {α : Type} {step : St → Res (Option α × St)} (G : St → List α → Prop)
    (hs : ∀ s acc, G s acc → (∀ a s', step s = .ok (some a, s') → G s' (acc ++ [a])) ∧
      (∀ s', step s = .ok (none, s') → G s' acc) ∧ step s ≠ .error .panic)
    (n : Nat) : ∀ (s : St) (acc : List α), G s acc →
      (∀ as s', loop step n s = .ok (as, s') → G s' (acc ++ as)) ∧ loop step n s ≠ .error .panic := by
  induction n with
  | zero => intro s acc _; exact ⟨fun _ _ h => (by cases h), fun h => (by cases h)⟩
  | succ n ih =>
    intro s acc hG
    obtain ⟨h1, h2, h3⟩ := hs s acc hG
    unfold loop
    split
    · rename_i e he
      refine ⟨fun _ _ h => (by cases h), fun hc => ?_⟩
      injection hc with hc; subst hc; exact h3 he
    · rename_i s1 he
      refine ⟨fun as s' h => ?_, by simp⟩
      injection h with h; injection h with h4 h5
      subst h4; subst h5
      simpa using h2 _ he
    · rename_i a s1 he
      obtain ⟨i1, i2⟩ := ih s1 (acc ++ [a]) (h1 _ _ he)
      split
      · rename_i e he2
        refine ⟨fun _ _ h => (by cases h), fun hc => ?_⟩
        injection hc with hc; subst hc; exact i2 he2
      · rename_i as s2 he2
        refine ⟨fun as' s' h => ?_, by simp⟩
        injection h with h; injection h with h4 h5
        subst h4; subst h5
        simpa using i1 _ _ he2

/-- A place in a table of contents: the nodes before, level and title of the
node entered, from the outside in. -/
abbrev Frames := List (List Toc × Nat × Nat)

/-- The table with `xs` at that place, which is its last open position. -/
def plug : Frames → List Toc → List Toc
  | [], xs => xs
  | (pre, l, t) :: c, xs => pre ++ [.node l t (plug c xs)]

theorem plug_snoc (c : Frames) (pre xs : List Toc) (l t : Nat) :
    plug (c ++ [(pre, l, t)]) xs = plug c (pre ++ [.node l t xs]) := by
  induction c with
  | nil => rfl
  | cons f c ih => obtain ⟨p, l', t'⟩ := f; simp [plug, ih]

theorem pushAt_plug (c : Frames) (xs : List Toc) (n : Toc) :
    pushAt c.length (plug c xs) n = some (plug c (xs ++ [n])) := by
  induction c with
  | nil => rfl
  | cons f c ih => obtain ⟨p, l', t'⟩ := f; simp [plug, pushAt, ih]

/-- frames of consecutive levels -/
def Steps : Nat → Frames → Prop
  | _, [] => True
  | b, (_, l, _) :: c => l = b ∧ Steps (b + 1) c

theorem Steps.snoc {b : Nat} {c : Frames} (h : Steps b c) (pre : List Toc) (t : Nat) :
    Steps b (c ++ [(pre, b + c.length, t)]) := by
  induction c generalizing b with
  | nil => exact ⟨rfl, trivial⟩
  | cons f c ih =>
    obtain ⟨p, l', t'⟩ := f
    refine ⟨h.1, ?_⟩
    have := ih h.2
    rw [show b + ((p, l', t') :: c).length = b + 1 + c.length by simp; omega]
    exact this

/-- The place is where subsections of a section of level `L` belong; `d` is the
depth of the table. -/
def Good (d : Nat) (c : Frames) (xs : List Toc) (L : Nat) : Prop :=
  d ≤ L ∨ ∃ b, b ≤ 1 ∧ Steps b c ∧ b + c.length = L + 1 ∧ (∀ n ∈ xs, n.level = L + 1)

theorem Good.add {d : Nat} {c : Frames} {xs ys : List Toc} {L : Nat} (h : Good d c xs L) (hy : ∀ n ∈ ys, n.level = L + 1) :
    Good d c (xs ++ ys) L := by
  rcases h with h | ⟨b, h1, h2, h3, h4⟩
  · exact .inl h
  · refine .inr ⟨b, h1, h2, h3, fun n hn => ?_⟩
    rcases List.mem_append.mp hn with hn | hn
    · exact h4 n hn
    · exact hy n hn

theorem Good.push {d : Nat} {c : Frames} {xs : List Toc} {L : Nat} (h : Good d c xs L) (hd : L + 1 ≤ d) (t : Nat) :
    pushToc d (plug c xs) (L + 1) (L + 1) t = some (plug c (xs ++ [.node (L + 1) t []])) ∧
    Good d (c ++ [(xs, L + 1, t)]) [] (L + 1) := by
  rcases h with h | ⟨b, h1, h2, h3, h4⟩
  · omega
  · refine ⟨?_, .inr ⟨b, h1, ?_, by simp; omega, by simp⟩⟩
    · unfold pushToc
      rw [if_neg (by omega)]
      cases c with
      | nil =>
        simp only [plug]
        simp only [List.length_nil] at h3
        split
        · rfl
        · rename_i last t' ch hl
          have := h4 _ (List.mem_of_getLast? hl)
          simp only [Toc.level] at this
          rw [if_neg (by omega)]
          have e : (if last = 0 ∧ L + 1 = 2 ∧ (ch.any fun n => n.level == 1) = false then 1 else L + 1) = L + 1 := by
            rw [if_neg]; omega
          simp only [e]
          rw [this, Nat.sub_self]
          rfl
      | cons f c =>
        obtain ⟨p, l, t'⟩ := f
        obtain ⟨rfl, h6⟩ := h2
        simp only [plug, List.getLast?_append, List.getLast?_singleton, Option.some_or]
        simp only [List.length_cons] at h3
        rw [if_neg (by omega)]
        have e : (if l = 0 ∧ L + 1 = 2 ∧ ((plug c xs).any fun n => n.level == 1) = false then 1 else L + 1) = L + 1 := by
          rw [if_neg]
          rintro ⟨rfl, h7, h8⟩
          have h7 : L = 1 := by omega
          subst h7
          have : c.length = 1 := by omega
          match c, this with
          | [(p', l', t'')], _ =>
            obtain ⟨rfl, _⟩ := h6
            simp [plug, Toc.level] at h8
        have e2 : L + 1 - l = ((p, l, t') :: c).length := by simp only [List.length_cons]; omega
        simp only [e, e2]
        exact pushAt_plug ((p, l, t') :: c) xs _
    · have := h2.snoc xs t
      rw [h3] at this
      exact this

theorem pushTocSt_some {env : Env} {st : St} {nodes nodes' : List Toc} {a s t : Nat} (h : st.toc = some nodes)
    (hp : pushToc env.toclevels nodes a s t = some nodes') :
    pushTocSt env st a s t = .ok { st with toc := some nodes' } := by
  unfold pushTocSt
  rw [h]; simp only; rw [hp]

theorem pushToc_deep {d : Nat} {nodes : List Toc} {a s t : Nat} (h : d < a) : pushToc d nodes a s t = some nodes := by
  unfold pushToc; rw [if_pos (by omega)]

/-- what is known while parsing in a section of level `L` -/
def At (env : Env) (c : Frames) (xs : List Toc) (L : Nat) (s : St) (acc : List Node) : Prop :=
  s.level = L ∧ s.toc = some (plug c (xs ++ tocOfAll env.toclevels acc)) ∧
  (∀ n ∈ tocOfAll env.toclevels acc, n.level = L + 1) ∧ (env.toclevels ≤ L → tocOfAll env.toclevels acc = [])

/-- One section: after its heading has been read. -/
theorem section_tree {env : Env} (hst : env.strict = true) {inner : St → Res (List Node × St)} {l t : Nat} {sp : Option SpecialSection} {d : Bool}
    {more : List Item} {st : St} {c : Frames} {xs : List Toc} {L : Nat} (hl : st.level = L) (hL : L < l)
    (hg : Good env.toclevels c xs L) (ht : st.toc = some (plug c xs))
    (hin : ∀ (s : St) (c : Frames) (L : Nat), Good env.toclevels c [] L → s.level = L → s.toc = some (plug c []) →
      (∀ bs s', inner s = .ok (bs, s') → At env c [] L s' bs) ∧ inner s ≠ .error .panic)
    (hin2 : ∀ (s : St), env.toclevels ≤ s.level →
      (∀ bs s', inner s = .ok (bs, s') → s'.toc = s.toc ∧ tocOfAll env.toclevels bs = []) ∧ inner s ≠ .error .panic) :
    (∀ b s', peekedSection env inner ⟨l, l, t, sp, .heading l t sp d, more⟩ st = .ok (b, s') → At env c xs L s' [b]) ∧
    peekedSection env inner ⟨l, l, t, sp, .heading l t sp d, more⟩ st ≠ .error .panic := by
  by_cases hd : L + 1 ≤ env.toclevels
  · constructor
    · intro b s' h
      obtain ⟨errs, toc, blocks, s2, errs', hb, hi, h7, h8, h9, h10, _⟩ := peekedSection_ok h
      have h8 := h8 hst
      simp only at h8
      have hl1 : l = L + 1 := by omega
      subst hl1
      have h9 := h9 (by simp only; omega)
      obtain ⟨g1, g2⟩ := hg.push hd t
      have h9 := (pushTocSt_some (st := { st with level := L + 1 }) ht g1).symm.trans h9
      injection h9 with h9
      injection h9 with _ _ _ _ _ h9 _
      obtain ⟨i1, i2, i3, i4⟩ := (hin _ _ _ g2 rfl (by simp only [restore]; rw [← h9, plug_snoc])).1 _ _ hi
      subst h7; subst hb
      refine ⟨hl, ?_, ?_, ?_⟩
      · simp only [i2, plug_snoc, tocOfAll, tocOf, if_pos hd, List.append_nil, List.nil_append]
      · simp [tocOfAll, tocOf, if_pos hd, Toc.level]
      · intro; omega
    · intro h
      rcases peekedSection_fail h with ⟨e, he⟩ | ⟨h1, h2⟩ | ⟨errs, toc, h2, h3, h4⟩
      · cases he
      · simp only at h1
        have hl1 : l = L + 1 := by omega
        subst hl1
        obtain ⟨g1, g2⟩ := hg.push hd t
        have h2 := (pushTocSt_some (st := { st with level := L + 1 }) ht g1).symm.trans h2
        cases h2
      · have h4 := h4 hst
        simp only at h4
        have hl1 : l = L + 1 := by omega
        subst hl1
        have h9 := h3 (by simp only; omega)
        obtain ⟨g1, g2⟩ := hg.push hd t
        have h9 := (pushTocSt_some (st := { st with level := L + 1 }) ht g1).symm.trans h9
        injection h9 with h9
        injection h9 with _ _ _ _ _ h9 _
        exact (hin _ _ _ g2 rfl (by simp only [restore]; rw [← h9, plug_snoc])).2 h2
  · constructor
    · intro b s' h
      obtain ⟨errs, toc, blocks, s2, errs', hb, hi, h7, h8, h9, h10, _⟩ := peekedSection_ok h
      have h8 := h8 hst
      simp only at h8
      have hl1 : l = L + 1 := by omega
      subst hl1
      have h9 := h9 (by simp only; omega)
      have h9 := (pushTocSt_some (env := env) (st := { st with level := L + 1 }) (t := t) ht (pushToc_deep (a := L + 1) (s := L + 1) (by omega))).symm.trans h9
      injection h9 with h9
      injection h9 with _ _ _ _ _ h9 _
      obtain ⟨i1, i2⟩ := (hin2 _ (by simp only [restore]; omega)).1 _ _ hi
      subst h7; subst hb
      have e : tocOfAll env.toclevels [.sect (.heading (L + 1) t sp d) (L + 1) blocks] = [] := by
        simp [tocOfAll, tocOf, if_neg hd, i2]
      refine ⟨hl, ?_, ?_, ?_⟩
      · simp only [e, List.append_nil, i1, restore]; exact h9.symm
      · simp [e]
      · intro; exact e
    · intro h
      rcases peekedSection_fail h with ⟨e, he⟩ | ⟨h1, h2⟩ | ⟨errs, toc, h2, h3, h4⟩
      · cases he
      · have h2 := (pushTocSt_some (env := env) (st := { st with level := l }) (t := t) ht (pushToc_deep (a := l) (s := l) (by omega))).symm.trans h2
        cases h2
      · exact (hin2 _ (by simp only [restore]; omega)).2 h2

theorem section_deep {env : Env} (hst : env.strict = true) {inner : St → Res (List Node × St)} {l t : Nat} {sp : Option SpecialSection} {d : Bool}
    {more : List Item} {st : St} (hL : st.level < l) (hd : env.toclevels ≤ st.level)
    (hin2 : ∀ (s : St), env.toclevels ≤ s.level →
      (∀ bs s', inner s = .ok (bs, s') → s'.toc = s.toc ∧ tocOfAll env.toclevels bs = []) ∧ inner s ≠ .error .panic) :
    (∀ b s', peekedSection env inner ⟨l, l, t, sp, .heading l t sp d, more⟩ st = .ok (b, s') →
      s'.toc = st.toc ∧ tocOfAll env.toclevels [b] = []) ∧
    peekedSection env inner ⟨l, l, t, sp, .heading l t sp d, more⟩ st ≠ .error .panic := by
  have key : ∀ s : St, pushTocSt env s l l t = .ok s := by
    intro s
    unfold pushTocSt
    split
    · rfl
    · rename_i nodes hn
      rw [pushToc_deep (by omega)]
      simp only
      rw [← hn]
  constructor
  · intro b s' h
    obtain ⟨errs, toc, blocks, s2, errs', hb, hi, h7, h8, h9, h10, _⟩ := peekedSection_ok h
    have h8 := h8 hst
    simp only at h8
    have h9 := h9 h8
    rw [key] at h9
    injection h9 with h9
    injection h9 with _ _ _ _ _ h9 _
    obtain ⟨i1, i2⟩ := (hin2 _ (by simp only [restore]; omega)).1 _ _ hi
    subst h7; subst hb
    refine ⟨?_, ?_⟩
    · rw [h9]; exact i1
    · simp [tocOfAll, tocOf, if_neg (show ¬ l ≤ env.toclevels by omega), i2]
  · intro h
    rcases peekedSection_fail h with ⟨e, he⟩ | ⟨h1, h2⟩ | ⟨errs, toc, h2, h3, h4⟩
    · cases he
    · simp only at h2
      rw [key] at h2; cases h2
    · exact (hin2 _ (by simp only [restore]; omega)).2 h2

theorem block_deep {env : Env} (hst : env.strict = true) (n : Nat) : ∀ (s : St), env.toclevels ≤ s.level →
    (∀ r s', parseBlock env n s = .ok (r, s') → s'.toc = s.toc ∧ tocOfAll env.toclevels r.toList = []) ∧
    parseBlock env n s ≠ .error .panic := by
  induction n with
  | zero => intro s _; exact ⟨fun _ _ h => (by cases h), fun h => (by cases h)⟩
  | succ n ih =>
    intro s hs
    have inner : ∀ (s : St), env.toclevels ≤ s.level →
        (∀ bs s', loop (parseBlock env n) n s = .ok (bs, s') → s'.toc = s.toc ∧ tocOfAll env.toclevels bs = []) ∧
        loop (parseBlock env n) n s ≠ .error .panic := by
      intro s hs
      obtain ⟨h1, h2⟩ := loop_inv (fun s' acc => s'.toc = s.toc ∧ tocOfAll env.toclevels acc = [] ∧ env.toclevels ≤ s'.level)
        (step := parseBlock env n) (by
          intro s' acc ⟨g1, g2, g3⟩
          obtain ⟨i1, i2⟩ := ih s' g3
          refine ⟨?_, ?_, i2⟩
          · intro a s'' h
            have hl := (block_le _ _ _ _ _ h).1.level
            obtain ⟨j1, j2⟩ := i1 _ _ h
            refine ⟨j1.trans g1, ?_, by omega⟩
            rw [tocOfAll_append, g2]; simpa using j2
          · intro s'' h
            have hl := (block_le _ _ _ _ _ h).1.level
            exact ⟨(i1 _ _ h).1.trans g1, g2, by omega⟩) n s [] ⟨rfl, rfl, hs⟩
      exact ⟨fun bs s' h => ⟨(h1 _ _ h).1, by simpa using (h1 _ _ h).2.1⟩, h2⟩
    constructor
    · intro r s' h
      rcases parseBlock_ok h with ⟨h1, h2, h3⟩ | ⟨i, more, s1, hr, hcase⟩
      · subst h2; subst h3; exact ⟨rfl, rfl⟩
      · obtain ⟨r1, r2, r3, r4, r5, r6⟩ := read_some hr
        rcases hcase with ⟨h1, h2, _⟩ | ⟨h1, h2, _⟩ | ⟨k, b, h1, h2, h3, h4⟩ | ⟨l, t, sp, b, h1, h2, h3, h4, h5⟩
        · subst h1; subst h2; exact ⟨r5, rfl⟩
        · subst h1; subst h2; exact ⟨r5, rfl⟩
        · subst h3
          obtain ⟨blocks, s2, hin, hc⟩ := delimited_ok h4
          obtain ⟨i1, i2⟩ := (inner { restore s1 more with delim := some k } (by simp only [restore]; omega)).1 _ _ hin
          rcases hc with ⟨more', s3, hr2, h5, h6⟩ | ⟨h5, _⟩
          · obtain ⟨q1, q2, q3, q4, q5, q6⟩ := read_some hr2
            subst h5; subst h6
            exact ⟨q5.trans (i1.trans r5), by simpa [tocOfAll, tocOf] using i2⟩
          · rw [hst] at h5; cases h5
        · subst h4; subst h1
          obtain ⟨j1, j2⟩ := (section_deep hst (by omega) (by omega) inner).1 _ _ h5
          exact ⟨j1.trans r5, j2⟩
    · intro h
      obtain ⟨i, more, s1, hr, hc⟩ := parseBlock_fail h
      obtain ⟨r1, r2, r3, r4, r5, r6⟩ := read_some hr
      rcases hc with ⟨k, _, _, h1⟩ | ⟨l, t, sp, hi, _, _, h1⟩
      · rcases delimited_fail h1 with ⟨e, he⟩ | h2
        · cases he
        · exact (inner _ (by simp only [restore]; omega)).2 h2
      · subst hi
        exact (section_deep hst (by omega) (by omega) inner).2 h1

theorem blocks_deep {env : Env} (hst : env.strict = true) (n m : Nat) (s : St) (hs : env.toclevels ≤ s.level) :
    (∀ bs s', loop (parseBlock env n) m s = .ok (bs, s') → s'.toc = s.toc ∧ tocOfAll env.toclevels bs = []) ∧
    loop (parseBlock env n) m s ≠ .error .panic := by
  obtain ⟨h1, h2⟩ := loop_inv (fun s' acc => s'.toc = s.toc ∧ tocOfAll env.toclevels acc = [] ∧ env.toclevels ≤ s'.level)
    (step := parseBlock env n) (by
      intro s' acc ⟨g1, g2, g3⟩
      obtain ⟨i1, i2⟩ := block_deep hst n s' g3
      refine ⟨?_, ?_, i2⟩
      · intro a s'' h
        have hl := (block_le _ _ _ _ _ h).1.level
        obtain ⟨j1, j2⟩ := i1 _ _ h
        refine ⟨j1.trans g1, ?_, by omega⟩
        rw [tocOfAll_append, g2]; simpa using j2
      · intro s'' h
        have hl := (block_le _ _ _ _ _ h).1.level
        exact ⟨(i1 _ _ h).1.trans g1, g2, by omega⟩) m s [] ⟨rfl, rfl, hs⟩
  exact ⟨fun bs s' h => ⟨(h1 _ _ h).1, by simpa using (h1 _ _ h).2.1⟩, h2⟩

theorem At.add {env : Env} {c : Frames} {xs : List Toc} {L : Nat} {s s' : St} {acc bs : List Node}
    (h : At env c xs L s acc) (h2 : At env c (xs ++ tocOfAll env.toclevels acc) L s' bs) : At env c xs L s' (acc ++ bs) := by
  obtain ⟨a1, a2, a3, a4⟩ := h
  obtain ⟨b1, b2, b3, b4⟩ := h2
  refine ⟨b1, by rw [b2, tocOfAll_append, List.append_assoc], ?_, ?_⟩
  · intro n hn
    rw [tocOfAll_append] at hn
    rcases List.mem_append.mp hn with hn | hn
    · exact a3 n hn
    · exact b3 n hn
  · intro h
    rw [tocOfAll_append, a4 h, b4 h]; rfl

/-- Looping keeps the place. -/
theorem loop_tree {env : Env} {step : St → Res (Option Node × St)} {c : Frames} {xs : List Toc} {L : Nat}
    (hg : Good env.toclevels c xs L)
    (hs : ∀ (s : St) (xs : List Toc), Good env.toclevels c xs L → s.level = L → s.toc = some (plug c xs) →
      (∀ r s', step s = .ok (r, s') → At env c xs L s' r.toList) ∧ step s ≠ .error .panic)
    (n : Nat) (s : St) (hl : s.level = L) (ht : s.toc = some (plug c xs)) :
    (∀ bs s', loop step n s = .ok (bs, s') → At env c xs L s' bs) ∧ loop step n s ≠ .error .panic := by
  obtain ⟨h1, h2⟩ := loop_inv (fun s acc => At env c xs L s acc) (step := step) (by
    intro s acc hA
    obtain ⟨h1, h2⟩ := hs s _ (hg.add hA.2.2.1) hA.1 hA.2.1
    refine ⟨fun a s' h => hA.add (h1 _ _ h), fun s' h => ?_, h2⟩
    have := hA.add (h1 _ _ h)
    simpa using this) n s [] ⟨hl, by simpa [tocOfAll] using ht, by simp [tocOfAll], by simp [tocOfAll]⟩
  exact ⟨fun bs s' h => by simpa using h1 _ _ h, h2⟩

theorem block_tree {env : Env} (hst : env.strict = true) (n : Nat) : ∀ (s : St) (c : Frames) (xs : List Toc) (L : Nat),
    Good env.toclevels c xs L → s.level = L → s.toc = some (plug c xs) →
    (∀ r s', parseBlock env n s = .ok (r, s') → At env c xs L s' r.toList) ∧ parseBlock env n s ≠ .error .panic := by
  induction n with
  | zero => intro s c xs L _ _ _; exact ⟨fun _ _ h => (by cases h), fun h => (by cases h)⟩
  | succ n ih =>
    intro s c xs L hg hl ht
    have inner : ∀ (s : St) (c : Frames) (xs : List Toc) (L : Nat), Good env.toclevels c xs L → s.level = L → s.toc = some (plug c xs) →
        (∀ bs s', loop (parseBlock env n) n s = .ok (bs, s') → At env c xs L s' bs) ∧
        loop (parseBlock env n) n s ≠ .error .panic :=
      fun s c xs L hg hl ht => loop_tree hg (fun s xs hg hl ht => ih s c xs L hg hl ht) n s hl ht
    have start : ∀ {s1 : St}, s1.toc = s.toc → s1.level = s.level → At env c xs L s1 [] := fun h1 h2 =>
      ⟨h2.trans hl, by rw [h1, ht]; simp [tocOfAll], by simp [tocOfAll], by simp [tocOfAll]⟩
    constructor
    · intro r s' h
      rcases parseBlock_ok h with ⟨h1, h2, h3⟩ | ⟨i, more, s1, hr, hcase⟩
      · subst h2; subst h3; exact start rfl rfl
      · obtain ⟨r1, r2, r3, r4, r5, r6⟩ := read_some hr
        rcases hcase with ⟨h1, h2, _⟩ | ⟨h1, h2, _⟩ | ⟨k, b, h1, h2, h3, h4⟩ | ⟨l, t, sp, b, h1, h2, h3, h4, h5⟩
        · subst h1; subst h2
          exact start (s1 := restore s1 more) r5 r3
        · subst h1; subst h2; exact start (s1 := restore s1 (i :: more)) r5 r3
        · subst h3
          obtain ⟨blocks, s2, hin, hc⟩ := delimited_ok h4
          obtain ⟨i1, i2, i3, i4⟩ := (inner { restore s1 more with delim := some k } c xs L hg (r3.trans hl) (r5.trans ht)).1 _ _ hin
          rcases hc with ⟨more', s3, hr2, h5, h6⟩ | ⟨h5, _⟩
          · obtain ⟨q1, q2, q3, q4, q5, q6⟩ := read_some hr2
            subst h5; subst h6
            have e : tocOfAll env.toclevels (some (Node.compound k true blocks)).toList = tocOfAll env.toclevels blocks := by
              simp [tocOfAll, tocOf]
            unfold At
            rw [e]
            exact ⟨q3.trans i1, q5.trans i2, i3, i4⟩
          · rw [hst] at h5; cases h5
        · subst h4; subst h1
          exact (section_tree hst (r3.trans hl) (by omega) hg (r5.trans ht) (fun s c L hg hl ht => inner s c [] L hg hl ht)
            (fun s hs => blocks_deep hst n n s hs)).1 _ _ h5
    · intro h
      obtain ⟨i, more, s1, hr, hc⟩ := parseBlock_fail h
      obtain ⟨r1, r2, r3, r4, r5, r6⟩ := read_some hr
      rcases hc with ⟨k, _, _, h1⟩ | ⟨l, t, sp, hi, _, _, h1⟩
      · rcases delimited_fail h1 with ⟨e, he⟩ | h2
        · cases he
        · exact (inner { restore s1 more with delim := some k } c xs L hg (r3.trans hl) (r5.trans ht)).2 h2
      · subst hi
        exact (section_tree hst (r3.trans hl) (by omega) hg (r5.trans ht) (fun s c L hg hl ht => inner s c [] L hg hl ht)
            (fun s hs => blocks_deep hst n n s hs)).2 h1

theorem blocks_tree {env : Env} (hst : env.strict = true) {n m : Nat} {s : St} {c : Frames} {xs : List Toc} {L : Nat}
    (hg : Good env.toclevels c xs L) (hl : s.level = L) (ht : s.toc = some (plug c xs)) :
    (∀ bs s', loop (parseBlock env n) m s = .ok (bs, s') → At env c xs L s' bs) ∧
    loop (parseBlock env n) m s ≠ .error .panic :=
  loop_tree hg (fun s xs hg hl ht => block_tree hst n s c xs L hg hl ht) m s hl ht

theorem parseSection_fail {env : Env} {n m : Nat} {st : St} {f : Fail}
    (h : parseSection env (loop (parseBlock env n) m) st = .error f) :
    (∃ e, f = .diag e) ∨ ∃ l t sp d more s1 errs, read st = some (.heading l t sp d, more, s1) ∧
      (env.strict = true → l ≠ 0) ∧
      peekedSection env (loop (parseBlock env n) m) ⟨l, l, t, sp, .heading l t sp d, more⟩ { s1 with errs := errs } = .error f := by
  unfold parseSection at h
  split at h
  · cases h
  · rename_i p s1 hpk
    obtain ⟨l, t, sp, d, more, hp, hr⟩ := peek_some hpk
    subst hp
    split at h
    · cases h
    · split at h
      · rename_i f' hf
        injection h with h; subst h
        split at hf
        · exact .inl (report_fail hf)
        · cases hf
      · rename_i s2 hs2
        have : ∃ errs, s2 = { s1 with errs := errs } ∧ (env.strict = true → l ≠ 0) := by
          split at hs2
          · obtain ⟨e1, e2⟩ := report_ok hs2
            exact ⟨_, e2, by rw [e1]; simp⟩
          · rename_i h0
            injection hs2 with hs2; exact ⟨s1.errs, hs2.symm, fun _ => h0⟩
        obtain ⟨errs, he, hx⟩ := this
        subst he
        split at h
        · rename_i f' hf
          injection h with h; subst h
          exact .inr ⟨l, t, sp, d, more, s1, errs, hr, hx, hf⟩
        · cases h

theorem sections_tree {env : Env} (hst : env.strict = true) {n m k : Nat} {s : St} {c : Frames} {xs : List Toc}
    (hg : Good env.toclevels c xs 0) (hl : s.level = 0) (ht : s.toc = some (plug c xs)) :
    (∀ bs s', loop (parseSection env (loop (parseBlock env n) m)) k s = .ok (bs, s') → At env c xs 0 s' bs) ∧
    loop (parseSection env (loop (parseBlock env n) m)) k s ≠ .error .panic := by
  refine loop_tree hg ?_ k s hl ht
  intro s xs hg hl ht
  constructor
  · intro r s' h
    rcases parseSection_ok h with ⟨h0, _, h1, _, h2, _⟩ | ⟨l, t, sp, d, more, s1, errs, b, hr, hb, hst0, _, h1⟩
    · subst h0
      exact ⟨h1.trans hl, by rw [h2, ht]; simp [tocOfAll], by simp [tocOfAll], by simp [tocOfAll]⟩
    · subst hb
      obtain ⟨r1, r2, r3, r4, r5, r6⟩ := read_some hr
      exact (section_tree hst (show ({ s1 with errs := errs } : St).level = 0 from r3.trans hl) (by have := hst0 hst; omega) hg
        (show ({ s1 with errs := errs } : St).toc = _ from r5.trans ht)
        (fun s c L hg hl ht => blocks_tree hst hg hl ht) (fun s hs => blocks_deep hst n m s hs)).1 _ _ h1
  · intro h
    rcases parseSection_fail h with ⟨e, he⟩ | ⟨l, t, sp, d, more, s1, errs, hr, hst0, h1⟩
    · cases he
    · obtain ⟨r1, r2, r3, r4, r5, r6⟩ := read_some hr
      exact (section_tree hst (show ({ s1 with errs := errs } : St).level = 0 from r3.trans hl) (by have := hst0 hst; omega) hg
        (show ({ s1 with errs := errs } : St).toc = _ from r5.trans ht)
        (fun s c L hg hl ht => blocks_tree hst hg hl ht) (fun s hs => blocks_deep hst n m s hs)).2 h1

theorem sectioned_tree {env : Env} (hst : env.strict = true) {n : Nat} {s : St} {c : Frames} {xs : List Toc}
    (hg : Good env.toclevels c xs 0) (hl : s.level = 0) (ht : s.toc = some (plug c xs)) :
    (∀ pre secs s', parseSectioned env n s = .ok ((pre, secs), s') → At env c xs 0 s' (pre ++ secs)) ∧
    parseSectioned env n s ≠ .error .panic := by
  obtain ⟨b1, b2⟩ := blocks_tree hst (n := n) (m := n) hg hl ht
  constructor
  · intro pre secs s' h
    obtain ⟨s1, h1, h2⟩ := sectioned_ok h
    have hA := b1 _ _ h1
    exact hA.add ((sections_tree hst (hg.add hA.2.2.1) hA.1 hA.2.1).1 _ _ h2)
  · intro h
    unfold parseSectioned at h
    split at h
    · rename_i f hf
      injection h with h; subst h; exact b2 hf
    · rename_i pre s1 h1
      have hA := b1 _ _ h1
      split at h
      · rename_i f hf
        injection h with h; subst h
        exact (sections_tree hst (hg.add hA.2.2.1) hA.1 hA.2.1).2 hf
      · cases h

end Verif.Sections
