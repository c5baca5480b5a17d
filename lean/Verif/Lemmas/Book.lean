import Verif.Lemmas.SectionTree
/-! Books: special sections, parts and the whole document. -/
namespace Verif.Sections
open Verif.Spec.Sections

/-- at the end, or in front of a heading of level at most 1 -/
def AtHeading (st : St) : Prop :=
  (todo st = [] ∧ isEof st = true) ∨ ∃ l t sp more, st.peeked = .heading l t sp false :: more ∧ l ≤ 1

theorem parseSpecial_ok {env : Env} {n : Nat} {st st' : St} {r : Option Node} (h : parseSpecial env n st = .ok (r, st')) :
    (r = none ∧ todo st' = todo st ∧ st'.level = st.level ∧ st'.delim = st.delim ∧ st'.toc = st.toc ∧
      ((todo st' = [] ∧ isEof st' = true) ∨ ∃ i more, st'.peeked = i :: more)) ∨
    ∃ l t sp d more s1 b, read st = some (.heading l t sp d, more, s1) ∧ r = some b ∧ sp ≠ none ∧
      peekedSection env (loop (parseBlock env n) n) ⟨l, 1, t, sp, .heading l t sp d, more⟩ s1 = .ok (b, st') := by
  unfold parseSpecial at h
  split at h
  · rename_i s1 hpk
    injection h with h; injection h with h1 h2
    subst h1; subst h2
    obtain ⟨h1, h2, h3, h4, h5⟩ := peek_none hpk
    refine .inl ⟨rfl, h1, h2, h3, h4, ?_⟩
    rcases h5 with h5 | ⟨i, more, h5, _⟩
    · exact .inl h5
    · exact .inr ⟨i, more, h5⟩
  · rename_i p s1 hpk
    obtain ⟨l, t, sp, d, more, hp, hr⟩ := peek_some hpk
    obtain ⟨r1, r2, r3, r4, r5, r6⟩ := read_some hr
    subst hp
    simp only at h
    split at h
    · injection h with h; injection h with h1 h2
      subst h1; subst h2
      exact .inl ⟨rfl, by rw [todo_restore _ r2, r1], r3, r4, r5, .inr ⟨_, more, rfl⟩⟩
    · rename_i hsp
      split at h
      · cases h
      · rename_i b s2 hb
        injection h with h; injection h with h1 h2
        subst h1; subst h2
        exact .inr ⟨l, t, sp, d, more, s1, b, hr, rfl, hsp, hb⟩

theorem specials_post {env : Env} {n k : Nat} {s s' : St} {bs : List Node} (hd : s.delim = none)
    (h : loop (parseSpecial env n) k s = .ok (bs, s')) :
    s'.level = s.level ∧ s'.delim = s.delim ∧ (todo s').length ≤ (todo s).length ∧
    (Safe env (todo s) → itemsAll bs ++ todo s' = todo s) ∧ (bs ≠ [] → AtHeading s') ∧
    ((todo s' = [] ∧ isEof s' = true) ∨ ∃ i more, s'.peeked = i :: more) ∧
    (bs = [] → todo s' = todo s ∧ s'.toc = s.toc) ∧ (bs ≠ [] → (todo s').length < (todo s).length) ∧
    (∀ b ∈ bs, ∃ i l inner, b = .sect i l inner ∧ deeperAll l inner ∧ (env.strict = true → stepwiseAll l inner)) := by
  refine (loop_ind (fun s bs s' => s.delim = none → s'.level = s.level ∧ s'.delim = s.delim ∧ (todo s').length ≤ (todo s).length ∧
    (Safe env (todo s) → itemsAll bs ++ todo s' = todo s) ∧ (AtHeading s ∨ bs ≠ [] → AtHeading s') ∧
    ((todo s' = [] ∧ isEof s' = true) ∨ ∃ i more, s'.peeked = i :: more) ∧
    (bs = [] → todo s' = todo s ∧ s'.toc = s.toc) ∧ (bs ≠ [] → (todo s').length < (todo s).length) ∧
    (∀ b ∈ bs, ∃ i l inner, b = .sect i l inner ∧ deeperAll l inner ∧ (env.strict = true → stepwiseAll l inner))) ?_ ?_ h hd).imp id
      (fun ⟨h1, h2, h3, h4, h5⟩ => ⟨h1, h2, h3, fun h => h4 (.inr h), h5⟩)
  · intro s s' h hd
    rcases parseSpecial_ok h with ⟨_, h1, h2, h3, h4, h5⟩ | ⟨_, _, _, _, _, _, _, _, h1, _⟩
    · refine ⟨h2, h3, by rw [h1]; exact Nat.le_refl _, fun _ => h1, ?_, h5, fun _ => ⟨h1, h4⟩, by simp, by simp⟩
      rintro (ha | ha)
      · rcases h5 with h5 | ⟨i, more, h5⟩
        · exact .inl h5
        · rcases ha with ⟨ha, _⟩ | ⟨l, t, sp, more', ha, hl⟩
          · exfalso
            rw [ha] at h1; simp [todo, h5] at h1
          · right
            have e : todo s = .heading l t sp false :: (more' ++ sourceItems s.rest) := by simp [todo, ha]
            rw [e] at h1
            simp only [todo, h5, List.cons_append] at h1
            injection h1 with h1
            exact ⟨l, t, sp, more, by rw [h5, h1], hl⟩
      · simp at ha
    · cases h1
  · intro s a s1 as s' h1 h2 hd
    rcases parseSpecial_ok h1 with ⟨h3, _⟩ | ⟨l, t, sp, d, more, s2, b, hr, hb, _, hsec⟩
    · cases h3
    · injection hb with hb; subst hb
      obtain ⟨r1, r2, r3, r4, r5, r6⟩ := read_some hr
      have hp := section_post (by exact r2) hsec
      have hst := hp.step (st := s) r1 r3 r4
      have hah : AtHeading s1 := by
        rcases hp.stop with h4 | ⟨i, more', h4, h5⟩
        · exact .inl h4
        · right
          cases i with
          | heading l t sp d =>
            obtain ⟨h5, h6⟩ := h5
            subst h5
            exact ⟨l, t, sp, more', h4, by simp only at h6; omega⟩
          | delim k =>
            simp only [StopAt] at h5
            rw [r4, hd] at h5; cases h5
          | para m => cases h5
      obtain ⟨q1, q2, q3, q4, q5, q6, q7, q8, q9⟩ := h2 (hst.delim.trans hd)
      have hlt := hst.len
      refine ⟨q1.trans hst.level, q2.trans hst.delim, by omega, ?_, fun _ => q5 (.inl hah), q6, by simp, fun _ => by omega, ?_⟩
      · intro hs
        have := hst.items hs
        rw [← this] at hs ⊢
        rw [← q4 hs.of_append]
        simp [itemsAll]
      · intro b hb
        rcases List.mem_cons.mp hb with hb | hb
        · subst hb
          obtain ⟨blocks, e, h6, h7⟩ := hp.tree
          exact ⟨_, _, blocks, e, h6, fun h => (h7 h).2⟩
        · exact q9 b hb

theorem deeper_nested {l : Nat} (hl : 1 ≤ l) {bs : List Node} (h : deeperAll l bs) (hl2 : l = 1) : ∀ b ∈ bs, nested b := by
  induction bs with
  | nil => simp
  | cons x bs ih =>
    intro b hb
    rcases List.mem_cons.mp hb with hb | hb
    · subst hb
      have := h.1
      subst hl2
      cases b with
      | leaf => trivial
      | sect i l' inner => exact this.2
      | compound k c inner => exact this
    · exact ih h.2 b hb

theorem deeperAll_mono {l l' : Nat} (hl : l ≤ l') : ∀ (bs : List Node), deeperAll l' bs → deeperAll l bs := by
  have key : ∀ k : Nat, (∀ b : Node, sizeOf b ≤ k → deeper l' b → deeper l b) := by
    intro k
    induction k with
    | zero => intro b hb; cases b <;> simp at hb
    | succ k ih =>
      intro b hb h
      cases b with
      | leaf => trivial
      | sect i l2 inner => exact ⟨Nat.lt_of_le_of_lt hl h.1, h.2⟩
      | compound c d inner =>
        have : ∀ bs : List Node, sizeOf bs ≤ k → deeperAll l' bs → deeperAll l bs := by
          intro bs
          induction bs with
          | nil => intro _ _; trivial
          | cons x bs ih2 =>
            intro hs h
            simp at hs
            exact ⟨ih x (by omega) h.1, ih2 (by omega) h.2⟩
        exact this inner (by simp at hb; omega) h
  intro bs
  induction bs with
  | nil => exact fun _ => trivial
  | cons x bs ih => exact fun h => ⟨key _ x (Nat.le_refl _) h.1, ih h.2⟩

theorem sections_nested {env : Env} {n m k : Nat} {s s' : St} {bs : List Node}
    (h : loop (parseSection env (loop (parseBlock env n) m)) k s = .ok (bs, s')) :
    ∀ b ∈ bs, ∃ i l inner, b = .sect i l inner ∧ deeperAll l inner ∧
      (env.strict = true → l ≤ s.level + 1 ∧ l ≠ 0 ∧ stepwiseAll l inner) := by
  refine loop_ind (fun s bs _ => ∀ b ∈ bs, ∃ i l inner, b = .sect i l inner ∧ deeperAll l inner ∧
      (env.strict = true → l ≤ s.level + 1 ∧ l ≠ 0 ∧ stepwiseAll l inner)) ?_ ?_ h
  · simp
  · intro s a s1 as s' h1 h2 b hb
    rcases List.mem_cons.mp hb with hb | hb
    · subst hb
      rcases parseSection_ok h1 with ⟨h3, _⟩ | ⟨l, t, sp, d, more, s2, errs, b', hr, hb, hst, _, hsec⟩
      · cases h3
      · injection hb with hb; subst hb
        obtain ⟨r1, r2, r3, r4, r5, r6⟩ := read_some hr
        obtain ⟨blocks, e, h6, h7⟩ := (section_post (by exact r2) hsec).tree
        refine ⟨_, _, blocks, e, deeperAll_mono (by omega) _ h6, fun h => ⟨?_, hst h, (h7 h).2⟩⟩
        have := (h7 h).1
        simp only [r3] at this
        exact this
    · have := h2 b hb
      rw [(parseSection_step h1).level] at this
      exact this

theorem parsePart_ok {env : Env} {n : Nat} {st st' : St} {r : Option Part} (h : parsePart env n st = .ok (r, st')) :
    (r = none ∧ todo st' = todo st ∧ st'.level = st.level ∧ st'.delim = st.delim ∧ st'.toc = st.toc ∧
      ((todo st' = [] ∧ isEof st' = true) ∨ ∃ i more, st'.peeked = i :: more ∧
        ∀ t d, i ≠ .heading 0 t none d)) ∨
    ∃ t d more s1 s2 pre secs s3 errs, read st = some (.heading 0 t none d, more, s1) ∧
      pushTocSt env s1 0 0 t = .ok s2 ∧ parseSectioned env n (restore s2 more) = .ok ((pre, secs), s3) ∧
      st' = { s3 with errs := errs } ∧ r = some ⟨.heading 0 t none d, pre, secs⟩ ∧ (env.strict = true → secs ≠ []) := by
  unfold parsePart at h
  split at h
  · rename_i s1 hpk
    injection h with h; injection h with h1 h2
    subst h1; subst h2
    obtain ⟨h1, h2, h3, h4, h5⟩ := peek_none hpk
    refine .inl ⟨rfl, h1, h2, h3, h4, ?_⟩
    rcases h5 with h5 | ⟨i, more, h5, h6⟩
    · exact .inl h5
    · exact .inr ⟨i, more, h5, fun t d => h6 _ _ _ _⟩
  · rename_i p s1 hpk
    obtain ⟨l, t, sp, d, more, hp, hr⟩ := peek_some hpk
    obtain ⟨r1, r2, r3, r4, r5, r6⟩ := read_some hr
    subst hp
    simp only at h
    split at h
    · rename_i hc
      injection h with h; injection h with h1 h2
      subst h1; subst h2
      refine .inl ⟨rfl, by rw [todo_restore _ r2, r1], r3, r4, r5, .inr ⟨_, more, rfl, ?_⟩⟩
      intro t' d' he
      injection he with he1 _ he2 _
      rcases hc with hc | hc
      · exact hc he1
      · exact hc he2
    · rename_i hc
      have hl : l = 0 := Decidable.byContradiction fun h => hc (.inl h)
      have hsp : sp = none := Decidable.byContradiction fun h => hc (.inr h)
      subst hl; subst hsp
      split at h
      · cases h
      · rename_i s2 hs2
        split at h
        · cases h
        · rename_i pre secs s3 hs3
          split at h
          · cases h
          · rename_i s4 hs4
            injection h with h; injection h with h1 h2
            subst h1; subst h2
            have : ∃ errs, s4 = { s3 with errs := errs } ∧ (env.strict = true → secs ≠ []) := by
              split at hs4
              · rename_i he
                obtain ⟨hx, hy⟩ := report_ok hs4
                exact ⟨_, hy, by rw [hx]; simp⟩
              · rename_i he
                injection hs4 with hs4
                exact ⟨s3.errs, hs4.symm, fun _ hc => by rw [hc] at he; simp at he⟩
            obtain ⟨errs, he, hx⟩ := this
            exact .inr ⟨t, d, more, s1, s2, pre, secs, s3, errs, hr, hs2, hs3, he, rfl, hx⟩

theorem pushTocSt_todo {env : Env} {s s' : St} {a b t : Nat} (h : pushTocSt env s a b t = .ok s') :
    todo s' = todo s ∧ s'.peeked = s.peeked ∧ s'.level = s.level ∧ s'.delim = s.delim := by
  rcases pushTocSt_ok h with ⟨_, h⟩ | ⟨_, _, _, _, h⟩ <;> (subst h; exact ⟨rfl, rfl, rfl, rfl⟩)

theorem parts_post {env : Env} {n k : Nat} {s s' : St} {ps : List Part} (hd : s.delim = none) (hl : s.level = 0)
    (h : loop (parsePart env n) k s = .ok (ps, s')) :
    s'.level = 0 ∧ s'.delim = none ∧ (todo s').length ≤ (todo s).length ∧
    (Safe env (todo s) → (ps.map partItems).flatten ++ todo s' = todo s) ∧
    ((todo s' = [] ∧ isEof s' = true) ∨ ∃ i more, s'.peeked = i :: more ∧ ∀ t d, i ≠ .heading 0 t none d) ∧
    (ps ≠ [] → (todo s' = [] ∧ isEof s' = true) ∨ ∃ t sp d more, s'.peeked = .heading 0 t sp d :: more) ∧
    (ps = [] → todo s' = todo s ∧ s'.toc = s.toc) ∧
    (∀ p ∈ ps, deeperAll 1 p.intro ∧ ∀ b ∈ p.sections, ∃ i l inner, b = .sect i l inner ∧ deeperAll l inner ∧
      (env.strict = true → l = 1 ∧ stepwiseAll l inner)) := by
  have H := loop_ind (fun s ps s' => s.delim = none → s.level = 0 → s'.level = 0 ∧ s'.delim = none ∧
    (todo s').length ≤ (todo s).length ∧
    (Safe env (todo s) → (ps.map partItems).flatten ++ todo s' = todo s) ∧
    ((todo s' = [] ∧ isEof s' = true) ∨ ∃ i more, s'.peeked = i :: more ∧ ∀ t d, i ≠ .heading 0 t none d) ∧
    (((todo s = [] ∧ isEof s = true) ∨ ∃ t sp d more, s.peeked = .heading 0 t sp d :: more) ∨ ps ≠ [] →
      (todo s' = [] ∧ isEof s' = true) ∨ ∃ t sp d more, s'.peeked = .heading 0 t sp d :: more) ∧
    (ps = [] → todo s' = todo s ∧ s'.toc = s.toc) ∧
    (∀ p ∈ ps, deeperAll 1 p.intro ∧ ∀ b ∈ p.sections, ∃ i l inner, b = .sect i l inner ∧ deeperAll l inner ∧
      (env.strict = true → l = 1 ∧ stepwiseAll l inner))) ?_ ?_ h hd hl
  · obtain ⟨h1, h2, h3, h4, h5, h6, h7⟩ := H
    exact ⟨h1, h2, h3, h4, h5, fun h => h6 (.inr h), h7⟩
  · intro s s' h hd hl
    rcases parsePart_ok h with ⟨_, h1, h2, h3, h4, h5⟩ | ⟨_, _, _, _, _, _, _, _, _, _, _, _, _, h1, _⟩
    · refine ⟨h2.trans hl, h3.trans hd, by rw [h1]; exact Nat.le_refl _, fun _ => h1, h5, ?_, fun _ => ⟨h1, h4⟩, by simp⟩
      rintro (ha | ha)
      · rcases h5 with h5 | ⟨i, more, h5, _⟩
        · exact .inl h5
        · rcases ha with ⟨ha, _⟩ | ⟨t, sp, d, more', ha⟩
          · exfalso
            rw [ha] at h1; simp [todo, h5] at h1
          · right
            have e : todo s = .heading 0 t sp d :: (more' ++ sourceItems s.rest) := by simp [todo, ha]
            rw [e] at h1
            simp only [todo, h5, List.cons_append] at h1
            injection h1 with h1
            exact ⟨t, sp, d, more, by rw [h5, h1]⟩
      · simp at ha
    · cases h1
  · intro s a s1 as s' h1 h2 hd hl
    rcases parsePart_ok h1 with ⟨h3, _⟩ | ⟨t, d, more, s2, s3, pre, secs, s4, errs, hr, hp, hs, he, hres, hne⟩
    · cases h3
    · injection hres with hres; subst hres
      obtain ⟨r1, r2, r3, r4, r5, r6⟩ := read_some hr
      obtain ⟨p1, p2, p3, p4⟩ := pushTocSt_todo hp
      have sp := sectioned_post hs
      have e1 : todo (restore s3 more) = more ++ todo s2 := by rw [todo_restore _ (p2.trans r2), p1]
      have hd3 : (restore s3 more).delim = none := p4.trans (r4.trans hd)
      have hl3 : (restore s3 more).level = 0 := p3.trans (r3.trans hl)
      have e2 : todo s1 = todo s4 := by rw [he]; rfl
      obtain ⟨q1, q2, q3, q4, q5, q6, q7, q8⟩ := h2 (by rw [he]; exact sp.delim.trans hd3) (by rw [he]; exact sp.level.trans hl3)
      have hlen := sp.len
      rw [e1] at hlen
      simp only [List.length_append] at hlen
      refine ⟨q1, q2, by rw [r1]; simp; rw [e2] at q3; omega, ?_, q5, fun _ => q6 (.inl ?_), by simp, ?_⟩
      · intro hsafe
        rw [r1] at hsafe ⊢
        have hs2 : Safe env (more ++ todo s2) := Safe.of_append (a := [_]) hsafe
        have := sp.items (by rw [e1]; exact hs2)
        rw [e1] at this
        have hs4 : Safe env (todo s1) := by rw [e2]; rw [← this] at hs2; exact hs2.of_append
        rw [List.cons_append, ← this, ← e2, ← q4 hs4]
        simp [partItems]
      · rcases sp.stop hd3 hl3 with ⟨h5, h6⟩ | ⟨_, t, sp, d, more, h5⟩
        · exact .inl ⟨e2.trans h5, by rw [he]; exact h6⟩
        · exact .inr ⟨t, sp, d, more, by rw [he]; exact h5⟩
      · intro p hp
        rcases List.mem_cons.mp hp with hp | hp
        · subst hp
          obtain ⟨sm, hb1, hb2⟩ := sectioned_ok hs
          have hdp := blocks_deeper hb1
          rw [hl3] at hdp
          refine ⟨hdp, ?_⟩
          intro b hb
          obtain ⟨i, l, inner, e, h5, h6⟩ := sections_nested hb2 b hb
          refine ⟨i, l, inner, e, h5, fun h => ?_⟩
          have := h6 h
          rw [(blocks_le hb1).level, hl3] at this
          exact ⟨by omega, this.2.2⟩
        · exact q8 p hp

theorem blocks_at_heading {env : Env} {n m : Nat} {st st' : St} {bs : List Node} {l t : Nat} {sp : Option SpecialSection} {rest : List Item}
    (hd : st.delim = none) (ht : todo st = .heading l t sp false :: rest) (hl : l ≤ 1)
    (h : loop (parseBlock env n) m st = .ok (bs, st')) : bs = [] := by
  cases m with
  | zero => cases h
  | succ m =>
    unfold loop at h
    split at h
    · cases h
    · injection h with h; injection h with h _; exact h.symm
    · rename_i a s1 ha
      exfalso
      cases n with
      | zero => cases ha
      | succ n =>
        rcases parseBlock_ok ha with ⟨h1, _⟩ | ⟨i, more, s1, hr, hcase⟩
        · rw [read_none_todo h1] at ht; cases ht
        · obtain ⟨r1, _⟩ := read_some hr
          rw [ht] at r1
          injection r1 with r1 _
          subst r1
          rcases hcase with ⟨_, _, h3⟩ | ⟨h1, _⟩ | ⟨k, b, h1, _⟩ | ⟨l', t', sp', b, h1, h2, _⟩
          · rcases h3 with h3 | ⟨_, h3⟩
            · cases h3
            · exact h3 hd
          · cases h1
          · cases h1
          · injection h1 with h1; omega

/-- at the end, or in front of a heading of level at most 1, in terms of what is left -/
def LostOk (l : List Item) : Prop := l = [] ∨ ∃ k t sp d rest, l = .heading k t sp d :: rest ∧ k ≤ 1

theorem AtHeading.lost {st : St} (h : AtHeading st) : LostOk (todo st) := by
  rcases h with ⟨h, _⟩ | ⟨l, t, sp, more, h, hl⟩
  · exact .inl h
  · exact .inr ⟨l, t, sp, false, more ++ sourceItems st.rest, by simp [todo, h], hl⟩

theorem nested_all {bs : List Node} (h : deeperAll 1 bs) : ∀ b ∈ bs, nested b := deeper_nested (Nat.le_refl _) h rfl

theorem book_post (env : Env) (n r : Nat) : ∀ (st st' : St) (doc : Doc), st.delim = none → st.level = 0 →
    parseBook env n r st = .ok (doc, st') →
    (Safe env (todo st) → docItems doc ++ todo st' = todo st) ∧ LostOk (todo st') ∧ (∀ b ∈ topSections doc, nested b) := by
  induction r with
  | zero => intro st st' doc _ _ h; cases h
  | succ r ih =>
    intro st st' doc hd hl h
    unfold parseBook at h
    split at h
    · cases h
    · rename_i opening s1 h1
      obtain ⟨a1, a2, a3, a4, a5, a6, a7, a8, a9⟩ := specials_post hd h1
      have hop : ∀ b ∈ opening, nested b := by
        intro b hb
        obtain ⟨i, l, inner, e, h2, _⟩ := a9 b hb
        subst e; exact h2
      have hd1 := a2.trans hd
      have hl1 := a1.trans hl
      split at h
      · rename_i hc
        simp at hc
        injection h with h; injection h with h2 h3
        subst h2; subst h3
        refine ⟨fun hs => by simpa [docItems, itemsAll] using a4 hs, (a5 (by intro h; simp [h] at hc)).lost, ?_⟩
        simpa [topSections] using hop
      · rename_i hc
        split at h
        · cases h
        · rename_i part parts s2 h2
          obtain ⟨b1, b2, b3, b4, b5, b6, b7, b8⟩ := parts_post hd1 hl1 h2
          split at h
          · cases h
          · rename_i closing s3 h3
            obtain ⟨c1, c2, c3, c4, c5, c6, c7, c8, c9⟩ := specials_post b2 h3
            injection h with h; injection h with h4 h5
            subst h4; subst h5
            refine ⟨?_, ?_, ?_⟩
            · intro hs
              have e1 := a4 hs
              rw [← e1] at hs
              have e2 := b4 hs.of_append
              rw [← e2] at hs
              have e3 := c4 hs.of_append.of_append
              rw [← e1, ← e2, ← e3]
              simp [docItems, itemsAll]
            · by_cases hcl : closing = []
              · rw [(c7 hcl).1]
                rcases b6 (by simp) with ⟨h6, _⟩ | ⟨t, sp, d, more, h6⟩
                · exact .inl h6
                · exact .inr ⟨0, t, sp, d, more ++ sourceItems s2.rest, by simp [todo, h6], by omega⟩
              · exact (c5 hcl).lost
            · intro b hb
              simp only [topSections, List.nil_append, List.mem_append, List.mem_flatten, List.mem_map] at hb
              rcases hb with (hb | ⟨_, ⟨p, hp, rfl⟩, hb⟩) | hb
              · exact hop b hb
              · rcases List.mem_append.mp hb with hb | hb
                · exact nested_all (b8 p hp).1 b hb
                · obtain ⟨i, l, inner, e, h6, _⟩ := (b8 p hp).2 b hb
                  subst e; exact h6
              · obtain ⟨i, l, inner, e, h6, _⟩ := c9 b hb
                subst e; exact h6
        · rename_i s2 h2
          obtain ⟨b1, b2, b3, b4, b5, b6, b7, b8⟩ := parts_post hd1 hl1 h2
          obtain ⟨b7, _⟩ := b7 rfl
          split at h
          · rename_i p s3 hpk
            obtain ⟨l, t, sp0, d, more, hp, hr⟩ := peek_some hpk
            obtain ⟨r1, r2, r3, r4, r5, r6⟩ := read_some hr
            subst hp
            split at h
            · cases h
            · rename_i pre secs s4 h4
              injection h with h; injection h with h5 h6
              subst h5; subst h6
              have sp := sectioned_post h4
              obtain ⟨sm, hb1, hb2⟩ := sectioned_ok h4
              have hd3 : (restore s3 (.heading l t sp0 d :: more)).delim = none := r4.trans b2
              have hl3 : (restore s3 (.heading l t sp0 d :: more)).level = 0 := r3.trans b1
              have e1 : todo (restore s3 (.heading l t sp0 d :: more)) = todo s1 := by
                rw [todo_restore _ r2, ← b7, r1]
              have hpre : opening ≠ [] → pre = [] := by
                intro ho
                rcases a5 ho with ⟨h7, _⟩ | ⟨l', t', sp', more', h7, h8⟩
                · rw [← e1, todo_restore _ r2] at h7; cases h7
                · exact blocks_at_heading (l := l') (t := t') (sp := sp') hd3 (rest := more' ++ sourceItems s1.rest)
                    (by rw [e1]; simp [todo, h7]) h8 hb1
              refine ⟨?_, ?_, ?_⟩
              · intro hs
                have e2 := a4 hs
                rw [← e2] at hs
                have e3 := sp.items (by rw [e1]; exact hs.of_append)
                rw [← e2, ← e1, ← e3]
                by_cases ho : opening = []
                · simp [docItems, ho, itemsAll]
                · simp [docItems, hpre ho, itemsAll, itemsAll_append]
              · rcases sp.stop hd3 hl3 with ⟨h7, _⟩ | ⟨_, t, sp, d, more, h7⟩
                · exact .inl h7
                · exact .inr ⟨0, t, sp, d, more ++ sourceItems s4.rest, by simp [todo, h7], by omega⟩
              · intro b hb
                simp only [topSections, List.mem_append] at hb
                rcases hb with hb | hb | hb
                · have := blocks_deeper hb1
                  rw [hl3] at this
                  exact nested_all this b hb
                · exact hop b hb
                · obtain ⟨i, l, inner, e, h7, _⟩ := sections_nested hb2 b hb
                  subst e; exact h7
          · rename_i s3 hpk
            obtain ⟨p1, p2, p3, p4, p5⟩ := peek_none hpk
            have ho : opening = [] := by
              apply Classical.byContradiction
              intro ho
              rcases a5 ho with ⟨h7, h8⟩ | ⟨l', t', sp', more', h7, h8⟩
              · apply hc
                simp [h8]
                cases opening <;> simp_all
              · have e : todo s3 = .heading l' t' sp' false :: (more' ++ sourceItems s1.rest) := by
                  rw [p1, b7]; simp [todo, h7]
                rcases p5 with ⟨h9, _⟩ | ⟨i, more, h9, h10⟩
                · rw [h9] at e; cases e
                · simp only [todo, h9, List.cons_append] at e
                  injection e with e
                  exact h10 _ _ _ _ e
            split at h
            · cases h
            · rename_i blocks s4 h4
              have hle := blocks_le h4
              have hd4 : s4.delim = none := hle.delim.trans (p3.trans b2)
              have hl4 : s4.level = 0 := hle.level.trans (p2.trans b1)
              have hbl : ∀ b ∈ blocks, nested b := by
                have := blocks_deeper h4
                rw [p2.trans b1] at this
                exact nested_all this
              have hitems : Safe env (todo st) → itemsAll blocks ++ todo s4 = todo st := by
                intro hs
                have e2 := a4 hs
                rw [ho] at e2
                simp only [itemsAll, List.nil_append] at e2
                have e3 : todo s3 = todo st := by rw [p1, b7, e2]
                rw [← e3]
                exact blocks_items h4 (by rw [e3]; exact hs)
              split at h
              · injection h with h; injection h with h5 h6
                subst h5; subst h6
                refine ⟨fun hs => by simpa [docItems] using hitems hs, ?_, hbl⟩
                rcases blocks_stop h4 with ⟨h7, _⟩ | ⟨i, more, h7, h8⟩
                · exact .inl h7
                · cases i with
                  | heading l t sp d =>
                    obtain ⟨_, h8⟩ := h8
                    exact .inr ⟨l, t, sp, d, more ++ sourceItems s4.rest, by simp [todo, h7], by omega⟩
                  | delim k => simp only [StopAt] at h8; rw [hd4] at h8; cases h8
                  | para m => cases h8
              · split at h
                · cases h
                · rename_i pre secs s5 h5
                  obtain ⟨i1, i2, i3⟩ := ih _ _ _ hd4 hl4 h5
                  injection h with h; injection h with h6 h7
                  subst h6; subst h7
                  refine ⟨?_, i2, ?_⟩
                  · intro hs
                    have e := hitems hs
                    rw [← e] at hs ⊢
                    rw [← i1 hs.of_append]
                    simp [docItems, itemsAll_append]
                  · intro b hb
                    simp only [topSections, List.append_assoc, List.mem_append] at hb i3
                    rcases hb with hb | hb
                    · exact hbl b hb
                    · exact i3 b hb
                · cases h
                · rename_i pre op ps cl s5 h5
                  obtain ⟨i1, i2, i3⟩ := ih _ _ _ hd4 hl4 h5
                  injection h with h; injection h with h6 h7
                  subst h6; subst h7
                  refine ⟨?_, i2, ?_⟩
                  · intro hs
                    have e := hitems hs
                    rw [← e] at hs ⊢
                    rw [← i1 hs.of_append]
                    simp [docItems, itemsAll_append]
                  · intro b hb
                    simp only [topSections, List.append_assoc] at hb i3
                    rcases List.mem_append.mp hb with hb | hb
                    · exact hbl b hb
                    · exact i3 b hb

/-! ### the bounds are never reached -/

theorem blocks_total {env : Env} {n : Nat} {st : St} (h : (todo st).length < n) :
    loop (parseBlock env n) n st ≠ .error .diverged := by
  refine loop_total (fun s => (todo s).length) (n - 1) ?_ ?_ (by omega) h
  · intro s h; exact block_total _ _ s (by omega)
  · intro s a s' _ h
    exact (block_le _ _ _ _ _ h).2 rfl

theorem peekedSection_total {env : Env} {n : Nat} {p : Peeked} {st : St} (hp : st.peeked = [])
    (h : p.more.length + (todo st).length < n) :
    peekedSection env (loop (parseBlock env n) n) p st ≠ .error .diverged := by
  intro hc
  rcases peekedSection_fail hc with ⟨e, he⟩ | ⟨_, h2⟩ | ⟨errs, toc, h2, _⟩
  · cases he
  · exact pushTocSt_ne h2
  · refine blocks_total ?_ h2
    rw [todo_restore _ (by exact hp)]
    rw [show todo { st with level := p.semantic, errs := errs, toc := toc } = todo st from rfl]
    simpa using h

theorem parseSection_total {env : Env} {n : Nat} {st : St} (h : (todo st).length < n) :
    parseSection env (loop (parseBlock env n) n) st ≠ .error .diverged := by
  intro hc
  unfold parseSection at hc
  split at hc
  · cases hc
  · rename_i p s1 hpk
    obtain ⟨l, t, sp, d, more, hp, hr⟩ := peek_some hpk
    obtain ⟨r1, r2, r3, r4, r5, r6⟩ := read_some hr
    subst hp
    rw [r1] at h
    simp at h
    split at hc
    · cases hc
    · split at hc
      · rename_i f hf
        injection hc with hc; subst hc
        split at hf
        · exact report_ne hf
        · cases hf
      · rename_i s2 hs2
        have : ∃ errs, s2 = { s1 with errs := errs } := by
          split at hs2
          · exact ⟨_, (report_ok hs2).2⟩
          · injection hs2 with hs2; exact ⟨s1.errs, hs2.symm⟩
        obtain ⟨errs, he⟩ := this
        subst he
        split at hc
        · rename_i f hf
          injection hc with hc; subst hc
          exact peekedSection_total (by exact r2) (by
            rw [show todo { s1 with errs := errs } = todo s1 from rfl]; simp only; omega) hf
        · cases hc

theorem sectioned_total {env : Env} {n : Nat} {st : St} (h : (todo st).length < n) :
    parseSectioned env n st ≠ .error .diverged := by
  intro hc
  unfold parseSectioned at hc
  split at hc
  · rename_i f hf
    injection hc with hc; subst hc
    exact blocks_total h hf
  · rename_i pre s1 h1
    have hl := (blocks_le h1).len
    split at hc
    · rename_i f hf
      injection hc with hc; subst hc
      refine loop_total (fun s => (todo s).length) (n - 1) ?_ ?_ (by omega) (by omega) hf
      · intro s h; exact parseSection_total (by omega)
      · intro s a s' _ h; exact (parseSection_step h).len
    · cases hc

theorem parseSpecial_total {env : Env} {n : Nat} {st : St} (h : (todo st).length < n) :
    parseSpecial env n st ≠ .error .diverged := by
  intro hc
  unfold parseSpecial at hc
  split at hc
  · cases hc
  · rename_i p s1 hpk
    obtain ⟨l, t, sp, d, more, hp, hr⟩ := peek_some hpk
    obtain ⟨r1, r2, r3, r4, r5, r6⟩ := read_some hr
    subst hp
    rw [r1] at h
    simp at h
    split at hc
    · cases hc
    · split at hc
      · rename_i f hf
        injection hc with hc; subst hc
        exact peekedSection_total r2 (by simp only; omega) hf
      · cases hc

theorem specials_total {env : Env} {n : Nat} {st : St} (h : (todo st).length < n) :
    loop (parseSpecial env n) n st ≠ .error .diverged := by
  refine loop_total (fun s => (todo s).length) (n - 1) ?_ ?_ (by omega) h
  · intro s h; exact parseSpecial_total (by omega)
  · intro s a s' _ h
    rcases parseSpecial_ok h with ⟨h3, _⟩ | ⟨l, t, sp, d, more, s2, b, hr, hb, _, hsec⟩
    · cases h3
    · injection hb with hb; subst hb
      obtain ⟨r1, r2, r3, r4, r5, r6⟩ := read_some hr
      exact ((section_post r2 hsec).step (st := s) r1 r3 r4).len

theorem part_len {env : Env} {n : Nat} {st st' : St} {p : Part} (h : parsePart env n st = .ok (some p, st')) :
    (todo st').length < (todo st).length := by
  rcases parsePart_ok h with ⟨h3, _⟩ | ⟨t, d, more, s2, s3, pre, secs, s4, errs, hr, hp, hs, he, hres, hne⟩
  · cases h3
  · obtain ⟨r1, r2, r3, r4, r5, r6⟩ := read_some hr
    obtain ⟨p1, p2, p3, p4⟩ := pushTocSt_todo hp
    have hl := (sectioned_post hs).len
    rw [todo_restore _ (p2.trans r2), p1] at hl
    rw [he, r1]
    rw [show todo { s4 with errs := errs } = todo s4 from rfl]
    simp at hl ⊢; omega

theorem parts_total {env : Env} {n : Nat} {st : St} (h : (todo st).length < n) :
    loop (parsePart env n) n st ≠ .error .diverged := by
  refine loop_total (fun s => (todo s).length) (n - 1) ?_ ?_ (by omega) h
  · intro st h hc
    unfold parsePart at hc
    split at hc
    · cases hc
    · rename_i p s1 hpk
      obtain ⟨l, t, sp, d, more, hp, hr⟩ := peek_some hpk
      obtain ⟨r1, r2, r3, r4, r5, r6⟩ := read_some hr
      subst hp
      rw [r1] at h
      simp at h
      split at hc
      · cases hc
      · split at hc
        · rename_i f hf
          injection hc with hc; subst hc
          exact pushTocSt_ne hf
        · rename_i s2 hs2
          obtain ⟨p1, p2, p3, p4⟩ := pushTocSt_todo hs2
          split at hc
          · rename_i f hf
            injection hc with hc; subst hc
            refine sectioned_total ?_ hf
            rw [todo_restore _ (p2.trans r2), p1]
            simp; omega
          · split at hc
            · rename_i f hf
              injection hc with hc; subst hc
              split at hf
              · exact report_ne hf
              · cases hf
            · cases hc
  · intro s a s' _ h
    exact part_len h

theorem book_total (env : Env) (n r : Nat) : ∀ (st : St), st.delim = none → st.level = 0 → (todo st).length < n →
    (todo st).length + 1 < r ∨ ((todo st).length < r ∧ st.peeked ≠ []) → parseBook env n r st ≠ .error .diverged := by
  induction r with
  | zero => intro st _ _ _ h; omega
  | succ r ih =>
    intro st hd hl hn hr h
    unfold parseBook at h
    split at h
    · rename_i f hf
      injection h with h; subst h
      exact specials_total hn hf
    · rename_i opening s1 h1
      obtain ⟨a1, a2, a3, a4, a5, a6, a7, a8, a9⟩ := specials_post hd h1
      have hd1 := a2.trans hd
      have hl1 := a1.trans hl
      split at h
      · cases h
      · split at h
        · rename_i f hf
          injection h with h; subst h
          exact parts_total (by omega) hf
        · rename_i part parts s2 h2
          obtain ⟨b1, b2, b3, b4, b5, b6, b7, b8⟩ := parts_post hd1 hl1 h2
          split at h
          · rename_i f hf
            injection h with h; subst h
            exact specials_total (by omega) hf
          · cases h
        · rename_i s2 h2
          obtain ⟨b1, b2, b3, b4, b5, b6, b7, b8⟩ := parts_post hd1 hl1 h2
          split at h
          · rename_i p s3 hpk
            obtain ⟨l, t, sp, d, more, hp, hr⟩ := peek_some hpk
            obtain ⟨r1, r2, _⟩ := read_some hr
            subst hp
            split at h
            · rename_i f hf
              injection h with h; subst h
              refine sectioned_total ?_ hf
              rw [todo_restore _ r2]
              rw [r1] at b3
              simp at b3 ⊢; omega
            · cases h
          · rename_i s3 hpk
            obtain ⟨p1, p2, p3, p4, p5⟩ := peek_none hpk
            have e3 : (todo s3).length ≤ (todo st).length := by rw [p1]; omega
            split at h
            · rename_i f hf
              injection h with h; subst h
              exact blocks_total (by omega) hf
            · rename_i blocks s4 h4
              have hle := blocks_le h4
              have hd4 : s4.delim = none := hle.delim.trans (p3.trans b2)
              have hl4 : s4.level = 0 := hle.level.trans (p2.trans b1)
              have hlen := hle.len
              split at h
              · cases h
              · rename_i hne
                have hpk : ∃ l t sp more, s4.peeked = .heading l t sp false :: more ∧ l ≤ 1 := by
                  rcases blocks_stop h4 with ⟨_, h7⟩ | ⟨i, more, h7, h8⟩
                  · exact absurd h7 hne
                  · cases i with
                    | heading l t sp d =>
                      obtain ⟨h8, h9⟩ := h8
                      subst h8
                      exact ⟨l, t, sp, more, h7, by omega⟩
                    | delim k => simp only [StopAt] at h8; rw [hd4] at h8; cases h8
                    | para m => cases h8
                obtain ⟨l, t, sp, more, hpk, hlt⟩ := hpk
                split at h
                · rename_i f hf
                  injection h with h; subst h
                  refine ih s4 hd4 hl4 (by omega) ?_ hf
                  right
                  refine ⟨?_, by rw [hpk]; simp⟩
                  have hpos : 0 < (todo s4).length := by simp [todo, hpk]
                  rcases hr with hr | ⟨hr, hpe⟩
                  · omega
                  · -- something was in front: it cannot have been a heading
                    by_cases hlt2 : (todo s4).length < (todo st).length
                    · omega
                    · exfalso
                      -- nothing was consumed, so the blocks loop started at the heading that peeking did not see
                      rcases p5 with ⟨h9, _⟩ | ⟨i, more', h9, h10⟩
                      · rw [h9] at hlen; simp only [List.length_nil] at hlen; omega
                      · have hbl : blocks = [] ∨ blocks ≠ [] := Classical.em _
                        have : (todo s4).length < (todo s3).length ∨ ∃ n', parseBlock env n s3 = .ok (none, n') ∧ n' = s4 := by
                          cases n with
                          | zero => cases h4
                          | succ n =>
                            unfold loop at h4
                            split at h4
                            · cases h4
                            · rename_i s5 h5
                              injection h4 with h4; injection h4 with _ h4
                              exact .inr ⟨s5, h5, h4⟩
                            · rename_i b s5 h5
                              split at h4
                              · cases h4
                              · rename_i bs s6 h6
                                injection h4 with h4; injection h4 with _ h4
                                subst h4
                                have := (block_le _ _ _ _ _ h5).2 rfl
                                have := (blocks_le h6).len
                                exact .inl (by omega)
                        rcases this with h11 | ⟨s5, h11, h12⟩
                        · omega
                        · subst h12
                          cases n with
                          | zero => cases h11
                          | succ n =>
                            rcases parseBlock_ok h11 with ⟨h12, _⟩ | ⟨i2, more2, s6, hr2, hcase⟩
                            · rw [read, h9] at h12; cases h12
                            · obtain ⟨q1, q2, q3, q4, _⟩ := read_some hr2
                              have hi : i2 = i := by
                                simp only [todo, h9, List.cons_append] at q1
                                injection q1 with q1; exact q1.symm
                              rcases hcase with ⟨h13, _⟩ | ⟨_, h13, h14⟩ | ⟨_, _, _, _, h13, _⟩ | ⟨_, _, _, _, _, _, _, h13, _⟩
                              · cases h13
                              · rw [h13] at hpk
                                simp only [restore] at hpk
                                injection hpk with hpk
                                exact h10 _ _ _ _ (hi ▸ hpk)
                              · cases h13
                              · cases h13
                · cases h
                · cases h
                · cases h

end Verif.Sections
