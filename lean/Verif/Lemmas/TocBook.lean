import Verif.Lemmas.TocTree
/-! Books: when parsing cannot panic, and the shape of the table of contents. -/
namespace Verif.Sections
open Verif.Spec.Sections

/-- A book whose content starts with a heading is not a bare list of blocks. -/
theorem book_not_blocks {env : Env} {n r : Nat} {st st' : St} {bs : List Node} {l t : Nat} {sp : Option SpecialSection} {more : List Item}
    (hd : st.delim = none) (hl : st.level = 0) (hp : st.peeked = .heading l t sp false :: more) :
    parseBook env n r st ≠ .ok (.blocks bs, st') := by
  intro h
  cases r with
  | zero => cases h
  | succ r =>
    unfold parseBook at h
    split at h
    · cases h
    · rename_i opening s1 h1
      obtain ⟨a1, a2, a3, a4, a5, a6, a7, a8, a9⟩ := specials_post hd h1
      have hd1 := a2.trans hd
      have hl1 := a1.trans hl
      split at h
      · cases h
      · rename_i hc
        split at h
        · cases h
        · split at h <;> cases h
        · rename_i s2 h2
          obtain ⟨b1, b2, b3, b4, b5, b6, b7, b8⟩ := parts_post hd1 hl1 h2
          obtain ⟨b7, b9⟩ := b7 rfl
          split at h
          · split at h <;> cases h
          · rename_i s3 hpk
            obtain ⟨p1, p2, p3, p4, p5⟩ := peek_none hpk
            have key : ∃ l' t' sp' rest, todo s1 = .heading l' t' sp' false :: rest := by
              by_cases ho : opening = []
              · refine ⟨l, t, sp, more ++ sourceItems st.rest, ?_⟩
                rw [(a7 ho).1]; simp [todo, hp]
              · rcases a5 ho with ⟨h7, h8⟩ | ⟨l', t', sp', more', h7, h8⟩
                · exfalso
                  apply hc
                  simp [h8]
                  cases opening <;> simp_all
                · exact ⟨l', t', sp', more' ++ sourceItems s1.rest, by simp [todo, h7]⟩
            obtain ⟨l', t', sp', rest, e⟩ := key
            rcases p5 with ⟨h9, _⟩ | ⟨i, more, h9, h10⟩
            · rw [p1, b7, e] at h9; cases h9
            · have e : todo s3 = .heading l' t' sp' false :: rest := by rw [p1, b7, e]
              simp only [todo, h9, List.cons_append] at e
              injection e with e
              exact h10 _ _ _ _ e

/-- No table of contents, or one of the default depth. -/
def Calm (env : Env) (st : St) : Prop := st.toc = none ∨ env.toclevels ≤ 2

theorem Calm.next {env : Env} {st st' : St} {es : List (Nat × Nat)} (h : Calm env st) (hl : Lists st es st') : Calm env st' :=
  h.imp hl.2 id

theorem pushToc_two {d : Nat} (hd : d ≤ 2) {nodes : List Toc} {a s t : Nat} (hs : s = a ∨ s = 1) : pushToc d nodes a s t ≠ none := by
  unfold pushToc
  split
  · simp
  · split
    · simp
    · rename_i last t' ch hl
      split
      · simp
      · rename_i h1 h2
        have one : pushAt 1 nodes (.node a t []) ≠ none := by
          unfold pushAt; rw [hl]; simp [pushAt]
        have zero : pushAt 0 nodes (.node a t []) ≠ none := by simp [pushAt]
        simp only
        split
        · rename_i h3
          rw [h3.1]; exact one
        · rename_i h3
          by_cases h4 : s - last = 2
          · have h5 : last = 0 ∧ s = 2 := by omega
            have hch : ch ≠ [] := by
              intro hc
              exact h3 ⟨h5.1, h5.2, by simp [hc]⟩
            rw [h4]
            unfold pushAt; rw [hl]
            simp only
            unfold pushAt
            cases hg : ch.getLast? with
            | none => simp at hg; exact absurd hg hch
            | some x => cases x; simp [pushAt]
          · have : s - last = 0 ∨ s - last = 1 := by omega
            rcases this with h5 | h5 <;> rw [h5]
            · exact zero
            · exact one

theorem pushTocSt_calm {env : Env} {st : St} {a s t : Nat} (h : Calm env st) (hs : s = a ∨ s = 1) :
    pushTocSt env st a s t ≠ .error .panic := by
  unfold pushTocSt
  split
  · simp
  · rename_i nodes hn
    rcases h with h | h
    · rw [hn] at h; cases h
    · split
      · rename_i hp
        exact absurd hp (pushToc_two h hs)
      · simp

theorem section_calm {env : Env} {inner : St → Res (List Node × St)} {p : Peeked} {st : St} (h : Calm env st)
    (hs : p.semantic = p.authored ∨ p.semantic = 1)
    (hin : ∀ s, Calm env s → inner s ≠ .error .panic) :
    peekedSection env inner p st ≠ .error .panic := by
  intro hc
  unfold peekedSection at hc
  simp only at hc
  split at hc
  · rename_i f hf
    injection hc with hc; subst hc
    split at hf
    · obtain ⟨e, he⟩ := report_fail hf
      cases he
    · cases hf
  · rename_i s1 hs1
    have h1 : Calm env s1 := by
      split at hs1
      · rw [(report_ok hs1).2]; exact h
      · injection hs1 with hs1; subst hs1; exact h
    split at hc
    · rename_i f hf
      injection hc with hc; subst hc
      split at hf
      · cases hf
      · exact pushTocSt_calm h1 hs hf
    · rename_i s2 hs2
      have h2 : Calm env s2 := by
        split at hs2
        · injection hs2 with hs2; subst hs2; exact h1
        · exact h1.next (pushTocSt_lists hs2)
      split at hc
      · rename_i f hf
        injection hc with hc; subst hc
        exact hin _ (show Calm env (restore s2 p.more) from h2) hf
      · rename_i blocks s3 hs3
        split at hc
        · rename_i f hf
          injection hc with hc; subst hc
          split at hf
          · have : ∀ (es : List Err) (s : St), reportAll env s es ≠ .error .panic := by
              intro es
              induction es with
              | nil => intro s; simp [reportAll]
              | cons e es ih =>
                intro s
                unfold reportAll
                split
                · rename_i f hf
                  intro h; injection h with h; subst h
                  obtain ⟨e, he⟩ := report_fail hf
                  cases he
                · exact ih _
            exact this _ _ hf
          · cases hf
        · cases hc

theorem block_calm {env : Env} (n : Nat) : ∀ s : St, Calm env s → parseBlock env n s ≠ .error .panic := by
  induction n with
  | zero => intro s _ h; cases h
  | succ n ih =>
    intro s hs h
    have inner : ∀ s : St, Calm env s → loop (parseBlock env n) n s ≠ .error .panic := fun s hs =>
      (loop_inv (fun s _ => Calm env s) (fun s _ hs => ⟨fun _ _ h => hs.next (block_lists _ _ _ _ _ h),
        fun _ h => hs.next (block_lists _ _ _ _ _ h), ih s hs⟩) n s [] hs).2
    obtain ⟨i, more, s1, hr, hc⟩ := parseBlock_fail h
    obtain ⟨r1, r2, r3, r4, r5, r6⟩ := read_some hr
    have hs1 : Calm env s1 := hs.imp (fun h => r5.trans h) id
    rcases hc with ⟨k, _, _, h1⟩ | ⟨l, t, sp, hi, _, _, h1⟩
    · rcases delimited_fail h1 with ⟨e, he⟩ | h2
      · cases he
      · exact inner { restore s1 more with delim := some k } hs1 h2
    · exact section_calm hs1 (.inl rfl) inner h1

theorem blocks_calm {env : Env} {n m : Nat} {s : St} (hs : Calm env s) : loop (parseBlock env n) m s ≠ .error .panic :=
  (loop_inv (fun s _ => Calm env s) (fun s _ hs => ⟨fun _ _ h => hs.next (block_lists _ _ _ _ _ h),
    fun _ h => hs.next (block_lists _ _ _ _ _ h), block_calm n s hs⟩) m s [] hs).2

theorem sections_calm {env : Env} {n m k : Nat} {s : St} (hs : Calm env s) :
    loop (parseSection env (loop (parseBlock env n) m)) k s ≠ .error .panic := by
  have one : ∀ {s s' : St} {r : Option Node}, Calm env s → parseSection env (loop (parseBlock env n) m) s = .ok (r, s') → Calm env s' := by
    intro s s' r hs h
    rcases parseSection_ok h with ⟨_, _, _, _, h1, _⟩ | ⟨l, t, sp, d, more, s2, errs, b', hr, hb, _, _, hsec⟩
    · exact hs.imp (fun h => h1.trans h) id
    · obtain ⟨r1, r2, r3, r4, r5, r6⟩ := read_some hr
      exact Calm.next (st := { s2 with errs := errs }) (hs.imp (fun h => r5.trans h) id) (peekedSection_lists blocks_lists hsec)
  refine (loop_inv (fun s _ => Calm env s) (fun s _ hs => ⟨fun _ _ h => one hs h, fun _ h => one hs h, ?_⟩) k s [] hs).2
  intro h
  rcases parseSection_fail h with ⟨e, he⟩ | ⟨l, t, sp, d, more, s1, errs, hr, hst0, h1⟩
  · cases he
  · obtain ⟨r1, r2, r3, r4, r5, r6⟩ := read_some hr
    exact section_calm (st := { s1 with errs := errs }) (hs.imp (fun h => r5.trans h) id) (.inl rfl)
      (fun s hs => blocks_calm hs) h1

theorem sectioned_calm {env : Env} {n : Nat} {s : St} (hs : Calm env s) : parseSectioned env n s ≠ .error .panic := by
  intro h
  unfold parseSectioned at h
  split at h
  · rename_i f hf
    injection h with h; subst h
    exact blocks_calm hs hf
  · rename_i pre s1 h1
    split at h
    · rename_i f hf
      injection h with h; subst h
      exact sections_calm (hs.next (blocks_lists h1)) hf
    · cases h

theorem specials_calm {env : Env} {n k : Nat} {s : St} (hs : Calm env s) :
    loop (parseSpecial env n) k s ≠ .error .panic := by
  have one : ∀ {s s' : St} {r : Option Node}, Calm env s → parseSpecial env n s = .ok (r, s') → Calm env s' := by
    intro s s' r hs h
    rcases parseSpecial_ok h with ⟨_, _, _, _, h1, _⟩ | ⟨l, t, sp, d, more, s2, b, hr, hb, _, hsec⟩
    · exact hs.imp (fun h => h1.trans h) id
    · obtain ⟨r1, r2, r3, r4, r5, r6⟩ := read_some hr
      exact Calm.next (st := s2) (hs.imp (fun h => r5.trans h) id) (peekedSection_lists blocks_lists hsec)
  refine (loop_inv (fun s _ => Calm env s) (fun s _ hs => ⟨fun _ _ h => one hs h, fun _ h => one hs h, ?_⟩) k s [] hs).2
  intro h
  unfold parseSpecial at h
  split at h
  · cases h
  · rename_i p s1 hpk
    obtain ⟨l, t, sp, d, more, hp, hr⟩ := peek_some hpk
    obtain ⟨r1, r2, r3, r4, r5, r6⟩ := read_some hr
    subst hp
    split at h
    · cases h
    · split at h
      · rename_i f hf
        injection h with h; subst h
        exact section_calm (st := s1) (hs.imp (fun h => r5.trans h) id) (.inr rfl) (fun s hs => blocks_calm hs) hf
      · cases h

/-- How reading a part can fail. -/
theorem parsePart_fail {env : Env} {n : Nat} {st : St} {f : Fail} (h : parsePart env n st = .error f) :
    (∃ e, f = .diag e) ∨ ∃ t d more s1, read st = some (.heading 0 t none d, more, s1) ∧
      (pushTocSt env s1 0 0 t = .error f ∨
       ∃ s2, pushTocSt env s1 0 0 t = .ok s2 ∧ parseSectioned env n (restore s2 more) = .error f) := by
  unfold parsePart at h
  split at h
  · cases h
  · rename_i p s1 hpk
    obtain ⟨l, t, sp, d, more, hp, hr⟩ := peek_some hpk
    subst hp
    split at h
    · cases h
    · rename_i hc
      have hl : l = 0 := Decidable.byContradiction fun h => hc (.inl h)
      have hsp : sp = none := Decidable.byContradiction fun h => hc (.inr h)
      subst hl; subst hsp
      split at h
      · rename_i f' hf
        injection h with h; subst h
        exact .inr ⟨t, d, more, s1, hr, .inl hf⟩
      · rename_i s2 hs2
        split at h
        · rename_i f' hf
          injection h with h; subst h
          exact .inr ⟨t, d, more, s1, hr, .inr ⟨s2, hs2, hf⟩⟩
        · split at h
          · rename_i f' hf
            injection h with h; subst h
            split at hf
            · exact .inl (report_fail hf)
            · cases hf
          · cases h

theorem part_calm {env : Env} {n : Nat} {s s' : St} {r : Option Part} (hs : Calm env s) (h : parsePart env n s = .ok (r, s')) : Calm env s' := by
  rcases parsePart_ok h with ⟨_, _, _, _, h1, _⟩ | ⟨t, d, more, s2, s3, pre, secs, s4, errs, hr, hp, hsd, he, hres, hne⟩
  · exact hs.imp (fun h => h1.trans h) id
  · obtain ⟨r1, r2, r3, r4, r5, r6⟩ := read_some hr
    have h2 : Calm env s2 := hs.imp (fun h => r5.trans h) id
    have h3 : Calm env s3 := h2.next (pushTocSt_lists hp)
    subst he
    exact (Calm.next (st := restore s3 more) h3 (sectioned_lists hsd) : Calm env s4)

theorem parts_calm {env : Env} {n k : Nat} {s : St} (hs : Calm env s) :
    (∀ ps s', loop (parsePart env n) k s = .ok (ps, s') → Calm env s') ∧ loop (parsePart env n) k s ≠ .error .panic := by
  refine loop_inv (fun s _ => Calm env s) (fun s _ hs => ⟨fun _ _ h => part_calm hs h, fun _ h => part_calm hs h, ?_⟩) k s [] hs
  intro h
  rcases parsePart_fail h with ⟨e, he⟩ | ⟨t, d, more, s1, hr, hc⟩
  · cases he
  · obtain ⟨r1, r2, r3, r4, r5, r6⟩ := read_some hr
    have h1 : Calm env s1 := hs.imp (fun h => r5.trans h) id
    rcases hc with hc | ⟨s2, hc, h2⟩
    · exact pushTocSt_calm h1 (.inl rfl) hc
    · have h3 : Calm env s2 := h1.next (pushTocSt_lists hc)
      exact sectioned_calm (s := restore s2 more) h3 h2

theorem book_calm (env : Env) (n r : Nat) : ∀ st : St, st.delim = none → st.level = 0 → Calm env st →
    parseBook env n r st ≠ .error .panic := by
  induction r with
  | zero => intro st _ _ _ h; cases h
  | succ r ih =>
    intro st hd hl hs h
    unfold parseBook at h
    split at h
    · rename_i f hf
      injection h with h; subst h
      exact specials_calm hs hf
    · rename_i opening s1 h1
      obtain ⟨a1, a2, a3, a4, a5, a6, a7, a8, a9⟩ := specials_post hd h1
      have hd1 := a2.trans hd
      have hl1 := a1.trans hl
      have hs1 := hs.next (specials_lists h1)
      split at h
      · cases h
      · split at h
        · rename_i f hf
          injection h with h; subst h
          exact (parts_calm hs1).2 hf
        · rename_i part parts s2 h2
          have hs2 := (parts_calm hs1).1 _ _ h2
          split at h
          · rename_i f hf
            injection h with h; subst h
            exact specials_calm hs2 hf
          · cases h
        · rename_i s2 h2
          have hs2 := (parts_calm hs1).1 _ _ h2
          obtain ⟨b1, b2, b3, b4, b5, b6, b7, b8⟩ := parts_post hd1 hl1 h2
          split at h
          · rename_i p s3 hpk
            obtain ⟨l, t, sp, d, more, hp, hr⟩ := peek_some hpk
            obtain ⟨r1, r2, r3, r4, r5, r6⟩ := read_some hr
            split at h
            · rename_i f hf
              injection h with h; subst h
              exact sectioned_calm (s := restore s3 (p.item :: p.more)) (hs2.imp (fun h => r5.trans h) id) hf
            · cases h
          · rename_i s3 hpk
            obtain ⟨p1, p2, p3, p4, p5⟩ := peek_none hpk
            have hs3 : Calm env s3 := hs2.imp (fun h => p4.trans h) id
            split at h
            · rename_i f hf
              injection h with h; subst h
              exact blocks_calm hs3 hf
            · rename_i blocks s4 h4
              have hle := blocks_le h4
              have hd4 : s4.delim = none := hle.delim.trans (p3.trans b2)
              have hl4 : s4.level = 0 := hle.level.trans (p2.trans b1)
              have hs4 := hs3.next (blocks_lists h4)
              split at h
              · cases h
              · rename_i hne
                have hpk : ∃ l t sp more, s4.peeked = .heading l t sp false :: more ∧ l ≤ 1 := by
                  rcases blocks_stop h4 with ⟨_, h7⟩ | ⟨i, more, h7, h8⟩
                  · exact absurd h7 hne
                  · cases i with
                    | heading l t sp d =>
                      obtain ⟨h8, h9⟩ := h8
                      subst h8
                      exact ⟨l, t, sp, more, h7, by omega⟩
                    | delim k => simp only [StopAt] at h8; rw [hd4] at h8; cases h8
                    | para m => cases h8
                obtain ⟨l, t, sp, more, hpk, hlt⟩ := hpk
                split at h
                · rename_i f hf
                  injection h with h; subst h
                  exact ih s4 hd4 hl4 hs4 hf
                · cases h
                · rename_i h5
                  exact book_not_blocks hd4 hl4 hpk h5
                · cases h

/-! ### the shape of the table of contents of a strict book -/

/-- No special sections. -/
def NoSpecial (items : List Item) : Prop := ∀ l t sp d, Item.heading l t sp d ∈ items → sp = none

theorem specials_none {env : Env} {n k : Nat} {s : St} (hs : NoSpecial (todo s)) :
    (∀ bs s', loop (parseSpecial env n) k s = .ok (bs, s') → bs = []) ∧ loop (parseSpecial env n) k s ≠ .error .panic := by
  have key : ∀ {f : Fail}, parseSpecial env n s ≠ .error f := by
    intro f h
    unfold parseSpecial at h
    split at h
    · cases h
    · rename_i p s1 hpk
      obtain ⟨l, t, sp, d, more, hp, hr⟩ := peek_some hpk
      obtain ⟨r1, _⟩ := read_some hr
      subst hp
      rw [if_pos (hs l t sp d (by rw [r1]; simp))] at h
      cases h
  cases k with
  | zero => exact ⟨fun _ _ h => (by cases h), fun h => (by cases h)⟩
  | succ k =>
    unfold loop
    split
    · rename_i f hf
      exact absurd hf key
    · refine ⟨fun bs s' h => ?_, by simp⟩
      injection h with h; injection h with h _; exact h.symm
    · rename_i a s1 h1
      exfalso
      rcases parseSpecial_ok h1 with ⟨h3, _⟩ | ⟨l, t, sp, d, more, s2, b, hr, hb, h4, hsec⟩
      · cases h3
      · obtain ⟨r1, _⟩ := read_some hr
        exact h4 (hs l t sp d (by rw [r1]; simp))

/-- the table-of-contents entry of a part -/
def partToc (d : Nat) (p : Part) : List Toc :=
  match p.title with
  | .heading a t _ _ => [.node a t (tocOfAll d p.intro ++ tocOfAll d p.sections)]
  | _ => []

/-- One part after another at the top of the table. -/
theorem parts_tree {env : Env} (hst : env.strict = true) {n k : Nat} {s : St} {xs : List Toc} (hl : s.level = 0)
    (ht : s.toc = some xs) :
    (∀ ps s', loop (parsePart env n) k s = .ok (ps, s') → s'.toc = some (xs ++ (ps.map (partToc env.toclevels)).flatten)) ∧
    loop (parsePart env n) k s ≠ .error .panic := by
  have push : ∀ {s s2 : St} {ys : List Toc} {t : Nat}, s.toc = some ys → pushTocSt env s 0 0 t = .ok s2 →
      s2.toc = some (plug [(ys, 0, t)] []) := by
    intro s s2 ys t hy h
    unfold pushTocSt at h
    rw [hy] at h
    simp only at h
    unfold pushToc at h
    rw [if_neg (by omega)] at h
    cases hg : ys.getLast? with
    | none => rw [hg] at h; simp only at h; injection h with h; subst h; rfl
    | some x =>
      obtain ⟨a, b, c⟩ := x
      rw [hg] at h; simp only at h
      rw [if_pos (.inr trivial)] at h
      injection h with h; subst h; rfl
  have good : ∀ (ys : List Toc) (t : Nat), Good env.toclevels [(ys, 0, t)] [] 0 :=
    fun ys t => .inr ⟨0, by omega, ⟨rfl, trivial⟩, rfl, by simp⟩
  obtain ⟨h1, h2⟩ := loop_inv (fun s acc => s.level = 0 ∧ s.toc = some (xs ++ (acc.map (partToc env.toclevels)).flatten))
    (step := parsePart env n) (by
    intro s acc ⟨hl, ht⟩
    refine ⟨?_, ?_, ?_⟩
    · intro p s' h
      rcases parsePart_ok h with ⟨h1, _⟩ | ⟨t, d, more, s2, s3, pre, secs, s4, errs, hr, hp, hsd, he, hres, hne⟩
      · cases h1
      · obtain ⟨r1, r2, r3, r4, r5, r6⟩ := read_some hr
        obtain ⟨p1, p2, p3, p4⟩ := pushTocSt_todo hp
        have := push (r5.trans ht) hp
        obtain ⟨i1, i2, _⟩ := (sectioned_tree hst (s := restore s3 more) (good _ t) (p3.trans (r3.trans hl)) this).1 _ _ _ hsd
        injection hres with hres; subst hres; subst he
        refine ⟨i1, i2.trans ?_⟩
        simp [plug, partToc, tocOfAll_append]
    · intro s' h
      rcases parsePart_ok h with ⟨_, _, h1, _, h2, _⟩ | ⟨_, _, _, _, _, _, _, _, _, _, _, _, _, h1, _⟩
      · exact ⟨h1.trans hl, h2.trans ht⟩
      · cases h1
    · intro h
      rcases parsePart_fail h with ⟨e, he⟩ | ⟨t, d, more, s1, hr, hc⟩
      · cases he
      · obtain ⟨r1, r2, r3, r4, r5, r6⟩ := read_some hr
        rcases hc with hc | ⟨s2, hc, h2⟩
        · unfold pushTocSt at hc
          rw [r5, ht] at hc
          simp only at hc
          unfold pushToc at hc
          rw [if_neg (by omega)] at hc
          cases hg : (xs ++ (acc.map (partToc env.toclevels)).flatten).getLast? with
          | none => rw [hg] at hc; cases hc
          | some x =>
            obtain ⟨a, b, c⟩ := x
            rw [hg] at hc; simp only at hc
            rw [if_pos (.inr trivial)] at hc
            cases hc
        · obtain ⟨p1, p2, p3, p4⟩ := pushTocSt_todo hc
          have := push (r5.trans ht) hc
          exact (sectioned_tree hst (s := restore s2 more) (good _ t) (p3.trans (r3.trans hl)) this).2 h2)
    k s [] ⟨hl, by simpa using ht⟩
  exact ⟨fun ps s' h => by simpa using (h1 _ _ h).2, h2⟩

theorem docToc_eq (d : Nat) (pre op : List Node) (ps : List Part) (cl : List Node) :
    docToc d (.parts pre op ps cl) = tocOfAll d pre ++ tocOfAll d op ++ (ps.map (partToc d)).flatten ++ tocOfAll d cl := by
  unfold docToc partToc
  rfl

theorem book_tree {env : Env} (hst : env.strict = true) (n r : Nat) : ∀ (st : St) (xs : List Toc), st.delim = none → st.level = 0 →
    st.toc = some xs → (∀ x ∈ xs, x.level = 1) → NoSpecial (todo st) →
    (∀ doc st', parseBook env n r st = .ok (doc, st') → st'.toc = some (xs ++ docToc env.toclevels doc)) ∧
    parseBook env n r st ≠ .error .panic := by
  induction r with
  | zero => intro st xs _ _ _ _ _; exact ⟨fun _ _ h => (by cases h), fun h => (by cases h)⟩
  | succ r ih =>
    intro st xs hd hl ht hx hsp
    have safe : ∀ l, Safe env l := fun l => .inl hst
    have good : Good env.toclevels [] xs 0 := .inr ⟨1, by omega, trivial, rfl, hx⟩
    obtain ⟨u1, u2⟩ := specials_none (env := env) (n := n) (k := n) hsp
    constructor
    · intro doc st' h
      unfold parseBook at h
      split at h
      · cases h
      · rename_i opening s1 h1
        obtain ⟨a1, a2, a3, a4, a5, a6, a7, a8, a9⟩ := specials_post hd h1
        have ho := u1 _ _ h1
        subst ho
        obtain ⟨e1, e2⟩ := a7 rfl
        have hd1 := a2.trans hd
        have hl1 := a1.trans hl
        have ht1 := e2.trans ht
        rw [if_neg (by simp)] at h
        split at h
        · cases h
        · rename_i part parts s2 h2
          obtain ⟨b1, b2, b3, b4, b5, b6, b7, b8⟩ := parts_post hd1 hl1 h2
          have ht2 := (parts_tree hst hl1 ht1).1 _ _ h2
          have hsp2 : NoSpecial (todo s2) := by
            intro l t sp d hm
            have := b4 (safe _)
            exact hsp l t sp d (by rw [← e1, ← this]; exact List.mem_append_right _ hm)
          split at h
          · cases h
          · rename_i closing s3 h3
            have hc := (specials_none hsp2).1 _ _ h3
            subst hc
            obtain ⟨_, _, _, _, _, _, c7, _⟩ := specials_post b2 h3
            injection h with h; injection h with h4 h5
            subst h4; subst h5
            rw [(c7 rfl).2, ht2, docToc_eq]
            simp [tocOfAll]
        · rename_i s2 h2
          obtain ⟨b1, b2, b3, b4, b5, b6, b7, b8⟩ := parts_post hd1 hl1 h2
          obtain ⟨b7, b9⟩ := b7 rfl
          have ht2 := b9.trans ht1
          split at h
          · rename_i p s3 hpk
            obtain ⟨l, t, sp, d, more, hp, hr⟩ := peek_some hpk
            obtain ⟨r1, r2, r3, r4, r5, r6⟩ := read_some hr
            split at h
            · cases h
            · rename_i pre secs s4 h4
              injection h with h; injection h with h5 h6
              subst h5; subst h6
              have := ((sectioned_tree hst (s := restore s3 (p.item :: p.more)) good (r3.trans b1) (r5.trans ht2)).1 _ _ _ h4).2.1
              rw [this]
              simp [plug, docToc, tocOfAll_append]
          · rename_i s3 hpk
            obtain ⟨p1, p2, p3, p4, p5⟩ := peek_none hpk
            split at h
            · cases h
            · rename_i blocks s4 h4
              have hle := blocks_le h4
              have hd4 : s4.delim = none := hle.delim.trans (p3.trans b2)
              have hl4 : s4.level = 0 := hle.level.trans (p2.trans b1)
              have hA := (blocks_tree hst good (p2.trans b1) (p4.trans ht2)).1 _ _ h4
              split at h
              · injection h with h; injection h with h5 h6
                subst h5; subst h6
                exact hA.2.1
              · have hsp4 : NoSpecial (todo s4) := by
                  intro l t sp d hm
                  have := blocks_items h4 (safe _)
                  exact hsp l t sp d (by rw [← e1, ← b7, ← p1, ← this]; exact List.mem_append_right _ hm)
                have hi := (ih s4 _ hd4 hl4 hA.2.1 (by
                  intro x hxm
                  rcases List.mem_append.mp hxm with hxm | hxm
                  · exact hx x hxm
                  · exact hA.2.2.1 x hxm) hsp4).1
                split at h
                · cases h
                · rename_i pre secs s5 h5
                  have := hi _ _ h5
                  injection h with h; injection h with h6 h7
                  subst h6; subst h7
                  rw [this]
                  simp [docToc, tocOfAll_append, plug]
                · cases h
                · rename_i pre op ps cl s5 h5
                  have := hi _ _ h5
                  injection h with h; injection h with h6 h7
                  subst h6; subst h7
                  rw [this, docToc_eq, docToc_eq]
                  simp [tocOfAll_append, plug]
    · intro h
      unfold parseBook at h
      split at h
      · rename_i f hf
        injection h with h; subst h
        exact u2 hf
      · rename_i opening s1 h1
        obtain ⟨a1, a2, a3, a4, a5, a6, a7, a8, a9⟩ := specials_post hd h1
        have ho := u1 _ _ h1
        subst ho
        obtain ⟨e1, e2⟩ := a7 rfl
        have hd1 := a2.trans hd
        have hl1 := a1.trans hl
        have ht1 := e2.trans ht
        rw [if_neg (by simp)] at h
        split at h
        · rename_i f hf
          injection h with h; subst h
          exact (parts_tree hst hl1 ht1).2 hf
        · rename_i part parts s2 h2
          obtain ⟨b1, b2, b3, b4, b5, b6, b7, b8⟩ := parts_post hd1 hl1 h2
          have hsp2 : NoSpecial (todo s2) := by
            intro l t sp d hm
            have := b4 (safe _)
            exact hsp l t sp d (by rw [← e1, ← this]; exact List.mem_append_right _ hm)
          split at h
          · rename_i f hf
            injection h with h; subst h
            exact (specials_none hsp2).2 hf
          · cases h
        · rename_i s2 h2
          obtain ⟨b1, b2, b3, b4, b5, b6, b7, b8⟩ := parts_post hd1 hl1 h2
          obtain ⟨b7, b9⟩ := b7 rfl
          have ht2 := b9.trans ht1
          split at h
          · rename_i p s3 hpk
            obtain ⟨l, t, sp, d, more, hp, hr⟩ := peek_some hpk
            obtain ⟨r1, r2, r3, r4, r5, r6⟩ := read_some hr
            split at h
            · rename_i f hf
              injection h with h; subst h
              exact (sectioned_tree hst (s := restore s3 (p.item :: p.more)) good (r3.trans b1) (r5.trans ht2)).2 hf
            · cases h
          · rename_i s3 hpk
            obtain ⟨p1, p2, p3, p4, p5⟩ := peek_none hpk
            split at h
            · rename_i f hf
              injection h with h; subst h
              exact (blocks_tree hst good (p2.trans b1) (p4.trans ht2)).2 hf
            · rename_i blocks s4 h4
              have hle := blocks_le h4
              have hd4 : s4.delim = none := hle.delim.trans (p3.trans b2)
              have hl4 : s4.level = 0 := hle.level.trans (p2.trans b1)
              have hA := (blocks_tree hst good (p2.trans b1) (p4.trans ht2)).1 _ _ h4
              split at h
              · cases h
              · rename_i hne
                have hpk : ∃ l t sp more, s4.peeked = .heading l t sp false :: more := by
                  rcases blocks_stop h4 with ⟨_, h7⟩ | ⟨i, more, h7, h8⟩
                  · exact absurd h7 hne
                  · cases i with
                    | heading l t sp d =>
                      obtain ⟨h8, h9⟩ := h8
                      subst h8
                      exact ⟨l, t, sp, more, h7⟩
                    | delim k => simp only [StopAt] at h8; rw [hd4] at h8; cases h8
                    | para m => cases h8
                obtain ⟨l, t, sp, more, hpk⟩ := hpk
                have hsp4 : NoSpecial (todo s4) := by
                  intro l t sp d hm
                  have := blocks_items h4 (safe _)
                  exact hsp l t sp d (by rw [← e1, ← b7, ← p1, ← this]; exact List.mem_append_right _ hm)
                have hi := (ih s4 _ hd4 hl4 hA.2.1 (by
                  intro x hxm
                  rcases List.mem_append.mp hxm with hxm | hxm
                  · exact hx x hxm
                  · exact hA.2.2.1 x hxm) hsp4).2
                split at h
                · rename_i f hf
                  injection h with h; subst h
                  exact hi hf
                · cases h
                · rename_i h5
                  exact book_not_blocks hd4 hl4 hpk h5
                · cases h

end Verif.Sections
