import Verif.Lemmas.TocBook
/-! Levels in strict books, and books that lose nothing. -/
namespace Verif.Sections
open Verif.Spec.Sections

theorem stepwiseAll_of {l : Nat} {bs : List Node} (h : ∀ b ∈ bs, stepwise l b) : stepwiseAll l bs := by
  induction bs with
  | nil => trivial
  | cons b bs ih => exact ⟨h b (by simp), ih fun b hb => h b (by simp [hb])⟩

theorem of_stepwiseAll {l : Nat} {bs : List Node} (h : stepwiseAll l bs) : ∀ b ∈ bs, stepwise l b := by
  induction bs with
  | nil => simp
  | cons b bs ih =>
    intro x hx
    rcases List.mem_cons.mp hx with hx | hx
    · subst hx; exact h.1
    · exact ih h.2 x hx

theorem sections_stepwise {env : Env} (hst : env.strict = true) {n m k : Nat} {s s' : St} {bs : List Node} (hl : s.level = 0)
    (h : loop (parseSection env (loop (parseBlock env n) m)) k s = .ok (bs, s')) : ∀ b ∈ bs, stepwise 0 b := by
  intro b hb
  obtain ⟨i, l, inner, e, _, h2⟩ := sections_nested h b hb
  obtain ⟨h3, h4, h5⟩ := h2 hst
  subst e
  exact ⟨by omega, h5⟩

theorem specials_stepwise {env : Env} (hst : env.strict = true) {n k : Nat} {s s' : St} {bs : List Node}
    (h : loop (parseSpecial env n) k s = .ok (bs, s')) : ∀ b ∈ bs, stepwise 0 b := by
  refine loop_ind (fun _ bs _ => ∀ b ∈ bs, stepwise 0 b) (by simp) ?_ h
  intro s a s1 as s' h1 h2 b hb
  rcases List.mem_cons.mp hb with hb | hb
  · subst hb
    rcases parseSpecial_ok h1 with ⟨h3, _⟩ | ⟨l, t, sp, d, more, s2, b', hr, hb, _, hsec⟩
    · cases h3
    · injection hb with hb; subst hb
      obtain ⟨r1, r2, _⟩ := read_some hr
      obtain ⟨blocks, e, h6, h7⟩ := (section_post r2 hsec).tree
      subst e
      exact ⟨rfl, (h7 hst).2⟩
  · exact h2 b hb

theorem parts_stepwise {env : Env} (hst : env.strict = true) {n k : Nat} {s s' : St} {ps : List Part} (hd : s.delim = none) (hl : s.level = 0)
    (h : loop (parsePart env n) k s = .ok (ps, s')) : ∀ p ∈ ps, ∀ b ∈ p.intro ++ p.sections, stepwise 0 b := by
  refine loop_ind (fun s ps _ => s.delim = none → s.level = 0 → ∀ p ∈ ps, ∀ b ∈ p.intro ++ p.sections, stepwise 0 b) (by simp) ?_ h hd hl
  intro s a s1 as s' h1 h2 hd hl p hp
  rcases parsePart_ok h1 with ⟨h3, _⟩ | ⟨t, d, more, s2, s3, pre, secs, s4, errs, hr, hpu, hs, he, hres, hne⟩
  · cases h3
  · injection hres with hres
    obtain ⟨r1, r2, r3, r4, r5, r6⟩ := read_some hr
    obtain ⟨p1, p2, p3, p4⟩ := pushTocSt_todo hpu
    have hd3 : (restore s3 more).delim = none := p4.trans (r4.trans hd)
    have hl3 : (restore s3 more).level = 0 := p3.trans (r3.trans hl)
    have sp := sectioned_post hs
    obtain ⟨sm, q1, q2⟩ := sectioned_ok hs
    rcases List.mem_cons.mp hp with hp | hp
    · subst hp; subst hres
      intro b hb
      simp only at hb
      rcases List.mem_append.mp hb with hb | hb
      · have := blocks_stepwise hst q1
        rw [hl3] at this
        exact of_stepwiseAll this b hb
      · exact sections_stepwise hst ((blocks_le q1).level.trans hl3) q2 b hb
    · exact h2 (by rw [he]; exact sp.delim.trans hd3) (by rw [he]; exact sp.level.trans hl3) p hp

theorem book_stepwise {env : Env} (hst : env.strict = true) (n r : Nat) : ∀ (st st' : St) (doc : Doc), st.delim = none → st.level = 0 →
    parseBook env n r st = .ok (doc, st') → ∀ b ∈ topSections doc, stepwise 0 b := by
  induction r with
  | zero => intro st st' doc _ _ h; cases h
  | succ r ih =>
    intro st st' doc hd hl h
    unfold parseBook at h
    split at h
    · cases h
    · rename_i opening s1 h1
      obtain ⟨a1, a2, _⟩ := specials_post hd h1
      have hop := specials_stepwise hst h1
      have hd1 := a2.trans hd
      have hl1 := a1.trans hl
      split at h
      · injection h with h; injection h with h2 h3
        subst h2
        simpa [topSections] using hop
      · split at h
        · cases h
        · rename_i part parts s2 h2
          have hps := parts_stepwise hst hd1 hl1 h2
          split at h
          · cases h
          · rename_i closing s3 h3
            have hcl := specials_stepwise hst h3
            injection h with h; injection h with h4 h5
            subst h4
            intro b hb
            simp only [topSections, List.nil_append, List.mem_append, List.mem_flatten, List.mem_map] at hb
            rcases hb with (hb | ⟨_, ⟨p, hp, rfl⟩, hb⟩) | hb
            · exact hop b hb
            · exact hps p hp b hb
            · exact hcl b hb
        · rename_i s2 h2
          obtain ⟨b1, b2, _⟩ := parts_post hd1 hl1 h2
          split at h
          · rename_i p s3 hpk
            obtain ⟨l, t, sp, d, more, hp, hr⟩ := peek_some hpk
            obtain ⟨r1, r2, r3, r4, r5, r6⟩ := read_some hr
            split at h
            · cases h
            · rename_i pre secs s4 h4
              injection h with h; injection h with h5 h6
              subst h5
              obtain ⟨sm, q1, q2⟩ := sectioned_ok h4
              have hl3 : (restore s3 (p.item :: p.more)).level = 0 := r3.trans b1
              have q3 := blocks_stepwise hst q1
              rw [hl3] at q3
              intro b hb
              simp only [topSections, List.mem_append] at hb
              rcases hb with hb | hb | hb
              · exact of_stepwiseAll q3 b hb
              · exact hop b hb
              · exact sections_stepwise hst ((blocks_le q1).level.trans hl3) q2 b hb
          · rename_i s3 hpk
            obtain ⟨p1, p2, p3, p4, p5⟩ := peek_none hpk
            split at h
            · cases h
            · rename_i blocks s4 h4
              have hle := blocks_le h4
              have hd4 : s4.delim = none := hle.delim.trans (p3.trans b2)
              have hl4 : s4.level = 0 := hle.level.trans (p2.trans b1)
              have hbl := blocks_stepwise hst h4
              rw [p2.trans b1] at hbl
              have hbl := of_stepwiseAll hbl
              split at h
              · injection h with h; injection h with h5 h6
                subst h5
                exact hbl
              · split at h
                · cases h
                · rename_i pre secs s5 h5
                  have := ih _ _ _ hd4 hl4 h5
                  injection h with h; injection h with h6 h7
                  subst h6
                  intro b hb
                  simp only [topSections, List.mem_append] at hb this
                  rcases hb with (hb | hb) | hb
                  · exact hbl b hb
                  · exact this b (.inl hb)
                  · exact this b (.inr hb)
                · cases h
                · rename_i pre op ps cl s5 h5
                  have := ih _ _ _ hd4 hl4 h5
                  injection h with h; injection h with h6 h7
                  subst h6
                  intro b hb
                  simp only [topSections, List.append_assoc, List.mem_append] at hb this
                  rcases hb with hb | hb
                  · exact hbl b hb
                  · exact this b hb

/-- A book that starts with a heading, has no special sections, and either
starts with a part or has no parts: everything is parsed. -/
theorem book_complete {env : Env} {n r : Nat} {st st' : St} {doc : Doc} (hd : st.delim = none) (hl : st.level = 0)
    {l t : Nat} {sp : Option SpecialSection} {d : Bool} {rest : List Item}
    (ht : todo st = .heading l t sp d :: rest) (hs : Safe env (todo st)) (hsp : NoSpecial (todo st))
    (hcase : l = 0 ∨ ∀ t' sp' d', Item.heading 0 t' sp' d' ∉ todo st)
    (h : parseBook env n r st = .ok (doc, st')) : todo st' = [] := by
  cases r with
  | zero => cases h
  | succ r =>
    unfold parseBook at h
    split at h
    · cases h
    · rename_i opening s1 h1
      obtain ⟨a1, a2, a3, a4, a5, a6, a7, a8, a9⟩ := specials_post hd h1
      have ho := (specials_none hsp).1 _ _ h1
      subst ho
      obtain ⟨e1, e2⟩ := a7 rfl
      have hd1 := a2.trans hd
      have hl1 := a1.trans hl
      rw [if_neg (by simp)] at h
      have hs1 : Safe env (todo s1) := by rw [e1]; exact hs
      split at h
      · cases h
      · rename_i part parts s2 h2
        obtain ⟨b1, b2, b3, b4, b5, b6, b7, b8⟩ := parts_post hd1 hl1 h2
        have e3 := b4 hs1
        have hsp2 : NoSpecial (todo s2) := fun l t sp d hm =>
          hsp l t sp d (by rw [← e1, ← e3]; exact List.mem_append_right _ hm)
        have hend : todo s2 = [] := by
          rcases b6 (by simp) with ⟨h6, _⟩ | ⟨t', sp', d', more', h6⟩
          · exact h6
          · exfalso
            have : sp' = none := hsp2 0 t' sp' d' (by simp [todo, h6])
            subst this
            rcases b5 with ⟨h7, _⟩ | ⟨i, more, h7, h8⟩
            · simp [todo, h6] at h7
            · rw [h6] at h7
              injection h7 with h7
              exact h8 _ _ h7.symm
        split at h
        · cases h
        · rename_i closing s3 h3
          have hc := (specials_none hsp2).1 _ _ h3
          subst hc
          obtain ⟨_, _, _, _, _, _, c7, _⟩ := specials_post b2 h3
          injection h with h; injection h with h4 h5
          subst h5
          rw [(c7 rfl).1, hend]
      · rename_i s2 h2
        obtain ⟨b1, b2, b3, b4, b5, b6, b7, b8⟩ := parts_post hd1 hl1 h2
        obtain ⟨b7, b9⟩ := b7 rfl
        split at h
        · rename_i p s3 hpk
          obtain ⟨l', t', sp', d', more, hp, hr⟩ := peek_some hpk
          obtain ⟨r1, r2, r3, r4, r5, r6⟩ := read_some hr
          have e4 : todo s2 = .heading l t sp d :: rest := by rw [b7, e1, ht]
          have hl0 : ∀ t' sp' d', Item.heading 0 t' sp' d' ∉ todo st := by
            rcases hcase with h0 | h0
            · exfalso
              subst h0
              have : sp = none := hsp 0 t sp d (by rw [ht]; simp)
              subst this
              rcases b5 with ⟨h7, _⟩ | ⟨i, more, h7, h8⟩
              · rw [e4] at h7; cases h7
              · simp only [todo, h7, List.cons_append] at e4
                injection e4 with e4
                exact h8 _ _ e4
            · exact h0
          split at h
          · cases h
          · rename_i pre secs s4 h4
            injection h with h; injection h with h5 h6
            subst h6
            have e5 : todo (restore s3 (p.item :: p.more)) = todo st := by
              rw [todo_restore _ r2, hp, ← e1, ← b7, r1]
            have post := sectioned_post h4
            rcases post.stop (r4.trans b2) (r3.trans b1) with ⟨h7, _⟩ | ⟨_, t'', sp'', d'', more'', h7⟩
            · exact h7
            · exfalso
              have := post.items (by rw [e5]; exact hs)
              rw [e5] at this
              exact hl0 t'' sp'' d'' (by rw [← this]; simp [todo, h7])
        · rename_i s3 hpk
          exfalso
          obtain ⟨p1, p2, p3, p4, p5⟩ := peek_none hpk
          have e4 : todo s3 = .heading l t sp d :: rest := by rw [p1, b7, e1, ht]
          rcases p5 with ⟨h7, _⟩ | ⟨i, more, h7, h8⟩
          · rw [h7] at e4; cases e4
          · simp only [todo, h7, List.cons_append] at e4
            injection e4 with e4
            exact h8 _ _ _ _ e4

end Verif.Sections
