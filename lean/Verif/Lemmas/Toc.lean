import Verif.Lemmas.Book
/-! The table of contents built while parsing. -/
namespace Verif.Sections
open Verif.Spec.Sections

theorem entries_append (a b : List Toc) : entries (a ++ b) = entries a ++ entries b := by
  induction a with
  | nil => rfl
  | cons x a ih => simp [entries, ih]

theorem listedAll_append (d l : Nat) (a b : List Node) : listedAll d l (a ++ b) = listedAll d l a ++ listedAll d l b := by
  induction a with
  | nil => rfl
  | cons x a ih => simp [listedAll, ih]

theorem tocOfAll_append (d : Nat) (a b : List Node) : tocOfAll d (a ++ b) = tocOfAll d a ++ tocOfAll d b := by
  induction a with
  | nil => rfl
  | cons x a ih => simp [tocOfAll, ih]

theorem getLast_split {α} {l : List α} {x : α} (h : l.getLast? = some x) : l = l.dropLast ++ [x] := by
  rcases List.eq_nil_or_concat l with h1 | ⟨a, b, h1⟩
  · subst h1; simp at h
  · subst h1
    simp at h
    subst h
    simp

theorem pushAt_entries (d : Nat) : ∀ (nodes nodes' : List Toc) (n : Toc), pushAt d nodes n = some nodes' →
    entries nodes' = entries nodes ++ entry n := by
  induction d with
  | zero =>
    intro nodes nodes' n h
    injection h with h; subst h
    simp [entries_append, entries]
  | succ d ih =>
    intro nodes nodes' n h
    unfold pushAt at h
    split at h
    · cases h
    · rename_i l t ch hl
      split at h
      · cases h
      · rename_i ch' hc
        injection h with h; subst h
        rw [entries_append]
        conv => rhs; rw [getLast_split hl]
        rw [entries_append]
        simp [entries, entry, ih _ _ _ hc]

theorem pushToc_entries {d : Nat} {nodes nodes' : List Toc} {a s t : Nat} (h : pushToc d nodes a s t = some nodes') :
    entries nodes' = entries nodes ++ (if a ≤ d then [(a, t)] else []) := by
  unfold pushToc at h
  split at h
  · rename_i hc
    injection h with h; subst h
    rw [if_neg (by omega)]; simp
  · rename_i hc
    rw [if_pos (by omega)]
    split at h
    · injection h with h; subst h
      simp [entries_append, entries, entry]
    · split at h
      · injection h with h; subst h
        simp [entries_append, entries, entry]
      · have := pushAt_entries _ _ _ _ h
        simpa [entry, entries] using this

/-- The table of contents of `st'` lists what that of `st` lists, then `es`;
where there was none, there is none. -/
def Lists (st : St) (es : List (Nat × Nat)) (st' : St) : Prop :=
  (∀ nodes, st.toc = some nodes → ∃ nodes', st'.toc = some nodes' ∧ entries nodes' = entries nodes ++ es) ∧
  (st.toc = none → st'.toc = none)

theorem Lists.nil {st st' : St} (h : st'.toc = st.toc) : Lists st [] st' :=
  ⟨fun nodes hn => ⟨nodes, h.trans hn, by simp⟩, fun hn => h.trans hn⟩

theorem Lists.trans {a b c : St} {x y : List (Nat × Nat)} (h1 : Lists a x b) (h2 : Lists b y c) : Lists a (x ++ y) c := by
  refine ⟨fun nodes hn => ?_, fun hn => h2.2 (h1.2 hn)⟩
  obtain ⟨n1, e1, e2⟩ := h1.1 nodes hn
  obtain ⟨n2, e3, e4⟩ := h2.1 n1 e1
  exact ⟨n2, e3, by rw [e4, e2, List.append_assoc]⟩

theorem Lists.congr {a b c d : St} {x : List (Nat × Nat)} (h : Lists a x b) (h1 : a.toc = c.toc) (h2 : b.toc = d.toc) : Lists c x d := by
  unfold Lists
  rw [← h1, ← h2]
  exact h

theorem pushTocSt_lists {env : Env} {st st' : St} {a s t : Nat} (h : pushTocSt env st a s t = .ok st') :
    Lists st (if a ≤ env.toclevels then [(a, t)] else []) st' := by
  rcases pushTocSt_ok h with ⟨h1, h2⟩ | ⟨ns, ns', h1, h2, h3⟩
  · refine ⟨fun nodes hn => ?_, fun _ => by rw [h2]; exact h1⟩
    rw [hn] at h1; cases h1
  · refine ⟨fun nodes hn => ?_, fun hn => ?_⟩
    · rw [hn] at h1; injection h1 with h1; subst h1
      exact ⟨ns', by rw [h3], pushToc_entries h2⟩
    · rw [hn] at h1; cases h1

theorem peekedSection_lists {env : Env} {inner : St → Res (List Node × St)} {l s t : Nat} {sp : Option SpecialSection} {d : Bool} {more : List Item} {st st' : St} {b : Node}
    (hin : ∀ {s s' : St} {bs : List Node}, inner s = .ok (bs, s') → Lists s (listedAll env.toclevels s.level bs) s')
    (h : peekedSection env inner ⟨l, s, t, sp, .heading l t sp d, more⟩ st = .ok (b, st')) :
    Lists st (listed env.toclevels st.level b) st' := by
  obtain ⟨errs, toc, blocks, s2, errs', hb, hi, h7, _, h9, h10, _⟩ := peekedSection_ok h
  have hi := hin hi
  subst hb; subst h7
  simp only [listed]
  refine Lists.trans ?_ (hi.congr (c := { st with level := s, errs := errs, toc := toc }) rfl rfl)
  by_cases hs : s ≤ st.level + 1
  · have := pushTocSt_lists (h9 hs)
    have e : (if s ≤ st.level + 1 ∧ l ≤ env.toclevels then [(l, t)] else []) = (if l ≤ env.toclevels then [(l, t)] else []) := by
      simp [hs]
    refine Eq.mpr (congrArg (fun x => Lists st x _) e) ?_
    exact this.congr rfl rfl
  · rw [if_neg (by omega)]
    exact Lists.nil (h10 (by simp only; omega))

theorem block_lists (env : Env) (n : Nat) : ∀ (st st' : St) (r : Option Node), parseBlock env n st = .ok (r, st') →
    Lists st (listedAll env.toclevels st.level r.toList) st' := by
  induction n with
  | zero => intro st st' r h; cases h
  | succ n ih =>
    intro st st' r h
    have inner : ∀ {s s' : St} {bs : List Node}, loop (parseBlock env n) n s = .ok (bs, s') →
        Lists s (listedAll env.toclevels s.level bs) s' := by
      intro s s' bs h
      refine loop_ind (fun s bs s' => Lists s (listedAll env.toclevels s.level bs) s') ?_ ?_ h
      · exact fun s s' h => ih _ _ _ h
      · intro s a s1 as s' h1 h2
        rw [(block_le _ _ _ _ _ h1).1.level] at h2
        have := ih _ _ _ h1
        simp only [Option.toList, listedAll, List.append_nil] at this
        exact this.trans h2
    rcases parseBlock_ok h with ⟨h1, h2, h3⟩ | ⟨i, more, s1, hr, hcase⟩
    · subst h2; subst h3; exact Lists.nil rfl
    · obtain ⟨r1, r2, r3, r4, r5, r6⟩ := read_some hr
      rcases hcase with ⟨h1, h2, _⟩ | ⟨h1, h2, _⟩ | ⟨k, b, h1, h2, h3, h4⟩ | ⟨l, t, sp, b, h1, h2, h3, h4, h5⟩
      · subst h1; subst h2; exact Lists.nil r5
      · subst h1; subst h2; exact Lists.nil r5
      · subst h3
        obtain ⟨blocks, s2, hin, hc⟩ := delimited_ok h4
        have hi := inner hin
        rw [show (({ restore s1 more with delim := some k } : St).level) = st.level from r3] at hi
        have hi : Lists st (listedAll env.toclevels st.level blocks) s2 := hi.congr r5 rfl
        rcases hc with ⟨more', s3, hr2, h5, h6⟩ | ⟨_, h5, _, _, h6, _⟩
        · obtain ⟨q1, q2, q3, q4, q5, q6⟩ := read_some hr2
          subst h5
          simp only [Option.toList, listedAll, listed, List.append_nil]
          exact hi.congr rfl (by rw [h6]; exact q5.symm)
        · subst h5
          simp only [Option.toList, listedAll, listed, List.append_nil]
          exact hi.congr rfl h6.symm
      · subst h4; subst h1
        have := peekedSection_lists inner h5
        rw [r3] at this
        simp only [Option.toList, listedAll, List.append_nil]
        exact this.congr r5 rfl

theorem blocks_lists {env : Env} {n m : Nat} {s s' : St} {bs : List Node}
    (h : loop (parseBlock env n) m s = .ok (bs, s')) : Lists s (listedAll env.toclevels s.level bs) s' := by
  refine loop_ind (fun s bs s' => Lists s (listedAll env.toclevels s.level bs) s') ?_ ?_ h
  · exact fun s s' h => block_lists _ _ _ _ _ h
  · intro s a s1 as s' h1 h2
    rw [(block_le _ _ _ _ _ h1).1.level] at h2
    have := block_lists _ _ _ _ _ h1
    simp only [Option.toList, listedAll, List.append_nil] at this
    exact this.trans h2

theorem sections_lists {env : Env} {n m k : Nat} {s s' : St} {bs : List Node}
    (h : loop (parseSection env (loop (parseBlock env n) m)) k s = .ok (bs, s')) :
    Lists s (listedAll env.toclevels s.level bs) s' := by
  refine loop_ind (fun s bs s' => Lists s (listedAll env.toclevels s.level bs) s') ?_ ?_ h
  · intro s s' h
    rcases parseSection_ok h with ⟨_, _, _, _, h1, _⟩ | ⟨_, _, _, _, _, _, _, _, _, h1, _⟩
    · exact Lists.nil h1
    · cases h1
  · intro s a s1 as s' h1 h2
    have hst := parseSection_step h1
    rw [hst.level] at h2
    rcases parseSection_ok h1 with ⟨h3, _⟩ | ⟨l, t, sp, d, more, s2, errs, b', hr, hb, _, _, hsec⟩
    · cases h3
    · injection hb with hb; subst hb
      obtain ⟨r1, r2, r3, r4, r5, r6⟩ := read_some hr
      have := peekedSection_lists blocks_lists hsec
      simp only [r3] at this
      exact Lists.trans (this.congr r5 rfl) h2

theorem specials_lists {env : Env} {n k : Nat} {s s' : St} {bs : List Node}
    (h : loop (parseSpecial env n) k s = .ok (bs, s')) :
    Lists s (listedAll env.toclevels s.level bs) s' := by
  refine loop_ind (fun s bs s' => Lists s (listedAll env.toclevels s.level bs) s') ?_ ?_ h
  · intro s s' h
    rcases parseSpecial_ok h with ⟨_, _, _, _, h1, _⟩ | ⟨_, _, _, _, _, _, _, _, h1, _⟩
    · exact Lists.nil h1
    · cases h1
  · intro s a s1 as s' h1 h2
    rcases parseSpecial_ok h1 with ⟨h3, _⟩ | ⟨l, t, sp, d, more, s2, b, hr, hb, _, hsec⟩
    · cases h3
    · injection hb with hb; subst hb
      obtain ⟨r1, r2, r3, r4, r5, r6⟩ := read_some hr
      have hlv := (section_post r2 hsec).level
      rw [hlv.trans r3] at h2
      have := peekedSection_lists blocks_lists hsec
      rw [r3] at this
      exact Lists.trans (this.congr r5 rfl) h2

theorem sectioned_lists {env : Env} {n : Nat} {s s' : St} {pre secs : List Node}
    (h : parseSectioned env n s = .ok ((pre, secs), s')) :
    Lists s (listedAll env.toclevels s.level pre ++ listedAll env.toclevels s.level secs) s' := by
  obtain ⟨s1, h1, h2⟩ := sectioned_ok h
  have := sections_lists h2
  rw [(blocks_le h1).level] at this
  exact (blocks_lists h1).trans this

theorem parts_lists {env : Env} {n k : Nat} {s s' : St} {ps : List Part} (hd : s.delim = none) (hl : s.level = 0)
    (h : loop (parsePart env n) k s = .ok (ps, s')) :
    Lists s (ps.map fun p => partEntry p ++ listedAll env.toclevels 0 p.intro ++ listedAll env.toclevels 0 p.sections).flatten s' := by
  refine loop_ind (fun s ps s' => s.delim = none → s.level = 0 → Lists s
    (ps.map fun p => partEntry p ++ listedAll env.toclevels 0 p.intro ++ listedAll env.toclevels 0 p.sections).flatten s') ?_ ?_ h hd hl
  · intro s s' h _ _
    rcases parsePart_ok h with ⟨_, _, _, _, h4, _⟩ | ⟨_, _, _, _, _, _, _, _, _, _, _, _, _, h1, _⟩
    · exact Lists.nil h4
    · cases h1
  · intro s a s1 as s' h1 h2 hd hl
    rcases parsePart_ok h1 with ⟨h3, _⟩ | ⟨t, d, more, s2, s3, pre, secs, s4, errs, hr, hp, hs, he, hres, hne⟩
    · cases h3
    · injection hres with hres; subst hres
      obtain ⟨r1, r2, r3, r4, r5, r6⟩ := read_some hr
      obtain ⟨p1, p2, p3, p4⟩ := pushTocSt_todo hp
      have hd3 : (restore s3 more).delim = none := p4.trans (r4.trans hd)
      have hl3 : (restore s3 more).level = 0 := p3.trans (r3.trans hl)
      have sp := sectioned_post hs
      have h2 := h2 (by rw [he]; exact sp.delim.trans hd3) (by rw [he]; exact sp.level.trans hl3)
      have hsec := sectioned_lists hs
      rw [hl3] at hsec
      simp only [List.map_cons, List.flatten_cons]
      refine Lists.trans ?_ h2
      have hp := pushTocSt_lists hp
      rw [if_pos (Nat.zero_le _)] at hp
      have := Lists.trans hp (hsec.congr (c := s3) rfl (d := s1) (by rw [he]))
      have := this.congr r5 (rfl : s1.toc = s1.toc)
      simpa [partEntry] using this

theorem book_lists (env : Env) (n r : Nat) : ∀ (st st' : St) (doc : Doc), st.delim = none → st.level = 0 →
    parseBook env n r st = .ok (doc, st') → Lists st (docListed env.toclevels doc) st' := by
  induction r with
  | zero => intro st st' doc _ _ h; cases h
  | succ r ih =>
    intro st st' doc hd hl h
    unfold parseBook at h
    split at h
    · cases h
    · rename_i opening s1 h1
      obtain ⟨a1, a2, a3, a4, a5, a6, a7, a8, a9⟩ := specials_post hd h1
      have L1 := specials_lists h1
      rw [hl] at L1
      have hd1 := a2.trans hd
      have hl1 := a1.trans hl
      split at h
      · injection h with h; injection h with h2 h3
        subst h2; subst h3
        simpa [docListed, listedAll] using L1
      · rename_i hc
        split at h
        · cases h
        · rename_i part parts s2 h2
          obtain ⟨b1, b2, b3, b4, b5, b6, b7, b8⟩ := parts_post hd1 hl1 h2
          have L2 := parts_lists hd1 hl1 h2
          split at h
          · cases h
          · rename_i closing s3 h3
            have L3 := specials_lists h3
            rw [b1] at L3
            injection h with h; injection h with h4 h5
            subst h4; subst h5
            simpa [docListed, listedAll] using L1.trans (L2.trans L3)
        · rename_i s2 h2
          obtain ⟨b1, b2, b3, b4, b5, b6, b7, b8⟩ := parts_post hd1 hl1 h2
          obtain ⟨b7, b9⟩ := b7 rfl
          split at h
          · rename_i p s3 hpk
            obtain ⟨l, t, sp0, d, more, hp, hr⟩ := peek_some hpk
            obtain ⟨r1, r2, r3, r4, r5, r6⟩ := read_some hr
            subst hp
            split at h
            · cases h
            · rename_i pre secs s4 h4
              injection h with h; injection h with h5 h6
              subst h5; subst h6
              obtain ⟨sm, hb1, hb2⟩ := sectioned_ok h4
              have hd3 : (restore s3 (.heading l t sp0 d :: more)).delim = none := r4.trans b2
              have hl3 : (restore s3 (.heading l t sp0 d :: more)).level = 0 := r3.trans b1
              have e1 : todo (restore s3 (.heading l t sp0 d :: more)) = todo s1 := by
                rw [todo_restore _ r2, ← b7, r1]
              have hpre : opening ≠ [] → pre = [] := by
                intro ho
                rcases a5 ho with ⟨h7, _⟩ | ⟨l', t', sp', more', h7, h8⟩
                · rw [← e1, todo_restore _ r2] at h7; cases h7
                · exact blocks_at_heading (l := l') (t := t') (sp := sp') hd3 (rest := more' ++ sourceItems s1.rest)
                    (by rw [e1]; simp [todo, h7]) h8 hb1
              have L2 := sectioned_lists h4
              rw [hl3] at L2
              have L2 := L1.trans (L2.congr (c := s1) (r5.trans b9) rfl)
              by_cases ho : opening = []
              · simpa [docListed, ho, listedAll] using L2
              · simpa [docListed, hpre ho, listedAll, listedAll_append] using L2
          · rename_i s3 hpk
            obtain ⟨p1, p2, p3, p4, p5⟩ := peek_none hpk
            have ho : opening = [] := by
              apply Classical.byContradiction
              intro ho
              rcases a5 ho with ⟨h7, h8⟩ | ⟨l', t', sp', more', h7, h8⟩
              · apply hc
                simp [h8]
                cases opening <;> simp_all
              · have e : todo s3 = .heading l' t' sp' false :: (more' ++ sourceItems s1.rest) := by
                  rw [p1, b7]; simp [todo, h7]
                rcases p5 with ⟨h9, _⟩ | ⟨i, more, h9, h10⟩
                · rw [h9] at e; cases e
                · simp only [todo, h9, List.cons_append] at e
                  injection e with e
                  exact h10 _ _ _ _ e
            split at h
            · cases h
            · rename_i blocks s4 h4
              have hle := blocks_le h4
              have hd4 : s4.delim = none := hle.delim.trans (p3.trans b2)
              have hl4 : s4.level = 0 := hle.level.trans (p2.trans b1)
              have L4 := blocks_lists h4
              rw [p2.trans b1] at L4
              have L4 : Lists st (listedAll env.toclevels 0 blocks) s4 :=
                L4.congr (p4.trans (b9.trans (a7 ho).2)) rfl
              split at h
              · injection h with h; injection h with h5 h6
                subst h5; subst h6
                exact L4
              · split at h
                · cases h
                · rename_i pre secs s5 h5
                  have L5 := ih _ _ _ hd4 hl4 h5
                  injection h with h; injection h with h6 h7
                  subst h6; subst h7
                  simpa [docListed, listedAll_append] using L4.trans L5
                · cases h
                · rename_i pre op ps cl s5 h5
                  have L5 := ih _ _ _ hd4 hl4 h5
                  injection h with h; injection h with h6 h7
                  subst h6; subst h7
                  simpa [docListed, listedAll_append] using L4.trans L5

end Verif.Sections
