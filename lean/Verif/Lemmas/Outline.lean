import Verif.Model.Outline
import Verif.Spec.Outline
import Verif.Lemmas.ListItems
import Verif.Lemmas.Book
import Verif.Lemmas.LineKinds
/-! Lemmas: from the lines of a text to the items, and the levels of the sections. -/
namespace Verif.Outline
open Verif Verif.Lexer Verif.Directives Verif.LineKinds Verif.Sections Verif.Spec.Sections

variable {plugins : List (List UInt8)}

/-! ### sections keep the level of their heading -/

mutual
/-- sections have the level of their heading; leaves are no headings, or discrete -/
def Tidy : Node → Prop
  | .leaf i => ∀ l t sp, i ≠ .heading l t sp false
  | .sect i l inner => (∃ t sp d, i = .heading l t sp d) ∧ TidyAll inner
  | .compound _ _ _ => True
def TidyAll : List Node → Prop
  | [] => True
  | b :: bs => Tidy b ∧ TidyAll bs
end

theorem tidyAll_append (a b : List Node) : TidyAll (a ++ b) ↔ TidyAll a ∧ TidyAll b := by
  induction a with
  | nil => simp [TidyAll]
  | cons x a ih => simp [TidyAll, ih, and_assoc]

theorem block_tidy (env : Env) (n : Nat) : ∀ (st st' : St) (r : Option Node), st.delim = none → parseBlock env n st = .ok (r, st') →
    TidyAll r.toList := by
  induction n with
  | zero => intro st st' r _ h; cases h
  | succ n ih =>
    intro st st' r hd h
    have inner : ∀ {s s' : St} {bs : List Node}, s.delim = none → loop (parseBlock env n) n s = .ok (bs, s') → TidyAll bs := by
      intro s s' bs hs h
      refine loop_ind (fun s bs _ => s.delim = none → TidyAll bs) ?_ ?_ h hs
      · exact fun s s' h _ => trivial
      · intro s a s1 as s' h1 h2 hs
        exact ⟨(ih _ _ _ hs h1).1, h2 ((block_le _ _ _ _ _ h1).1.delim.trans hs)⟩
    rcases parseBlock_ok h with ⟨h1, h2, h3⟩ | ⟨i, more, s1, hr, hcase⟩
    · subst h2; trivial
    · obtain ⟨r1, r2, r3, r4, r5, r6⟩ := read_some hr
      rcases hcase with ⟨h1, h2, h3⟩ | ⟨h1, h2, _⟩ | ⟨k, b, h1, h2, h3, h4⟩ | ⟨l, t, sp, b, h1, h2, h3, h4, h5⟩
      · subst h1
        refine ⟨?_, trivial⟩
        rintro l t sp rfl
        rcases h3 with h3 | ⟨_, h3⟩
        · cases h3
        · exact h3 hd
      · subst h1; trivial
      · subst h3
        obtain ⟨blocks, s2, hin, hc⟩ := delimited_ok h4
        rcases hc with ⟨_, _, _, h5, _⟩ | ⟨_, h5, _⟩ <;> (subst h5; exact ⟨trivial, trivial⟩)
      · obtain ⟨errs, toc, blocks, s2, errs', hb, hin, h7, _⟩ := peekedSection_ok h5
        have hi := inner (by show s1.delim = none; rw [r4]; exact hd) hin
        subst hb; subst h4
        exact ⟨⟨⟨t, sp, _, h1⟩, hi⟩, trivial⟩

theorem blocks_tidy {env : Env} {n m : Nat} {s s' : St} {bs : List Node} (hd : s.delim = none)
    (h : loop (parseBlock env n) m s = .ok (bs, s')) : TidyAll bs := by
  refine loop_ind (fun s bs _ => s.delim = none → TidyAll bs) ?_ ?_ h hd
  · exact fun s s' h _ => trivial
  · intro s a s1 as s' h1 h2 hs
    exact ⟨(block_tidy _ _ _ _ _ hs h1).1, h2 ((block_le _ _ _ _ _ h1).1.delim.trans hs)⟩

theorem sections_tidy {env : Env} {n m k : Nat} {s s' : St} {bs : List Node} (hd : s.delim = none)
    (h : loop (parseSection env (loop (parseBlock env n) m)) k s = .ok (bs, s')) : TidyAll bs := by
  refine loop_ind (fun s bs _ => s.delim = none → TidyAll bs) ?_ ?_ h hd
  · exact fun s s' h _ => trivial
  · intro s a s1 as s' h1 h2 hs
    refine ⟨?_, h2 ((parseSection_step h1).delim.trans hs)⟩
    rcases parseSection_ok h1 with ⟨h3, _⟩ | ⟨l, t, sp, d, more, s2, errs, b', hr, hb, _, _, hsec⟩
    · cases h3
    · injection hb with hb; subst hb
      obtain ⟨r1, r2, r3, r4, r5, r6⟩ := read_some hr
      obtain ⟨errs, toc, blocks, s3, errs', hb, hin, _⟩ := peekedSection_ok hsec
      subst hb
      exact ⟨⟨t, sp, d, rfl⟩, blocks_tidy (by show s2.delim = none; rw [r4]; exact hs) hin⟩

/-- the level an item starts a section with -/
def secLevel : Item → Option Nat
  | .heading l _ _ _ => some l
  | _ => none

theorem levels_eq : ∀ k : Nat, (∀ b : Node, sizeOf b ≤ k → Tidy b → (∀ i ∈ items b, (∀ k, i ≠ .delim k) ∧ ∀ l t sp, i ≠ .heading l t sp true) → levels b = (items b).filterMap secLevel) := by
  intro k
  induction k with
  | zero =>
    intro b hb
    cases b <;> simp at hb <;> omega
  | succ k ih =>
    have ihs : ∀ bs : List Node, sizeOf bs ≤ k → TidyAll bs → (∀ i ∈ itemsAll bs, (∀ k, i ≠ .delim k) ∧ ∀ l t sp, i ≠ .heading l t sp true) →
        levelsAll bs = (itemsAll bs).filterMap secLevel := by
      intro bs
      induction bs with
      | nil => intros; rfl
      | cons b bs ih2 =>
        intro hk ht hi
        simp only [List.cons.sizeOf_spec] at hk
        simp only [itemsAll, List.mem_append] at hi
        simp only [levelsAll, itemsAll, List.filterMap_append]
        rw [ih b (by omega) ht.1 fun i h => hi i (.inl h), ih2 (by omega) ht.2 fun i h => hi i (.inr h)]
    intro b hb ht hi
    cases b with
    | leaf i =>
      cases i with
      | heading l t sp d =>
        cases d with
        | false => exact absurd rfl (ht l t sp)
        | true => exact absurd rfl ((hi _ (by simp [items])).2 l t sp)
      | para n => rfl
      | delim k => rfl
    | sect i l inner =>
      obtain ⟨⟨t, sp, d, rfl⟩, ht⟩ := ht
      simp only [Node.sect.sizeOf_spec] at hb
      simp only [items, List.mem_cons] at hi
      simp only [levels, items, List.filterMap_cons, secLevel]
      rw [ihs inner (by omega) ht fun i h => hi i (.inr h)]
    | compound k closed inner => exact absurd rfl ((hi (.delim k) (by simp [items])).1 k)

theorem levelsAll_eq : ∀ (bs : List Node), TidyAll bs → (∀ i ∈ itemsAll bs, (∀ k, i ≠ .delim k) ∧ ∀ l t sp, i ≠ .heading l t sp true) →
    levelsAll bs = (itemsAll bs).filterMap secLevel
  | [], _, _ => rfl
  | b :: bs, ht, hi => by
    simp only [itemsAll, List.mem_append] at hi
    simp only [levelsAll, itemsAll, List.filterMap_append]
    rw [levels_eq _ b (Nat.le_refl _) ht.1 fun i h => hi i (.inl h), levelsAll_eq bs ht.2 fun i h => hi i (.inr h)]

theorem levelsAll_append (a b : List Node) : levelsAll (a ++ b) = levelsAll a ++ levelsAll b := by
  induction a with
  | nil => rfl
  | cons x a ih => simp [levelsAll, ih]

theorem article {env : Env} {chunks : List (Item × List Item)} {trailing toc : Bool} {doc : Sections.Doc} {st : St}
    (hb : env.book = false) (h : parseDoc env chunks trailing toc = .ok (doc, st)) :
    ∃ pre secs, parseSectioned env (size chunks + 2) { rest := chunks, trailing, toc := if toc then some [] else none } = .ok ((pre, secs), st) ∧
      doc = if secs.isEmpty then .blocks pre else .sections pre secs := by
  unfold parseDoc at h
  simp only [hb] at h
  simp only [Bool.false_eq_true, if_false] at h
  split at h
  · cases h
  · rename_i pre secs s hs
    injection h with h; injection h with h1 h2
    subst h2
    exact ⟨pre, secs, hs, h1.symm⟩

theorem doc_tidy {env : Env} {chunks : List (Item × List Item)} {trailing toc : Bool} {doc : Sections.Doc} {st : St}
    (hb : env.book = false) (h : parseDoc env chunks trailing toc = .ok (doc, st)) :
    (∀ p o ps c, doc ≠ .parts p o ps c) ∧ TidyAll (topSections doc) ∧ docItems doc = itemsAll (topSections doc) := by
  obtain ⟨pre, secs, hs, hdoc⟩ := article hb h
  obtain ⟨s1, h1, h2⟩ := sectioned_ok hs
  have t1 := blocks_tidy rfl h1
  have t2 := sections_tidy ((blocks_le h1).delim.trans rfl) h2
  subst hdoc
  split
  · exact ⟨by intros; simp, t1, rfl⟩
  · refine ⟨by intros; simp, (tidyAll_append _ _).2 ⟨t1, t2⟩, ?_⟩
    have : ∀ a b : List Node, itemsAll (a ++ b) = itemsAll a ++ itemsAll b := by
      intro a b
      induction a with
      | nil => rfl
      | cons x a ih => simp [itemsAll, ih]
    simp [docItems, topSections, this]

/-! ### outside strict mode nothing is refused -/

theorem report_lenient {env : Env} (h : env.strict = false) (st : St) (e : Sections.Err) : ∃ st', report env st e = .ok st' := by
  unfold report; simp [h]

theorem reportAll_lenient {env : Env} (h : env.strict = false) : ∀ (es : List Sections.Err) (st : St), ∃ st', reportAll env st es = .ok st'
  | [], st => ⟨st, rfl⟩
  | e :: es, st => by
    obtain ⟨s1, h1⟩ := report_lenient h st e
    rw [reportAll, h1]
    exact reportAll_lenient h es s1

theorem loop_lenient {α : Type} {step : St → Res (Option α × St)} (h : ∀ s e, step s ≠ .error (.diag e)) : ∀ (n : Nat) (s : St) (e : Sections.Err), loop step n s ≠ .error (.diag e)
  | 0, s, e => by rw [loop]; simp
  | n + 1, s, e => by
    rw [loop]
    split
    · rename_i f hf
      intro hc
      cases hc
      exact h _ _ hf
    · simp
    · rename_i a s1 _
      have := loop_lenient h n s1 e
      split
      · rename_i f hf
        intro hc
        cases hc
        exact this hf
      · simp

theorem pushToc_lenient (env : Env) (st : St) (a s t : Nat) (e : Sections.Err) : pushTocSt env st a s t ≠ .error (.diag e) := by
  unfold pushTocSt
  split
  · simp
  · split <;> simp

theorem section_lenient {env : Env} (hs : env.strict = false) {inner : St → Res (List Node × St)} (h : ∀ s e, inner s ≠ .error (.diag e)) (p : Peeked) (st : St) (e : Sections.Err) :
    peekedSection env inner p st ≠ .error (.diag e) := by
  unfold peekedSection
  simp only
  have r : ∀ {c : Prop} [Decidable c] {st : St} {e : Sections.Err} {f : Fail}, (if c then report env st e else .ok st) = .error f → False := by
    intro c _ st e f h
    split at h
    · obtain ⟨_, hx⟩ := report_lenient hs st e
      rw [hx] at h
      cases h
    · cases h
  have r' : ∀ {c : Prop} [Decidable c] {st : St} {es : List Sections.Err} {f : Fail}, (if c then reportAll env st es else .ok st) = .error f → False := by
    intro c _ st e f h
    split at h
    · obtain ⟨_, hx⟩ := reportAll_lenient hs e st
      rw [hx] at h
      cases h
    · cases h
  split
  · rename_i f hf
    exact (r hf).elim
  · split
    · rename_i f hf
      intro hc
      cases hc
      split at hf
      · cases hf
      · exact pushToc_lenient _ _ _ _ _ _ hf
    · split
      · rename_i f hf
        intro hc
        cases hc
        exact h _ _ hf
      · split
        · rename_i f hf
          exact (r' hf).elim
        · simp

theorem parseSection_lenient {env : Env} (hs : env.strict = false) {inner : St → Res (List Node × St)} (h : ∀ s e, inner s ≠ .error (.diag e)) (st : St) (e : Sections.Err) :
    parseSection env inner st ≠ .error (.diag e) := by
  unfold parseSection
  split
  · simp
  · split
    · simp
    · split
      · rename_i f hf
        split at hf
        · obtain ⟨_, hx⟩ := report_lenient hs _ _
          rw [hx] at hf
          cases hf
        · cases hf
      · split
        · rename_i f hf
          intro hc
          cases hc
          exact section_lenient hs h _ _ _ hf
        · simp

theorem delimited_lenient {env : Env} (hs : env.strict = false) {inner : St → Res (List Node × St)} (h : ∀ s e, inner s ≠ .error (.diag e)) (k : Nat) (st : St) (e : Sections.Err) :
    delimited env inner k st ≠ .error (.diag e) := by
  unfold delimited
  simp only
  split
  · rename_i f hf
    intro hc
    cases hc
    exact h _ _ hf
  · split
    · split
      · simp
      · obtain ⟨_, hx⟩ := report_lenient hs _ _
        rw [hx]
        simp
    · obtain ⟨_, hx⟩ := report_lenient hs _ _
      rw [hx]
      simp
    · obtain ⟨_, hx⟩ := report_lenient hs _ _
      rw [hx]
      simp

theorem block_lenient {env : Env} (hs : env.strict = false) : ∀ (n : Nat) (st : St) (e : Sections.Err), parseBlock env n st ≠ .error (.diag e)
  | 0, st, e => by rw [parseBlock]; simp
  | n + 1, st, e => by
    have ih := loop_lenient (block_lenient hs n) n
    rw [parseBlock]
    split
    · simp
    · simp
    · split
      · simp
      · split
        · rename_i f hf
          intro hc
          cases hc
          exact delimited_lenient hs ih _ _ _ hf
        · simp
    · split
      · simp
      · split
        · split <;> simp
        · split
          · simp
          · split
            · rename_i f hf
              intro hc
              cases hc
              exact parseSection_lenient hs ih _ _ hf
            · simp
            · simp

theorem doc_lenient {env : Env} (hs : env.strict = false) (hb : env.book = false) (chunks : List (Item × List Item)) (trailing toc : Bool) (e : Sections.Err) :
    parseDoc env chunks trailing toc ≠ .error (.diag e) := by
  unfold parseDoc
  simp only [hb, Bool.false_eq_true, if_false]
  split
  · rename_i f hf
    intro hc
    cases hc
    unfold parseSectioned at hf
    split at hf
    · rename_i f hf'
      cases hf
      exact loop_lenient (block_lenient hs _) _ _ _ hf'
    · split at hf
      · rename_i f hf'
        cases hf
        exact loop_lenient (parseSection_lenient hs (loop_lenient (block_lenient hs _) _)) _ _ _ hf'
      · cases hf
  · simp

/-! ### what sections are written as -/

theorem sectionTags_iff (l : Nat) : (l ≤ 6 → sectionTags l = some ("sect" ++ toString l, "h" ++ toString (l + 1))) ∧ (6 < l → sectionTags l = none) := by
  refine ⟨fun h => ?_, fun h => ?_⟩
  · match l, h with
    | 0, _ | 1, _ | 2, _ | 3, _ | 4, _ | 5, _ | 6, _ => rfl
  · match l, h with
    | l + 7, _ => rfl

/-- the tags of a list of levels -/
def tagsOf : List Nat → Option (List (String × String))
  | [] => some []
  | l :: ls => (sectionTags l).bind fun t => (tagsOf ls).map (t :: ·)

theorem tagsOf_append (a b : List Nat) : tagsOf (a ++ b) = (tagsOf a).bind fun x => (tagsOf b).map (x ++ ·) := by
  induction a with
  | nil => simp [tagsOf]
  | cons l a ih =>
    simp only [List.cons_append, tagsOf, ih]
    cases sectionTags l <;> cases tagsOf a <;> cases tagsOf b <;> simp

theorem tags_eq : ∀ k : Nat, ∀ b : Node, sizeOf b ≤ k → tags b = tagsOf (levels b) := by
  intro k
  induction k with
  | zero =>
    intro b hb
    cases b <;> simp at hb <;> omega
  | succ k ih =>
    have ihs : ∀ bs : List Node, sizeOf bs ≤ k → tagsAll bs = tagsOf (levelsAll bs) := by
      intro bs
      induction bs with
      | nil => intros; rfl
      | cons b bs ih2 =>
        intro hk
        simp only [List.cons.sizeOf_spec] at hk
        rw [tagsAll, levelsAll, tagsOf_append, ih b (by omega), ih2 (by omega)]
    intro b hb
    cases b with
    | leaf i => rfl
    | sect i l inner =>
      simp only [Node.sect.sizeOf_spec] at hb
      rw [tags, levels, tagsOf, ihs inner (by omega)]
    | compound k closed inner =>
      simp only [Node.compound.sizeOf_spec] at hb
      rw [tags, levels, ihs inner (by omega)]

theorem tagsAll_eq : ∀ bs : List Node, tagsAll bs = tagsOf (levelsAll bs)
  | [] => rfl
  | b :: bs => by rw [tagsAll, levelsAll, tagsOf_append, tags_eq _ b (Nat.le_refl _), tagsAll_eq bs]

theorem docTags_eq {d : Sections.Doc} (h : ∀ p o ps c, d ≠ .parts p o ps c) : docTags d = tagsOf (levelsAll (topSections d)) := by
  cases d with
  | blocks bs => exact tagsAll_eq bs
  | sections pre secs => exact tagsAll_eq _
  | parts p o ps c => exact absurd rfl (h p o ps c)

theorem tagsOf_some : ∀ {ls : List Nat}, (∀ l ∈ ls, l ≤ 6) → tagsOf ls = some (ls.map fun l => ("sect" ++ toString l, "h" ++ toString (l + 1)))
  | [], _ => rfl
  | l :: ls, h => by
    rw [tagsOf, (sectionTags_iff l).1 (h l (by simp)), tagsOf_some fun x hx => h x (by simp [hx])]
    rfl

theorem tagsOf_none : ∀ {ls : List Nat} {l : Nat}, l ∈ ls → 6 < l → tagsOf ls = none
  | x :: ls, l, h, hl => by
    rw [tagsOf]
    rcases List.mem_cons.1 h with rfl | h
    · rw [(sectionTags_iff _).2 hl]; rfl
    · rw [tagsOf_none h hl]; cases sectionTags x <;> rfl

/-! ### from lines to items -/

theorem numbered_append (k : Nat) (a b : List (Option Nat × List (List Char))) : numbered k (a ++ b) = numbered k a ++ numbered (k + a.length) b := by
  induction a generalizing k with
  | nil => rfl
  | cons x a ih =>
    obtain ⟨_ | l, t⟩ := x <;> simp [numbered, ih, Nat.add_assoc, Nat.add_comm 1]

theorem numbered_length (k : Nat) (a : List (Option Nat × List (List Char))) : (numbered k a).length = a.length := by
  induction a generalizing k with
  | nil => rfl
  | cons x a ih => obtain ⟨_ | l, t⟩ := x <;> simp [numbered, ih]

theorem text_not_heading {line : List Char} {toks : List Tok} (h : TextLine line) (hl : LineOf plugins toks (encode line)) : headingLevel toks = none := by
  cases hh : headingLevel toks with
  | none => rfl
  | some n =>
    obtain ⟨n', title, hh, _⟩ := (heading_iff (Verif.Lexer.LineOf.at hl) n).1 hh
    obtain ⟨mark, hm, sp, e, _⟩ := hh
    obtain ⟨c, hc, hh⟩ := h.first
    cases line with
    | nil => cases hh
    | cons c' l =>
      cases hh
      have hall : ∀ c ∈ letters, c ≠ '=' ∧ c ≠ '#' ∧ encode [c] = [ch c] ∧ ch c ≠ ch '=' ∧ ch c ≠ ch '#' := by decide
      obtain ⟨_, _, e1, e2, e3⟩ := hall _ hc
      rw [show c :: l = [c] ++ l from rfl, encode_append, e1, List.replicate_succ] at e
      simp only [List.cons_append, List.nil_append, List.cons.injEq] at e
      obtain ⟨e, _⟩ := e
      simp only [List.mem_cons, List.not_mem_nil, or_false] at hm
      rcases hm with rfl | rfl
      · exact absurd e e2
      · exact absurd e e3

theorem para_items {word : Char → Bool} : ∀ {C : List (List Tok)} {para : List (List Char)}, Pairs (LineOf plugins) C (para.map encode) → (∀ l ∈ para, TextLine l) →
    allSome (textOf word) C = some para := by
  intro C
  induction C with
  | nil =>
    intro para h _
    cases para with
    | nil => rfl
    | cons _ _ => cases h
  | cons t C ih =>
    intro para h hp
    cases para with
    | nil => cases h
    | cons l para =>
      obtain ⟨h1, h2⟩ : LineOf plugins t (encode l) ∧ Pairs (LineOf plugins) C (para.map encode) := by
        cases h with
        | cons h1 h2 => exact ⟨h1, h2⟩
      rw [allSome, textOf, text_classify (hp l (by simp)) h1, ih h2 fun l hl => hp l (by simp [hl])]
      rfl

theorem chunk_items {word : Char → Bool} : ∀ (heads : List Head) {para : List (List Char)} {C : List (List Tok)} (k : Nat),
    Pairs (LineOf plugins) C ((Chunk.lines ⟨heads, para⟩).map encode) → Chunk.Ok ⟨heads, para⟩ →
    chunkItems word k C = some ((numbered k (Chunk.entries ⟨heads, para⟩)).zip ((Chunk.entries ⟨heads, para⟩).map Prod.snd)) := by
  intro heads
  induction heads with
  | nil =>
    intro para C k h ok
    cases para with
    | nil =>
      cases C with
      | nil => rfl
      | cons _ _ => cases h
    | cons l para =>
      cases C with
      | nil => cases h
      | cons t C =>
        have h1 : LineOf plugins t (encode l) := by
          cases h with
          | cons h1 h2 => exact h1
        rw [chunkItems, text_not_heading (ok.para l (by simp)) h1]
        simp only
        rw [para_items h ok.para]
        rfl
  | cons hd heads ih =>
    intro para C k h ok
    cases C with
    | nil => cases h
    | cons t C =>
      obtain ⟨h1, h2⟩ : LineOf plugins t (encode hd.line) ∧ Pairs (LineOf plugins) C ((Chunk.lines ⟨heads, para⟩).map encode) := by
        cases h with
        | cons h1 h2 => exact ⟨h1, h2⟩
      obtain ⟨o1, o2, o3, o4⟩ := ok.heads hd (by simp)
      have hat := Verif.Lexer.LineOf.at h1
      have e1 := (heading_iff hat hd.level).2 ⟨hd.level, _, o1, (Nat.mod_eq_of_lt o2).symm⟩
      have e2 : headingText t = hd.title := lineText_eq (heading_text hat o1)
      rw [chunkItems, e1]
      simp only
      rw [ih (k + 1) h2 ⟨fun x hx => ok.heads x (by simp [hx]), ok.para⟩, e2]
      rfl

/-- the chunks as the parser of sections takes them -/
def chunked : Nat → List Chunk → List (Item × List Item)
  | _, [] => []
  | k, c :: cs =>
    (match numbered k c.entries with
      | [] => []
      | i :: is => [(i, is)]) ++ chunked (k + c.entries.length) cs

theorem chunked_items (k : Nat) (cs : List Chunk) : sourceItems (chunked k cs) = numbered k (cs.flatMap Chunk.entries) := by
  induction cs generalizing k with
  | nil => rfl
  | cons c cs ih =>
    rw [chunked, List.flatMap_cons, numbered_append, ← ih]
    cases numbered k c.entries with
    | nil => rfl
    | cons i is => rfl

/-- the items of the chunks with their texts -/
def itemised : Nat → List Chunk → List (List (Item × List (List Char)))
  | _, [] => []
  | k, c :: cs => (numbered k c.entries).zip (c.entries.map Prod.snd) :: itemised (k + c.entries.length) cs

theorem outline_items {word : Char → Bool} : ∀ (cs : List Chunk) {C : List (List (List Tok))} (k : Nat),
    Pairs (fun C c => Pairs (LineOf plugins) C (c.map encode)) C (cs.map Chunk.lines) → (∀ c ∈ cs, c.Ok) →
    outlineItems word k C = some (itemised k cs) := by
  intro cs
  induction cs with
  | nil =>
    intro C k h _
    cases C with
    | nil => rfl
    | cons _ _ => cases h
  | cons c cs ih =>
    intro C k h ok
    cases C with
    | nil => cases h
    | cons t C =>
      obtain ⟨h1, h2⟩ : Pairs (LineOf plugins) t (c.lines.map encode) ∧ Pairs (fun C c => Pairs (LineOf plugins) C (c.map encode)) C (cs.map Chunk.lines) := by
        cases h with
        | cons h1 h2 => exact ⟨h1, h2⟩
      rw [outlineItems, chunk_items c.heads k h1 (ok c (by simp))]
      simp only [Option.bind_some]
      rw [show (Chunk.entries ⟨c.heads, c.para⟩) = c.entries from rfl, List.length_zip, numbered_length, List.length_map, Nat.min_self,
        ih _ h2 fun c hc => ok c (by simp [hc])]
      rfl

theorem itemised_texts (k : Nat) (cs : List Chunk) : (itemised k cs).flatMap (·.map Prod.snd) = (cs.flatMap Chunk.entries).map Prod.snd := by
  induction cs generalizing k with
  | nil => rfl
  | cons c cs ih =>
    rw [itemised, List.flatMap_cons, List.flatMap_cons, List.map_append, ih, List.map_snd_zip]
    simp [numbered_length]

theorem itemised_chunks (k : Nat) (cs : List Chunk) : (itemised k cs).flatMap toChunk = chunked k cs := by
  induction cs generalizing k with
  | nil => rfl
  | cons c cs ih =>
    rw [itemised, List.flatMap_cons, ih, chunked]
    have h1 := numbered_length k c.entries
    cases he : c.entries with
    | nil => rfl
    | cons e es =>
      obtain ⟨_ | l, t⟩ := e
      all_goals
        simp only [numbered, List.map_cons, List.zip_cons_cons, toChunk]
        rw [List.map_fst_zip]
        simp [numbered_length]

theorem itemised_titled (cs : List Chunk) (hc : ∀ c ∈ cs, c.lines ≠ []) (h : ∀ c ∈ cs.head?, ∀ hd ∈ c.heads.head?, hd.level ≠ 0) : titled (itemised 0 cs) = false := by
  cases cs with
  | nil => rfl
  | cons c cs =>
    obtain ⟨heads, para⟩ := c
    rw [itemised]
    cases heads with
    | nil =>
      cases para with
      | nil => exact absurd rfl (hc ⟨[], []⟩ (by simp))
      | cons l para => rfl
    | cons hd heads =>
      have := h ⟨hd :: heads, para⟩ (by simp) hd (by simp)
      simp only [Chunk.entries, List.map_cons, List.cons_append, numbered, List.zip_cons_cons]
      cases hl : hd.level with
      | zero => exact absurd hl this
      | succ n => rfl

theorem numbered_levels (k : Nat) (es : List (Option Nat × List (List Char))) : (numbered k es).filterMap secLevel = es.filterMap Prod.fst := by
  induction es generalizing k with
  | nil => rfl
  | cons e es ih =>
    obtain ⟨_ | l, t⟩ := e
    · simp only [numbered, List.filterMap_cons, secLevel, ih]
    · simp only [numbered, List.filterMap_cons, secLevel, ih]

theorem numbered_plain (k : Nat) (es : List (Option Nat × List (List Char))) : ∀ i ∈ numbered k es, (∀ k, i ≠ .delim k) ∧ ∀ l t sp, i ≠ .heading l t sp true := by
  induction es generalizing k with
  | nil => intro i hi; cases hi
  | cons e es ih =>
    intro i hi
    obtain ⟨_ | l, t⟩ := e
    all_goals
      rcases List.mem_cons.1 hi with rfl | hi
      · exact ⟨by simp, by simp⟩
      · exact ih _ i hi

end Verif.Outline
