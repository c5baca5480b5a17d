import Verif.Lemmas.Meta
namespace Verif
open DocumentMeta

theorem Author.fullname_eq (a : Author) : a.fullname = a.specFullname := by
  unfold Author.fullname Author.specFullname
  cases a.middle <;> simp [joinSep, String.append_assoc]

theorem Author.initials_eq (a : Author) (s : String) (h : a.initials = some s) : s = a.specInitials := by
  unfold Author.initials at h
  unfold Author.specInitials
  cases hf : a.first.toList.head? with
  | none => simp [hf] at h
  | some f =>
    cases hl : a.last.toList.head? with
    | none => simp [hf, hl] at h
    | some l =>
      simp only [hf, hl, Option.some.injEq] at h
      subst h
      cases hm : a.middle with
      | none => simp [hf, hl]
      | some m =>
        cases hmm : m.toList.head? <;> simp [hf, hl, hmm]

/-- set or leave alone -/
def hset (h : Map AttrValue) (k : String) : Option String → Map AttrValue
  | some v => h.insert k (.string v)
  | none => h

/-- the model's six insertions -/
def setFields (s : String) (fs : List (String × Option String)) (h : Map AttrValue) : Map AttrValue :=
  fs.foldl (fun h p => hset h (p.1 ++ s) p.2) h

/-- underscore-free base and a suffix that is empty or starts with an underscore -/
def Suffix (s : String) : Prop := s.toList = [] ∨ ∃ t, s.toList = '_' :: t

theorem split_key {b b' s s' : String} (hb : '_' ∉ b.toList) (hb' : '_' ∉ b'.toList)
    (hs : Suffix s) (hs' : Suffix s') (h : b ++ s = b' ++ s') : b = b' ∧ s = s' := by
  have key : ∀ (l l' t t' : List Char), '_' ∉ l → '_' ∉ l' → (t = [] ∨ ∃ u, t = '_' :: u) →
      (t' = [] ∨ ∃ u, t' = '_' :: u) → l ++ t = l' ++ t' → l = l' ∧ t = t' := by
    intro l
    induction l with
    | nil =>
      intro l' t t' _ h2 h3 h4 h5
      cases l' with
      | nil => exact ⟨rfl, by simpa using h5⟩
      | cons c l' =>
        simp only [List.nil_append, List.cons_append] at h5
        rcases h3 with rfl | ⟨u, rfl⟩
        · cases h5
        · simp only [List.cons.injEq] at h5
          exact absurd h5.1 (by rintro rfl; simp at h2)
    | cons c l ih =>
      intro l' t t' h1 h2 h3 h4 h5
      cases l' with
      | nil =>
        simp only [List.nil_append, List.cons_append] at h5
        rcases h4 with rfl | ⟨u, rfl⟩
        · cases h5
        · simp only [List.cons.injEq] at h5
          exact absurd h5.1 (by rintro rfl; simp at h1)
      | cons c' l' =>
        simp only [List.cons_append, List.cons.injEq] at h5
        have := ih l' t t' (fun h => h1 (List.mem_cons_of_mem _ h)) (fun h => h2 (List.mem_cons_of_mem _ h))
          h3 h4 h5.2
        exact ⟨by rw [h5.1, this.1], this.2⟩
  have := key _ _ _ _ hb hb' hs hs' (by simpa [String.toList_append] using congrArg String.toList h)
  exact ⟨String.toList_inj.mp this.1, String.toList_inj.mp this.2⟩

theorem setFields_other (s s' b : String) (fs : List (String × Option String)) (h : Map AttrValue)
    (hb : '_' ∉ b.toList) (hfs : ∀ p ∈ fs, '_' ∉ p.1.toList) (hs : Suffix s) (hs' : Suffix s')
    (hne : s ≠ s' ∨ ∀ p ∈ fs, p.1 ≠ b) : setFields s fs h (b ++ s') = h (b ++ s') := by
  induction fs generalizing h with
  | nil => rfl
  | cons p fs ih =>
    have hk : b ++ s' ≠ p.1 ++ s := by
      intro e
      have := split_key hb (hfs p (by simp)) hs' hs e
      rcases hne with hne | hne
      · exact hne this.2.symm
      · exact hne p (by simp) this.1.symm
    show setFields s fs (hset h (p.1 ++ s) p.2) (b ++ s') = _
    rw [ih _ (fun q hq => hfs q (by simp [hq])) (hne.imp id (fun h q hq => h q (by simp [hq])))]
    cases p.2 with
    | none => rfl
    | some v => simp [hset, Map.insert, hk]

theorem setFields_mem (s : String) (fs : List (String × Option String)) (h : Map AttrValue)
    (hfs : ∀ p ∈ fs, '_' ∉ p.1.toList) (hnd : (fs.map (·.1)).Nodup) (hs : Suffix s)
    (b : String) (v : Option String) (hmem : (b, v) ∈ fs) (hold : h (b ++ s) = none) :
    setFields s fs h (b ++ s) = v.map .string := by
  induction fs generalizing h with
  | nil => cases hmem
  | cons p fs ih =>
    show setFields s fs (hset h (p.1 ++ s) p.2) (b ++ s) = _
    simp only [List.map_cons, List.nodup_cons] at hnd
    rcases List.mem_cons.mp hmem with rfl | hmem
    · rw [setFields_other s s b fs _ (hfs (b, v) (by simp)) (fun q hq => hfs q (by simp [hq])) hs hs
        (Or.inr fun q hq e => hnd.1 (by rw [show (b, v).1 = q.1 from e.symm]; exact List.mem_map_of_mem (f := (·.1)) hq))]
      cases v with
      | none => simpa [hset] using hold
      | some v => simp [hset, Map.insert]
    · refine ih _ (fun q hq => hfs q (by simp [hq])) hnd.2 hmem ?_
      have hk : b ++ s ≠ p.1 ++ s := by
        intro e
        have := split_key (hfs (b, v) (List.mem_cons_of_mem _ hmem)) (hfs p (by simp)) hs hs e
        exact hnd.1 (by rw [← this.1]; exact List.mem_map_of_mem (f := (·.1)) hmem)
      cases p.2 with
      | none => exact hold
      | some v => simp [hset, Map.insert, hk, hold]

theorem fields_nounder (a : Author) : ∀ p ∈ a.specFields, '_' ∉ p.1.toList := by
  intro p hp
  simp only [Author.specFields, List.mem_cons, List.not_mem_nil, or_false] at hp
  rcases hp with rfl | rfl | rfl | rfl | rfl | rfl <;> simp

theorem fields_nodup (a : Author) : (a.specFields.map (·.1)).Nodup := by
  simp [Author.specFields]

theorem fields_not_authors (a : Author) : ∀ p ∈ a.specFields, p.1 ≠ "authors" := by
  intro p hp
  simp only [Author.specFields, List.mem_cons, List.not_mem_nil, or_false] at hp
  rcases hp with rfl | rfl | rfl | rfl | rfl | rfl <;> simp

theorem insertString_header (m : DocumentMeta) (k v : String)
    (hk : k ∉ ["attribute-missing", "attribute-undefined", "showtitle", "notitle"]) :
    (m.insertStringAttr k v).headerAttrs = hset m.headerAttrs k (some v) :=
  attrsInsert_plain _ _ _ hk

theorem insertOpt_header (m : DocumentMeta) (k : String) (v : Option String)
    (hk : k ∉ ["attribute-missing", "attribute-undefined", "showtitle", "notitle"]) :
    (m.insertOptAttr k v).headerAttrs = hset m.headerAttrs k v := by
  cases v with
  | none => rfl
  | some v => exact attrsInsert_plain _ _ _ hk

macro "strne" : tactic =>
  `(tactic| (intro h; have h := congrArg String.toList h; simp [String.toList_append] at h))
macro "plainkey" : tactic =>
  `(tactic| (simp only [List.mem_cons, List.not_mem_nil, or_false, not_or]
             refine ⟨?_, ?_, ?_, ?_⟩ <;> strne))

/-- `add_author` written as field assignments -/
theorem addAuthor_header {m m' : DocumentMeta} {a : Author} (h : m.addAuthor a = some m') :
    m'.authors = m.authors ++ [a] ∧
    m'.headerAttrs =
      let h1 := if m.authors = [] then setFields "" a.specFields m.headerAttrs else m.headerAttrs
      let h2 := setFields ("_" ++ toString (m.authors.length + 1)) a.specFields h1
      hset h2 "authors" (some (match h2 "authors" with
        | some (.string s) => s ++ ", " ++ a.specFullname
        | _ => a.specFullname)) := by
  unfold addAuthor at h
  cases hi : a.initials with
  | none => simp [hi] at h
  | some ini =>
    simp only [hi, Option.bind_eq_bind, Option.bind_some, Option.pure_def, Option.some.injEq] at h
    have hini := Author.initials_eq a ini hi
    rw [← h]
    refine ⟨rfl, ?_⟩
    generalize toString (m.authors.length + 1) = n at *
    have e1 : ("author" : String) ++ ("_" ++ n) = "author_" ++ n := by
      rw [← String.append_assoc]; rfl
    have e2 : ("email" : String) ++ ("_" ++ n) = "email_" ++ n := by
      rw [← String.append_assoc]; rfl
    have e3 : ("lastname" : String) ++ ("_" ++ n) = "lastname_" ++ n := by
      rw [← String.append_assoc]; rfl
    have e4 : ("middlename" : String) ++ ("_" ++ n) = "middlename_" ++ n := by
      rw [← String.append_assoc]; rfl
    have e5 : ("firstname" : String) ++ ("_" ++ n) = "firstname_" ++ n := by
      rw [← String.append_assoc]; rfl
    have e6 : ("authorinitials" : String) ++ ("_" ++ n) = "authorinitials_" ++ n := by
      rw [← String.append_assoc]; rfl
    have p1 : "author_" ++ n ∉ ["attribute-missing", "attribute-undefined", "showtitle", "notitle"] := by
      plainkey
    have p2 : "email_" ++ n ∉ ["attribute-missing", "attribute-undefined", "showtitle", "notitle"] := by
      plainkey
    have p3 : "lastname_" ++ n ∉ ["attribute-missing", "attribute-undefined", "showtitle", "notitle"] := by
      plainkey
    have p4 : "middlename_" ++ n ∉ ["attribute-missing", "attribute-undefined", "showtitle", "notitle"] := by
      plainkey
    have p5 : "firstname_" ++ n ∉ ["attribute-missing", "attribute-undefined", "showtitle", "notitle"] := by
      plainkey
    have p6 : "authorinitials_" ++ n ∉ ["attribute-missing", "attribute-undefined", "showtitle", "notitle"] := by
      plainkey
    have numbered : ∀ m1 : DocumentMeta,
        (((((((m1.insertStringAttr ("author_" ++ n) a.fullname).insertOptAttr ("email_" ++ n)
          a.email).insertStringAttr ("lastname_" ++ n) a.last).insertOptAttr ("middlename_" ++ n)
          a.middle).insertStringAttr ("firstname_" ++ n) a.first).insertStringAttr
          ("authorinitials_" ++ n) ini)).headerAttrs
        = setFields ("_" ++ n) a.specFields m1.headerAttrs := by
      intro m1
      rw [insertString_header _ _ _ p6, insertString_header _ _ _ p5, insertOpt_header _ _ _ p4,
        insertString_header _ _ _ p3, insertOpt_header _ _ _ p2, insertString_header _ _ _ p1]
      simp only [setFields, Author.specFields, List.foldl_cons, List.foldl_nil, e1, e2, e3, e4, e5, e6,
        Author.fullname_eq, hini]
    have unnumbered : ∀ m1 : DocumentMeta,
        (((((((m1.insertStringAttr "author" a.fullname).insertOptAttr "email"
          a.email).insertStringAttr "lastname" a.last).insertOptAttr "middlename"
          a.middle).insertStringAttr "firstname" a.first).insertStringAttr
          "authorinitials" ini)).headerAttrs
        = setFields "" a.specFields m1.headerAttrs := by
      intro m1
      rw [insertString_header _ _ _ (by decide), insertString_header _ _ _ (by decide),
        insertOpt_header _ _ _ (by decide), insertString_header _ _ _ (by decide),
        insertOpt_header _ _ _ (by decide), insertString_header _ _ _ (by decide)]
      simp only [setFields, Author.specFields, List.foldl_cons, List.foldl_nil, String.append_empty,
        Author.fullname_eq, hini]
    simp only
    generalize hm1 : (if m.authors.isEmpty = true then _ else m) = m1
    have hh1 : m1.headerAttrs = if m.authors = [] then setFields "" a.specFields m.headerAttrs
        else m.headerAttrs := by
      rw [← hm1]
      cases hA : m.authors with
      | nil => simpa using unnumbered m
      | cons x xs => simp
    rw [← hh1, ← numbered m1]
    generalize (((((((m1.insertStringAttr ("author_" ++ n) a.fullname).insertOptAttr ("email_" ++ n)
          a.email).insertStringAttr ("lastname_" ++ n) a.last).insertOptAttr ("middlename_" ++ n)
          a.middle).insertStringAttr ("firstname_" ++ n) a.first).insertStringAttr
          ("authorinitials_" ++ n) ini)) = m2
    cases m2.headerAttrs "authors" with
    | none => exact (insertString_header _ _ _ (by decide)).trans (by rw [Author.fullname_eq])
    | some v =>
      cases v with
      | bool b => exact (insertString_header _ _ _ (by decide)).trans (by rw [Author.fullname_eq])
      | string s => exact (insertString_header _ _ _ (by decide)).trans (by rw [Author.fullname_eq])

theorem joinSep_snoc (sep : String) (xs : List String) (x : String) (h : xs ≠ []) :
    joinSep sep (xs ++ [x]) = joinSep sep xs ++ sep ++ x := by
  induction xs with
  | nil => exact absurd rfl h
  | cons y ys ih =>
    cases ys with
    | nil => simp [joinSep]
    | cons z zs =>
      have := ih (by simp)
      simp only [List.cons_append] at this ⊢
      simp only [joinSep] at this ⊢
      rw [this]; simp [String.append_assoc]

/-- what holds after adding the authors `as` -/
structure AuthorsInv (m : DocumentMeta) (as : List Author) : Prop where
  authors : m.authors = as
  numbered : ∀ i a, as[i]? = some a → ∀ p ∈ a.specFields,
    m.headerAttrs (p.1 ++ ("_" ++ toString (i + 1))) = p.2.map .string
  fresh : ∀ i, as.length ≤ i → ∀ (a : Author), ∀ p ∈ a.specFields,
    m.headerAttrs (p.1 ++ ("_" ++ toString (i + 1))) = none
  first : ∀ a, as.head? = some a → ∀ p ∈ a.specFields, m.headerAttrs (p.1 ++ "") = p.2.map .string
  nofirst : as = [] → ∀ (a : Author), ∀ p ∈ a.specFields, m.headerAttrs (p.1 ++ "") = none
  list : m.headerAttrs ("authors" ++ "")
    = if as = [] then none else some (.string (joinSep ", " (as.map Author.specFullname)))

theorem suffix_num (n : Nat) : Suffix ("_" ++ toString n) := Or.inr ⟨(toString n).toList, by simp⟩
theorem suffix_empty : Suffix "" := Or.inl rfl

theorem num_inj {i j : Nat} (h : i ≠ j) : "_" ++ toString (i + 1) ≠ "_" ++ toString (j + 1) := by
  intro e
  have e' : toString (i + 1) = toString (j + 1) := by simpa [← String.toList_inj] using e
  have : i + 1 = j + 1 := Nat.repr_inj.mp e'
  omega

theorem num_ne_empty (i : Nat) : "_" ++ toString (i + 1) ≠ "" := by
  intro e; simp [← String.toList_inj] at e

theorem AuthorsInv.step {m m' : DocumentMeta} {as : List Author} {a : Author} (h : AuthorsInv m as)
    (hadd : m.addAuthor a = some m') : AuthorsInv m' (as ++ [a]) := by
  obtain ⟨ha, hh⟩ := addAuthor_header hadd
  rw [h.authors] at ha hh
  simp only at hh
  generalize hh1 : (if as = [] then setFields "" a.specFields m.headerAttrs else m.headerAttrs) = h1 at hh
  generalize hh2 : setFields ("_" ++ toString (as.length + 1)) a.specFields h1 = h2 at hh
  -- a key other than `authors`
  have hout : ∀ p : String × Option String, '_' ∉ p.1.toList → p.1 ≠ "authors" → ∀ s, Suffix s →
      m'.headerAttrs (p.1 ++ s) = h2 (p.1 ++ s) := by
    intro p hp hne s hs
    have hk : p.1 ++ s ≠ "authors" := by
      intro e
      have := split_key hp (by simp) hs suffix_empty (show p.1 ++ s = "authors" ++ "" by simpa using e)
      exact hne this.1
    rw [hh]; simp [hset, Map.insert, hk]
  have h1_num : ∀ (b : String) (i : Nat), '_' ∉ b.toList →
      h1 (b ++ ("_" ++ toString (i + 1))) = m.headerAttrs (b ++ ("_" ++ toString (i + 1))) := by
    intro b i hb
    rw [← hh1]
    split
    · exact setFields_other _ _ b _ _ hb (fields_nounder a) suffix_empty (suffix_num _)
        (Or.inl (Ne.symm (num_ne_empty i)))
    · rfl
  have h2_num : ∀ (b : String) (i : Nat), '_' ∉ b.toList → i ≠ as.length →
      h2 (b ++ ("_" ++ toString (i + 1))) = m.headerAttrs (b ++ ("_" ++ toString (i + 1))) := by
    intro b i hb hi
    rw [← hh2, setFields_other _ _ b _ _ hb (fields_nounder a) (suffix_num _) (suffix_num _)
      (Or.inl (num_inj (Ne.symm hi))), h1_num b i hb]
  have h2_plain : ∀ b : String, '_' ∉ b.toList → h2 (b ++ "") = h1 (b ++ "") := by
    intro b hb
    rw [← hh2]
    exact setFields_other _ _ b _ _ hb (fields_nounder a) (suffix_num _) suffix_empty
      (Or.inl (num_ne_empty _))
  refine ⟨ha, ?_, ?_, ?_, ?_, ?_⟩
  · intro i b hb p hp
    rw [hout p (fields_nounder b p hp) (fields_not_authors b p hp) _ (suffix_num _)]
    by_cases hi : i = as.length
    · subst hi
      simp at hb; subst hb
      rw [← hh2]
      refine setFields_mem _ _ _ (fields_nounder a) (fields_nodup a) (suffix_num _) p.1 p.2 hp ?_
      rw [h1_num _ _ (fields_nounder a p hp)]
      exact h.fresh _ (Nat.le_refl _) a p hp
    · rw [h2_num _ _ (fields_nounder b p hp) hi]
      refine h.numbered i b ?_ p hp
      have : i < as.length := by
        have := List.getElem?_eq_some_iff.mp hb
        obtain ⟨hlt, _⟩ := this
        simp at hlt; omega
      rwa [List.getElem?_append_left this] at hb
  · intro i hi b p hp
    simp at hi
    rw [hout p (fields_nounder b p hp) (fields_not_authors b p hp) _ (suffix_num _),
      h2_num _ _ (fields_nounder b p hp) (by omega)]
    exact h.fresh i (by omega) b p hp
  · intro b hb p hp
    rw [hout p (fields_nounder b p hp) (fields_not_authors b p hp) _ suffix_empty,
      h2_plain _ (fields_nounder b p hp), ← hh1]
    cases as with
    | nil =>
      simp at hb; subst hb
      simp only [if_true]
      exact setFields_mem _ _ _ (fields_nounder a) (fields_nodup a) suffix_empty p.1 p.2 hp
        (h.nofirst rfl a p hp)
    | cons x xs =>
      simp at hb; subst hb
      simp only [reduceCtorEq, if_false]
      exact h.first x rfl p hp
  · intro he; simp at he
  · have e2 : h2 ("authors" ++ "") = m.headerAttrs ("authors" ++ "") := by
      rw [h2_plain _ (by simp), ← hh1]
      split
      · exact setFields_other _ _ "authors" _ _ (by simp) (fields_nounder a) suffix_empty suffix_empty
          (Or.inr (fields_not_authors a))
      · rfl
    rw [String.append_empty] at e2 ⊢
    have hl := h.list
    rw [String.append_empty] at hl
    rw [hh]
    simp only [hset, Map.insert, if_true, e2, hl, List.append_eq_nil_iff, reduceCtorEq, and_false,
      if_false]
    cases as with
    | nil => simp [joinSep]
    | cons x xs =>
      have := joinSep_snoc ", " ((x :: xs).map Author.specFullname) a.specFullname (by simp)
      simp only [List.map_cons, List.cons_append] at this
      simp [this]

theorem AuthorsInv.run {m m' : DocumentMeta} (as bs : List Author) (h : AuthorsInv m as)
    (hadd : bs.foldlM addAuthor m = some m') : AuthorsInv m' (as ++ bs) := by
  induction bs generalizing m as with
  | nil => simp at hadd; subst hadd; simpa using h
  | cons b bs ih =>
    rw [List.foldlM_cons, Option.bind_eq_bind, Option.bind_eq_some_iff] at hadd
    obtain ⟨m1, h1, h2⟩ := hadd
    simpa using ih _ (h.step h1) h2

/-- with non-empty names nothing panics -/
theorem addAuthor_total (m : DocumentMeta) (a : Author) (hf : a.first ≠ "") (hl : a.last ≠ "") :
    ∃ m', m.addAuthor a = some m' := by
  have : ∃ ini, a.initials = some ini := by
    unfold Author.initials
    cases h1 : a.first.toList with
    | nil => exact absurd (String.toList_inj.mp (by simpa using h1)) hf
    | cons c cs =>
      cases h2 : a.last.toList with
      | nil => exact absurd (String.toList_inj.mp (by simpa using h2)) hl
      | cons d ds => exact ⟨_, rfl⟩
  obtain ⟨ini, hi⟩ := this
  unfold addAuthor
  rw [hi]
  exact ⟨_, rfl⟩

theorem addAuthors_total (as : List Author) (m : DocumentMeta)
    (h : ∀ a ∈ as, a.first ≠ "" ∧ a.last ≠ "") : ∃ m', as.foldlM addAuthor m = some m' := by
  induction as generalizing m with
  | nil => exact ⟨m, rfl⟩
  | cons a as ih =>
    obtain ⟨m1, h1⟩ := addAuthor_total m a (h a (by simp)).1 (h a (by simp)).2
    obtain ⟨m2, h2⟩ := ih m1 (fun b hb => h b (by simp [hb]))
    exact ⟨m2, by rw [List.foldlM_cons, h1]; exact h2⟩

end Verif
