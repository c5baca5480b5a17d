import Verif.Spec.Lists
namespace Verif.Lists
set_option linter.unusedSimpArgs false
set_option linter.unusedVariables false

theorem sameKind_refl (m : Marker) : SameKind m m := by cases m <;> simp [SameKind]

theorem continues_iff (m : Marker) (o : List Marker) (x : Marker) :
    continuesCurrent (m :: o) x = true ↔ SameKind m x := by
  cases m <;> cases x <;> simp [continuesCurrent, SameKind]

theorem startsNested_iff (stack : List Marker) (x : Marker) :
    startsNested stack x = true ↔ stack ≠ [] ∧ ∀ m ∈ stack, ¬ SameKind m x := by
  unfold startsNested
  cases stack with
  | nil => simp
  | cons a l =>
    simp only [List.isEmpty_cons, Bool.false_eq_true, if_false, ne_eq, reduceCtorEq, not_false_eq_true, true_and]
    cases x
    case digits =>
      simp only [List.all_eq_true]
      refine forall_congr' fun m => forall_congr' fun _ => ?_
      cases m <;> simp [Marker.isDigits, SameKind]
    case callout =>
      simp only [List.all_eq_true]
      refine forall_congr' fun m => forall_congr' fun _ => ?_
      cases m <;> simp [Marker.isCallout, SameKind]
    all_goals
      simp only [Bool.not_eq_true', ← Bool.not_eq_true, List.contains_iff_mem]
      constructor
      · intro h m hm hs
        cases m <;> simp_all [SameKind]
      · intro h hm
        exact h _ hm (sameKind_refl _)

/-- how often a line can be taken up -/
def Ln.weight : Ln → Nat
  | .term _ _ (some _) => 2
  | _ => 1

def wt (l : List Ln) : Nat := (l.map Ln.weight).sum

@[simp] theorem wt_nil : wt [] = 0 := rfl
@[simp] theorem wt_cons (l : Ln) (ls : List Ln) : wt (l :: ls) = l.weight + wt ls := by simp [wt]
theorem wt_append (a b : List Ln) : wt (a ++ b) = wt a + wt b := by simp [wt]
theorem weight_pos (l : Ln) : 1 ≤ l.weight := by
  cases l <;> simp [Ln.weight]
  rename_i r; cases r <;> simp

/-- what is left to read -/
def size (s : St) : Nat := (s.chunks.map (fun c => wt c + 1)).sum

theorem size_restore (s : St) (l : List Ln) : size (s.restore l) ≤ wt l + 1 + size s := by
  unfold St.restore
  split <;> simp [size]
  
theorem size_restore_ne (s : St) (l : List Ln) (h : l ≠ []) : size (s.restore l) = wt l + 1 + size s := by
  unfold St.restore
  rw [if_neg (by simpa using h)]; simp [size]

@[simp] theorem restore_stack (s : St) (l : List Ln) : (s.restore l).stack = s.stack := by
  unfold St.restore; split <;> rfl
@[simp] theorem restore_inDelim (s : St) (l : List Ln) : (s.restore l).inDelim = s.inDelim := by
  unfold St.restore; split <;> rfl
@[simp] theorem restore_conts (s : St) (l : List Ln) : (s.restore l).conts = s.conts := by
  unfold St.restore; split <;> rfl
@[simp] theorem problem_stack (s : St) : s.problem.stack = s.stack := rfl
@[simp] theorem problem_inDelim (s : St) : s.problem.inDelim = s.inDelim := rfl
@[simp] theorem problem_conts (s : St) : s.problem.conts = s.conts := rfl
@[simp] theorem problem_chunks (s : St) : s.problem.chunks = s.chunks := rfl

/-- what every parsing function keeps: the stack, the delimiter, and it reads forward -/
structure Keeps (s s' : St) : Prop where
  stack : s'.stack = s.stack
  inDelim : s'.inDelim = s.inDelim
  conts : s.conts = false → s'.conts = false
  size : size s' ≤ size s

theorem Keeps.refl (s : St) : Keeps s s := ⟨rfl, rfl, id, Nat.le_refl _⟩
theorem Keeps.trans {a b c : St} (h : Keeps a b) (h' : Keeps b c) : Keeps a c :=
  ⟨h'.stack.trans h.stack, h'.inDelim.trans h.inDelim, fun x => h'.conts (h.conts x), Nat.le_trans h'.size h.size⟩

theorem withRest_wt (m : Marker) (t : Text) (r : Option Text) (tl : List Ln) :
    wt (withRest r tl) + 1 ≤ (Ln.term m t r).weight + wt tl := by
  cases r <;> simp [withRest, Ln.weight] <;> omega

theorem gatherTerms_keeps (m : Marker) : ∀ n s ts s', gatherTerms m n s = some (ts, s') → Keeps s s' := by
  intro n
  induction n with
  | zero => intro s ts s' h; simp [gatherTerms] at h
  | succ n ih =>
    intro s ts s' h
    unfold gatherTerms at h
    split at h
    · rename_i m' t r tl rest hc
      split at h
      · simp only [Option.bind_eq_some_iff, Option.some.injEq, Prod.exists, Prod.mk.injEq] at h
        obtain ⟨ts', s'', hg, _, rfl⟩ := h
        refine Keeps.trans ⟨by simp, by simp, by simp, ?_⟩ (ih _ _ _ hg)
        refine Nat.le_trans (size_restore _ _) ?_
        have := withRest_wt m' t r tl
        simp only [size, hc, List.map_cons, List.sum_cons, wt_cons]
        omega
      · simp only [Option.some.injEq, Prod.mk.injEq] at h
        obtain ⟨_, rfl⟩ := h; exact .refl _
    · simp only [Option.some.injEq, Prod.mk.injEq] at h
      obtain ⟨_, rfl⟩ := h; exact .refl _

theorem extraTerms_keeps (m : Marker) (n : Nat) (s : St) (r : Option Text) (tl : List Ln) (ts : List Text) (s' : St)
    (h : extraTerms m n s r tl = some (ts, s')) : Keeps { s with chunks := (withRest r tl) :: s.chunks } s' := by
  unfold extraTerms at h
  cases r with
  | none =>
    have := gatherTerms_keeps _ _ _ _ _ h
    refine Keeps.trans ⟨by simp, by simp, by simp, ?_⟩ this
    refine Nat.le_trans (size_restore _ _) ?_
    simp [size, withRest]
  | some r =>
    simp only [Option.some.injEq, Prod.mk.injEq] at h
    obtain ⟨_, rfl⟩ := h
    refine ⟨by simp, by simp, by simp, ?_⟩
    refine Nat.le_trans (size_restore _ _) ?_
    simp [size, withRest]

theorem wt_split (p : Ln → Bool) (l : List Ln) : wt (l.takeWhile p) + wt (l.dropWhile p) = wt l := by
  rw [← wt_append, List.takeWhile_append_dropWhile]

theorem dropWhile_length (p : Ln → Bool) (l : List Ln) : wt (l.dropWhile p) ≤ wt l := by
  have := wt_split p l; omega

theorem closeDelimited_keeps (s : St) (o : Bool) :
    (closeDelimited s o).stack = s.stack ∧ (closeDelimited s o).inDelim = o ∧ (closeDelimited s o).conts = s.conts ∧
    size (closeDelimited s o) ≤ size s := by
  unfold closeDelimited
  cases hc : s.chunks with
  | nil => simp [size, hc]
  | cons c rest =>
    cases c with
    | nil => simp [size, hc]
    | cons l tl =>
      cases l
      case delim =>
        refine ⟨by simp, by simp, by simp, ?_⟩
        show size ({ s with chunks := rest }.restore tl) ≤ _
        refine Nat.le_trans (size_restore _ _) ?_
        simp only [size, hc, List.map_cons, List.sum_cons, wt_cons]
        omega
      all_goals simp [size, hc]

structure Good (n : Nat) : Prop where
  block : ∀ s r s', parseBlock n s = some (r, s') → Keeps s s' ∧ (r.isSome → size s' < size s)
  delimited : ∀ s r s', parseDelimited n s = some (r, s') → Keeps s s'
  blocks : ∀ s r s', parseBlocks n s = some (r, s') → Keeps s s'
  list : ∀ s m l tl r s', l.marker = some m → parseList n s m (l :: tl) = some (r, s') →
    Keeps (s.restore (l :: tl)) s' ∧ size s' < size (s.restore (l :: tl))
  items : ∀ s r s', parseItems n s = some (r, s') → Keeps s s' ∧
    (∀ l tl rest m, s.chunks = (l :: tl) :: rest → l.marker = some m → continuesCurrent s.stack m = true →
      size s' < size s)
  item : ∀ s r s', parseItem n s = some (r, s') → Keeps s s' ∧ (r.isSome → size s' < size s) ∧
    (∀ l tl rest m, s.chunks = (l :: tl) :: rest → l.marker = some m → continuesCurrent s.stack m = true → r.isSome)
  itemBlocks : ∀ s lines r s', itemBlocks n s lines = some (r, s') → Keeps (s.restore lines) s'
  nested : ∀ s r s', nestedList n s = some (r, s') → Keeps s s'
  conts : ∀ s r s', contBlocks n s = some (r, s') → Keeps s s'
  desc : ∀ s r s', descBlocks n s = some (r, s') → Keeps s s'

theorem firstMarker_eq {ls : List Ln} {m : Marker} (h : firstMarker ls = some m) :
    ∃ l tl, ls = l :: tl ∧ l.marker = some m := by
  cases ls with
  | nil => simp [firstMarker] at h
  | cons l tl => exact ⟨l, tl, rfl, h⟩

theorem good_succ {n : Nat} (ih : Good n) : Good (n + 1) where
  block := by
    intro s r s' h
    unfold parseBlock at h
    split at h
    · simp only [Option.some.injEq, Prod.mk.injEq] at h
      obtain ⟨rfl, rfl⟩ := h; exact ⟨.refl _, by simp⟩
    · rename_i lines rest hc
      have hlen := dropWhile_length Ln.isAttrs lines
      have hsz : size s = wt lines + 1 + size { s with chunks := rest } := by simp [size, hc]
      simp only at h
      split at h
      · obtain ⟨hk, hl⟩ := ih.block _ _ _ h
        have hs2 : size ({ s with chunks := rest } : St).problem = size { s with chunks := rest } := rfl
        refine ⟨⟨hk.stack, hk.inDelim, hk.conts, ?_⟩, ?_⟩
        · have := hk.size; omega
        · intro hr; have := hl hr; omega
      · rename_i tl heq
        rw [heq] at hlen
        simp only [wt_cons, Ln.weight] at hlen
        split at h
        · simp only [Option.some.injEq, Prod.mk.injEq] at h
          obtain ⟨rfl, rfl⟩ := h
          refine ⟨⟨by simp, by simp, by simp, ?_⟩, by simp⟩
          refine Nat.le_trans (size_restore _ _) ?_
          simp only [wt_cons, Ln.weight]; omega
        · have hk := ih.delimited _ _ _ h
          have := size_restore ({ s with chunks := rest }) tl
          have := hk.size
          refine ⟨⟨by simpa using hk.stack, by simpa using hk.inDelim, by simpa using hk.conts, by omega⟩, fun _ => by omega⟩
      · rename_i m t tl heq
        obtain ⟨hk, hl⟩ := ih.list _ _ _ _ _ _ rfl h
        have := size_restore ({ s with chunks := rest }) (.item m t :: tl)
        rw [heq] at hlen
        refine ⟨⟨by simpa using hk.stack, by simpa using hk.inDelim, by simpa using hk.conts, by omega⟩, fun _ => by omega⟩
      · rename_i m t r' tl heq
        obtain ⟨hk, hl⟩ := ih.list _ _ _ _ _ _ rfl h
        have := size_restore ({ s with chunks := rest }) (.term m t r' :: tl)
        rw [heq] at hlen
        refine ⟨⟨by simpa using hk.stack, by simpa using hk.inDelim, by simpa using hk.conts, by omega⟩, fun _ => by omega⟩
      · rename_i ls _ _ _ _
        simp only [Option.some.injEq, Prod.mk.injEq] at h
        obtain ⟨rfl, rfl⟩ := h
        have h1 := size_restore ({ s with chunks := rest }) (List.dropWhile (fun l => !s.stopsAt l) (List.dropWhile Ln.isAttrs lines))
        have h2 := dropWhile_length (fun l => !s.stopsAt l) (List.dropWhile Ln.isAttrs lines)
        refine ⟨⟨by simp, by simp, by simp, by omega⟩, ?_⟩
        intro hr
        have h3 := wt_split (fun l => !s.stopsAt l) (List.dropWhile Ln.isAttrs lines)
        have h4 : wt (List.takeWhile (fun l => !s.stopsAt l) (List.dropWhile Ln.isAttrs lines)) ≠ 0 := by
          cases hc : List.takeWhile (fun l => !s.stopsAt l) (List.dropWhile Ln.isAttrs lines) with
          | nil => rw [hc] at hr; simp at hr
          | cons l ls => have := weight_pos l; simp only [wt_cons]; omega
        omega
  delimited := by
    intro s r s' h
    unfold parseDelimited at h
    simp only [Option.bind_eq_some_iff, Option.some.injEq, Prod.exists, Prod.mk.injEq] at h
    obtain ⟨bs, s2, hb, _, rfl⟩ := h
    have hk := ih.blocks _ _ _ hb
    obtain ⟨h1, h2, h3, h4⟩ := closeDelimited_keeps s2 s.inDelim
    refine ⟨h1.trans hk.stack, h2, fun hc => h3.trans (hk.conts hc), Nat.le_trans h4 hk.size⟩
  blocks := by
    intro s r s' h
    unfold parseBlocks at h
    simp only [Option.bind_eq_some_iff, Prod.exists] at h
    obtain ⟨b, s2, hb, h⟩ := h
    obtain ⟨hk, _⟩ := ih.block _ _ _ hb
    cases b with
    | none =>
      simp only [Option.some.injEq, Prod.mk.injEq] at h
      obtain ⟨_, rfl⟩ := h; exact hk
    | some b =>
      simp only [Option.bind_eq_some_iff, Option.some.injEq, Prod.exists, Prod.mk.injEq] at h
      obtain ⟨bs, s3, hb, _, rfl⟩ := h
      exact hk.trans (ih.blocks _ _ _ hb)
  list := by
    intro s m l tl r s' hm h
    unfold parseList at h
    simp only [Option.bind_eq_some_iff, Option.some.injEq, Prod.exists, Prod.mk.injEq] at h
    obtain ⟨is, s3, hi, _, rfl⟩ := h
    obtain ⟨hk, hl⟩ := ih.items _ _ _ hi
    have hlt := hl l tl s.chunks m (by simp [St.restore]) hm ((continues_iff _ _ _).mpr (sameKind_refl m))
    have hst := hk.stack
    refine ⟨⟨?_, hk.inDelim, hk.conts, Nat.le_of_lt hlt⟩, hlt⟩
    simp only at hst ⊢
    rw [hst]; rfl
  items := by
    intro s r s' h
    unfold parseItems at h
    simp only [Option.bind_eq_some_iff, Prod.exists] at h
    obtain ⟨i, s2, hi, h⟩ := h
    obtain ⟨hk, hl, hsome⟩ := ih.item _ _ _ hi
    cases i with
    | none =>
      simp only [Option.some.injEq, Prod.mk.injEq] at h
      obtain ⟨_, rfl⟩ := h
      refine ⟨hk, fun l tl rest m h1 h2 h3 => ?_⟩
      have := hsome l tl rest m h1 h2 h3
      simp at this
    | some i =>
      simp only [Option.bind_eq_some_iff, Option.some.injEq, Prod.exists, Prod.mk.injEq] at h
      obtain ⟨is, s3, hi, _, rfl⟩ := h
      have hk2 := (ih.items _ _ _ hi).1
      refine ⟨hk.trans hk2, fun l tl rest m h1 h2 h3 => ?_⟩
      have := hl rfl
      have := hk2.size
      omega
  item := by
    intro s r s' h
    unfold parseItem at h
    split at h
    · rename_i m t tl rest hc
      split at h
      · rename_i hcont
        simp only [Option.bind_eq_some_iff, Option.some.injEq, Prod.exists, Prod.mk.injEq] at h
        obtain ⟨bs, s2, hb, rfl, rfl⟩ := h
        have hk := ih.itemBlocks _ _ _ _ hb
        have h1 := size_restore ({ s with chunks := rest }) (List.dropWhile Ln.continuesPrinciple tl)
        have h2 := dropWhile_length Ln.continuesPrinciple tl
        have h3 := hk.size
        have hsz : size s = wt tl + 2 + size { s with chunks := rest } := by simp [size, hc, Ln.weight]; omega
        refine ⟨⟨by simpa using hk.stack, by simpa using hk.inDelim, by simpa using hk.conts, by omega⟩, fun _ => by omega, by simp⟩
      · rename_i hcont
        simp only [Option.some.injEq, Prod.mk.injEq] at h
        obtain ⟨rfl, rfl⟩ := h
        refine ⟨.refl _, by simp, fun l tl' rest' m' h1 h2 h3 => ?_⟩
        rw [hc] at h1
        simp only [List.cons.injEq] at h1
        obtain ⟨⟨rfl, _⟩, _⟩ := h1
        simp only [Ln.marker, Option.some.injEq] at h2
        subst h2; exact absurd h3 hcont
    · rename_i m t r' tl rest hc
      split at h
      · rename_i hcont
        simp only [Option.bind_eq_some_iff, Option.some.injEq, Prod.exists, Prod.mk.injEq] at h
        obtain ⟨ex, s2, he, d, s3, hd, bs, s4, hb, rfl, rfl⟩ := h
        have hk := ((extraTerms_keeps _ _ _ _ _ _ _ he).trans (ih.block _ _ _ hd).1).trans (ih.desc _ _ _ hb)
        have h3 := hk.size
        have hw := withRest_wt m t r' tl
        have hsz : size { s with chunks := (withRest r' tl) :: rest } + 1 ≤ size s := by
          simp only [size, hc, List.map_cons, List.sum_cons, wt_cons]; omega
        simp only at h3
        refine ⟨⟨by simpa using hk.stack, by simpa using hk.inDelim, by simpa using hk.conts, by omega⟩,
          fun _ => by omega, by simp⟩
      · rename_i hcont
        simp only [Option.some.injEq, Prod.mk.injEq] at h
        obtain ⟨rfl, rfl⟩ := h
        refine ⟨.refl _, by simp, fun l tl' rest' m' h1 h2 h3 => ?_⟩
        rw [hc] at h1
        simp only [List.cons.injEq] at h1
        obtain ⟨⟨rfl, _⟩, _⟩ := h1
        simp only [Ln.marker, Option.some.injEq] at h2
        subst h2; exact absurd h3 hcont
    · rename_i hno1 hno2
      simp only [Option.some.injEq, Prod.mk.injEq] at h
      obtain ⟨rfl, rfl⟩ := h
      refine ⟨.refl _, by simp, fun l tl' rest' m' h1 h2 h3 => ?_⟩
      cases l <;> simp only [Ln.marker, reduceCtorEq, Option.some.injEq] at h2
      · exact absurd h1 (hno1 _ _ _ _)
      · exact absurd h1 (hno2 _ _ _ _ _)
  itemBlocks := by
    intro s lines r s' h
    unfold itemBlocks at h
    split at h
    · simp only [Option.bind_eq_some_iff, Option.some.injEq, Prod.exists, Prod.mk.injEq] at h
      obtain ⟨b, s2, hb, _, rfl⟩ := h
      exact (ih.block _ _ _ hb).1
    · split at h
      · exact ih.conts _ _ _ h
      · split at h
        · simp only [Option.some.injEq, Prod.mk.injEq] at h
          obtain ⟨_, rfl⟩ := h; exact .refl _
        · rename_i hl
          have : lines = [] := by simpa using hl
          subst this
          simpa [St.restore] using ih.nested _ _ _ h
  nested := by
    intro s r s' h
    unfold nestedList at h
    split at h
    · simp only [Option.some.injEq, Prod.mk.injEq] at h
      obtain ⟨_, rfl⟩ := h; exact .refl _
    · rename_i next rest hc
      split at h
      · simp only [Option.some.injEq, Prod.mk.injEq] at h
        obtain ⟨_, rfl⟩ := h; exact .refl _
      · rename_i m hm
        split at h
        · simp only [Option.bind_eq_some_iff, Option.some.injEq, Prod.exists, Prod.mk.injEq] at h
          obtain ⟨b, s2, hb, _, rfl⟩ := h
          obtain ⟨l, tl, rfl, hm'⟩ := firstMarker_eq hm
          have hk := (ih.list _ _ _ _ _ _ hm' hb).1
          have hr : St.restore { s with chunks := rest } (l :: tl) = s := by
            simp [St.restore, ← hc]
          rwa [hr] at hk
        · simp only [Option.some.injEq, Prod.mk.injEq] at h
          obtain ⟨_, rfl⟩ := h; exact .refl _
  conts := by
    intro s r s' h
    unfold contBlocks at h
    split at h
    · rename_i l tl rest hc
      have hsz : size s = size (St.restore { s with chunks := rest } (l :: tl)) + 1 := by
        rw [size_restore_ne _ _ (by simp)]
        simp [size, hc, Ln.weight]; omega
      simp only at h
      split at h
      · simp only [Option.some.injEq, Prod.mk.injEq] at h
        obtain ⟨_, rfl⟩ := h
        refine ⟨by simp, by simp, by simp, ?_⟩
        show size (St.restore { s with chunks := rest } (l :: tl)) ≤ _
        omega
      · simp only [Option.bind_eq_some_iff, Option.some.injEq, Prod.exists, Prod.mk.injEq] at h
        obtain ⟨b, s2, hb, bs, s3, hbs, _, rfl⟩ := h
        have hk := (ih.block _ _ _ hb).1
        have hk2 := ih.conts _ _ _ hbs
        have h1 := hk.size
        have h2 := hk2.size
        refine ⟨?_, ?_, fun _ => hk2.conts rfl, ?_⟩
        · rw [hk2.stack]; show s2.stack = _; rw [hk.stack]; simp
        · rw [hk2.inDelim]; show s2.inDelim = _; rw [hk.inDelim]; simp
        · have h3 : size { s2 with conts := false } = size s2 := rfl
          rw [hsz]
          exact Nat.le_trans (Nat.le_trans h2 h1) (Nat.le_succ _)
    · exact ih.nested _ _ _ h
  desc := by
    intro s r s' h
    unfold descBlocks at h
    split at h
    · simp only [Option.some.injEq, Prod.mk.injEq] at h
      obtain ⟨_, rfl⟩ := h; exact .refl _
    · split at h
      · exact ih.conts _ _ _ h
      · split at h
        · simp only [Option.bind_eq_some_iff, Option.some.injEq, Prod.exists, Prod.mk.injEq] at h
          obtain ⟨b, s2, hb, _, rfl⟩ := h
          exact (ih.block _ _ _ hb).1
        · simp only [Option.some.injEq, Prod.mk.injEq] at h
          obtain ⟨_, rfl⟩ := h; exact .refl _

end Verif.Lists
