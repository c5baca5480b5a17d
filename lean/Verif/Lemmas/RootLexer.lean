import Verif.Spec.RootLexer
import Verif.Lemmas.Utf8
namespace Verif.Lexer
namespace Root

def restAt (sources : List Src) (i : Nat) : List UInt8 := ((sources[i]?).map Src.rest).getD []

/-- the sources being read exist, later ones are inner ones, and only the outermost can be past its end -/
structure Live (sources : List Src) (l : List Nat) : Prop where
  bound : ∀ i ∈ l, i < sources.length
  sorted : l.Pairwise (· > ·)
  pos : ∀ i ∈ l.dropLast, ∀ s, sources[i]? = some s → s.pos ≤ s.bytes.length

theorem flat_eq (r : Root) : r.flat = r.live.flatMap (restAt r.sources) := rfl

theorem setPos_get_ne (r : Root) (p i : Nat) (h : i ≠ r.idx) : (r.setPos p).sources[i]? = r.sources[i]? := by
  simp only [setPos, List.getElem?_modify]
  have : ¬ r.idx = i := fun e => h e.symm
  simp [this]

theorem setPos_get_self (r : Root) (p : Nat) {s : Src} (h : r.sources[r.idx]? = some s) :
    (r.setPos p).sources[r.idx]? = some { s with pos := p } := by
  simp [setPos, h]

theorem setPos_length (r : Root) (p : Nat) : (r.setPos p).sources.length = r.sources.length := by
  simp [setPos]

theorem restAt_of {sources : List Src} {i : Nat} {s : Src} (h : sources[i]? = some s) :
    restAt sources i = s.rest := by simp [restAt, h]

theorem Live.tail {sources : List Src} {i j : Nat} {l : List Nat} (h : Live sources (i :: j :: l)) :
    Live sources (j :: l) :=
  ⟨fun k hk => h.bound k (by simp [hk]), h.sorted.tail, fun k hk => h.pos k (by
    rw [List.dropLast_cons_of_ne_nil (by simp)]; exact List.mem_cons_of_mem _ hk)⟩

/-- changing the position of the innermost source -/
theorem Live.setPos {sources : List Src} {i : Nat} {l : List Nat} (h : Live sources (i :: l)) (p : Nat)
    (nx : Option Nat) (hp : ∀ s, sources[i]? = some s → l ≠ [] → p ≤ s.bytes.length) :
    Live (setPos ⟨sources, i, nx, l⟩ p).sources (i :: l) ∧
    (∀ j ∈ l, (setPos ⟨sources, i, nx, l⟩ p).sources[j]? = sources[j]?) := by
  have hne : ∀ j ∈ l, (Root.setPos ⟨sources, i, nx, l⟩ p).sources[j]? = sources[j]? := by
    intro j hj
    have := (List.pairwise_cons.mp h.sorted).1 j hj
    exact setPos_get_ne ⟨sources, i, nx, l⟩ p j (by simp only; omega)
  refine ⟨⟨?_, h.sorted, ?_⟩, hne⟩
  · intro j hj; rw [setPos_length]; exact h.bound j hj
  · intro j hj s hs
    by_cases hl : l = []
    · subst hl; simp at hj
    · rw [List.dropLast_cons_of_ne_nil hl] at hj
      rcases List.mem_cons.mp hj with rfl | hj'
      · have hb := h.bound j (by simp)
        obtain ⟨s0, hs0⟩ : ∃ s0, sources[j]? = some s0 := ⟨_, List.getElem?_eq_getElem hb⟩
        have := setPos_get_self ⟨sources, j, nx, l⟩ p hs0
        rw [this] at hs; cases hs
        exact hp s0 hs0 hl
      · rw [hne j (List.dropLast_subset l hj')] at hs
        refine h.pos j ?_ s hs
        rw [List.dropLast_cons_of_ne_nil hl]; exact List.mem_cons_of_mem _ hj'

theorem flatMap_restAt_congr {a b : List Src} {l : List Nat} (h : ∀ j ∈ l, a[j]? = b[j]?) :
    l.flatMap (restAt a) = l.flatMap (restAt b) := by
  induction l with
  | nil => rfl
  | cons i l ih =>
    simp only [List.flatMap_cons, restAt, h i (by simp)]
    congr 1
    exact ih fun j hj => h j (by simp [hj])

theorem Live.congr {a b : List Src} {l : List Nat} (h : Live a l) (hl : a.length = b.length)
    (he : ∀ j ∈ l, b[j]? = a[j]?) : Live b l :=
  ⟨fun i hi => hl ▸ h.bound i hi, h.sorted, fun i hi s hs => h.pos i hi s (by
    rw [← he i (List.dropLast_subset l hi)]; exact hs)⟩

theorem maybeAdvance_live (r : Root) : r.maybeAdvance.live = r.live ∧ r.maybeAdvance.nextIdx = none ∧
    r.maybeAdvance.sources = r.sources := by
  unfold maybeAdvance
  split <;> rename_i h <;> simp [live, h]

theorem rest_nil_of {s : Src} (h : s.rest = []) : s.bytes.length ≤ s.pos := by
  simpa [Src.rest] using h

theorem skipLoop_spec (sources : List Src) (idx : Nat) (stack : List Nat) (h : Live sources (idx :: stack)) :
    ∃ r', skipLoop sources idx stack = some r' ∧ r'.nextIdx = none ∧ Live r'.sources r'.live ∧
      r'.sources.length = sources.length ∧ r'.live.length ≤ stack.length + 1 ∧
      r'.flat = ((idx :: stack).flatMap (restAt sources)).tail := by
  induction stack generalizing idx with
  | nil =>
    unfold skipLoop
    have hb := h.bound idx (by simp)
    obtain ⟨s, hs⟩ : ∃ s, sources[idx]? = some s := ⟨_, List.getElem?_eq_getElem hb⟩
    simp only [hs, Option.bind_eq_bind, Option.bind_some, Option.pure_def]
    split
    · rename_i c cs hr
      have hp : s.pos + 1 ≤ s.bytes.length := by
        have : s.rest.length = s.bytes.length - s.pos := by simp [Src.rest]
        rw [hr] at this; simp only [List.length_cons] at this; omega
      have := h.setPos (s.pos + 1) none (fun s' hs' hn => by rw [hs] at hs'; cases hs'; exact hp)
      refine ⟨_, rfl, rfl, by simpa [live, Root.setPos] using this.1, setPos_length _ _, by simp [live, Root.setPos], ?_⟩
      rw [flat_eq]
      have h1 := setPos_get_self ⟨sources, idx, none, []⟩ (s.pos + 1) hs
      have hl : (setPos ⟨sources, idx, none, []⟩ (s.pos + 1)).live = [idx] := by simp [live, Root.setPos]
      rw [hl]
      simp only [List.flatMap_cons, List.flatMap_nil, List.append_nil, restAt_of h1, restAt_of hs]
      show s.bytes.drop (s.pos + 1) = (s.bytes.drop s.pos).tail
      simp
    · rename_i hr
      refine ⟨_, rfl, rfl, by simpa [live] using h, rfl, by simp [live], ?_⟩
      rw [flat_eq]
      simp [live, restAt_of hs, hr]
  | cons prev stack ih =>
    unfold skipLoop
    have hb := h.bound idx (by simp)
    obtain ⟨s, hs⟩ : ∃ s, sources[idx]? = some s := ⟨_, List.getElem?_eq_getElem hb⟩
    simp only [hs, Option.bind_eq_bind, Option.bind_some, Option.pure_def]
    split
    · rename_i c cs hr
      have hp : s.pos + 1 ≤ s.bytes.length := by
        have : s.rest.length = s.bytes.length - s.pos := by simp [Src.rest]
        rw [hr] at this; simp only [List.length_cons] at this; omega
      have := h.setPos (s.pos + 1) none (fun s' hs' hn => by rw [hs] at hs'; cases hs'; exact hp)
      refine ⟨_, rfl, rfl, by simpa [live, Root.setPos] using this.1, setPos_length _ _, by simp [live, Root.setPos], ?_⟩
      rw [flat_eq]
      have h1 := setPos_get_self ⟨sources, idx, none, prev :: stack⟩ (s.pos + 1) hs
      have hl : (setPos ⟨sources, idx, none, prev :: stack⟩ (s.pos + 1)).live = idx :: prev :: stack := by
        simp [live, Root.setPos]
      rw [hl, List.flatMap_cons (x := idx), List.flatMap_cons (x := idx), restAt_of h1, flatMap_restAt_congr this.2, restAt_of hs]
      have : ({ s with pos := s.pos + 1 } : Src).rest = s.rest.tail := by simp [Src.rest]
      rw [this, hr]; rfl
    · rename_i hr
      obtain ⟨r', e1, e2, e3, e4, e6, e5⟩ := ih prev h.tail
      refine ⟨r', e1, e2, e3, e4, by simp only [List.length_cons]; omega, ?_⟩
      rw [e5, List.flatMap_cons (x := idx), restAt_of hs, hr]; rfl

/-- what a call of `next_token` does to the flat text -/
def NextOk (flatBefore : List UInt8) (t : Option (Step × Nat)) (r' : Root) : Prop :=
  match t with
  | none => flatBefore = [] ∧ r'.flat = []
  | some (t, i) => ∃ s lexeme, r'.sources[i]? = some s ∧ slice s.bytes t.start t.stop = some lexeme ∧
      lexeme ≠ [] ∧ flatBefore = lexeme ++ r'.flat ∧ i = r'.idx

theorem nextLoop_spec (plugins : List (List UInt8)) (sources : List Src) (idx : Nat) (stack : List Nat)
    (h : Live sources (idx :: stack)) :
    ∃ t r', nextLoop plugins sources idx stack = some (t, r') ∧ r'.nextIdx = none ∧ Live r'.sources r'.live ∧
      r'.sources.length = sources.length ∧ r'.live.length ≤ stack.length + 1 ∧ NextOk ((idx :: stack).flatMap (restAt sources)) t r' := by
  induction stack generalizing idx sources with
  | nil =>
    unfold nextLoop
    have hb := h.bound idx (by simp)
    obtain ⟨s, hs⟩ : ∃ s, sources[idx]? = some s := ⟨_, List.getElem?_eq_getElem hb⟩
    simp only [hs, Option.bind_eq_bind, Option.bind_some, Option.pure_def]
    by_cases hp : s.pos < s.bytes.length
    · obtain ⟨t, ht, hg⟩ := nextToken_good (plugins := plugins) hp
      have h1 := hg.start; have h2 := hg.stop; have h3 := hg.lt; have h4 := hg.le
      have hlive := h.setPos t.pos none (fun s' hs' _ => by rw [hs] at hs'; cases hs'; exact h4)
      have hself := setPos_get_self ⟨sources, idx, none, []⟩ t.pos hs
      simp only [ht, Option.bind_some]
      refine ⟨_, _, rfl, rfl, by simpa [live] using hlive.1, setPos_length _ _, by simp [live, Root.setPos], ?_⟩
      refine ⟨_, _, hself, by simp only [h1, h2]; exact slice_some (by omega) h4, ?_, ?_, rfl⟩
      · intro hn
        have := congrArg List.length hn
        simp at this; omega
      · rw [flat_eq]
        simp only [live, Option.toList_none, List.nil_append, List.flatMap_cons, List.flatMap_nil,
          List.append_nil, restAt_of hs]
        rw [restAt_of hself]
        simp only [Src.rest]
        conv => lhs; rw [← List.take_append_drop (t.pos - s.pos) (s.bytes.drop s.pos)]
        rw [List.drop_drop]; congr 2; omega
    · simp only [nextToken_eof (plugins := plugins) (Nat.le_of_not_lt hp), Option.bind_some]
      have hself := setPos_get_self ⟨sources, idx, none, []⟩ (s.pos + 1) hs
      have hlive := h.setPos (s.pos + 1) none (fun _ _ hn => absurd rfl hn)
      refine ⟨_, _, rfl, rfl, by simpa [live] using hlive.1, setPos_length _ _, by simp [live], ?_, ?_⟩
      · simp [restAt_of hs, Src.rest]; omega
      · rw [flat_eq]
        simp only [live, Option.toList_none, List.nil_append, List.flatMap_cons, List.flatMap_nil,
          List.append_nil]
        rw [restAt_of hself]; simp [Src.rest]; omega
  | cons prev stack ih =>
    unfold nextLoop
    have hb := h.bound idx (by simp)
    obtain ⟨s, hs⟩ : ∃ s, sources[idx]? = some s := ⟨_, List.getElem?_eq_getElem hb⟩
    simp only [hs, Option.bind_eq_bind, Option.bind_some, Option.pure_def]
    by_cases hp : s.pos < s.bytes.length
    · obtain ⟨t, ht, hg⟩ := nextToken_good (plugins := plugins) hp
      have h1 := hg.start; have h2 := hg.stop; have h3 := hg.lt; have h4 := hg.le
      have hlive := h.setPos t.pos none (fun s' hs' _ => by rw [hs] at hs'; cases hs'; exact h4)
      have hself := setPos_get_self ⟨sources, idx, none, prev :: stack⟩ t.pos hs
      simp only [ht, Option.bind_some]
      refine ⟨_, _, rfl, rfl, by simpa [live] using hlive.1, setPos_length _ _, by simp [live, Root.setPos], ?_⟩
      refine ⟨_, _, hself, by simp only [h1, h2]; exact slice_some (by omega) h4, ?_, ?_, rfl⟩
      · intro hn
        have := congrArg List.length hn
        simp at this; omega
      · rw [flat_eq]
        simp only [live, Option.toList_none, List.nil_append]
        rw [List.flatMap_cons (x := idx), List.flatMap_cons (x := idx), restAt_of hself,
          flatMap_restAt_congr hlive.2, restAt_of hs]
        simp only [Src.rest]
        rw [← List.append_assoc]; congr 1
        conv => lhs; rw [← List.take_append_drop (t.pos - s.pos) (s.bytes.drop s.pos)]
        rw [List.drop_drop]; congr 2; omega
    · simp only [nextToken_eof (plugins := plugins) (Nat.le_of_not_lt hp), Option.bind_some]
      have hne : ∀ j ∈ prev :: stack, (setPos ⟨sources, idx, none, prev :: stack⟩ (s.pos + 1)).sources[j]? =
          sources[j]? := by
        intro j hj
        have := (List.pairwise_cons.mp h.sorted).1 j hj
        exact setPos_get_ne ⟨sources, idx, none, prev :: stack⟩ _ j (by simp only; omega)
      obtain ⟨t, r', e1, e2, e3, e4, e6, e5⟩ := ih _ prev (h.tail.congr (setPos_length ⟨sources, idx, none, prev :: stack⟩ _).symm hne)
      refine ⟨t, r', e1, e2, e3, by rw [e4, setPos_length], by simp only [List.length_cons]; omega, ?_⟩
      rw [flatMap_restAt_congr hne] at e5
      rw [List.flatMap_cons (x := idx), restAt_of hs]
      have : s.rest = [] := by simp [Src.rest]; omega
      rw [this]; exact e5

theorem dropWhile_isNl_spec (l : List UInt8) : ∃ nl, l = nl ++ l.dropWhile isNl ∧
    (∀ b ∈ nl, b = 10 ∨ b = 13) ∧ (∀ b, (l.dropWhile isNl).head? = some b → b ≠ 10 ∧ b ≠ 13) := by
  refine ⟨l.takeWhile isNl, List.takeWhile_append_dropWhile.symm, ?_, ?_⟩
  · intro b hb
    have := List.all_takeWhile (l := l) (p := isNl)
    have := List.all_eq_true.mp this b hb
    simpa [isNl] using this
  · intro b hb
    have := List.head?_dropWhile_not isNl l
    rw [hb] at this
    simpa [isNl] using this

theorem drop_takeWhile (f : UInt8 → Bool) (l : List UInt8) :
    l.drop (l.takeWhile f).length = l.dropWhile f := by
  induction l with
  | nil => rfl
  | cons a l ih => by_cases h : f a <;> simp [h, ih]

theorem consumeLoop_spec (sources : List Src) (idx : Nat) (stack : List Nat) (h : Live sources (idx :: stack)) :
    ∃ r', consumeLoop sources idx stack = some r' ∧ r'.nextIdx = none ∧ Live r'.sources r'.live ∧
      r'.sources.length = sources.length ∧ r'.live.length ≤ stack.length + 1 ∧
      r'.flat = ((idx :: stack).flatMap (restAt sources)).dropWhile isNl := by
  induction stack generalizing idx sources with
  | nil =>
    unfold consumeLoop
    have hb := h.bound idx (by simp)
    obtain ⟨s, hs⟩ : ∃ s, sources[idx]? = some s := ⟨_, List.getElem?_eq_getElem hb⟩
    simp only [hs, Option.bind_eq_bind, Option.bind_some, Option.pure_def, ite_self]
    have hlive := h.setPos (srcConsume s) none (fun _ _ hn => absurd rfl hn)
    have hself := setPos_get_self ⟨sources, idx, none, []⟩ (srcConsume s) hs
    refine ⟨_, rfl, rfl, by simpa [live, Root.setPos] using hlive.1, setPos_length _ _, by simp [live, Root.setPos], ?_⟩
    rw [flat_eq]
    have hl : (setPos ⟨sources, idx, none, []⟩ (srcConsume s)).live = [idx] := by simp [live, Root.setPos]
    rw [hl]
    simp only [List.flatMap_cons, List.flatMap_nil, List.append_nil, restAt_of hself, restAt_of hs]
    simp only [Src.rest, srcConsume, scan]
    rw [← List.drop_drop, drop_takeWhile]
  | cons prev stack ih =>
    unfold consumeLoop
    have hb := h.bound idx (by simp)
    obtain ⟨s, hs⟩ : ∃ s, sources[idx]? = some s := ⟨_, List.getElem?_eq_getElem hb⟩
    have hpos := h.pos idx (by simp) s hs
    simp only [hs, Option.bind_eq_bind, Option.bind_some, Option.pure_def]
    have hsc : srcConsume s ≤ s.bytes.length := scan_le _ _ _ hpos
    have hdrop : s.bytes.drop (srcConsume s) = s.rest.dropWhile isNl := by
      simp only [Src.rest, srcConsume, scan]
      rw [← List.drop_drop, drop_takeWhile]
    have hlive := h.setPos (srcConsume s) none (fun s' hs' _ => by rw [hs] at hs'; cases hs'; exact hsc)
    have hself := setPos_get_self ⟨sources, idx, none, prev :: stack⟩ (srcConsume s) hs
    split
    · rename_i heq
      obtain ⟨r', e1, e2, e3, e4, e6, e5⟩ := ih _ prev hlive.1.tail
      refine ⟨r', e1, e2, e3, by rw [e4, setPos_length], by simp only [List.length_cons]; omega, ?_⟩
      rw [e5, List.flatMap_cons (x := idx), flatMap_restAt_congr hlive.2, restAt_of hs]
      have hall : s.rest.dropWhile isNl = [] := by rw [← hdrop, heq]; simp
      rw [List.dropWhile_append, hall]; simp
    · rename_i hne
      refine ⟨_, rfl, rfl, by simpa [live, Root.setPos] using hlive.1, setPos_length _ _, by simp [live, Root.setPos], ?_⟩
      rw [flat_eq]
      have hl : (setPos ⟨sources, idx, none, prev :: stack⟩ (srcConsume s)).live = idx :: prev :: stack := by
        simp [live, Root.setPos]
      rw [hl, List.flatMap_cons (x := idx), List.flatMap_cons (x := idx), restAt_of hself,
        flatMap_restAt_congr hlive.2, restAt_of hs]
      have : ({ s with pos := srcConsume s } : Src).rest = s.rest.dropWhile isNl := hdrop
      rw [this, List.dropWhile_append]
      have : s.rest.dropWhile isNl ≠ [] := by
        rw [← hdrop]; intro hn
        simp at hn; omega
      simp [this]

end Root
end Verif.Lexer
