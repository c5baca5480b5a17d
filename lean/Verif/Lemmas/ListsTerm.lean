import Verif.Lemmas.Lists
namespace Verif.Lists
set_option linter.unusedSimpArgs false
set_option linter.unusedVariables false

theorem good_zero : Good 0 := by
  constructor <;> intros <;> rename_i h <;> simp_all [parseBlock, parseDelimited, parseBlocks, parseList, parseItems, parseItem, itemBlocks, nestedList, contBlocks, descBlocks]

theorem good (n : Nat) : Good n := by
  induction n with
  | zero => exact good_zero
  | succ n ih => exact good_succ ih

theorem gatherTerms_total (m : Marker) : ∀ n s, size s + 1 ≤ n → ∃ r, gatherTerms m n s = some r := by
  intro n
  induction n with
  | zero => intro s h; omega
  | succ n ih =>
    intro s h
    unfold gatherTerms
    split
    · rename_i m' t r tl rest hc
      split
      · have hw := withRest_wt m' t r tl
        have hr := size_restore { s with chunks := rest } (withRest r tl)
        have hs : size s = (Ln.term m' t r).weight + wt tl + 1 + size { s with chunks := rest } := by simp [size, hc]
        obtain ⟨⟨ts, s'⟩, hg⟩ := ih (St.restore { s with chunks := rest } (withRest r tl)) (by omega)
        exact ⟨_, by rw [hg]; rfl⟩
      · exact ⟨_, rfl⟩
    · exact ⟨_, rfl⟩

theorem extraTerms_total (m : Marker) (n : Nat) (s : St) (r : Option Text) (tl : List Ln)
    (h : size { s with chunks := (withRest r tl) :: s.chunks } + 1 ≤ n) : ∃ x, extraTerms m n s r tl = some x := by
  cases r with
  | none =>
    refine gatherTerms_total _ _ _ (Nat.le_trans ?_ h)
    have := size_restore s tl
    simp [size, withRest] at *; omega
  | some r => exact ⟨_, rfl⟩

structure Total (n : Nat) : Prop where
  block : ∀ s, 8 * size s + 4 ≤ n → ∃ r, parseBlock n s = some r
  delimited : ∀ s, 8 * size s + 6 ≤ n → ∃ r, parseDelimited n s = some r
  blocks : ∀ s, 8 * size s + 5 ≤ n → ∃ r, parseBlocks n s = some r
  list : ∀ s m lines, 8 * size (s.restore lines) + 3 ≤ n → ∃ r, parseList n s m lines = some r
  items : ∀ s, 8 * size s + 2 ≤ n → ∃ r, parseItems n s = some r
  item : ∀ s, 8 * size s + 1 ≤ n → ∃ r, parseItem n s = some r
  itemBlocks : ∀ s lines, 8 * size (s.restore lines) + 6 ≤ n → ∃ r, itemBlocks n s lines = some r
  nested : ∀ s, 8 * size s + 4 ≤ n → ∃ r, nestedList n s = some r
  conts : ∀ s, 8 * size s + 5 ≤ n → ∃ r, contBlocks n s = some r
  desc : ∀ s, 8 * size s + 6 ≤ n → ∃ r, descBlocks n s = some r

theorem total_succ {n : Nat} (ih : Total n) : Total (n + 1) where
  block := by
    intro s h
    unfold parseBlock
    split
    · exact ⟨_, rfl⟩
    · rename_i lines rest hc
      have hlen := dropWhile_length Ln.isAttrs lines
      have hsz : size s = wt lines + 1 + size { s with chunks := rest } := by simp [size, hc]
      simp only
      split
      · have hs2 : size ({ s with chunks := rest } : St).problem = size { s with chunks := rest } := rfl
        exact ih.block _ (by omega)
      · rename_i tl heq
        rw [heq] at hlen
        simp only [wt_cons, Ln.weight] at hlen
        split
        · exact ⟨_, rfl⟩
        · have := size_restore ({ s with chunks := rest }) tl
          exact ih.delimited _ (by omega)
      · rename_i m t tl heq
        rw [heq] at hlen
        have := size_restore ({ s with chunks := rest }) (.item m t :: tl)
        exact ih.list _ _ _ (by omega)
      · rename_i m t r' tl heq
        rw [heq] at hlen
        have := size_restore ({ s with chunks := rest }) (.term m t r' :: tl)
        exact ih.list _ _ _ (by omega)
      · exact ⟨_, rfl⟩
  delimited := by
    intro s h
    unfold parseDelimited
    obtain ⟨⟨bs, s2⟩, hb⟩ := ih.blocks { s with inDelim := true } (by have : size { s with inDelim := true } = size s := rfl; omega)
    exact ⟨_, by rw [hb]; rfl⟩
  blocks := by
    intro s h
    unfold parseBlocks
    obtain ⟨⟨b, s2⟩, hb⟩ := ih.block s (by omega)
    obtain ⟨hk, hl⟩ := (good n).block _ _ _ hb
    rw [hb]
    cases b with
    | none => exact ⟨_, rfl⟩
    | some b =>
      have := hl rfl
      obtain ⟨⟨bs, s3⟩, hb2⟩ := ih.blocks s2 (by omega)
      exact ⟨_, by simp only [Option.bind_some, hb2]; rfl⟩
  list := by
    intro s m lines h
    unfold parseList
    simp only
    obtain ⟨⟨bs, s2⟩, hb⟩ := ih.items { s.restore lines with stack := m :: (s.restore lines).stack } (by
      show 8 * size (s.restore lines) + 2 ≤ n; omega)
    exact ⟨_, by rw [hb]; rfl⟩
  items := by
    intro s h
    unfold parseItems
    obtain ⟨⟨b, s2⟩, hb⟩ := ih.item s (by omega)
    obtain ⟨hk, hl, _⟩ := (good n).item _ _ _ hb
    rw [hb]
    cases b with
    | none => exact ⟨_, rfl⟩
    | some b =>
      have := hl rfl
      obtain ⟨⟨bs, s3⟩, hb2⟩ := ih.items s2 (by omega)
      exact ⟨_, by simp only [Option.bind_some, hb2]; rfl⟩
  item := by
    intro s h
    unfold parseItem
    split
    · rename_i m t tl rest hc
      split
      · have h1 := size_restore ({ s with chunks := rest }) (List.dropWhile Ln.continuesPrinciple tl)
        have h2 := dropWhile_length Ln.continuesPrinciple tl
        have hsz : size s = wt tl + 2 + size { s with chunks := rest } := by simp [size, hc, Ln.weight]; omega
        obtain ⟨⟨bs, s2⟩, hb⟩ := ih.itemBlocks { s with chunks := rest } (List.dropWhile Ln.continuesPrinciple tl) (by omega)
        exact ⟨_, by rw [hb]; rfl⟩
      · exact ⟨_, rfl⟩
    · rename_i m t r' tl rest hc
      split
      · have hw := withRest_wt m t r' tl
        have hsz : size { s with chunks := (withRest r' tl) :: rest } + 1 ≤ size s := by
          simp only [size, hc, List.map_cons, List.sum_cons, wt_cons]; omega
        obtain ⟨⟨ex, s2⟩, he⟩ := extraTerms_total m n { s with chunks := rest } r' tl (by simp only; omega)
        have hk := (extraTerms_keeps _ _ _ _ _ _ _ he).size
        simp only at hk
        obtain ⟨⟨d, s3⟩, hd⟩ := ih.block s2 (by omega)
        have hk3 := ((good n).block _ _ _ hd).1.size
        obtain ⟨⟨bs, s4⟩, hb⟩ := ih.desc s3 (by omega)
        exact ⟨_, by simp only [he, Option.bind_some, hd, hb]; rfl⟩
      · exact ⟨_, rfl⟩
    · exact ⟨_, rfl⟩
  itemBlocks := by
    intro s lines h
    unfold itemBlocks
    split
    · obtain ⟨⟨b, s2⟩, hb⟩ := ih.block (s.restore lines) (by omega)
      exact ⟨_, by rw [hb]; rfl⟩
    · split
      · exact ih.conts _ (by omega)
      · split
        · exact ⟨_, rfl⟩
        · rename_i hl
          have : lines = [] := by simpa using hl
          subst this
          exact ih.nested _ (by simp only [St.restore] at h; simp at h; omega)
  nested := by
    intro s h
    unfold nestedList
    split
    · exact ⟨_, rfl⟩
    · rename_i next rest hc
      split
      · exact ⟨_, rfl⟩
      · rename_i m hm
        split
        · obtain ⟨l, tl, rfl, hm'⟩ := firstMarker_eq hm
          have hr : St.restore { s with chunks := rest } (l :: tl) = s := by
            simp [St.restore, ← hc]
          obtain ⟨⟨b, s2⟩, hb⟩ := ih.list { s with chunks := rest } m (l :: tl) (by rw [hr]; omega)
          exact ⟨_, by rw [hb]; rfl⟩
        · exact ⟨_, rfl⟩
  conts := by
    intro s h
    unfold contBlocks
    split
    · rename_i l tl rest hc
      have hsz : size s = size (St.restore { s with chunks := rest } (l :: tl)) + 1 := by
        rw [size_restore_ne _ _ (by simp)]
        simp [size, hc, Ln.weight]; omega
      simp only
      split
      · exact ⟨_, rfl⟩
      · obtain ⟨⟨b, s2⟩, hb⟩ := ih.block { St.restore { s with chunks := rest } (l :: tl) with conts := true } (by
          show 8 * size (St.restore { s with chunks := rest } (l :: tl)) + 4 ≤ n; omega)
        have hk : size s2 ≤ size (St.restore { s with chunks := rest } (l :: tl)) := ((good n).block _ _ _ hb).1.size
        obtain ⟨⟨bs, s3⟩, hb2⟩ := ih.conts { s2 with conts := false } (by
          show 8 * size s2 + 5 ≤ n; omega)
        simp only at hb
        exact ⟨_, by simp only [hb, Option.bind_some, hb2]; rfl⟩
    · exact ih.nested _ (by omega)
  desc := by
    intro s h
    unfold descBlocks
    split
    · exact ⟨_, rfl⟩
    · split
      · exact ih.conts _ (by omega)
      · split
        · obtain ⟨⟨b, s2⟩, hb⟩ := ih.block s (by omega)
          exact ⟨_, by rw [hb]; rfl⟩
        · exact ⟨_, rfl⟩

theorem total (n : Nat) : Total n := by
  induction n with
  | zero => constructor <;> intros <;> omega
  | succ n ih => exact total_succ ih

/-! ### nothing is lost -/

def lnsTexts (ls : List Ln) : List Text := ls.flatMap Ln.texts
def chTexts (c : List (List Ln)) : List Text := c.flatMap lnsTexts

@[simp] theorem lnsTexts_nil : lnsTexts [] = [] := rfl
@[simp] theorem lnsTexts_cons (l : Ln) (ls : List Ln) : lnsTexts (l :: ls) = l.texts ++ lnsTexts ls := by simp [lnsTexts]
theorem lnsTexts_append (a b : List Ln) : lnsTexts (a ++ b) = lnsTexts a ++ lnsTexts b := by simp [lnsTexts]
@[simp] theorem chTexts_nil : chTexts [] = [] := rfl
@[simp] theorem chTexts_cons (l : List Ln) (ls) : chTexts (l :: ls) = lnsTexts l ++ chTexts ls := by simp [chTexts]

theorem restore_texts (s : St) (l : List Ln) : chTexts (s.restore l).chunks = lnsTexts l ++ chTexts s.chunks := by
  unfold St.restore
  split
  · rename_i h; have : l = [] := by simpa using h
    subst this; simp
  · simp

theorem attrs_texts (ls : List Ln) : lnsTexts (ls.dropWhile Ln.isAttrs) = lnsTexts ls := by
  induction ls with
  | nil => rfl
  | cons l ls ih =>
    cases l <;> simp [List.dropWhile_cons, Ln.isAttrs, Ln.texts, ih]

theorem split_texts (p : Ln → Bool) (ls : List Ln) :
    lnsTexts (ls.takeWhile p) ++ lnsTexts (ls.dropWhile p) = lnsTexts ls := by
  rw [← lnsTexts_append, List.takeWhile_append_dropWhile]

end Verif.Lists
