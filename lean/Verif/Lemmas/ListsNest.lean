import Verif.Lemmas.Lists
namespace Verif.Lists
set_option linter.unusedSimpArgs false
set_option linter.unusedVariables false

def wr (R : List (List Row)) : List (List Ln) := R.map fun rows => rows.flatMap Row.write

/-- text or the end of the document -/
def TextTail (tail : List (List Ln)) : Prop := tail = [] ∨ ∃ t ls rest, tail = (.text t :: ls) :: rest

/-- the marker of the next row, if there is one, is of the kind of one of `ms` -/
def HeadIn (ms : List Marker) (R : List (List Row)) : Prop :=
  R = [] ∨ ∃ r rows rest, R = (r :: rows) :: rest ∧ ∃ x ∈ ms, SameKind x r.marker

theorem dropWhile_more (more : List Text) (rows : List Row) :
    (more.map Ln.text ++ rows.flatMap Row.write).dropWhile Ln.continuesPrinciple = rows.flatMap Row.write := by
  induction more with
  | nil => cases rows <;> simp [Row.write, Ln.continuesPrinciple]
  | cons t ts ih => simpa [Ln.continuesPrinciple, List.dropWhile_cons, List.takeWhile_cons] using ih

theorem takeWhile_more (more : List Text) (rows : List Row) :
    (more.map Ln.text ++ rows.flatMap Row.write).takeWhile Ln.continuesPrinciple = more.map Ln.text := by
  induction more with
  | nil => cases rows <;> simp [Row.write, Ln.continuesPrinciple]
  | cons t ts ih => simpa [Ln.continuesPrinciple, List.dropWhile_cons, List.takeWhile_cons] using ih

theorem asText_map (more : List Text) : (more.map Ln.text).flatMap Ln.asText = more := by
  induction more with
  | nil => rfl
  | cons t ts ih => simp [Ln.asText] at ih ⊢; exact ih

theorem startsNested_fresh {stack : List Marker} {m : Marker} (h : startsNested stack m = true) :
    ∀ x ∈ stack, ¬ SameKind x m := ((startsNested_iff _ _).mp h).2

theorem not_startsNested {stack : List Marker} (hne : stack ≠ []) {m : Marker} (h : ¬ startsNested stack m = true) :
    ∃ x ∈ stack, SameKind x m := by
  rw [startsNested_iff] at h
  refine Classical.byContradiction fun hc => h ⟨hne, fun x hx hk => hc ⟨x, hx, hk⟩⟩

/-- the conclusion about `parseItems` -/
def ItemsOk (k : Nat) : Prop :=
  ∀ (n : Nat) (s : St) (m0 : Marker) (opened : List Marker) (R : List (List Row)) (tail : List (List Ln)),
    s.stack = m0 :: opened → s.chunks = wr R ++ tail → (∀ rows ∈ R, rows ≠ []) → TextTail tail →
    R.flatten.length ≤ k → HeadIn (m0 :: opened) R → 5 * k + 2 ≤ n →
    ∃ items R', parseItems n s = some (items, { s with chunks := wr R' ++ tail }) ∧
      ItemsNested opened m0 items ∧ itemsRows items ++ R'.flatten = R.flatten ∧ (∀ rows ∈ R', rows ≠ []) ∧
      HeadIn opened R' ∧ (items = [] → R' = R)

theorem list_ok {k : Nat} (ih : ItemsOk k) (n : Nat) (s : St) (r : Row) (rows : List Row) (R : List (List Row))
    (tail : List (List Ln)) (hc : s.chunks = wr R ++ tail)
    (hne : ∀ rows ∈ R, rows ≠ []) (ht : TextTail tail) (hk : ((r :: rows) :: R).flatten.length ≤ k) (hn : 5 * k + 3 ≤ n) 
    (hfresh : ∀ x ∈ s.stack, ¬ SameKind x r.marker) :
    ∃ b R', parseList n s r.marker ((r :: rows).flatMap Row.write) = some (some b, { s with chunks := wr R' ++ tail }) ∧
      WellNested s.stack r.marker b ∧ b.rows ++ R'.flatten = ((r :: rows) :: R).flatten ∧ (∀ rows ∈ R', rows ≠ []) ∧
      HeadIn s.stack R' := by
  obtain ⟨n, rfl⟩ : ∃ n', n = n' + 1 := ⟨n - 1, by omega⟩
  have hres : s.restore ((r :: rows).flatMap Row.write) = { s with chunks := wr ((r :: rows) :: R) ++ tail } := by
    simp [St.restore, Row.write, wr, hc]
  obtain ⟨items, R', h1, h2, h3, h4, h5, h6⟩ :=
    ih n { s with chunks := wr ((r :: rows) :: R) ++ tail, stack := r.marker :: s.stack } r.marker s.stack
      ((r :: rows) :: R) tail rfl rfl (by
        intro x hx; rcases List.mem_cons.mp hx with rfl | hx
        · simp
        · exact hne _ hx) ht hk
      (.inr ⟨r, rows, R, rfl, r.marker, by simp, sameKind_refl _⟩) (by omega)
  refine ⟨.list ((s.stack.length + 1) % 256) items, R', ?_, ?_, ?_, h4, h5⟩
  · unfold parseList
    simp only [hres]
    rw [h1]
    simp
  · unfold WellNested
    refine ⟨rfl, ?_, h2⟩
    intro hi
    have := h6 hi
    rw [this] at h5
    rcases h5 with h5 | ⟨r', rows', rest', h5, x, hx, hxx⟩
    · cases h5
    · injection h5 with h5 _; injection h5 with h5 _
      subst h5
      exact hfresh x hx hxx
  · simpa [Block.rows] using h3

theorem items_ok (k : Nat) : ItemsOk k := by
  induction k with
  | zero =>
    intro n s m0 opened R tail hs hc hne ht hk hh hn
    obtain ⟨n, rfl⟩ : ∃ n', n = n' + 2 := ⟨n - 2, by omega⟩
    have hR : R = [] := by
      cases R with
      | nil => rfl
      | cons a R => cases a with
        | nil => exact absurd rfl (hne [] (by simp))
        | cons r rows => simp at hk
    subst hR
    refine ⟨[], [], ?_, ?_, ?_, ?_, ?_, ?_⟩
    · have hs' : s = { s with chunks := wr [] ++ tail } := by rw [← hc]
      unfold parseItems
      have : parseItem (n + 1) s = some (none, s) := by
        unfold parseItem
        rcases ht with rfl | ⟨t, ls, rest, rfl⟩ <;> simp [hc, wr]
      rw [this]
      simp only [Option.bind_some]
      rw [← hs']
    · simp [ItemsNested]
    · simp [itemsRows]
    · simp
    · exact .inl rfl
    · simp
  | succ k ih =>
    intro n s m0 opened R tail hs hc hne ht hk hh hn
    rcases hh with rfl | ⟨r, rows, rest, rfl, x, hx, hxr⟩
    · obtain ⟨items, R', h⟩ := ih n s m0 opened [] tail hs hc hne ht (by simp) (.inl rfl) (by omega)
      exact ⟨items, R', h⟩
    obtain ⟨n, rfl⟩ : ∃ n', n = n' + 7 := ⟨n - 7, by omega⟩
    have hc' : s.chunks = (.item r.marker r.text :: (r.more.map .text ++ rows.flatMap Row.write)) :: (wr rest ++ tail) := by
      simp [hc, wr, Row.write]
    by_cases hcur : continuesCurrent s.stack r.marker = true
    · have hsame : SameKind m0 r.marker := by
        rw [hs, continues_iff] at hcur; exact hcur
      -- what follows the item
      obtain ⟨blocks, R1, hb1, hb2, hb3, hb4, hb5⟩ : ∃ blocks R1,
          itemBlocks (n + 5) { s with chunks := wr rest ++ tail } (rows.flatMap Row.write) =
            some (blocks, { s with chunks := wr R1 ++ tail }) ∧
          NestedList (m0 :: opened) blocks ∧ blocksRows blocks ++ R1.flatten = rows ++ rest.flatten ∧
          (∀ rows ∈ R1, rows ≠ []) ∧ HeadIn (m0 :: opened) R1 := by
        have hrest : ∀ rows ∈ rest, rows ≠ [] := fun q hq => hne q (by simp [hq])
        unfold itemBlocks
        cases rows with
        | cons r2 rows2 =>
          have hl : linesStartNested s.stack true ((r2 :: rows2).flatMap Row.write) = startsNested s.stack r2.marker := by
            simp [linesStartNested, Row.write, Ln.isAttrs, Ln.marker]
          by_cases hnest : startsNested s.stack r2.marker = true
          · simp only [hl, hnest, if_true]
            have hfr := startsNested_fresh hnest
            obtain ⟨b, R', h1, h2, h3, h4, h5⟩ := list_ok ih (n + 3) { s with chunks := wr rest ++ tail } r2 rows2 rest tail rfl
              hrest ht (by simp at hk ⊢; omega) (by omega) hfr
            refine ⟨[b], R', ?_, ?_, ?_, h4, ?_⟩
            · have : parseBlock (n + 4) (St.restore { s with chunks := wr rest ++ tail } ((r2 :: rows2).flatMap Row.write)) =
                  parseList (n + 3) { s with chunks := wr rest ++ tail } r2.marker ((r2 :: rows2).flatMap Row.write) := by
                conv => lhs; unfold parseBlock
                simp [St.restore, Row.write, Ln.isAttrs, List.dropWhile_cons]
              rw [this, h1]; simp
            · simp only at h2 hfr
              rw [hs] at h2 hfr
              exact ⟨rfl, r2.marker, hfr, h2⟩
            · simpa [blocksRows] using h3
            · simpa [hs] using h5
          · simp only [hl, hnest, if_false]
            refine ⟨[], (r2 :: rows2) :: rest, ?_, ?_, ?_, ?_, ?_⟩
            · simp [startsContinuation, Row.write, St.restore, wr]
            · simp [NestedList]
            · simp [blocksRows]
            · intro q hq; rcases List.mem_cons.mp hq with rfl | hq
              · simp
              · exact hrest _ hq
            · exact .inr ⟨r2, rows2, rest, rfl, by
                have := not_startsNested (by rw [hs]; simp) hnest
                rwa [hs] at this⟩
        | nil =>
          simp only [List.flatMap_nil, linesStartNested, startsContinuation, Bool.false_eq_true, if_false, List.isEmpty_nil,
            Bool.not_true]
          cases rest with
          | nil =>
            refine ⟨[], [], ?_, by simp [NestedList], by simp [blocksRows], by simp, .inl rfl⟩
            unfold nestedList
            rcases ht with rfl | ⟨t, ls, rest, rfl⟩ <;> simp [wr, firstMarker, Ln.marker]
          | cons c2 rest2 =>
            cases c2 with
            | nil => exact absurd rfl (hrest [] (by simp))
            | cons r2 rows2 =>
              have hrest2 : ∀ rows ∈ rest2, rows ≠ [] := fun q hq => hrest q (by simp [hq])
              have hl : linesStartNested s.stack false ((r2 :: rows2).flatMap Row.write) = startsNested s.stack r2.marker := by
                simp [linesStartNested, Row.write, Ln.isAttrs, Ln.marker]
              have hf : firstMarker ((r2 :: rows2).flatMap Row.write) = some r2.marker := by
                simp [firstMarker, Row.write, Ln.marker]
              have hw : wr ((r2 :: rows2) :: rest2) ++ tail = (r2 :: rows2).flatMap Row.write :: (wr rest2 ++ tail) := by
                simp [wr]
              unfold nestedList
              simp only [hw, hf, hl]
              by_cases hnest : startsNested s.stack r2.marker = true
              · simp only [hnest, if_true]
                have hfr := startsNested_fresh hnest
                obtain ⟨b, R', h1, h2, h3, h4, h5⟩ := list_ok ih (n + 3) { s with chunks := wr rest2 ++ tail } r2 rows2 rest2 tail rfl
                  hrest2 ht (by simp at hk ⊢; omega) (by omega) hfr
                refine ⟨[b], R', ?_, ?_, ?_, h4, ?_⟩
                · rw [h1]; simp
                · simp only at h2 hfr
                  rw [hs] at h2 hfr
                  exact ⟨rfl, r2.marker, hfr, h2⟩
                · simpa [blocksRows] using h3
                · simpa [hs] using h5
              · simp only [hnest, if_false]
                refine ⟨[], (r2 :: rows2) :: rest2, ?_, ?_, ?_, ?_, ?_⟩
                · simp [hw]
                · simp [NestedList]
                · simp [blocksRows]
                · exact hrest
                · exact .inr ⟨r2, rows2, rest2, rfl, by
                    have := not_startsNested (by rw [hs]; simp) hnest
                    rwa [hs] at this⟩
      have hlen : R1.flatten.length ≤ k := by
        have := congrArg List.length hb3
        simp at this hk ⊢
        omega
      obtain ⟨items, R', h1, h2, h3, h4, h5, h6⟩ := ih (n + 6) { s with chunks := wr R1 ++ tail } m0 opened R1 tail hs rfl hb4 ht hlen hb5
        (by omega)
      refine ⟨.mk r.marker r.text (r.more.map .text) [] none blocks :: items, R', ?_, ?_, ?_, h4, h5, by simp⟩
      · have hi : parseItem (n + 6) s = some (some (.mk r.marker r.text (r.more.map .text) [] none blocks),
            { s with chunks := wr R1 ++ tail }) := by
          conv => lhs; unfold parseItem
          simp only [hc', hcur, if_true, dropWhile_more, takeWhile_more, hb1, Option.bind_some]
        unfold parseItems
        rw [hi]
        simp only [Option.bind_some]
        rw [h1]
        simp
      · unfold ItemsNested
        refine ⟨?_, h2⟩
        unfold ItemNested
        exact ⟨hsame, by simp, rfl, rfl, hb2⟩
      · simp only [itemsRows, Item.rows, asText_map, List.cons_append, List.append_assoc, h3, hb3]
        simp
    · refine ⟨[], (r :: rows) :: rest, ?_, ?_, ?_, hne, ?_, by simp⟩
      · have hi : parseItem (n + 6) s = some (none, s) := by
          unfold parseItem
          simp [hc', hcur]
        unfold parseItems
        rw [hi]
        simp only [Option.bind_some]
        rw [← hc]
      · simp [ItemsNested]
      · simp [itemsRows]
      · rw [hs, continues_iff] at hcur
        rcases List.mem_cons.mp hx with rfl | hx
        · exact absurd hxr hcur
        · exact .inr ⟨r, rows, rest, rfl, x, hx, hxr⟩

/-! ### documents -/

def Piece.count : Piece → Nat
  | .para _ _ => 0
  | .items chunks => chunks.flatten.length

theorem stopsAt_plain (s : St) (h : s.inDescription = false) (hc : s.conts = false) {l : Ln} (hl : l.plain) : s.stopsAt l = false := by
  cases l <;> simp_all [Ln.plain, St.stopsAt, Ln.isAttrs]

theorem takeWhile_all {α} (p : α → Bool) (l : List α) (h : ∀ x ∈ l, p x = true) : l.takeWhile p = l ∧ l.dropWhile p = [] := by
  induction l with
  | nil => simp
  | cons a as ih =>
    have := ih fun x hx => h x (by simp [hx])
    simp [List.takeWhile_cons, List.dropWhile_cons, h a (by simp), this]

theorem para_block (n : Nat) (s : St) (hs : s.inDescription = false) (hc : s.conts = false) (t : Text) (ls : List Ln) (rest : List (List Ln))
    (hl : ∀ l ∈ ls, l.plain) (hch : s.chunks = (.text t :: ls) :: rest) :
    parseBlock (n + 1) s = some (some (.para (.text t :: ls)), { s with chunks := rest }) := by
  have hall : ∀ l ∈ Ln.text t :: ls, (!s.stopsAt l) = true := by
    intro l hm
    rcases List.mem_cons.mp hm with rfl | hm
    · rw [stopsAt_plain s hs hc (by simp [Ln.plain])]; rfl
    · rw [stopsAt_plain s hs hc (hl _ hm)]; rfl
  obtain ⟨h1, h2⟩ := takeWhile_all _ _ hall
  unfold parseBlock
  simp only [hch, List.dropWhile_cons, Ln.isAttrs, Bool.false_eq_true, if_false]
  simp only [List.dropWhile_cons] at h2
  rw [h1, h2]
  simp [St.restore]

theorem tail_text {ps : List Piece} {chunks : List (List Row)} (hsep : Separated (.items chunks :: ps)) :
    TextTail (ps.flatMap Piece.write) := by
  cases ps with
  | nil => exact .inl rfl
  | cons p ps =>
    cases p with
    | para f r => exact .inr ⟨f, r, ps.flatMap Piece.write, by simp [Piece.write]⟩
    | items c => exact absurd hsep (by simp [Separated])

theorem sep_tail {p : Piece} {ps : List Piece} (h : Separated (p :: ps)) : Separated ps := by
  cases p with
  | para => simpa [Separated] using h
  | items =>
    cases ps with
    | nil => simp [Separated]
    | cons q qs =>
      cases q with
      | para => simpa [Separated] using h
      | items => simp [Separated] at h

theorem blocks_ok (problems : Nat) : ∀ (ps : List Piece), (∀ p ∈ ps, p.ok) → Separated ps → ∀ n,
    5 * (ps.map Piece.count).sum + ps.length + 6 ≤ n → 
    ∃ bs, parseBlocks n { chunks := ps.flatMap Piece.write, problems } = some (bs, { chunks := [], problems }) ∧ Become ps bs := by
  intro ps
  induction ps with
  | nil =>
    intro _ _ n hn
    obtain ⟨n, rfl⟩ : ∃ n', n = n' + 2 := ⟨n - 2, by omega⟩
    exact ⟨[], by simp [parseBlocks, parseBlock], .nil⟩
  | cons p ps ih =>
    intro hok hsep n hn
    obtain ⟨n, rfl⟩ : ∃ n', n = n' + 2 := ⟨n - 2, by omega⟩
    simp only [List.map_cons, List.sum_cons, List.length_cons] at hn
    obtain ⟨bs, hb, hbec⟩ := ih (fun q hq => hok q (by simp [hq])) (sep_tail hsep) (n + 1) (by omega)
    suffices ∃ b, parseBlock (n + 1) { chunks := (p :: ps).flatMap Piece.write, problems } =
        some (some b, { chunks := ps.flatMap Piece.write, problems }) ∧ p.becomes b by
      obtain ⟨b, h1, h2⟩ := this
      refine ⟨b :: bs, ?_, .cons h2 hbec⟩
      unfold parseBlocks
      rw [h1]
      simp only [Option.bind_some]
      rw [hb]; simp
    cases p with
    | para f r =>
      refine ⟨.para (.text f :: r), ?_, rfl⟩
      exact para_block n _ rfl rfl f r _ (hok (.para f r) (by simp)) (by simp [Piece.write])
    | items chunks =>
      obtain ⟨hne, hrows⟩ := hok (.items chunks) (by simp)
      cases chunks with
      | nil => exact absurd rfl hne
      | cons c rest =>
        cases c with
        | nil => exact absurd rfl (hrows [] (by simp))
        | cons r rows =>
          have hcount : ((r :: rows) :: rest).flatten.length = (Piece.items ((r :: rows) :: rest)).count := rfl
          obtain ⟨b, R', h1, h2, h3, h4, h5⟩ := list_ok (items_ok (Piece.items ((r :: rows) :: rest)).count) n
            { chunks := wr rest ++ ps.flatMap Piece.write, problems } r rows rest (ps.flatMap Piece.write) rfl
            (fun q hq => hrows q (by simp [hq])) (tail_text hsep) (by rw [hcount]; exact Nat.le_refl _) (by omega) (by simp)
          have hR : R' = [] := by
            rcases h5 with h5 | ⟨_, _, _, _, x, hx, _⟩
            · exact h5
            · simp at hx
          subst hR
          refine ⟨b, ?_, ?_, r.marker, h2⟩
          · have hw : (Piece.items ((r :: rows) :: rest) :: ps).flatMap Piece.write =
                (r :: rows).flatMap Row.write :: (wr rest ++ ps.flatMap Piece.write) := by
              simp [Piece.write, wr]
            rw [hw]
            have : parseBlock (n + 1) { chunks := (r :: rows).flatMap Row.write :: (wr rest ++ ps.flatMap Piece.write), problems } =
                parseList n { chunks := wr rest ++ ps.flatMap Piece.write, problems } r.marker ((r :: rows).flatMap Row.write) := by
              conv => lhs; unfold parseBlock
              simp [Row.write, Ln.isAttrs, List.dropWhile_cons]
            rw [this, h1]; simp [wr]
          · simpa using h3

/-! ### there is only one way to nest -/

def Opens (opened : List Marker) (y : Marker) : Prop := ∃ x ∈ opened, SameKind x y

theorem sameKind_symm {a b : Marker} (h : SameKind a b) : SameKind b a := by
  cases a <;> cases b <;> simp_all [SameKind]

theorem sameKind_trans {a b c : Marker} (h : SameKind a b) (h' : SameKind b c) : SameKind a c := by
  cases a <;> cases b <;> cases c <;> simp_all [SameKind]

def RestIn (ms : List Marker) (r : List Row) : Prop := ∀ x xs, r = x :: xs → Opens ms x.marker

theorem more_inj {a b : List Ln} (ha : ∀ l ∈ a, ∃ t, l = .text t) (hb : ∀ l ∈ b, ∃ t, l = .text t)
    (h : a.flatMap Ln.asText = b.flatMap Ln.asText) : a = b := by
  induction a generalizing b with
  | nil =>
    cases b with
    | nil => rfl
    | cons y ys => obtain ⟨t, rfl⟩ := hb y (by simp); simp [Ln.asText] at h
  | cons x xs ih =>
    obtain ⟨t, rfl⟩ := ha x (by simp)
    cases b with
    | nil => simp [Ln.asText] at h
    | cons y ys =>
      obtain ⟨t', rfl⟩ := hb y (by simp)
      simp only [List.flatMap_cons, Ln.asText, List.cons_append, List.nil_append, List.cons.injEq] at h
      obtain ⟨rfl, h⟩ := h
      rw [ih (fun l hl => ha l (by simp [hl])) (fun l hl => hb l (by simp [hl])) h]

theorem item_rows_ne (i : Item) : i.rows ≠ [] := by cases i; simp [Item.rows]

theorem items_head {opened : List Marker} {m : Marker} {is : List Item} (h : ItemsNested opened m is) {x : Row} {xs : List Row}
    (he : itemsRows is = x :: xs) : SameKind m x.marker := by
  cases is with
  | nil => simp [itemsRows] at he
  | cons i is =>
    unfold ItemsNested at h
    obtain ⟨h, _⟩ := h
    cases i with
    | mk m' t more extra desc blocks =>
      simp only [itemsRows, Item.rows, List.cons_append, List.cons.injEq] at he
      unfold ItemNested at h
      rw [← he.1]; exact h.1

theorem items_unique (k : Nat) : ∀ (opened opened' : List Marker) (m m' : Marker) (is is' : List Item) (r r' : List Row),
    (itemsRows is).length ≤ k → opened.length = opened'.length → (∀ y, Opens opened y ↔ Opens opened' y) → SameKind m m' →
    ¬ Opens opened m → ItemsNested opened m is → ItemsNested opened' m' is' → RestIn opened r → RestIn opened r' →
    itemsRows is ++ r = itemsRows is' ++ r' → is = is' ∧ r = r' := by
  induction k with
  | zero =>
    intro opened opened' m m' is is' r r' hk hlen hop hmm hfr h1 h2 hr hr' he
    cases is with
    | cons i is =>
      exfalso
      have := item_rows_ne i
      simp [itemsRows] at hk
      exact this hk.1
    | nil =>
      cases is' with
      | nil => simpa [itemsRows] using he
      | cons i' is' =>
        exfalso
        cases hir : itemsRows (i' :: is') with
        | nil => simp [itemsRows, item_rows_ne] at hir
        | cons x xs =>
          have hx := items_head h2 hir
          rw [hir] at he
          simp only [itemsRows, List.nil_append, List.cons_append] at he
          obtain ⟨y, hy, hyx⟩ := hr _ _ he
          exact hfr ⟨y, hy, sameKind_trans hyx (sameKind_trans (sameKind_symm hx) (sameKind_symm hmm))⟩
  | succ k ih =>
    intro opened opened' m m' is is' r r' hk hlen hop hmm hfr h1 h2 hr hr' he
    cases is with
    | nil => exact ih opened opened' m m' [] is' r r' (by simp [itemsRows]) hlen hop hmm hfr h1 h2 hr hr' he
    | cons i is =>
      cases is' with
      | nil =>
        exfalso
        cases hir : itemsRows (i :: is) with
        | nil => simp [itemsRows, item_rows_ne] at hir
        | cons x xs =>
          have hx := items_head h1 hir
          rw [hir] at he
          simp only [itemsRows, List.nil_append, List.cons_append] at he
          obtain ⟨y, hy, hyx⟩ := hr' _ _ he.symm
          exact hfr ⟨y, hy, sameKind_trans hyx (sameKind_symm hx)⟩
      | cons i' is' =>
        unfold ItemsNested at h1 h2
        obtain ⟨hi, h1⟩ := h1
        obtain ⟨hi', h2⟩ := h2
        cases i with
        | mk m1 t more extra desc blocks =>
        cases i' with
        | mk m1' t' more' extra' desc' blocks' =>
        unfold ItemNested at hi hi'
        obtain ⟨hk1, hm1, rfl, rfl, hn1⟩ := hi
        obtain ⟨hk2, hm2, rfl, rfl, hn2⟩ := hi'
        simp only [itemsRows, Item.rows, List.cons_append, List.append_assoc, List.cons.injEq, Row.mk.injEq] at he
        obtain ⟨⟨rfl, rfl, hmore⟩, he⟩ := he
        obtain rfl := more_inj hm1 hm2 hmore
        simp only [itemsRows, Item.rows, List.cons_append, List.length_cons, List.length_append] at hk
        -- the kinds of the lists that are open inside the item
        have hop' : ∀ y, Opens (m :: opened) y ↔ Opens (m' :: opened') y := by
          intro y
          constructor
          · rintro ⟨x, hx, hxy⟩
            rcases List.mem_cons.mp hx with rfl | hx
            · exact ⟨m', by simp, sameKind_trans (sameKind_symm hmm) hxy⟩
            · obtain ⟨z, hz, hzy⟩ := (hop y).mp ⟨x, hx, hxy⟩
              exact ⟨z, by simp [hz], hzy⟩
          · rintro ⟨x, hx, hxy⟩
            rcases List.mem_cons.mp hx with rfl | hx
            · exact ⟨m, by simp, sameKind_trans hmm hxy⟩
            · obtain ⟨z, hz, hzy⟩ := (hop y).mpr ⟨x, hx, hxy⟩
              exact ⟨z, by simp [hz], hzy⟩
        have hrest : ∀ {o : List Marker} {mm : Marker} {js : List Item} {q : List Row}, ItemsNested o mm js → SameKind m mm →
            RestIn opened q → RestIn (m :: opened) (itemsRows js ++ q) := by
          intro o mm js q hj hmm' hq x xs hx
          cases hir : itemsRows js with
          | nil =>
            rw [hir, List.nil_append] at hx
            obtain ⟨y, hy, hyx⟩ := hq _ _ hx
            exact ⟨y, by simp [hy], hyx⟩
          | cons z zs =>
            rw [hir, List.cons_append, List.cons.injEq] at hx
            exact ⟨m, by simp, sameKind_trans hmm' (by rw [← hx.1]; exact items_head hj hir)⟩
        have hr1 := hrest h1 (sameKind_refl m) hr
        have hr2 := hrest h2 hmm hr'
        suffices blocks = blocks' ∧ itemsRows is ++ r = itemsRows is' ++ r' by
          obtain ⟨rfl, he'⟩ := this
          obtain ⟨rfl, rfl⟩ := ih opened opened' m m' is is' r r' (by omega) hlen hop hmm hfr h1 h2 hr hr' he'
          exact ⟨rfl, rfl⟩
        cases blocks with
        | nil =>
          cases blocks' with
          | nil => simpa [blocksRows] using he
          | cons b' bs' =>
            exfalso
            unfold NestedList at hn2
            obtain ⟨rfl, m2, hf2, hw2⟩ := hn2
            cases b' with
            | para => simp [WellNested] at hw2
            | exampleBlock => simp [WellNested] at hw2
            | list d js =>
              unfold WellNested at hw2
              obtain ⟨_, hne, hj⟩ := hw2
              cases hir : itemsRows js with
              | nil =>
                cases js with
                | nil => exact hne rfl
                | cons j js => simp [itemsRows, item_rows_ne] at hir
              | cons z zs =>
                simp only [blocksRows, Block.rows, hir, List.nil_append, List.cons_append] at he
                obtain ⟨y, hy, hyz⟩ := (hop' _).mp (hr1 _ _ he)
                exact hf2 y hy (sameKind_trans hyz (sameKind_symm (items_head hj hir)))
        | cons b bs =>
          unfold NestedList at hn1
          obtain ⟨rfl, m1, hf1, hw1⟩ := hn1
          cases b with
          | para => simp [WellNested] at hw1
          | exampleBlock => simp [WellNested] at hw1
          | list d js =>
            unfold WellNested at hw1
            obtain ⟨hd1, hne1, hj1⟩ := hw1
            cases hir : itemsRows js with
            | nil =>
              cases js with
              | nil => exact absurd rfl hne1
              | cons j js => simp [itemsRows, item_rows_ne] at hir
            | cons z zs =>
              cases blocks' with
              | nil =>
                exfalso
                simp only [blocksRows, Block.rows, hir, List.nil_append, List.cons_append] at he
                obtain ⟨y, hy, hyz⟩ := hr2 _ _ he.symm
                exact hf1 y hy (sameKind_trans hyz (sameKind_symm (items_head hj1 hir)))
              | cons b' bs' =>
                unfold NestedList at hn2
                obtain ⟨rfl, m2, hf2, hw2⟩ := hn2
                cases b' with
                | para => simp [WellNested] at hw2
                | exampleBlock => simp [WellNested] at hw2
                | list d' js' =>
                  unfold WellNested at hw2
                  obtain ⟨hd2, hne2, hj2⟩ := hw2
                  cases hir' : itemsRows js' with
                  | nil =>
                    cases js' with
                    | nil => exact absurd rfl hne2
                    | cons j js => simp [itemsRows, item_rows_ne] at hir'
                  | cons z' zs' =>
                    simp only [blocksRows, Block.rows, List.append_nil] at he hk
                    have hz : z = z' := by
                      have := he
                      rw [hir, hir'] at this
                      simp only [List.cons_append, List.cons.injEq] at this
                      exact this.1
                    subst hz
                    have hm12 : SameKind m1 m2 := sameKind_trans (items_head hj1 hir) (sameKind_symm (items_head hj2 hir'))
                    obtain ⟨rfl, he2⟩ := ih (m :: opened) (m' :: opened') m1 m2 js js' _ _ (by omega) (by simp [hlen]) hop' hm12
                      (by rintro ⟨x, hx, hxx⟩; exact hf1 x hx hxx) hj1 hj2 hr1 hr2 he
                    simp only [List.length_cons] at hd1 hd2
                    rw [hd1, hd2, hlen]
                    exact ⟨rfl, he2⟩

theorem wellNested_unique {m m' : Marker} {b b' : Block} (h : WellNested [] m b) (h' : WellNested [] m' b') (hr : b.rows = b'.rows) :
    b = b' := by
  cases b with
  | para => simp [WellNested] at h
  | exampleBlock => simp [WellNested] at h
  | list d is =>
    cases b' with
    | para => simp [WellNested] at h'
    | exampleBlock => simp [WellNested] at h'
    | list d' is' =>
      unfold WellNested at h h'
      obtain ⟨rfl, hne, hi⟩ := h
      obtain ⟨rfl, hne', hi'⟩ := h'
      simp only [Block.rows] at hr
      cases hir : itemsRows is with
      | nil =>
        cases is with
        | nil => exact absurd rfl hne
        | cons j js => simp [itemsRows, item_rows_ne] at hir
      | cons z zs =>
        have hmm : SameKind m m' :=
          sameKind_trans (items_head hi hir) (sameKind_symm (items_head hi' (hr ▸ hir)))
        obtain ⟨rfl, _⟩ := items_unique _ [] [] m m' is is' [] [] (Nat.le_refl _) rfl (fun _ => Iff.rfl) hmm
          (by rintro ⟨x, hx, _⟩; simp at hx) hi hi' (by intro x xs h; cases h) (by intro x xs h; cases h) (by simpa using hr)
        rfl

end Verif.Lists
