import Verif.Model.CollectText
/-! C29: collecting plain text. -/
namespace Verif.Props
open Verif.CollectText Verif.SourceLoc

/-- what can be done to a collector -/
inductive CtOp where
  | token (lexeme : List Char) (loc : Loc)
  | str (s : List Char)
  | trim
  | drop (n : Nat)
  | take

/-- run operations; the taken texts in order, `none` if one of them panics -/
def ctRun : CT → List CtOp → Option (List (List Char) × CT)
  | c, [] => some ([], c)
  | c, .token l loc :: ops => ctRun (c.pushToken l loc) ops
  | c, .str s :: ops => ctRun (c.pushStr s) ops
  | c, .trim :: ops => c.trimEnd.bind fun c => ctRun c ops
  | c, .drop n :: ops => (c.dropLast n).bind fun c => ctRun c ops
  | c, .take :: ops => (ctRun c.take.2 ops).map fun r => (c.take.1 :: r.1, r.2)

/-- the text an operation adds -/
def CtOp.adds : CtOp → List Char
  | token l _ => l
  | str s => s
  | _ => []

/-- an operation that only adds text -/
def CtOp.isPush : CtOp → Bool
  | token .. | str .. => true
  | _ => false

private theorem run_append (c : CT) (a b : List CtOp) : ctRun c (a ++ b) =
    (ctRun c a).bind fun r => (ctRun r.2 b).map fun r' => (r.1 ++ r'.1, r'.2) := by
  induction a generalizing c with
  | nil => simp [ctRun]
  | cons o a ih =>
    cases o with
    | token l loc => simp only [List.cons_append, ctRun, ih]
    | str s => simp only [List.cons_append, ctRun, ih]
    | trim =>
      simp only [List.cons_append, ctRun]
      cases c.trimEnd with
      | none => rfl
      | some d => simp only [Option.bind_some, ih]
    | drop n =>
      simp only [List.cons_append, ctRun]
      cases c.dropLast n with
      | none => rfl
      | some d => simp only [Option.bind_some, ih]
    | take =>
      simp only [List.cons_append, ctRun, ih]
      cases ctRun c.take.2 a with
      | none => rfl
      | some r =>
        simp only [Option.bind_some, Option.map_some]
        cases ctRun r.2 b <;> simp

private theorem run_pushes (c : CT) (ps : List CtOp) (h : ∀ p ∈ ps, p.isPush = true) :
    ∃ loc, ctRun c ps = some ([], ⟨c.text ++ (ps.map CtOp.adds).flatten, loc⟩) := by
  induction ps generalizing c with
  | nil => exact ⟨c.loc, by simp [ctRun]⟩
  | cons p ps ih =>
    have hp := h p List.mem_cons_self
    have ih' := fun c => ih c (fun q hq => h q (List.mem_cons_of_mem _ hq))
    cases p with
    | token l loc =>
      obtain ⟨loc', h'⟩ := ih' (c.pushToken l loc)
      exact ⟨loc', by rw [ctRun, h']; simp [CT.pushToken, CtOp.adds]⟩
    | str s =>
      obtain ⟨loc', h'⟩ := ih' (c.pushStr s)
      exact ⟨loc', by rw [ctRun, h']; simp [CT.pushStr, CtOp.adds]⟩
    | trim => cases hp
    | drop n => cases hp
    | take => cases hp

/-- C29: whatever happened before, taking the text after some pushes gives exactly the pushed texts, in order, that
came after the previous taking. -/
theorem C29_take_returns_pushed (c : CT) (before : List CtOp) (outs : List (List Char)) (c' : CT)
    (hrun : ctRun c before = some (outs, c')) (ps : List CtOp) (h : ∀ p ∈ ps, p.isPush = true) :
    ∃ end', ctRun c (before ++ [.take] ++ ps ++ [.take]) =
      some (outs ++ [c'.text] ++ [(ps.map CtOp.adds).flatten], end') ∧ end'.text = [] := by
  obtain ⟨loc, hl⟩ := run_pushes c'.take.2 ps h
  refine ⟨⟨[], loc.clampEnd⟩, ?_, rfl⟩
  rw [List.append_assoc, List.append_assoc, run_append, hrun]
  simp only [Option.bind_some, List.singleton_append, ctRun, run_append, hl]
  simp [CT.take]

/-- C29: if nothing is trimmed or dropped, no character is lost: the texts taken, followed by the text still held,
are the texts pushed. -/
theorem C29_nothing_lost (c : CT) (ops : List CtOp) (h : ∀ o ∈ ops, o.isPush = true ∨ o = .take) :
    ∃ outs c', ctRun c ops = some (outs, c') ∧ outs.flatten ++ c'.text = c.text ++ (ops.map CtOp.adds).flatten := by
  induction ops generalizing c with
  | nil => exact ⟨[], c, rfl, by simp⟩
  | cons o ops ih =>
    have ih' := fun c => ih c (fun q hq => h q (List.mem_cons_of_mem _ hq))
    have ho := h o List.mem_cons_self
    cases o with
    | token l loc =>
      obtain ⟨outs, c', h1, h2⟩ := ih' (c.pushToken l loc)
      exact ⟨outs, c', h1, by rw [h2]; simp [CT.pushToken, CtOp.adds]⟩
    | str s =>
      obtain ⟨outs, c', h1, h2⟩ := ih' (c.pushStr s)
      exact ⟨outs, c', h1, by rw [h2]; simp [CT.pushStr, CtOp.adds]⟩
    | take =>
      obtain ⟨outs, c', h1, h2⟩ := ih' c.take.2
      refine ⟨c.text :: outs, c', by rw [ctRun, h1]; rfl, ?_⟩
      simp only [List.flatten_cons, List.append_assoc, h2]
      simp [CT.take, CtOp.adds]
    | trim => rcases ho with h | h <;> cases h
    | drop n => rcases ho with h | h <;> cases h

example : ctRun (.new ⟨0, 0, 0⟩) [.token ['a', 'b'] ⟨0, 2, 0⟩, .take, .str ['é'], .str ['x'], .take] =
    some ([['a', 'b'], ['é', 'x']], ⟨[], ⟨5, 5, 0⟩⟩) := by decide

private theorem bytes_append (a b : List Char) : bytes (a ++ b) = bytes a + bytes b := by simp [bytes]

private theorem trimEndStr_append (a w : List Char) (h : ∀ c ∈ w, isWhite c = true) :
    trimEndStr (a ++ w) = trimEndStr a := by
  unfold trimEndStr
  rw [List.reverse_append]
  congr 1
  rw [List.dropWhile_append_of_pos (by intro c hc; exact h c (List.mem_reverse.mp hc))]

private theorem trimEndStr_split (s : List Char) : ∃ w, s = trimEndStr s ++ w ∧ (∀ c ∈ w, isWhite c = true) := by
  refine ⟨(s.reverse.takeWhile isWhite).reverse, ?_, ?_⟩
  · unfold trimEndStr
    rw [← List.reverse_append, List.takeWhile_append_dropWhile, List.reverse_reverse]
  · intro c hc
    have := List.mem_reverse.mp hc
    exact List.all_eq_true.mp (List.all_takeWhile) c this

/-- C29 is violated: with wide white space before the last space, trimming removes text before it. -/
theorem C29_trim_end_violated :
    (CT.mk ['a', 'b', 'c', '　', ' '] ⟨0, 7, 0⟩).trimEnd = some ⟨['a'], ⟨0, 3, 0⟩⟩ := by decide

/-- C29, in part: if the white space at the end is ASCII, trimming a text that ends in a space removes exactly the
white space at its end, and moves the end of the location back by as many bytes; other texts are unchanged. -/
theorem C29_trim_end_partial (c : CT) (a w : List Char) (htext : c.text = a ++ w)
    (hw : ∀ x ∈ w, isWhite x = true ∧ x.utf8Size = 1) (ha : ∀ x, a.getLast? = some x → isWhite x = false)
    (hloc : bytes c.text ≤ c.loc.stop) :
    c.trimEnd = some (if w.getLast? = some ' ' then ⟨a, { c.loc with stop := c.loc.stop - w.length }⟩ else c) := by
  have hta : trimEndStr a = a := by
    obtain ⟨v, h1, h2⟩ := trimEndStr_split a
    rcases List.eq_nil_or_concat v with rfl | ⟨v', x, rfl⟩
    · simpa using h1.symm
    · exfalso
      have := ha x (by rw [h1]; simp)
      rw [h2 x (by simp)] at this
      cases this
  have htr : trimEndStr c.text = a := by
    rw [htext, trimEndStr_append _ _ (fun x hx => (hw x hx).1), hta]
  have hbw : bytes w = w.length := by
    clear htext
    induction w with
    | nil => rfl
    | cons x w ih =>
      have := ih (fun y hy => hw y (List.mem_cons_of_mem _ hy))
      have hx := (hw x List.mem_cons_self).2
      simp only [bytes, List.map_cons, List.sum_cons, List.length_cons] at *
      omega
  unfold CT.trimEnd
  rw [htr]
  by_cases hl : w.getLast? = some ' '
  · have hlast : c.text.getLast? = some ' ' := by rw [htext, List.getLast?_append, hl]; rfl
    have hd : bytes c.text - bytes a = w.length := by rw [htext, bytes_append, hbw]; omega
    rw [if_pos hlast, if_pos hl]
    simp only [hd]
    rw [if_pos (by rw [htext, bytes_append, hbw] at hloc; omega)]
    congr 2
    unfold popN
    rw [htext]
    simp
  · rw [if_neg hl, if_neg]
    intro hlast
    rw [htext, List.getLast?_append] at hlast
    cases hwl : w.getLast? with
    | none =>
      rw [hwl] at hlast
      have := ha ' ' (by simpa using hlast)
      revert this; decide
    | some y =>
      rw [hwl] at hlast
      simp at hlast
      exact hl (by rw [hwl, hlast])

example : (CT.mk ['a', '\t', ' ', ' '] ⟨0, 4, 0⟩).trimEnd = some ⟨['a'], ⟨0, 1, 0⟩⟩ := by decide

/-- tokens that follow each other in the source, from byte `p` to byte `q` -/
inductive Contiguous (depth : Nat) : Nat → List (List Char × Loc) → Nat → Prop where
  | nil (p) : Contiguous depth p [] p
  | cons (p l toks q) : Contiguous depth (p + bytes l) toks q → Contiguous depth p ((l, ⟨p, p + bytes l, depth⟩) :: toks) q

/-- C29: the location of collected text is the location of the collected tokens. -/
theorem C29_location (depth p q : Nat) (toks : List (List Char × Loc)) (h : Contiguous depth p toks q) :
    (toks.foldl (fun c t => c.pushToken t.1 t.2) (CT.new ⟨p, p, depth⟩)).takeSrc.1 =
      ((toks.map Prod.fst).flatten, ⟨p, q, depth⟩) ∧ q = p + bytes (toks.map Prod.fst).flatten := by
  have gen : ∀ (c : CT), c.loc.stop = p → c.loc.start ≤ p →
      (toks.foldl (fun c t => c.pushToken t.1 t.2) c) =
        ⟨c.text ++ (toks.map Prod.fst).flatten, { c.loc with stop := q }⟩ ∧
      q = p + bytes (toks.map Prod.fst).flatten := by
    induction h with
    | nil p => intro c h1 _; exact ⟨by subst h1; simp, by simp [bytes]⟩
    | cons p l toks q hc ih =>
      intro c h1 h2
      have h3 := ih (c.pushToken l ⟨p, p + bytes l, depth⟩)
        (by simp [CT.pushToken, Loc.extend, h1]) (by simp [CT.pushToken, Loc.extend]; omega)
      refine ⟨?_, ?_⟩
      · rw [List.foldl_cons, h3.1]
        simp only [CT.pushToken, Loc.extend, List.map_cons, List.flatten_cons, List.append_assoc]
        congr 2
        omega
      · have := h3.2
        rw [List.map_cons, List.flatten_cons, bytes_append]
        simp only
        omega
  obtain ⟨h1, h2⟩ := gen (CT.new ⟨p, p, depth⟩) rfl (Nat.le_refl _)
  rw [h1]
  exact ⟨by simp [CT.takeSrc, CT.new], h2⟩

example : Contiguous 0 4 [(['a', 'é'], ⟨4, 7, 0⟩), ([' '], ⟨7, 8, 0⟩)] 8 :=
  .cons 4 ['a', 'é'] _ _ (.cons 7 [' '] _ _ (.nil 8))

/-- the text of a list of nodes, with the other nodes in place -/
def nodeText {α} : List (Content α × Loc) → List (Char ⊕ α)
  | [] => []
  | (.text s, _) :: ns => s.map Sum.inl ++ nodeText ns
  | (.other a, _) :: ns => Sum.inr a :: nodeText ns

private theorem nodeText_append {α} (a b : List (Content α × Loc)) : nodeText (a ++ b) = nodeText a ++ nodeText b := by
  induction a with
  | nil => rfl
  | cons n a ih =>
    obtain ⟨n, l⟩ := n
    cases n <;> simp [nodeText, ih]

/-- C29: committing puts the collected text, and nothing else, after the nodes already there, leaves the collector
empty, and never makes two text nodes in a row or an empty one. -/
theorem C29_commit {α} (c : CT) (nodes : List (Content α × Loc)) :
    nodeText (c.commit nodes).2 = nodeText nodes ++ c.text.map Sum.inl ∧ (c.commit nodes).1.text = [] ∧
    ((c.commit nodes).2 = nodes ∨
      (∃ t l l', nodes.getLast? = some (.text t, l) ∧
        (c.commit nodes).2 = nodes.dropLast ++ [(.text (t ++ c.text), l')]) ∨
      ((∀ t l, nodes.getLast? ≠ some (.text t, l)) ∧ c.text ≠ [] ∧
        (c.commit nodes).2 = nodes ++ [(.text c.text, c.loc)])) := by
  unfold CT.commit
  by_cases h : c.text = []
  · rw [if_pos h]
    exact ⟨by simp [h], h, .inl rfl⟩
  · rw [if_neg h]
    split
    · rename_i t l hl
      obtain ⟨init, rfl⟩ : ∃ init, nodes = init ++ [(.text t, l)] := by
        rcases List.eq_nil_or_concat nodes with rfl | ⟨i, x, rfl⟩
        · cases hl
        · rw [List.concat_eq_append, List.getLast?_concat] at hl
          cases hl
          exact ⟨i, by simp⟩
      refine ⟨?_, rfl, .inr (.inl ⟨t, l, l.extend c.take.2.loc, hl, rfl⟩)⟩
      simp [CT.take, nodeText_append, nodeText]
    · rename_i hne
      refine ⟨?_, rfl, .inr (.inr ⟨fun t l ht => hne t l ht, h, rfl⟩)⟩
      simp [CT.take, nodeText_append, nodeText]

/-- the location of the collected text is as long as the text -/
def LocCovers (c : CT) : Prop := c.loc.stop = c.loc.start + bytes c.text

/-- an operation as the parser uses it: a token follows the text in the source, and what is cut off at the end is
ASCII -/
def CtOp.Adjacent (c : CT) : CtOp → Prop
  | token l loc => loc.start = c.loc.stop ∧ loc.stop = loc.start + bytes l
  | str _ => True
  | trim => ∀ x ∈ c.text, isWhite x = true → x.utf8Size = 1
  | drop n => ∀ x ∈ c.text.drop (c.text.length - n), x.utf8Size = 1
  | take => True

private theorem bytes_ascii (w : List Char) (h : ∀ x ∈ w, x.utf8Size = 1) : bytes w = w.length := by
  induction w with
  | nil => rfl
  | cons x w ih =>
    have := ih (fun y hy => h y (List.mem_cons_of_mem _ hy))
    have hx := h x List.mem_cons_self
    simp only [bytes, List.map_cons, List.sum_cons, List.length_cons] at *
    omega

private theorem length_le_bytes (w : List Char) : w.length ≤ bytes w := by
  induction w with
  | nil => simp
  | cons x w ih =>
    have hx := Char.utf8Size_pos x
    simp only [bytes, List.map_cons, List.sum_cons, List.length_cons] at *
    omega

private theorem popN_covers (n : Nat) (s : List Char) (hn : n ≤ s.length) (h : ∀ x ∈ s.drop (s.length - n), x.utf8Size = 1) :
    bytes (popN n s) + n = bytes s := by
  have h1 := bytes_append (s.take (s.length - n)) (s.drop (s.length - n))
  rw [List.take_append_drop, bytes_ascii _ h, List.length_drop] at h1
  unfold popN
  omega

/-- C29: the location of the collected text stays as long as the text in bytes, through pushes of tokens that follow
each other, pushes of strings, trimming, dropping and taking. -/
theorem C29_location_covers_text (c : CT) (op : CtOp) (outs : List (List Char)) (c' : CT) (hc : LocCovers c)
    (ha : op.Adjacent c) (hd : ∀ n, op = .drop n → n ≤ c.text.length) (hrun : ctRun c [op] = some (outs, c')) : LocCovers c' := by
  unfold LocCovers at *
  cases op with
  | token l loc =>
    simp only [ctRun, Option.some.injEq, Prod.mk.injEq] at hrun
    obtain ⟨_, rfl⟩ := hrun
    obtain ⟨h1, h2⟩ := ha
    simp only [CT.pushToken, Loc.extend, bytes_append]
    omega
  | str s =>
    simp only [ctRun, Option.some.injEq, Prod.mk.injEq] at hrun
    obtain ⟨_, rfl⟩ := hrun
    simp only [CT.pushStr, bytes_append]
    omega
  | trim =>
    simp only [ctRun] at hrun
    unfold CT.trimEnd at hrun
    split at hrun
    · obtain ⟨w, h1, h2⟩ := trimEndStr_split c.text
      have hw : bytes w = w.length := bytes_ascii w (fun x hx => ha x (by rw [h1]; simp [hx]) (h2 x hx))
      have hb : bytes c.text - bytes (trimEndStr c.text) = w.length := by
        have := congrArg bytes h1
        rw [bytes_append] at this
        omega
      simp only [hb] at hrun
      split at hrun
      · simp only [Option.bind_some, Option.some.injEq, Prod.mk.injEq] at hrun
        obtain ⟨_, rfl⟩ := hrun
        have hl := congrArg List.length h1
        simp only [List.length_append] at hl
        have hdr : c.text.drop (c.text.length - w.length) = w := by
          have : c.text.length - w.length = (trimEndStr c.text).length := by omega
          have hdl : (trimEndStr c.text ++ w).drop (trimEndStr c.text).length = w := List.drop_left
          rw [this]
          rwa [← h1] at hdl
        have := popN_covers w.length c.text (by omega) (by rw [hdr]; exact fun x hx => ha x (by rw [h1]; simp [hx]) (h2 x hx))
        show c.loc.stop - w.length = c.loc.start + bytes (popN w.length c.text)
        omega
      · cases hrun
    · simp only [Option.bind_some, Option.some.injEq, Prod.mk.injEq] at hrun
      obtain ⟨_, rfl⟩ := hrun
      exact hc
  | drop n =>
    simp only [ctRun] at hrun
    unfold CT.dropLast at hrun
    split at hrun
    · simp only [Option.bind_some, Option.some.injEq, Prod.mk.injEq] at hrun
      obtain ⟨_, rfl⟩ := hrun
      have := popN_covers n c.text (hd n rfl) ha
      show c.loc.stop - n = c.loc.start + bytes (popN n c.text)
      omega
    · cases hrun
  | take =>
    simp only [ctRun, Option.map_some, Option.some.injEq, Prod.mk.injEq] at hrun
    obtain ⟨_, rfl⟩ := hrun
    simp [CT.take, Loc.clampEnd, bytes]

example : LocCovers ⟨['a', 'é', ' ', ' '], ⟨3, 8, 0⟩⟩ ∧
    CtOp.Adjacent ⟨['a', 'é', ' ', ' '], ⟨3, 8, 0⟩⟩ .trim ∧ CtOp.Adjacent ⟨['a', 'é', ' ', ' '], ⟨3, 8, 0⟩⟩ (.drop 2) ∧
    ctRun ⟨['a', 'é', ' ', ' '], ⟨3, 8, 0⟩⟩ [.trim] = some ([], ⟨['a', 'é'], ⟨3, 6, 0⟩⟩) := by
  refine ⟨by unfold LocCovers; decide, ?_, ?_, by decide⟩
  · intro x hx; revert hx; simp only [List.mem_cons, List.not_mem_nil, or_false]; rintro (rfl | rfl | rfl | rfl) <;> decide
  · intro x hx; simp only [List.length_cons, List.length_nil, Nat.reduceAdd, Nat.reduceSub, List.drop_succ_cons, List.drop_zero, List.mem_cons, List.not_mem_nil, or_false, or_self] at hx
    subst hx; decide

end Verif.Props
