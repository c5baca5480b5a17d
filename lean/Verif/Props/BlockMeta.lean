import Verif.Spec.BlockMeta
/-! C124: metadata belongs to the block it is written before. -/
namespace Verif.Props
open Verif.BlockMeta

/-- the metadata after more lines -/
private def plus (m : Meta) (ms : List MetaLine) : Meta := ⟨m.attrs ++ attrsOf ms, (titleOf ms).or m.title⟩

private theorem titleOf_cons (n : Nat) (ms : List MetaLine) : titleOf (.title n :: ms) = (titleOf ms).or (some n) := by
  simp only [titleOf, List.filterMap_cons, List.getLast?_cons]
  cases List.getLast? (ms.filterMap _) <;> rfl

private theorem metaLoop_plus (ms : List MetaLine) (m : Meta) (ls : List Line)
    (h : m.isEmpty = true → commentsAfter ms) :
    metaLoop m (ms.map (·.line) ++ ls) = metaLoop (plus m ms) ls := by
  induction ms generalizing m with
  | nil => simp [plus, attrsOf, titleOf]
  | cons x ms ih =>
    have next : ∀ m' : Meta, (m'.isEmpty = true → m.isEmpty = true ∧ x.says = false) → m'.isEmpty = true → commentsAfter ms := by
      intro m' h1 h2 a b e
      obtain ⟨h3, h4⟩ := h1 h2
      obtain ⟨y, hy, hs⟩ := h h3 (x :: a) b (by rw [e]; rfl)
      rcases List.mem_cons.1 hy with rfl | hy
      · rw [h4] at hs; cases hs
      · exact ⟨y, hy, hs⟩
    cases x with
    | attrs n e =>
      show metaLoop m (.attrs n e :: (ms.map (·.line) ++ ls)) = _
      rw [metaLoop, ih _ (next _ ?_)]
      · simp [plus, attrsOf, titleOf]
      · simp only [Meta.isEmpty, noAttrs, List.all_append, MetaLine.says]
        cases e <;> simp
    | anchor n =>
      show metaLoop m (.anchor n :: (ms.map (·.line) ++ ls)) = _
      rw [metaLoop, ih _ (next _ ?_)]
      · simp [plus, attrsOf, titleOf]
      · simp [Meta.isEmpty, noAttrs]
    | title n =>
      show metaLoop m (.title n :: (ms.map (·.line) ++ ls)) = _
      rw [metaLoop, ih _ (next _ ?_)]
      · simp only [plus, titleOf_cons]
        have : attrsOf (.title n :: ms) = attrsOf ms := rfl
        rw [this]
        cases titleOf ms <;> rfl
      · simp [Meta.isEmpty]
    | comment =>
      have hm : m.isEmpty = false := by
        cases hm : m.isEmpty with
        | false => rfl
        | true =>
          obtain ⟨y, hy, _⟩ := h hm [] ms rfl
          cases hy
      have hc : (!noAttrs m.attrs || m.title.isSome) = true := by
        simp only [Meta.isEmpty] at hm
        cases h1 : noAttrs m.attrs <;> cases h2 : m.title <;> simp_all
      show metaLoop m (.comment :: (ms.map (·.line) ++ ls)) = _
      rw [metaLoop, if_pos hc, ih m (fun h => by rw [hm] at h; cases h)]
      rfl

private theorem plus_empty (ms : List MetaLine) : plus {} ms = ⟨attrsOf ms, titleOf ms⟩ := by
  simp [plus]

private theorem drop_lead (k : Nat) (ls : List Line) (h : ls.head? ≠ some .comment) : dropComments (List.replicate k .comment ++ ls) = ls := by
  induction k with
  | zero =>
    cases ls with
    | nil => rfl
    | cons l ls =>
      simp only [List.head?_cons, ne_eq, Option.some.injEq] at h
      simp [dropComments, h]
  | succ k ih => simpa [dropComments, List.replicate_succ] using ih

private theorem head_meta (ms : List MetaLine) (ls : List Line) (h : commentsAfter ms) (hl : ls.head? ≠ some .comment) :
    (ms.map (·.line) ++ ls).head? ≠ some .comment := by
  cases ms with
  | nil => exact hl
  | cons m ms =>
    cases m with
    | comment => obtain ⟨y, hy, _⟩ := h [] ms rfl; cases hy
    | _ => simp [MetaLine.line]

/-- **C124**: in the body of a document, comments, blocks with metadata before them, and metadata with nothing after it may follow each other
in any order. Then every block gets exactly the attribute lists and anchors written before it in its chunk, in order, and the last title written there,
and all its lines; nothing else gets them; a chunk of comments is a comment; and all metadata with nothing after it is reported, and in strict mode is an
error. Partial: metadata left by the header is not covered, and comments after only empty lists; for both it is false. -/
theorem C124_attached_partial (strict : Bool) (ws : List Written) (h : ∀ w ∈ ws, w.ok) :
    parseBlocks strict none (ws.map (·.lines)) =
      if strict = true ∧ ws.any (·.isStray) = true then .error .unattached
      else .ok (ws.flatMap (·.blocks), (ws.filter (·.isStray)).length) := by
  induction ws with
  | nil => simp [parseBlocks]
  | cons w ws ih =>
    have ih := ih fun x hx => h x (by simp [hx])
    have hw := h w (by simp)
    simp only [List.map_cons, parseBlocks]
    cases w with
    | comments k =>
      have e : dropComments (Written.comments k).lines = [] := by
        have := drop_lead (k + 1) [] (by simp)
        rwa [List.append_nil] at this
      rw [e]
      simp only [Option.any_none, Bool.false_eq_true, if_false, ih]
      split <;> rename_i hc <;> simp_all [Except.map, Written.isStray, Written.blocks]
    | block k ms n more =>
      have e : dropComments (Written.block k ms n more).lines = ms.map (·.line) ++ .text n :: more := by
        rw [Written.lines, List.append_assoc]
        exact drop_lead k _ (head_meta ms _ hw (by simp))
      have e2 := metaLoop_plus ms {} (.text n :: more) fun _ => hw
      rw [e]
      obtain ⟨l, ls, hl⟩ : ∃ l ls, ms.map (·.line) ++ .text n :: more = l :: ls := by
        cases ms with
        | nil => exact ⟨_, _, rfl⟩
        | cons m ms => exact ⟨_, _, rfl⟩
      rw [hl] at e2 ⊢
      simp only [chunkMeta, e2, plus_empty, metaLoop, ih]
      split <;> rename_i hc <;> simp_all [Except.map, Written.isStray, Written.blocks]
    | stray k m ms =>
      have e : dropComments (Written.stray k m ms).lines = (m :: ms).map (·.line) := by
        have := drop_lead k ((m :: ms).map (·.line) ++ []) (head_meta _ _ hw.2 (by simp))
        rwa [List.append_nil] at this
      have e2 := metaLoop_plus (m :: ms) {} [] fun _ => hw.2
      rw [List.append_nil, plus_empty] at e2
      rw [e]
      simp only [List.map_cons] at e2 ⊢
      simp only [chunkMeta, e2, metaLoop, ih]
      cases strict
      · simp [Except.map, Written.isStray, Written.blocks]
      · simp [Written.isStray]

/-- **C124** for documents with a title: the body is read as above, whatever metadata, comments and attribute entries are around the title. -/
theorem C124_document_partial (strict : Bool) (ms : List MetaLine) (h : ∀ m ∈ ms, m ≠ .comment ∧ ∀ n, m ≠ .title n) (rest : List Line) (ws : List Written)
    (hw : ∀ w ∈ ws, w.ok) :
    parseDoc strict ((ms.map (·.line) ++ .docTitle :: rest) :: ws.map (·.lines)) =
      if strict = true ∧ ws.any (·.isStray) = true then .error .unattached
      else .ok (ws.flatMap (·.blocks), (ws.filter (·.isStray)).length) := by
  have hh : header ((ms.map (·.line) ++ .docTitle :: rest) :: ws.map (·.lines)) = (none, ws.map (·.lines)) := by
    have h1 : isDocHeader (ms.map (·.line) ++ .docTitle :: rest) = true := by
      clear hw
      induction ms with
      | nil => rfl
      | cons m ms ih =>
        have := ih fun x hx => h x (by simp [hx])
        have hm := h m (by simp)
        cases m with
        | comment => exact absurd rfl hm.1
        | title n => exact absurd rfl (hm.2 n)
        | _ => simpa [MetaLine.line, isDocHeader] using this
    have h2 : commentsAfter ms := by
      intro a b e
      exact absurd rfl (h .comment (by rw [e]; simp)).1
    have h3 := metaLoop_plus ms {} (.docTitle :: rest) fun _ => h2
    obtain ⟨l, ls, hl, hc, hd⟩ : ∃ l ls, ms.map (·.line) ++ .docTitle :: rest = l :: ls ∧ l ≠ .comment ∧ l ≠ .decl := by
      cases ms with
      | nil => exact ⟨_, _, rfl, nofun, nofun⟩
      | cons m ms =>
        have hm := h m (by simp)
        cases m with
        | comment => exact absurd rfl hm.1
        | _ => exact ⟨_, _, rfl, nofun, nofun⟩
    rw [hl] at h1 h3 ⊢
    simp only [header, prefixed, List.dropWhile_cons, hc, hd, decide_false, Bool.or_false, Bool.false_eq_true, if_false, h1, if_true, h3, metaLoop]
  rw [parseDoc, hh]
  exact C124_attached_partial strict ws hw

/-- **C124** (no panic): when the header leaves no metadata behind, no body makes the parser panic, whatever its lines are. Partial: see
`C124_panic_violated`. -/
theorem C124_no_panic_partial (strict : Bool) (cs : List (List Line)) : parseBlocks strict none cs ≠ .error .panic := by
  induction cs with
  | nil => simp [parseBlocks]
  | cons c cs ih =>
    have key : ∀ f : List Block × Nat → List Block × Nat, (parseBlocks strict none cs).map f ≠ .error .panic := by
      intro f h
      cases hp : parseBlocks strict none cs with
      | error e => rw [hp] at h ih; exact ih h
      | ok r => rw [hp] at h; cases h
    unfold parseBlocks
    split
    · simpa using key _
    · split
      · split
        · simp
        · exact key _
      · exact key _

example : ∀ w ∈ [Written.block 1 [.title 1, .attrs 2 true, .comment, .anchor 3, .title 4] 5 [.text 6], .comments 0, .stray 0 (.attrs 7 false) [.comment]], w.ok := by
  intro w hw
  simp only [List.mem_cons, List.not_mem_nil, or_false] at hw
  have key : ∀ m ms, MetaLine.says m = true → commentsAfter (m :: ms) := by
    intro m ms hm a b e
    cases a with
    | nil => cases e; cases hm
    | cons x a => cases e; exact ⟨_, by simp, hm⟩
  rcases hw with rfl | rfl | rfl
  · exact key _ _ rfl
  · trivial
  · exact ⟨nofun, key _ _ rfl⟩

/-- **C124 violated** (panic): an attribute list before an attribute entry at the start of a document, and a comment after an empty line:
`[.role]`, `:foo: bar`, an empty line, `// comment`. The parser panics, in strict mode and outside it. -/
theorem C124_panic_violated (strict : Bool) : parseDoc strict [[.attrs 0 false, .decl], [.comment]] = .error .panic := by
  cases strict <;> rfl

/-- **C124 violated** (header): the same start, and then a block with an attribute list of its own. The block gets the list of the header, and its
own becomes text, with no report. -/
theorem C124_header_violated (strict : Bool) :
    parseDoc strict [[.attrs 0 false, .decl], [.attrs 1 false, .text 2]] = .ok ([.block ⟨[(0, false)], none⟩ [.attrs 1 false, .text 2]], 0) := by
  cases strict <;> rfl

/-- **C124 violated** (empty list): after an empty list, a comment and all metadata after it is left in the block. -/
theorem C124_comment_violated (strict : Bool) :
    parseBlocks strict none [[.attrs 0 true, .comment, .title 1, .text 2]] =
      .ok ([.block ⟨[(0, true)], none⟩ [.comment, .title 1, .text 2]], 0) := by
  cases strict <;> rfl

end Verif.Props
