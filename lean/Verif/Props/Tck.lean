import Verif.Spec.Tck
/-! Property C119: the graph for the compatibility kit says what the document says, and where. -/
namespace Verif.Props
open Verif.Tck

theorem lineLoop_line (l : Loc) (bs : List UInt8) (h : (10 : UInt8) ∉ bs) : lineLoop l bs = ⟨l.line, l.column + bs.length⟩ := by
  induction bs generalizing l with
  | nil => rfl
  | cons b bs ih =>
    simp only [List.mem_cons, not_or] at h
    rw [lineLoop, if_neg (fun e => h.1 e.symm), ih _ h.2]
    simp only [List.length_cons]
    congr 1
    omega

theorem lineLoop_append (l : Loc) (a b : List UInt8) : lineLoop l (a ++ b) = lineLoop (lineLoop l a) b := by
  induction a generalizing l with
  | nil => rfl
  | cons x a ih => rw [List.cons_append, lineLoop, lineLoop, ih]

theorem lineLoop_lines (lines : List (List UInt8)) (h : ∀ l ∈ lines, (10 : UInt8) ∉ l) (n : Nat) : lineLoop ⟨n, 0⟩ (source lines) = ⟨n + lines.length, 0⟩ := by
  induction lines generalizing n with
  | nil => rfl
  | cons l lines ih =>
    have : source (l :: lines) = l ++ (10 :: source lines) := by simp [source]
    rw [this, lineLoop_append, lineLoop_line _ _ (h l (by simp)), lineLoop, if_pos rfl, ih (fun x hx => h x (by simp [hx]))]
    simp only [List.length_cons]
    congr 1
    omega

theorem fromPos_line (before : List (List UInt8)) (line rest : List UInt8) (hb : ∀ l ∈ before, (10 : UInt8) ∉ l) (hl : (10 : UInt8) ∉ line) (k : Nat) (hk : k ≤ line.length) :
    fromPos ((source before).length + k) (source before ++ line ++ rest) = ⟨before.length + 1, k⟩ := by
  have e : (source before ++ line ++ rest).take ((source before).length + k) = source before ++ line.take k := by
    rw [List.append_assoc, List.take_append, List.take_of_length_le (by omega), Nat.add_sub_cancel_left, List.take_append_of_le_length hk]
  rw [fromPos, e, lineLoop_append, lineLoop_lines _ hb, lineLoop_line _ _ (fun h => hl (List.mem_of_mem_take h))]
  simp only [List.length_take]
  congr 1 <;> omega

/-- C119 (places): a range of bytes that starts with byte `i` of a line and ends with byte `j` of a line (this one or a later one), both counted from one,
has the numbers of these lines and `i` and `j` as its place. The columns are bytes. -/
theorem C119_places_partial (src : List UInt8) (before before' : List (List UInt8)) (line line' rest rest' : List UInt8)
    (hs : src = source before ++ line ++ rest) (hs' : src = source before' ++ line' ++ rest')
    (hb : ∀ l ∈ before, (10 : UInt8) ∉ l) (hb' : ∀ l ∈ before', (10 : UInt8) ∉ l) (hl : (10 : UInt8) ∉ line) (hl' : (10 : UInt8) ∉ line')
    (i j : Nat) (hi : 1 ≤ i ∧ i ≤ line.length) (hj : 1 ≤ j ∧ j ≤ line'.length) :
    span src ((source before).length + (i - 1)) ((source before').length + j) = (⟨before.length + 1, i⟩, ⟨before'.length + 1, j⟩) := by
  unfold span
  have h1 := fromPos_line before line rest hb hl (i - 1) (by omega)
  have h2 := fromPos_line before' line' rest' hb' hl' j (by omega)
  rw [← hs] at h1
  rw [← hs'] at h2
  rw [h1, h2, Loc.incr]
  simp only [Prod.mk.injEq, Loc.mk.injEq, and_true, true_and]
  omega

/-- `a *b*` in the second line of a text -/
example : span "x\na *b* c".toUTF8.toList 4 7 = (⟨2, 3⟩, ⟨2, 5⟩) := by decide +kernel

/-- C119 fails for columns behind characters of several bytes: `b` is the second character of the line. -/
theorem C119_columns_violated : span "éb".toUTF8.toList 2 3 = (⟨1, 3⟩, ⟨1, 3⟩) := by decide +kernel

/-- what an item shows -/
def itemShown : Item → List Piece
  | .text s _ _ => s.map .char
  | .newline _ _ => [.char '\n']
  | .bold inner _ _ => .start :: inner.shown ++ [.stop]
  | .other => []

theorem consolidateLoop_shown (done its : List Item) :
    (consolidateLoop done its).flatMap itemShown = done.reverse.flatMap itemShown ++ its.flatMap itemShown := by
  fun_induction consolidateLoop done its with
  | case1 done => simp
  | case2 prev a e' done cur s e items ih => rw [ih]; simp [itemShown]
  | case3 prev a e' done s e items ih => rw [ih]; simp [itemShown]
  | case4 done i items _ _ ih => rw [ih]; simp

theorem emit_shown (src : List UInt8) (its : List Item) (v : Vals) (h : emit src its = some v) : v.shown = its.flatMap itemShown := by
  induction its generalizing v with
  | nil => cases h; rfl
  | cons i its ih =>
    cases i with
    | text s a e =>
      simp only [emit, Option.map_eq_some_iff] at h
      obtain ⟨w, hw, rfl⟩ := h
      simp [Vals.shown, ih _ hw, itemShown]
    | bold inner a e =>
      simp only [emit, Option.map_eq_some_iff] at h
      obtain ⟨w, hw, rfl⟩ := h
      simp [Vals.shown, ih _ hw, itemShown]
    | newline a e => cases h
    | other => cases h

theorem items_shown (src : List UInt8) (ns : Nodes) (is : List Item) (h : items src ns = some is) : is.flatMap itemShown = ns.shown := by
  induction ns generalizing is with
  | nil => cases h; rfl
  | text s a e rest ih =>
    simp only [items, Option.map_eq_some_iff] at h
    obtain ⟨w, hw, rfl⟩ := h
    simp [Nodes.shown, ih _ hw, itemShown]
  | newline a e rest ih =>
    simp only [items, Option.map_eq_some_iff] at h
    obtain ⟨w, hw, rfl⟩ := h
    simp [Nodes.shown, ih _ hw, itemShown]
  | other a e rest ih =>
    simp only [items, Option.map_eq_some_iff] at h
    obtain ⟨w, hw, rfl⟩ := h
    simp [Nodes.shown, ih _ hw, itemShown]
  | bold inner a e rest ih1 ih2 =>
    simp only [items, Option.bind_eq_bind, Option.bind_eq_some_iff] at h
    obtain ⟨w, hw, v, hv, r, hr, h⟩ := h
    cases h
    have := emit_shown _ _ _ hv
    rw [consolidate, consolidateLoop_shown, ih1 _ hw] at this
    simp only [List.reverse_nil, List.flatMap_nil, List.nil_append] at this
    simp [Nodes.shown, itemShown, this, ih2 _ hr]

/-- C119 (text): the graph says what the nodes say: the same characters, line ends included, in the same order, and the same text in bold. -/
theorem C119_text (src : List UInt8) (ns : Nodes) (v : Vals) (h : nodeValues src ns = some v) : v.shown = ns.shown := by
  simp only [nodeValues, Option.bind_eq_some_iff] at h
  obtain ⟨is, h1, h2⟩ := h
  rw [emit_shown _ _ _ h2, consolidate, consolidateLoop_shown, items_shown _ _ _ h1]
  rfl

/-- the item is text -/
def isText : Item → Bool
  | .text _ _ _ => true
  | _ => false

/-- no text follows text -/
def itemsMerged (its : List Item) : Prop := ∀ p i j s, its = p ++ i :: j :: s → isText i = true → isText j = true → False

theorem itemsMerged_cons (i : Item) (its : List Item) (h : itemsMerged its) (hh : isText i = true → its.head?.any isText = false) : itemsMerged (i :: its) := by
  intro p a b s e ha hb
  cases p with
  | nil =>
    cases e
    have := hh ha
    simp [hb] at this
  | cons x p =>
    cases e
    exact h p a b s rfl ha hb

theorem itemsMerged_tail (i : Item) (its : List Item) (h : itemsMerged (i :: its)) : itemsMerged its ∧ (isText i = true → its.head?.any isText = false) := by
  refine ⟨fun p a b s e ha hb => h (i :: p) a b s (by rw [e]; rfl) ha hb, fun hi => ?_⟩
  cases its with
  | nil => rfl
  | cons j its =>
    cases hj : isText j with
    | false => simp [hj]
    | true => exact (h [] i j its rfl hi hj).elim

theorem itemsMerged_reverse (its : List Item) (h : itemsMerged its) : itemsMerged its.reverse := by
  intro p a b s e ha hb
  refine h s.reverse b a p.reverse ?_ hb ha
  have := congrArg List.reverse e
  simpa using this

theorem consolidateLoop_merged (done its : List Item) (hd : itemsMerged done) : itemsMerged (consolidateLoop done its) := by
  fun_induction consolidateLoop done its with
  | case1 done => exact itemsMerged_reverse _ hd
  | case2 prev a e' done cur s e items ih => exact ih (itemsMerged_cons _ _ (itemsMerged_tail _ _ hd).1 fun _ => (itemsMerged_tail _ _ hd).2 rfl)
  | case3 prev a e' done s e items ih => exact ih (itemsMerged_cons _ _ (itemsMerged_tail _ _ hd).1 fun _ => (itemsMerged_tail _ _ hd).2 rfl)
  | case4 done i items h1 h2 ih =>
    refine ih (itemsMerged_cons _ _ hd fun ht => ?_)
    cases done with
    | nil => rfl
    | cons j done =>
      cases i with
      | text s a e =>
        cases j with
        | text p b f => exact (h1 _ _ _ _ _ _ _ rfl rfl).elim
        | newline _ _ => rfl
        | bold _ _ _ => rfl
        | other => rfl
      | newline _ _ => cases ht
      | bold _ _ _ => cases ht
      | other => cases ht

theorem consolidateLoop_bolds (done its : List Item) (v : Vals) (a e : Nat) (h : .bold v a e ∈ consolidateLoop done its) : .bold v a e ∈ done ∨ .bold v a e ∈ its := by
  fun_induction consolidateLoop done its with
  | case1 done => simpa using h
  | case2 prev a e' done cur s e items ih => simpa using ih h
  | case3 prev a e' done s e items ih => simpa using ih h
  | case4 done i items h1 h2 ih =>
    have := ih h
    simp only [List.mem_cons] at this ⊢
    grind

theorem emit_merged (src : List UInt8) (its : List Item) (v : Vals) (h : emit src its = some v) (hm : itemsMerged its) (hb : ∀ w a e, .bold w a e ∈ its → w.merged) :
    v.merged ∧ v.startsText = its.head?.any isText := by
  induction its generalizing v with
  | nil => cases h; exact ⟨trivial, rfl⟩
  | cons i its ih =>
    have ⟨h1, h2⟩ := itemsMerged_tail _ _ hm
    cases i with
    | text s a e =>
      simp only [emit, Option.map_eq_some_iff] at h
      obtain ⟨w, hw, rfl⟩ := h
      have := ih _ hw h1 (fun w a e h => hb w a e (by simp [h]))
      exact ⟨⟨this.2.trans (h2 rfl), this.1⟩, rfl⟩
    | bold inner a e =>
      simp only [emit, Option.map_eq_some_iff] at h
      obtain ⟨w, hw, rfl⟩ := h
      have := ih _ hw h1 (fun w a e h => hb w a e (by simp [h]))
      exact ⟨⟨hb inner a e (by simp), this.1⟩, rfl⟩
    | newline a e => cases h
    | other => cases h

theorem items_bolds (src : List UInt8) (ns : Nodes) (is : List Item) (h : items src ns = some is) : ∀ w a e, .bold w a e ∈ is → w.merged := by
  induction ns generalizing is with
  | nil => cases h; simp
  | text s a e rest ih =>
    simp only [items, Option.map_eq_some_iff] at h
    obtain ⟨w, hw, rfl⟩ := h
    intro w a e hm
    exact ih _ hw w a e (by simpa using hm)
  | newline a e rest ih =>
    simp only [items, Option.map_eq_some_iff] at h
    obtain ⟨w, hw, rfl⟩ := h
    intro w a e hm
    exact ih _ hw w a e (by simpa using hm)
  | other a e rest ih =>
    simp only [items, Option.map_eq_some_iff] at h
    obtain ⟨w, hw, rfl⟩ := h
    intro w a e hm
    exact ih _ hw w a e (by simpa using hm)
  | bold inner a e rest ih1 ih2 =>
    simp only [items, Option.bind_eq_bind, Option.bind_eq_some_iff] at h
    obtain ⟨x, hx, v, hv, r, hr, h⟩ := h
    cases h
    intro w b f hm
    rcases List.mem_cons.mp hm with hm | hm
    · cases hm
      refine (emit_merged _ _ _ hv (consolidateLoop_merged _ _ (fun p i j s e => by cases p <;> cases e)) fun w a e h => ?_).1
      rcases consolidateLoop_bolds _ _ _ _ _ h with h | h
      · cases h
      · exact ih1 _ hx w a e h
    · exact ih2 _ hr w b f hm

/-- C119 (merged): in the graph no text follows text, in bold text neither: text that is spelt in several nodes is one text. -/
theorem C119_merged (src : List UInt8) (ns : Nodes) (v : Vals) (h : nodeValues src ns = some v) : v.merged := by
  simp only [nodeValues, Option.bind_eq_some_iff] at h
  obtain ⟨is, h1, h2⟩ := h
  refine (emit_merged _ _ _ h2 (consolidateLoop_merged _ _ (fun p i j s e => by cases p <;> cases e)) fun w a e h => ?_).1
  rcases consolidateLoop_bolds _ _ _ _ _ h with h | h
  · cases h
  · exact items_bolds _ _ _ h1 w a e h

/-- `a`, a line end and `b *c*` -/
example : nodeValues "a\nb *c*".toUTF8.toList (.text ['a'] 0 1 (.newline 1 2 (.text ['b', ' '] 2 4 (.bold (.text ['c'] 5 6 .nil) 4 7 .nil)))) =
    some (.text ['a', '\n', 'b', ' '] (⟨1, 1⟩, ⟨2, 2⟩) (.strong (.text ['c'] (⟨2, 4⟩, ⟨2, 4⟩) .nil) (⟨2, 3⟩, ⟨2, 5⟩) .nil)) := by decide +kernel

theorem loop_cons (x : Item) (done its : List Item) : consolidateLoop (x :: done) its = done.reverse ++ consolidateLoop [x] its := by
  induction its generalizing x done with
  | nil => simp [consolidateLoop]
  | cons i its ih =>
    have gen : consolidateLoop (i :: x :: done) its = done.reverse ++ consolidateLoop [i, x] its := by
      rw [ih i (x :: done), ih i [x]]; simp
    cases x <;> cases i <;> simp only [consolidateLoop] <;> first | exact gen | exact ih _ _

theorem loop_other (x : Item) (its : List Item) (h : isText x = false) : consolidateLoop [x] its = x :: consolidateLoop [] its := by
  cases its with
  | nil => rfl
  | cons i its =>
    have gen : consolidateLoop [i, x] its = x :: consolidateLoop [i] its := by rw [loop_cons i [x]]; rfl
    cases x <;> first | (cases h; done) | (cases i <;> simp only [consolidateLoop] <;> exact gen)

theorem graph_of (src : List UInt8) (ns : Nodes) (is : List Item) (h : items src ns = some is) :
    (∀ v, emit src (consolidateLoop [] is) = some v → Graph src ns v) ∧
    (∀ s a e v, emit src (consolidateLoop [.text s a e] is) = some v → ∃ run rest w, ns = Nodes.after run rest ∧ rest.startsRun = false ∧
      v = .text (s ++ runText run) (span src a (runEnd e run)) w ∧ Graph src rest w) := by
  induction ns generalizing is with
  | nil =>
    cases h
    refine ⟨fun v hv => by cases hv; exact .nil, fun s a e v hv => ⟨[], .nil, .nil, rfl, rfl, ?_, .nil⟩⟩
    cases hv
    simp [runText, runEnd]
  | text s a e rest ih =>
    simp only [items, Option.map_eq_some_iff] at h
    obtain ⟨w, hw, rfl⟩ := h
    refine ⟨fun v hv => ?_, fun s0 a0 e0 v hv => ?_⟩
    · obtain ⟨run, r, u, rfl, h2, rfl, h4⟩ := (ih _ hw).2 s a e v hv
      exact .text _ _ _ _ _ _ h2 h4
    · obtain ⟨run, r, u, rfl, h2, rfl, h4⟩ := (ih _ hw).2 _ _ _ v hv
      refine ⟨(some s, a, e) :: run, r, u, rfl, h2, ?_, h4⟩
      cases run <;> simp [runText, runEnd, List.getLast?_cons]
  | newline a e rest ih =>
    simp only [items, Option.map_eq_some_iff] at h
    obtain ⟨w, hw, rfl⟩ := h
    refine ⟨fun v hv => ?_, fun s0 a0 e0 v hv => ?_⟩
    · rw [consolidateLoop, loop_other _ _ rfl] at hv
      · cases hv
      · nofun
      · nofun
    · obtain ⟨run, r, u, rfl, h2, rfl, h4⟩ := (ih _ hw).2 _ _ _ v hv
      refine ⟨(none, a, e) :: run, r, u, rfl, h2, ?_, h4⟩
      cases run <;> simp [runText, runEnd, List.getLast?_cons]
  | other a e rest ih =>
    simp only [items, Option.map_eq_some_iff] at h
    obtain ⟨w, hw, rfl⟩ := h
    have e0 : consolidateLoop [.other] w = .other :: consolidateLoop [] w := loop_other _ _ rfl
    refine ⟨fun v hv => ?_, fun s0 a0 e0' v hv => ?_⟩
    · simp only [consolidateLoop] at hv
      rw [e0] at hv
      cases hv
    · simp only [consolidateLoop] at hv
      rw [loop_cons, e0] at hv
      cases hv
  | bold inner a e rest ih1 ih2 =>
    simp only [items, Option.bind_eq_bind, Option.bind_eq_some_iff] at h
    obtain ⟨w, hw, iv, hv, r, hr, h⟩ := h
    cases h
    have e0 : consolidateLoop [.bold iv a e] r = .bold iv a e :: consolidateLoop [] r := loop_other _ _ rfl
    have first : ∀ v, emit src (consolidateLoop [.bold iv a e] r) = some v → Graph src (.bold inner a e rest) v := by
      intro v h
      rw [e0] at h
      simp only [emit, Option.map_eq_some_iff] at h
      obtain ⟨u, hu, rfl⟩ := h
      exact .bold _ _ _ _ _ _ ((ih1 _ hw).1 _ hv) ((ih2 _ hr).1 _ hu)
    refine ⟨fun v h => ?_, fun s0 a0 e0' v h => ?_⟩
    · simp only [consolidateLoop] at h
      exact first v h
    · simp only [consolidateLoop] at h
      rw [loop_cons] at h
      simp only [List.reverse_singleton, List.singleton_append, emit, Option.map_eq_some_iff] at h
      obtain ⟨u, hu, rfl⟩ := h
      exact ⟨[], _, u, rfl, rfl, by simp [runText, runEnd], first u hu⟩

/-- C119 (graph): the nodes that are written, and their places, are those of the graph of the nodes: a run of text and line ends is one text, from the start of its
first node to the end of its last one, and bold text has the place it has in the source. -/
theorem C119_graph (src : List UInt8) (ns : Nodes) (v : Vals) (h : nodeValues src ns = some v) : Graph src ns v := by
  simp only [nodeValues, Option.bind_eq_some_iff] at h
  obtain ⟨is, h1, h2⟩ := h
  exact (graph_of src ns is h1).1 v h2

/-- the items can be written: line ends come after text only -/
def itemsPlain : Bool → List Item → Prop
  | _, [] => True
  | _, .text _ _ _ :: its => itemsPlain true its
  | t, .newline _ _ :: its => t = true ∧ itemsPlain true its
  | _, .bold _ _ _ :: its => itemsPlain false its
  | _, .other :: _ => False

/-- text and bold text only -/
def writable : Item → Bool
  | .text _ _ _ => true
  | .bold _ _ _ => true
  | _ => false

theorem consolidateLoop_writable (done its : List Item) (hd : ∀ i ∈ done, writable i = true) (h : itemsPlain (done.head?.any isText) its) :
    ∀ i ∈ consolidateLoop done its, writable i = true := by
  fun_induction consolidateLoop done its with
  | case1 done => simpa using hd
  | case2 prev a e' done cur s e items ih =>
    refine ih (fun i hi => ?_) h
    rcases List.mem_cons.mp hi with rfl | hi
    · rfl
    · exact hd i (by simp [hi])
  | case3 prev a e' done s e items ih =>
    refine ih (fun i hi => ?_) h.2
    rcases List.mem_cons.mp hi with rfl | hi
    · rfl
    · exact hd i (by simp [hi])
  | case4 done i items h1 h2 ih =>
    cases i with
    | text s a e =>
      refine ih (fun i hi => ?_) h
      rcases List.mem_cons.mp hi with rfl | hi
      · rfl
      · exact hd i hi
    | bold v a e =>
      refine ih (fun i hi => ?_) h
      rcases List.mem_cons.mp hi with rfl | hi
      · rfl
      · exact hd i hi
    | newline a e =>
      cases done with
      | nil => exact absurd h.1 (by simp)
      | cons j done =>
        cases j with
        | text p b f => exact (h2 _ _ _ _ _ _ rfl rfl).elim
        | newline _ _ => exact absurd h.1 (by simp [isText])
        | bold _ _ _ => exact absurd h.1 (by simp [isText])
        | other => exact absurd h.1 (by simp [isText])
    | other => exact h.elim

theorem emit_some (src : List UInt8) (its : List Item) (h : ∀ i ∈ its, writable i = true) : ∃ v, emit src its = some v := by
  induction its with
  | nil => exact ⟨_, rfl⟩
  | cons i its ih =>
    obtain ⟨w, hw⟩ := ih fun j hj => h j (by simp [hj])
    have hi := h i (by simp)
    cases i with
    | text s a e => exact ⟨_, by simp only [emit, hw]; rfl⟩
    | bold v a e => exact ⟨_, by simp only [emit, hw]; rfl⟩
    | newline a e => cases hi
    | other => cases hi

theorem items_some (src : List UInt8) (ns : Nodes) (t : Bool) (h : ns.plain t) : ∃ is, items src ns = some is ∧ itemsPlain t is := by
  induction ns generalizing t with
  | nil => exact ⟨_, rfl, trivial⟩
  | text s a e rest ih =>
    obtain ⟨is, h1, h2⟩ := ih true h
    exact ⟨.text s a e :: is, by simp only [items, h1]; rfl, h2⟩
  | newline a e rest ih =>
    obtain ⟨is, h1, h2⟩ := ih true h.2
    exact ⟨.newline a e :: is, by simp only [items, h1]; rfl, h.1, h2⟩
  | other a e rest ih => exact h.elim
  | bold inner a e rest ih1 ih2 =>
    obtain ⟨is, h1, h2⟩ := ih1 false h.1
    obtain ⟨rs, h3, h4⟩ := ih2 false h.2
    obtain ⟨v, hv⟩ := emit_some src (consolidate is) (consolidateLoop_writable [] is (by simp) h2)
    exact ⟨.bold v a e :: rs, by simp [items, h1, hv, h3], h4⟩

/-- C119 (answer): text, bold text and line ends after text are written. -/
theorem C119_answer_partial (src : List UInt8) (ns : Nodes) (h : ns.plain false) : ∃ v, nodeValues src ns = some v := by
  obtain ⟨is, h1, h2⟩ := items_some src ns false h
  obtain ⟨v, hv⟩ := emit_some src (consolidate is) (consolidateLoop_writable [] is (by simp) h2)
  exact ⟨v, by simp only [nodeValues, h1]; exact hv⟩

/-- the nodes of the example above -/
example : Nodes.plain false (.text ['a'] 0 1 (.newline 1 2 (.text ['b', ' '] 2 4 (.bold (.text ['c'] 5 6 .nil) 4 7 .nil)))) := by
  simp [Nodes.plain]

/-- C119 fails when a line ends with bold text, and for all other nodes: there is no graph, the program panics. -/
theorem C119_answer_violated :
    nodeValues "*a*\nb".toUTF8.toList (.bold (.text ['a'] 1 2 .nil) 0 3 (.newline 3 4 (.text ['b'] 4 5 .nil))) = none ∧
    ∀ src a e rest, nodeValues src (.other a e rest) = none := by
  refine ⟨by decide +kernel, fun src a e rest => ?_⟩
  have key : ∀ done its, Item.other ∈ done → emit src (consolidateLoop done its) = none := by
    intro done its hm
    have hmem : Item.other ∈ consolidateLoop done its := by
      fun_induction consolidateLoop done its with
      | case1 done => simpa using hm
      | case2 _ _ _ _ _ _ _ _ ih => exact ih (by simpa using hm)
      | case3 _ _ _ _ _ _ _ ih => exact ih (by simpa using hm)
      | case4 _ _ _ _ _ ih => exact ih (by simp [hm])
    generalize consolidateLoop done its = l at hmem
    induction l with
    | nil => cases hmem
    | cons i l ih =>
      cases i with
      | other => rfl
      | newline _ _ => rfl
      | text s a e => simp only [emit, ih (by simpa using hmem)]; rfl
      | bold s a e => simp only [emit, ih (by simpa using hmem)]; rfl
  simp only [nodeValues, items]
  cases items src rest with
  | none => rfl
  | some is => exact key [.other] is (by simp)

end Verif.Props
