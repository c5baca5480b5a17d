import Verif.Lemmas.AttrRefs
import Verif.Props.Inlines
/-!
C68: attribute references are replaced by their values.
-/
namespace Verif.Props
open Verif Verif.Inlines Verif.AttrRefs TokenKind

/-- **C68**, partial: if the attributes referred to have plain values, reading a text ends, and the text of each line is that
of the source with the values in place of the references. References to attributes without value are kept, left out or
leave out their line, as `attribute-missing` says.

Missing: values with references or line ends in them, empty values followed by markup, attributes that are set without a
value (`C68_…_violated`). -/
theorem C68_references_are_replaced_partial {cfg : Cfg} (hs : cfg.subs = true) {s : String}
    (hok : ∀ l ∈ cutLines (tokensOf s), OkLine cfg l) :
    ∃ ls, Reads cfg (atStart s) ls ∧ ls.map textOf = meaningLines cfg (cutLines (tokensOf s)) := by
  refine ⟨_, readAll_lines _ _ (Nat.le_refl _) hok, ?_⟩
  simp only [meaningLines, List.map_map]
  have h1 : (fun l : List Tok => !l.any (drops cfg)) =
      fun l => !(decide (onMissing cfg = some "drop-line") && l.any (isMissing cfg)) := by
    funext l
    congr 1
    have : drops cfg = fun t => decide (onMissing cfg = some "drop-line") && isMissing cfg t := by
      funext t; simp [drops, hs]
    rw [this]
    by_cases h : onMissing cfg = some "drop-line" <;> simp [h]
  rw [h1]
  refine List.map_congr_left fun l hl => ?_
  have hv := (hok l (List.mem_filter.1 hl).1).values hs
  simp only [Function.comp, textOf_flatMap]
  have : ∀ (m : List Tok), (∀ t ∈ m, t ∈ l) → m.flatMap (fun t => textOf (expand cfg t)) = m.flatMap (meaning cfg) := by
    intro m
    induction m with
    | nil => intro _; rfl
    | cons t m ih =>
      intro h
      rw [List.flatMap_cons, List.flatMap_cons, ih fun u hu => h u (by simp [hu]),
        expand_text hs fun v hv' => (hv t (h t (by simp)) v hv').settled]
  exact this l fun _ h => h

/-- **C68**, partial: the tokens marked as coming from a value, which are never marks of formatting, are exactly those of the
values.

Missing: as above. -/
theorem C68_values_are_marked_partial {cfg : Cfg} (hs : cfg.subs = true) {s : String}
    (hok : ∀ l ∈ cutLines (tokensOf s), OkLine cfg l) :
    ∃ ls, Reads cfg (atStart s) ls ∧ ls.map markedText = valueLines cfg (cutLines (tokensOf s)) := by
  refine ⟨_, readAll_lines _ _ (Nat.le_refl _) hok, ?_⟩
  simp only [valueLines, List.map_map]
  have h1 : (fun l : List Tok => !l.any (drops cfg)) =
      fun l => !(decide (onMissing cfg = some "drop-line") && l.any (isMissing cfg)) := by
    funext l
    congr 1
    have : drops cfg = fun t => decide (onMissing cfg = some "drop-line") && isMissing cfg t := by
      funext t; simp [drops, hs]
    rw [this]
    by_cases h : onMissing cfg = some "drop-line" <;> simp [h]
  rw [h1]
  refine List.map_congr_left fun l hl => ?_
  have hmem := (List.mem_filter.1 hl).1
  have hv := (hok l hmem).values hs
  have hu : ∀ t ∈ l, t.attr = false := fun t ht => tokensOf_attr _ t (cutLines_mem hmem t ht).1
  simp only [Function.comp, markedText_flatMap]
  have : ∀ (m : List Tok), (∀ t ∈ m, t ∈ l) →
      m.flatMap (fun t => markedText (expand cfg t)) = m.flatMap (fun t => ((refValue cfg t).getD "").toList) := by
    intro m
    induction m with
    | nil => intro _; rfl
    | cons t m ih =>
      intro h
      rw [List.flatMap_cons, List.flatMap_cons, ih fun u hu => h u (by simp [hu]),
        expand_marked hs (hu t (h t (by simp))) fun v hv' => (hv t (h t (by simp)) v hv').settled]
  exact this l fun _ h => h

/-- **C68**: where attribute references are not among the substitutions, the lines are those of the source. The condition
says only that no line starts with a directive. -/
theorem C68_no_references_without_subs {cfg : Cfg} (hs : cfg.subs = false) {s : String}
    (hok : ∀ l ∈ cutLines (tokensOf s), startOk cfg l = true) : Reads cfg (atStart s) (cutLines (tokensOf s)) := by
  have h := readAll_lines (cfg := cfg) _ (tokensOf s) (Nat.le_refl _) fun l hl =>
    ⟨fun h => (by rw [hs] at h; cases h), hok l hl⟩
  have h1 : ∀ l : List Tok, l.any (drops cfg) = false := fun l => by simp [drops, hs]
  have h2 : ∀ l : List Tok, l.flatMap (expand cfg) = l := fun l => by
    induction l with
    | nil => rfl
    | cons t l ih => rw [List.flatMap_cons, ih]; simp [expand, hs]
  simpa [h1, h2, atStart, List.filter_eq_self.2] using h

/-- a text that meets the condition -/
example : ∀ l ∈ cutLines (tokensOf "x {name}\n:y: {foo} y\n*z*"), startOk ⟨fun _ => some (.string "v"), false⟩ l = true := by
  decide +kernel

/-- **C68** (termination), partial: reading a text ends if no attribute refers to itself, directly or through the values of
other attributes.

Missing: attributes that refer to themselves (`C68_self_reference_violated`). -/
theorem C68_reading_ends_partial {cfg : Cfg} {rank : String → Nat} (hr : Ranked cfg rank) (s : String) :
    ∃ n, ∀ m, n ≤ m → readText cfg m s = readText cfg n s ∧ readText cfg n s ≠ .error .diverged := by
  obtain ⟨n, hn⟩ := readAll_ends hr (size 0 (atStart s)) (s := atStart s) (r := 0) rfl (fun t ht => by simp [atStart] at ht)
  exact ⟨n, fun m hm => ⟨readAll_mono n hn m hm, hn⟩⟩

/-- attributes for the examples -/
def someAttrs (missing : Option AttrValue) : Cfg where
  attrs := fun n =>
    if n = "attribute-missing" then missing
    else if n = "name" then some (.string "a *b*")
    else if n = "other" then some (.string "c")
    else if n = "nested" then some (.string "x {other} y")
    else if n = "self" then some (.string "{self}")
    else if n = "empty" then some (.string "")
    else if n = "set" then some (.bool true)
    else none
  subs := true

/-- a text that meets the conditions -/
example : ∀ l ∈ cutLines (tokensOf "x {name}, {Other}\n{foo} y\n*z*"), OkLine (someAttrs none) l := by
  have h : cutLines (tokensOf "x {name}, {Other}\n{foo} y\n*z*") = cutLines (tokensOf "x {name}, {Other}\n{foo} y\n*z*") := rfl
  intro l hl
  have hd : (cutLines (tokensOf "x {name}, {Other}\n{foo} y\n*z*")).all (fun l => startOk (someAttrs none) l && l.all fun t =>
      [none, some "a *b*", some "c"].contains (refValue (someAttrs none) t)) = true := by decide +kernel
  rw [List.all_eq_true] at hd
  have := hd l hl
  simp only [Bool.and_eq_true, List.all_eq_true, List.contains_iff_mem, List.mem_cons, List.not_mem_nil, or_false] at this
  refine ⟨fun _ t ht v hv => ?_, this.1⟩
  rcases this.2 t ht with h | h | h
  · rw [h] at hv; cases hv
  · rw [h] at hv; cases hv; exact ⟨by decide, by decide⟩
  · rw [h] at hv; cases hv; exact ⟨by decide, by decide⟩

/-- what it stands for -/
example : meaningLines (someAttrs none) (cutLines (tokensOf "x {name}, {Other}\n{foo} y\n*z*")) =
      ["x a *b*, c".toList, "{foo} y".toList, "*z*".toList] ∧
    meaningLines (someAttrs (some (.string "drop"))) (cutLines (tokensOf "x {name}, {Other}\n{foo} y\n*z*")) =
      ["x a *b*, c".toList, " y".toList, "*z*".toList] ∧
    meaningLines (someAttrs (some (.string "drop-line"))) (cutLines (tokensOf "x {name}, {Other}\n{foo} y\n*z*")) =
      ["x a *b*, c".toList, "*z*".toList] := by decide +kernel

/-- the lines read, by their text -/
def shownLines (r : Except AttrRefs.Fail (List (List Tok))) : Option (List (List Char)) := r.toOption.map (·.map textOf)

/-- **C68**, violated for references inside values: what follows them in the value is lost. -/
theorem C68_nested_reference_violated :
    shownLines (readText (someAttrs none) 100 "1 {nested} 2") = some ["1 x c 2".toList] := by decide +kernel

/-- **C68**, violated for attributes set without a value: the reference is shown as it is written. -/
theorem C68_set_without_value_violated :
    shownLines (readText (someAttrs none) 100 "1 {set} 2") = some ["1 {set} 2".toList] := by decide +kernel

/-- **C68**, violated after an empty value: the next token counts as part of the value, so that its marks are
not recognised. -/
theorem C68_empty_value_violated :
    (readText (someAttrs none) 100 "{empty}*b*").toOption.map (fun ls => nodesOf (parse para .normal (ls.map Line.new))) =
      some (.ok [.leaf (.text "*b*".toList)]) ∧
    nodesOf (parse para .normal (linesOf "*b*")) = .ok [.wrap (.span .bold none) [.leaf (.text "b".toList)]] := by
  decide +kernel

/-- the tokens of the value of `self` -/
theorem selfToks (t : Tok) : valueToks t "{self}" = [⟨AttrRef, "{self}".toList, t.before, false, t.loc⟩] := by
  have h : (tokensOf "{self}").map (fun u => (u.kind, u.lexeme, u.attr)) = [(AttrRef, "{self}".toList, false)] := by decide +kernel
  obtain ⟨u, us, hu⟩ : ∃ u us, tokensOf "{self}" = u :: us := by
    cases hx : tokensOf "{self}" with
    | nil => rw [hx] at h; cases h
    | cons u us => exact ⟨u, us, rfl⟩
  rw [hu] at h
  simp only [List.map_cons, List.cons.injEq, Prod.mk.injEq, List.map_eq_nil_iff] at h
  obtain ⟨⟨h1, h2, h3⟩, h4⟩ := h
  simp [valueToks, hu, h4, h1, h2, h3]

/-- reading the value of `self` never ends -/
theorem self_diverges : ∀ (n : Nat) (t : Tok) (f : Bool) (src line : List Tok) (drop : Bool),
    t.kind = AttrRef → t.lexeme = "{self}".toList →
    readLine (someAttrs none) n ⟨f, [t], src⟩ line drop = .error .diverged := by
  intro n
  induction n with
  | zero => intros; rfl
  | succ n ih =>
    intro t f src line drop hk hl
    have h1 : refValue (someAttrs none) t = some "{self}" := by
      have : refName t = "self" := by rw [refName, hl]; decide
      simp [refValue, hk, this, someAttrs]
    rw [readLine]
    simp only [St.next, hk]
    rw [if_neg (by decide), if_neg (by simp), push_value hk rfl h1 (by decide)]
    simp only [selfToks, show ("{self}" : String) ≠ "" by decide, if_false]
    exact ih _ _ _ _ _ rfl rfl

/-- **C68** (termination), violated: reading a reference to an attribute whose value refers to itself never ends, however
many steps are allowed. The value comes from the command line or from two entries in the header: `:x: {self` and
`:self: {x}}`. -/
theorem C68_self_reference_violated (n : Nat) : readText (someAttrs none) n "{self}" = .error .diverged := by
  have h : (tokensOf "{self}").map (fun u => (u.kind, u.lexeme)) = [(AttrRef, "{self}".toList)] := by decide +kernel
  obtain ⟨t, h1, h2, h3⟩ : ∃ t, tokensOf "{self}" = [t] ∧ t.kind = AttrRef ∧ t.lexeme = "{self}".toList := by
    cases hx : tokensOf "{self}" with
    | nil => rw [hx] at h; cases h
    | cons u us =>
      rw [hx] at h
      simp only [List.map_cons, List.cons.injEq, Prod.mk.injEq, List.map_eq_nil_iff] at h
      exact ⟨u, by rw [h.2], h.1.1, h.1.2⟩
  cases n with
  | zero => rfl
  | succ n =>
    unfold readText
    rw [h1, readAll]
    simp only [St.next]
    have hr : refValue (someAttrs none) t = some "{self}" := by
      have : refName t = "self" := by rw [refName, h3]; decide
      simp [refValue, h2, this, someAttrs]
    rw [readLine]
    simp only [St.next, h2]
    rw [if_neg (by decide), if_neg (by simp), push_value h2 rfl hr (by decide)]
    simp only [selfToks, show ("{self}" : String) ≠ "" by decide, if_false]
    rw [self_diverges _ _ _ _ _ _ rfl rfl]

/-- values of other attributes may be referred to -/
example : Ranked { someAttrs none with attrs := fun n => if n = "self" then none else (someAttrs none).attrs n }
    (fun n => if n = "nested" then 1 else 0) := by
  intro name v h u hu hx
  simp only [someAttrs] at h
  have key : ∀ w : String, (tokensOf w).all (fun u => (u.kind ≠ AttrRef) || refName u = "other") = true →
      v = w → name = "nested" ∨ (tokensOf w).all (fun u => u.kind ≠ AttrRef) = true →
      (if refName u = "nested" then 1 else 0) < if name = "nested" then 1 else 0 := by
    intro w h1 h2 h3
    subst h2
    rw [List.all_eq_true] at h1
    have hk : u.kind = AttrRef := by
      false_or_by_contra
      simp [refValue, *] at hx
    have := h1 u hu
    simp [hk] at this
    rcases h3 with h3 | h3
    · simp [this, h3]
    · rw [List.all_eq_true] at h3
      have := h3 u hu
      simp [hk] at this
  by_cases e1 : name = "name"
  · subst e1; simp at h; exact key "a *b*" (by decide +kernel) h.symm (.inr (by decide +kernel))
  · by_cases e2 : name = "other"
    · subst e2; simp at h; exact key "c" (by decide +kernel) h.symm (.inr (by decide +kernel))
    · by_cases e3 : name = "nested"
      · subst e3; simp at h; exact key "x {other} y" (by decide +kernel) h.symm (.inl rfl)
      · by_cases e4 : name = "empty"
        · subst e4; simp at h; exact key "" (by decide +kernel) h (.inr (by decide +kernel))
        · by_cases e5 : name = "self"
          · simp [e5] at h
          · simp [e1, e2, e3, e4, e5] at h

end Verif.Props
