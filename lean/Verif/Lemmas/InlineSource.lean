import Verif.Lemmas.InlinesSafe
import Verif.Lemmas.AttrList
import Verif.Lemmas.Subs
import Verif.Spec.InlineSource
/-! Lemmas about the inline parser: it keeps the text. -/
namespace Verif.Inlines
open Verif TokenKind

/-! ### sources of lists of nodes -/

theorem Srcs.append {ns ms s t} (h : Srcs ns s) (g : Srcs ms t) : Srcs (ns ++ ms) (s ++ t) := by
  induction ns generalizing s with
  | nil => cases h; exact g
  | cons n ns ih =>
    cases h with
    | cons h1 h2 => rw [List.append_assoc]; exact .cons h1 (ih h2)

theorem Srcs.one {n s} (h : Src n s) : Srcs [n] s := by
  have := Srcs.cons h .nil
  rwa [List.append_nil] at this

theorem Srcs.snoc {ns n s t} (h : Srcs ns s) (g : Src n t) : Srcs (ns ++ [n]) (s ++ t) := h.append (.one g)

theorem Srcs.split {ns ms s} (h : Srcs (ns ++ ms) s) : ∃ a b, s = a ++ b ∧ Srcs ns a ∧ Srcs ms b := by
  induction ns generalizing s with
  | nil => exact ⟨[], s, rfl, .nil, h⟩
  | cons n ns ih =>
    cases h with
    | cons h1 h2 =>
      obtain ⟨a, b, rfl, h3, h4⟩ := ih h2
      exact ⟨_ ++ a, b, by rw [List.append_assoc], .cons h1 h3, h4⟩

theorem Srcs.last {ns n s} (h : Srcs (ns ++ [n]) s) : ∃ a b, s = a ++ b ∧ Srcs ns a ∧ Src n b := by
  obtain ⟨a, b, rfl, h1, h2⟩ := h.split
  cases h2 with
  | cons h2 h3 => cases h3; exact ⟨a, _, by rw [List.append_nil], h1, h2⟩

theorem Srcs.getLast {ns n s} (h : Srcs ns s) (hl : ns.getLast? = some n) : ∃ a b, s = a ++ b ∧ Srcs ns.dropLast a ∧ Src n b := by
  have : ns = ns.dropLast ++ [n] := by
    obtain ⟨ys, e⟩ := List.getLast?_eq_some_iff.1 hl
    rw [e]; simp
  rw [this] at h
  obtain ⟨a, b, h1, h2, h3⟩ := h.last
  exact ⟨a, b, h1, h2, h3⟩

/-- the nodes and the text collected so far stand for `s` -/
def AccSrc (a : Acc) (s : List Char) : Prop := ∃ x, Srcs a.nodes x ∧ s = x ++ a.text

theorem AccSrc.commit {a : Acc} {s} (h : AccSrc a s) : Srcs a.commit.nodes s ∧ a.commit.text = [] := by
  obtain ⟨x, h, rfl⟩ := h
  unfold Acc.commit
  split
  · rename_i he; exact ⟨by rw [he, List.append_nil]; exact h, he⟩
  · split
    · rename_i t hl
      obtain ⟨p, q, rfl, h1, h2⟩ := h.getLast hl
      cases h2 with
      | leaf h2 => cases h2; exact ⟨by rw [List.append_assoc]; exact h1.snoc (.leaf (.text _)), rfl⟩
    · exact ⟨h.snoc (.leaf (.text _)), rfl⟩

theorem AccSrc.push {a : Acc} {s t n} (h : AccSrc a s) (g : Src n t) : AccSrc (a.push n) (s ++ t) :=
  ⟨s ++ t, h.commit.1.snoc g, by simp [Acc.push]⟩
theorem AccSrc.leaf {a : Acc} {s t l} (h : AccSrc a s) (g : LeafSrc l t) : AccSrc (a.leaf l) (s ++ t) := h.push (.leaf g)
theorem AccSrc.text {a : Acc} {s} (h : AccSrc a s) (t : List Char) : AccSrc (a.putText t) (s ++ t) := by
  obtain ⟨x, h, rfl⟩ := h
  exact ⟨x, h, by simp [Acc.putText]⟩
theorem AccSrc.unused {a : Acc} {s} (h : AccSrc a s) (p : Option Pend) : AccSrc (a.unused p) (s ++ pendSource p) := by
  cases p with
  | none => simpa [Acc.unused, pendSource] using h
  | some p => exact h.text _
theorem AccSrc.cast {a : Acc} {s t} (h : AccSrc a s) (e : s = t) : AccSrc a t := e ▸ h

theorem trimmed_id {ns : List Node} (h : ∀ s, ns.getLast? ≠ some (.leaf (.lineComment s))) : trimmed ns = ns := by
  unfold trimmed trimFrom
  split
  · rename_i s hl; exact absurd hl (h s)
  · rfl

theorem Srcs.trimmed {ns s} (h : Srcs ns s) : Srcs (trimmed ns) s := by
  rw [trimmed_id]
  · exact h
  · intro c hc
    obtain ⟨_, _, _, _, h2⟩ := h.getLast hc
    cases h2 with
    | leaf h2 => cases h2

theorem AccSrc.finish {a : Acc} {s} (h : AccSrc a s) (p : Option Pend) : Srcs (finish a p) (s ++ pendSource p) :=
  (h.unused p).commit.1.trimmed

/-! ### sources of tokens -/

theorem srcOf_cons (t : Tok) (ts : List Tok) (h : t.kind ≠ AttrRef) : srcOf (t :: ts) = t.lexeme ++ srcOf ts := by
  simp [srcOf, h]
theorem srcOf_ref (t : Tok) (ts : List Tok) (h : t.kind = AttrRef) : srcOf (t :: ts) = srcOf ts := by
  simp [srcOf, h]
theorem srcOf_append (a b : List Tok) : srcOf (a ++ b) = srcOf a ++ srcOf b := by simp [srcOf]
theorem srcOf_take_drop (l : List Tok) (n : Nat) : srcOf l = srcOf (l.take n) ++ srcOf (l.drop n) := by
  rw [← srcOf_append, List.take_append_drop]

theorem matchSeq_append {specs : List TSpec} {a : List Tok} (b : List Tok) (h : matchSeq specs a = true) : matchSeq specs (a ++ b) = true := by
  induction specs generalizing a with
  | nil => rfl
  | cons s ss ih =>
    obtain ⟨t, ts, rfl, h1, h2⟩ := matchSeq_cons h
    simp only [List.cons_append, matchSeq, h1, ih h2, Bool.and_self]

theorem hasSeq_false {specs : List TSpec} {l : List Tok} : hasSeq specs l = false ↔ ∀ a t b, l = a ++ t :: b → matchSeq specs (t :: b) = false := by
  unfold hasSeq
  cases hi : indexOfSeq specs l with
  | none =>
    simp only [Option.isSome_none, true_iff]
    rintro a t b rfl
    have := indexOfSeq_none hi a.length (by simp)
    rwa [List.drop_left] at this
  | some n =>
    simp only [Option.isSome_some, Bool.true_eq_false, false_iff]
    obtain ⟨h1, h2, -⟩ := indexOfSeq_some hi
    intro h
    have e : l.drop n = l[n] :: l.drop (n + 1) := List.drop_eq_getElem_cons h2
    have := h (l.take n) l[n] (l.drop (n + 1)) (by rw [← e, List.take_append_drop])
    rw [← e, h1] at this
    cases this

theorem hasSeq_infix {specs : List TSpec} {l : List Tok} (a m b : List Tok) (e : l = a ++ m ++ b) (h : hasSeq specs l = false) : hasSeq specs m = false := by
  rw [hasSeq_false] at h ⊢
  rintro x t y rfl
  cases hm : matchSeq specs (t :: y) with
  | false => rfl
  | true =>
    have h2 := matchSeq_append b hm
    have := h (a ++ x) t (y ++ b) (by rw [e]; simp)
    rw [← this]; exact h2.symm

/-- a part of a line that is kept -/
theorem Kept.infix {r : Bool} {l : List Tok} (a m b : List Tok) (e : l = a ++ m ++ b) (h : Kept r l) : Kept r m where
  spelled t ht := h.spelled t (by rw [e]; simp [ht])
  bracket := hasSeq_infix a m b e h.bracket
  quote := hasSeq_infix a m b e h.quote
  slashes := ⟨hasSeq_infix a m b e h.slashes.1, hasSeq_infix a m b e h.slashes.2⟩
  none hr t ht := h.none hr t (by rw [e]; simp [ht])
  literal hr := hasSeq_infix a m b e (h.literal hr)
  escaped hr := hasSeq_infix a m b e (h.escaped hr)
  url hr := by
    rcases h.url hr with h1 | ⟨h1, h2⟩
    · exact .inl fun t ht => h1 t (by rw [e]; simp [ht])
    · exact .inr ⟨fun t ht => h1 t (by rw [e]; simp [ht]), hasSeq_infix a m b e h2⟩

theorem Kept.suffix {r : Bool} {l m : List Tok} (a : List Tok) (e : l = a ++ m) (h : Kept r l) : Kept r m :=
  h.infix a m [] (by rw [e, List.append_nil])
theorem Kept.tail {r : Bool} {t : Tok} {l : List Tok} (h : Kept r (t :: l)) : Kept r l := h.suffix [t] rfl
theorem Kept.drop {r : Bool} {l : List Tok} (h : Kept r l) (n : Nat) : Kept r (l.drop n) :=
  h.suffix (l.take n) (by rw [List.take_append_drop])
theorem Kept.head {r : Bool} {t : Tok} {l : List Tok} (h : Kept r (t :: l)) : Spelled t := h.spelled t (by simp)

theorem hasSeq_replace {specs : List TSpec} {t u : Tok} {l : List Tok} (h : hasSeq specs (t :: l) = false) (hu : matchSeq specs (u :: l) = false) :
    hasSeq specs (u :: l) = false := by
  have h1 := hasSeq_infix [t] l [] (by simp) h
  unfold hasSeq at h1 ⊢
  unfold indexOfSeq
  rw [hu]
  simpa using h1

/-- the first token of a line that is kept may be replaced by a plain one -/
theorem Kept.replace {r : Bool} {t u : Tok} {l : List Tok} (h : Kept r (t :: l)) (hp : Plain u) (hu : Spelled u) : Kept r (u :: l) where
  spelled v hv := by
    rcases List.mem_cons.1 hv with rfl | hv
    · exact hu
    · exact h.spelled v (by simp [hv])
  bracket := hasSeq_replace h.bracket (by rcases hp with hp | hp <;> simp [matchSeq, TSpec.sat, hp])
  quote := hasSeq_replace h.quote (by rcases hp with hp | hp <;> simp [matchSeq, TSpec.sat, hp])
  slashes := ⟨hasSeq_replace h.slashes.1 (by rcases hp with hp | hp <;> simp [matchSeq, TSpec.sat, hp]),
    hasSeq_replace h.slashes.2 (by rcases hp with hp | hp <;> simp [matchSeq, TSpec.sat, hp])⟩
  none hr v hv := by
    rcases List.mem_cons.1 hv with rfl | hv
    · rcases hp with hp | hp <;> simp [hp]
    · exact h.none hr v (by simp [hv])
  literal hr := hasSeq_replace (h.literal hr) (by rcases hp with hp | hp <;> simp [matchSeq, TSpec.sat, hp])
  escaped hr := hasSeq_replace (h.escaped hr) (by rcases hp with hp | hp <;> simp [matchSeq, TSpec.sat, hp])
  url hr := by
    have hm : ∀ k, k ≠ Word → k ≠ Discard → (∀ v ∈ t :: l, v.kind ≠ k) → ∀ v ∈ u :: l, v.kind ≠ k := by
      intro k h1 h2 h3 v hv
      rcases List.mem_cons.1 hv with rfl | hv
      · rcases hp with hp | hp <;> rw [hp] <;> exact fun e => by subst e; contradiction
      · exact h3 v (by simp [hv])
    rcases h.url hr with h1 | ⟨h1, h2⟩
    · exact .inl (hm _ (by decide) (by decide) h1)
    · refine .inr ⟨fun v hv => ?_, hasSeq_replace h2 (by rcases hp with hp | hp <;> simp [matchSeq, TSpec.sat, hp])⟩
      refine ⟨hm _ (by decide) (by decide) (fun v hv => (h1 v hv).1) v hv, ?_⟩
      rcases List.mem_cons.1 hv with rfl | hv
      · rcases hp with hp | hp <;> simp [hp]
      · exact (h1 v (by simp [hv])).2

/-! ### lines -/

/-- the lines after one that is being read -/
def restSrc (ls : List Line) : List Char := ls.flatMap (fun l => '\n' :: srcOf l.toks)
/-- what is left after a span, with the line end if it ended a line -/
def afterSrc : List Line → List Char
  | [] => []
  | l :: ls => (if l.full then ['\n'] else []) ++ (srcOf l.toks ++ restSrc ls)

theorem sourceOf_cons (l : Line) (ls : List Line) : sourceOf (l :: ls) = srcOf l.toks ++ restSrc ls := rfl

/-- lines that are still to be read: the first may have been read in part -/
def LinesOk (r : Bool) : List Line → Prop
  | [] => True
  | l :: ls => Kept r l.toks ∧ l.toks ≠ [] ∧ l.toks.length ≤ l.orig ∧ isComment l = false ∧ ∀ x ∈ ls, KeptLine r x

theorem LinesOk.of_full {r : Bool} {ls : List Line} (h : ∀ x ∈ ls, KeptLine r x) : LinesOk r ls := by
  cases ls with
  | nil => trivial
  | cons l ls =>
    have := h l (by simp)
    have hf := this.full
    simp only [Line.full, decide_eq_true_eq] at hf
    exact ⟨this.kept, this.nonempty, by omega, this.comment, fun x hx => h x (by simp [hx])⟩

theorem afterSrc_full {r : Bool} {ls : List Line} (h : ∀ x ∈ ls, KeptLine r x) : afterSrc ls = restSrc ls := by
  cases ls with
  | nil => rfl
  | cons l ls => simp [afterSrc, restSrc, (h l (by simp)).full]

/-- putting back a line that has been read in part -/
theorem restore_ok {r : Bool} {l : Line} {ls : List Line} (hk : Kept r l.toks) (hl : l.toks.length < l.orig) (h : ∀ x ∈ ls, KeptLine r x) :
    LinesOk r (restore l ls) ∧ afterSrc (restore l ls) = srcOf l.toks ++ restSrc ls := by
  unfold restore
  cases ht : l.toks with
  | nil => exact ⟨.of_full h, by simp [afterSrc_full h, srcOf]⟩
  | cons t ts =>
    rw [if_neg (by simp)]
    have hf : l.full = false := by simp only [Line.full, decide_eq_false_iff_not]; omega
    refine ⟨⟨hk, by simp [ht], by omega, by simp [isComment, hf], h⟩, ?_⟩
    simp [afterSrc, hf, ht]

/-- the line end that a span swallows or that is put after it -/
theorem afterSrc_eq (ls : List Line) : ∃ e, OptNewline e ∧ afterSrc ls = e ++ sourceOf ls ∧
    ∀ a s, AccSrc a s → AccSrc (newlineIfNeeded a ls) (s ++ e) := by
  cases ls with
  | nil => exact ⟨[], .inl rfl, rfl, fun a s h => by simpa [newlineIfNeeded] using h⟩
  | cons l ls =>
    cases hf : l.full with
    | true => exact ⟨['\n'], .inr rfl, by simp [afterSrc, hf, sourceOf_cons], fun a s h => by simpa [newlineIfNeeded, hf] using h.leaf .newline⟩
    | false => exact ⟨[], .inl rfl, by simp [afterSrc, hf, sourceOf_cons], fun a s h => by simpa [newlineIfNeeded, hf] using h⟩

theorem joinNewline_src {a : Acc} {s : List Char} (h : AccSrc a s) (l : Line) (ls : List Line) : AccSrc (joinNewline a (l :: ls)) (s ++ ['\n']) := by
  obtain ⟨h1, h2⟩ := h.commit
  unfold joinNewline
  simp only [List.isEmpty_cons, Bool.false_eq_true, if_false]
  split
  · rename_i k hl
    obtain ⟨x, y, rfl, h3, h4⟩ := h1.getLast hl
    cases h4 with
    | leaf h4 =>
      cases h4 with
      | dashes _ p q hn hp hq =>
        refine ⟨_, h3.snoc (.leaf (.trailing k p q hn hp hq)), by simp⟩
  · exact AccSrc.leaf ⟨s, h1, by rw [h2, List.append_nil]⟩ .newline

/-! ### actions -/

/-- tokens that match `stop` are written as `c` -/
def Closing (stop : List TSpec) (c : List Char) : Prop :=
  stop ≠ [] ∧ ∀ l, (∀ t ∈ l, Spelled t) → matchSeq stop l = true → srcOf (l.take stop.length) = c

/-- an attribute list stands right before a mark -/
def PendOk (pend : Option Pend) (l : List Tok) : Prop :=
  pend = none ∨ (satOpt (.oneOf [Hash, Star, Underscore, Backtick, Tilde, Caret]) l.head? = true ∧
    matchSeq [.kind Backtick, .oneOf [DoubleQuote, SingleQuote]] l = false)

/-- substitutions for text that is kept -/
def SubsOk (r : Bool) (subs : Substitutions) : Prop := subs.contains .callouts = false ∧ (r = true → subs.contains .attrRefs = true)

/-- An action keeps the text; `total` is the text of what has been read and of what is left in the line and the lines. -/
def Act.keeps (r : Bool) (ls : List Line) (total : List Char) : Act → Prop
  | .next acc pend l => PendOk pend l.toks ∧ Kept r l.toks ∧ l.toks.length ≤ l.orig ∧
      ∃ s, AccSrc acc s ∧ total = s ++ pendSource pend ++ srcOf l.toks ++ restSrc ls
  | .brk acc pend lines => pend = none ∧ LinesOk r lines ∧ ∃ s, AccSrc acc s ∧ total = s ++ sourceOf lines
  | .nest w stop _ subs acc pend lines => pend = none ∧ LinesOk r lines ∧ SubsOk r subs ∧
      ∃ s o c, AccSrc acc s ∧ Marked w o c ∧ Closing stop c ∧ total = s ++ o ++ afterSrc lines
  | .sub w none acc pend l => pend = none ∧ Kept r l.toks ∧ l.toks.length ≤ l.orig ∧
      ∃ s x, AccSrc acc s ∧ Src (.wrap w []) x ∧ total = s ++ x ++ srcOf l.toks ++ restSrc ls
  | .sub w (some il) acc pend l => pend = none ∧ Kept r l.toks ∧ l.toks.length ≤ l.orig ∧
      ∃ s x, AccSrc acc s ∧ (∀ ch, (LinesOk r [il] → Reads ch (srcOf il.toks)) → Src (.wrap w ch) x) ∧
        total = s ++ x ++ srcOf l.toks ++ restSrc ls
  | .link target caret il acc pend l => pend = none ∧ Kept r l.toks ∧ l.toks.length ≤ l.orig ∧
      ∃ s x, AccSrc acc s ∧ (∀ ch, (LinesOk r [il] → Reads ch (srcOf il.toks)) → Src (linkNode target caret ch) x) ∧
        total = s ++ x ++ srcOf l.toks ++ restSrc ls
  | .note w acc pend lines => pend = none ∧ LinesOk r lines ∧
      ∃ s o, AccSrc acc s ∧ NoteMark w o ∧ total = s ++ o ++ sourceOf lines
  | .panic => True
  | .unsupported => True

/-- what is known before a token is looked at -/
structure Before (r : Bool) (env : Env) (subs : Substitutions) (acc : Acc) (pend : Option Pend) (t : Tok) (line : Line) (ls : List Line) (s : List Char) : Prop where
  cell : env.tableCell = false
  subs : SubsOk r subs
  acc : AccSrc acc s
  pend : PendOk pend (t :: line.toks)
  kept : Kept r (t :: line.toks)
  len : line.toks.length < line.orig
  rest : ∀ x ∈ ls, KeptLine r x

/-- all the text -/
def total (pend : Option Pend) (t : Tok) (line : Line) (ls : List Line) (s : List Char) : List Char :=
  s ++ pendSource pend ++ srcOf (t :: line.toks) ++ restSrc ls

section
variable {r : Bool} {env : Env} {subs : Substitutions} {stop : List TSpec} {ctx : Ctx} {acc : Acc} {pend : Option Pend} {t : Tok}
  {line : Line} {ls : List Line} {s : List Char} {a : Act}

theorem Before.noPend (b : Before r env subs acc pend t line ls s) (h : ¬ [Hash, Star, Underscore, Backtick, Tilde, Caret].contains t.kind = true) : pend = none := by
  rcases b.pend with h1 | ⟨h1, -⟩
  · exact h1
  · exact absurd h1 h

theorem Before.spelled (b : Before r env subs acc pend t line ls s) : Spelled t := b.kept.head

/-- the token becomes text or a node -/
theorem Before.next (b : Before r env subs acc pend t line ls s) (hp : pend = none) (hr : t.kind ≠ AttrRef) {acc' : Acc} (h : AccSrc acc' (s ++ t.lexeme)) :
    (Act.next acc' pend line).keeps r ls (total pend t line ls s) := by
  subst hp
  refine ⟨.inl rfl, b.kept.tail, by have := b.len; omega, _, h, ?_⟩
  simp [total, pendSource, srcOf_cons _ _ hr]

/-- the token and `n` more become a node -/
theorem Before.nextDrop (b : Before r env subs acc pend t line ls s) (hp : pend = none) (n : Nat) {x : List Char} (hx : srcOf (t :: line.toks.take n) = x)
    {acc' : Acc} (h : AccSrc acc' (s ++ x)) : (Act.next acc' pend (line.drop n)).keeps r ls (total pend t line ls s) := by
  subst hp
  refine ⟨.inl rfl, b.kept.tail.drop n, ?_, _, h, ?_⟩
  · have := b.len
    simp only [Line.drop, List.length_drop]; omega
  · have : srcOf (t :: line.toks) = x ++ srcOf (line.drop n).toks := by
      rw [← hx, Line.drop, ← srcOf_append, List.cons_append, List.take_append_drop]
    simp [total, pendSource, this]

/-- a token of one kind matches -/
theorem satKind {k : TokenKind} {u : Option Tok} (h : isKind k u = true) : ∃ v, u = some v ∧ v.kind = k := by
  cases u with
  | none => cases h
  | some v => exact ⟨v, rfl, by simpa [isKind] using h⟩

theorem isKind_head {k : TokenKind} {l : List Tok} (h : isKind k l.head? = true) : ∃ v vs, l = v :: vs ∧ v.kind = k := by
  cases l with
  | nil => cases h
  | cons v vs => exact ⟨v, vs, rfl, by simpa [isKind] using h⟩

theorem Kept.spelled1 {l : List Tok} {v : Tok} (h : Kept r l) (hv : v ∈ l) {k : TokenKind} (hk : v.kind = k) :
    Spelled { v with kind := k } := by
  have := h.spelled v hv
  rwa [← hk]

macro "spell" h:term "with" e:term : tactic => `(tactic| (have := $h; unfold Spelled at this; rw [$e:term] at this; exact this))

theorem getLast_text {l : List Char} {c : Char} (h : l.getLast? = some c) : l = l.dropLast ++ [c] := by
  obtain ⟨ys, e⟩ := List.getLast?_eq_some_iff.1 h
  rw [e]; simp

/-- a dash takes the space before it, or the line end -/
theorem dashes_src {acc : Acc} {s : List Char} {n : Nat} (h : AccSrc acc s) (hn : n = 2 ∨ n = 3) (hl : acc.text.getLast? = none ∨ acc.text.getLast? = some ' ')
    (post : List Char) (hp : OptSpace post) :
    let q := if acc.text.getLast?.isSome = true then ((⟨acc.nodes, acc.text.dropLast⟩ : Acc), Adj.none)
      else match acc.nodes.getLast? with
        | some (.leaf .newline) => (⟨acc.nodes.dropLast, acc.text⟩, Adj.leading)
        | _ => (acc, Adj.none)
    AccSrc (q.1.leaf (.dashes n q.2)) (s ++ (List.replicate n '-' ++ post)) := by
  obtain ⟨x, h1, rfl⟩ := h
  dsimp only
  rcases hl with hl | hl
  · have ht : acc.text = [] := by simpa using hl
    rw [if_neg (by simp [hl])]
    split
    · rename_i hnl
      obtain ⟨y, z, rfl, h2, h3⟩ := h1.getLast hnl
      cases h3 with
      | leaf h3 =>
        cases h3
        exact (AccSrc.leaf ⟨y, h2, by rw [ht, List.append_nil]⟩ (.leading n post hn hp)).cast (by simp [ht])
    · exact (AccSrc.leaf ⟨x, h1, rfl⟩ (.dashes n [] post hn (.inl rfl) hp)).cast (by simp)
  · rw [if_pos (by simp [hl])]
    refine (AccSrc.leaf (a := ⟨acc.nodes, acc.text.dropLast⟩) ⟨x, h1, rfl⟩ (.dashes n [' '] post hn (.inr rfl) hp)).cast ?_
    conv => rhs; rw [getLast_text hl]
    simp

theorem emdash_keeps (b : Before r env subs acc pend t line ls s) (hk : t.kind = Dashes) (hn : t.len = 2 ∨ t.len = 3) :
    (emdash env acc pend t line).keeps r ls (total pend t line ls s) := by
  have hp := b.noPend (by simp [hk])
  have hr : t.kind ≠ AttrRef := by simp [hk]
  have e1 : t.lexeme = List.replicate t.len '-' := by
    have := b.spelled; unfold Spelled at this; rw [hk] at this; exact this
  unfold emdash
  dsimp only
  split
  · refine b.next hp hr (b.acc.leaf ?_)
    rcases hn with hn | hn <;> rw [e1, hn]
    · exact .symbol .emDash
    · exact .symbol .tripleDash
  · split
    · exact b.next hp hr (b.acc.text _)
    · split
      · rename_i h1 h2 h3
        have key := dashes_src b.acc hn h3.1
        rw [← e1] at key
        revert key
        generalize (if acc.text.getLast?.isSome = true then ((⟨acc.nodes, acc.text.dropLast⟩ : Acc), Adj.none)
          else match acc.nodes.getLast? with
            | some (.leaf .newline) => (⟨acc.nodes.dropLast, acc.text⟩, Adj.leading)
            | _ => (acc, Adj.none)) = q
        intro key
        split
        · exact b.next hp hr (by simpa using key [] (.inl rfl))
        · rename_i n ts he
          split
          · trivial
          · rename_i c cs hc
            have hsp : c = ' ' := by
              have := h3.2
              simpa [he, hc] using this
            subst hsp
            have hkn : Kept r (n :: ts) := he ▸ b.kept.tail
            have hnr : n.kind ≠ AttrRef := by
              intro hnr
              have := hkn.head
              unfold Spelled at this
              rw [hnr] at this
              have this : n.lexeme.head? = some '{' := this
              rw [hc] at this
              simp at this
            have hnew : ∀ k, (k = Word ∨ k = Discard ∧ cs = []) → Kept r ({ n with lexeme := cs, kind := k } :: ts) := by
              intro k hk
              refine hkn.replace ?_ ?_
              · rcases hk with rfl | ⟨rfl, -⟩
                · exact .inl rfl
                · exact .inr rfl
              · rcases hk with rfl | ⟨rfl, hcs⟩
                · trivial
                · exact hcs
            subst hp
            refine ⟨.inl rfl, hnew _ ?_, ?_, _, key [' '] (.inr rfl), ?_⟩
            · cases cs <;> simp
            · have := b.len
              rw [he] at this
              simp only [List.length_cons] at this ⊢; omega
            · rw [srcOf_cons _ ts (by dsimp only; split <;> simp)]
              simp [total, pendSource, srcOf_cons _ _ hr, he, srcOf_cons _ _ hnr, hc]
      · exact b.next hp hr (b.acc.text _)

theorem satOpt_head {sp : TSpec} {l : List Tok} (h : satOpt sp l.head? = true) : ∃ v vs, l = v :: vs ∧ sp.sat v = true := by
  cases l with
  | nil => cases h
  | cons v vs => exact ⟨v, vs, rfl, h⟩

/-- two tokens -/
theorem arrow {t v : Tok} {vs l : List Tok} (_ : Kept r (t :: l)) (hl : l = v :: vs) (ht : t.kind ≠ AttrRef) (hv : v.kind ≠ AttrRef) :
    srcOf (t :: l.take 1) = t.lexeme ++ v.lexeme := by
  rw [hl, srcOf_cons _ _ ht, List.take_succ_cons, List.take_zero, srcOf_cons _ _ hv]
  simp [srcOf]

theorem replaceCase_keeps (b : Before r env subs acc pend t line ls s) (e : replaceCase env subs acc pend t line ls = some a) :
    a.keeps r ls (total pend t line ls s) := by
  unfold replaceCase at e
  dsimp only at e
  split at e
  · rename_i hc
    obtain ⟨hk, -, hlen, hseq⟩ := hc
    have hp := b.noPend (by simp [hk])
    have hr : t.kind ≠ AttrRef := by simp [hk]
    split at e
    · rename_i sg hs
      cases e
      simp only [startsSeq, Bool.and_eq_true] at hseq
      obtain ⟨w, ws, hl, h1, h2⟩ := matchSeq_cons hseq.2
      obtain ⟨v, vs, rfl, h3, -⟩ := matchSeq_cons h2
      simp only [TSpec.sat, Bool.and_eq_true, decide_eq_true_eq] at h1 h3
      refine b.nextDrop hp 2 (x := symSource sg) ?_ (b.acc.leaf (.symbol sg))
      have e1 : t.lexeme = ['('] := by
        have := b.spelled; unfold Spelled at this; rw [hk] at this
        rw [this, show t.lexeme.length = 1 from hlen]; rfl
      have e2 : v.lexeme = [')'] := by
        have := b.kept.spelled v (by rw [hl]; simp)
        unfold Spelled at this; rw [h3.1] at this
        rw [this, show v.lexeme.length = 1 from h3.2]; rfl
      rw [hl] at hs ⊢
      simp only [List.head?_cons, Option.map_some, Option.bind_some] at hs
      simp only [List.take_succ_cons, List.take_zero]
      rw [srcOf_cons _ _ hr, srcOf_cons _ _ (by simp [h1]), srcOf_cons _ _ (by simp [h3]), e1, e2]
      unfold parensSign at hs
      split at hs
      · rename_i he; cases hs; rw [he]; rfl
      · split at hs
        · rename_i he; cases hs; rw [he]; rfl
        · split at hs
          · rename_i he; cases hs; rw [he]; rfl
          · cases hs
    · cases e; exact b.next hp hr (b.acc.text _)
  · split at e
    · rename_i hc
      have hp := b.noPend (by simp [hc.1])
      have hr : t.kind ≠ AttrRef := by simp [hc.1]
      split at e
      · cases e; trivial
      · cases e
        subst hp
        exact b.next rfl hr ((b.acc.text _))
    · split at e
      · rename_i hc; cases e; exact emdash_keeps b hc.1 hc.2.2
      · split at e
        · rename_i hc
          cases e
          refine b.next (b.noPend (by simp [hc.1])) (by simp [hc.1]) (b.acc.leaf ?_)
          have := b.spelled; unfold Spelled at this; rw [hc.1] at this
          rw [this, show t.lexeme.length = 3 from hc.2.2]; exact .symbol .ellipsis
        · split at e
          · rename_i hc
            cases e
            obtain ⟨v, vs, hl, hv⟩ := isKind_head hc.2.2.2
            refine b.nextDrop (b.noPend (by simp [hc.1])) 1 ?_ (b.acc.leaf (.symbol _))
            rw [arrow b.kept hl (by simp [hc.1]) (by simp [hv])]
            have h1 := b.spelled; unfold Spelled at h1; rw [hc.1] at h1
            have h2 := b.kept.spelled v (by simp [hl]); unfold Spelled at h2; rw [hv] at h2
            rw [h1, h2, show t.lexeme.length = 1 from hc.2.1]; rfl
          · split at e
            · rename_i hc
              cases e
              obtain ⟨v, vs, hl, hv⟩ := isKind_head hc.2.2.2
              refine b.nextDrop (b.noPend (by simp [hc.1])) 1 ?_ (b.acc.leaf (.symbol _))
              rw [arrow b.kept hl (by simp [hc.1]) (by simp [hv])]
              have h1 := b.spelled; unfold Spelled at h1; rw [hc.1] at h1
              have h2 := b.kept.spelled v (by simp [hl]); unfold Spelled at h2; rw [hv] at h2
              rw [h1, h2, show t.lexeme.length = 1 from hc.2.1]; rfl
            · split at e
              · rename_i hc
                cases e
                obtain ⟨v, vs, hl, hv⟩ := satOpt_head hc.2.2
                simp only [TSpec.sat, Bool.and_eq_true, decide_eq_true_eq] at hv
                refine b.nextDrop (b.noPend (by simp [hc.1])) 1 ?_ (b.acc.leaf (.symbol _))
                rw [arrow b.kept hl (by simp [hc.1]) (by simp [hv])]
                have h1 := b.spelled; unfold Spelled at h1; rw [hc.1] at h1
                have h2 := b.kept.spelled v (by simp [hl]); unfold Spelled at h2; rw [hv.1] at h2
                rw [h1, h2, show v.lexeme.length = 1 from hv.2]; rfl
              · split at e
                · rename_i hc
                  cases e
                  obtain ⟨v, vs, hl, hv⟩ := satOpt_head hc.2.2
                  simp only [TSpec.sat, Bool.and_eq_true, decide_eq_true_eq] at hv
                  refine b.nextDrop (b.noPend (by simp [hc.1])) 1 ?_ (b.acc.leaf (.symbol _))
                  rw [arrow b.kept hl (by simp [hc.1]) (by simp [hv])]
                  have h1 := b.spelled; unfold Spelled at h1; rw [hc.1] at h1
                  have h2 := b.kept.spelled v (by simp [hl]); unfold Spelled at h2; rw [hv.1] at h2
                  rw [h1, h2, show v.lexeme.length = 1 from hv.2]; rfl
                · cases e

theorem attrRefCase_keeps (b : Before r env subs acc pend t line ls s) (e : attrRefCase env subs acc pend t line = some a) :
    a.keeps r ls (total pend t line ls s) := by
  unfold attrRefCase at e
  split at e
  · rename_i hc
    cases hr : r with
    | false => exact absurd hc.1 (b.kept.none hr t (by simp))
    | true => have := b.subs.2 hr; rw [this] at hc; simp at hc
  · split at e
    · cases e; trivial
    · split at e
      · rename_i hc; rw [b.cell] at hc; simp at hc
      · cases e

theorem calloutCase_keeps (b : Before r env subs acc pend t line ls s) (e : calloutCase env subs acc pend t line = some a) :
    a.keeps r ls (total pend t line ls s) := by
  have hc := b.subs.1
  unfold calloutCase at e
  simp only [hc, Bool.false_eq_true, false_and, and_false, if_false] at e
  split at e
  · rename_i hk
    cases e
    refine b.next (b.noPend (by simp [hk.1])) (by simp [hk.1]) ?_
    have := b.spelled; unfold Spelled at this; rw [hk.1] at this
    have h1 := ((b.acc.leaf (.special .lessThan)).text (t.lexeme.drop 1).dropLast).leaf (.special .greaterThan)
    refine h1.cast ?_
    conv => rhs; rw [this]
    simp [specialSource]
  · cases e

/-! ### spans -/

theorem closing1 (k : TokenKind) (c : Char) (hk : k ≠ AttrRef) (h : ∀ t : Tok, t.kind = k → Spelled t → t.lexeme = [c]) : Closing [.kind k] [c] := by
  refine ⟨by simp, fun l hl hm => ?_⟩
  obtain ⟨t, ts, rfl, h1, -⟩ := matchSeq_cons hm
  simp only [TSpec.sat, decide_eq_true_eq] at h1
  simp only [List.length_singleton, List.take_succ_cons, List.take_zero]
  rw [srcOf_cons _ _ (by rw [h1]; exact hk), h t h1 (hl t (by simp))]
  rfl

theorem closing2 (s1 s2 : TSpec) (k1 k2 : TokenKind) (c1 c2 : Char) (hs1 : ∀ t, s1.sat t = true → t.kind = k1) (hs2 : ∀ t, s2.sat t = true → t.kind = k2)
    (hk1 : k1 ≠ AttrRef) (hk2 : k2 ≠ AttrRef) (h1 : ∀ t : Tok, t.kind = k1 → Spelled t → t.lexeme = [c1])
    (h2 : ∀ t : Tok, t.kind = k2 → Spelled t → t.lexeme = [c2]) : Closing [s1, s2] [c1, c2] := by
  refine ⟨by simp, fun l hl hm => ?_⟩
  obtain ⟨t, ts, rfl, g1, hm⟩ := matchSeq_cons hm
  obtain ⟨u, us, rfl, g2, -⟩ := matchSeq_cons hm
  have g1 := hs1 t g1
  have g2 := hs2 u g2
  simp only [List.length_cons, List.length_nil, List.take_succ_cons, List.take_zero]
  rw [srcOf_cons _ _ (by rw [g1]; exact hk1), srcOf_cons _ _ (by rw [g2]; exact hk2), h1 t g1 (hl t (by simp)), h2 u g2 (hl u (by simp))]
  rfl

macro "spelledAs" : tactic => `(tactic| (intro t hk h; unfold Spelled at h; rw [hk] at h; exact h))
macro "satKinds" : tactic => `(tactic| (intro t h; simp only [TSpec.sat, Bool.and_eq_true, decide_eq_true_eq] at h; first | exact h | exact h.1))

theorem nest_keeps (b : Before r env subs acc pend t line ls s) {w : Wrap} {st : List TSpec} {ctx' : Ctx} {subs' : Substitutions} {pend' : Option Pend} {m o c : List Char}
    (hp : pend' = none) (hs : SubsOk r subs') (hc : Closing st c) (hm : srcOf (t :: line.toks.take (st.length - 1)) = m) (ho : o = pendSource pend ++ m) (hw : Marked w o c) :
    (nestAct acc w st ctx' subs' pend' line ls).keeps r ls (total pend t line ls s) := by
  have hlen : (line.drop (st.length - 1)).toks.length < (line.drop (st.length - 1)).orig := by
    have := b.len
    simp only [Line.drop, List.length_drop]; omega
  obtain ⟨h1, h2⟩ := restore_ok (l := line.drop (st.length - 1)) (b.kept.tail.drop _) hlen b.rest
  refine ⟨hp, h1, hs, s, o, c, b.acc, hw, hc, ?_⟩
  have : srcOf (t :: line.toks) = m ++ srcOf (line.drop (st.length - 1)).toks := by
    rw [← hm, Line.drop, ← srcOf_append, List.cons_append, List.take_append_drop]
  rw [h2, ho, total, this]
  simp

/-- a mark of one character -/
theorem Before.mark1 (_b : Before r env subs acc pend t line ls s) {c : Char} (hr : t.kind ≠ AttrRef) (h : t.lexeme = [c]) :
    srcOf (t :: line.toks.take 0) = [c] := by
  rw [srcOf_cons _ _ hr, h]; rfl

theorem startsUnconstrained_head {k : TokenKind} (h : startsUnconstrained k t line ls = true) : isKind k line.toks.head? = true := by
  simp only [startsUnconstrained, Bool.and_eq_true] at h
  exact h.1.2

/-- a mark of two characters -/
theorem Before.mark2 (b : Before r env subs acc pend t line ls s) {k : TokenKind} {c d : Char} (hr : t.kind ≠ AttrRef) (h : t.lexeme = [c])
    (hk : isKind k line.toks.head? = true) (hk' : k ≠ AttrRef) (hd : ∀ v : Tok, v.kind = k → Spelled v → v.lexeme = [d]) : srcOf (t :: line.toks.take 1) = [c, d] := by
  obtain ⟨v, vs, hl, hv⟩ := isKind_head hk
  rw [arrow b.kept hl hr (by rw [hv]; exact hk'), h, hd v hv (b.kept.spelled v (by simp [hl]))]
  rfl

theorem emphasisCase_keeps (b : Before r env subs acc pend t line ls s) (e : emphasisCase subs ctx acc pend t line ls = some a) :
    a.keeps r ls (total pend t line ls s) := by
  have hsp := b.spelled
  unfold Spelled at hsp
  unfold emphasisCase at e
  dsimp only at e
  split at e
  · rename_i hc; cases e
    rw [hc.1] at hsp
    exact nest_keeps b rfl b.subs (closing1 _ _ (by decide) (by spelledAs)) (b.mark1 (by simp [hc.1]) hsp) rfl (.span .italic pend "_" "_" (by decide) nofun nofun)
  · split at e
    · rename_i hc; cases e
      rw [hc.1] at hsp
      exact nest_keeps b rfl b.subs (closing2 _ _ _ _ _ _ (by satKinds) (by satKinds) (by decide) (by decide) (by spelledAs) (by spelledAs))
        (b.mark2 (by simp [hc.1]) hsp (startsUnconstrained_head hc.2.2) (by decide) (by spelledAs)) rfl (.span .italic pend "__" "__" (by decide) nofun nofun)
    · split at e
      · rename_i hc; cases e
        rw [hc.1] at hsp
        exact nest_keeps b rfl b.subs (closing1 _ _ (by decide) (by spelledAs)) (b.mark1 (by simp [hc.1]) hsp) rfl (.span .bold pend "*" "*" (by decide) nofun nofun)
      · split at e
        · rename_i hc; cases e
          rw [hc.1] at hsp
          exact nest_keeps b rfl b.subs (closing2 _ _ _ _ _ _ (by satKinds) (by satKinds) (by decide) (by decide) (by spelledAs) (by spelledAs))
            (b.mark2 (by simp [hc.1]) hsp (startsUnconstrained_head hc.2.2) (by decide) (by spelledAs)) rfl (.span .bold pend "**" "**" (by decide) nofun nofun)
        · cases e

theorem hashCase_keeps (b : Before r env subs acc pend t line ls s) (e : hashCase subs ctx acc pend t line ls = some a) :
    a.keeps r ls (total pend t line ls s) := by
  have hsp := b.spelled
  unfold Spelled at hsp
  have hw : ∀ o c, (o, c) ∈ marks .text → Marked (.span (if pend.isSome = true then .text else .highlight) pend) (pendSource pend ++ o.toList) c.toList := by
    intro o c h
    cases hp : pend with
    | none => exact .span _ _ _ _ (by simpa [marks] using h) (by simp) (by simp)
    | some p => exact .span _ _ _ _ (by simpa [marks] using h) (by simp) (by simp)
  unfold hashCase at e
  dsimp only at e
  split at e
  · rename_i hc; cases e
    rw [hc.1] at hsp
    exact nest_keeps b rfl b.subs (closing2 _ _ _ _ _ _ (by satKinds) (by satKinds) (by decide) (by decide) (by spelledAs) (by spelledAs))
      (b.mark2 (by simp [hc.1]) hsp (startsUnconstrained_head hc.2.2) (by decide) (by spelledAs)) rfl (hw "##" "##" (by decide))
  · split at e
    · rename_i hc; cases e
      rw [hc.1] at hsp
      exact nest_keeps b rfl b.subs (closing1 _ _ (by decide) (by spelledAs)) (b.mark1 (by simp [hc.1]) hsp) rfl (hw "#" "#" (by decide))
    · cases e

theorem monoCase_keeps (b : Before r env subs acc pend t line ls s) (e : monoCase subs ctx acc pend t line ls = some a) :
    a.keeps r ls (total pend t line ls s) := by
  have hsp := b.spelled
  unfold Spelled at hsp
  unfold monoCase at e
  dsimp only at e
  split at e
  · rename_i hc; cases e
    rw [hc.1] at hsp
    have hplus : isKind Plus line.toks.head? = true := by
      have := hc.2.2.1
      simp only [startsSeq, Bool.and_eq_true] at this
      obtain ⟨v, vs, hl, hv, -⟩ := matchSeq_cons this.2
      rw [hl]; simpa [isKind, TSpec.sat] using hv
    have hrf : r = false := by
      cases hr : r with
      | false => rfl
      | true =>
        have := hasSeq_false.1 (b.kept.literal hr) [] t line.toks rfl
        obtain ⟨v, vs, hl, hv⟩ := isKind_head hplus
        rw [hl] at this
        simp [matchSeq, TSpec.sat, hc.1, hv] at this
    refine nest_keeps b rfl ⟨?_, fun h => by rw [hrf] at h; cases h⟩ (closing2 _ _ Plus Backtick _ _ (by satKinds) (by satKinds) (by decide) (by decide) (by spelledAs) (by spelledAs))
      (b.mark2 (by simp [hc.1]) hsp hplus (by decide) (by spelledAs)) rfl (.span .litMono pend "`+" "+`" (by decide) nofun nofun)
    rw [contains_remove, contains_remove, b.subs.1]; rfl
  · split at e
    · rename_i hc; cases e
      rw [hc.1] at hsp
      exact nest_keeps b rfl b.subs (closing1 _ _ (by decide) (by spelledAs)) (b.mark1 (by simp [hc.1]) hsp) rfl (.span .superscript pend "^" "^" (by decide) nofun nofun)
    · split at e
      · rename_i hc; cases e
        rw [hc.1] at hsp
        exact nest_keeps b rfl b.subs (closing1 _ _ (by decide) (by spelledAs)) (b.mark1 (by simp [hc.1]) hsp) rfl (.span .mono pend "`" "`" (by decide) nofun nofun)
      · split at e
        · rename_i hc; cases e
          rw [hc.1] at hsp
          exact nest_keeps b rfl b.subs (closing2 _ _ _ _ _ _ (by satKinds) (by satKinds) (by decide) (by decide) (by spelledAs) (by spelledAs))
            (b.mark2 (by simp [hc.1]) hsp (startsUnconstrained_head hc.2.2) (by decide) (by spelledAs)) rfl (.span .mono pend "``" "``" (by decide) nofun nofun)
        · split at e
          · rename_i hc; cases e
            rw [hc.1] at hsp
            have hp := b.noPend (by simp [hc.1])
            exact nest_keeps b hp b.subs (closing2 _ _ _ _ _ _ (by satKinds) (by satKinds) (by decide) (by decide) (by spelledAs) (by spelledAs))
              (b.mark2 (by simp [hc.1]) hsp hc.2.2.1 (by decide) (by spelledAs)) (by rw [hp]; rfl) .double
          · split at e
            · rename_i hc; cases e
              rw [hc.1] at hsp
              have hp := b.noPend (by simp [hc.1])
              exact nest_keeps b hp b.subs (closing2 _ _ _ _ _ _ (by satKinds) (by satKinds) (by decide) (by decide) (by spelledAs) (by spelledAs))
                (b.mark2 (by simp [hc.1]) hsp hc.2.2.1 (by decide) (by spelledAs)) (by rw [hp]; rfl) .single
            · split at e
              · rename_i hc; cases e
                rw [hc.1] at hsp
                exact nest_keeps b rfl b.subs (closing1 _ _ (by decide) (by spelledAs)) (b.mark1 (by simp [hc.1]) hsp) rfl (.span .subscript pend "~" "~" (by decide) nofun nofun)
              · cases e

theorem pushSimple_keeps (b : Before r env subs acc pend t line ls s) {l : Leaf} {x : List Char} (hp : pend = none) (hl : LeafSrc l x) (hx : srcOf (t :: line.toks.take 1) = x) :
    (pushSimple acc pend l line ls).keeps r ls (total pend t line ls s) := by
  have hlen : (line.drop 1).toks.length < (line.drop 1).orig := by
    have := b.len
    simp only [Line.drop, List.length_drop]; omega
  obtain ⟨h1, h2⟩ := restore_ok (l := line.drop 1) (b.kept.tail.drop _) hlen b.rest
  obtain ⟨e, -, h3, h4⟩ := afterSrc_eq (restore (line.drop 1) ls)
  refine ⟨hp, h1, _, h4 _ _ (b.acc.leaf hl), ?_⟩
  have : srcOf (t :: line.toks) = x ++ srcOf (line.drop 1).toks := by
    rw [← hx, Line.drop, ← srcOf_append, List.cons_append, List.take_append_drop]
  rw [List.append_assoc, ← h3, h2, total, this, hp]
  simp [pendSource]

theorem curlyCase_keeps (b : Before r env subs acc pend t line ls s) (e : curlyCase subs stop acc pend t line ls = some a) :
    a.keeps r ls (total pend t line ls s) := by
  have hsp := b.spelled
  unfold Spelled at hsp
  have hq : ∀ k, k = DoubleQuote ∨ k = SingleQuote → t.kind = Backtick → isKind k line.toks.head? = true → pend = none := by
    intro k hk ht hl
    rcases b.pend with h1 | ⟨-, h1⟩
    · exact h1
    · obtain ⟨v, vs, hl, hv⟩ := isKind_head hl
      rw [hl] at h1
      rcases hk with rfl | rfl <;> simp [matchSeq, TSpec.sat, ht, hv] at h1
  unfold curlyCase at e
  dsimp only at e
  split at e
  · rename_i hc; cases e
    rw [hc.1] at hsp
    exact pushSimple_keeps b (hq _ (.inl rfl) hc.1 hc.2.2) (.curly .rightDouble) (b.mark2 (by simp [hc.1]) hsp hc.2.2 (by decide) (by spelledAs))
  · split at e
    · rename_i hc; cases e
      rw [hc.1] at hsp
      exact pushSimple_keeps b (b.noPend (by simp [hc.1])) (.curly .leftDouble) (b.mark2 (by simp [hc.1]) hsp hc.2.2.1 (by decide) (by spelledAs))
    · split at e
      · rename_i hc; cases e
        rw [hc.1] at hsp
        exact pushSimple_keeps b (hq _ (.inr rfl) hc.1 hc.2.2) (.curly .rightSingle) (b.mark2 (by simp [hc.1]) hsp hc.2.2 (by decide) (by spelledAs))
      · split at e
        · rename_i hc; cases e
          rw [hc.1] at hsp
          exact pushSimple_keeps b (b.noPend (by simp [hc.1])) (.curly .leftSingle) (b.mark2 (by simp [hc.1]) hsp hc.2.2.1 (by decide) (by spelledAs))
        · cases e

theorem charCase_keeps (b : Before r env subs acc pend t line ls s) (e : charCase subs acc pend t line = some a) :
    a.keeps r ls (total pend t line ls s) := by
  have hsp := b.spelled
  unfold Spelled at hsp
  unfold charCase at e
  dsimp only at e
  split at e
  · rename_i hc; cases e; exact b.next (b.noPend (by simp [hc.1])) (by simp [hc.1]) (b.acc.text _)
  · split at e
    · rename_i hc; cases e; rw [hc.1] at hsp
      exact b.next (b.noPend (by simp [hc.1])) (by simp [hc.1]) (by rw [hsp]; exact b.acc.leaf (.special .ampersand))
    · split at e
      · rename_i hc; cases e; rw [hc.1] at hsp
        exact b.next (b.noPend (by simp [hc.1])) (by simp [hc.1]) (by rw [hsp]; exact b.acc.leaf (.special .lessThan))
      · split at e
        · rename_i hc; cases e; rw [hc.1] at hsp
          exact b.next (b.noPend (by simp [hc.1])) (by simp [hc.1]) (by rw [hsp]; exact b.acc.leaf (.special .greaterThan))
        · split at e
          · rename_i hc; rw [hc.1] at hsp
            split at e <;> cases e
            · exact b.next (b.noPend (by simp [hc.1])) (by simp [hc.1]) (b.acc.text _)
            · exact b.next (b.noPend (by simp [hc.1])) (by simp [hc.1]) (by rw [hsp]; exact b.acc.leaf (.curly .apostrophe))
          · split at e
            · rename_i hc; cases e
              exact b.next (b.noPend (by simp [hc.1])) (by simp [hc.1]) (b.acc.leaf (.spaces _))
            · cases e

theorem breakCase_keeps (b : Before r env subs acc pend t line ls s) (e : breakCase acc pend t line ls = some a) :
    a.keeps r ls (total pend t line ls s) := by
  have hsp := b.spelled
  unfold Spelled at hsp
  unfold breakCase at e
  split at e
  · rename_i hc
    rw [hc.1] at hsp
    have hp := b.noPend (by simp [hc.1])
    obtain ⟨v, vs, hl, hv⟩ := isKind_head hc.2.1
    have h2 : v.lexeme = ['+'] := by
      have := b.kept.spelled v (by simp [hl]); unfold Spelled at this; rw [hv] at this; exact this
    rw [hl] at e
    simp only [List.drop_succ_cons, List.drop_zero] at e
    have ht : ∀ x, srcOf (t :: v :: x) = t.lexeme ++ '+' :: srcOf x := by
      intro x; rw [srcOf_cons _ _ (by simp [hc.1]), srcOf_cons _ _ (by simp [hv]), h2]; rfl
    split at e
    · cases e
      cases hls : ls with
      | nil =>
        refine ⟨hp, trivial, _, b.acc.leaf (.lineBreak _ [] hsp (.inl rfl)), ?_⟩
        rw [total, hl, ht, hp]; simp [pendSource, srcOf, restSrc, sourceOf]
      | cons l2 ls2 =>
        refine ⟨hp, hls ▸ .of_full b.rest, _, b.acc.leaf (.lineBreak _ ['\n'] hsp (.inr rfl)), ?_⟩
        rw [total, hl, ht, hp]; simp [pendSource, srcOf, restSrc, sourceOf]
    · rename_i w ws
      cases e
      have hw : w.kind = Newline := by
        have := hc.2.2
        rw [hl] at this
        simpa [isKind] using this
      have h3 : w.lexeme = ['\n'] := by
        have := b.kept.spelled w (by simp [hl]); unfold Spelled at this; rw [hw] at this; exact this
      subst hp
      refine ⟨.inl rfl, (b.kept.suffix [t, v, w] (by rw [hl]; rfl)), ?_, _, b.acc.leaf (.lineBreak _ ['\n'] hsp (.inr rfl)), ?_⟩
      · have := b.len; rw [hl] at this; simp only [List.length_cons] at this ⊢; omega
      · rw [total, hl, ht, srcOf_cons _ _ (by simp [hw]), h3]; simp [pendSource]
  · split at e
    · rename_i hc; cases e; rw [hc] at hsp
      exact b.next (b.noPend (by simp [hc])) (by simp [hc]) (by rw [hsp]; exact b.acc.leaf .newline)
    · split at e
      · rename_i hc; cases e; rw [hc] at hsp
        exact b.next (b.noPend (by simp [hc])) (by simp [hc]) (by rw [hsp, List.append_nil]; exact b.acc)
      · split at e
        · rename_i hc; cases e
          have hp := b.noPend (by simp [hc])
          subst hp
          refine ⟨.inl rfl, b.kept.tail, by have := b.len; omega, _, b.acc, ?_⟩
          rw [total, srcOf_ref _ _ hc]
        · cases e

/-! ### backslashes, URLs, plain text -/

theorem mem_takeWhile' {α} {p : α → Bool} {l : List α} {x : α} (h : x ∈ l.takeWhile p) : p x = true := by
  induction l with
  | nil => cases h
  | cons y ys ih =>
    rw [List.takeWhile_cons] at h
    split at h
    · rcases List.mem_cons.1 h with rfl | h
      · assumption
      · exact ih h
    · cases h

theorem discards_src {acc : Acc} {s : List Char} (n : Nat) (h : AccSrc acc s) : AccSrc (discards n acc) (s ++ List.replicate n '\\') := by
  induction n generalizing acc s with
  | zero => simpa [discards] using h
  | succ n ih =>
    refine (ih (h.leaf .discarded)).cast ?_
    simp [List.replicate_succ]

theorem srcOf_backslashes {l : List Tok} (hk : ∀ t ∈ l, t.kind = Backslash) (hs : ∀ t ∈ l, Spelled t) : srcOf l = List.replicate l.length '\\' := by
  induction l with
  | nil => rfl
  | cons t ts ih =>
    have h1 := hk t (by simp)
    have h2 := hs t (by simp)
    unfold Spelled at h2; rw [h1] at h2
    rw [srcOf_cons _ _ (by simp [h1]), h2, ih (fun u hu => hk u (by simp [hu])) (fun u hu => hs u (by simp [hu]))]
    simp [List.replicate_succ]

/-- after backslashes there is no reference -/
theorem Kept.afterBackslash {l bs rest : List Tok} {u : Tok} (h : Kept r l) (e : l = bs ++ u :: rest) (hb : bs ≠ []) (hk : ∀ t ∈ bs, t.kind = Backslash) :
    u.kind ≠ AttrRef := by
  cases hr : r with
  | false => exact h.none hr u (by simp [e])
  | true =>
    intro hu
    have h1 := h.escaped hr
    have hl : bs = bs.dropLast ++ [bs.getLast hb] := (List.dropLast_concat_getLast hb).symm
    have := hasSeq_false.1 h1 bs.dropLast (bs.getLast hb) (u :: rest) (by rw [e]; conv => lhs; rw [hl]
                                                                          simp)
    simp [matchSeq, TSpec.sat, hk _ (List.getLast_mem hb), hu] at this

theorem backslashAct_keeps (b : Before r env subs acc pend t line ls s) (hk : t.kind = Backslash) :
    (backslashAct subs acc pend t line ls).keeps r ls (total pend t line ls s) := by
  have hp := b.noPend (by simp [hk])
  have hr : t.kind ≠ AttrRef := by simp [hk]
  have hsp : t.lexeme = ['\\'] := by have := b.spelled; unfold Spelled at this; rw [hk] at this; exact this
  unfold backslashAct
  split
  · exact b.next hp hr (b.acc.text _)
  · split
    · exact b.next hp hr (b.acc.text _)
    · split
      · trivial
      · dsimp only
        have hbs : ∀ u ∈ line.toks.takeWhile (·.kind = Backslash), u.kind = Backslash := by
          intro u hu
          simpa using mem_takeWhile' hu
        have hd := List.takeWhile_append_dropWhile (p := fun u : Tok => decide (u.kind = Backslash)) (l := line.toks)
        have hsrc := srcOf_backslashes (l := line.toks.takeWhile (·.kind = Backslash)) hbs (fun u hu => b.kept.spelled u (by
          have := (List.takeWhile_prefix (fun u : Tok => decide (u.kind = Backslash)) (l := line.toks)).subset hu
          simp [this]))
        have hacc := discards_src ((line.toks.takeWhile (·.kind = Backslash)).length + 1) b.acc
        split
        · trivial
        · rename_i u rest he
          rw [he] at hd
          have hur : u.kind ≠ AttrRef := b.kept.afterBackslash (bs := t :: line.toks.takeWhile (·.kind = Backslash)) (rest := rest) (by rw [List.cons_append, hd]) (by simp) (by
            intro v hv
            rcases List.mem_cons.1 hv with rfl | hv
            · exact hk
            · exact hbs v hv)
          have hlen : rest.length + 1 ≤ line.toks.length := by rw [← hd]; simp
          have htot : total pend t line ls s = s ++ List.replicate ((line.toks.takeWhile (·.kind = Backslash)).length + 1) '\\' ++ srcOf (u :: rest) ++ restSrc ls := by
            have e1 : srcOf (t :: line.toks) = '\\' :: (List.replicate (line.toks.takeWhile (·.kind = Backslash)).length '\\' ++ srcOf (u :: rest)) := by
              rw [srcOf_cons _ _ hr, hsp, ← hsrc, ← srcOf_append, hd]; rfl
            rw [total, e1, hp]
            simp [pendSource, List.replicate_succ]
          have hkr : Kept r (u :: rest) := b.kept.suffix (t :: line.toks.takeWhile (·.kind = Backslash)) (by rw [List.cons_append, hd])
          have := b.len
          rw [htot]
          subst hp
          split
          · refine ⟨.inl rfl, hkr.tail, by dsimp only; omega, _, hacc.text _, ?_⟩
            simp [pendSource, srcOf_cons _ _ hur]
          · refine ⟨.inl rfl, hkr, by simp only [List.length_cons]; omega, _, hacc, ?_⟩
            simp [pendSource]

theorem srcOf_plain {l : List Tok} (h : ∀ t ∈ l, t.kind ≠ AttrRef) : l.flatMap (·.lexeme) = srcOf l := by
  unfold srcOf
  rw [List.filter_eq_self.2 (by simpa using h)]

theorem urlAct_keeps (b : Before r env subs acc pend t line ls s) (hk : t.kind = UriScheme) :
    (urlAct acc pend t line).keeps r ls (total pend t line ls s) := by
  have hp := b.noPend (by simp [hk])
  have hr : t.kind ≠ AttrRef := by simp [hk]
  have hno : ∀ u ∈ t :: line.toks, u.kind ≠ AttrRef := by
    cases hr : r with
    | false => exact b.kept.none hr
    | true =>
      rcases b.kept.url hr with h | h
      · exact h
      · exact absurd hk (h.1 t (by simp)).1
  have hx : ∀ n, (line.toks.take n).flatMap (·.lexeme) = srcOf (line.toks.take n) := fun n =>
    srcOf_plain fun u hu => hno u (by simp [List.mem_of_mem_take hu])
  unfold urlAct
  split
  · trivial
  · dsimp only
    split
    · rename_i he
      refine b.nextDrop hp _ ?_ (b.acc.text _)
      rw [srcOf_cons _ _ hr, ← hx, List.isEmpty_iff.1 he, List.append_nil]
    · split
      · refine b.nextDrop hp _ ?_ (b.acc.leaf (.link _))
        rw [srcOf_cons _ _ hr, hx]
      · trivial

theorem lastCase_keeps (b : Before r env subs acc pend t line ls s) (hr : breakCase acc pend t line ls = none) :
    (lastCase subs ctx acc pend t line ls).keeps r ls (total pend t line ls s) := by
  have hr : t.kind ≠ AttrRef := by
    intro h
    unfold breakCase at hr
    simp [h] at hr
  unfold lastCase
  split
  · exact backslashAct_keeps b ‹_›
  · split
    · rename_i hc; exact urlAct_keeps b hc.1
    · split
      · rename_i hc; exact b.next (b.noPend (by simp [hc])) hr (b.acc.leaf (.passthru _))
      · refine ⟨.inl rfl, b.kept.tail, by have := b.len; omega, _, (b.acc.unused pend).text t.lexeme, ?_⟩
        simp [total, pendSource, srcOf_cons _ _ hr]

/-! ### attribute lists, anchors -/

theorem firstBracket {l : List Tok} (h : hasSeq [.kind Backslash, .kind CloseBracket] l = false) : ∀ esc : Bool, (esc = true → isKind CloseBracket l.head? = false) →
    firstNonescaped CloseBracket esc l = indexOfSeq [.kind CloseBracket] l := by
  induction l with
  | nil => intro esc _; rfl
  | cons t ts ih =>
    intro esc he
    unfold firstNonescaped indexOfSeq
    by_cases hk : t.kind = CloseBracket
    · have : esc = false := by
        cases esc with
        | false => rfl
        | true => have := he rfl; simp [isKind, hk] at this
      rw [if_pos ⟨hk, by simp [this]⟩, if_pos (by simp [matchSeq, TSpec.sat, hk])]
    · rw [if_neg (fun hh => hk hh.1), if_neg (by simp [matchSeq, TSpec.sat, hk])]
      rw [ih (hasSeq_infix [t] ts [] (by simp) h)]
      intro hb
      have := hasSeq_false.1 h [] t ts rfl
      cases ts with
      | nil => rfl
      | cons u us => simpa [matchSeq, TSpec.sat, isKind, of_decide_eq_true hb] using this

theorem escaped_of {c : List Tok} (h1 : ∀ t ∈ c, t.kind ≠ CloseBracket) (h2 : ∀ t, c.getLast? = some t → t.kind ≠ Backslash) : AttrList.escaped (c.map Tok.tk) = true := by
  induction c with
  | nil => rfl
  | cons t ts ih =>
    cases ts with
    | nil => simpa [AttrList.escaped, Tok.tk] using h2 t rfl
    | cons u us =>
      have := ih (fun v hv => h1 v (by simp [hv])) (fun v hv => h2 v (by simpa using hv))
      simp only [List.map_cons] at this ⊢
      unfold AttrList.escaped
      rw [this]
      have := h1 u (by simp)
      simp [Tok.tk, this]

theorem parse_rest {l : List Tk} {x : AttrList.Attrs} {rest more : List Tk} {ps : List (List Tk)} {close : Tk} (h : AttrList.parse false true true l = some (x, rest))
    (hx : ∀ u, l.head? = some u → u.kind ≠ CloseBracket) (hp : AttrList.pieces false l = some (ps, close :: more)) (hc : close.kind = CloseBracket) : rest = more := by
  unfold AttrList.parse at h
  split at h
  · cases h
  · rename_i u us
    rw [if_neg (hx u rfl), hp] at h
    simp only [Option.bind_eq_bind, Option.bind_some, hc, if_true, Option.bind_eq_some_iff] at h
    obtain ⟨_, _, h⟩ := h
    split at h
    · obtain ⟨_, _, h⟩ := Option.bind_eq_some_iff.1 h
      cases h; rfl
    · cases h; rfl

theorem attrsCase_keeps (b : Before r env subs acc pend t line ls s) (e : attrsCase subs acc t line = some a) : a.keeps r ls (total pend t line ls s) := by
  unfold attrsCase at e
  split at e
  · rename_i hc
    have hp := b.noPend (by simp [hc.1])
    split at e
    · cases e; trivial
    · rename_i at' rest hpa
      cases e
      have hcf := hc.2.2
      simp only [continuesFormatted, Bool.and_eq_true] at hcf
      obtain ⟨hh, hcf⟩ := hcf
      split at hcf
      · cases hcf
      rename_i n hn
      simp only [Bool.and_eq_true, decide_eq_true_eq] at hcf
      obtain ⟨hpos, hfirst⟩ := hcf
      rw [firstBracket b.kept.tail.bracket false (fun x => by cases x)] at hfirst
      obtain ⟨hm, hlt, -⟩ := indexOfSeq_some hn
      obtain ⟨-, -, hbefore⟩ := indexOfSeq_some hfirst
      obtain ⟨cl, _, hd, hcl, hm⟩ := matchSeq_cons hm
      obtain ⟨m, more, rfl, hmk, -⟩ := matchSeq_cons hm
      simp only [TSpec.sat, decide_eq_true_eq] at hcl
      have hl : line.toks = line.toks.take n ++ cl :: m :: more := by rw [← hd, List.take_append_drop]
      have hno : ∀ u ∈ line.toks.take n, u.kind ≠ CloseBracket := by
        intro u hu hk
        obtain ⟨i, hi, rfl⟩ := List.mem_iff_getElem.1 hu
        have hi' : i < n := by simp at hi; omega
        have := hbefore i hi'
        rw [List.drop_eq_getElem_cons (by simp at hi; omega)] at this
        simp only [List.getElem_take] at hk
        simp [matchSeq, TSpec.sat, hk] at this
      have hesc : AttrList.escaped ((line.toks.take n).map Tok.tk) = true := by
        refine escaped_of hno ?_
        intro u hu hk
        obtain ⟨ys, hys⟩ := List.getLast?_eq_some_iff.1 hu
        have := hasSeq_false.1 b.kept.tail.bracket ys u (cl :: m :: more) (by rw [hl, hys]; simp)
        simp [matchSeq, TSpec.sat, hk, hcl] at this
      obtain ⟨ps, -, hps⟩ := AttrList.pieces_inline ((line.toks.take n).map Tok.tk) hesc (by
        cases hc0 : line.toks.take n with
        | nil => simp
        | cons u us =>
          simp only [List.map_cons, List.head?_cons, Option.map_some, Tok.tk]
          intro hx
          exact hno u (by simp [hc0]) (by simpa using hx)) cl.tk hcl ((m :: more).map Tok.tk)
      have hmap : line.toks.map Tok.tk = (line.toks.take n).map Tok.tk ++ cl.tk :: (m :: more).map Tok.tk := by
        conv => lhs; rw [hl]
        simp
      have hrest : rest = (m :: more).map Tok.tk := by
        rw [AttrList.parseFormatted, hmap] at hpa
        refine parse_rest hpa ?_ hps hcl
        intro u hu
        cases hc0 : line.toks.take n with
        | nil =>
          rw [hc0] at hl
          rw [hl] at hh
          simp [satOpt, TSpec.sat, hcl] at hh
        | cons v vs =>
          rw [hc0] at hu
          simp only [List.map_cons, List.cons_append, List.head?_cons, Option.some.injEq] at hu
          rw [← hu]
          exact hno v (by simp [hc0])
      have hlen : line.toks.length = n + (more.length + 2) := by
        have h1 := congrArg List.length hl
        simp only [List.length_append, List.length_cons, List.length_take] at h1
        omega
      have hk : line.toks.length - rest.length = n + 1 := by
        rw [hrest]; simp only [List.length_map, List.length_cons]; omega
      have hdrop : line.toks.drop (n + 1) = m :: more := by
        rw [← List.drop_drop, hd]; rfl
      rw [hk, hdrop]
      have hkeep : Kept r (cl :: m :: more) := b.kept.tail.suffix (line.toks.take n) hl
      refine ⟨.inr ⟨hmk, ?_⟩, hkeep.tail, ?_, s, b.acc, ?_⟩
      · have := hasSeq_false.1 hkeep.quote [] cl (m :: more) rfl
        simpa [matchSeq, TSpec.sat, hcl] using this
      · have := b.len
        simp only [List.length_cons]; omega
      · subst hp
        have : srcOf (t :: line.toks) = srcOf (t :: line.toks.take (n + 1)) ++ srcOf (m :: more) := by
          rw [← srcOf_append, ← hdrop, List.cons_append, List.take_append_drop]
        simp [total, pendSource, this]
  · cases e

theorem unescaped_plain {l : List Tok} (h : ∀ t ∈ l, Spelled t) : unescaped (plainOf l) = unescaped (srcOf l) := by
  induction l with
  | nil => rfl
  | cons t ts ih =>
    have ih := ih (fun u hu => h u (by simp [hu]))
    have ht := h t (by simp)
    unfold plainOf srcOf unescaped at *
    by_cases h1 : t.kind = AttrRef
    · simpa [h1] using ih
    · by_cases h2 : t.kind = Backslash
      · unfold Spelled at ht; rw [h2] at ht
        simpa [h2, ht] using ih
      · simpa [h1, h2] using ih

theorem srcOf_blank {l : List Tok} (hk : ∀ t ∈ l, t.kind = Whitespace) (hs : ∀ t ∈ l, Spelled t) : Blank (srcOf l) := by
  intro c hc
  unfold srcOf at hc
  obtain ⟨t, ht, hc⟩ := List.mem_flatMap.1 hc
  have ht := (List.mem_filter.1 ht).1
  have h2 := hs t ht
  unfold Spelled at h2
  rw [hk t ht] at h2
  exact h2 c hc

theorem xrefAct_keeps (b : Before r env subs acc pend t line ls s) (hk : t.kind = LessThan) (hc : continuesXref line.toks = true) :
    (xrefAct acc pend line).keeps r ls (total pend t line ls s) := by
  have hp := b.noPend (by simp [hk])
  obtain ⟨lt, n, hlt, hltk, hn, hpos⟩ := continuesXref_shape hc
  unfold xrefAct
  rw [hn]
  dsimp only
  obtain ⟨hm, hlen, -⟩ := indexOfSeq_some hn
  obtain ⟨g1, _, hd, hg1, hm⟩ := matchSeq_cons hm
  obtain ⟨g2, more, rfl, hg2, -⟩ := matchSeq_cons hm
  simp only [TSpec.sat, decide_eq_true_eq] at hg1 hg2
  have hl : line.toks = lt :: ((line.toks.drop 1).take n ++ g1 :: g2 :: more) := by
    conv => lhs; rw [hlt]
    rw [← hd, List.take_append_drop]
  have hdrop : line.toks.drop (n + 3) = more := by
    rw [show n + 3 = 1 + n + 2 by omega, ← List.drop_drop, ← List.drop_drop, hd]; rfl
  generalize hin : (line.toks.drop 1).take n = inner at hl ⊢
  have hinl : inner.length = n := by rw [← hin, List.length_take]; omega
  have hkin : Kept r inner := b.kept.infix [t, lt] inner (g1 :: g2 :: more) (by rw [hl]; simp)
  have hkm : Kept r more := b.kept.suffix ([t, lt] ++ inner ++ [g1, g2]) (by rw [hl]; simp)
  have htxt : srcOf (t :: line.toks) = "<<".toList ++ srcOf inner ++ ">>".toList ++ srcOf more := by
    have s1 := b.kept.spelled t (by simp)
    have s2 := b.kept.spelled lt (by rw [hl]; simp)
    have s3 := b.kept.spelled g1 (by rw [hl]; simp)
    have s4 := b.kept.spelled g2 (by rw [hl]; simp)
    unfold Spelled at s1 s2 s3 s4
    rw [hk] at s1; rw [hltk] at s2; rw [hg1] at s3; rw [hg2] at s4
    rw [hl, srcOf_cons _ _ (by simp [hk]), srcOf_cons _ _ (by simp [hltk]), srcOf_append, srcOf_cons _ _ (by simp [hg1]),
      srcOf_cons _ _ (by simp [hg2]), s1, s2, s3, s4]
    simp
  have hml : more.length ≤ line.orig := by
    have := b.len
    rw [hl] at this
    simp only [List.length_cons, List.length_append] at this
    omega
  subst hp
  cases inner with
  | nil => trivial
  | cons i0 is =>
  dsimp only
  have hsplit := List.takeWhile_append_dropWhile (p := fun u : Tok => decide (u.kind ≠ Comma)) (l := i0 :: is)
  generalize htg : (i0 :: is).takeWhile (fun u : Tok => decide (u.kind ≠ Comma)) = target at hsplit ⊢
  generalize hdw : (i0 :: is).dropWhile (fun u : Tok => decide (u.kind ≠ Comma)) = after at hsplit ⊢
  have hts : unescaped (plainOf target) = unescaped (srcOf target) := unescaped_plain fun u hu => hkin.spelled u (by rw [← hsplit]; simp [hu])
  cases after with
  | nil =>
    refine ⟨rfl, by rw [Line.drop, hdrop]; exact hkm, by rw [Line.drop, hdrop]; exact hml, s, _, b.acc, .xref hts, ?_⟩
    rw [List.append_nil] at hsplit
    rw [Line.drop, hdrop, total, htxt, hsplit]
    simp [pendSource]
  | cons comma rest =>
    have hcm : comma.kind = Comma := by
      have := dropWhile_head _ _ _ _ hdw
      simpa using this
    have hcs : comma.lexeme = [','] := by
      have := hkin.spelled comma (by rw [← hsplit]; simp)
      unfold Spelled at this; rw [hcm] at this; exact this
    have hsp2 := List.takeWhile_append_dropWhile (p := fun u : Tok => decide (u.kind = Whitespace)) (l := rest)
    dsimp only
    generalize hws : rest.takeWhile (fun u : Tok => decide (u.kind = Whitespace)) = ws at hsp2
    generalize htx : rest.dropWhile (fun u : Tok => decide (u.kind = Whitespace)) = text at hsp2 ⊢
    have hblank : Blank (srcOf ws) := srcOf_blank
      (fun u hu => by rw [← hws] at hu; simpa using mem_takeWhile' hu)
      (fun u hu => hkin.spelled u (by rw [← hsplit, ← hsp2]; simp [hu]))
    have hinner : srcOf (i0 :: is) = srcOf target ++ ',' :: srcOf ws ++ srcOf text := by
      rw [← hsplit, ← hsp2, srcOf_append, srcOf_cons _ _ (by simp [hcm]), hcs, srcOf_append]; simp
    split
    · rename_i he
      have he := List.isEmpty_iff.1 he
      refine ⟨rfl, by rw [Line.drop, hdrop]; exact hkm, by rw [Line.drop, hdrop]; exact hml, s, _, b.acc, .xrefComma hts hblank, ?_⟩
      rw [Line.drop, hdrop, total, htxt, hinner, he]
      simp [pendSource, srcOf]
    · rename_i he
      refine ⟨rfl, by rw [Line.drop, hdrop]; exact hkm, by rw [Line.drop, hdrop]; exact hml, s,
        "<<".toList ++ srcOf target ++ ',' :: srcOf ws ++ srcOf text ++ ">>".toList, b.acc, ?_, ?_⟩
      · intro ch hch
        have hlt' : text.length < n := by
          rw [← hinl, ← hsplit, ← hsp2]; simp; omega
        have : Reads ch (srcOf text) := hch ⟨hkin.suffix (target ++ comma :: ws) (by rw [← hsplit, ← hsp2]; simp),
          by simpa using he, Nat.le_of_lt hlt', by simp [isComment, Line.full]; omega, nofun⟩
        rcases this with h | h
        · exact .xrefText hts hblank h
        · exact .xrefUnclosed hts hblank h
      · rw [Line.drop, hdrop, total, htxt, hinner]
        simp [pendSource]

/-! ### macros with brackets -/

theorem continuesMacro_shape {l : List Tok} (h : continuesMacro t l = true) :
    ∃ ob rest, l = beforeBracket l ++ ob :: rest ∧ ob.kind = OpenBracket ∧ rest ≠ [] ∧
      (l.dropWhile (fun u : Tok => decide (u.kind ≠ OpenBracket))).drop 1 = rest := by
  unfold continuesMacro at h
  simp only [Bool.and_eq_true] at h
  obtain ⟨-, h⟩ := h
  split at h
  · rename_i o e ho he
    simp only [Bool.and_eq_true, decide_eq_true_eq] at h
    have hsplit := List.takeWhile_append_dropWhile (p := fun u : Tok => decide (u.kind ≠ OpenBracket)) (l := l)
    obtain ⟨hm, -, hbefore⟩ := indexOfSeq_some ho
    obtain ⟨ob', rest', hd', hob', -⟩ := matchSeq_cons hm
    simp only [TSpec.sat, decide_eq_true_eq] at hob'
    obtain ⟨hme, hel, -⟩ := indexOfSeq_some he
    obtain ⟨x, xs, hdx, -, hm2⟩ := matchSeq_cons hme
    obtain ⟨y, ys, rfl, -, -⟩ := matchSeq_cons hm2
    cases hdw : l.dropWhile (fun u : Tok => decide (u.kind ≠ OpenBracket)) with
    | nil =>
      exfalso
      rw [hdw, List.append_nil] at hsplit
      have : ob' ∈ l := by
        have : ob' ∈ l.drop o := by rw [hd']; simp
        exact List.mem_of_mem_drop this
      rw [← hsplit] at this
      have := mem_takeWhile' this
      simp [hob'] at this
    | cons ob rest =>
      have hob : ob.kind = OpenBracket := by
        have := dropWhile_head _ _ _ _ hdw
        simpa using this
      refine ⟨ob, rest, ?_, hob, ?_, rfl⟩
      · rw [hdw] at hsplit; exact hsplit.symm
      · rintro rfl
        rw [hdw] at hsplit
        -- the bracket is the last token, but a closing bracket comes after it
        have hol : (beforeBracket l).length ≤ o := by
          false_or_by_contra
          rename_i hlt
          have hlt : o < (beforeBracket l).length := by omega
          have h1 : l.drop o = (beforeBracket l).drop o ++ [ob] := by
            conv => lhs; rw [← hsplit]
            rw [List.drop_append_of_le_length (by unfold beforeBracket at hlt; omega)]; rfl
          rw [hd', List.drop_eq_getElem_cons hlt] at h1
          injection h1 with h1 _
          have hmem : (beforeBracket l)[o] ∈ beforeBracket l := List.getElem_mem _
          rw [← h1] at hmem
          have := mem_takeWhile' hmem
          simp [hob'] at this
        have hlen : l.length = (beforeBracket l).length + 1 := by
          conv => lhs; rw [← hsplit]
          simp [beforeBracket]
        have := congrArg List.length hdx
        simp only [List.length_drop, List.length_cons] at this
        omega
  · cases h

theorem unquoteToks_src {l : List Tok} (hs : ∀ t ∈ l, Spelled t) :
    ∃ (q : List Char) (a b : List Tok), Quotes q ∧ l = a ++ unquoteToks l ++ b ∧ srcOf l = q ++ srcOf (unquoteToks l) ++ q ∧
      (a = [] ∨ ∃ v, a = [v] ∧ (v.kind = DoubleQuote ∨ v.kind = SingleQuote)) := by
  unfold unquoteToks
  split
  · rename_i hc
    obtain ⟨hlen, hc⟩ := hc
    have key : ∀ (k : TokenKind) (c : Char), k ≠ AttrRef → (∀ t : Tok, t.kind = k → Spelled t → t.lexeme = [c]) → isKind k l.head? = true → isKind k l.getLast? = true →
        ∃ a b, a.kind = k ∧ l = [a] ++ l.tail.dropLast ++ [b] ∧ srcOf l = [c] ++ srcOf l.tail.dropLast ++ [c] := by
      intro k c hk hsp h1 h2
      obtain ⟨v, vs, rfl, hv⟩ := isKind_head h1
      obtain ⟨w, hw, hwk⟩ := satKind h2
      have hne : vs ≠ [] := by rintro rfl; simp at hlen
      have hlast : vs.getLast? = some w := by
        rw [← hw]; cases vs with
        | nil => exact absurd rfl hne
        | cons => simp
      obtain ⟨ys, rfl⟩ := List.getLast?_eq_some_iff.1 hlast
      refine ⟨v, w, hv, by simp, ?_⟩
      simp only [List.tail_cons, List.dropLast_concat]
      rw [srcOf_cons _ _ (by rw [hv]; exact hk), srcOf_append, srcOf_cons w _ (by rw [hwk]; exact hk),
        hsp v hv (hs v (by simp)), hsp w hwk (hs w (by simp))]
      simp [srcOf]
    rcases hc with ⟨h1, h2⟩ | ⟨h1, h2⟩
    · obtain ⟨a, b, ha, h3, h4⟩ := key DoubleQuote '"' (by decide) (by spelledAs) h1 h2
      exact ⟨['"'], [a], [b], .inr (.inl rfl), h3, h4, .inr ⟨a, rfl, .inl ha⟩⟩
    · obtain ⟨a, b, ha, h3, h4⟩ := key SingleQuote '\'' (by decide) (by spelledAs) h1 h2
      exact ⟨['\''], [a], [b], .inr (.inr rfl), h3, h4, .inr ⟨a, rfl, .inr ha⟩⟩
  · exact ⟨[], [], [], .inl rfl, by simp, by simp, .inl rfl⟩

theorem Unclosed.getLast {ns : List Node} {s : List Char} (h : Unclosed ns s) : ∃ w ch, ns.getLast? = some (.wrap w ch) := by
  cases h <;> exact ⟨_, _, List.getLast?_concat⟩

theorem linkNode_src {target x q s : List Char} {ch : List Node} (caret : Bool) (ha : Address target x) (hq : Quotes q) (h : Reads ch s) :
    Src (linkNode target caret ch) (x ++ '[' :: (q ++ s ++ q) ++ [']']) := by
  unfold linkNode
  rcases h with h | h
  · split
    · rename_i tx hl
      split
      · rename_i hc
        simp only [Bool.and_eq_true, decide_eq_true_eq] at hc
        obtain ⟨a, b, rfl, h1, h2⟩ := h.getLast hl
        cases h2 with
        | leaf h2 =>
          cases h2
          have e := getLast_text hc.2
          have := Src.linkWindow ha hq (h1.snoc (.leaf (.text tx.dropLast)))
          conv => rhs; rw [e]
          simpa using this
      · exact .linkText ha hq h
    · exact .linkText ha hq h
  · obtain ⟨w, c, hw⟩ := h.getLast
    rw [hw]
    exact .linkUnclosed ha hq h

theorem linkAct_keeps (b : Before r env subs acc pend t line ls s) {target x : List Char} {before rest : List Tok} {ob : Tok}
    (hp : pend = none) (hno : ∀ u ∈ line.toks, u.kind ≠ AttrRef) (hl : line.toks = before ++ ob :: rest) (hob : ob.kind = OpenBracket)
    (ha : Address target x) (hx : srcOf (t :: before) = x) :
    (linkAct acc pend target ⟨rest, line.orig⟩).keeps r ls (total pend t line ls s) := by
  subst hp
  have hobs : ob.lexeme = ['['] := by
    have := b.kept.spelled ob (by rw [hl]; simp)
    unfold Spelled at this; rw [hob] at this; exact this
  have htot : srcOf (t :: line.toks) = x ++ '[' :: srcOf rest := by
    rw [hl, ← List.cons_append, srcOf_append, hx, srcOf_cons _ _ (by simp [hob]), hobs]; rfl
  have hkobr : Kept r (ob :: rest) := b.kept.suffix (t :: before) (by rw [hl]; simp)
  have hkr := hkobr.tail
  have hlen : rest.length ≤ line.orig := by
    have := b.len
    rw [hl] at this
    simp only [List.length_cons, List.length_append] at this
    omega
  unfold linkAct
  dsimp only
  split
  · trivial
  · rename_i n hn
    split
    · rename_i hc
      obtain ⟨c, cs, hr, hck⟩ := isKind_head hc
      rw [hr] at htot hkr hlen
      have hcl : c.lexeme = [']'] := by
        have := hkr.head
        unfold Spelled at this; rw [hck] at this; exact this
      refine ⟨rfl, ?_, ?_, s, _, b.acc, .linkEmpty ha, ?_⟩
      · simpa [Line.drop, hr] using hkr.tail
      · simp only [Line.drop, hr, List.drop_succ_cons, List.drop_zero]
        simp only [List.length_cons] at hlen
        omega
      · rw [total, htot, srcOf_cons _ _ (by simp [hck]), hcl]
        simp [Line.drop, hr, pendSource]
    · have hf : (rest.take n).filter (fun u : Tok => decide (u.kind ≠ AttrRef)) = rest.take n := by
        rw [List.filter_eq_self]
        intro u hu
        simpa using hno u (by rw [hl]; simp [List.mem_of_mem_take hu])
      rw [hf]
      split
      · trivial
      · rename_i hne
        split
        · rename_i hc
          obtain ⟨c, hcg, hck⟩ := satKind hc
          obtain ⟨hlt, hcg⟩ := List.getElem?_eq_some_iff.1 hcg
          have hsplit : rest = rest.take n ++ c :: rest.drop (n + 1) := by
            conv => lhs; rw [← List.take_append_drop n rest, List.drop_eq_getElem_cons hlt, hcg]
          obtain ⟨q, a, d, hq, hu, hsrc, hqa⟩ := unquoteToks_src (l := rest.take n)
            (fun u hu => hkr.spelled u (List.mem_of_mem_take hu))
          generalize hin : unquoteToks (rest.take n) = inner at hu hsrc hne ⊢
          have hkin : Kept r inner := hkobr.infix (ob :: a) inner (d ++ c :: rest.drop (n + 1)) (by
            conv => lhs; rw [hsplit, hu]
            simp)
          have hcl : c.lexeme = [']'] := by
            have := hkr.spelled c (by rw [hsplit]; simp)
            unfold Spelled at this; rw [hck] at this; exact this
          have hcm : isComment (Line.new inner) = false := by
            cases inner with
            | nil => exact absurd rfl hne
            | cons v vs =>
              cases hcm : isComment (Line.new (v :: vs)) with
              | false => rfl
              | true =>
                exfalso
                have hv : TSpec.sat (.len 2 ForwardSlashes) v = true := by
                  simp only [isComment, Line.new, Bool.and_eq_true] at hcm
                  revert hcm
                  simp [TSpec.sat, satOpt]
                rcases hqa with rfl | ⟨w, rfl, hw⟩
                · have := (hasSeq_false.1 hkobr.slashes.1) [] ob (v :: (vs ++ d ++ c :: rest.drop (n + 1))) (by
                    conv => lhs; rw [hsplit, hu]
                    simp)
                  simp [matchSeq, hv] at this
                  simp [TSpec.sat, hob] at this
                · have := (hasSeq_false.1 hkobr.slashes.2) [] ob (w :: v :: (vs ++ d ++ c :: rest.drop (n + 1))) (by
                    conv => lhs; rw [hsplit, hu]
                    simp)
                  simp [matchSeq, hv] at this
                  rcases hw with hw | hw <;> simp [TSpec.sat, hob, hw] at this
          refine ⟨rfl, ?_, ?_, s, _, b.acc, fun ch hch => linkNode_src _ ha hq (hch ⟨hkin, hne, by simp [Line.new], hcm, nofun⟩), ?_⟩
          · exact hkr.drop _
          · simp only [Line.drop, List.length_drop]; omega
          · rw [total, htot]
            conv => lhs; rw [hsplit]
            rw [srcOf_append, srcOf_cons _ _ (by simp [hck]), hcl, hsrc]
            simp [pendSource, Line.drop, Line.new]
        · trivial

theorem plainOf_src (b : Before r env subs acc pend t line ls s) {ts : List Tok} (h : ∀ u ∈ ts, u ∈ line.toks) :
    unescaped (plainOf ts) = unescaped (srcOf ts) := unescaped_plain fun u hu => b.kept.spelled u (by simp [h u hu])

theorem uriMacroAct_keeps (b : Before r env subs acc pend t line ls s) (hk : t.kind = UriScheme) (hc : continuesMacro t line.toks = true) :
    (uriMacroAct acc pend t line).keeps r ls (total pend t line ls s) := by
  have hno : ∀ u ∈ t :: line.toks, u.kind ≠ AttrRef := by
    cases hr : r with
    | false => exact b.kept.none hr
    | true =>
      rcases b.kept.url hr with h | h
      · exact h
      · exact absurd hk (h.1 t (by simp)).1
  obtain ⟨ob, rest, hl, hob, -, hd⟩ := continuesMacro_shape hc
  unfold uriMacroAct
  split
  · rw [Line.inBrackets, hd]
    refine linkAct_keeps b (b.noPend (by simp [hk])) (fun u hu => hno u (by simp [hu])) hl hob (.url _) ?_
    rw [srcOf_cons _ _ (by simp [hk]), srcOf_plain fun u hu => hno u (by rw [hl]; simp [hu])]
  · trivial

theorem note_keeps (b : Before r env subs acc pend t line ls s) {w : Wrap} {o : List Char} (hk : t.kind = MacroName) (hc : continuesMacro t line.toks = true)
    (hw : NoteMark w o) (ho : o = t.lexeme ++ srcOf (beforeBracket line.toks) ++ "[".toList) :
    (Act.note w acc pend (restore line.inBrackets ls)).keeps r ls (total pend t line ls s) := by
  have hp := b.noPend (by simp [hk])
  obtain ⟨ob, rest, hl, hob, hne, hd⟩ := continuesMacro_shape hc
  have hobs : ob.lexeme = ['['] := by
    have := b.kept.spelled ob (by rw [hl]; simp)
    unfold Spelled at this; rw [hob] at this; exact this
  have hkr : Kept r rest := b.kept.suffix (t :: beforeBracket line.toks ++ [ob]) (by
    conv => lhs; rw [hl]
    simp)
  have hlt : line.inBrackets.toks.length < line.inBrackets.orig := by
    have := b.len
    have h2 := congrArg List.length hl
    simp only [List.length_cons, List.length_append] at h2
    simp only [Line.inBrackets, hd]
    omega
  obtain ⟨h1, -⟩ := restore_ok (l := line.inBrackets) (by rw [Line.inBrackets, hd]; exact hkr) hlt b.rest
  have h2 : restore line.inBrackets ls = line.inBrackets :: ls := by
    unfold restore
    rw [if_neg (by rw [Line.inBrackets, hd]; simpa using hne)]
  refine ⟨hp, h1, s, o, b.acc, hw, ?_⟩
  have h3 : srcOf (t :: line.toks) = o ++ srcOf rest := by
    rw [srcOf_cons _ _ (by simp [hk])]
    conv => lhs; rw [hl]
    rw [srcOf_append, srcOf_cons _ _ (by simp [hob]), hobs, ho]
    simp
  rw [h2, sourceOf_cons, total, h3, Line.inBrackets, hd, hp]
  simp [pendSource]

theorem macroAct_keeps (b : Before r env subs acc pend t line ls s) (hk : t.kind = MacroName) (hc : continuesMacro t line.toks = true) :
    (macroAct acc pend t line ls).keeps r ls (total pend t line ls s) := by
  have hpl : unescaped (plainOf (beforeBracket line.toks)) = unescaped (srcOf (beforeBracket line.toks)) :=
    plainOf_src b fun u hu => (List.takeWhile_sublist _).mem hu
  unfold macroAct
  split
  · rename_i ht
    dsimp only
    split
    · rename_i hb
      obtain ⟨v, vs, hv, hvk⟩ := isKind_head hb
      refine note_keeps b hk hc .footnote ?_
      have : beforeBracket line.toks = [] := by rw [hv]; simp [beforeBracket, hvk]
      rw [this, ht]; rfl
    · exact note_keeps b hk hc (.named hpl) (by rw [ht])
  · split
    · rename_i ht
      exact note_keeps b hk hc (.xref hpl) (by rw [ht])
    · split
      · rename_i ht
        have hno : ∀ u ∈ t :: line.toks, u.kind ≠ AttrRef := by
          cases hr : r with
          | false => exact b.kept.none hr
          | true =>
            rcases b.kept.url hr with h | h
            · exact h
            · exact absurd ⟨hk, ht⟩ (h.1 t (by simp)).2
        split
        · split
          · trivial
          · obtain ⟨ob, rest, hl, hob, -, hd⟩ := continuesMacro_shape hc
            rw [Line.inBrackets, hd]
            refine linkAct_keeps b (b.noPend (by simp [hk])) (fun u hu => hno u (by simp [hu])) hl hob (.link hpl) ?_
            rw [srcOf_cons _ _ (by simp [hk]), ht]
        · split
          · rename_i n ns hl
            refine b.nextDrop (b.noPend (by simp [hk])) 1 (arrow b.kept hl (by simp [hk]) (hno n (by rw [hl]; simp))) ?_
            obtain ⟨h3, h4⟩ := b.acc.commit
            have h5 : AccSrc acc.commit s := ⟨s, h3, by rw [h4, List.append_nil]⟩
            rw [← List.append_assoc]
            exact (h5.text _).text _
          · trivial
      · trivial

theorem macroCase_keeps (b : Before r env subs acc pend t line ls s) (e : macroCase subs acc pend t line ls = some a) :
    a.keeps r ls (total pend t line ls s) := by
  unfold macroCase at e
  dsimp only at e
  split at e
  · rename_i hc; cases e; exact macroAct_keeps b hc.1 hc.2.2
  · split at e
    · rename_i hc
      split at e
      · rename_i n ns hl
        cases e
        obtain ⟨v, vs, hl', hv⟩ := isKind_head hc.2.2.1
        rw [hl] at hl'; cases hl'
        refine b.nextDrop (b.noPend (by simp [hc.1])) 1 (arrow b.kept hl (by simp [hc.1]) (by simp [hv])) ?_
        rw [← List.append_assoc]
        exact (b.acc.text _).text _
      · cases e; trivial
    · split at e <;> cases e
      rename_i hc
      exact uriMacroAct_keeps b hc.1 hc.2.2

theorem angleAct_keeps (b : Before r env subs acc pend t line ls s) (hk : t.kind = LessThan) (hu : isKind UriScheme line.toks.head? = true) :
    (angleAct subs acc pend t line).keeps r ls (total pend t line ls s) := by
  have hp := b.noPend (by simp [hk])
  obtain ⟨u, ts, hl, huk⟩ := isKind_head hu
  have hno : ∀ u ∈ t :: line.toks, u.kind ≠ AttrRef := by
    cases hr : r with
    | false => exact b.kept.none hr
    | true =>
      rcases b.kept.url hr with h | h
      · exact h
      · exact absurd huk (h.1 u (by simp [hl])).1
  have hts : t.lexeme = ['<'] := by
    have := b.spelled
    unfold Spelled at this; rw [hk] at this; exact this
  have hkt : Kept r ts := b.kept.suffix [t, u] (by rw [hl]; rfl)
  have hlen : ts.length < line.orig := by
    have := b.len
    rw [hl] at this
    simp only [List.length_cons] at this
    omega
  have htot : srcOf (t :: line.toks) = '<' :: u.lexeme ++ srcOf ts := by
    rw [hl, srcOf_cons _ _ (by simp [hk]), srcOf_cons _ _ (by simp [huk]), hts]; rfl
  subst hp
  unfold angleAct
  rw [hl]
  dsimp only
  split
  · trivial
  · rename_i n hn
    have hbody : (ts.take n).flatMap (·.lexeme) = srcOf (ts.take n) :=
      srcOf_plain fun v hv => hno v (by rw [hl]; simp [List.mem_of_mem_take hv])
    obtain ⟨hm, hlt, -⟩ := indexOfSeq_some hn
    obtain ⟨g, gs, hd, hg, -⟩ := matchSeq_cons hm
    simp only [TSpec.sat, decide_eq_true_eq] at hg
    split
    · rename_i he
      rw [hbody, List.isEmpty_iff] at he
      have hsrc : srcOf ts = srcOf (ts.drop n) := by rw [srcOf_take_drop ts n, he, List.nil_append]
      have ha : AccSrc (if subs.contains Sub.specialChars = true then acc.leaf (.special .lessThan) else acc.putText t.lexeme) (s ++ ['<']) := by
        split
        · exact b.acc.leaf (.special .lessThan)
        · exact (b.acc.text t.lexeme).cast (by rw [hts])
      refine ⟨.inl rfl, hkt.drop n, ?_, _, ha.text _, ?_⟩
      · simp only [List.length_drop]; omega
      · rw [total, htot, hsrc]
        simp [pendSource]
    · split
      · refine ⟨.inl rfl, hkt.drop _, ?_, _, b.acc.leaf (.angle _), ?_⟩
        · simp only [List.length_drop]; omega
        · have hgs : g.lexeme = ['>'] := by
            have := hkt.spelled g (List.mem_of_mem_drop (by rw [hd]; simp : g ∈ ts.drop n))
            unfold Spelled at this; rw [hg] at this; exact this
          have hd1 : ts.drop (n + 1) = gs := by
            rw [← List.drop_drop, hd]; rfl
          rw [total, htot, srcOf_take_drop ts n, hd, srcOf_cons _ _ (by simp [hg]), hgs, hbody, hd1]
          simp [pendSource]
      · trivial

theorem linkCase_keeps (b : Before r env subs acc pend t line ls s) (e : linkCase subs acc pend t line = some a) : a.keeps r ls (total pend t line ls s) := by
  unfold linkCase at e
  dsimp only at e
  split at e
  · rename_i hc; cases e; exact xrefAct_keeps b hc.1 hc.2
  · split at e
    · rename_i hc; cases e; exact angleAct_keeps b hc.1 hc.2.2.1
    · split at e
      · rename_i hc
        cases e
        exact b.next (b.noPend (by simp [hc.1])) (by simp [hc.1]) (b.acc.leaf (.link _))
      · cases e

theorem anchorAct_keeps (b : Before r env subs acc pend t line ls s) (hk : t.kind = OpenBracket) (hc : continuesAnchor line.toks = true) :
    (anchorAct acc pend line).keeps r ls (total pend t line ls s) := by
  have hp := b.noPend (by simp [hk])
  obtain ⟨ob, u, more, he, hb, hu, c, d, rest, hd, hck, hdk⟩ := continuesAnchor_shape (firstBracket b.kept.tail.bracket false (fun x => by cases x)) hc
  have hno : ∀ v ∈ t :: line.toks, v.kind ≠ AttrRef := by
    cases hr : r with
    | false => exact b.kept.none hr
    | true =>
      rcases b.kept.url hr with h | h
      · exact h
      · have := hasSeq_false.1 h.2 [] t line.toks rfl
        rw [he] at this
        simp [matchSeq, TSpec.sat, hk, hb] at this
  generalize hin : line.toks.drop 1 = inner at hd
  have hl : line.toks = ob :: inner := by rw [← hin, he]; rfl
  have hkin : Kept r inner := b.kept.suffix [t, ob] (by rw [hl]; rfl)
  have hnoin : ∀ v ∈ inner, v.kind ≠ AttrRef := fun v hv => hno v (by rw [hl]; simp [hv])
  have hsp0 := List.takeWhile_append_dropWhile (p := fun t : Tok => decide (t.kind ≠ CloseBracket)) (l := inner)
  rw [hd] at hsp0
  have hkr : Kept r rest := hkin.suffix (inner.takeWhile (fun t : Tok => decide (t.kind ≠ CloseBracket)) ++ [c, d]) (by
    rw [List.append_assoc]; exact hsp0.symm)
  have hlr : rest.length ≤ line.orig := by
    have := b.len
    rw [hl, ← hsp0] at this
    simp only [List.length_cons, List.length_append] at this
    omega
  have hcs : c.lexeme = [']'] := by
    have := hkin.spelled c (by rw [← hsp0]; simp)
    unfold Spelled at this; rw [hck] at this; exact this
  have hds : d.lexeme = [']'] := by
    have := hkin.spelled d (by rw [← hsp0]; simp)
    unfold Spelled at this; rw [hdk] at this; exact this
  have htxt : srcOf (t :: line.toks) = "[[".toList ++ srcOf inner := by
    have s1 := b.kept.spelled t (by simp)
    have s2 := b.kept.spelled ob (by rw [hl]; simp)
    unfold Spelled at s1 s2
    rw [hk] at s1; rw [hb] at s2
    rw [hl, srcOf_cons _ _ (by simp [hk]), srcOf_cons _ _ (by simp [hb]), s1, s2]
    simp
  subst hp
  unfold anchorAct
  dsimp only
  rw [hin]
  have hsp1 := List.takeWhile_append_dropWhile (p := fun t : Tok => !(decide (t.kind = Comma) || decide (t.kind = CloseBracket))) (l := inner)
  have hpq := dropWhile_dropWhile (fun t : Tok => decide (t.kind ≠ CloseBracket))
    (fun t : Tok => !(decide (t.kind = Comma) || decide (t.kind = CloseBracket))) (by intro x hx; simp at hx; simp [hx.2]) inner
  rw [hd] at hpq
  generalize hnm : inner.takeWhile (fun t : Tok => !(decide (t.kind = Comma) || decide (t.kind = CloseBracket))) = name at hsp1 ⊢
  have hname : name.flatMap (·.lexeme) = srcOf name := srcOf_plain fun v hv => hnoin v (by rw [← hsp1]; simp [hv])
  split
  · trivial
  · split
    · trivial
    · rename_i x xs hx
      have hxk := dropWhile_head _ _ _ _ hx
      rw [hx] at hpq hsp1
      split
      · rename_i hxc
        rw [List.dropWhile_cons, if_neg (by simp [hxc])] at hpq
        injection hpq with e1 e2
        subst e1 e2
        refine ⟨rfl, hkr, hlr, s, _, b.acc, .anchor, ?_⟩
        rw [total, htxt, ← hsp1, hname, srcOf_append, srcOf_cons _ _ (by simp [hck]), srcOf_cons _ _ (by simp [hdk]), hcs, hds]
        simp [pendSource]
      · rename_i hxn
        have hxc : x.kind = Comma := by simpa [hxn] using hxk
        have hxs : x.lexeme = [','] := by
          have := hkin.spelled x (by rw [← hsp1]; simp)
          unfold Spelled at this; rw [hxc] at this; exact this
        rw [List.dropWhile_cons, if_pos (by simp [hxn])] at hpq
        have hsp2 := List.takeWhile_append_dropWhile (p := fun t : Tok => decide (t.kind ≠ CloseBracket)) (l := xs)
        rw [hpq] at hsp2
        have hinner : srcOf inner = srcOf name ++ ',' :: srcOf (xs.takeWhile (fun t : Tok => decide (t.kind ≠ CloseBracket))) ++ "]]".toList ++ srcOf rest := by
          rw [← hsp1, srcOf_append, srcOf_cons _ _ (by simp [hxc]), hxs]
          conv => lhs; rw [← hsp2]
          rw [srcOf_append, srcOf_cons _ _ (by simp [hck]), srcOf_cons _ _ (by simp [hdk]), hcs, hds]
          simp
        have hdl : (discardLeading xs).dropWhile (fun t => decide (t.kind ≠ CloseBracket)) = c :: d :: rest ∧
            ((discardLeading xs).takeWhile (fun t => decide (t.kind ≠ CloseBracket)) = [] → xs.takeWhile (fun t : Tok => decide (t.kind ≠ CloseBracket)) = []) := by
          unfold discardLeading
          split
          · rename_i w ws
            split
            · rename_i hw
              simp only [List.dropWhile_cons, hw] at hpq
              simp [List.takeWhile_cons]
              simpa [List.dropWhile_cons] using hpq
            · exact ⟨hpq, fun h => h⟩
          · exact ⟨hpq, fun h => h⟩
        split
        · rename_i c' d' rest' hd'
          have hdl' : (discardLeading xs).dropWhile (fun t => decide (t.kind ≠ CloseBracket)) = c' :: d' :: rest' := hd'
          rw [hdl.1] at hdl'
          injection hdl' with e1 e2; injection e2 with e2 e3
          subst e1 e2 e3
          split
          · trivial
          · split
            · rename_i he
              have he := hdl.2 (List.isEmpty_iff.1 he)
              refine ⟨rfl, hkr, hlr, s, _, b.acc, .anchorComma, ?_⟩
              rw [total, htxt, hinner, he, hname]
              simp [pendSource, srcOf]
            · refine ⟨rfl, hkr, hlr, s, _, b.acc, fun ch _ => .anchorText (s := srcOf (xs.takeWhile (fun t : Tok => decide (t.kind ≠ CloseBracket)))), ?_⟩
              rw [total, htxt, hinner, hname]
              simp [pendSource]
        · trivial

theorem anchorCase_keeps (b : Before r env subs acc pend t line ls s) (e : anchorCase acc pend t line = some a) : a.keeps r ls (total pend t line ls s) := by
  unfold anchorCase at e
  split at e
  · rename_i hc; cases e; exact b.next (b.noPend (by simp [hc.1])) (by simp [hc.1]) (b.acc.text _)
  split at e
  · rename_i hc; cases e; exact anchorAct_keeps b hc.1 hc.2
  · cases e

theorem act_keeps (b : Before r env subs acc pend t line ls s) : (act env subs stop ctx acc pend t line ls).keeps r ls (total pend t line ls s) :=
  act_of_cases _ (fun _ => attrsCase_keeps b) (fun _ => replaceCase_keeps b) (fun _ => macroCase_keeps b) (fun _ => attrRefCase_keeps b)
    (fun _ => calloutCase_keeps b) (fun _ => linkCase_keeps b) (fun _ => emphasisCase_keeps b) (fun _ => anchorCase_keeps b)
    (fun _ => monoCase_keeps b) (fun _ => curlyCase_keeps b) (fun _ => hashCase_keeps b) (fun _ => charCase_keeps b)
    (fun _ => breakCase_keeps b) (lastCase_keeps b)

end

/-! ### the loop -/

/-- what is known between two steps -/
def At (r : Bool) (pend : Option Pend) : Option Line → List Line → Prop
  | none, ls => pend = none ∧ LinesOk r ls
  | some l, ls => PendOk pend l.toks ∧ Kept r l.toks ∧ l.toks.length ≤ l.orig ∧ ∀ x ∈ ls, KeptLine r x

/-- the text that is left -/
def leftSrc (pend : Option Pend) : Option Line → List Line → List Char
  | none, ls => sourceOf ls
  | some l, ls => pendSource pend ++ srcOf l.toks ++ restSrc ls

/-- the closing mark has been found -/
def Found (r : Bool) (stop : List TSpec) (total : List Char) (o : Out) : Prop :=
  LinesOk r o.lines ∧ ∃ x c, total = x ++ c ++ afterSrc o.lines ∧ Srcs o.nodes x ∧ ∀ c', Closing stop c' → c = c'

/-- what a run gives -/
def Result (r : Bool) (stop : List TSpec) (total : List Char) (o : Out) : Prop :=
  (stop ≠ [] ∧ Found r stop total o) ∨ (o.lines = [] ∧ Reads o.nodes total)

theorem Result.cast {r : Bool} {stop : List TSpec} {s s' : List Char} {o : Out} (h : Result r stop s o) (e : s = s') : Result r stop s' o := e ▸ h

theorem go_keeps (r : Bool) (env : Env) (hst : ∀ l, env.stops l = false) (hcell : env.tableCell = false) :
    ∀ (n : Nat) (subs : Substitutions) (stop : List TSpec) (acc : Acc) (pend : Option Pend) (ctx : Ctx) (cur : Option Line) (ls : List Line) (s : List Char) (o : Out),
    go env n subs stop acc pend ctx cur ls = .ok o → SubsOk r subs → AccSrc acc s → At r pend cur ls → Result r stop (s ++ leftSrc pend cur ls) o := by
  intro n
  induction n with
  | zero => intro subs stop acc pend ctx cur ls s o h; cases h
  | succ n ih =>
    intro subs stop acc pend ctx cur ls s o h hsub hacc hat
    match cur, ls with
    | none, [] =>
      simp only [go, Except.ok.injEq] at h
      subst h
      obtain ⟨rfl, -⟩ := hat
      exact .inr ⟨rfl, .inl (by simpa [leftSrc, sourceOf, pendSource] using hacc.finish none)⟩
    | none, l :: ls =>
      obtain ⟨rfl, hk, hne, hlen, hcm, hrest⟩ := hat
      simp only [go, hst, hcm, Bool.false_eq_true, if_false, Bool.false_and] at h
      have := ih subs stop acc none ctx (some l) ls s o h hsub hacc ⟨.inl rfl, hk, hlen, hrest⟩
      exact this.cast (by simp [leftSrc, pendSource, sourceOf_cons])
    | some l, ls =>
      obtain ⟨hpend, hk, hlen, hrest⟩ := hat
      simp only [go] at h
      split at h
      · rename_i hstop
        cases h
        simp only [startsSeq, Bool.and_eq_true, Bool.not_eq_true', List.isEmpty_eq_false_iff] at hstop
        obtain ⟨hne, hm⟩ := hstop
        have hlt : (l.drop stop.length).toks.length < (l.drop stop.length).orig := by
          simp only [Line.drop, List.length_drop]
          have h1 : 0 < stop.length := List.length_pos_iff.2 hne
          have h2 : 0 < l.toks.length := by
            cases stop with
            | nil => exact absurd rfl hne
            | cons a b => obtain ⟨_, _, e, _⟩ := matchSeq_cons hm; rw [e]; simp
          omega
        obtain ⟨h1, h2⟩ := restore_ok (l := l.drop stop.length) (hk.drop _) hlt hrest
        refine .inl ⟨hne, h1, s ++ pendSource pend, srcOf (l.toks.take stop.length), ?_, ?_, ?_⟩
        · rw [h2, leftSrc, srcOf_take_drop l.toks stop.length]
          simp [Line.drop]
        · refine AccSrc.finish ?_ pend
          obtain ⟨h3, h4⟩ := hacc.commit
          exact ⟨s, h3, by rw [h4, List.append_nil]⟩
        · intro c' hc'
          exact hc'.2 l.toks hk.spelled hm
      · split at h
        · rename_i he
          have hp : pend = none := by
            rcases hpend with hp | ⟨hp, -⟩
            · exact hp
            · rw [he] at hp; cases hp
          subst hp
          cases ls with
          | nil =>
            have := ih subs stop _ none ctx none [] s o h hsub (by simpa [joinNewline] using hacc) ⟨rfl, trivial⟩
            exact this.cast (by simp [leftSrc, he, pendSource, restSrc, srcOf, sourceOf])
          | cons l' ls' =>
            have := ih subs stop _ none ctx none (l' :: ls') _ o h hsub (joinNewline_src hacc l' ls') ⟨rfl, .of_full hrest⟩
            exact this.cast (by simp [leftSrc, he, pendSource, restSrc, srcOf, sourceOf])
        · rename_i t ts he
          have hb : Before r env subs acc pend t ⟨ts, l.orig⟩ ls s := by
            rw [he] at hpend hk hlen
            exact ⟨hcell, hsub, hacc, hpend, hk, hlen, hrest⟩
          have hkeep := act_keeps (stop := stop) (ctx := ctx) hb
          have hleft : total pend t ⟨ts, l.orig⟩ ls s = s ++ leftSrc pend (some l) ls := by
            simp [total, leftSrc, he]
          rw [hleft] at hkeep
          generalize s ++ leftSrc pend (some l) ls = whole at hkeep ⊢
          split at h
          all_goals rename_i hact; rw [hact] at hkeep
          · obtain ⟨h1, h2, h3, s', h4, h5⟩ := hkeep
            exact (ih _ _ _ _ _ _ _ s' o h hsub h4 ⟨h1, h2, h3, hrest⟩).cast (by rw [h5]; simp [leftSrc])
          · obtain ⟨rfl, h2, s', h4, h5⟩ := hkeep
            exact (ih _ _ _ _ _ _ _ s' o h hsub h4 ⟨rfl, h2⟩).cast (by rw [h5]; simp [leftSrc])
          · obtain ⟨rfl, h2, h3, s', mo, c, h4, h5, h6, h7⟩ := hkeep
            split at h
            · cases h
            · rename_i o' ho'
              obtain ⟨e, he1, he2, -⟩ := afterSrc_eq ‹List Line›
              have hin := ih _ _ _ _ _ _ _ [] o' ho' h3 ⟨[], .nil, rfl⟩ ⟨rfl, h2⟩
              simp only [List.nil_append, leftSrc] at hin
              rcases hin with ⟨-, hl, x, c', hx, hs, hc'⟩ | ⟨hl, hr⟩
              · have hc' := hc' c h6
                subst hc'
                obtain ⟨e', -, he2', he3'⟩ := afterSrc_eq o'.lines
                have hw := he3' _ _ (h4.push (.closed h5 he1 hs))
                refine (ih _ _ _ _ _ _ _ _ o h hsub hw ⟨rfl, hl⟩).cast ?_
                rw [h7, he2, hx, he2']
                simp [leftSrc]
              · rw [hl] at h
                cases n with
                | zero => cases h
                | succ n =>
                  simp only [go, Except.ok.injEq, newlineIfNeeded] at h
                  subst h
                  refine .inr ⟨rfl, .inr ?_⟩
                  rename_i acc' _ _
                  have hf : ∀ w ns, finish (acc'.push (.wrap w ns)) none = acc'.commit.nodes ++ [.wrap w ns] := by
                    intro w ns
                    simp only [finish, Acc.unused, Acc.push, Acc.commit, if_true]
                    rw [trimmed_id]
                    intro z hz
                    simp at hz
                  rw [hf, h7, he2]
                  rcases hr with hr | hr
                  · have := Unclosed.last h4.commit.1 h5 he1 hr
                    simpa using this
                  · have := Unclosed.inner h4.commit.1 h5 he1 hr
                    simpa using this
          · obtain ⟨rfl, h2, h3, s', x, h4, h5, h6⟩ := hkeep
            exact (ih _ _ _ _ _ _ _ _ o h hsub (h4.push h5) ⟨.inl rfl, h2, h3, hrest⟩).cast (by rw [h6]; simp [leftSrc, pendSource])
          · obtain ⟨rfl, h2, h3, s', x, h4, h5, h6⟩ := hkeep
            split at h
            · cases h
            · rename_i o' ho'
              have hw := h5 o'.nodes (fun hl => by
                have hin := ih _ _ _ _ _ _ _ [] o' ho' hsub ⟨[], .nil, rfl⟩ ⟨rfl, hl⟩
                rcases hin with ⟨h0, -⟩ | ⟨-, hr⟩
                · exact absurd rfl h0
                · simpa [leftSrc, sourceOf] using hr)
              exact (ih _ _ _ _ _ _ _ _ o h hsub (h4.push hw) ⟨.inl rfl, h2, h3, hrest⟩).cast (by rw [h6]; simp [leftSrc, pendSource])
          · obtain ⟨rfl, h2, h3, s', x, h4, h5, h6⟩ := hkeep
            split at h
            · cases h
            · rename_i o' ho'
              have hw := h5 o'.nodes (fun hl => by
                have hin := ih _ _ _ _ _ _ _ [] o' ho' hsub ⟨[], .nil, rfl⟩ ⟨rfl, hl⟩
                rcases hin with ⟨h0, -⟩ | ⟨-, hr⟩
                · exact absurd rfl h0
                · simpa [leftSrc, sourceOf] using hr)
              exact (ih _ _ _ _ _ _ _ _ o h hsub (h4.push hw) ⟨.inl rfl, h2, h3, hrest⟩).cast (by rw [h6]; simp [leftSrc, pendSource])
          · obtain ⟨rfl, h2, s', mo, h4, h5, h7⟩ := hkeep
            split at h
            · cases h
            · rename_i o' ho'
              have hin := ih _ _ _ _ _ _ _ [] o' ho' hsub ⟨[], .nil, rfl⟩ ⟨rfl, h2⟩
              simp only [List.nil_append, leftSrc] at hin
              rcases hin with ⟨-, hl, x, c', hx, hs, hc'⟩ | ⟨hl, hr⟩
              · have hc' := hc' [']'] (closing1 CloseBracket ']' (by decide) (by spelledAs))
                subst hc'
                obtain ⟨e', he1', he2', -⟩ := afterSrc_eq o'.lines
                refine (ih _ _ _ _ _ _ _ _ o h hsub (h4.push (.note h5 hs he1')) ⟨rfl, hl⟩).cast ?_
                rw [h7, hx, he2']
                simp [leftSrc]
              · rw [hl] at h
                cases n with
                | zero => cases h
                | succ n =>
                  simp only [go, Except.ok.injEq] at h
                  subst h
                  refine .inr ⟨rfl, .inr ?_⟩
                  rename_i acc' _ _
                  have hf : ∀ w ns, finish (acc'.push (.wrap w ns)) none = acc'.commit.nodes ++ [.wrap w ns] := by
                    intro w ns
                    simp only [finish, Acc.unused, Acc.push, Acc.commit, if_true]
                    rw [trimmed_id]
                    intro z hz
                    simp at hz
                  rw [hf, h7]
                  rcases hr with hr | hr
                  · have := Unclosed.note h4.commit.1 h5 hr
                    simpa using this
                  · have := Unclosed.noteInner h4.commit.1 h5 hr
                    simpa using this
          · cases h
          · cases h

theorem parse_keeps {r : Bool} {env : Env} {subs : Substitutions} {lines : List Line} {o : Out} (h : parse env subs lines = .ok o) (hst : ∀ l, env.stops l = false)
    (hcell : env.tableCell = false) (hs : SubsOk r subs) (hl : ∀ l ∈ lines, KeptLine r l) : o.lines = [] ∧ Reads o.nodes (sourceOf lines) := by
  have := go_keeps r env hst hcell _ _ _ _ _ _ _ _ [] o h hs ⟨[], .nil, rfl⟩ ⟨rfl, .of_full hl⟩
  rcases this with ⟨h0, -⟩ | ⟨h1, h2⟩
  · exact absurd rfl h0
  · exact ⟨h1, by simpa [leftSrc] using h2⟩

end Verif.Inlines
