import Verif.Model.Inlines
/-! Lemmas about the inline parser: how many steps it takes. -/
namespace Verif.Inlines
open Verif TokenKind

/-- what an action may leave to do: `n` is the number of tokens after the current one -/
def Act.fits (n : Nat) (ls : List Line) : Act → Prop
  | .next _ _ l => l.toks.length ≤ n
  | .brk _ _ ls' => cost ls' ≤ 2 * n + 2 + cost ls
  | .nest _ _ _ _ _ _ ls' => cost ls' ≤ 2 * n + 2 + cost ls
  | .sub _ il _ _ l => l.toks.length ≤ n ∧ ∀ x, il = some x → x.toks.length + 1 ≤ n
  | .link _ _ il _ _ l => l.toks.length ≤ n ∧ il.toks.length + 1 ≤ n
  | .note _ _ _ ls' => cost ls' ≤ 2 * n + 2 + cost ls
  | .panic => True
  | .unsupported => True

theorem cost_restore (l : Line) (ls : List Line) : cost (restore l ls) ≤ 2 * l.toks.length + 2 + cost ls := by
  unfold restore
  split
  · omega
  · simp [cost, Line.cost]

theorem restore_drop (l : Line) (k : Nat) (ls : List Line) :
    cost (restore (l.drop k) ls) ≤ 2 * l.toks.length + 2 + cost ls := by
  have := cost_restore (l.drop k) ls
  simp only [Line.drop, List.length_drop] at this ⊢
  omega

theorem attrsCase_fits {subs acc t line ls a} (h : attrsCase subs acc t line = some a) : a.fits line.toks.length ls := by
  unfold attrsCase at h
  split at h
  · split at h
    · cases h; trivial
    · cases h; simp [Act.fits]
  · cases h

theorem emdash_fits {env acc pend t line ls} : (emdash env acc pend t line).fits line.toks.length ls := by
  unfold emdash
  dsimp only
  split
  · exact Nat.le_refl _
  · split
    · exact Nat.le_refl _
    · split
      · split
        · rename_i h; simp [Act.fits]
        · rename_i h
          split
          · trivial
          · simp [Act.fits, h]
      · exact Nat.le_refl _

theorem replaceCase_fits {env subs acc pend t line ls a} (h : replaceCase env subs acc pend t line ls = some a) :
    a.fits line.toks.length ls := by
  unfold replaceCase at h
  dsimp only at h
  repeat' split at h
  all_goals first
    | cases h; first | exact emdash_fits | trivial | (simp [Act.fits, Line.drop]; done)
    | cases h

theorem length_dropWhile_le {α} (p : α → Bool) (l : List α) : (l.dropWhile p).length ≤ l.length :=
  (List.dropWhile_suffix p).length_le

theorem unquoteToks_length (l : List Tok) : (unquoteToks l).length ≤ l.length := by
  unfold unquoteToks
  split
  · simp; omega
  · exact Nat.le_refl _

theorem isKind_lt {k : TokenKind} {l : List Tok} {n : Nat} (h : isKind k l[n]? = true) : n < l.length := by
  false_or_by_contra
  rename_i hn
  rw [List.getElem?_eq_none (by omega)] at h
  cases h

theorem linkAct_fits {acc pend target line ls} {m : Nat} (hm : line.toks.length ≤ m) :
    (linkAct acc pend target line).fits m ls := by
  unfold linkAct
  split
  · trivial
  · split
    · refine ⟨?_, nofun⟩
      simp only [Line.drop, List.length_drop]; omega
    · dsimp only
      split
      · trivial
      · split
        · rename_i n _ _ _ hb
          have h0 := isKind_lt hb
          have h1 := unquoteToks_length ((line.toks.take n).filter (·.kind ≠ AttrRef))
          have h2 := List.length_filter_le (fun t : Tok => decide (t.kind ≠ AttrRef)) (line.toks.take n)
          have h3 := List.length_take_le n line.toks
          refine ⟨?_, ?_⟩
          · simp only [Line.drop, List.length_drop]; omega
          · simp only [Line.new]; omega
        · trivial

theorem inBrackets_length (l : Line) : l.inBrackets.toks.length ≤ l.toks.length := by
  have := length_dropWhile_le (fun t : Tok => decide (t.kind ≠ OpenBracket)) l.toks
  simp only [Line.inBrackets, List.length_drop]; omega

theorem uriMacroAct_fits {acc pend t line ls} : (uriMacroAct acc pend t line).fits line.toks.length ls := by
  unfold uriMacroAct
  split
  · exact linkAct_fits (inBrackets_length line)
  · trivial

theorem macroAct_fits {acc pend t line ls} : (macroAct acc pend t line ls).fits line.toks.length ls := by
  have h1 := cost_restore line.inBrackets ls
  have h2 := inBrackets_length line
  have h3 : ∀ w, (Act.note w acc pend (restore line.inBrackets ls)).fits line.toks.length ls := by
    intro w; simp only [Act.fits]; omega
  unfold macroAct
  split
  · exact h3 _
  · split
    · exact h3 _
    · split
      · split
        · split
          · trivial
          · exact linkAct_fits h2
        · split
          · simp [Act.fits, Line.drop]
          · trivial
      · trivial

theorem macroCase_fits {subs acc pend t line ls a} (h : macroCase subs acc pend t line ls = some a) :
    a.fits line.toks.length ls := by
  unfold macroCase at h
  dsimp only at h
  repeat' split at h
  all_goals first
    | cases h; first | exact macroAct_fits | exact uriMacroAct_fits | trivial | (simp [Act.fits, Line.drop]; done)
    | cases h

theorem attrRefCase_fits {env subs acc pend t line ls a} (h : attrRefCase env subs acc pend t line = some a) :
    a.fits line.toks.length ls := by
  unfold attrRefCase at h
  repeat' split at h
  all_goals first
    | cases h; first | trivial | exact length_dropWhile_le _ _ | exact Nat.le_refl _
    | cases h

theorem calloutCase_fits {env subs acc pend t line ls a} (h : calloutCase env subs acc pend t line = some a) :
    a.fits line.toks.length ls := by
  unfold calloutCase at h
  dsimp only at h
  repeat' split at h
  all_goals first
    | cases h; first | exact Nat.le_refl _ | (simp [Act.fits, Line.drop]; done)
    | cases h

theorem xrefAct_fits {acc pend line ls} : (xrefAct acc pend line).fits line.toks.length ls := by
  unfold xrefAct
  split
  · trivial
  · dsimp only
    split
    · trivial
    · split
      · simp [Act.fits, Line.drop]
      · split
        · simp [Act.fits, Line.drop]
        · rename_i n _ _ _ _ t more hd _
          refine ⟨by simp [Line.drop], ?_⟩
          intro x hx; cases hx
          have h1 := length_dropWhile_le (fun t : Tok => t.kind = Whitespace) more
          have h2 := length_dropWhile_le (fun t : Tok => t.kind ≠ Comma) ((line.toks.drop 1).take n)
          rw [hd] at h2
          simp only [List.length_cons, List.length_take, List.length_drop] at h1 h2 ⊢
          omega

theorem angleAct_fits {subs acc pend t line ls} : (angleAct subs acc pend t line).fits line.toks.length ls := by
  unfold angleAct
  split
  · trivial
  · rename_i u ts he
    split
    · trivial
    · dsimp only
      split
      · simp only [Act.fits, he, List.length_drop, List.length_cons]; omega
      · split
        · simp only [Act.fits, he, List.length_drop, List.length_cons]; omega
        · trivial

theorem linkCase_fits {subs acc pend t line ls a} (h : linkCase subs acc pend t line = some a) :
    a.fits line.toks.length ls := by
  unfold linkCase at h
  dsimp only at h
  repeat' split at h
  all_goals first
    | cases h; first | exact xrefAct_fits | exact angleAct_fits | trivial | exact Nat.le_refl _
    | cases h

theorem nestAct_fits {acc w stop ctx subs pend line ls} :
    (nestAct acc w stop ctx subs pend line ls).fits line.toks.length ls := restore_drop _ _ _

theorem emphasisCase_fits {subs ctx acc pend t line ls a} (h : emphasisCase subs ctx acc pend t line ls = some a) :
    a.fits line.toks.length ls := by
  unfold emphasisCase at h
  dsimp only at h
  repeat' split at h
  all_goals first
    | cases h; exact nestAct_fits
    | cases h

theorem anchorAct_fits {acc pend line ls} : (anchorAct acc pend line).fits line.toks.length ls := by
  unfold anchorAct
  dsimp only
  split
  · trivial
  · split
    · trivial
    · rename_i t more hd
      have h2 := length_dropWhile_le (fun t : Tok => !(decide (t.kind = Comma) || decide (t.kind = CloseBracket))) (line.toks.drop 1)
      rw [hd] at h2
      simp only [List.length_cons, List.length_drop] at h2
      split
      · simp [Act.fits]; omega
      · have hl : (discardLeading more).length = more.length := by
          unfold discardLeading
          split
          · split <;> simp
          · rfl
        generalize discardLeading more = more' at hl
        split
        · rename_i b c rest hd2
          have h3 := length_dropWhile_le (fun t : Tok => decide (t.kind ≠ CloseBracket)) more'
          rw [hd2] at h3
          simp only [List.length_cons] at h3
          split
          · trivial
          · split
            · refine ⟨?_, ?_⟩
              · show rest.length ≤ _
                omega
              · intro x hx; cases hx
            · refine ⟨?_, ?_⟩
              · show rest.length ≤ _
                omega
              · intro x hx; cases hx
                have h4 := (List.takeWhile_prefix (l := more') (fun t : Tok => decide (t.kind ≠ CloseBracket))).length_le
                simp only [Line.new] at *
                omega
        · trivial

theorem anchorCase_fits {acc pend t line ls a} (h : anchorCase acc pend t line = some a) :
    a.fits line.toks.length ls := by
  unfold anchorCase at h
  repeat' split at h
  all_goals first
    | cases h; first | exact anchorAct_fits | exact Nat.le_refl _
    | cases h

theorem monoCase_fits {subs ctx acc pend t line ls a} (h : monoCase subs ctx acc pend t line ls = some a) :
    a.fits line.toks.length ls := by
  unfold monoCase at h
  dsimp only at h
  repeat' split at h
  all_goals first
    | cases h; exact nestAct_fits
    | cases h

theorem pushSimple_fits {acc pend l line ls} : (pushSimple acc pend l line ls).fits line.toks.length ls := by
  exact restore_drop _ _ _

theorem curlyCase_fits {subs stop acc pend t line ls a} (h : curlyCase subs stop acc pend t line ls = some a) :
    a.fits line.toks.length ls := by
  unfold curlyCase at h
  dsimp only at h
  repeat' split at h
  all_goals first
    | cases h; exact pushSimple_fits
    | cases h

theorem hashCase_fits {subs ctx acc pend t line ls a} (h : hashCase subs ctx acc pend t line ls = some a) :
    a.fits line.toks.length ls := by
  unfold hashCase at h
  dsimp only at h
  repeat' split at h
  all_goals first
    | cases h; exact nestAct_fits
    | cases h

theorem charCase_fits {subs acc pend t line ls a} (h : charCase subs acc pend t line = some a) :
    a.fits line.toks.length ls := by
  unfold charCase at h
  dsimp only at h
  repeat' split at h
  all_goals first
    | cases h; exact Nat.le_refl _
    | cases h

theorem breakCase_fits {acc pend t line ls a} (h : breakCase acc pend t line ls = some a) :
    a.fits line.toks.length ls := by
  unfold breakCase at h
  repeat' split at h
  · cases h; simp only [Act.fits]; omega
  · rename_i hd
    cases h
    have := congrArg List.length hd
    simp only [List.length_drop, List.length_cons] at this
    simp only [Act.fits]; omega
  all_goals first
    | cases h; exact Nat.le_refl _
    | cases h

theorem backslashAct_fits {subs acc pend t line ls} : (backslashAct subs acc pend t line ls).fits line.toks.length ls := by
  unfold backslashAct
  split
  · exact Nat.le_refl _
  · split
    · exact Nat.le_refl _
    · split
      · trivial
      · dsimp only
        split
        · trivial
        · rename_i u rest hd
          have h2 := length_dropWhile_le (fun t : Tok => decide (t.kind = Backslash)) line.toks
          rw [hd] at h2
          simp only [List.length_cons] at h2
          split <;> simp only [Act.fits, List.length_cons] <;> omega

theorem lastCase_fits {subs ctx acc pend t line ls} : (lastCase subs ctx acc pend t line ls).fits line.toks.length ls := by
  unfold lastCase
  split
  · exact backslashAct_fits
  · split
    · unfold urlAct
      dsimp only
      repeat' split
      all_goals first
        | trivial
        | simp [Act.fits, Line.drop]
    · split <;> exact Nat.le_refl _

/-- a property of the cases of `act` is one of `act` -/
theorem act_of_cases (P : Act → Prop) {env subs stop ctx acc pend t line ls}
    (h1 : ∀ a, attrsCase subs acc t line = some a → P a)
    (h2 : ∀ a, replaceCase env subs acc pend t line ls = some a → P a)
    (h3 : ∀ a, macroCase subs acc pend t line ls = some a → P a)
    (h4 : ∀ a, attrRefCase env subs acc pend t line = some a → P a)
    (h5 : ∀ a, calloutCase env subs acc pend t line = some a → P a)
    (h6 : ∀ a, linkCase subs acc pend t line = some a → P a)
    (h7 : ∀ a, emphasisCase subs ctx acc pend t line ls = some a → P a)
    (h8 : ∀ a, anchorCase acc pend t line = some a → P a)
    (h9 : ∀ a, monoCase subs ctx acc pend t line ls = some a → P a)
    (h10 : ∀ a, curlyCase subs stop acc pend t line ls = some a → P a)
    (h11 : ∀ a, hashCase subs ctx acc pend t line ls = some a → P a)
    (h12 : ∀ a, charCase subs acc pend t line = some a → P a)
    (h13 : ∀ a, breakCase acc pend t line ls = some a → P a)
    (h14 : breakCase acc pend t line ls = none → P (lastCase subs ctx acc pend t line ls)) : P (act env subs stop ctx acc pend t line ls) := by
  unfold act
  split
  · exact h1 _ ‹_›
  split
  · exact h2 _ ‹_›
  split
  · exact h3 _ ‹_›
  split
  · exact h4 _ ‹_›
  split
  · exact h5 _ ‹_›
  split
  · exact h6 _ ‹_›
  split
  · exact h7 _ ‹_›
  split
  · exact h8 _ ‹_›
  split
  · exact h9 _ ‹_›
  split
  · exact h10 _ ‹_›
  split
  · exact h11 _ ‹_›
  split
  · exact h12 _ ‹_›
  split
  · exact h13 _ ‹_›
  exact h14 ‹_›

theorem act_fits {env subs stop ctx acc pend t line ls} :
    (act env subs stop ctx acc pend t line ls).fits line.toks.length ls :=
  act_of_cases _ (fun _ => attrsCase_fits) (fun _ => replaceCase_fits) (fun _ => macroCase_fits) (fun _ => attrRefCase_fits)
    (fun _ => calloutCase_fits) (fun _ => linkCase_fits) (fun _ => emphasisCase_fits) (fun _ => anchorCase_fits)
    (fun _ => monoCase_fits) (fun _ => curlyCase_fits) (fun _ => hashCase_fits) (fun _ => charCase_fits)
    (fun _ => breakCase_fits) (fun _ => lastCase_fits)

/-- the steps that the line in the inner loop takes -/
def curCost : Option Line → Nat
  | none => 0
  | some l => 2 * l.toks.length + 1

theorem go_cost (env : Env) : ∀ (n : Nat) (subs : Substitutions) (stop : List TSpec) (acc : Acc) (pend : Option Pend)
    (ctx : Ctx) (cur : Option Line) (ls : List Line), curCost cur + cost ls < n →
    go env n subs stop acc pend ctx cur ls ≠ .error .diverged ∧
      ∀ o, go env n subs stop acc pend ctx cur ls = .ok o → cost o.lines ≤ curCost cur + cost ls := by
  intro n
  induction n with
  | zero => intro subs stop acc pend ctx cur ls h; omega
  | succ n ih =>
    intro subs stop acc pend ctx cur ls h
    match cur, ls, h with
    | none, [], h =>
      refine ⟨by simp [go], ?_⟩
      intro o ho
      simp only [go, Except.ok.injEq] at ho
      subst ho; simp [cost]
    | none, l :: ls, h =>
      have hl : cost (l :: ls) = 2 * l.toks.length + 2 + cost ls := by simp [cost, Line.cost]
      simp only [curCost] at h
      simp only [go]
      split
      · refine ⟨by simp, ?_⟩
        intro o ho
        simp only [Except.ok.injEq] at ho
        subst ho
        have := cost_restore l ls
        simp only [curCost]; omega
      · split
        · have := ih subs stop (commentLine acc l ls) pend ctx none ls (by simp only [curCost]; omega)
          refine ⟨this.1, fun o ho => ?_⟩
          have := this.2 o ho
          simp only [curCost] at *; omega
        · have := ih subs stop acc pend ctx (some l) ls (by simp only [curCost]; omega)
          refine ⟨this.1, fun o ho => ?_⟩
          have := this.2 o ho
          simp only [curCost] at *; omega
    | some l, ls, h =>
      simp only [curCost] at h
      simp only [go]
      split
      · refine ⟨by simp, ?_⟩
        intro o ho
        simp only [Except.ok.injEq] at ho
        subst ho
        have hs : stop.length ≤ l.toks.length ∧ 0 < stop.length := by
          rename_i hseq
          simp only [startsSeq, Bool.and_eq_true, Bool.not_eq_true', List.isEmpty_eq_false_iff] at hseq
          refine ⟨?_, List.length_pos_iff.2 hseq.1⟩
          have : ∀ (ss : List TSpec) (ts : List Tok), matchSeq ss ts = true → ss.length ≤ ts.length := by
            intro ss
            induction ss with
            | nil => intro ts _; exact Nat.zero_le _
            | cons s ss ih =>
              intro ts h
              cases ts with
              | nil => simp [matchSeq] at h
              | cons t ts =>
                simp only [matchSeq, Bool.and_eq_true] at h
                have := ih ts h.2
                simp only [List.length_cons]; omega
          exact this _ _ hseq.2
        have := cost_restore (l.drop stop.length) ls
        simp only [Line.drop, List.length_drop] at this
        simp only [curCost, Line.drop]
        omega
      · split
        · have := ih subs stop (joinNewline acc ls) pend ctx none ls (by simp only [curCost]; omega)
          refine ⟨this.1, fun o ho => ?_⟩
          have := this.2 o ho
          simp only [curCost] at *; omega
        · rename_i t ts hts
          have hlen : l.toks.length = ts.length + 1 := by rw [hts]; rfl
          have hf := @act_fits env subs stop ctx acc pend t ⟨ts, l.orig⟩ ls
          generalize act env subs stop ctx acc pend t ⟨ts, l.orig⟩ ls = a at hf
          match a, hf with
          | .next acc' pend' l', hf =>
            simp only [Act.fits] at hf
            have := ih subs stop acc' pend' ctx (some l') ls (by simp only [curCost]; omega)
            refine ⟨this.1, fun o ho => ?_⟩
            have := this.2 o ho
            simp only [curCost] at *; omega
          | .brk acc' pend' ls', hf =>
            simp only [Act.fits] at hf
            have := ih subs stop acc' pend' ctx none ls' (by simp only [curCost]; omega)
            refine ⟨this.1, fun o ho => ?_⟩
            have := this.2 o ho
            simp only [curCost] at *; omega
          | .nest w stop' ctx' subs' acc' pend' ls', hf =>
            simp only [Act.fits] at hf
            have h1 := ih subs' stop' ⟨[], []⟩ none ctx' none ls' (by simp only [curCost]; omega)
            simp only
            generalize go env n subs' stop' ⟨[], []⟩ none ctx' none ls' = r at h1
            cases r with
            | error e =>
              refine ⟨?_, fun o ho => by simp at ho⟩
              intro he
              simp only [Except.error.injEq] at he
              exact h1.1 (by rw [he])
            | ok o1 =>
              have hc := h1.2 o1 rfl
              simp only [curCost] at hc
              have := ih subs stop (newlineIfNeeded (acc'.push (.wrap w o1.nodes)) o1.lines) pend' .none none o1.lines
                (by simp only [curCost]; omega)
              refine ⟨this.1, fun o ho => ?_⟩
              have := this.2 o ho
              simp only [curCost] at *; omega
          | .sub w none acc' pend' l', hf =>
            have hf := hf.1
            have := ih subs stop (acc'.push (.wrap w [])) pend' ctx (some l') ls (by simp only [curCost]; simp only at hf; omega)
            refine ⟨this.1, fun o ho => ?_⟩
            have := this.2 o ho
            simp only [curCost] at *; omega
          | .sub w (some il) acc' pend' l', hf =>
            have hi := hf.2 il rfl
            have hf := hf.1
            simp only at hi hf
            have h1 := ih subs [] ⟨[], []⟩ none ctx none [il] (by simp only [curCost, cost, Line.cost, List.map_cons, List.map_nil, List.sum_cons, List.sum_nil]; omega)
            simp only
            generalize go env n subs [] ⟨[], []⟩ none ctx none [il] = r at h1
            cases r with
            | error e =>
              refine ⟨?_, fun o ho => by simp at ho⟩
              intro he
              simp only [Except.error.injEq] at he
              exact h1.1 (by rw [he])
            | ok o1 =>
              have := ih subs stop (acc'.push (.wrap w o1.nodes)) pend' o1.ctx (some l') ls (by simp only [curCost]; omega)
              refine ⟨this.1, fun o ho => ?_⟩
              have := this.2 o ho
              simp only [curCost] at *; omega
          | .link target caret il acc' pend' l', hf =>
            have hi := hf.2
            have hf := hf.1
            simp only at hi hf
            have h1 := ih subs [] ⟨[], []⟩ none .linkMacroAttrs none [il] (by simp only [curCost, cost, Line.cost, List.map_cons, List.map_nil, List.sum_cons, List.sum_nil]; omega)
            simp only
            generalize go env n subs [] ⟨[], []⟩ none .linkMacroAttrs none [il] = r at h1
            cases r with
            | error e =>
              refine ⟨?_, fun o ho => by simp at ho⟩
              intro he
              simp only [Except.error.injEq] at he
              exact h1.1 (by rw [he])
            | ok o1 =>
              have := ih subs stop (acc'.push (linkNode target caret o1.nodes)) pend' .none (some l') ls (by simp only [curCost]; omega)
              refine ⟨this.1, fun o ho => ?_⟩
              have := this.2 o ho
              simp only [curCost] at *; omega
          | .note w acc' pend' ls', hf =>
            simp only [Act.fits] at hf
            have h1 := ih subs [.kind CloseBracket] ⟨[], []⟩ none ctx none ls' (by simp only [curCost]; omega)
            simp only
            generalize go env n subs [.kind CloseBracket] ⟨[], []⟩ none ctx none ls' = r at h1
            cases r with
            | error e =>
              refine ⟨?_, fun o ho => by simp at ho⟩
              intro he
              simp only [Except.error.injEq] at he
              exact h1.1 (by rw [he])
            | ok o1 =>
              have hc := h1.2 o1 rfl
              simp only [curCost] at hc
              have := ih subs stop (acc'.push (.wrap w o1.nodes)) pend' o1.ctx none o1.lines
                (by simp only [curCost]; omega)
              refine ⟨this.1, fun o ho => ?_⟩
              have := this.2 o ho
              simp only [curCost] at *; omega
          | .panic, _ => exact ⟨by simp, by simp⟩
          | .unsupported, _ => exact ⟨by simp, by simp⟩

end Verif.Inlines
