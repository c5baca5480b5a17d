import Verif.Lemmas.Brackets
import Verif.Model.IndexTerms
import Verif.Spec.IndexTerms
/-! Lemmas: index terms. -/
namespace Verif.Inlines
open Verif TokenKind

theorem parseTerms_congr {f g : Ctx → Line → Except Fail Out} :
    ∀ {ts : List (List Tok)} {ctx : Ctx} {r}, r ≠ .error .diverged → (∀ c l s, s ≠ .error .diverged → f c l = s → g c l = s) →
      parseTerms f ctx ts = r → parseTerms g ctx ts = r
  | [], _, _, _, _, h => h
  | t :: ts, ctx, r, hr, hfg, h => by
    rw [parseTerms] at h ⊢
    cases hf : f ctx (Line.new t) with
    | error e =>
      rw [hf] at h
      rw [hfg _ _ _ (by intro he; cases he; exact hr h.symm) hf]
      exact h
    | ok o =>
      rw [hf] at h
      rw [hfg _ _ _ (by simp) hf]
      dsimp only at h ⊢
      cases hp : parseTerms f o.ctx ts with
      | error e =>
        rw [hp] at h
        rw [parseTerms_congr (by intro he; cases he; exact hr h.symm) hfg hp]
        exact h
      | ok q =>
        rw [hp] at h
        rw [parseTerms_congr (by simp) hfg hp]
        exact h

theorem goX_succ (env : Env) : ∀ (n : Nat) (subs stop acc pend ctx cur ls r), r ≠ .error .diverged →
    goX env n subs stop acc pend ctx cur ls = r → goX env (n + 1) subs stop acc pend ctx cur ls = r := by
  intro n
  induction n with
  | zero => intro subs stop acc pend ctx cur ls r hr h; rw [goX] at h; exact absurd h.symm hr
  | succ n ih =>
    intro subs stop acc pend ctx cur ls r hr h
    match cur, ls with
    | none, [] => simpa [goX] using h
    | none, l :: ls =>
      rw [goX] at h ⊢
      split
      · rwa [if_pos ‹_›] at h
      · rw [if_neg ‹_›] at h
        split
        · rw [if_pos ‹_›] at h; exact ih _ _ _ _ _ _ _ _ hr h
        · rw [if_neg ‹_›] at h; exact ih _ _ _ _ _ _ _ _ hr h
    | some l, ls =>
      rw [goX] at h ⊢
      split
      · rwa [if_pos ‹_›] at h
      · rw [if_neg ‹_›] at h
        cases hl : l.toks with
        | nil => rw [hl] at h; exact ih _ _ _ _ _ _ _ _ hr h
        | cons t ts =>
          rw [hl] at h
          dsimp only at h ⊢
          have sub : ∀ {subs stop ctx ls} {k : Out → Except Fail Out} {k' : Out → Except Fail Out},
              (∀ o, k o = r → k' o = r) →
              (match goX env n subs stop ⟨[], []⟩ none ctx none ls with | .error e => .error e | .ok o => k o) = r →
              (match goX env (n + 1) subs stop ⟨[], []⟩ none ctx none ls with | .error e => .error e | .ok o => k' o) = r := by
            intro subs stop ctx ls k k' hk h
            cases hg : goX env n subs stop ⟨[], []⟩ none ctx none ls with
            | error e =>
              rw [hg] at h
              rw [ih _ _ _ _ _ _ _ _ (by intro he; cases he; exact hr h.symm) hg]
              exact h
            | ok o =>
              rw [hg] at h
              rw [ih _ _ _ _ _ _ _ _ (by simp) hg]
              exact hk o h
          generalize act env subs stop ctx acc pend t ⟨ts, l.orig⟩ ls = a at h ⊢
          cases a with
          | next => exact ih _ _ _ _ _ _ _ _ hr h
          | brk => exact ih _ _ _ _ _ _ _ _ hr h
          | panic => exact h
          | nest w stop' ctx' subs' acc' pend' ls' => exact sub (fun o h => ih _ _ _ _ _ _ _ _ hr h) h
          | link target caret il acc' pend' l' => exact sub (fun o h => ih _ _ _ _ _ _ _ _ hr h) h
          | note w acc' pend' ls' => exact sub (fun o h => ih _ _ _ _ _ _ _ _ hr h) h
          | sub w inner acc' pend' l' =>
            cases inner with
            | none => exact ih _ _ _ _ _ _ _ _ hr h
            | some il => exact sub (fun o h => ih _ _ _ _ _ _ _ _ hr h) h
          | unsupported =>
            dsimp only at h ⊢
            generalize indexTerm subs acc t ⟨ts, l.orig⟩ ls = ix at h ⊢
            cases ix with
            | none => exact h
            | some e =>
              obtain ⟨acc', e⟩ := e
              cases e with
              | panic => exact h
              | visible len lead ls' =>
                refine sub (fun o h => ?_) h
                cases hv : visibleNodes len o.nodes with
                | none => rw [hv] at h; exact h
                | some ns => rw [hv] at h; exact ih _ _ _ _ _ _ _ _ hr h
              | concealed len ls' =>
                dsimp only at h ⊢
                cases hc : concealed len ls' with
                | none => rw [hc] at h; exact h
                | some q =>
                  obtain ⟨terms, ls''⟩ := q
                  rw [hc] at h
                  dsimp only at h ⊢
                  cases hp : parseTerms (fun ctx l => goX env n subs [] ⟨[], []⟩ none ctx none [l]) ctx terms with
                  | error e =>
                    rw [hp] at h
                    rw [parseTerms_congr (by intro he; cases he; exact hr h.symm) (fun c l s hs hc => ih _ _ _ _ _ _ _ _ hs hc) hp]
                    exact h
                  | ok q =>
                    rw [hp] at h
                    rw [parseTerms_congr (by simp) (fun c l s hs hc => ih _ _ _ _ _ _ _ _ hs hc) hp]
                    exact ih _ _ _ _ _ _ _ _ hr h

theorem goX_mono {env : Env} {n m : Nat} (hm : n ≤ m) {subs stop acc pend ctx cur ls r} (hr : r ≠ .error .diverged)
    (h : goX env n subs stop acc pend ctx cur ls = r) : goX env m subs stop acc pend ctx cur ls = r := by
  induction hm with
  | refl => exact h
  | step _ ih => exact goX_succ _ _ _ _ _ _ _ _ _ _ hr ih

/-- where the loop without index terms comes to a result, this one comes to the same -/
theorem goX_extends (env : Env) : ∀ (n : Nat) (subs stop acc pend ctx cur ls r), r ≠ .error .unsupported →
    go env n subs stop acc pend ctx cur ls = r → goX env n subs stop acc pend ctx cur ls = r := by
  intro n
  induction n with
  | zero => intro subs stop acc pend ctx cur ls r _ h; rw [go] at h; rw [goX]; exact h
  | succ n ih =>
    intro subs stop acc pend ctx cur ls r hr h
    match cur, ls with
    | none, [] => simpa [goX, go] using h
    | none, l :: ls =>
      rw [go] at h
      rw [goX]
      split
      · rwa [if_pos ‹_›] at h
      · rw [if_neg ‹_›] at h
        split
        · rw [if_pos ‹_›] at h; exact ih _ _ _ _ _ _ _ _ hr h
        · rw [if_neg ‹_›] at h; exact ih _ _ _ _ _ _ _ _ hr h
    | some l, ls =>
      rw [go] at h
      rw [goX]
      split
      · rwa [if_pos ‹_›] at h
      · rw [if_neg ‹_›] at h
        cases hl : l.toks with
        | nil => rw [hl] at h; exact ih _ _ _ _ _ _ _ _ hr h
        | cons t ts =>
          rw [hl] at h
          dsimp only at h ⊢
          have sub : ∀ {subs stop ctx ls} {k : Out → Except Fail Out} {k' : Out → Except Fail Out},
              (∀ o, k o = r → k' o = r) →
              (match go env n subs stop ⟨[], []⟩ none ctx none ls with | .error e => .error e | .ok o => k o) = r →
              (match goX env n subs stop ⟨[], []⟩ none ctx none ls with | .error e => .error e | .ok o => k' o) = r := by
            intro subs stop ctx ls k k' hk h
            cases hg : go env n subs stop ⟨[], []⟩ none ctx none ls with
            | error e =>
              rw [hg] at h
              rw [ih _ _ _ _ _ _ _ _ (by intro he; cases he; exact hr h.symm) hg]
              exact h
            | ok o =>
              rw [hg] at h
              rw [ih _ _ _ _ _ _ _ _ (by simp) hg]
              exact hk o h
          generalize act env subs stop ctx acc pend t ⟨ts, l.orig⟩ ls = a at h ⊢
          cases a with
          | next => exact ih _ _ _ _ _ _ _ _ hr h
          | brk => exact ih _ _ _ _ _ _ _ _ hr h
          | panic => exact h
          | nest w stop' ctx' subs' acc' pend' ls' => exact sub (fun o h => ih _ _ _ _ _ _ _ _ hr h) h
          | link target caret il acc' pend' l' => exact sub (fun o h => ih _ _ _ _ _ _ _ _ hr h) h
          | note w acc' pend' ls' => exact sub (fun o h => ih _ _ _ _ _ _ _ _ hr h) h
          | sub w inner acc' pend' l' =>
            cases inner with
            | none => exact ih _ _ _ _ _ _ _ _ hr h
            | some il => exact sub (fun o h => ih _ _ _ _ _ _ _ _ hr h) h
          | unsupported => exact absurd h.symm hr

/-- with enough steps the loop with index terms comes to `o` -/
def RunX (env : Env) (subs : Substitutions) (stop : List TSpec) (acc : Acc) (pend : Option Pend) (ctx : Ctx)
    (cur : Option Line) (ls : List Line) (o : Out) : Prop := ∃ n, goX env n subs stop acc pend ctx cur ls = .ok o

theorem RunX.enter {env subs stop acc pend ctx l ls o} (hs : env.stops l = false) (hc : isComment l = false)
    (h : RunX env subs stop acc pend ctx (some l) ls o) : RunX env subs stop acc pend ctx none (l :: ls) o := by
  obtain ⟨n, h⟩ := h
  refine ⟨n + 1, ?_⟩
  rw [goX, if_neg (by simp [hs]), if_neg (by simp [hc])]
  exact h

theorem RunX.finished {env subs stop acc pend ctx} : RunX env subs stop acc pend ctx none [] ⟨finish acc pend, ctx, []⟩ :=
  ⟨1, rfl⟩

theorem RunX.lineEnd {env subs acc pend ctx orig ls o}
    (h : RunX env subs [] (joinNewline acc ls) pend ctx none ls o) : RunX env subs [] acc pend ctx (some ⟨[], orig⟩) ls o := by
  obtain ⟨n, h⟩ := h
  refine ⟨n + 1, ?_⟩
  rw [goX, if_neg (by simp [startsSeq])]
  exact h

theorem RunX.tok {env subs stop acc pend ctx t ts orig ls acc' pend' l' o} (hs : startsSeq stop (t :: ts) = false)
    (ha : act env subs stop ctx acc pend t ⟨ts, orig⟩ ls = .next acc' pend' l')
    (h : RunX env subs stop acc' pend' ctx (some l') ls o) : RunX env subs stop acc pend ctx (some ⟨t :: ts, orig⟩) ls o := by
  obtain ⟨n, h⟩ := h
  refine ⟨n + 1, ?_⟩
  rw [goX, if_neg (by simp [hs])]
  dsimp only
  rw [ha]
  exact h

theorem RunX.stop {env subs stop acc pend ctx l ls} (hs : startsSeq stop l.toks = true) :
    RunX env subs stop acc pend ctx (some l) ls ⟨finish acc.commit pend, ctx, restore (l.drop stop.length) ls⟩ :=
  ⟨1, by rw [goX, if_pos hs]⟩

theorem RunX.visible {env subs acc pend ctx t ts orig ls acc' len lead ls' o' ns o}
    (ha : act env subs [] ctx acc pend t ⟨ts, orig⟩ ls = .unsupported)
    (hi : indexTerm subs acc t ⟨ts, orig⟩ ls = some (acc', .visible len lead ls'))
    (h' : RunX env subs [.len (len % 256) CloseParens] ⟨[], []⟩ none ctx none ls' o')
    (hn : visibleNodes len o'.nodes = some ns)
    (h : RunX env subs [] ((acc'.putText lead).push (.wrap .indexTerm ns)) pend o'.ctx none o'.lines o) :
    RunX env subs [] acc pend ctx (some ⟨t :: ts, orig⟩) ls o := by
  obtain ⟨n, h⟩ := h
  obtain ⟨m, h'⟩ := h'
  refine ⟨max n m + 1, ?_⟩
  rw [goX, if_neg (by simp [startsSeq])]
  dsimp only
  rw [ha]
  dsimp only
  rw [hi]
  dsimp only
  rw [goX_mono (Nat.le_max_right n m) (by simp) h']
  dsimp only
  rw [hn]
  exact goX_mono (Nat.le_max_left n m) (by simp) h

theorem RunX.concealed {env subs acc pend ctx t ts orig ls acc' len ls' terms ls'' ns ctx' o}
    (ha : act env subs [] ctx acc pend t ⟨ts, orig⟩ ls = .unsupported)
    (hi : indexTerm subs acc t ⟨ts, orig⟩ ls = some (acc', .concealed len ls'))
    (hc : Inlines.concealed len ls' = some (terms, ls''))
    (h' : ∃ m, parseTerms (fun ctx l => goX env m subs [] ⟨[], []⟩ none ctx none [l]) ctx terms = .ok (ns, ctx'))
    (h : RunX env subs [] (acc'.push (.wrap .concealed ns)) pend ctx' none ls'' o) :
    RunX env subs [] acc pend ctx (some ⟨t :: ts, orig⟩) ls o := by
  obtain ⟨n, h⟩ := h
  obtain ⟨m, h'⟩ := h'
  refine ⟨max n m + 1, ?_⟩
  rw [goX, if_neg (by simp [startsSeq])]
  dsimp only
  rw [ha]
  dsimp only
  rw [hi]
  dsimp only
  rw [hc]
  dsimp only
  rw [parseTerms_congr (by simp) (fun c l s hs hc => goX_mono (Nat.le_max_right n m) hs hc) h']
  exact goX_mono (Nat.le_max_left n m) (by simp) h

theorem runX_plain {env : Env} {subs : Substitutions} {stop : List TSpec} {ctx : Ctx} {ns : List Node} {rest : List Tok} {orig : Nat} {ls : List Line} {o : Out}
    (hstop : ∀ t ts, textKind t.kind = true → startsSeq stop (t :: ts) = false) (hr : isKind Plus rest.head? = false) :
    ∀ {ts : List Tok} {seg : List Char}, (∀ t ∈ ts, isPlainTok t = true) →
      RunX env subs stop ⟨ns, seg ++ textOf ts⟩ none ctx (some ⟨rest, orig⟩) ls o →
      RunX env subs stop ⟨ns, seg⟩ none ctx (some ⟨ts ++ rest, orig⟩) ls o := by
  intro ts
  induction ts with
  | nil => intro seg _ h; simpa [textOf] using h
  | cons t ts ih =>
    intro seg hts h
    obtain ⟨h1, h2, h3⟩ := plainTok_text (hts t (by simp))
    refine RunX.tok (hstop _ _ h1) (act_text h1 h2 h3 ?_) (ih (fun u hu => hts u (by simp [hu])) ?_)
    · cases ts with
      | nil => exact hr
      | cons u us =>
        have := textKind_ne (k' := Plus) (plainTok_text (hts u (by simp))).1 (by decide)
        simp [isKind, this]
    · simpa [textOf] using h

/-! ### the terms of a concealed index term -/

theorem splitLine_body {len : Nat} {c : Tok} {rest : List Tok} (hc : c.kind = CloseParens) (hl : c.len = len % 256) :
    ∀ {body : List Tok} {s : Split}, (∀ t ∈ body, t.kind ≠ CloseParens) →
      splitLine len s (body ++ c :: rest) = (body.foldl Split.step s, some (c :: rest))
  | [], s, _ => by simp [splitLine, hc, hl]
  | t :: ts, s, h => by
    rw [List.cons_append, splitLine, if_neg (by simp [h t (by simp)]), splitLine_body hc hl (fun u hu => h u (by simp [hu]))]
    rfl

theorem step_text {items : List (List Tok)} {q : Bool} : ∀ {ts acc : List Tok}, (∀ t ∈ ts, t.kind ≠ DoubleQuote ∧ (q = false → t.kind ≠ Comma)) →
    ts.foldl Split.step ⟨items, acc, q, false⟩ = ⟨items, acc ++ ts, q, false⟩
  | [], acc, _ => by simp
  | t :: ts, acc, h => by
    have h1 := h t (by simp)
    have : Split.step ⟨items, acc, q, false⟩ t = ⟨items, acc ++ [t], q, false⟩ := by
      cases q <;> simp_all [Split.step]
    rw [List.foldl_cons, this, step_text (fun u hu => h u (by simp [hu]))]
    simp

theorem step_first {items : List (List Tok)} {q b : Bool} {t : Tok} (h1 : t.kind ≠ DoubleQuote) (h2 : q = false → t.kind ≠ Comma) (h3 : t.kind ≠ Whitespace) :
    Split.step ⟨items, [], q, b⟩ t = ⟨items, [t], q, false⟩ := by
  cases q <;> simp_all [Split.step]

theorem phrase_kinds {t : List Tok} (h : Phrase t) {x : Tok} (hx : x ∈ t) : x.kind ≠ DoubleQuote ∧ x.kind ≠ CloseParens ∧ x.kind ≠ Newline :=
  have := (plainTok_text (h.plain x hx)).1
  ⟨textKind_ne this (by decide), textKind_ne this (by decide), textKind_ne this (by decide)⟩

theorem phrase_ne {t : List Tok} (h : Phrase t) : t ≠ [] := by
  rintro rfl
  obtain ⟨_, h, _⟩ := h.first
  cases h

theorem oneTerm_fold {w t : List Tok} (h : OneTerm w t) (items : List (List Tok)) (b : Bool) :
    w.foldl Split.step ⟨items, [], false, b⟩ = ⟨items, t, false, false⟩ := by
  cases h with
  | bare hp hc =>
    obtain ⟨f, hf, hw⟩ := hp.first
    cases w with
    | nil => cases hf
    | cons a as =>
      cases hf
      rw [List.foldl_cons, step_first (phrase_kinds hp (by simp)).1 (fun _ => hc _ (by simp)) hw,
        step_text (fun u hu => ⟨(phrase_kinds hp (by simp [hu])).1, fun _ => hc _ (by simp [hu])⟩)]
      rfl
  | @quoted a t c ha hp hb =>
    have h1 : Split.step ⟨items, [], false, b⟩ a = ⟨items, [], true, false⟩ := by simp [Split.step, ha]
    rw [List.cons_append, List.foldl_cons, h1, List.foldl_append, step_text (fun u hu => ⟨(phrase_kinds hp hu).1, by simp⟩)]
    simp [Split.step, hb]

theorem oneTerm_phrase {w t : List Tok} (h : OneTerm w t) : Phrase t := by cases h <;> assumption

theorem oneTerm_kinds {w t : List Tok} (h : OneTerm w t) : (∀ x ∈ w, x.kind ≠ CloseParens) ∧ w ≠ [] := by
  cases h with
  | bare hp _ => exact ⟨fun x hx => (phrase_kinds hp hx).2.1, phrase_ne hp⟩
  | quoted ha hp hb =>
    refine ⟨?_, by simp⟩
    intro x hx
    simp only [List.cons_append, List.mem_cons, List.mem_append, List.not_mem_nil, or_false] at hx
    rcases hx with rfl | hx | rfl
    · simp [ha]
    · exact (phrase_kinds hp hx).2.1
    · simp [hb]

theorem trimToks_phrase {t before : List Tok} (h : Phrase t) (hb : ∀ x ∈ before, x.kind = Whitespace) : trimToks (t ++ before) = t := by
  obtain ⟨l, c, hl, hk, _⟩ := h.last
  obtain ⟨ini, rfl⟩ := List.getLast?_eq_some_iff.1 hl
  unfold trimToks
  rw [List.reverse_append, List.dropWhile_append]
  have : List.dropWhile (fun x : Tok => decide (x.kind = Whitespace)) before.reverse = [] := by
    have : ∀ {xs : List Tok}, (∀ x ∈ xs, x.kind = Whitespace) → xs.dropWhile (fun x => decide (x.kind = Whitespace)) = [] := by
      intro xs
      induction xs with
      | nil => intro _; rfl
      | cons y ys ih => intro hy; simp [hy y (by simp), ih (fun x hx => hy x (by simp [hx]))]
    exact this fun x hx => hb x (by simpa using hx)
  simp [this, hk]

theorem flush_phrase {items : List (List Tok)} {t before : List Tok} {q b : Bool} (h : Phrase t) (hb : ∀ x ∈ before, x.kind = Whitespace) :
    (Split.mk items (t ++ before) q b).flush = items ++ [t] := by
  simp only [Split.flush, trimToks_phrase h hb, phrase_ne h, if_false]

theorem termList_fold {body : List Tok} {terms : List (List Tok)} (h : TermList body terms) :
    ∀ (items : List (List Tok)) (b : Bool), (body.foldl Split.step ⟨items, [], false, b⟩).flush = items ++ terms := by
  induction h with
  | last h =>
    intro items b
    rw [oneTerm_fold h]
    have := flush_phrase (items := items) (before := []) (q := false) (b := false) (oneTerm_phrase h) (by simp)
    simpa using this
  | @cons w t before comma after ws ts h hb hc ha hl ih =>
    intro items b
    rw [List.append_assoc, List.append_assoc, List.foldl_append, oneTerm_fold h, List.foldl_append, step_text, List.cons_append, List.foldl_cons, List.foldl_append]
    · have h1 : Split.step ⟨items, t ++ before, false, false⟩ comma = ⟨items ++ [t], [], false, true⟩ := by
        rw [← flush_phrase (items := items) (q := false) (b := false) (oneTerm_phrase h) hb]
        simp [Split.step, hc]
      have h2 : ∀ {after : List Tok}, (∀ x ∈ after, x.kind = Whitespace) → after.foldl Split.step ⟨items ++ [t], [], false, true⟩ = ⟨items ++ [t], [], false, true⟩ := by
        intro after
        induction after with
        | nil => intro _; rfl
        | cons x xs ih =>
          intro hx
          have : Split.step ⟨items ++ [t], [], false, true⟩ x = ⟨items ++ [t], [], false, true⟩ := by simp [Split.step, hx x (by simp)]
          rw [List.foldl_cons, this]
          exact ih fun y hy => hx y (by simp [hy])
      rw [h1, h2 ha, ih]
      simp
    · intro u hu
      simp [hb u hu]

theorem termList_kinds {body : List Tok} {terms : List (List Tok)} (h : TermList body terms) :
    (∀ x ∈ body, x.kind ≠ CloseParens) ∧ body ≠ [] ∧ ∀ t ∈ terms, Phrase t := by
  induction h with
  | last h => exact ⟨(oneTerm_kinds h).1, (oneTerm_kinds h).2, by simpa using oneTerm_phrase h⟩
  | cons h hb hc ha _ ih =>
    refine ⟨?_, by simp, ?_⟩
    · intro x hx
      simp only [List.mem_append, List.mem_cons] at hx
      rcases hx with ((hx | hx) | rfl | hx) | hx
      · exact (oneTerm_kinds h).1 x hx
      · simp [hb x hx]
      · simp [hc]
      · simp [ha x hx]
      · exact ih.1 x hx
    · intro t ht
      rcases List.mem_cons.1 ht with rfl | ht
      · exact oneTerm_phrase h
      · exact ih.2.2 t ht

/-! ### one index term -/

theorem act_open {env subs stop ctx acc pend t line ls} (hm : subs.contains .macros = true) (hk : t.kind = OpenParens) (hl : 2 ≤ t.len)
    (he : endsIndexTerm line ls = true) : act env subs stop ctx acc pend t line ls = .unsupported := by
  simp [act, attrsCase, replaceCase, hk, hm, hl, he, show t.len ≠ 1 by omega]

theorem find_close {inner : List Tok} {c : Tok} {rest : List Tok} (hi : ∀ x ∈ inner, x.kind ≠ CloseParens) (hc : c.kind = CloseParens) :
    (inner ++ c :: rest).find? (fun x => decide (x.kind = CloseParens)) = some c := by
  rw [List.find?_append, List.find?_eq_none.2 (by simpa using hi)]
  simp [hc]

theorem head_close {inner more : List Tok} (hi : ∀ x ∈ inner, x.kind ≠ CloseParens) (h0 : inner ≠ []) :
    isKind CloseParens (inner ++ more).head? = false := by
  cases inner with
  | nil => exact absurd rfl h0
  | cons a as => simp [isKind, hi a (by simp)]

theorem ends_close {inner : List Tok} {c : Tok} {rest : List Tok} {orig : Nat} {ls : List Line} (hi : ∀ x ∈ inner, x.kind ≠ CloseParens) (h0 : inner ≠ [])
    (hc : c.kind = CloseParens) (hl : 2 ≤ c.len) : endsIndexTerm ⟨inner ++ c :: rest, orig⟩ ls = true := by
  simp only [endsIndexTerm, head_close hi h0, find_close hi hc]
  simp [hl]

theorem termEnd_close {inner : List Tok} {c : Tok} {rest : List Tok} {orig : Nat} {ls : List Line} (hi : ∀ x ∈ inner, x.kind ≠ CloseParens) (h0 : inner ≠ [])
    (hc : c.kind = CloseParens) (hl : 2 ≤ c.len) : termEnd ⟨inner ++ c :: rest, orig⟩ ls = some c.len := by
  simp only [termEnd, head_close hi h0, closing, find_close hi hc]
  simp [show ¬ c.len < 2 by omega]

theorem restore_ne {toks : List Tok} {orig : Nat} {ls : List Line} (h : toks ≠ []) : restore ⟨toks, orig⟩ ls = ⟨toks, orig⟩ :: ls := by
  cases toks with
  | nil => exact absurd rfl h
  | cons _ _ => rfl

theorem skipBlank_phrase {text more : List Tok} {orig : Nat} {ls : List Line} (h : Phrase text) :
    skipBlank (⟨text ++ more, orig⟩ :: ls) = ⟨text ++ more, orig⟩ :: ls := by
  obtain ⟨f, hf, hw⟩ := h.first
  cases text with
  | nil => cases hf
  | cons a as =>
    obtain rfl : a = f := by simpa using hf
    have hn := (phrase_kinds h (x := a) (by simp)).2.2
    have : List.dropWhile (fun t : Tok => decide (t.kind = Whitespace) || decide (t.kind = Newline)) (a :: (as ++ more)) = a :: (as ++ more) := by
      simp [List.dropWhile_cons, hw, hn]
    rw [List.cons_append, skipBlank, if_neg (by simp), this]

theorem comment_part {toks : List Tok} {orig : Nat} (h : toks.length < orig) : isComment ⟨toks, orig⟩ = false := by
  simp [isComment, Line.full, show toks.length ≠ orig by omega]

theorem clean_wrap (ms : List Node) (w : Wrap) (ns : List Node) : cleanLast (ms ++ [Node.wrap w ns]).getLast? = true := by
  simp [cleanLast]

theorem push_clean {ms : List Node} {s : List Char} {n : Node} (h : cleanLast ms.getLast? = true) :
    (⟨ms, s⟩ : Acc).push n = ⟨ms ++ textNode s ++ [n], []⟩ := by
  simp only [Acc.push, commit_clean (a := ⟨ms, s⟩) h]
  rfl

theorem finish_term {s : List Char} : finish ⟨[], s⟩ none = textNode s := by
  simp only [finish, Acc.unused, commit_text]
  refine trimmed_clean ?_
  intro c
  unfold textNode
  split <;> simp

theorem finish_done {s : List Char} : finish ⟨textNode s, []⟩ none = textNode s := by
  simp only [finish, Acc.unused, Acc.commit, if_true]
  refine trimmed_clean ?_
  intro c
  unfold textNode
  split <;> simp

theorem text_phrase {t : List Tok} (h : Phrase t) : ∃ init c, textOf t = init ++ [c] ∧ c.isWhitespace = false := by
  obtain ⟨l, c, hl, _, hc, hw⟩ := h.last
  obtain ⟨ini, rfl⟩ := List.getLast?_eq_some_iff.1 hl
  obtain ⟨lx, hlx⟩ := List.getLast?_eq_some_iff.1 hc
  exact ⟨textOf ini ++ lx, c, by simp [textOf, hlx], hw⟩

theorem visible_phrase {t : List Tok} (h : Phrase t) (j : Nat) :
    visibleNodes (j + 2) (textNode (textOf t)) = some (textNode (textOf t ++ List.replicate j ')')) := by
  obtain ⟨init, c, hs, hw⟩ := text_phrase h
  have hn : textNode (textOf t) = [.leaf (.text (init ++ [c]))] := by simp [textNode, hs]
  have ht : trimNodes (textNode (textOf t)) = (textNode (textOf t), []) := by
    rw [hn]
    simp [trimNodes, hw]
  simp only [visibleNodes, ht]
  by_cases h0 : j = 0
  · subst h0
    simp
  · rw [if_neg (by omega), hn, hs]
    simp [textNode, List.take_replicate]

/-- the text of a phrase is one text node -/
theorem runX_phrase {env : Env} {subs : Substitutions} {t : List Tok} (hs : ∀ l, env.stops l = false) (h : Phrase t) :
    RunX env subs [] ⟨[], []⟩ none .none none [Line.new t] ⟨textNode (textOf t), .none, []⟩ := by
  have hc : isComment (Line.new t) = false := by
    obtain ⟨f, hf, _⟩ := h.first
    cases t with
    | nil => cases hf
    | cons a as =>
      have := textKind_ne (k' := ForwardSlashes) (plainTok_text (h.plain a (by simp))).1 (by decide)
      simp [isComment, Line.new, satOpt, TSpec.sat, this]
  refine RunX.enter (hs _) hc ?_
  have h1 : RunX env subs [] ⟨[], [] ++ textOf t⟩ none .none (some ⟨[], t.length⟩) [] ⟨textNode (textOf t), .none, []⟩ := by
    refine RunX.lineEnd ?_
    rw [List.nil_append, ← finish_term]
    exact RunX.finished
  have := runX_plain (rest := []) (by simp [startsSeq]) rfl h.plain h1
  simpa [Line.new] using this

theorem terms_parse {env : Env} {subs : Substitutions} (hs : ∀ l, env.stops l = false) : ∀ {terms : List (List Tok)}, (∀ t ∈ terms, Phrase t) →
    ∃ m, parseTerms (fun ctx l => goX env m subs [] ⟨[], []⟩ none ctx none [l]) .none terms
      = .ok (terms.map fun t => .wrap .concealedTerm (textNode (textOf t)), .none)
  | [], _ => ⟨0, rfl⟩
  | t :: ts, h => by
    obtain ⟨n, hn⟩ := runX_phrase (subs := subs) hs (h t (by simp))
    obtain ⟨m, hm⟩ := terms_parse (subs := subs) hs (fun u hu => h u (List.mem_cons_of_mem _ hu))
    refine ⟨max n m, ?_⟩
    rw [parseTerms, goX_mono (Nat.le_max_left n m) (by simp) hn]
    dsimp only
    rw [parseTerms_congr (by simp) (fun c l s hs hc => goX_mono (Nat.le_max_right n m) hs hc) hm]
    rfl

theorem spelt_ne {w : List Tok} {lead : List Char} {n : Node} (h : Spelt w lead n) : w ≠ [] ∧ isKind Plus w.head? = false ∧ isKind ForwardSlashes w.head? = false
    ∧ ∃ k ns, n = .wrap k ns := by
  cases h with
  | visible ho => exact ⟨by simp, by simp [isKind, ho], by simp [isKind, ho], _, _, rfl⟩
  | hidden ho => exact ⟨by simp, by simp [isKind, ho], by simp [isKind, ho], _, _, rfl⟩

theorem concealed_list {body : List Tok} {terms : List (List Tok)} {c : Tok} {rest : List Tok} {orig : Nat} {ls : List Line} (hb : TermList body terms)
    (h3 : terms.length ≤ 3) (hc : c.kind = CloseParens) (hl : c.len = 3) :
    concealed 3 (⟨body ++ c :: rest, orig⟩ :: ls) = some (terms, restore ⟨rest, orig⟩ ls) := by
  obtain ⟨hk, h0, _⟩ := termList_kinds hb
  have hf := termList_fold hb [] false
  simp only [concealed, splitLines]
  rw [if_neg (by simp), splitLine_body hc (by simp [hl]) hk]
  dsimp only
  rw [hf, List.nil_append, List.take_of_length_le h3]
  simp [putParens, hl]

theorem runX_spelt {env : Env} {subs : Substitutions} {w rest : List Tok} {lead : List Char} {n : Node} {ms : List Node} {s : List Char} {orig : Nat} {ls : List Line} {o : Out}
    (hs : ∀ l, env.stops l = false) (hm : subs.contains .macros = true) (hw : Spelt w lead n) (hms : cleanLast ms.getLast? = true)
    (hlen : (w ++ rest).length ≤ orig)
    (h : RunX env subs [] ⟨ms ++ textNode (s ++ lead) ++ [n], []⟩ none .none none (restore ⟨rest, orig⟩ ls) o) :
    RunX env subs [] ⟨ms, s⟩ none .none (some ⟨w ++ rest, orig⟩) ls o := by
  cases hw with
  | @visible op text c i j ho ho2 hp hc hc2 hij hj =>
    have hk : ∀ x ∈ text, x.kind ≠ CloseParens := fun x hx => (phrase_kinds hp hx).2.1
    have hol : op.len = i + 2 := by simp [Tok.len, ho2]
    have hcl : c.len = j + 2 := by simp [Tok.len, hc2]
    have hx : indexTerm subs ⟨ms, s⟩ op ⟨text ++ c :: rest, orig⟩ ls =
        some (⟨ms, s⟩, .visible (j + 2) (List.replicate i '(') (⟨text ++ c :: rest, orig⟩ :: ls)) := by
      simp only [indexTerm, termEnd_close hk (phrase_ne hp) hc (by omega), entry, ho, hol, hm, hcl]
      rw [restore_ne (by simp), skipBlank_phrase hp]
      rcases hij with rfl | rfl
      · simp
      · by_cases h0 : i = 0
        · subst h0; simp
        · simp [h0, ho2, List.take_replicate]
    have ha : act env subs [] .none ⟨ms, s⟩ none op ⟨text ++ c :: rest, orig⟩ ls = .unsupported :=
      act_open hm ho (by omega) (ends_close hk (phrase_ne hp) hc (by omega))
    have hin : RunX env subs [.len ((j + 2) % 256) CloseParens] ⟨[], []⟩ none .none none (⟨text ++ c :: rest, orig⟩ :: ls)
        ⟨textNode (textOf text), .none, restore ⟨rest, orig⟩ ls⟩ := by
      refine RunX.enter (hs _) (comment_part (by simp at hlen ⊢; omega)) ?_
      refine runX_plain ?_ (by simp [isKind, hc]) hp.plain ?_
      · intro t ts ht
        have := textKind_ne (k' := CloseParens) ht (by decide)
        simp [startsSeq, matchSeq, TSpec.sat, this]
      · have := RunX.stop (env := env) (subs := subs) (stop := [.len ((j + 2) % 256) CloseParens]) (acc := ⟨[], [] ++ textOf text⟩) (pend := none) (ctx := .none)
          (l := ⟨c :: rest, orig⟩) (ls := ls) (by simp [startsSeq, matchSeq, TSpec.sat, hc, hcl, Nat.mod_eq_of_lt hj])
        rw [List.nil_append, commit_text, finish_done] at this
        exact this
    have := RunX.visible ha hx hin (visible_phrase hp j) (o := o) (by
      dsimp only [Acc.putText]
      rw [push_clean hms]
      exact h)
    simpa using this
  | @hidden op body terms c ho ho3 hb h3 hc hc3 =>
    obtain ⟨hk, h0, hph⟩ := termList_kinds hb
    have hx : indexTerm subs ⟨ms, s⟩ op ⟨body ++ c :: rest, orig⟩ ls = some (⟨ms, s⟩, .concealed 3 (⟨body ++ c :: rest, orig⟩ :: ls)) := by
      simp only [indexTerm, termEnd_close hk h0 hc (by omega), entry, ho, ho3, hm, hc3]
      rw [restore_ne (by simp)]
      simp
    have ha : act env subs [] .none ⟨ms, s⟩ none op ⟨body ++ c :: rest, orig⟩ ls = .unsupported :=
      act_open hm ho (by omega) (ends_close hk h0 hc (by omega))
    have := RunX.concealed ha hx (concealed_list hb h3 hc hc3) (terms_parse hs hph) (o := o) (by
      rw [push_clean hms]
      simpa using h)
    simpa using this

/-! ### lines -/

theorem termLine_nil {l : List Tok} {ns : List Node} {tail : List Tok} (h : TermLine l ns tail) (h0 : l = []) : ns = [] ∧ tail = [] := by
  cases h with
  | text _ => subst h0; exact ⟨rfl, rfl⟩
  | term _ hw _ => simp [(spelt_ne hw).1] at h0

theorem runX_line {env : Env} {subs : Substitutions} (hs : ∀ l, env.stops l = false) (hm : subs.contains .macros = true)
    {l : List Tok} {ns : List Node} {tail : List Tok} (h : TermLine l ns tail) :
    ∃ front, ns = front ++ textNode (textOf tail) ∧ ∀ (ms : List Node) (orig : Nat) (ls : List Line) (o : Out), cleanLast ms.getLast? = true → l.length ≤ orig →
      (tail = [] → ls = []) →
      (cleanLast (ms ++ front).getLast? = true → RunX env subs [] (joinNewline ⟨ms ++ front, textOf tail⟩ ls) none .none none ls o) →
      RunX env subs [] ⟨ms, []⟩ none .none (some ⟨l, orig⟩) ls o := by
  induction h with
  | @text tail ht =>
    refine ⟨[], rfl, ?_⟩
    intro ms orig ls o hms _ _ h
    rw [List.append_nil] at h
    have := runX_plain (stop := []) (rest := []) (by simp [startsSeq]) rfl ht (seg := []) (by rw [List.nil_append]; exact RunX.lineEnd (orig := orig) (h hms))
    simpa using this
  | @term pre w lead n rest ns tail hp hw hr ih =>
    obtain ⟨front, rfl, ih⟩ := ih
    refine ⟨textNode (textOf pre ++ lead) ++ n :: front, by simp, ?_⟩
    intro ms orig ls o hms hlen htl h
    obtain ⟨hw0, hplus, _, k, kns, hn⟩ := spelt_ne hw
    have hclean : cleanLast (ms ++ textNode (textOf pre ++ lead) ++ [n]).getLast? = true := by rw [hn]; exact clean_wrap _ _ _
    rw [List.append_assoc]
    refine runX_plain (stop := []) (by simp [startsSeq]) ?_ hp ?_
    · cases w with
      | nil => exact absurd rfl hw0
      | cons a as => exact hplus
    · rw [List.nil_append]
      refine runX_spelt hs hm hw hms (by simp at hlen ⊢; omega) ?_
      by_cases h0 : rest = []
      · obtain ⟨hfr, htail⟩ := termLine_nil hr h0
        obtain rfl := htl htail
        obtain ⟨rfl, _⟩ := List.append_eq_nil_iff.1 hfr
        subst h0 htail
        have := h (by simpa using hclean)
        simpa [joinNewline, textOf, restore] using this
      · rw [restore_ne h0]
        have : 0 < w.length := List.length_pos_iff.2 hw0
        refine RunX.enter (hs _) (comment_part (by simp at hlen; omega)) ?_
        refine ih _ _ _ _ hclean (by simp at hlen; omega) htl ?_
        intro hc
        simpa using h (by simpa using hc)

theorem termLine_start {l : List Tok} {ns : List Node} {tail : List Tok} (h : TermLine l ns tail) : isComment (Line.new l) = false := by
  have : isKind ForwardSlashes l.head? = false := by
    cases h with
    | text ht =>
      cases l with
      | nil => rfl
      | cons a as => simp [isKind, textKind_ne (k' := ForwardSlashes) (plainTok_text (ht a (by simp))).1 (by decide)]
    | @term pre w lead n rest ns tail hp hw _ =>
      cases pre with
      | nil =>
        obtain ⟨h0, _, h1, _⟩ := spelt_ne hw
        cases w with
        | nil => exact absurd rfl h0
        | cons a as => exact h1
      | cons a as => simp [isKind, textKind_ne (k' := ForwardSlashes) (plainTok_text (hp a (by simp))).1 (by decide)]
  unfold isComment Line.new
  cases l with
  | nil => rfl
  | cons a as =>
    have : a.kind ≠ ForwardSlashes := by simpa [isKind] using this
    simp [satOpt, TSpec.sat, this]

theorem joinNewline_clean {ms : List Node} {s : List Char} {l : Line} {ls : List Line} (h : cleanLast ms.getLast? = true) :
    joinNewline ⟨ms, s⟩ (l :: ls) = ⟨ms ++ textNode s ++ [.leaf .newline], []⟩ := by
  have hc : (⟨ms, s⟩ : Acc).commit = ⟨ms ++ textNode s, []⟩ := commit_clean (a := ⟨ms, s⟩) h
  have hl : ∀ k, (ms ++ textNode s).getLast? ≠ some (.leaf (.dashes k .none)) := by
    intro k hk
    by_cases h0 : s = []
    · simp only [textNode, h0, if_true, List.append_nil] at hk
      rw [hk] at h
      cases h
    · simp [textNode, h0] at hk
  unfold joinNewline
  simp only [hc, List.isEmpty_cons]
  have : (⟨ms ++ textNode s, []⟩ : Acc).leaf .newline = ⟨ms ++ textNode s ++ [.leaf .newline], []⟩ := by simp [Acc.leaf, Acc.push, Acc.commit]
  rw [if_neg (by simp)]
  exact this

theorem finish_end {ms : List Node} {s : List Char} (h : cleanLast ms.getLast? = true) : finish ⟨ms, s⟩ none = ms ++ textNode s := by
  have hc : (⟨ms, s⟩ : Acc).commit = ⟨ms ++ textNode s, []⟩ := commit_clean (a := ⟨ms, s⟩) h
  simp only [finish, Acc.unused, hc]
  refine trimmed_clean ?_
  intro k hk
  by_cases h0 : s = []
  · simp only [textNode, h0, if_true, List.append_nil] at hk
    rw [hk] at h
    cases h
  · simp [textNode, h0] at hk

theorem runX_lines {env : Env} {subs : Substitutions} (hs : ∀ l, env.stops l = false) (hm : subs.contains .macros = true)
    {ls : List (List Tok)} {ns : List Node} (h : TermLines ls ns) : ∀ {ms : List Node}, cleanLast ms.getLast? = true →
      RunX env subs [] ⟨ms, []⟩ none .none none (ls.map Line.new) ⟨ms ++ ns, .none, []⟩ := by
  induction h with
  | last h =>
    intro ms hms
    obtain ⟨front, hns, run⟩ := runX_line hs hm h
    refine RunX.enter (hs _) (termLine_start h) (run ms _ _ _ hms (Nat.le_refl _) (fun _ => rfl) ?_)
    intro hc
    rw [hns, ← List.append_assoc, ← finish_end hc]
    exact RunX.finished
  | @cons l ns tail ls ks h ht hls ih =>
    intro ms hms
    obtain ⟨front, hns, run⟩ := runX_line hs hm h
    refine RunX.enter (hs _) (termLine_start h) (run ms _ _ _ hms (Nat.le_refl _) (fun h0 => absurd h0 ht) ?_)
    intro hc
    obtain ⟨l', ls', rfl⟩ : ∃ l' ls', ls = l' :: ls' := by cases hls <;> exact ⟨_, _, rfl⟩
    rw [List.map_cons, joinNewline_clean hc]
    have := ih (ms := ms ++ front ++ textNode (textOf tail) ++ [.leaf .newline]) (by simp [cleanLast])
    simpa [hns] using this

end Verif.Inlines
