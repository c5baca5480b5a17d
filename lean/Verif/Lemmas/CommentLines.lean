import Verif.Lemmas.PhraseText
import Verif.Spec.CommentLines
/-! Lemmas: comment lines hide nothing but themselves. -/
namespace Verif.Inlines
open Verif TokenKind

theorem plain_line {s : List Char} (h : (PLine.text s).ok = true) : flat (tokensOf (String.ofList s)) = s ∧ s ≠ [] ∧
    ∀ t ∈ tokensOf (String.ofList s), OkTok t ∧ textKind t.kind = true := by
  simp only [PLine.ok, Bool.and_eq_true, Bool.not_eq_true', List.contains_eq_mem, decide_eq_false_iff_not, List.isEmpty_eq_false_iff, List.all_eq_true] at h
  obtain ⟨⟨⟨h0, h1⟩, h2⟩, h3⟩ := h
  have hl : (String.ofList s).toList = s := String.toList_ofList
  have hok : ∀ c ∈ s, okChar c = true ∧ c ∉ "*_`#".toList := by
    intro c hc
    have := h1 c hc
    simp only [isPlain, isGap, Bool.or_eq_true, List.contains_eq_mem, decide_eq_true_eq] at this
    rcases this with (this | this) | this
    · refine ⟨by simp [okChar, this], fun hm => ?_⟩
      simp at hm
      rcases hm with rfl | rfl | rfl | rfl <;> simp [isWordChar] at this
    · rcases this with rfl | rfl <;> decide
    · simp at this
      rcases this with rfl | rfl | rfl | rfl <;> decide
  obtain ⟨g1, g2, g3⟩ := tokensOf_calm (s := String.ofList s) (by rw [hl]; exact fun c hc => (hok c hc).1) (by rw [hl]; exact text_calm h1 h2)
  rw [hl] at g1
  refine ⟨g1, h0, fun t ht => ⟨g2 t ht, ?_⟩⟩
  have hsub : ∀ c ∈ t.lexeme, c ∈ s := by
    intro c hc
    rw [← g1]
    exact List.mem_flatMap.2 ⟨t, ht, hc⟩
  rcases (g2 t ht).shape with ⟨h5 | h5, _⟩ | ⟨c, h5, h6⟩
  · rw [h5]; decide
  · rw [h5]; decide
  · have hc : c ∈ s := hsub c (by simp [h5])
    have hc' := (hok c hc).2
    have := otherKind_cases h6
    simp only [List.mem_cons, Prod.mk.injEq, List.not_mem_nil, or_false] at this
    rcases this with ⟨rfl, h⟩ | ⟨rfl, h⟩ | ⟨rfl, h⟩ | ⟨rfl, h⟩ | ⟨rfl, h⟩ | ⟨rfl, h⟩ | ⟨rfl, h⟩ | ⟨rfl, h⟩ | ⟨rfl, h⟩ | ⟨rfl, h⟩ <;>
      first
        | (rw [h]; rfl)
        | exact absurd hc h3
        | exact absurd hc' (by decide)

theorem snoc_or {α : Type} (l : List α) : l = [] ∨ ∃ a b, l = a ++ [b] := by
  rcases List.eq_nil_or_concat l with h | ⟨a, b, h⟩
  · exact .inl h
  · exact .inr ⟨a, b, by rw [h, List.concat_eq_append]⟩

theorem snoc2 {α : Type} (l : List α) (x y : α) : l ++ [x, y] = (l ++ [x]) ++ [y] := by simp

/-- a line of plain text -/
theorem run_line {env : Env} {subs : Substitutions} {ls : List Line} {ns : List Node} {orig : Nat} {o : Out} :
    ∀ {ts : List Tok} {seg : List Char}, (∀ t ∈ ts, OkTok t ∧ textKind t.kind = true) →
      Run env subs [] (joinNewline ⟨ns, seg ++ flat ts⟩ ls) none .none none ls o →
      Run env subs [] ⟨ns, seg⟩ none .none (some ⟨ts, orig⟩) ls o := by
  intro ts
  induction ts with
  | nil =>
    intro seg _ h
    refine Run.lineEnd (by simp) ?_
    simpa [flat] using h
  | cons t ts ih =>
    intro seg hts h
    obtain ⟨hok, hk⟩ := hts t (by simp)
    refine Run.tok (by simp [startsSeq]) (act_text hk ?_ ?_ (ok_head (fun u hu => (hts u (by simp [hu])).1) (by decide))) ?_
    · intro hw; rw [hok.single (by simp [hw]) (by simp [hw])]; exact Nat.le_refl _
    · intro hw; rw [hok.single (by simp [hw]) (by simp [hw])]; exact Nat.le_refl _
    · refine ih (fun u hu => hts u (by simp [hu])) ?_
      simpa [flat_cons] using h

theorem Run.comment {env subs stop acc pend ctx l ls o} (hs : env.stops l = false) (hc : isComment l = true) (hcall : Substitutions.contains subs .callouts = false)
    (h : Run env subs stop (commentLine acc l ls) pend ctx none ls o) : Run env subs stop acc pend ctx none (l :: ls) o := by
  obtain ⟨n, h⟩ := h
  refine ⟨n + 1, ?_⟩
  rw [go, if_neg (by simp [hs]), if_pos (by simp [hc, hcall])]
  exact h

/-- lines that are done: text lines with their line ends, then comments -/
def Done (ns : List Node) : Prop := ∃ a cs, ns = a ++ cs ∧ (∀ c ∈ cs, ∃ s, c = .leaf (.lineComment s)) ∧
  (a = [] ∨ ∃ b s, a = b ++ [.leaf (.text s), .leaf .newline])

theorem Done.last {ns : List Node} (h : Done ns) : ns.getLast? = none ∨ ns.getLast? = some (.leaf .newline) ∨ ∃ s, ns.getLast? = some (.leaf (.lineComment s)) := by
  obtain ⟨a, cs, rfl, hc, ha⟩ := h
  rcases snoc_or cs with rfl | ⟨cs', c, rfl⟩
  · rcases ha with rfl | ⟨b, s, rfl⟩
    · simp
    · right; left; simp
  · obtain ⟨s, rfl⟩ := hc c (by simp)
    right; right; exact ⟨s, by rw [← List.append_assoc]; simp⟩

theorem Done.commit {ns : List Node} (h : Done ns) (s : List Char) : (⟨ns, s⟩ : Acc).commit = ⟨ns ++ leafOf s, []⟩ := by
  simp only [Acc.commit, leafOf]
  split
  · simp_all
  · rcases h.last with h | h | ⟨_, h⟩ <;> simp [h]

theorem shown_comments {cs : List Node} (hc : ∀ c ∈ cs, ∃ s, c = .leaf (.lineComment s)) : cs.filter isShown = [] := by
  rw [List.filter_eq_nil_iff]
  intro c h
  obtain ⟨s, rfl⟩ := hc c h
  simp [isShown]

theorem trim_comments {a : List Node} : ∀ (cs : List Node), (∀ c ∈ cs, ∃ s, c = .leaf (.lineComment s)) → cs ≠ [] →
    ∀ fuel, cs.length < fuel → trimFrom fuel (a ++ cs) = trimFrom (fuel - cs.length) (dropDiscarded (dropNewline a)) := by
  intro cs
  induction hn : cs.length generalizing cs with
  | zero => intro _ h0; simp at hn; exact absurd hn h0
  | succ n ih =>
    intro hc _ fuel hf
    rcases snoc_or cs with rfl | ⟨cs', c, rfl⟩
    · simp at hn
    obtain ⟨s, rfl⟩ := hc c (by simp)
    cases fuel with
    | zero => omega
    | succ fuel =>
      have hl : (a ++ (cs' ++ [Node.leaf (.lineComment s)])).getLast? = some (.leaf (.lineComment s)) := by rw [← List.append_assoc]; simp
      have hd : (a ++ (cs' ++ [Node.leaf (.lineComment s)])).dropLast = a ++ cs' := by rw [← List.append_assoc, List.dropLast_concat]
      rw [trimFrom]
      simp only [hl, hd]
      simp at hn
      by_cases h0 : cs' = []
      · subst h0
        simp at hn
        subst hn
        simp
      · have hl' : ∃ s, (a ++ cs').getLast? = some (.leaf (.lineComment s)) := by
          rcases snoc_or cs' with rfl | ⟨cs'', c, rfl⟩
          · exact absurd rfl h0
          · obtain ⟨s', rfl⟩ := hc c (by simp)
            exact ⟨s', by rw [← List.append_assoc]; simp⟩
        obtain ⟨s', hl'⟩ := hl'
        have e : dropDiscarded (dropNewline (a ++ cs')) = a ++ cs' := by simp [dropNewline, dropDiscarded, hl']
        rw [e, ih cs' hn (fun c h => hc c (by simp [h])) h0 fuel (by omega)]
        congr 1
        omega

theorem trimmed_comments {a : List Node}
    (ha' : ∀ s, (dropDiscarded (dropNewline a)).getLast? ≠ some (.leaf (.lineComment s))) {cs : List Node} (hc : ∀ c ∈ cs, ∃ s, c = .leaf (.lineComment s)) (h0 : cs ≠ []) :
    trimmed (a ++ cs) = dropDiscarded (dropNewline a) := by
  unfold trimmed
  rw [trim_comments cs hc h0 _ (by simp; omega)]
  have : ∃ k, (a ++ cs).length + 1 - cs.length = k + 1 := ⟨a.length, by simp; omega⟩
  obtain ⟨k, hk⟩ := this
  rw [hk, trimFrom]
  split
  · exact absurd ‹_› (ha' _)
  · rfl


/-- each text line with a line end -/
def ended (ss : List (List Char)) : List Node := ss.flatMap (fun s => [.leaf (.text s), .leaf .newline])

theorem linesNodes_ended : ∀ (ss : List (List Char)), linesNodes ss = dropNewline (ended ss)
  | [] => rfl
  | [s] => rfl
  | s :: t :: r => by
    rw [linesNodes, linesNodes_ended (t :: r)]
    have h : ∀ l : List Node, l ≠ [] → dropNewline (Node.leaf (.text s) :: .leaf .newline :: l) = Node.leaf (.text s) :: .leaf .newline :: dropNewline l := by
      intro l hl
      obtain ⟨x, xs, rfl⟩ := List.exists_cons_of_ne_nil hl
      simp only [dropNewline, List.getLast?_cons_cons]
      split <;> simp
    rw [← h]
    · rfl
    · simp [ended]

theorem run_lines {env : Env} (hst : ∀ l, env.stops l = false) {subs : Substitutions} (hcall : subs.contains .callouts = false) : ∀ {ps : List PLine}, ps ≠ [] → (∀ p ∈ ps, p.ok = true) →
    ∀ (ns : List Node), Done ns → ∃ out, Run env subs [] ⟨ns, []⟩ none .none none (ps.map PLine.line) ⟨out, .none, []⟩ ∧
      out.filter isShown = dropNewline (ns.filter isShown ++ ended (textsOf ps))
  | [], h0, _ => absurd rfl h0
  | .text s :: ps, _, hok => by
    intro ns hd
    obtain ⟨h1, h2, h3⟩ := plain_line (hok (.text s) (by simp))
    have hcm : isComment (Line.new (tokensOf (String.ofList s))) = false := not_comment fun t ht => (h3 t ht).1
    have hlf : leafOf s = [.leaf (.text s)] := by simp [leafOf, h2]
    by_cases hp : ps = []
    · subst hp
      refine ⟨ns ++ [.leaf (.text s)], ?_, ?_⟩
      · refine Run.enter (hst _) hcm (run_line h3 ?_)
        rw [h1]
        have : finish (joinNewline ⟨ns, [] ++ s⟩ []) none = ns ++ [.leaf (.text s)] := by
          simp only [joinNewline, List.isEmpty_nil, if_true, finish, Acc.unused, List.nil_append, hd.commit, hlf]
          exact trimmed_clean (by simp)
        rw [← this]
        exact Run.finished
      · simp only [textsOf, ended, List.flatMap_cons, List.flatMap_nil, List.append_nil, List.filter_append]
        rw [show (List.filter isShown [Node.leaf (.text s)]) = [.leaf (.text s)] from rfl]
        rw [show ∀ a : List Node, a ++ [Node.leaf (.text s), .leaf .newline] = (a ++ [.leaf (.text s)]) ++ [.leaf .newline] by simp]
        simp only [dropNewline, List.getLast?_concat, List.dropLast_concat]
    · have hd' : Done (ns ++ [.leaf (.text s), .leaf .newline]) := ⟨_, [], by simp, by simp, .inr ⟨ns, s, rfl⟩⟩
      obtain ⟨out, g1, g2⟩ := run_lines hst hcall hp (fun p h => hok p (by simp [h])) _ hd'
      refine ⟨out, ?_, ?_⟩
      · refine Run.enter (hst _) hcm (run_line h3 ?_)
        rw [h1]
        have : joinNewline ⟨ns, [] ++ s⟩ (ps.map PLine.line) = ⟨ns ++ [.leaf (.text s), .leaf .newline], []⟩ := by
          have he : (ps.map PLine.line).isEmpty = false := by cases ps <;> simp at hp ⊢
          simp only [joinNewline, he, hd.commit, hlf, List.nil_append, Bool.false_eq_true, if_false, List.getLast?_concat]
          simp [Acc.leaf, Acc.push, Acc.commit]
        rw [this]
        exact g1
      · rw [g2]
        rw [List.filter_append, show [Node.leaf (.text s), .leaf .newline].filter isShown = [.leaf (.text s), .leaf .newline] from rfl]
        simp [textsOf, ended]
  | .comment l :: ps, _, hok => by
    intro ns hd
    have hcm : isComment l = true := hok _ (List.mem_cons_self)
    by_cases hp : ps = []
    · subst hp
      obtain ⟨a, cs, rfl, hc, ha⟩ := hd
      have key : ∀ x, ∃ out, trimmed (discardNewline (a ++ cs) ++ [.leaf (.lineComment x)]) = out ∧ out.filter isShown = dropNewline ((a ++ cs).filter isShown) := by
        intro x
        refine ⟨_, rfl, ?_⟩
        rw [List.filter_append, shown_comments hc, List.append_nil]
        by_cases h0 : cs = []
        · subst h0
          rcases ha with rfl | ⟨b, s, rfl⟩
          · simp [discardNewline, trimmed, trimFrom, dropNewline, dropDiscarded]
          · have e : discardNewline (b ++ [Node.leaf (.text s), .leaf .newline] ++ []) = b ++ [.leaf (.text s), .leaf .discarded] := by
              rw [List.append_nil, snoc2, snoc2]
              simp only [discardNewline, List.getLast?_concat, List.dropLast_concat]
            have e2 : dropDiscarded (dropNewline (b ++ [Node.leaf (.text s), .leaf .discarded])) = b ++ [.leaf (.text s)] := by
              rw [snoc2]
              simp only [dropNewline, dropDiscarded, List.getLast?_concat, List.dropLast_concat]
            rw [e, trimmed_comments (by rw [e2]; simp) (by simp) (by simp), e2]
            rw [List.filter_append, List.filter_append, show [Node.leaf (.text s), .leaf .newline].filter isShown = [.leaf (.text s), .leaf .newline] from rfl,
              show [Node.leaf (.text s)].filter isShown = [.leaf (.text s)] from rfl, snoc2]
            simp only [dropNewline, List.getLast?_concat, List.dropLast_concat]
        · have hl : ∃ s, (a ++ cs).getLast? = some (.leaf (.lineComment s)) := by
            rcases snoc_or cs with rfl | ⟨cs'', c, rfl⟩
            · exact absurd rfl h0
            · obtain ⟨s', rfl⟩ := hc c (by simp)
              exact ⟨s', by rw [← List.append_assoc]; simp⟩
          obtain ⟨s', hl⟩ := hl
          have e : discardNewline (a ++ cs) = a ++ cs := by simp [discardNewline, hl]
          rw [e, List.append_assoc]
          have hc' : ∀ c ∈ cs ++ [Node.leaf (.lineComment x)], ∃ s, c = .leaf (.lineComment s) := by
            intro c h
            rcases List.mem_append.1 h with h | h
            · exact hc c h
            · simp at h; exact ⟨x, h⟩
          rcases ha with rfl | ⟨b, s, rfl⟩
          · rw [trimmed_comments (by simp [dropNewline, dropDiscarded]) hc' (by simp)]
            rfl
          · have e2 : dropDiscarded (dropNewline (b ++ [Node.leaf (.text s), .leaf .newline])) = b ++ [.leaf (.text s)] := by
              rw [snoc2]
              simp only [dropNewline, dropDiscarded, List.getLast?_concat, List.dropLast_concat]
            rw [trimmed_comments (by rw [e2]; simp) hc' (by simp), e2]
            rw [List.filter_append, List.filter_append, show [Node.leaf (.text s), .leaf .newline].filter isShown = [.leaf (.text s), .leaf .newline] from rfl,
              show [Node.leaf (.text s)].filter isShown = [.leaf (.text s)] from rfl, snoc2]
            simp only [dropNewline, List.getLast?_concat, List.dropLast_concat]
      obtain ⟨out, k1, k2⟩ := key ((l.toks.drop 1).flatMap (·.lexeme))
      refine ⟨out, ?_, ?_⟩
      · refine Run.comment (hst _) hcm hcall ?_
        have : finish (commentLine ⟨a ++ cs, []⟩ l []) none = out := by
          rw [← k1]
          simp [commentLine, finish, Acc.unused, Acc.leaf, Acc.push, Acc.commit]
        rw [← this]
        exact Run.finished
      · rw [k2]
        simp [textsOf, ended]
    · have he : (ps.map PLine.line).isEmpty = false := by cases ps <;> simp at hp ⊢
      have hd' : Done (ns ++ [.leaf (.lineComment ((l.toks.drop 1).flatMap (·.lexeme)))]) := by
        obtain ⟨a, cs, rfl, hc, ha⟩ := hd
        refine ⟨a, cs ++ [.leaf (.lineComment ((l.toks.drop 1).flatMap (·.lexeme)))], by simp, ?_, ha⟩
        intro c h
        rcases List.mem_append.1 h with h | h
        · exact hc c h
        · simp at h; exact ⟨_, h⟩
      obtain ⟨out, g1, g2⟩ := run_lines hst hcall hp (fun p h => hok p (by simp [h])) _ hd'
      refine ⟨out, ?_, ?_⟩
      · refine Run.comment (hst _) hcm hcall ?_
        have : commentLine ⟨ns, []⟩ l (ps.map PLine.line) = ⟨ns ++ [.leaf (.lineComment ((l.toks.drop 1).flatMap (·.lexeme)))], []⟩ := by
          simp [commentLine, he, Acc.leaf, Acc.push, Acc.commit]
        rw [show PLine.line (.comment l) = l from rfl, this]
        exact g1
      · rw [g2]
        simp [textsOf, isShown]

/-- text lines and comment lines -/
theorem parse_lines {env : Env} (hst : ∀ l, env.stops l = false) {subs : Substitutions} (hcall : subs.contains .callouts = false) {ps : List PLine} (hok : ∀ p ∈ ps, p.ok = true) :
    ∃ o, parse env subs (ps.map PLine.line) = .ok o ∧ o.nodes.filter isShown = linesNodes (textsOf ps) ∧ o.lines = [] := by
  by_cases h0 : ps = []
  · subst h0
    exact ⟨⟨finish ⟨[], []⟩ none, .none, []⟩, Run.parse Run.finished, by simp [finish, Acc.unused, Acc.commit, trimmed, trimFrom, textsOf, linesNodes], rfl⟩
  · obtain ⟨out, g1, g2⟩ := run_lines hst hcall h0 hok [] ⟨[], [], rfl, by simp, .inl rfl⟩
    exact ⟨_, Run.parse g1, by rw [g2, linesNodes_ended]; rfl, rfl⟩

end Verif.Inlines
