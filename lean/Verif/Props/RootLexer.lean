import Verif.Lemmas.RootLexer
namespace Verif.Props
open Verif Verif.Lexer Verif.Lexer.Root

private theorem withNewline_eq (b : List UInt8) :
    withNewline b = if b.getLast? = some 10 then b else b ++ [10] := by
  unfold withNewline
  by_cases h : b.getLast? = some 10 <;> simp [h]

/-- one operation refines the flat text -/
private theorem op_refines (plugins : List (List UInt8)) (r : Root) (op : ReadOp)
    (h : Live r.sources r.live)
    (hpush : (∃ b d, op = .push b d) → r.nextIdx = none ∧ r.sources.length < 65535) :
    ∃ o r', r.op plugins op = some (o, r') ∧ Live r'.sources r'.live ∧ FlatStep op r.flat o r'.flat ∧
      ((∃ b d, op = .push b d) → r'.sources.length = r.sources.length + 1) ∧
      ((∀ b d, op ≠ .push b d) → r'.sources.length = r.sources.length ∧ r'.nextIdx = none ∧
        r'.live.length ≤ r.live.length) ∧
      (∀ n, r'.nextIdx = some n → restAt r'.sources n ≠ [] ∧ r'.live = n :: r.live ∧ r'.idx = r.idx) := by
  have hadv := maybeAdvance_live r
  have hl : r.maybeAdvance.idx :: r.maybeAdvance.stack = r.live := by
    rw [← hadv.1, live, hadv.2.1]; rfl
  cases op with
  | push b d =>
    obtain ⟨hn, hlen⟩ := hpush ⟨b, d, rfl⟩
    have hmod : (r.sources.length + 1) % 65536 = r.sources.length + 1 := Nat.mod_eq_of_lt (by omega)
    have hget : (r.sources ++ [⟨withNewline b, 0, d⟩])[r.sources.length]? = some ⟨withNewline b, 0, d⟩ := by
      simp
    have hold : ∀ j ∈ r.live, (r.sources ++ [⟨withNewline b, 0, d⟩])[j]? = r.sources[j]? := by
      intro j hj; exact List.getElem?_append_left (h.bound j hj)
    have hlive : r.live = r.idx :: r.stack := by simp [live, hn]
    refine ⟨none, { r with sources := r.sources ++ [⟨withNewline b, 0, d⟩], nextIdx := some r.sources.length },
      ?_, ?_, ?_, ?_, ?_, ?_⟩
    · simp only [Root.op, push, List.length_append, List.length_singleton, hmod]
      rw [if_neg (by omega)]; rfl
    · have hlive' : (⟨r.sources ++ [⟨withNewline b, 0, d⟩], r.idx, some r.sources.length, r.stack⟩ : Root).live =
        r.sources.length :: r.live := by simp [live, hn]
      rw [hlive']
      refine ⟨?_, ?_, ?_⟩
      · intro i hi
        rcases List.mem_cons.mp hi with rfl | hi
        · simp
        · have := h.bound i hi; simp; omega
      · exact List.pairwise_cons.mpr ⟨fun i hi => h.bound i hi, h.sorted⟩
      · intro i hi s hs
        rw [List.dropLast_cons_of_ne_nil (by simp [hlive])] at hi
        rcases List.mem_cons.mp hi with rfl | hi
        · rw [hget] at hs; cases hs; simp
        · rw [hold i (List.dropLast_subset _ hi)] at hs
          exact h.pos i hi s hs
    · have hlive' : (⟨r.sources ++ [⟨withNewline b, 0, d⟩], r.idx, some r.sources.length, r.stack⟩ : Root).live =
        r.sources.length :: r.live := by simp [live, hn]
      rw [flat_eq, flat_eq, hlive', List.flatMap_cons]
      rw [flatMap_restAt_congr hold, restAt_of hget]
      have := FlatStep.push b d (r.live.flatMap (restAt r.sources))
      rw [← withNewline_eq] at this
      exact this
    · intro _; simp
    · intro hne; exact absurd rfl (hne b d)
    · intro n hnn
      simp only [Option.some.injEq] at hnn; subst hnn
      refine ⟨?_, by simp [live, hn], rfl⟩
      rw [restAt_of hget]
      simp only [Src.rest, List.drop_zero, withNewline]
      split
      · simp
      · rename_i h; intro hb; rw [hb] at h; simp at h
  | nextToken =>
    obtain ⟨t, r', e1, e2, e3, e4, e6, e5⟩ :=
      nextLoop_spec plugins r.maybeAdvance.sources r.maybeAdvance.idx r.maybeAdvance.stack
        (by rw [hl, hadv.2.2]; exact h)
    rw [hl, hadv.2.2] at e5
    cases t with
    | none =>
      refine ⟨none, r', ?_, e3, ?_, ?_, ?_, by rw [e2]; simp⟩
      · simp only [Root.op, next, e1]; rfl
      · rw [flat_eq, e5.1, e5.2]; exact .eof
      · rintro ⟨_, _, h⟩; cases h
      · intro _; exact ⟨by rw [e4, hadv.2.2], e2, by rw [← hl]; exact e6⟩
    | some ti =>
      obtain ⟨t, i⟩ := ti
      obtain ⟨s, lexeme, f1, f2, f3, f4, _⟩ := e5
      refine ⟨some lexeme, r', ?_, e3, ?_, ?_, ?_, by rw [e2]; simp⟩
      · simp only [Root.op, next, e1, Option.bind_eq_bind, Option.bind_some, f1, f2, Option.pure_def]
      · rw [flat_eq, f4]; exact .token _ _ f3
      · rintro ⟨_, _, h⟩; cases h
      · intro _; exact ⟨by rw [e4, hadv.2.2], e2, by rw [← hl]; exact e6⟩
  | skipByte =>
    obtain ⟨r', e1, e2, e3, e4, e6, e5⟩ :=
      skipLoop_spec r.maybeAdvance.sources r.maybeAdvance.idx r.maybeAdvance.stack
        (by rw [hl, hadv.2.2]; exact h)
    rw [hl, hadv.2.2, ← flat_eq] at e5
    refine ⟨none, r', ?_, e3, ?_, ?_, ?_, by rw [e2]; simp⟩
    · simp only [Root.op, skipByte, e1]; rfl
    · rw [e5]
      cases r.flat with
      | nil => exact .skipEof
      | cons b rem => exact .skip b rem
    · rintro ⟨_, _, h⟩; cases h
    · intro _; exact ⟨by rw [e4, hadv.2.2], e2, by rw [← hl]; exact e6⟩
  | consumeEmpty =>
    obtain ⟨r', e1, e2, e3, e4, e6, e5⟩ :=
      consumeLoop_spec r.maybeAdvance.sources r.maybeAdvance.idx r.maybeAdvance.stack
        (by rw [hl, hadv.2.2]; exact h)
    rw [hl, hadv.2.2, ← flat_eq] at e5
    refine ⟨none, r', ?_, e3, ?_, ?_, ?_, by rw [e2]; simp⟩
    · simp only [Root.op, consumeEmpty, e1]; rfl
    · obtain ⟨nl, g1, g2, g3⟩ := dropWhile_isNl_spec r.flat
      rw [← e5] at g1 g3
      have := FlatStep.empty nl r'.flat g2 g3
      rw [← g1] at this
      exact this
    · rintro ⟨_, _, h⟩; cases h
    · intro _; exact ⟨by rw [e4, hadv.2.2], e2, by rw [← hl]; exact e6⟩

private theorem run_refines (plugins : List (List UInt8)) (ops : List ReadOp) (r : Root) (pending : Bool)
    (h : Live r.sources r.live) (ha : Alternating pending ops) (hp : pending = false → r.nextIdx = none)
    (hlen : r.sources.length + pushes ops ≤ 65535)
    (hne : ∀ n, r.nextIdx = some n → restAt r.sources n ≠ []) :
    ∃ outs r', r.run plugins ops = some (outs, r') ∧ FlatRun ops r.flat outs r'.flat ∧ Live r'.sources r'.live ∧
      (∀ n, r'.nextIdx = some n → restAt r'.sources n ≠ []) := by
  induction ops generalizing r pending with
  | nil => exact ⟨[], r, rfl, .nil _, h, hne⟩
  | cons op ops ih =>
    have main : ∀ pending', Alternating pending' ops →
        ((∃ b d, op = .push b d) → pending' = true ∧ r.nextIdx = none) →
        ∃ outs r', r.run plugins (op :: ops) = some (outs, r') ∧ FlatRun (op :: ops) r.flat outs r'.flat ∧
          Live r'.sources r'.live ∧ (∀ n, r'.nextIdx = some n → restAt r'.sources n ≠ []) := by
      intro pending' ha' hpush
      have hlen' : (∃ b d, op = .push b d) → r.sources.length < 65535 := by
        rintro ⟨b, d, rfl⟩; simp only [pushes] at hlen; omega
      obtain ⟨o, r1, e1, e2, e3, e4, e5, e6⟩ := op_refines plugins r op h fun hx => ⟨(hpush hx).2, hlen' hx⟩
      obtain ⟨outs, r2, f1, f2, f3⟩ := ih r1 pending' e2 ha' (by
        intro hp'
        by_cases hx : ∃ b d, op = .push b d
        · rw [(hpush hx).1] at hp'; cases hp'
        · exact (e5 fun b d hb => hx ⟨b, d, hb⟩).2.1) (by
        cases op with
        | push b d => rw [e4 ⟨b, d, rfl⟩]; simp only [pushes] at hlen; omega
        | _ => rw [(e5 (by intro b d hb; cases hb)).1]; simpa only [pushes] using hlen)
        (fun n hn => (e6 n hn).1)
      refine ⟨o :: outs, r2, ?_, .cons e3 f2, f3⟩
      simp only [Root.run, e1, f1, Option.bind_eq_bind, Option.bind_some, Option.pure_def]
    cases op with
    | push b d => exact main true ha.2 fun _ => ⟨rfl, hp ha.1⟩
    | nextToken => exact main false ha (by rintro ⟨_, _, h⟩; cases h)
    | skipByte => exact main false ha (by rintro ⟨_, _, h⟩; cases h)
    | consumeEmpty => exact main false ha (by rintro ⟨_, _, h⟩; cases h)

private theorem live_new (bytes : List UInt8) : Live (new bytes).sources (new bytes).live :=
  ⟨by simp [new, live], by simp [new, live], by simp [new, live]⟩

private theorem flat_new (bytes : List UInt8) : (new bytes).flat = bytes := by
  simp [new, Root.flat, live, Src.rest]

/-- C05: reading a document with includes, nested in any way, is reading one flat text in which each include
inserts its text at the reading position: for every sequence of reads and includes nothing panics, every token is
the next piece of the flat text, the end is reported only when nothing is left, and reading resumes exactly where
the includer stopped. (Fewer than 65535 sources; the parser reads from an include before pushing another.) -/
theorem C05_includes_are_inserted_text (plugins : List (List UInt8)) (main : List UInt8) (ops : List ReadOp)
    (ha : Alternating false ops) (hlen : pushes ops < 65535) :
    ∃ outs r, (new main).run plugins ops = some (outs, r) ∧ FlatRun ops main outs r.flat := by
  obtain ⟨outs, r, h1, h2, _, _⟩ := run_refines plugins ops (new main) false (live_new main) ha (fun _ => rfl)
    (by simp only [new, List.length_singleton]; omega) (by simp [new])
  rw [flat_new] at h2
  exact ⟨outs, r, h1, h2⟩

/-- a main text `a⏎z`, after `a⏎` an include of `b⏎`, and after that an include of `c` -/
private def nestedOps : List ReadOp :=
  [.nextToken, .skipByte, .push [98, 10] none, .nextToken, .skipByte, .push [99] none, .nextToken, .skipByte]

example : Alternating false nestedOps ∧ pushes nestedOps = 2 ∧
    ((new [97, 10, 122]).run [] nestedOps).map (fun x => (x.1, x.2.flat)) =
      some ([some [97], none, none, some [98], none, none, some [99], none], [122]) := by
  refine ⟨by simp [nestedOps, Alternating], rfl, by decide +kernel⟩

/-- C05 is violated by the look-ahead (`peek`, `is_eof`): when the last line of an included file is itself an
include, then at the end of the inner file the reader reports the end of the document although the including
document goes on. -/
theorem C05_end_of_document_violated :
    ∃ outs r, (new [97, 10, 122]).run [] nestedOps = some (outs, r) ∧ r.isEof = some true ∧ r.flat = [122] := by
  have h : ((new [97, 10, 122]).run [] nestedOps).all
      (fun x => x.2.isEof == some true && x.2.flat == [122]) = true := by decide +kernel
  obtain ⟨outs, r, h1, _⟩ := C05_includes_are_inserted_text [] [97, 10, 122] nestedOps
    (by simp [nestedOps, Alternating]) (by decide)
  rw [h1] at h
  simp only [Option.all_some, Bool.and_eq_true, beq_iff_eq] at h
  exact ⟨outs, r, h1, h⟩

/-- C05, for look-ahead: in any state reached by a run, if at most one includer is open, or the current source
or its includer still has text, `peek` is the next byte of the flat text and `is_eof` says whether anything is
left. Missing: an exhausted includer of an exhausted source (see the violation above). -/
theorem C05_peek_partial (plugins : List (List UInt8)) (main : List UInt8) (ops : List ReadOp)
    (ha : Alternating false ops) (hlen : pushes ops < 65535) {outs} {r : Root}
    (hr : (new main).run plugins ops = some (outs, r))
    (hopen : r.nextIdx = none → r.stack.length ≤ 1 ∨
      ∃ i, (i = r.idx ∨ r.stack.head? = some i) ∧ ∃ s, r.sources[i]? = some s ∧ s.pos < s.bytes.length) :
    r.peek = some r.flat.head? ∧ r.isEof = some r.flat.isEmpty := by
  obtain ⟨outs', r', h1, _, hlive, hpend⟩ := run_refines plugins ops (new main) false (live_new main) ha (fun _ => rfl)
    (by simp only [new, List.length_singleton]; omega) (by simp [new])
  rw [hr] at h1; cases h1
  have key : r.nextIdx = none → r.peek = some r.flat.head? := by
    intro hn
    have hl : r.live = r.idx :: r.stack := by simp [live, hn]
    obtain ⟨s, hs⟩ : ∃ s, r.sources[r.idx]? = some s :=
      ⟨_, List.getElem?_eq_getElem (hlive.bound r.idx (by simp [hl]))⟩
    simp only [peek, hn, hs, Option.bind_eq_bind, Option.bind_some, Option.pure_def]
    rw [flat_eq, hl, List.flatMap_cons, restAt_of hs]
    cases hr0 : s.rest with
    | cons c cs => simp
    | nil =>
      simp only [List.head?_nil, List.nil_append]
      cases hst : r.stack with
      | nil => simp
      | cons i st =>
        obtain ⟨si, hsi⟩ : ∃ s, r.sources[i]? = some s :=
          ⟨_, List.getElem?_eq_getElem (hlive.bound i (by simp [hl, hst]))⟩
        simp only [hsi, Option.map_some, List.flatMap_cons, restAt_of hsi]
        cases hri : si.rest with
        | cons c cs => simp
        | nil =>
          rcases hopen hn with h | ⟨j, hj, sj, hsj, hlt⟩
          · rw [hst] at h
            have : st = [] := by simpa using h
            subst this; simp
          · exfalso
            have hne : sj.rest ≠ [] := by simp [Src.rest]; omega
            rcases hj with rfl | hj
            · rw [hs] at hsj; cases hsj; exact hne hr0
            · rw [hst] at hj; simp at hj; subst hj
              rw [hsi] at hsj; cases hsj; exact hne hri
  have hpk : r.peek = some r.flat.head? := by
    cases hn : r.nextIdx with
    | none => exact key hn
    | some n =>
      have hb := hlive.bound n (by simp [live, hn])
      have hs : r.sources[n]? = some r.sources[n] := List.getElem?_eq_getElem hb
      have hrest := hpend n hn
      rw [restAt_of hs] at hrest
      have hl : r.live = n :: r.idx :: r.stack := by simp [live, hn]
      simp only [peek, hn, hs, Option.map_some]
      rw [flat_eq, hl, List.flatMap_cons, restAt_of hs]
      cases h : r.sources[n].rest with
      | nil => exact absurd h hrest
      | cons => simp
  refine ⟨hpk, ?_⟩
  simp only [isEof, hpk, Option.map_some]
  cases r.flat <;> rfl

example : ∃ outs r, (new [97, 10, 122]).run [] (nestedOps.take 5) = some (outs, r) ∧ r.stack.length ≤ 1 ∧
    r.peek = some (some 122) := by
  have h : ((new [97, 10, 122]).run [] (nestedOps.take 5)).all
      (fun x => decide (x.2.stack.length ≤ 1) && x.2.peek == some (some 122)) = true := by decide +kernel
  obtain ⟨outs, r, h1, _⟩ := C05_includes_are_inserted_text [] [97, 10, 122] (nestedOps.take 5)
    (by simp [nestedOps, Alternating]) (by decide)
  rw [h1] at h
  simp only [Option.all_some, Bool.and_eq_true, beq_iff_eq, decide_eq_true_eq] at h
  exact ⟨outs, r, h1, h⟩

/-- C05 is violated by the 65536th source: pushing an include on top of 65535 sources panics. -/
theorem C05_source_count_violated (r : Root) (h : r.sources.length = 65535) (b : List UInt8) (d : Option Nat) :
    r.push b d = none := by
  simp [push, h]

/-- a strictly decreasing list of naturals is no longer than its first element allows -/
private theorem sorted_length (i : Nat) (l : List Nat) (h : (i :: l).Pairwise (· > ·)) : l.length ≤ i := by
  induction l generalizing i with
  | nil => simp
  | cons j l ih =>
    have h1 := (List.pairwise_cons.mp h).1 j (by simp)
    have := ih j (List.pairwise_cons.mp h).2
    simp only [List.length_cons]; omega

private theorem guarded (plugins : List (List UInt8)) (ctxMax : Nat) (ops : List ReadOp) (r : Root)
    (pending : Bool) (h : Live r.sources r.live) (ha : Alternating pending ops)
    (hp : pending = false → r.nextIdx = none) (hlen : r.sources.length + pushes ops ≤ 65535)
    (hn : r.nesting ≤ ctxMax) {log r'} (hr : r.runGuarded plugins ctxMax ops = some (log, r')) :
    r'.nesting ≤ ctxMax ∧ ∀ i ∈ log, i < ctxMax := by
  induction ops generalizing r pending log r' with
  | nil => cases hr; exact ⟨hn, by simp⟩
  | cons op ops ih =>
    have read : (∀ b d, op ≠ .push b d) → Alternating false ops → pushes (op :: ops) = pushes ops →
        ((r.op plugins op).bind fun x => runGuarded plugins ctxMax x.2 ops) = some (log, r') →
        r'.nesting ≤ ctxMax ∧ ∀ i ∈ log, i < ctxMax := by
      intro hop ha' hps hr'
      obtain ⟨o, r1, e1, e2, e3, e4, e5, e6⟩ := op_refines plugins r op h
        (by rintro ⟨b, d, hb⟩; exact absurd hb (hop b d))
      obtain ⟨f1, f2, f3⟩ := e5 hop
      rw [e1] at hr'
      exact ih r1 false e2 ha' (fun _ => f2) (by rw [f1]; omega) (by unfold nesting at *; omega) hr'
    cases op with
    | push b d =>
      simp only [runGuarded, Option.bind_eq_bind, Option.pure_def] at hr
      cases hex : r.exceeded ctxMax with
      | none => rw [hex] at hr; simp at hr
      | some ex =>
        simp only [pushes] at hlen
        rw [hex] at hr; simp only [Option.bind_some] at hr
        cases ex with
        | some e => exact ih r true h ha.2 (by simp) (by omega) hn hr
        | none =>
          have hnx := hp ha.1
          obtain ⟨o, r1, e1, e2, e3, e4, e5, e6⟩ := op_refines plugins r (.push b d) h
            (fun _ => ⟨hnx, by omega⟩)
          simp only [e1, Option.bind_some] at hr
          cases hg : runGuarded plugins ctxMax r1 ops with
          | none => rw [hg] at hr; simp at hr
          | some res =>
            obtain ⟨log1, r2⟩ := res
            rw [hg] at hr
            simp only [Option.bind_some, Option.some.injEq, Prod.mk.injEq] at hr
            obtain ⟨rfl, rfl⟩ := hr
            have hidx : r.idx < ctxMax := by
              simp only [exceeded] at hex
              split at hex
              · simp at hex
              · split at hex
                · simp at hex
                · rename_i _ hle; omega
            have hl : r.live = r.idx :: r.stack := by simp [live, hnx]
            have hst : r.stack.length ≤ r.idx := sorted_length _ _ (by rw [← hl]; exact h.sorted)
            have hn1 : r1.nesting ≤ ctxMax := by
              obtain ⟨n, hnn⟩ : ∃ n, r1.nextIdx = some n := by
                simp only [Root.op, push, Option.map_eq_some_iff, Prod.mk.injEq] at e1
                obtain ⟨a, ha1, _, rfl⟩ := e1
                split at ha1
                · simp at ha1
                · cases ha1; exact ⟨_, rfl⟩
              unfold nesting
              rw [(e6 n hnn).2.1, hl]; simp only [List.length_cons]; omega
            obtain ⟨g1, g2⟩ := ih r1 true e2 ha.2 (by simp) (by rw [e4 ⟨b, d, rfl⟩]; omega) hn1 hg
            refine ⟨g1, ?_⟩
            intro i hi
            rcases List.mem_cons.mp hi with rfl | hi
            · exact hidx
            · exact g2 i hi
    | nextToken => exact read (by simp) ha rfl hr
    | skipByte => exact read (by simp) ha rfl hr
    | consumeEmpty => exact read (by simp) ha rfl hr

/-- C06: with a maximum include depth, however files include each other (also themselves) and whatever `depth`
options they carry, the source being read is never nested deeper than the maximum; and if no source contains more
than `k` include directives, at most `max · k` includes are processed in total, so expansion ends. -/
theorem C06_include_depth_bounded (plugins : List (List UInt8)) (ctxMax : Nat) (main : List UInt8)
    (ops : List ReadOp) (ha : Alternating false ops) (hlen : pushes ops < 65535) {log : List Nat} {r : Root}
    (hr : (new main).runGuarded plugins ctxMax ops = some (log, r)) :
    r.nesting ≤ ctxMax ∧ ∀ k, (∀ i, log.count i ≤ k) → log.length ≤ ctxMax * k := by
  obtain ⟨h1, h2⟩ := guarded plugins ctxMax ops (new main) false (live_new main) ha (fun _ => rfl)
    (by simp only [new, List.length_singleton]; omega) (by simp [nesting, live, new]) hr
  refine ⟨h1, fun k hk => ?_⟩
  clear hr h1
  induction ctxMax generalizing log with
  | zero =>
    cases log with
    | nil => simp
    | cons i l => exact absurd (h2 i (by simp)) (by omega)
  | succ m ih =>
    have := ih (log := log.filter (· != m)) (by
      intro i hi
      have := h2 i (List.mem_filter.mp hi).1
      have := (List.mem_filter.mp hi).2
      simp at this; omega) (by
      intro i
      exact Nat.le_trans (List.Sublist.count_le i List.filter_sublist) (hk i))
    have hcount := hk m
    have hsplit : log.length = (log.filter (· != m)).length + log.count m := by
      clear hk this ih h2 hcount
      induction log with
      | nil => rfl
      | cons a l ihl =>
        by_cases e : a = m
        · subst e; simp; omega
        · have : (a != m) = true := by simp [e]
          simp [e, this]; omega
    rw [Nat.succ_mul]; omega

/-- a file `a⏎` that includes itself after its first line, three times -/
private def selfOps : List ReadOp :=
  [.nextToken, .skipByte, .push [97, 10] none, .nextToken, .skipByte, .push [97, 10] none, .nextToken, .skipByte,
   .push [97, 10] none, .skipByte]

example : ∃ r, (new [97, 10]).runGuarded [] 2 selfOps = some ([0, 1], r) ∧ r.sources.length = 3 ∧
    Alternating false selfOps := by
  have h : (((new [97, 10]).runGuarded [] 2 selfOps).map fun x => (x.1, x.2.sources.length)) = some ([0, 1], 3) := by
    decide +kernel
  simp only [Option.map_eq_some_iff, Prod.mk.injEq] at h
  obtain ⟨⟨log, r⟩, h1, rfl, h3⟩ := h
  exact ⟨r, h1, h3, by simp [selfOps, Alternating]⟩

/-- C55 is violated: the check counts sources, not nesting. With the limit 2, after two includes next to each
other the second one may not include anything, although that would be nested only 2 deep. -/
theorem C55_shallow_include_violated :
    ∃ r : Root, (((new [97, 10]).run [] [.push [98] none, .nextToken, .skipByte, .consumeEmpty, .push [99] none,
        .nextToken]).map Prod.snd = some r) ∧ r.nesting = 1 ∧ r.exceeded 2 = some (some 2) := by
  have h : (((new [97, 10]).run [] [.push [98] none, .nextToken, .skipByte, .consumeEmpty, .push [99] none,
        .nextToken]).map fun x => (x.2.nesting, x.2.exceeded 2)) = some (1, some (some 2)) := by decide +kernel
  obtain ⟨x, h1, h2⟩ := Option.map_eq_some_iff.mp h
  simp only [Prod.mk.injEq] at h2
  exact ⟨x.2, by rw [h1]; rfl, h2⟩

/-- C55, in part: without `depth` options, an include is accepted whenever the index of the including source is
below the limit (in particular always from the main document, if the limit is positive); so in a chain of
includes, where index and nesting agree, exactly the includes nested up to the limit are accepted. Missing: when
there are sibling includes, the index exceeds the nesting (see the violation). -/
theorem C55_chain_includes_accepted_partial (r : Root) (ctxMax : Nat) (hmax : ctxMax < 65536)
    (hd : ∀ s ∈ r.sources, s.maxDepth = none) (hchain : r.idx = r.nesting) :
    (r.nesting + 1 ≤ ctxMax → r.exceeded ctxMax = some none) ∧
    (ctxMax < r.nesting + 1 → r.exceeded ctxMax = some (some ctxMax)) := by
  have hm : r.maxIncludeDepth = none := by
    unfold maxIncludeDepth
    suffices ∀ l : List (Src × Nat), (∀ x ∈ l, x.1.maxDepth = none) →
        l.foldl (fun cur (x : Src × Nat) => (x.1.maxDepth.map fun d => (d, x.2)).or cur) none = none from
      this _ (fun x hx => hd _ (List.fst_mem_of_mem_zipIdx hx))
    intro l hl
    induction l with
    | nil => rfl
    | cons a l ih =>
      simp only [List.foldl_cons, hl a (by simp), Option.map_none, Option.none_or]
      exact ih fun x hx => hl x (by simp [hx])
  unfold exceeded
  simp only [hm, Option.getD_none, Nat.add_zero, Nat.min_self]
  rw [if_neg (by omega)]
  constructor
  · intro h; rw [if_neg (by omega)]
  · intro h; rw [if_pos (by omega)]

example : (new [97]).idx = (new [97]).nesting ∧ (∀ s ∈ (new [97]).sources, s.maxDepth = none) := by decide

end Verif.Props
