import Verif.Spec.TocCheck
import Verif.Props.Lexer
import Verif.Props.Eval
/-!
# Tables of contents that are asked for, and diagnostics about lines

**C108**: a table of contents that the header of the document asks for is in the page, or it is said why not.

**C109**: a diagnostic about a line, or about something in it, shows that line and underlines that.
-/
namespace Verif.Props
open Verif.Ast Verif.Eval Verif.Spec.Eval Verif.TocCheck Verif.Spec.TocCheck Verif.Diagnostics Verif.Lexer

/-! ### C109 -/

private theorem line_at {src line : List UInt8} {n start c : Nat} (h : LineAt src line n start) (hc : c ≤ line.length) :
    lineNumberWithOffset src (start + c) = some (1 + n, c) ∧ ∃ text, lineOf src (start + c) = some text ∧ TrimmedEnd line text := by
  obtain ⟨before, after, rfl, rfl, rfl, h1, h2, h3, h4⟩ := h
  exact C04_line_and_column before line after c h1 h3 (fun hm => h4 (List.mem_of_mem_drop hm)) h2 hc

private theorem underlined_all {n : Nat} {line message file : List UInt8} : underlined ⟨n, line, message, 0, line.length, file⟩ = line := by
  simp [underlined]

/-- **C109** (lines): a diagnostic about the line of a place shows and underlines the whole line, wherever in it the place is. -/
theorem C109_line_of {src line file message : List UInt8} {n start c : Nat} (h : LineAt src line n start) (hc : c ≤ line.length) :
    ∃ d, errLineOf src file message (start + c) = some d ∧ About d line n ∧ d.message = message ∧ d.file = file := by
  obtain ⟨h1, text, h2, h3⟩ := line_at h hc
  refine ⟨⟨1 + n, text, message, 0, text.length, file⟩, ?_, ⟨Nat.add_comm .., h3, underlined_all, ?_⟩, rfl, rfl⟩
  · simp [errLineOf, h1, h2]
  · simp [Within]

/-- **C109** (lines from their start): so does one about the line that starts at a place. -/
theorem C109_line_starting {src line file message : List UInt8} {n start : Nat} (h : LineAt src line n start) :
    ∃ d, errLineStarting src file message start = some d ∧ About d line n ∧ d.message = message ∧ d.file = file := by
  obtain ⟨h1, text, h2, h3⟩ := line_at (c := 0) h (by omega)
  refine ⟨⟨1 + n, text, message, 0, text.length, file⟩, ?_, ⟨Nat.add_comm .., h3, underlined_all, ?_⟩, rfl, rfl⟩
  · simp only [Nat.add_zero] at h1 h2
    simp [errLineStarting, h1, h2]
  · simp [Within]

/-- **C109** (lines that were read): a diagnostic about a line that was read shows that line, all of it underlined. -/
theorem C109_line {src line file message : List UInt8} {n start : Nat} (h : LineAt src line n start) :
    ∃ d, errLine src file message line start = some d ∧ d.lineNum = n + 1 ∧ d.line = line ∧ underlined d = line ∧ Within d ∧
      d.message = message ∧ d.file = file := by
  obtain ⟨h1, -⟩ := line_at (c := 0) h (by omega)
  refine ⟨⟨1 + n, line, message, 0, line.length, file⟩, ?_, Nat.add_comm .., rfl, underlined_all, ?_, rfl, rfl⟩
  · simp only [Nat.add_zero] at h1
    simp [errLine, h1]
  · simp [Within]

private theorem find_some {p s : List UInt8} {i : Nat} (h : find p s = some i) : ∃ a b, s = a ++ p ++ b ∧ a.length = i := by
  fun_induction find p s generalizing i with
  | case1 hp => cases h; exact ⟨[], [], by simp [hp], rfl⟩
  | case2 => cases h
  | case3 b s hp =>
    cases h
    obtain ⟨r, hr⟩ := List.isPrefixOf_iff_prefix.1 hp
    exact ⟨[], r, by simp [hr], rfl⟩
  | case4 b s hp ih =>
    cases hf : find p s with
    | none => rw [hf] at h; cases h
    | some j =>
      rw [hf] at h
      cases h
      obtain ⟨x, y, hs, hl⟩ := ih hf
      exact ⟨b :: x, y, by simp [hs], by simp [hl]⟩

private theorem find_le {p s a b : List UInt8} (h : s = a ++ p ++ b) : ∃ i, find p s = some i ∧ i ≤ a.length := by
  fun_induction find p s generalizing a with
  | case1 hp => exact ⟨0, rfl, by omega⟩
  | case2 hp =>
    have := congrArg List.length h
    simp only [List.length_append, List.length_nil] at this
    exact absurd (List.eq_nil_of_length_eq_zero (by omega)) hp
  | case3 => exact ⟨0, rfl, by omega⟩
  | case4 c s hp ih =>
    cases a with
    | nil =>
      exfalso
      apply hp
      rw [List.isPrefixOf_iff_prefix]
      exact ⟨b, by simpa using h.symm⟩
    | cons x xs =>
      obtain ⟨i, h1, h2⟩ := ih (a := xs) (by simpa using (List.cons.inj h).2)
      exact ⟨i + 1, by rw [h1]; rfl, by simp; omega⟩

/-- **C109** (patterns): a diagnostic about a text in a line underlines the first such text in the line; if the line has none, it underlines
the line. -/
theorem C109_pattern {src line file message pattern : List UInt8} {n start c : Nat} (h : LineAt src line n start) (hc : c ≤ line.length) :
    ∃ d, errAtPattern src file message (start + c) pattern = some d ∧ d.lineNum = n + 1 ∧ TrimmedEnd line d.line ∧ Within d ∧
      d.message = message ∧ d.file = file ∧
      (pattern <:+: d.line → underlined d = pattern ∧ ∀ a b, d.line = a ++ pattern ++ b → d.start ≤ a.length) ∧
      (¬ pattern <:+: d.line → underlined d = d.line) := by
  obtain ⟨h1, text, h2, h3⟩ := line_at h hc
  cases hf : find pattern text with
  | none =>
    refine ⟨⟨1 + n, text, message, 0, text.length, file⟩, ?_, Nat.add_comm .., h3, by simp [Within], rfl, rfl, ?_, fun _ => underlined_all⟩
    · simp [errAtPattern, h1, h2, hf]
    · rintro ⟨a, b, e⟩
      obtain ⟨i, hi, -⟩ := find_le e.symm
      rw [hf] at hi
      cases hi
  | some i =>
    obtain ⟨a, b, e, hl⟩ := find_some hf
    refine ⟨⟨1 + n, text, message, i, pattern.length, file⟩, ?_, Nat.add_comm .., h3, ?_, rfl, rfl, fun _ => ⟨?_, ?_⟩, ?_⟩
    · simp [errAtPattern, h1, h2, hf]
    · simp only [Within, e, List.length_append]
      omega
    · simp [underlined, e, ← hl]
    · intro a' b' e'
      obtain ⟨j, hj, hle⟩ := find_le e'
      simp only at hj
      rw [hf] at hj
      cases hj
      exact hle
    · exact fun hn => absurd ⟨a, b, e.symm⟩ hn

/-! ### C108 -/

/-- **C108** (values): these values ask for a table of contents, at these places, and no others do. -/
theorem C108_values (v : Value) (p : TocPosition) : prepareToc (some v) = some p ↔ (v, p) ∈ places := by
  cases v with
  | bool b => cases b <;> cases p <;> simp [prepareToc, places]
  | str s =>
    unfold prepareToc places
    simp only [List.mem_cons, Prod.mk.injEq, Value.str.injEq, reduceCtorEq, false_and, false_or, List.not_mem_nil, or_false]
    repeat' split
    all_goals (cases p <;> simp_all)

theorem C108_none : prepareToc none = none := rfl

private def wf : Block → Prop
  | .mk info _ _ _ content => Verif.Spec.Eval.Fits info.context content = true

private theorem all_mem {p : Block → Prop} : ∀ {bs : List Block} {b : Block}, AllBlocks p bs → b ∈ bs → AllBlock p b
  | _ :: _, _, h, .head _ => h.1
  | _ :: _, _, h, .tail _ hm => all_mem h.2 hm

private theorem all_items {p : Block → Prop} : ∀ {is : List Item} {i : Item}, AllItems p is → i ∈ is → AllItem p i
  | _ :: _, _, h, .head _ => h.1
  | _ :: _, _, h, .tail _ hm => all_items h.2 hm

private theorem all_sects {p : Block → Prop} : ∀ {is : List Sect} {i : Sect}, AllSects p is → i ∈ is → AllSect p i
  | _ :: _, _, h, .head _ => h.1
  | _ :: _, _, h, .tail _ hm => all_sects h.2 hm

private theorem all_parts {p : Block → Prop} : ∀ {is : List Part} {i : Part}, AllParts p is → i ∈ is → AllPart p i
  | _ :: _, _, h, .head _ => h.1
  | _ :: _, _, h, .tail _ hm => all_parts h.2 hm

section
variable {inl : List Inline → List Ev} {toc : Option Toc} {e : Ev}

private theorem in_blocks : ∀ {bs : List Block} {b : Block}, b ∈ bs → e ∈ evalBlock inl toc b → e ∈ evalBlocks inl toc bs
  | _ :: _, _, .head _, h => by rw [evalBlocks]; exact List.mem_append_left _ h
  | _ :: _, _, .tail _ hm, h => by rw [evalBlocks]; exact List.mem_append_right _ (in_blocks hm h)

private theorem in_descBlocks : ∀ {bs : List Block} {b : Block}, b ∈ bs → e ∈ evalBlock inl toc b → e ∈ evalDescBlocks inl toc bs
  | _ :: _, _, .head _, h => by rw [evalDescBlocks]; exact List.mem_append_left _ (by simp [around, h])
  | _ :: _, _, .tail _ hm, h => by rw [evalDescBlocks]; exact List.mem_append_right _ (in_descBlocks hm h)

private theorem in_items {v : Variant} : ∀ {is : List Item} {i : Item}, i ∈ is → e ∈ evalItem inl toc v i → e ∈ evalItems inl toc v is
  | _ :: _, _, .head _, h => by rw [evalItems]; exact List.mem_append_left _ h
  | _ :: _, _, .tail _ hm, h => by rw [evalItems]; exact List.mem_append_right _ (in_items hm h)

private theorem in_descItems : ∀ {is : List Item} {i : Item}, i ∈ is → e ∈ evalDescItem inl toc i → e ∈ evalDescItems inl toc is
  | _ :: _, _, .head _, h => by rw [evalDescItems]; exact List.mem_append_left _ h
  | _ :: _, _, .tail _ hm, h => by rw [evalDescItems]; exact List.mem_append_right _ (in_descItems hm h)

private theorem in_sects : ∀ {is : List Sect} {i : Sect}, i ∈ is → e ∈ evalSect inl toc i → e ∈ evalSects inl toc is
  | _ :: _, _, .head _, h => by rw [evalSects]; exact List.mem_append_left _ h
  | _ :: _, _, .tail _ hm, h => by rw [evalSects]; exact List.mem_append_right _ (in_sects hm h)

private theorem in_parts : ∀ {is : List Part} {i : Part}, i ∈ is → e ∈ evalPart inl toc i → e ∈ evalParts inl toc is
  | _ :: _, _, .head _, h => by rw [evalParts]; exact List.mem_append_left _ h
  | _ :: _, _, .tail _ hm, h => by rw [evalParts]; exact List.mem_append_right _ (in_parts hm h)

private theorem in_sect {s : Sect} {b : Block} (hb : b ∈ sectBlocks s) (h : e ∈ evalBlock inl toc b) : e ∈ evalSect inl toc s := by
  cases s with
  | mk si hd bs =>
    rw [evalSect]
    have := in_blocks (e := e) (inl := inl) (toc := toc) (bs := bs) hb h
    simp [around, this]

private theorem at_here {t : Toc} {ps : List TocPosition} (hp : t.position ∈ ps) (hn : t.nodes ≠ []) :
    Ev.enter (.toc t.position) ∈ evalTocAt inl (some t) ps := by
  simp [evalTocAt, hp, hn, around]

private theorem block_shows {t : Toc} (hp : t.position = .byMacro) (hn : t.nodes ≠ []) {b : Block} (h : MacroIn b) (hw : AllBlock wf b) :
    Ev.enter (.toc t.position) ∈ evalBlock inl (some t) b := by
  induction h with
  | here hc =>
    have := at_here (inl := inl) (ps := [.byMacro]) (t := t) (by simp [hp]) hn
    rw [evalBlock]
    simp [evalContent, view, hc, evalOther, this]
  | @compound info ti a c bs b hm _ ih =>
    have h1 := in_blocks hm (ih (all_mem hw.2 hm))
    have hf := hw.1
    simp only [wf] at hf
    rw [evalBlock]
    refine List.mem_append_right _ ?_
    cases hc : info.context <;> rw [hc] at hf <;> first | (simp [Verif.Spec.Eval.Fits] at hf; done) | (simp [evalContent, view, hc, around, h1]; done)
  | @item info ti a c v items p bs b hi hm _ ih =>
    have hall := all_items hw.2 hi
    have h1 := in_blocks hm (ih (all_mem hall hm))
    have h2 : Ev.enter (.toc t.position) ∈ evalItems inl (some t) v items := in_items hi (by rw [evalItem]; simp [around, h1])
    have hf := hw.1
    simp only [wf] at hf
    rw [evalBlock]
    refine List.mem_append_right _ ?_
    cases hc : info.context <;> rw [hc] at hf
    case descriptionList =>
      simp only [Verif.Spec.Eval.Fits, List.all_eq_true] at hf
      have := hf _ hi
      simp at this
    all_goals first | (simp [Verif.Spec.Eval.Fits] at hf; done) | (simp [evalContent, view, hc, around, h2]; done)
  | @descBlock info ti a c v items p ex d bs b hi hm _ ih =>
    have hall := all_items hw.2 hi
    have h0 := ih (all_mem hall.2 hm)
    have h2 : Ev.enter (.toc t.position) ∈ evalDescItems inl (some t) items := by
      refine in_descItems hi ?_
      cases d with
      | some d => have := in_descBlocks hm h0; simp [evalDescItem, around, this]
      | none =>
        cases bs with
        | nil => cases hm
        | cons x xs =>
          cases hm with
          | head => simp [evalDescItem, around, h0]
          | tail _ hm => have := in_descBlocks hm h0; simp [evalDescItem, around, this]
    have hf := hw.1
    simp only [wf] at hf
    rw [evalBlock]
    refine List.mem_append_right _ ?_
    cases hc : info.context <;> rw [hc] at hf
    case descriptionList => simp [evalContent, view, hc, around, h2]
    all_goals
      first
      | (simp [Verif.Spec.Eval.Fits] at hf; done)
      | (simp only [Verif.Spec.Eval.Fits, List.all_eq_true] at hf
         have := hf _ hi
         simp at this)
  | @descText info ti a c v items p ex bs b hi _ ih =>
    have hall := all_items hw.2 hi
    have h0 := ih hall.1
    have h2 : Ev.enter (.toc t.position) ∈ evalDescItems inl (some t) items := by
      refine in_descItems hi ?_
      simp [evalDescItem, around, h0]
    have hf := hw.1
    simp only [wf] at hf
    rw [evalBlock]
    refine List.mem_append_right _ ?_
    cases hc : info.context <;> rw [hc] at hf
    case descriptionList => simp [evalContent, view, hc, around, h2]
    all_goals
      first
      | (simp [Verif.Spec.Eval.Fits] at hf; done)
      | (simp only [Verif.Spec.Eval.Fits, List.all_eq_true] at hf
         have := hf _ hi
         simp at this)
  | @sect info ti a c si hd bs b hm _ ih =>
    have h1 : Ev.enter (.toc t.position) ∈ evalSect inl (some t) (.mk si hd bs) := in_sect hm (ih (all_mem hw.2 hm))
    have hf := hw.1
    simp only [wf] at hf
    rw [evalBlock]
    refine List.mem_append_right _ ?_
    cases hc : info.context <;> rw [hc] at hf <;> first | (simp [Verif.Spec.Eval.Fits] at hf; done) | (simp [evalContent, view, hc, h1]; done)

private theorem content_shows {t : Toc} (hp : t.position = .byMacro) (hn : t.nodes ≠ []) {content : DocContent} {has : Bool}
    (h : HasMacro content) (hw : AllDocContent wf content) :
    Ev.enter (.toc t.position) ∈ evalDocContent inl (some t) has content := by
  obtain ⟨b, hb, hm⟩ := h
  have sects : ∀ {ss : List Sect}, b ∈ ss.flatMap sectBlocks → AllSects wf ss → Ev.enter (.toc t.position) ∈ evalSects inl (some t) ss := by
    intro ss hb ha
    obtain ⟨s, hs, hb⟩ := List.mem_flatMap.1 hb
    have := all_sects ha hs
    refine in_sects hs (in_sect hb (block_shows hp hn hm ?_))
    cases s
    exact all_mem this hb
  have blocks : ∀ {bs : List Block}, b ∈ bs → AllBlocks wf bs → Ev.enter (.toc t.position) ∈ evalBlocks inl (some t) bs :=
    fun hb ha => in_blocks hb (block_shows hp hn hm (all_mem ha hb))
  have parts : ∀ {ps : List Part}, b ∈ ps.flatMap partBlocks → AllParts wf ps → Ev.enter (.toc t.position) ∈ evalParts inl (some t) ps := by
    intro ps hb ha
    obtain ⟨q, hq, hb⟩ := List.mem_flatMap.1 hb
    have ha := all_parts ha hq
    refine in_parts hq ?_
    obtain ⟨ti, bt, intro, ss⟩ := q
    rcases List.mem_append.1 hb with hb | hb
    · cases intro with
      | none => cases hb
      | some bs =>
        have := blocks (bs := bs) hb ha.1
        simp [evalPart, around, this]
    · have := sects hb ha.2
      cases intro <;> simp [evalPart, around, this]
  cases content with
  | blocks bs => rw [evalDocContent]; exact blocks hb hw
  | sections p ss =>
    rcases List.mem_append.1 hb with hb | hb
    · cases p with
      | none => cases hb
      | some bs =>
        have := blocks (bs := bs) hb hw.1
        simp [evalDocContent, around, this]
    · have := sects hb hw.2
      cases p <;> simp [evalDocContent, this]
  | parts p o ps c =>
    obtain ⟨h1, h2, h3, h4⟩ := hw
    rcases List.mem_append.1 hb with hb | hb
    · rcases List.mem_append.1 hb with hb | hb
      · rcases List.mem_append.1 hb with hb | hb
        · cases p with
          | none => cases hb
          | some bs =>
            have := blocks (bs := bs) hb h1
            simp [evalDocContent, around, this]
        · have := sects hb h2
          cases p <;> simp [evalDocContent, around, this]
      · have := parts hb h3
        cases p <;> simp [evalDocContent, this]
    · have := sects hb h4
      cases p <;> simp [evalDocContent, this]
end

/-- what is said of a missing place -/
def missing : TocPosition → List UInt8
  | .byMacro => noMacro
  | _ => noPreamble

/-- **C108**, partial: if the header asks for a table of contents and there is something to list, the table is in the page, or there is a
diagnostic that says which place is missing, about the line of the header that asks for it first.

Missing: books in parts without a preamble (`C108_parts_violated`), and tables of contents that are asked for from outside
(`C108_outside_violated`). -/
theorem C108_shown_or_reported_partial {env : Env} {n : Nat} {attrs : Meta} {title head header footer : Option (List Inline)} {toc : Toc}
    {content : DocContent} {debug sawMacro : Bool} {src file line : List UInt8} {before : List Def} {d : Def} {after : List Def} {k c : Nat}
    (hw : WellFormed (.mk attrs title (some toc) head header footer content)) (hn : toc.nodes ≠ []) (hb : bareParts content = false)
    (hs : sawMacro = true → HasMacro content)
    (hd : d.name = "toc" ∧ d.inHeader = true) (hf : ∀ x ∈ before, x.inHeader = true → x.name ≠ "toc")
    (hl : ∃ start, LineAt src line k start ∧ d.loc = start + c ∧ c ≤ line.length) :
    Ev.enter (.toc toc.position) ∈ trace env n (.mk attrs title (some toc) head header footer content) ∨
    ∃ dg, diagnoseToc debug src file (before ++ d :: after) (some toc.position) sawMacro content = .reported dg ∧ About dg line k ∧
      dg.message = missing toc.position ∧ dg.file = file := by
  have hw' : AllDocContent wf content := hw
  have inContent : ∀ e, e ∈ evalDocContent (inlines env n) (some toc) title.isSome content →
      e ∈ trace env n (.mk attrs title (some toc) head header footer content) := by
    intro e he
    simp [trace, Eval.visit, around, he]
  have err : ∀ message, ∃ dg, errDocAttr debug src file (before ++ d :: after) "toc" message = .reported dg ∧ About dg line k ∧
      dg.message = message ∧ dg.file = file := by
    intro message
    have hfind : (before ++ d :: after).find? (fun d => d.inHeader && d.name == "toc") = some d := by
      rw [List.find?_append, List.find?_eq_none.2, Option.none_or, List.find?_cons]
      · simp [hd.1, hd.2]
      · intro x hx
        have := hf x hx
        simpa using this
    obtain ⟨start, h1, h2, h3⟩ := hl
    obtain ⟨dg, h4, h5⟩ := C109_line_of (file := file) (message := message) h1 h3
    exact ⟨dg, by rw [errDocAttr, hfind]; simp only [h2, h4, ofOption], h5⟩
  have top : toc.position ∈ [TocPosition.auto, .left, .right] →
      Ev.enter (.toc toc.position) ∈ trace env n (.mk attrs title (some toc) head header footer content) := by
    intro h
    have := at_here (inl := inlines env n) h hn
    simp [trace, Eval.visit, around, this]
  cases hpos : toc.position with
  | auto => exact .inl (hpos ▸ top (by simp [hpos]))
  | left => exact .inl (hpos ▸ top (by simp [hpos]))
  | right => exact .inl (hpos ▸ top (by simp [hpos]))
  | byMacro =>
    cases hsm : sawMacro with
    | true => exact .inl (hpos ▸ inContent _ (content_shows hpos hn (hs hsm) hw'))
    | false =>
      right
      simp only [diagnoseToc, missing]
      exact err _
  | preamble =>
    have := at_here (inl := inlines env n) (ps := [.preamble]) (t := toc) (by simp [hpos]) hn
    rw [hpos] at this
    cases content with
    | blocks bs => right; exact err _
    | sections p ss =>
      cases p with
      | none => right; exact err _
      | some bs => exact .inl (inContent _ (by simp [evalDocContent, around, this]))
    | parts p o ps c =>
      cases p with
      | none => cases hb
      | some bs => exact .inl (inContent _ (by simp [evalDocContent, around, this]))

/-- **C108** (quiet): nothing is said of a table of contents that has its place. -/
theorem C108_quiet {debug sawMacro : Bool} {src file : List UInt8} {defs : List Def} {position : Option TocPosition} {content : DocContent}
    (hm : position = some .byMacro → sawMacro = true)
    (hp : position = some .preamble → ∃ bs, (∃ ss, content = .sections (some bs) ss) ∨ ∃ o ps c, content = .parts (some bs) o ps c) :
    diagnoseToc debug src file defs position sawMacro content = .nothing := by
  unfold diagnoseToc
  split
  · rw [hm rfl]; rfl
  · obtain ⟨bs, ⟨ss, rfl⟩ | ⟨o, ps, c, rfl⟩⟩ := hp rfl <;> rfl
  · rfl

/-- **C108** (macros): the macro is reported, with its line, if and only if no table of contents is asked for. -/
theorem C108_macro {src file line : List UInt8} {k start : Nat} {position : Option TocPosition} (h : LineAt src line k start) :
    (position = none → ∃ d, tocMacro src file line start position = .reported d ∧ d.lineNum = k + 1 ∧ underlined d = line ∧
      d.message = notEnabled) ∧
    (position ≠ none → tocMacro src file line start position = .nothing) := by
  constructor
  · rintro rfl
    obtain ⟨d, h1, h2, h3, h4, h5, h6, h7⟩ := C109_line (file := file) (message := notEnabled) h
    exact ⟨d, by simp [tocMacro, h1, ofOption], h2, h4, h6⟩
  · intro h
    cases position with
    | none => exact absurd rfl h
    | some p => rfl

/-- a book with one part and no preamble -/
private def bareBook : DocContent := .parts none [] [.mk [evText 'p'] none none [.mk ⟨1, true⟩ [evText 's'] [evPara [evText 'x']]]] []

/-- **C108 violated**: a book in parts without a preamble has no place for a table of contents that belongs into the preamble, and nobody
says so. -/
theorem C108_parts_violated (debug : Bool) (src file : List UInt8) (defs : List Def) :
    diagnoseToc debug src file defs (some .preamble) false bareBook = .nothing ∧
    ∀ p, Ev.enter (.toc p) ∉ trace evEnv 3 (.mk evMeta none (some ⟨.preamble, [.mk 0 [evText 'p'] []]⟩) none none none bareBook) := by
  refine ⟨rfl, ?_⟩
  intro p
  cases p <;> decide +kernel

/-- **C108 violated**: nothing is said if the table of contents was asked for from outside of the document, and programs that were compiled
with assertions end. -/
theorem C108_outside_violated (src file : List UInt8) (bs : List Block) :
    diagnoseToc false src file [] (some .preamble) false (.blocks bs) = .nothing ∧
    diagnoseToc true src file [] (some .preamble) false (.blocks bs) = .panic := ⟨rfl, rfl⟩

/-- **C108 violated**: of two definitions the last one counts, but the first one is blamed. -/
theorem C108_last_definition_violated :
    diagnoseToc false (bs ":toc:\n:toc: macro\n") [] [⟨"toc", true, 0⟩, ⟨"toc", true, 6⟩] (some .byMacro) false (.blocks []) =
      .reported ⟨1, bs ":toc:", noMacro, 0, 5, []⟩ := by decide +kernel

/-- **C108 violated**: nothing is said of a value that asks for no known place. -/
theorem C108_unknown_violated : prepareToc (some (.str "top")) = none := by decide

/-! ### the hypotheses are met -/

private theorem someLine : LineAt (bs "= T\n:toc: macro  \n\nx") (bs ":toc: macro  ") 1 4 :=
  ⟨bs "= T\n", bs "\n\nx", by decide +kernel, by decide +kernel, by decide +kernel, by decide +kernel, by decide +kernel, by decide +kernel,
    by decide +kernel⟩

example : errLineOf (bs "= T\n:toc: macro  \n\nx") [] [] 7 = some ⟨2, bs ":toc: macro", [], 0, 11, []⟩ := by decide +kernel
example : errAtPattern (bs "= T\n:toc: macro  \n\nx") [] [] 4 (bs "mac") = some ⟨2, bs ":toc: macro", [], 6, 3, []⟩ := by decide +kernel

private def listWithMacro : Block := .mk (evInfo .unorderedList) none none none
  (.list .unordered [.plain [] [.mk (evInfo .tableOfContents) none none none .empty]])

example : HasMacro (.sections none [.mk ⟨1, true⟩ [] [listWithMacro]]) :=
  ⟨listWithMacro, by simp [tops, sectBlocks], .item (.head _) (.head _) (.here rfl)⟩

example : WellFormed (.mk evMeta none (some ⟨.byMacro, [.mk 1 [] []]⟩) none none none (.sections none [.mk ⟨1, true⟩ [] [listWithMacro]])) := by
  simp [WellFormed, AllDoc, AllDocContent, AllOptBlocks, AllSects, AllSect, AllBlocks, AllBlock, AllContent, AllItems, AllItem, listWithMacro,
    evInfo, Verif.Spec.Eval.Fits]

end Verif.Props
