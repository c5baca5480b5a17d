import Verif.Lemmas.DirText
import Verif.Props.Directives
import Verif.Props.Ifeval
namespace Verif.Props
open Verif Verif.Lexer Verif.Directives

/-! ### C82 -/

private theorem condition_holds {F : Type} (env : Env F) (hf : ∀ s, s.head? = some '"' ∨ s.head? = some '\'' → env.parseFloat s = none)
    (c : Comparison) (hc : c.Ok) (o : Ordering) (ho : Ifeval.Ordered env.pcmp c.left.value c.right.value o) :
    condition env (evalLine c.text) = some (some (c.op.means o)) := by
  have co : ∀ x : Operand, x.Ok → Ifeval.coerce env.parseFloat x.text = some x.value := fun x hx =>
    operand_coerce hx hf (fun n => ⟨fun h => ((C10_integers env.parseFloat n).1 h).1, (C10_integers env.parseFloat n).2⟩)
      (fun s q hq h => C10_quoted_string env.parseFloat s q hq h)
  have hop : Ifeval.Op.fromStr c.op.spelling.toList = some c.op := (C10_operator_spelling _ _).2 rfl
  rw [condition, comparison_match hc]
  simp only [ne_eq, not_true, if_false, hop, co _ hc.1, co _ hc.2.1, Option.bind_eq_bind, Option.bind_some,
    (C10_comparisons_follow_order_partial env.pcmp _ _ o ho c.op).1]

/-- every line of a document that is written as a text gives what is said of it -/
private theorem written_lines {F : Type} (env : Env F) (hf : ∀ s, s.head? = some '"' ∨ s.head? = some '\'' → env.parseFloat s = none) (doc : Doc)
    (hw : doc.WellFormed) (h : doc.Written env.pcmp) :
    ∀ d ∈ doc.render, ('\n' ∉ d.text ∧ '\r' ∉ d.text) ∧ ∀ toks, LineOf env.plugins toks (encode d.text) → Rel env toks d := by
  have names : ∀ a : Names, a.Written → ∀ x, Regex.space x = true → x ∉ a.text := by
    intro a ha x hx hm
    rw [(ha.chars x hm).1] at hx
    cases hx
  have ifl : ∀ (d : Bool) (a : Names) (c : List Char), a.Written → PlainText c → '\n' ∉ ifLine d a.text c ∧ '\r' ∉ ifLine d a.text c := by
    intro d a c ha hc
    have h1 := names a ha '\n' (by decide)
    have h2 := names a ha '\r' (by decide)
    cases d <;> simp [ifLine, h1, h2, hc.line.1, hc.line.2]
  have endl : ∀ t : List Char, '\n' ∉ t → '\r' ∉ t → '\n' ∉ endLine t ∧ '\r' ∉ endLine t := by
    intro t h1 h2
    rw [endLine_eq]
    simp [h1, h2]
  induction doc with
  | nil => intro d hd; simp [Doc.render] at hd
  | text t rest ih =>
    intro d hd
    rcases List.mem_cons.1 hd with rfl | hd
    · exact ⟨h.1.line, fun toks ht => rel_text h.1 ht⟩
    · exact ih hw h.2 d hd
  | oneLine b a c rest ih =>
    intro d hd
    rcases List.mem_cons.1 hd with rfl | hd
    · exact ⟨ifl b a c h.1 h.2.1, fun toks ht => rel_if h.1 h.2.1 ht⟩
    · exact ih hw.2.2 h.2.2 d hd
  | block b a body target rest ih1 ih2 =>
    intro d hd
    rcases List.mem_cons.1 hd with rfl | hd
    · exact ⟨ifl b a [] h.1 PlainText.nil, fun toks ht => rel_if h.1 PlainText.nil ht⟩
    rcases List.mem_append.1 hd with hd | hd
    · exact ih1 hw.2.2.1 h.2.1 d hd
    rcases List.mem_cons.1 hd with rfl | hd
    · have ht : (∀ c ∈ target, Regex.space c = false ∧ c ≠ '[' ∧ c ≠ '{') ∧ NoDirective target := by
        rcases hw.2.1 with rfl | rfl
        · exact ⟨by simp, NoDirective.nil⟩
        · exact ⟨h.1.chars, h.1.noDirective⟩
      refine ⟨endl target ?_ ?_, fun toks htk => rel_end ht.1 ht.2 htk⟩
      · intro hm; have := (ht.1 _ hm).1; revert this; decide
      · intro hm; have := (ht.1 _ hm).1; revert this; decide
    · exact ih2 hw.2.2.2 h.2.2 d hd
  | evalBlock b e body rest ih1 ih2 =>
    intro d hd
    obtain ⟨⟨c, hc, rfl, o, ho, rfl⟩, hb, hr⟩ := h
    rcases List.mem_cons.1 hd with rfl | hd
    · refine ⟨?_, fun toks ht => rel_eval hc (condition_holds env hf c hc o ho) ht⟩
      have h1 : '\n' ∉ c.text := fun hm => (comparison_chars hc _ hm).1 rfl
      have h2 : '\r' ∉ c.text := fun hm => (comparison_chars hc _ hm).2.1 rfl
      rw [evalLine_eq]
      simp [h1, h2]
    rcases List.mem_append.1 hd with hd | hd
    · exact ih1 hw.1 hb d hd
    rcases List.mem_cons.1 hd with rfl | hd
    · exact ⟨endl [] (by simp) (by simp), fun toks htk => rel_end (by simp) NoDirective.nil htk⟩
    · exact ih2 hw.2 hr d hd

/-- C82: when a document with conditionals is written as a text, with line feeds or with carriage returns and line feeds, its lines are
read without a panic and without reports, and they are the lines whose conditions hold: the tokens, the regular expressions and the
comparisons do not get in the way. Partial: for the conditionals of C09, for comparisons of two numbers or two quoted texts with no
operator characters on the left, and for texts without attribute references, attribute entries and the names of directives. -/
theorem C82_conditionals_in_texts_partial {F : Type} (env : Env F) (hf : ∀ s, s.head? = some '"' ∨ s.head? = some '\'' → env.parseFloat s = none)
    (nl : List UInt8) (hnl : nl = [10] ∨ nl = [13, 10]) (doc : Doc) (hw : doc.WellFormed) (hs : doc.Supported env.isSet)
    (h : doc.Written env.pcmp) : readSource env (doc.source nl) = some (doc.expected env.isSet, []) := by
  have hl := written_lines env hf doc hw h
  have hsrc : doc.source nl = [] ++ (doc.render.map fun d => encode d.text).flatMap (· ++ nl) := by
    rw [List.nil_append, List.flatMap_map]; rfl
  have hlen : (doc.render.map fun d => encode d.text).length < (doc.source nl).length + 1 := by
    have : ∀ l : List DLine, l.length ≤ (l.flatMap fun d => encode d.text ++ nl).length := by
      intro l
      induction l with
      | nil => simp
      | cons d l ih =>
        have : 0 < nl.length := by rcases hnl with rfl | rfl <;> simp
        simp only [List.length_cons, List.flatMap_cons, List.length_append] at ih ⊢
        omega
    have := this doc.render
    rw [List.length_map]
    show _ < (doc.render.flatMap fun d => encode d.text ++ nl).length + 1
    omega
  obtain ⟨tokss, h1, h2⟩ := lexLines_spec (plugins := env.plugins) hnl (doc.render.map fun d => encode d.text) ((doc.source nl).length + 1) []
    (.inl rfl) (by
      intro l hl' x hx
      obtain ⟨d, hd, rfl⟩ := List.mem_map.1 hl'
      exact clean_encode (hl d hd).1 x hx) hlen
  rw [← hsrc] at h1
  have hp : Pairs (Rel env) tokss doc.render := by
    have key : ∀ (dls : List DLine) (tokss : List (List Tok)), (∀ d ∈ dls, d ∈ doc.render) →
        Pairs (LineOf env.plugins) tokss (dls.map fun d => encode d.text) → Pairs (Rel env) tokss dls := by
      intro dls
      induction dls with
      | nil => intro tokss _ hp; cases hp; exact .nil
      | cons d dls ih =>
        intro tokss hm hp
        cases hp with
        | cons h1 h2 => exact .cons ((hl d (hm d (by simp))).2 _ h1) (ih _ (fun d hd => hm d (by simp [hd])) h2)
    exact key _ _ (fun _ h => h) h2
  have hr := readToks_rel _ (Nat.le_refl _) hp []
  have h9 := C09_well_nested_document_partial env.isSet doc hw hs
  rw [readSource]
  simp only [List.length_nil] at h1
  simp only [h1, hr, Option.bind_eq_bind, Option.bind_some, h9.1, h9.2]

/-- attributes `foo` and `baz` are set, there are no floats -/
private def someEnv : Env Unit := ⟨[], fun a => a == "foo".toList || a == "baz".toList, fun _ => none, fun _ _ => none⟩

private theorem noDirective_of {t : List Char} (h : ':' ∉ t) : NoDirective t := by
  intro d hd hin
  have hcol : ':' ∈ d.toList := by
    clear hin
    revert d
    decide
  exact h (hin.subset hcol)

-- `ifeval::["a" != 'ä']` with a conditional in it
private def someDoc : Doc :=
  .text "dö, endif:".toList (.evalBlock true "\"a\" != 'ä'".toList
    (.block false ⟨',', ["foo".toList, "bar".toList]⟩ (.text "x".toList .nil) "foo,bar".toList
      (.oneLine true ⟨'+', ["foo".toList, "baz".toList]⟩ "y [z]".toList .nil)) (.text [] .nil))

example : someDoc.WellFormed ∧ someDoc.Supported someEnv.isSet ∧ someDoc.Written someEnv.pcmp ∧
    someDoc.expected someEnv.isSet = ["dö, endif:".toList, "y [z]".toList, []] ∧
    someDoc.render.map (·.text) = ["dö, endif:", "ifeval::[\"a\" != 'ä']", "ifndef::foo,bar[]", "x", "endif::foo,bar[]", "ifdef::foo+baz[y [z]]",
      "endif::[]", ""].map String.toList := by
  have h1 : (⟨',', ["foo".toList, "bar".toList]⟩ : Names).Written := ⟨by decide, by decide, noDirective_of (by decide)⟩
  have h2 : (⟨'+', ["foo".toList, "baz".toList]⟩ : Names).Written := ⟨by decide, by decide, noDirective_of (by decide)⟩
  have h3 : (⟨',', ["foo".toList, "bar".toList]⟩ : Names).Ok := ⟨.inl rfl, by decide, by decide⟩
  have h4 : (⟨'+', ["foo".toList, "baz".toList]⟩ : Names).Ok := ⟨.inr rfl, by decide, by decide⟩
  refine ⟨?_, ?_, ?_, by decide, by decide⟩
  · simp only [someDoc, Doc.WellFormed, h3, h4]
    decide
  · simp [someDoc, someEnv, Doc.Supported, Doc.Plain, Names.Handled, Names.holds]
  · refine ⟨⟨by decide, by decide, by decide, ?_⟩, ⟨⟨.str '"' ['a'], .ne, .str '\'' ['ä'], 1, 1⟩, ?_, by decide, .lt, .strLt (by decide), rfl⟩,
      ⟨h1, ⟨⟨by decide, by decide, by decide, noDirective_of (by decide)⟩, trivial⟩, h2, ⟨by decide, by decide, by decide, noDirective_of (by decide)⟩, trivial⟩,
      ⟨by decide, by decide, by decide, NoDirective.nil⟩, trivial⟩
    · intro d hd hin
      have hcol : ∀ d ∈ ["include::", "ifdef::", "ifndef::", "endif::", "ifeval::", "asciidorkinclude::"], ∃ p, d.toList = p ++ [':', ':'] ∧ [':', ':'] <:+: d.toList := by
        intro d hd
        simp only [List.mem_cons, List.not_mem_nil, or_false] at hd
        rcases hd with rfl | rfl | rfl | rfl | rfl | rfl
        · exact ⟨"include".toList, by decide, ⟨"include".toList, [], by decide⟩⟩
        · exact ⟨"ifdef".toList, by decide, ⟨"ifdef".toList, [], by decide⟩⟩
        · exact ⟨"ifndef".toList, by decide, ⟨"ifndef".toList, [], by decide⟩⟩
        · exact ⟨"endif".toList, by decide, ⟨"endif".toList, [], by decide⟩⟩
        · exact ⟨"ifeval".toList, by decide, ⟨"ifeval".toList, [], by decide⟩⟩
        · exact ⟨"asciidorkinclude".toList, by decide, ⟨"asciidorkinclude".toList, [], by decide⟩⟩
      obtain ⟨_, _, h⟩ := hcol d hd
      have := (h.trans hin).sublist
      revert this
      decide
    · exact ⟨⟨.inl rfl, by decide, by decide, by decide, noDirective_of (by decide)⟩, ⟨.inr rfl, by decide, by decide, by decide, noDirective_of (by decide)⟩, by decide⟩

private theorem bad_line {F : Type} (env : Env F) {toks : List Tok} {l : List Char} (hb : NoConditional l) (h : LineOf env.plugins toks (encode l)) :
    inModel (lineText toks) = true ∧ lineText toks = l ∧ ∃ d, firstDir env toks = some d ∧ (d = none ∨ d = some .badIf ∨ d = some .badEndif) := by
  have hl := lineText_eq h.text
  obtain ⟨start, hs, rest, rfl⟩ := hb.start
  have hsx : ∃ n ∈ [bs "ifdef", bs "ifndef", bs "endif"], encode start.toList = n ++ [58, 58] ∧ n ∈ directives ∧
      ((n = bs "ifdef" ∧ start = "ifdef::") ∨ (n = bs "ifndef" ∧ start = "ifndef::") ∨ (n = bs "endif" ∧ start = "endif::")) := by
    simp only [List.mem_cons, List.not_mem_nil, or_false] at hs
    rcases hs with rfl | rfl | rfl
    · exact ⟨bs "ifdef", by decide, by decide, by decide, by decide⟩
    · exact ⟨bs "ifndef", by decide, by decide, by decide, by decide⟩
    · exact ⟨bs "endif", by decide, by decide, by decide, by decide⟩
  obtain ⟨n, hn, he, hdir, hwhich⟩ := hsx
  refine ⟨?_, hl, ?_⟩
  · rw [hl]
    have h1 := hb.noRef
    rcases hwhich with ⟨_, rfl⟩ | ⟨_, rfl⟩ | ⟨_, rfl⟩ <;> (simp at h1; simp [Directives.inModel, h1])
  · cases toks with
    | nil => exact ⟨none, rfl, .inl rfl⟩
    | cons t ts =>
      by_cases hk : t.kind = .Directive
      · obtain ⟨d, hd, hlx⟩ := (h.ok t (by simp)).dir hk
        have htxt := h.text
        rw [List.flatMap_cons, hlx, encode_append, he] at htxt
        have hdn : d = n := by
          have hp : ∀ d ∈ directives, ∀ n ∈ [bs "ifdef", bs "ifndef", bs "endif"], ∀ x y : List UInt8, d ++ [58, 58] ++ x = n ++ [58, 58] ++ y → d = n := by
            intro d hd n hn x y e
            simp only [directives, List.mem_cons, List.not_mem_nil, or_false] at hd hn
            rcases hd with rfl | rfl | rfl | rfl | rfl | rfl <;> rcases hn with rfl | rfl | rfl <;> first | rfl | (simp [bs, ch] at e)
          exact hp d hd n hn _ _ htxt
        subst hdn
        have his := isDir_of hk hlx
        have hm1 : start = "ifdef::" ∨ start = "ifndef::" → matchIfdef (start.toList ++ rest) = none := by
          intro hst
          cases hm : matchIfdef (start.toList ++ rest) with
          | none => rfl
          | some p =>
            exfalso
            obtain ⟨a, b⟩ := p
            obtain ⟨h1, h2, h3, _⟩ := ifdef_only hm
            apply hb.isNone
            left
            rcases h1 with h1 | h1
            · exact ⟨"ifdef::", by simp, a, b, h1, h3, h2⟩
            · exact ⟨"ifndef::", by simp, a, b, h1, h3, h2⟩
        have hm2 : start = "endif::" → matchEndif (start.toList ++ rest) = none := by
          intro hst
          cases hm : matchEndif (start.toList ++ rest) with
          | none => rfl
          | some p =>
            exfalso
            obtain ⟨h1, _⟩ := endif_only hm
            exact hb.isNone (.inr ⟨p, h1⟩)
        rcases hwhich with ⟨rfl, hst⟩ | ⟨rfl, hst⟩ | ⟨rfl, hst⟩
        · have e2 : isDir t "ifdef::" = true := by rw [his]; decide
          refine ⟨some .badIf, ?_, .inr (.inl rfl)⟩
          simp only [firstDir, hk, e2, hl, hm1 (.inl hst)]
          simp
        · have e1 : isDir t "ifdef::" = false := by rw [his]; decide
          have e2 : isDir t "ifndef::" = true := by rw [his]; decide
          refine ⟨some .badIf, ?_, .inr (.inl rfl)⟩
          simp only [firstDir, hk, e1, e2, hl, hm1 (.inr hst)]
          simp
        · have e1 : isDir t "ifdef::" = false := by rw [his]; decide
          have e2 : isDir t "ifndef::" = false := by rw [his]; decide
          have e3 : isDir t "endif::" = true := by rw [his]; decide
          have e4 : endifTarget (t :: ts) = none := by
            rw [endifTarget, hl, hm2 hst]
            split <;> rfl
          refine ⟨some .badEndif, ?_, .inr (.inr rfl)⟩
          simp only [firstDir, hk, e1, e2, e3, e4]
          simp
      · exact ⟨none, by simp [firstDir, hk], .inl rfl⟩

/-- C82 (lines that are no conditionals): a line that starts like a conditional but is not written as one is text. A source of such
lines and of lines of text is read as it stands, without a report. -/
theorem C82_no_conditional_is_text {F : Type} (env : Env F) (nl : List UInt8) (hnl : nl = [10] ∨ nl = [13, 10]) (lines : List (List Char))
    (h : ∀ l ∈ lines, PlainText l ∨ NoConditional l) : readSource env (lines.flatMap (encode · ++ nl)) = some (lines, []) := by
  have hlen : ∀ ls : List (List Char), ls.length ≤ (ls.flatMap (encode · ++ nl)).length := by
    intro ls
    induction ls with
    | nil => simp
    | cons d l ih =>
      have : 0 < nl.length := by rcases hnl with rfl | rfl <;> simp
      simp only [List.length_cons, List.flatMap_cons, List.length_append] at ih ⊢
      omega
  have hsrc : lines.flatMap (encode · ++ nl) = [] ++ (lines.map encode).flatMap (· ++ nl) := by
    rw [List.nil_append, List.flatMap_map]
  obtain ⟨tokss, h1, h2⟩ := lexLines_spec (plugins := env.plugins) hnl (lines.map encode) ((lines.flatMap (encode · ++ nl)).length + 1) []
    (.inl rfl) (by
      intro l hl' x hx
      obtain ⟨d, hd, rfl⟩ := List.mem_map.1 hl'
      rcases h d hd with h | h
      · exact clean_encode h.line x hx
      · exact clean_encode h.line x hx) (by
      rw [List.length_map]
      have := hlen lines
      omega)
  rw [← hsrc] at h1
  have hr : ∀ (lines : List (List Char)) (tokss : List (List Tok)), (∀ l ∈ lines, PlainText l ∨ NoConditional l) → Pairs (LineOf env.plugins) tokss (lines.map encode) →
      readToks env [] tokss = some (lines, [], []) := by
    intro lines
    induction lines with
    | nil => intro tokss _ hp; cases hp; rw [readToks]
    | cons l lines ih =>
      intro tokss hl hp
      cases hp with
      | @cons toks _ tokss _ g1 g2 =>
        have hi := ih tokss (fun x hx => hl x (by simp [hx])) g2
        have : inModel (lineText toks) = true ∧ lineText toks = l ∧ ∃ d, firstDir env toks = some d ∧ (d = none ∨ d = some .badIf ∨ d = some .badEndif) := by
          rcases hl l (by simp) with hp | hp
          · have := rel_text hp g1
            exact ⟨this.inModel, this.text, none, this.first, .inl rfl⟩
          · exact bad_line env hp g1
        obtain ⟨e1, e2, d, e3, e4⟩ := this
        rw [readToks, e1, e3]
        rcases e4 with rfl | rfl | rfl <;> simp [embeddedOk, action, hi, e2]
  rw [readSource]
  simp only [List.length_nil] at h1
  simp only [h1, hr lines tokss h h2, Option.bind_eq_bind, Option.bind_some]

example : readSource someEnv (["a".toList, "ifdef::foo".toList, "endif::foo[] ".toList, "ifndef::x[]".toList].flatMap (encode · ++ [10])) =
    some (["a".toList, "ifdef::foo".toList, "endif::foo[] ".toList, "ifndef::x[]".toList], []) := by
  apply C82_no_conditional_is_text _ _ (.inl rfl)
  intro l hl
  simp only [List.mem_cons, List.not_mem_nil, or_false] at hl
  rcases hl with rfl | rfl | rfl | rfl
  · exact .inl ⟨by decide, by decide, by decide, noDirective_of (by decide)⟩
  · refine .inr ⟨by decide, by decide, ⟨"ifdef::", by simp, by decide⟩, ?_⟩
    have : '[' ∉ "ifdef::foo".toList := by decide
    rintro (⟨s, _, n, t, e, _⟩ | ⟨t, e⟩) <;> (rw [e] at this; simp at this)
  · refine .inr ⟨by decide, by decide, ⟨"endif::", by simp, by decide⟩, ?_⟩
    have : "endif::foo[] ".toList.getLast? = some ' ' := by decide
    rintro (⟨s, _, n, t, e, _⟩ | ⟨t, e⟩)
    · rw [e, show s.toList ++ n ++ '[' :: (t ++ [']']) = (s.toList ++ n ++ '[' :: t) ++ [']'] by simp, List.getLast?_concat] at this
      simp at this
    · rw [e, show "endif::".toList ++ t ++ ['[', ']'] = ("endif::".toList ++ t ++ ['[']) ++ [']'] by simp, List.getLast?_concat] at this
      simp at this
  · refine .inr ⟨by decide, by decide, ⟨"ifndef::", by simp, by decide⟩, ?_⟩
    rintro (⟨s, hs, n, t, e, h2, hn⟩ | ⟨t, e⟩)
    · simp only [List.mem_cons, List.not_mem_nil, or_false] at hs
      rcases hs with rfl | rfl
      · simp at e
      · obtain _ | ⟨a, _ | ⟨b, n⟩⟩ := n
        · simp at h2
        · simp at h2
        · simp at e hn
          exact hn.2.1 e.2.1
    · simp at e

/-- C82 fails for a directive in the middle of a line: in a block that is left out, its end is found there too. -/
theorem C82_directive_inside_a_line_violated :
    readSource someEnv (encode "ifdef::nope[]\nx\nsee endif::nope[]\nz\nendif::nope[]\n".toList) = some (["z".toList], []) ∧
    readSource someEnv (encode "ifdef::nope[]\nsee ifdef::foo[]\nendif::nope[]\nz\n".toList) = some ([], [.neverClosed]) := by
  constructor <;> decide +kernel

/-- C82 fails without a line end after the last line: an `endif::[]` there is text, or the conditional was never closed. -/
theorem C82_no_final_line_end_violated :
    readSource someEnv (encode "ifdef::foo[]\nx\nendif::[]".toList) = some (["x".toList, "endif::[]".toList], []) ∧
    readSource someEnv (encode "ifndef::foo[]\nx\nendif::[]".toList) = some ([], [.neverClosed]) := by
  constructor <;> decide +kernel

/-- C82 fails with spaces in the brackets: two different texts are equal. -/
theorem C82_spaces_in_brackets_violated :
    readSource someEnv (encode "ifeval::[ \"a\" == \"b\" ]\nx\nendif::[]\n".toList) = some (["x".toList], []) := by decide +kernel

/-- C82 fails with an operator in a quoted text: a text is not equal to itself. -/
theorem C82_operator_in_quotes_violated :
    readSource someEnv (encode "ifeval::[\"a > b\" == \"a > b\"]\nx\nendif::[]\n".toList) = some ([], []) := by decide +kernel

/-! ### C83 -/

private theorem step_line {src : List UInt8} {plugins : List (List UInt8)} {pos p : Nat} {s : Step} {lexeme : List UInt8}
    (hs : nextToken src plugins pos = some (some s, p)) (hl : slice src s.start s.stop = some lexeme) :
    lexeme = [10] ∨ lexeme = [13, 10] ∨ (10 ∉ lexeme ∧ 13 ∉ lexeme.drop 1) := by
  have hpos : pos < src.length := by
    false_or_by_contra
    rename_i h
    rw [nextToken_eof (by omega)] at hs
    cases hs
  obtain ⟨s', hs', hg⟩ := nextToken_good (plugins := plugins) hpos
  rw [hs] at hs'
  cases hs'
  have h1 := hg.start; have h2 := hg.stop; have h3 := hg.lt; have h4 := hg.le
  rw [slice_some (by omega) (by omega), h1] at hl
  have hb : src[pos]? = some src[pos] := List.getElem?_eq_getElem hpos
  generalize src[pos] = b at hb
  -- what is in a token whose bytes after the first are no line ends
  have clean : Cl src (pos + 1) s.stop → b ≠ 10 → 10 ∉ lexeme ∧ 13 ∉ lexeme.drop 1 := by
    intro hcl hb10
    cases hl
    have at_ : ∀ i x, ((src.drop pos).take (s.stop - pos))[i]? = some x → 1 ≤ i → x ≠ 10 ∧ x ≠ 13 := by
      intro i x hx hi
      by_cases hlt : i < s.stop - pos
      · rw [List.getElem?_take_of_lt hlt, List.getElem?_drop] at hx
        obtain ⟨y, hy, hn⟩ := hcl (pos + i) (by omega) (by omega)
        rw [hy] at hx; cases hx
        exact ⟨hn.1, hn.2.1⟩
      · rw [List.getElem?_eq_none (by rw [List.length_take]; omega)] at hx; cases hx
    constructor
    · intro hm
      obtain ⟨i, hi⟩ := List.mem_iff_getElem?.1 hm
      cases i with
      | zero =>
        rw [List.getElem?_take_of_lt (by omega), List.getElem?_drop, Nat.add_zero, hb] at hi
        cases hi
        exact hb10 rfl
      | succ i => exact (at_ _ _ hi (by omega)).1 rfl
    · intro hm
      obtain ⟨i, hi⟩ := List.mem_iff_getElem?.1 hm
      rw [List.getElem?_drop] at hi
      exact (at_ _ _ hi (by omega)).2 rfl
  have htake : ∀ k, s.stop = pos + k → lexeme = (src.drop pos).take k := by
    intro k hk
    cases hl
    rw [hk, Nat.add_sub_cancel_left]
  by_cases h10 : b = 10
  · -- a line feed
    subst h10
    have hn : nextToken src plugins pos = some (some (single .Newline (pos + 1)), pos + 1) := by
      have hd : atDelimiterLine src pos = none := by simp [atDelimiterLine, hb]
      unfold nextToken
      rw [hd]
      simp only [hb, show simpleTable.lookup 10 = some (.one .Newline) from rfl]
      rfl
    rw [hn] at hs
    simp only [Option.some.injEq, Prod.mk.injEq] at hs
    left
    rw [htake 1 (by rw [← hs.1]; rfl), List.drop_eq_getElem_cons hpos, List.take_succ_cons, List.take_zero]
    rw [List.getElem?_eq_getElem hpos] at hb
    rw [Option.some.inj hb]
  by_cases h13 : b = 13
  · subst h13
    have hn : nextToken src plugins pos = (otherArm src plugins (pos + 1) 13 (atLineStart src pos)).map fun s => (some s, s.pos) := by
      have hd : atDelimiterLine src pos = none := by simp [atDelimiterLine, hb]
      unfold nextToken
      rw [hd]
      simp only [hb, show simpleTable.lookup 13 = none from rfl]
    by_cases hnx : src[pos + 1]? = some 10
    · right; left
      have : otherArm src plugins (pos + 1) 13 (atLineStart src pos) = some (codepoint .Newline 2 (pos + 1)) := by
        simp [otherArm, hnx, isSpace, ch]
      rw [hn, this] at hs
      simp only [Option.map_some, Option.some.injEq, Prod.mk.injEq] at hs
      have hp1 := lt_length_of_getElem? hnx
      rw [htake 2 (by rw [← hs.1]; rfl), List.drop_eq_getElem_cons hpos, List.drop_eq_getElem_cons hp1, List.take_succ_cons, List.take_succ_cons, List.take_zero]
      rw [List.getElem?_eq_getElem hpos] at hb
      rw [List.getElem?_eq_getElem hp1] at hnx
      rw [Option.some.inj hb, Option.some.inj hnx]
    · right; right
      have : otherArm src plugins (pos + 1) 13 (atLineStart src pos) = word src plugins (pos + 1) := by
        simp [otherArm, hnx, isSpace, isDigit, ch]
      rw [hn, this] at hs
      obtain ⟨s', hw, e⟩ := Option.map_eq_some_iff.1 hs
      simp only [Prod.mk.injEq, Option.some.injEq] at e
      have hin := word_inside hb hw
      rw [e.1] at hin
      exact clean hin.clean h10
  · right; right
    exact clean (nextToken_inside hb ⟨h10, h13⟩ hs).1.clean h10

/-- C83: no token goes beyond its line: in the tokens of any source, a token with a line feed in it is the end of a line. -/
theorem C83_tokens_stay_in_their_line (src : List UInt8) (plugins : List (List UInt8)) (offset fuel pos : Nat) (toks : List Tok) (done : Bool)
    (h : lexFrom src plugins offset fuel pos = some (toks, done)) :
    ∀ t ∈ toks, t.lexeme = [10] ∨ t.lexeme = [13, 10] ∨ (10 ∉ t.lexeme ∧ 13 ∉ t.lexeme.drop 1) := by
  induction fuel generalizing pos toks done with
  | zero => unfold lexFrom at h; cases h; simp
  | succ fuel ih =>
    unfold lexFrom at h
    simp only [Option.bind_eq_bind, Option.bind_eq_some_iff] at h
    obtain ⟨⟨t, p⟩, hn, h⟩ := h
    cases t with
    | none => simp at h; rw [h.1]; simp
    | some s =>
      simp only at h
      have key : ∀ lx, (lx = [] ∨ slice src s.start s.stop = some lx) →
          ((lexFrom src plugins offset fuel p).bind fun x => pure (⟨s.kind, s.start + offset, s.stop + offset, lx⟩ :: x.1, x.2)) = some (toks, done) →
          ∀ t ∈ toks, t.lexeme = [10] ∨ t.lexeme = [13, 10] ∨ (10 ∉ t.lexeme ∧ 13 ∉ t.lexeme.drop 1) := by
        intro lx hlx h
        obtain ⟨⟨rest, d⟩, hr, e⟩ := Option.bind_eq_some_iff.1 h
        simp only [Option.pure_def, Option.some.injEq, Prod.mk.injEq] at e
        rw [← e.1]
        intro t ht
        rcases List.mem_cons.1 ht with rfl | ht
        · simp only
          rcases hlx with rfl | hlx
          · right; right; simp
          · exact step_line hn hlx
        · exact ih p rest d hr t ht
      split at h
      · exact key [] (.inl rfl) h
      · obtain ⟨lx, hlx, h⟩ := Option.bind_eq_some_iff.1 h
        exact key lx (.inr hlx) h

example : (lexFrom (bs "ifdef::a[\r\n\rb c@d.ef\n") [] 0 30 0).map (fun r => r.1.map Tok.lexeme) =
    some [bs "ifdef::", bs "a", bs "[", [13, 10], [13] ++ bs "b", bs " ", bs "c@d.ef", [10]] := by decide +kernel

end Verif.Props
