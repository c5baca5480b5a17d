import Verif.Lemmas.Html5sDoc
/-! Well bracketed output of the semantic HTML backend, in whole documents. -/
set_option linter.unusedSectionVars false
set_option linter.unusedVariables false
set_option linter.unusedSimpArgs false
namespace Verif.Html5s
open Verif.Ast Verif.Eval Verif.Html Verif.Spec.Html Verif.Spec.Html5s
open Verif.Html.Bal (chk chk_append Neutral chk_frame balanced_iff)

/-- the place is one where the state is known -/
structure Agrees (p : Place) (c : Cfg) : Prop where
  pre : p.preamble = c.pre
  inl : p.inline = c.inline
  cel : p.cells = true → c.cell ≠ some true

/-- running the calls keeps the open elements -/
def TE (c : Cfg) (before : Bool) (evs : List Ev) : Prop := ∀ o s t k, At c o false s k → (before = true → Ends s) → run evs s = some t → At c o false t k

theorem T.te {c : Cfg} {before : Bool} {evs : List Ev} (h : T c false false evs [] []) : TE c before evs := fun o s t k a _ e => h o s t k a e
theorem TE.t {c : Cfg} {evs : List Ev} (h : TE c false evs) : T c false false evs [] [] := fun o s t k a e => h o s t k a (fun x => Bool.noConfusion x) e

theorem chk_dropLast {w : List Tok} {k : List Tag} (h : w.getLast? = some (.closing .div)) (e : chk w [] = some k) : chk w.dropLast [] = some (.div :: k) := by
  have hw : w = w.dropLast ++ [.closing .div] := by
    obtain ⟨ys, rfl⟩ := List.getLast?_eq_some_iff.1 h
    simp
  rw [hw, chk_append] at e
  cases hd : chk w.dropLast [] with
  | none => rw [hd] at e; cases e
  | some l =>
    rw [hd] at e
    cases l with
    | nil => cases e
    | cons u l =>
      simp only [Option.bind_some, chk] at e
      split at e
      · next hu => subst hu; cases e; rfl
      · cases e

section
variable {inl : List Inline → List Ev} (hi : ∀ ns, I (inl ns)) {c : Cfg}
include hi

theorem title_html (info : BlockInfo) (title : Option (List Inline)) {s t : State} (e : run (evalTitle inl (Eval.view info title) title) s = some t) :
    t.cur.html = s.cur.html := by
  cases title with
  | none => cases e; rfl
  | some ns =>
    obtain ⟨u, v, e1, e2, e3⟩ := run_around e
    obtain ⟨seg, fs, rfl, hs1, hs2⟩ := run_I (hi ns) _ v e2
    simp only [enter, Html.enter, State.startBuffering] at e1
    simp only [exit, Html.exit] at e3
    split at e1 <;> cases e1
    cases e3
    split <;> rfl

/-- blocks without a body -/
theorem T_other (toc : Option Toc) (p : Bool) (x : Context) (h : showsTitle c.inline x = false → c.pre = true → p = false) : T c p false (evalOther inl toc x) [] [] := by
  have drop : ∀ {evs : List Ev}, showsTitle c.inline x = false → T c false false evs [] [] → T c p p evs [] [] → T c p false evs [] [] := by
    intro evs hx _ h2 o s t k a e
    exact (h2 o s t k a e).drop (h hx)
  cases x <;> simp only [evalOther] <;> first
    | (intro o s t k a e; cases e; done)
    | skip
  case thematicBreak => exact drop rfl v_thematicBreak v_thematicBreak
  case pageBreak => exact drop rfl v_pageBreak v_pageBreak
  case tableOfContents => exact drop rfl (T_toc hi toc _ (by decide)) (T_toc hi toc _ (by decide))
  case comment => exact drop rfl (T_nil _) (T_nil _)

omit hi in
theorem TE_callouts (b : BlockInfo) {x : List Ev} (h : T c false false x [] []) : TE c true (around (.calloutList b) x) := by
  intro o s t k a hs e
  obtain ⟨u, v, e1, e2, e3⟩ := run_around e
  have hl : s.cur.html.getLast? = some (.closing .div) := hs rfl
  have hn : s.cur.html ≠ [] := by intro e; rw [e] at hl; cases hl
  simp only [enter, cutEnd, if_neg hn, if_pos hl] at e1
  cases e1
  have h1 : At c o false (({ s with cur := { s.cur with html := s.cur.html.dropLast } } : State).push [.opening .ol]) (.ol :: .div :: k) :=
    At.push (s := { s with cur := { s.cur with html := s.cur.html.dropLast } })
      ⟨a.emb, a.inl, a.cel, a.src, a.alt, a.neu, a.foot, a.out, chk_dropLast hl a.stk⟩ (by simp [chk])
  have h2 := T_keep h [.ol, .div] o _ v k h1 e2
  exact x_clist b o v t k h2 (by rw [run_one]; exact e3)

/-- the calls for a document -/
def V (b : Bool) (evs : List Ev) : Prop :=
  ∀ s t, s.cur = { inCell := b } → (∀ f ∈ s.footnotes, Neutral f.2) → run evs s = some t → t.outer = s.outer ∧ Neutral t.cur.html ∧ ∀ f ∈ t.footnotes, Neutral f.2

omit hi in
/-- a document in a table cell -/
theorem T_cellDocument {evs : List Ev} (hc : c.cell ≠ some true) (h : V true evs) : T c false false (around .cellDocument evs) [] [] := by
  intro o s t k a e
  obtain ⟨u, v, e1, e2, e3⟩ := run_around e
  simp only [enter, Html.enter] at e1
  cases e1
  obtain ⟨h1, h2, h3⟩ := h { s with cur := { inCell := true }, outer := s.cur :: s.outer } v rfl a.foot e2
  simp only [exit, Html.exit, h1] at e3
  cases e3
  refine ⟨a.emb, a.inl, fun b hb => ?_, a.src, a.alt, a.neu, h3, a.out, ?_⟩
  · cases b with
    | false => rfl
    | true => exact absurd hb hc
  · show chk (s.cur.html ++ v.cur.html) [] = _
    rw [chk_append, a.stk]; exact h2 _

/-- the calls for a document, inside `enter_document` and `exit_document` -/
theorem visit_of (b : Bool) (attrs : Meta) (title : Option (List Inline)) (toc : Option Toc) (head header footer : Option (List Inline)) (content : DocContent)
    (hx : ∀ c : Cfg, c = ⟨attrs.embedded, attrs.inlineDoctype, if attrs.embedded || attrs.inlineDoctype then none else some b, true⟩ →
      ∀ o s t k, At c o false s k → run (evalDocContent inl toc title.isSome content) s = some t → At { c with pre := false } o false t k) :
    V b (visit inl (.mk attrs title toc head header footer content)) := by
  intro s t hs hf e
  have hx := hx _ rfl
  generalize hcd : (⟨attrs.embedded, attrs.inlineDoctype, if attrs.embedded || attrs.inlineDoctype then none else some b, true⟩ : Cfg) = c at hx
  have ce : c.embedded = attrs.embedded := by rw [← hcd]
  have ci : c.inline = attrs.inlineDoctype := by rw [← hcd]
  simp only [visit] at e
  obtain ⟨u, v, e1, e2, e3⟩ := run_around e
  simp only [enter, Html.enter] at e1
  cases e1
  simp only [exit, Html.exit] at e3
  cases e3
  obtain ⟨s1, e4, e5⟩ := run_append_some e2
  generalize ha : (({ s with cur := { s.cur with attrs := attrs } } : State).cur.standalone) = al at *
  have hal : al = (!attrs.inlineDoctype && !b && !attrs.embedded) := by rw [← ha, hs]; rfl
  have h0 : At c s.outer false (({ s with cur := { s.cur with attrs := attrs } } : State).pushIf al
      [.opening .html, .opening .head, .void .metaTag, .opening .title, .closing .title, .opening .style, .closing .style]) (if al then [.head, .html] else []) := by
    refine At.pushIf (k := []) ?_ (by cases al <;> simp [chk])
    refine ⟨ce.symm, ci.symm, ?_, by rw [hs], fun _ _ => by rw [hs], by rw [hs]; exact .nil, hf, rfl, by rw [hs]; rfl⟩
    intro x hx
    rw [← hcd] at hx
    split at hx
    · cases hx
    · cases hx; rw [hs]
  have alone : ∀ {c' : Cfg}, c'.embedded = c.embedded → c'.inline = c.inline → c'.cell = c.cell → ∀ {o p} {z : State} {k}, At c' o p z k → z.cur.standalone = al := by
    intro c' h1 h2 h3 o p z k hz
    rw [hal]
    unfold Frame.standalone
    rw [hz.inl, hz.emb, h1, h2, ce, ci]
    cases he : attrs.embedded with
    | true => simp
    | false =>
      cases hd : attrs.inlineDoctype with
      | true => simp
      | false =>
        have : c'.cell = some b := by rw [h3, ← hcd]; simp [he, hd]
        rw [hz.cel b this]
  have h1 := T_docinfo hi attrs.embedded head _ _ _ s1 [] (h0.cast (List.append_nil _).symm) e4
  rw [List.append_nil] at h1
  obtain ⟨u1, v1, f1, f2, f3⟩ := run_around e5
  simp only [enter, Html.enter, alone rfl rfl rfl h1] at f1
  cases f1
  have h2 : At c s.outer false (s1.pushIf al [.closing .head, .opening .body]) ((if al then [.body, .html] else []) ++ []) := h1.pushIf (by cases al <;> simp [chk])
  obtain ⟨s2, g1, g2⟩ := run_append_some f2
  obtain ⟨s3, g3, g4⟩ := run_append_some g1
  obtain ⟨s4, g5, g6⟩ := run_append_some g3
  obtain ⟨s5, g7, g8⟩ := run_append_some g5
  obtain ⟨s6, g9, g10⟩ := run_append_some g7
  have k1 := T_docinfo hi attrs.embedded header _ _ _ s6 [] h2 g9
  have k2 := T_header hi title _ _ _ s5 [] k1 g10
  have k3 := T_keep (T_toc (c := c) (p := false) hi toc [.auto, .left, .right] (by decide)) _ _ _ s4 [] k2 g8
  obtain ⟨u2, v2, m1, m2, m3⟩ := run_around g6
  have k4 := T_frame e_content (if al then [.body, .html] else []) _ _ u2 [] k3 (by rw [run_one]; exact m1)
  have k5 := hx _ _ v2 _ k4 m2
  have k6 := T_frame (x_content (c := { c with pre := false })) (if al then [.body, .html] else []) _ _ s3 [] k5 (by rw [run_one]; exact m3)
  have k7 := T_footer _ _ _ s2 [] k6 g4
  have k8 := T_docinfo hi attrs.embedded footer _ _ _ v1 [] k7 g2
  simp only [exit, Html.exit, alone (c' := { c with pre := false }) rfl rfl rfl k8] at f3
  cases f3
  have k9 : At { c with pre := false } s.outer false (v1.pushIf al [.closing .body, .closing .html]) [] := k8.pushIf (by cases al <;> simp [chk])
  exact ⟨k9.out, fun k => chk_frame _ k9.stk k, k9.foot⟩

mutual
theorem evalBlock_T (c : Cfg) (toc : Option Toc) (pl : Place) (ag : Agrees pl c) (before : Bool) : ∀ b : Block, fitBlock pl before b → TE c before (evalBlock inl toc b)
  | .mk info title a ci content, h => by
    intro o s t k at0 hs e
    obtain ⟨u, e1, e2⟩ := run_append_some e
    refine evalContent_T c toc pl ag before info title a ci content h o u t k (T_title hi info title o s u k at0 e1) (fun hb => ?_) e2
    have := hs hb
    unfold Ends
    rw [title_html hi info title e1]; exact this
theorem evalContent_T (c : Cfg) (toc : Option Toc) (pl : Place) (ag : Agrees pl c) (before : Bool) (info : BlockInfo) (title a ci : Option (List Inline)) :
    ∀ x : Content, fitBlock pl before (.mk info title a ci x) → ∀ o s t k, At c o (pending (Eval.view info title)) s k → (before = true → Ends s) →
      run (evalContent inl toc (Eval.view info title) a ci x) s = some t → At c o false t k
  | x, h, o, s, t, k, at0, hs, e => by
    simp only [fitBlock] at h
    obtain ⟨h1, h2, h3, h4⟩ := h
    rw [ag.pre, ag.inl] at h3
    have hv : (Eval.view info title).context = info.context := rfl
    have ht : (Eval.view info title).hasTitle = title.isSome := rfl
    have hpn : info.context ≠ .passthrough → pending (Eval.view info title) = (Eval.view info title).hasTitle := by
      intro h; simp only [pending, hv]; simp [h]
    have hpp : info.context = .passthrough → pending (Eval.view info title) = false := by
      intro h; simp only [pending, hv]; simp [h]
    have hno : showsTitle c.inline info.context = false → c.pre = true → pending (Eval.view info title) = false := by
      intro h hp
      cases hx : title.isSome with
      | false => simp [pending, ht, hx]
      | true => rw [h3 hp hx] at h; cases h
    have hpa : c.pre = true → (Eval.view info title).hasTitle = true → info.context = .paragraph → c.inline = false := by
      intro hp hx hc
      have := h3 hp hx
      rw [hc] at this
      simpa [showsTitle] using this
    generalize hb : Eval.view info title = b at *
    have other : run (evalOther inl toc info.context) s = some t → At c o false t k := fun e => T_other hi toc (pending b) info.context hno o s t k at0 e
    have use : ∀ {evs : List Ev}, info.context ≠ .passthrough → T c b.hasTitle false evs [] [] → run evs s = some t → At c o false t k := by
      intro evs hc hT e
      rw [hpn hc] at at0
      exact hT o s t k at0 e
    have drop : ∀ {evs : List Ev}, showsTitle c.inline info.context = false → T c false false evs [] [] → run evs s = some t → At c o false t k := by
      intro evs hc hT e
      exact hT o s t k (at0.drop (hno hc)) e
    cases x with
    | simple ns =>
      simp only [evalContent, hv] at e
      cases hc : info.context <;> simp only [hc] at e <;> (try (exact other (by rw [hc]; exact e)))
      all_goals rw [hc] at hv
      case paragraph => exact use (by rw [hc]; decide) (T_paragraph hi b ns hv (fun hp hx => hpa hp hx hc)) e
      case sidebar => exact use (by rw [hc]; decide) (T_around (e_sidebar b) (T_simple_keep hi ns (by rw [hv]; decide) _) (x_sidebar b)) e
      case listing => exact use (by rw [hc]; decide) (T_listing hi b ns hv) e
      case verse =>
        have hn : b.hasTitle = false := by rw [ht]; exact h1 hc
        refine use (by rw [hc]; decide) ?_ e
        rw [hn]
        have h5 := T_simple (c := c) (p := false) hi b ns
        rw [if_pos hv] at h5
        exact T_around (e_verse b _ hn) (T_append (T_frame h5 _) (T_attr_keep hi a ci (by rw [hv]; decide) _)) (x_verse b _ hn)
      case blockQuote =>
        exact use (by rw [hc]; decide)
          (T_around (e_quote b _) (T_append (T_simple_keep hi ns (by rw [hv]; decide) _) (T_attr_keep hi a ci (by rw [hv]; decide) _)) (x_quote b _)) e
      case «example» => exact use (by rw [hc]; decide) (T_around (e_example b) (T_simple_keep hi ns (by rw [hv]; decide) _) (x_example b)) e
      case admonition => exact use (by rw [hc]; decide) (T_around (e_admonition b false) (T_inl hi ns _) (x_admonition b false)) e
      case literal => exact use (by rw [hc]; decide) (T_around (e_literal b) (T_simple_keep hi ns (by rw [hv]; decide) _) (x_literal b)) e
      case passthrough =>
        rw [hpp hc] at at0
        exact T_around (e_passthrough b) (T_simple_keep hi ns (by rw [hv]; decide) _) (x_passthrough b) o s t k at0 e
    | compound bs =>
      simp only [evalContent, hv] at e
      have h5 : ∀ l, T c false false (around .compoundContent (evalBlocks inl toc bs)) l l := fun l =>
        T_keep (T_around e_compound (evalBlocks_T c toc pl ag false bs h4).t x_compound) l
      cases hc : info.context <;> simp only [hc] at e <;> (try (exact other (by rw [hc]; exact e)))
      all_goals rw [hc] at hv
      case sidebar => exact use (by rw [hc]; decide) (T_around (e_sidebar b) (h5 _) (x_sidebar b)) e
      case blockQuote =>
        exact use (by rw [hc]; decide) (T_around (e_quote b _) (T_append (h5 _) (T_attr_keep hi a ci (by rw [hv]; decide) _)) (x_quote b _)) e
      case openBlock => exact use (by rw [hc]; decide) (T_around (e_openBlock b) (h5 _) (x_openBlock b)) e
      case «example» => exact use (by rw [hc]; decide) (T_around (e_example b) (h5 _) (x_example b)) e
      case admonition => exact use (by rw [hc]; decide) (T_around (e_admonition b true) (h5 _) (x_admonition b true)) e
    | quoted quote attr cite =>
      simp only [evalContent, hv] at e
      cases hc : info.context <;> simp only [hc] at e <;> (try (exact other (by rw [hc]; exact e)))
      rw [hc] at hv
      have h5 := T_quoteAttr (c := c) hi b (some attr) cite (fun _ => rfl)
      rw [if_pos hv] at h5
      exact use (by rw [hc]; decide) (T_around (e_quotedParagraph b) (T_append (T_inl hi quote _) (T_frame h5 _)) (x_quotedParagraph b)) e
    | list v items =>
      simp only [evalContent, hv] at e
      cases hc : info.context <;> simp only [hc] at e <;> (try (exact other (by rw [hc]; exact e)))
      all_goals rw [hc] at hv
      all_goals simp only [fitContent, hc] at h4
      case orderedList => exact use (by rw [hc]; decide) (T_around (e_olist b) (T_keep (evalItems_T c toc pl ag v items h4) _) (x_olist b)) e
      case unorderedList => exact use (by rw [hc]; decide) (T_around (e_ulist b) (T_keep (evalItems_T c toc pl ag v items h4) _) (x_ulist b)) e
      case calloutList =>
        exact TE_callouts b (evalItems_T c toc pl ag v items h4) o s t k (at0.drop (hno (by rw [hc]; rfl))) (fun _ => hs (h2 hc)) e
      case descriptionList => exact use (by rw [hc]; decide) (T_around (e_dlist b) (T_keep (evalDescItems_T c toc pl ag items h4) _) (x_dlist b)) e
    | «section» sc =>
      simp only [evalContent, hv] at e
      cases hc : info.context <;> simp only [hc] at e <;> (try (exact other (by rw [hc]; exact e)))
      exact drop (by rw [hc]; rfl) (evalSect_T c toc pl ag sc h4) e
    | table header rows footer =>
      simp only [evalContent, hv] at e
      cases hc : info.context <;> simp only [hc] at e <;> (try (exact other (by rw [hc]; exact e)))
      simp only [fitContent] at h4
      refine use (by rw [hc]; decide) (T_around (e_table b) ?_ (x_table b)) e
      exact T_append (T_two (evalEdge_T c pl ag .header header h4.1) (evalBody_T c pl ag rows h4.2.1)) (T_keep (evalEdge_T c pl ag .footer footer h4.2.2) _)
    | image ti l =>
      simp only [evalContent, hv] at e
      cases hc : info.context <;> simp only [hc] at e <;> (try (exact other (by rw [hc]; exact e)))
      exact use (by rw [hc]; decide) (T_around (e_image b ti l) (T_nil _) (x_image b ti l)) e
    | audioVideo =>
      simp only [evalContent, hv] at e
      cases hc : info.context <;> simp only [hc] at e <;> (try (exact other (by rw [hc]; exact e)))
      case audio => exact use (by rw [hc]; decide) (v_audio b) e
      case video => exact use (by rw [hc]; decide) (v_video b) e
    | heading n ns =>
      simp only [evalContent, hv] at e
      cases hc : info.context <;> simp only [hc] at e <;> (try (exact other (by rw [hc]; exact e)))
      exact drop (by rw [hc]; rfl) (T_around (e_heading n) (T_inl hi ns _) (x_heading n)) e
    | declaration m =>
      simp only [evalContent, hv] at e
      cases hc : info.context <;> simp only [hc] at e <;> (try (exact other (by rw [hc]; exact e)))
      exact drop (by rw [hc]; rfl) (v_declaration m) e
    | empty =>
      simp only [evalContent, hv] at e
      exact other e
theorem evalBlocks_T (c : Cfg) (toc : Option Toc) (pl : Place) (ag : Agrees pl c) (before : Bool) : ∀ bs : List Block, fitBlocks pl before bs → TE c before (evalBlocks inl toc bs)
  | [], _ => by intro o s t k a _ e; cases e; exact a
  | .mk info title at' ci x :: bs, h => by
    intro o s t k a hs e
    obtain ⟨u, e1, e2⟩ := run_append_some e
    have h1 := evalBlock_T c toc pl ag before (.mk info title at' ci x) h.1 o s u k a hs e1
    refine evalBlocks_T c toc pl ag _ bs h.2 o u t k h1 (fun hb => ?_) e2
    obtain ⟨w, e3, e4⟩ := run_append_some e1
    refine ends_content inl toc info title at' ci x before e4 (fun hb => ?_) hb
    unfold Ends
    rw [title_html hi info title e3]; exact hs hb
theorem evalItem_T (c : Cfg) (toc : Option Toc) (pl : Place) (ag : Agrees pl c) (v : Variant) : ∀ i : Item, fitItem pl false i → T c false false (evalItem inl toc v i) [] []
  | .plain pr bs, h => T_append (T_around (e_principal v _) (T_inl hi pr _) (x_principal v _))
      (T_around (e_itemBlocks v) (T_keep (evalBlocks_T c toc pl ag false bs h).t [.li]) (x_itemBlocks v))
  | .desc pr _ none bs, h => T_append (T_around (e_principal v _) (T_inl hi pr _) (x_principal v _))
      (T_around (e_itemBlocks v) (T_keep (evalBlocks_T c toc pl ag false bs h).t [.li]) (x_itemBlocks v))
  | .desc pr _ (some _) bs, h => T_append (T_around (e_principal v _) (T_inl hi pr _) (x_principal v _))
      (T_around (e_itemBlocks v) (T_keep (evalBlocks_T c toc pl ag false bs (by simpa [fitItem] using h)).t [.li]) (x_itemBlocks v))
theorem evalItems_T (c : Cfg) (toc : Option Toc) (pl : Place) (ag : Agrees pl c) (v : Variant) : ∀ is : List Item, fitItems pl false is → T c false false (evalItems inl toc v is) [] []
  | [], _ => T_nil _
  | i :: is, h => T_append (evalItem_T c toc pl ag v i h.1) (evalItems_T c toc pl ag v is h.2)
theorem evalDescItem_T (c : Cfg) (toc : Option Toc) (pl : Place) (ag : Agrees pl c) : ∀ i : Item, fitItem pl true i → T c false false (evalDescItem inl toc i) [] []
  | .plain .., _ => by intro o s t k a e; cases e
  | .desc pr ex none [], h => T_append (T_terms hi _ 1 (pr :: ex)) (T_nil _)
  | .desc pr ex none (b :: bs), h => T_append (T_terms hi _ 1 (pr :: ex))
      (T_around e_description (T_keep (evalDescBlocks_T c toc pl ag false (b :: bs) h).t [.dd]) x_description)
  | .desc pr ex (some d) bs, h => by
    simp only [fitItem, if_true] at h
    refine T_append (T_terms hi _ 1 (pr :: ex)) (T_around e_description (T_keep (TE.t ?_) [.dd]) x_description)
    intro o s t k a hs e
    obtain ⟨u, e1, e2⟩ := run_append_some e
    have h1 := T_around (e_descText _) (evalBlock_T c toc pl ag false d h.1).t (x_descText _) o s u k a e1
    refine evalDescBlocks_T c toc pl ag _ bs h.2 o u t k h1 (fun hb => ?_) e2
    obtain ⟨w, z, e3, e4, e5⟩ := run_around e1
    simp only [exit, Html.exit] at e5
    cases e5
    cases d with
    | mk info title at' ci x =>
      obtain ⟨y, e6, e7⟩ := run_append_some e4
      have : Ends z := ends_content inl toc info title at' ci x false e7 (fun hb => Bool.noConfusion hb) hb
      exact this
theorem evalDescItems_T (c : Cfg) (toc : Option Toc) (pl : Place) (ag : Agrees pl c) : ∀ is : List Item, fitItems pl true is → T c false false (evalDescItems inl toc is) [] []
  | [], _ => T_nil _
  | i :: is, h => T_append (evalDescItem_T c toc pl ag i h.1) (evalDescItems_T c toc pl ag is h.2)
theorem evalDescBlocks_T (c : Cfg) (toc : Option Toc) (pl : Place) (ag : Agrees pl c) (before : Bool) : ∀ bs : List Block, fitBlocks pl before bs → TE c before (evalDescBlocks inl toc bs)
  | [], _ => by intro o s t k a _ e; cases e; exact a
  | .mk info title at' ci x :: bs, h => by
    intro o s t k a hs e
    obtain ⟨u, e1, e2⟩ := run_append_some e
    obtain ⟨w, z, e3, e4, e5⟩ := run_around e1
    simp only [enter, Html.enter] at e3
    simp only [exit, Html.exit] at e5
    cases e3; cases e5
    have h1 := evalBlock_T c toc pl ag before (.mk info title at' ci x) h.1 o s u k a hs e4
    refine evalDescBlocks_T c toc pl ag _ bs h.2 o u t k h1 (fun hb => ?_) e2
    obtain ⟨w, e3, e4⟩ := run_append_some e4
    refine ends_content inl toc info title at' ci x before e4 (fun hb => ?_) hb
    unfold Ends
    rw [title_html hi info title e3]; exact hs hb
theorem evalSect_T (c : Cfg) (toc : Option Toc) (pl : Place) (ag : Agrees pl c) : ∀ s : Sect, fitSect pl s → T c false false (evalSect inl toc s) [] []
  | .mk info heading bs, h => T_around (e_section info) (T_append (T_sectionHeading hi info heading _) (T_keep (evalBlocks_T c toc pl ag false bs h).t [.section])) (x_section info)
theorem evalSects_T (c : Cfg) (toc : Option Toc) (pl : Place) (ag : Agrees pl c) : ∀ ss : List Sect, fitSects pl ss → T c false false (evalSects inl toc ss) [] []
  | [], _ => T_nil _
  | s :: ss, h => T_append (evalSect_T c toc pl ag s h.1) (evalSects_T c toc pl ag ss h.2)
theorem evalCell_T (c : Cfg) (pl : Place) (ag : Agrees pl c) (s : TableSection) : ∀ x : Cell, fitCell pl s x → T c false false (evalCell inl s x) [] []
  | .paragraphs st ps, h => by
    refine T_around (e_cell (.paragraphs st) s) ?_ (x_cell (.paragraphs st) s (fun _ => by simp))
    refine T_cellParagraphs hi st s _ (fun hs => ?_) _ ps
    rcases h hs with rfl | rfl <;> rfl
  | .literal ns, h => T_around (e_cell .literal s) (T_inl hi ns _) (x_cell .literal s (fun hs => absurd hs h))
  | .asciidoc d, h => by
    refine T_around (e_cell .asciidoc s) (T_keep ?_ _) (x_cell .asciidoc s (fun _ => by simp))
    exact T_cellDocument (ag.cel h.1) (visit_V true d h.2)
theorem evalCells_T (c : Cfg) (pl : Place) (ag : Agrees pl c) (s : TableSection) : ∀ cs : List Cell, fitCells pl s cs → T c false false (evalCells inl s cs) [] []
  | [], _ => T_nil _
  | x :: xs, h => T_append (evalCell_T c pl ag s x h.1) (evalCells_T c pl ag s xs h.2)
theorem evalEdge_T (c : Cfg) (pl : Place) (ag : Agrees pl c) (s : TableSection) : ∀ cs : Option (List Cell), fitEdge pl s cs → T c false false (evalEdge inl s cs) [] []
  | none, _ => T_nil _
  | some cs, h => T_around (e_tsection s) (T_keep (T_around e_row (T_keep (evalCells_T c pl ag s cs h) [.tr]) x_row) _) (x_tsection s)
theorem evalBody_T (c : Cfg) (pl : Place) (ag : Agrees pl c) : ∀ rs : List (List Cell), fitRows pl rs → T c false false (evalBody inl rs) [] []
  | [], _ => T_nil _
  | r :: rs, h => T_around (e_tsection .body)
      (T_append (T_keep (T_around e_row (T_keep (evalCells_T c pl ag .body r h.1) [.tr]) x_row) _) (T_keep (evalRows_T c pl ag rs h.2) _)) (x_tsection .body)
theorem evalRows_T (c : Cfg) (pl : Place) (ag : Agrees pl c) : ∀ rs : List (List Cell), fitRows pl rs → T c false false (evalRows inl rs) [] []
  | [], _ => T_nil _
  | r :: rs, h => T_append (T_around e_row (T_keep (evalCells_T c pl ag .body r h.1) [.tr]) x_row) (evalRows_T c pl ag rs h.2)
theorem evalPart_T (c : Cfg) (toc : Option Toc) (pl : Place) (ag : Agrees pl c) : ∀ p : Part, fitPart pl p → T c false false (evalPart inl toc p) [] []
  | .mk title bt none ss, h => by
    simp only [evalPart, List.append_nil]
    exact T_around e_part (T_append (T_keep (T_around e_partTitle (T_inl hi title _) x_partTitle) _) (T_keep (evalSects_T c toc pl ag ss h) _)) x_part
  | .mk title none (some bs) ss, h => by
    refine T_around e_part (T_append (T_append (T_keep (T_around e_partTitle (T_inl hi title _) x_partTitle) _) (T_keep ?_ _)) (T_keep (evalSects_T c toc pl ag ss h.2) _)) x_part
    refine T_around (e_partIntro false) (d := [.div]) ?_ (x_partIntro false)
    exact T_append (T_nil _) (T_around (e_partIntroContent false) (T_keep (evalBlocks_T c toc pl ag false bs h.1).t _) (T_frame (x_partIntroContent false) [.div]))
  | .mk title (some ns) (some bs) ss, h => by
    refine T_around e_part (T_append (T_append (T_keep (T_around e_partTitle (T_inl hi title _) x_partTitle) _) (T_keep ?_ _)) (T_keep (evalSects_T c toc pl ag ss h.2) _)) x_part
    refine T_around (e_partIntro true) (d := [.section]) ?_ (x_partIntro true)
    exact T_append (T_inl hi ns _) (T_around (e_partIntroContent true) (T_keep (evalBlocks_T c toc pl ag false bs h.1).t _) (T_frame (x_partIntroContent true) [.section]))
theorem evalParts_T (c : Cfg) (toc : Option Toc) (pl : Place) (ag : Agrees pl c) : ∀ ps : List Part, fitParts pl ps → T c false false (evalParts inl toc ps) [] []
  | [], _ => T_nil _
  | p :: ps, h => T_append (evalPart_T c toc pl ag p h.1) (evalParts_T c toc pl ag ps h.2)
theorem evalDocContent_T (c : Cfg) (hc : c.pre = true) (toc : Option Toc) (t : Bool) (pl : Place) (ag : Agrees pl { c with pre := false }) : ∀ x : DocContent, fitDocContent pl x →
    ∀ o s u k, At c o false s k → run (evalDocContent inl toc t x) s = some u → At { c with pre := false } o false u k
  | .blocks bs, h, o, s, u, k, a, e => (evalBlocks_T { c with pre := false } toc pl ag false bs h).t o s u k
      ⟨a.emb, a.inl, a.cel, a.src, fun x => Bool.noConfusion x, a.neu, a.foot, a.out, a.stk⟩ e
  | .sections none ss, h, o, s, u, k, a, e => evalSects_T { c with pre := false } toc pl ag ss h o s u k
      ⟨a.emb, a.inl, a.cel, a.src, fun x => Bool.noConfusion x, a.neu, a.foot, a.out, a.stk⟩ e
  | .sections (some bs) ss, h, o, s, u, k, a, e => by
    obtain ⟨v, e1, e2⟩ := run_append_some e
    have hcc : c = { c with pre := true } := by cases c; cases hc; rfl
    rw [hcc] at a
    have ag' : Agrees { pl with preamble := true } { c with pre := true } := ⟨rfl, ag.inl, ag.cel⟩
    have h1 := T_preamble (c := c) hi toc t (evalBlocks_T _ toc _ ag' false bs h.1).t o s v k a e1
    exact evalSects_T { c with pre := false } toc pl ag ss h.2 o v u k
      ⟨h1.emb, h1.inl, h1.cel, h1.src, fun x => Bool.noConfusion x, h1.neu, h1.foot, h1.out, h1.stk⟩ e2
  | .parts none os ps cs, h, o, s, u, k, a, e =>
    T_append (T_append (evalSects_T { c with pre := false } toc pl ag os h.1) (evalParts_T _ toc pl ag ps h.2.1)) (evalSects_T _ toc pl ag cs h.2.2) o s u k
      ⟨a.emb, a.inl, a.cel, a.src, fun x => Bool.noConfusion x, a.neu, a.foot, a.out, a.stk⟩ e
  | .parts (some bs) os ps cs, h, o, s, u, k, a, e => by
    obtain ⟨w, e1, e2⟩ := run_append_some e
    obtain ⟨v, e3, e4⟩ := run_append_some e1
    have hcc : c = { c with pre := true } := by cases c; cases hc; rfl
    rw [hcc] at a
    have ag' : Agrees { pl with preamble := true } { c with pre := true } := ⟨rfl, ag.inl, ag.cel⟩
    have h1 := T_preamble (c := c) hi toc t (T_append (evalBlocks_T _ toc _ ag' false bs h.1).t (evalSects_T _ toc _ ag' os h.2.1)) o s v k a e3
    have h2 : At { c with pre := false } o false v k := ⟨h1.emb, h1.inl, h1.cel, h1.src, fun x => Bool.noConfusion x, h1.neu, h1.foot, h1.out, h1.stk⟩
    exact evalSects_T _ toc pl ag cs h.2.2.2 o w u k (evalParts_T _ toc pl ag ps h.2.2.1 o v w k h2 e4) e2
theorem visit_V (b : Bool) : ∀ d : Doc, fitDoc b d → V b (visit inl d)
  | .mk attrs title toc head header footer content, h => by
    apply visit_of hi
    intro c hc
    refine evalDocContent_T c (by rw [hc]) toc title.isSome _ ⟨rfl, by rw [hc], ?_⟩ content h
    intro hx
    rw [hc]
    dsimp only at hx ⊢
    cases he : attrs.embedded <;> cases hd : attrs.inlineDoctype <;> simp_all
end

end

/-- Well bracketed output. -/
theorem render_balanced (anchors : Text → Option Anchor) (n : Nat) (d : Doc) (h : Fits d) {out : List Tok} (e : render anchors n d = some out) : Balanced out := by
  obtain ⟨t, e1, rfl⟩ := Option.map_eq_some_iff.1 e
  have := visit_V (inlines_I (htmlEnv anchors) n) false d h {} t rfl (by simp) e1
  exact balanced_iff.2 (this.2.1 [])

end Verif.Html5s
