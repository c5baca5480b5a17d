import Verif.Lemmas.Meta
namespace Verif.Props
open Verif DocumentMeta

/-- C18: whatever the job settings and whatever the history of job, header and body assignments, reading
an attribute returns the first existing candidate in the documented order of preference, each layer's
value being the latest accepted assignment. (The four computed `doctype-…` flags are covered by
`C18_doctype_flags`.) -/
theorem C18_precedence (dt : Option DocType) (mode : SafeMode) (job : Map JobAttr) (emb : Bool)
    (ops : List AttrOp) (k : String) (hk : k ∉ doctypeFlags) :
    let m0 := ofSettings dt mode job emb
    let log := ops.foldl AttrLog.step
      { doctype := dt.getD .article, job := [], body := [],
        header := match dt with | some d => [("doctype", .string d.toStr)] | none => [] }
    (ops.foldl AttrOp.run m0).get k =
      preferred (latest m0.jobAttrs k log.job) (fun k => latest Map.empty k log.body)
        (fun k => latest Map.empty k log.header) defaultAttrs k := by
  intro m0 log
  have h0 : LogRel m0.jobAttrs m0
      { doctype := dt.getD .article, job := [], body := [],
        header := match dt with | some d => [("doctype", .string d.toStr)] | none => [] } := by
    cases dt with
    | none => exact ⟨rfl, fun _ => rfl, fun _ => rfl, fun _ => rfl⟩
    | some d =>
      refine ⟨rfl, fun _ => rfl, fun k => ?_, fun _ => rfl⟩
      show (attrsInsert Map.empty "doctype" (.string d.toStr)).1 k = _
      unfold attrsInsert
      rw [validateAttr_ok _ _ _ (by simp [validValue])]
      exact insert_latest Map.empty [] Map.empty (fun _ => rfl) "doctype" _ k
  have h := LogRel.run ops h0
  rw [get_preferred _ _ hk, h.job, show (ops.foldl AttrOp.run m0).docAttrs = _ from funext h.body,
    show (ops.foldl AttrOp.run m0).headerAttrs = _ from funext h.header]

-- non-vacuity: a body value beats the header value which beats the default
example : (([AttrOp.header "note-caption" (.string "H"), .body "note-caption" (.string "B")].foldl AttrOp.run
    (ofSettings none .modeSecure Map.empty false)).get "note-caption") = some (.string "B") := by decide
example : ((ofSettings none .modeSecure Map.empty false).get "note-caption") = some (.string "Note") := by
  decide

/-- C18: the computed flags reflect the document type in force, which is the latest accepted one. -/
theorem C18_doctype_flags (m : DocumentMeta) (d : DocType) :
    m.get ("doctype-" ++ d.toStr) = if m.doctype = d then some (.bool true) else none := by
  cases d <;> simp [DocType.toStr, DocumentMeta.get]

/-- C19: no history of document-level operations changes the value read for a read-only job attribute
(all keys but the four computed flags), nor the job layer, nor the safe mode. -/
theorem C19_readonly_fixed (m m' : DocumentMeta) (ops : List DocOp) (k : String) (v : AttrValue)
    (hk : k ∉ doctypeFlags) (hro : m.jobAttrs k = some ⟨true, v⟩)
    (hrun : ops.foldlM DocOp.run m = some m') :
    m.get k = some v ∧ m'.get k = some v ∧ m'.safeMode = m.safeMode := by
  have h := DocOp.run_job_mode ops hrun
  refine ⟨?_, ?_, h.2⟩
  · rw [get_preferred _ _ hk, hro]; rfl
  · rw [get_preferred _ _ hk, h.1, hro]; rfl

/-- C19: the attributes describing the safe mode are those of the mode the job was started in, whatever
the job and the document assign. -/
theorem C19_safe_mode_fixed (dt : Option DocType) (mode : SafeMode) (job : Map JobAttr) (emb : Bool)
    (ops : List DocOp) (m' : DocumentMeta)
    (hrun : ops.foldlM DocOp.run (ofSettings dt mode job emb) = some m') :
    m'.safeMode = mode ∧
    m'.get "safe-mode-name" = some (.string mode.specName) ∧
    m'.get "safe-mode-level" = some (.string mode.specLevel) := by
  have hm : (ofSettings dt mode job emb).safeMode = mode := by cases dt <;> rfl
  have hn : (ofSettings dt mode job emb).jobAttrs "safe-mode-name" = some ⟨true, .string mode.specName⟩ := by
    cases dt <;> cases mode <;> rfl
  have hl : (ofSettings dt mode job emb).jobAttrs "safe-mode-level" = some ⟨true, .string mode.specLevel⟩ := by
    cases dt <;> cases mode <;> rfl
  exact ⟨(DocOp.run_job_mode ops hrun).2.trans hm,
    (C19_readonly_fixed _ _ ops _ _ (by decide) hn hrun).2.1,
    (C19_readonly_fixed _ _ ops _ _ (by decide) hl hrun).2.1⟩

-- non-vacuity: a document trying to change its safe mode, in header and body, with an author
example : ∃ m', [DocOp.header "safe-mode-name" (.string "UNSAFE"), .author ⟨"A", none, "B", none⟩,
    .body "safe-mode-name" (.string "UNSAFE"), .clearBody].foldlM DocOp.run
    (ofSettings none .modeSecure Map.empty false) = some m' := ⟨_, rfl⟩

/-- C19 is violated for the document type: a job that fixes it read-only (the code comment says "it
can't be changed") still gets a document of another type when the header says so. -/
theorem C19_doctype_violated :
    ∃ m', [DocOp.header "doctype" (.string "book")].foldlM DocOp.run
        (ofSettings (some .article) .modeSecure Map.empty false) = some m' ∧
      (ofSettings (some .article) .modeSecure Map.empty false).jobAttrs "doctype"
        = some ⟨true, .string "article"⟩ ∧
      (ofSettings (some .article) .modeSecure Map.empty false).doctype = .article ∧
      m'.doctype = .book ∧ m'.get "doctype-article" = none ∧ m'.get "doctype" = some (.string "article") :=
  ⟨_, rfl, by decide, by decide, by decide, by decide, by decide⟩

/-- C20 (no effect): a rejected header, body or job assignment leaves the whole store unchanged. -/
theorem C20_rejected_unchanged (m : DocumentMeta) (k : String) :
    (∀ v, (m.insertHeaderAttr k v).2 ≠ none → (m.insertHeaderAttr k v).1 = m) ∧
    (∀ v, (m.insertDocAttr k v).2 ≠ none → (m.insertDocAttr k v).1 = m) ∧
    (∀ j, (m.insertJobAttr k j).2 ≠ none → (m.insertJobAttr k j).1 = m) := by
  have hat : ∀ (mm : Map AttrValue) v, (attrsInsert mm k v).2 ≠ none → (attrsInsert mm k v).1 = mm := by
    intro mm v h
    unfold attrsInsert at h ⊢
    cases hv : validValue k v with
    | true => simp [validateAttr_ok _ _ _ hv] at h
    | false => simp [validateAttr_bad _ _ _ hv]
  refine ⟨fun v h => ?_, fun v h => ?_, fun j h => ?_⟩
  · unfold insertHeaderAttr at h ⊢
    split
    · rfl
    · rename_i h1
      simp only [h1, if_false] at h
      split
      · rename_i h2
        simp only [h2, if_true] at h
        split
        · rename_i d hd; simp [hd] at h
        · rfl
      · rename_i h2
        simp only [h2, if_false] at h
        split
        · rfl
        · rename_i h3
          rw [if_neg h3] at h
          simp only at h ⊢
          rw [hat _ _ h]
  · unfold insertDocAttr at h ⊢
    split
    · rfl
    · rename_i h1
      simp only [h1, if_false] at h
      split
      · rfl
      · rename_i h2
        simp only [h2, if_false] at h ⊢
        rw [hat _ _ h]
  · unfold insertJobAttr jobInsert at h ⊢
    cases hv : validValue k j.value with
    | true => simp [validateAttr_ok _ _ _ hv] at h
    | false => simp [validateAttr_bad _ _ _ hv]

/-- C20 (what is rejected): job-only keys are rejected everywhere in the document, header-only keys in the
body, and values failing validation in every layer. -/
theorem C20_rejections (m : DocumentMeta) (k : String) (v : AttrValue) :
    (k ∈ jobOnlyNames → (m.insertHeaderAttr k v).2 ≠ none ∧ (m.insertDocAttr k v).2 ≠ none) ∧
    (k ∈ headerOnlyNames → (m.insertDocAttr k v).2 ≠ none) ∧
    (¬ okValue k v → (m.insertHeaderAttr k v).2 ≠ none ∧ (m.insertDocAttr k v).2 ≠ none) := by
  rw [jobOnly_iff, headerOnly_iff]
  refine ⟨fun h => ?_, fun h => ?_, fun h => ?_⟩
  · simp [insertHeaderAttr, insertDocAttr, h]
  · unfold insertDocAttr; rw [if_pos h]; split <;> simp
  · have hv : validValue k v = false := by
      cases hv : validValue k v with
      | false => rfl
      | true => exact absurd ((okValue_iff k v).mp hv) h
    have hd : k ≠ "doctype" := by rintro rfl; simp [validValue] at hv
    constructor
    · unfold insertHeaderAttr
      split
      · simp
      · split <;> simp [attrsInsert, validateAttr_bad _ _ _ hv]
    · unfold insertDocAttr
      split
      · simp
      · split <;> simp [attrsInsert, validateAttr_bad _ _ _ hv]

/-- C20 (what is accepted): in the body, exactly the assignments of keys that are neither job-only nor header-only,
with an allowed value. -/
theorem C20_body_accepts_iff (m : DocumentMeta) (k : String) (v : AttrValue) :
    (m.insertDocAttr k v).2 = none ↔ k ∉ jobOnlyNames ∧ k ∉ headerOnlyNames ∧ okValue k v := by
  rw [jobOnly_iff, headerOnly_iff, ← okValue_iff]
  unfold insertDocAttr
  by_cases h1 : k ∈ JOB_ONLY
  · simp [h1]
  · by_cases h2 : k ∈ HEADER_ONLY
    · simp [h1, h2]
    · cases hv : validValue k v with
      | true => simp [h1, h2, attrsInsert, validateAttr_ok _ _ _ hv]
      | false => simp [h1, h2, attrsInsert, validateAttr_bad _ _ _ hv]

example : "docdir" ∈ jobOnlyNames ∧ "lang" ∈ headerOnlyNames ∧ ¬ okValue "showtitle" (.string "x") := by
  refine ⟨by decide, by decide, ?_⟩
  intro h; simpa using h.2.2 (Or.inl rfl)

/-- C21: in the header layer and in the body layer, after any history of assignments starting from a
fresh store, at most one of `showtitle`/`notitle` is set; and right after an accepted assignment of one of
them, it has the assigned value and the other is unset in that layer. -/
theorem C21_title_switches_exclusive (dt : Option DocType) (mode : SafeMode) (job : Map JobAttr) (emb : Bool)
    (ops : List AttrOp) :
    let m := ops.foldl AttrOp.run (ofSettings dt mode job emb)
    (m.headerAttrs "showtitle" = none ∨ m.headerAttrs "notitle" = none) ∧
    (m.docAttrs "showtitle" = none ∨ m.docAttrs "notitle" = none) := by
  have key : ∀ (mm : Map AttrValue) k v, (mm "showtitle" = none ∨ mm "notitle" = none) →
      ((attrsInsert mm k v).1 "showtitle" = none ∨ (attrsInsert mm k v).1 "notitle" = none) := by
    intro mm k v h
    unfold attrsInsert
    cases hv : validValue k v with
    | false => simpa [validateAttr_bad _ _ _ hv] using h
    | true =>
      rw [validateAttr_ok _ _ _ hv]
      by_cases h1 : k = "showtitle"
      · subst h1; right; simp [Map.insert, Map.remove]
      · by_cases h2 : k = "notitle"
        · subst h2; left; simp [Map.insert, Map.remove]
        · simpa [h1, h2, Map.insert, Ne.symm h1, Ne.symm h2] using h
  have step : ∀ (m : DocumentMeta) (op : AttrOp),
      (m.headerAttrs "showtitle" = none ∨ m.headerAttrs "notitle" = none) ∧
      (m.docAttrs "showtitle" = none ∨ m.docAttrs "notitle" = none) →
      ((op.run m).headerAttrs "showtitle" = none ∨ (op.run m).headerAttrs "notitle" = none) ∧
      ((op.run m).docAttrs "showtitle" = none ∨ (op.run m).docAttrs "notitle" = none) := by
    intro m op h
    cases op with
    | job k j => exact h
    | header k v =>
      simp only [AttrOp.run, insertHeaderAttr]
      split
      · exact h
      · split
        · split
          · rename_i d _; exact ⟨key m.headerAttrs "doctype" (.string d.toStr) h.1, h.2⟩
          · exact h
        · split
          · exact h
          · exact ⟨key _ _ _ h.1, h.2⟩
    | body k v =>
      simp only [AttrOp.run, insertDocAttr]
      split
      · exact h
      · split
        · exact h
        · exact ⟨h.1, key _ _ _ h.2⟩
    | clearBody => exact ⟨h.1, Or.inl rfl⟩
  have init : let m := ofSettings dt mode job emb
      (m.headerAttrs "showtitle" = none ∨ m.headerAttrs "notitle" = none) ∧
      (m.docAttrs "showtitle" = none ∨ m.docAttrs "notitle" = none) := by
    cases dt with
    | none => exact ⟨Or.inl rfl, Or.inl rfl⟩
    | some d => exact ⟨key Map.empty "doctype" (.string d.toStr) (Or.inl rfl), Or.inl rfl⟩
  intro m
  have : ∀ (ops : List AttrOp) (m0 : DocumentMeta),
      (m0.headerAttrs "showtitle" = none ∨ m0.headerAttrs "notitle" = none) ∧
      (m0.docAttrs "showtitle" = none ∨ m0.docAttrs "notitle" = none) →
      ((ops.foldl AttrOp.run m0).headerAttrs "showtitle" = none
        ∨ (ops.foldl AttrOp.run m0).headerAttrs "notitle" = none) ∧
      ((ops.foldl AttrOp.run m0).docAttrs "showtitle" = none
        ∨ (ops.foldl AttrOp.run m0).docAttrs "notitle" = none) := by
    intro ops
    induction ops with
    | nil => intro m0 h; exact h
    | cons op ops ih => intro m0 h; exact ih _ (step m0 op h)
  exact this ops _ init

/-- C21 (last one wins): right after setting a title switch to a boolean in the header or in the body, that
layer holds the value and not the other switch. -/
theorem C21_last_assignment_wins (m : DocumentMeta) (b : Bool) :
    let h := (m.insertHeaderAttr "showtitle" (.bool b)).1
    let n := (m.insertDocAttr "notitle" (.bool b)).1
    h.headerAttrs "showtitle" = some (.bool b) ∧ h.headerAttrs "notitle" = none ∧
    n.docAttrs "notitle" = some (.bool b) ∧ n.docAttrs "showtitle" = none := by
  refine ⟨rfl, rfl, rfl, rfl⟩

/-- C21 (what the switches do): with one switch set, the title is shown exactly as it says; with none set, it is
shown in full documents and hidden in embedded ones. -/
theorem C21_title_shown_as_asked (m : DocumentMeta) (b : Bool) :
    (m.get "showtitle" = some (.bool b) → m.get "notitle" = none → m.showDocTitle = b) ∧
    (m.get "notitle" = some (.bool b) → m.get "showtitle" = none → m.showDocTitle = !b) ∧
    (m.get "showtitle" = none → m.get "notitle" = none → m.showDocTitle = !m.embedded) := by
  refine ⟨fun h1 h2 => ?_, fun h1 h2 => ?_, fun h1 h2 => ?_⟩ <;>
    simp only [showDocTitle, DocumentMeta.isTrue, DocumentMeta.isFalse, h1, h2] <;> cases b <;> cases m.embedded <;> decide

example : (([AttrOp.header "showtitle" (.bool true), .header "notitle" (.bool true)].foldl AttrOp.run
    (ofSettings none .modeSafe Map.empty true)).headerAttrs "showtitle") = none := by decide

end Verif.Props
