import Verif.Spec.Meta
import Std.Data.String.ToNat
namespace Verif
open DocumentMeta

theorem jobOnly_iff (k : String) : k ∈ jobOnlyNames ↔ k ∈ JOB_ONLY := by
  simp only [jobOnlyNames, JOB_ONLY, List.mem_cons, List.not_mem_nil, or_false]
  grind

theorem headerOnly_iff (k : String) : k ∈ headerOnlyNames ↔ k ∈ HEADER_ONLY := by
  simp only [headerOnlyNames, HEADER_ONLY, List.mem_cons, List.not_mem_nil, or_false]
  grind

theorem okValue_iff (k : String) (v : AttrValue) : validValue k v = true ↔ okValue k v := by
  unfold validValue okValue
  by_cases h1 : k = "attribute-missing"
  · subst h1; cases v <;> simp [validOneOf]
  by_cases h2 : k = "attribute-undefined"
  · subst h2; cases v <;> simp [validOneOf]
  by_cases h3 : k = "showtitle" ∨ k = "notitle"
  · have hs : k ≠ "attribute-missing" ∧ k ≠ "attribute-undefined" := ⟨h1, h2⟩
    cases v <;> simp [validBool, h1, h2, h3]
  · simp [h1, h2, h3]

theorem validateAttr_ok {V : Type} (m : Map V) (k : String) (v : AttrValue) (h : validValue k v = true) :
    validateAttr m k v = ((if k = "showtitle" then m.remove "notitle"
     else if k = "notitle" then m.remove "showtitle" else m), none) := by
  simp [validateAttr, h]

theorem validateAttr_bad {V : Type} (m : Map V) (k : String) (v : AttrValue) (h : validValue k v = false) :
    validateAttr m k v = (m, some .invalidValue) := by
  simp [validateAttr, h]

theorem insert_latest {V : Type} (base : String → Option V) (log : List (String × V)) (m : Map V)
    (hm : ∀ k, m k = latest base k log) (k : String) (v : V) (k0 : String) :
    Map.insert (if k = "showtitle" then m.remove "notitle"
      else if k = "notitle" then m.remove "showtitle" else m) k v k0
      = latest base k0 ((k, v) :: log) := by
  unfold Map.insert latest opposite
  by_cases h : k0 = k
  · simp [h]
  · have h' : k ≠ k0 := Ne.symm h
    simp only [h, h', if_false]
    by_cases h1 : k = "showtitle"
    · subst h1
      by_cases h2 : k0 = "notitle"
      · simp [h2, Map.remove]
      · simp [h2, Ne.symm h2, Map.remove, hm]
    · by_cases h3 : k = "notitle"
      · subst h3
        by_cases h2 : k0 = "showtitle"
        · simp [h2, Map.remove]
        · simp [h2, Ne.symm h2, Map.remove, hm]
      · simp [h1, h3, hm]

/-- relation between the store and the history -/
structure LogRel (jobBase : Map JobAttr) (m : DocumentMeta) (l : AttrLog) : Prop where
  dt : m.doctype = l.doctype
  job : ∀ k, m.jobAttrs k = latest jobBase k l.job
  header : ∀ k, m.headerAttrs k = latest Map.empty k l.header
  body : ∀ k, m.docAttrs k = latest Map.empty k l.body

theorem LogRel.step {jb : Map JobAttr} {m : DocumentMeta} {l : AttrLog} (h : LogRel jb m l) (op : AttrOp) :
    LogRel jb (op.run m) (l.step op) := by
  cases op with
  | job k j =>
    by_cases hv : validValue k j.value = true
    · have ho := (okValue_iff k j.value).mp hv
      simp only [AttrOp.run, AttrLog.step, insertJobAttr, jobInsert, validateAttr_ok _ _ _ hv, ho, if_true]
      exact { h with job := fun k0 => insert_latest jb l.job _ h.job k j k0 }
    · have hv' : validValue k j.value = false := by simpa using hv
      have ho : ¬ okValue k j.value := fun o => hv ((okValue_iff k j.value).mpr o)
      simp only [AttrOp.run, AttrLog.step, insertJobAttr, jobInsert, validateAttr_bad _ _ _ hv', ho, if_false]
      exact { h with }
  | header k v =>
    simp only [AttrOp.run, AttrLog.step, insertHeaderAttr, jobOnly_iff]
    by_cases h1 : k ∈ JOB_ONLY
    · simp only [h1, if_true]; exact h
    · simp only [h1, if_false]
      by_cases h2 : k = "doctype"
      · simp only [h2, if_true]
        cases hd : v.str.bind DocType.parse with
        | none => exact h
        | some d =>
          simp only [setDoctype, attrsInsert]
          rw [validateAttr_ok _ _ _ (by simp [validValue])]
          refine { h with dt := rfl, header := fun k0 => ?_ }
          exact insert_latest Map.empty l.header _ h.header "doctype" _ k0
      · simp only [h2, if_false]
        have hmem : (k = "chapter-refsig" ∨ k = "chapter-signifier" ∨ k = "part-refsig" ∨ k = "part-signifier")
            ↔ k ∈ ["chapter-refsig", "chapter-signifier", "part-refsig", "part-signifier"] := by simp
        by_cases hc : k ∈ ["chapter-refsig", "chapter-signifier", "part-refsig", "part-signifier"]
            ∧ l.doctype ≠ .book
        · rw [if_pos hc, if_pos (by rw [hmem, h.dt]; exact hc)]; exact h
        · rw [if_neg hc, if_neg (by rw [hmem, h.dt]; exact hc)]
          by_cases hv : validValue k v = true
          · have ho := (okValue_iff k v).mp hv
            simp only [attrsInsert, validateAttr_ok _ _ _ hv, ho, if_true]
            exact { h with header := fun k0 => insert_latest Map.empty l.header _ h.header k v k0 }
          · have hv' : validValue k v = false := by simpa using hv
            have ho : ¬ okValue k v := fun o => hv ((okValue_iff k v).mpr o)
            simp only [attrsInsert, validateAttr_bad _ _ _ hv', ho, if_false]
            exact { h with }
  | body k v =>
    simp only [AttrOp.run, AttrLog.step, insertDocAttr, jobOnly_iff, headerOnly_iff]
    by_cases h1 : k ∈ JOB_ONLY
    · simp only [h1, if_true, true_or]; exact h
    · by_cases h2 : k ∈ HEADER_ONLY
      · simp only [h1, if_false, h2, if_true, or_true]; exact h
      · simp only [h1, h2, if_false, or_self]
        by_cases hv : validValue k v = true
        · have ho := (okValue_iff k v).mp hv
          simp only [attrsInsert, validateAttr_ok _ _ _ hv, ho, if_true]
          exact { h with body := fun k0 => insert_latest Map.empty l.body _ h.body k v k0 }
        · have hv' : validValue k v = false := by simpa using hv
          have ho : ¬ okValue k v := fun o => hv ((okValue_iff k v).mpr o)
          simp only [attrsInsert, validateAttr_bad _ _ _ hv', ho, if_false]
          exact { h with }
  | clearBody => exact { h with body := fun k => rfl }

theorem LogRel.run {jb : Map JobAttr} (ops : List AttrOp) {m : DocumentMeta} {l : AttrLog}
    (h : LogRel jb m l) : LogRel jb (ops.foldl AttrOp.run m) (ops.foldl AttrLog.step l) := by
  induction ops generalizing m l with
  | nil => exact h
  | cons op ops ih => exact ih (h.step op)

theorem get_preferred (m : DocumentMeta) (k : String) (hk : k ∉ doctypeFlags) :
    m.get k = preferred (m.jobAttrs k) m.docAttrs m.headerAttrs defaultAttrs k := by
  simp only [doctypeFlags, List.mem_cons, List.not_mem_nil, or_false, not_or] at hk
  obtain ⟨h1, h2, h3, h4⟩ := hk
  unfold DocumentMeta.get preferred
  simp only [h1, h2, h3, h4, if_false]
  rcases m.jobAttrs k with _ | ⟨_ | _, v⟩
  · by_cases hd : k = "doctitle"
    · subst hd
      simp only [resolveAttr, if_true, List.findSome?]
      cases m.docAttrs "doctitle" <;> cases m.headerAttrs "doctitle" <;>
        cases defaultAttrs "doctitle" <;>
        cases m.docAttrs "_asciidork_derived_doctitle" <;>
        cases m.headerAttrs "_asciidork_derived_doctitle" <;>
        cases defaultAttrs "_asciidork_derived_doctitle" <;> rfl
    · simp only [hd, if_false, resolveAttr, List.findSome?]
      cases m.docAttrs k <;> cases m.headerAttrs k <;> cases defaultAttrs k <;> rfl
  · simp only [resolveAttr, List.findSome?]
    cases m.docAttrs k <;> cases m.headerAttrs k <;> cases defaultAttrs k <;> rfl
  · rfl

/-! ### operations of a document leave the job layer alone -/

theorem insertStringAttr_job (m : DocumentMeta) (k v) : (m.insertStringAttr k v).jobAttrs = m.jobAttrs := rfl
theorem insertOptAttr_job (m : DocumentMeta) (k v) : (m.insertOptAttr k v).jobAttrs = m.jobAttrs := by
  cases v <;> rfl
theorem insertOptAttr_mode (m : DocumentMeta) (k v) : (m.insertOptAttr k v).safeMode = m.safeMode := by
  cases v <;> rfl

theorem addAuthor_job {m m' : DocumentMeta} {a : Author} (h : m.addAuthor a = some m') :
    m'.jobAttrs = m.jobAttrs ∧ m'.safeMode = m.safeMode := by
  unfold addAuthor at h
  cases hi : a.initials with
  | none => simp [hi] at h
  | some ini =>
    simp only [hi, Option.bind_eq_bind, Option.bind_some, Option.pure_def, Option.some.injEq] at h
    subst h
    constructor
    · simp only
      split <;> (simp only [insertStringAttr_job, insertOptAttr_job]; split) <;>
        simp only [insertStringAttr_job, insertOptAttr_job]
    · simp only
      split <;> (simp only [insertStringAttr, insertOptAttr_mode]; split) <;>
        rfl

theorem DocOp.job_mode {m m' : DocumentMeta} {op : DocOp} (h : op.run m = some m') :
    m'.jobAttrs = m.jobAttrs ∧ m'.safeMode = m.safeMode := by
  cases op with
  | header k v =>
    simp only [DocOp.run, Option.some.injEq] at h; subst h
    unfold insertHeaderAttr; split
    · exact ⟨rfl, rfl⟩
    · split
      · split <;> exact ⟨rfl, rfl⟩
      · split <;> exact ⟨rfl, rfl⟩
  | body k v =>
    simp only [DocOp.run, Option.some.injEq] at h; subst h
    unfold insertDocAttr; split
    · exact ⟨rfl, rfl⟩
    · split <;> exact ⟨rfl, rfl⟩
  | clearBody => simp only [DocOp.run, Option.some.injEq] at h; subst h; exact ⟨rfl, rfl⟩
  | author a => exact addAuthor_job h

theorem DocOp.run_job_mode (ops : List DocOp) {m m' : DocumentMeta} (h : ops.foldlM DocOp.run m = some m') :
    m'.jobAttrs = m.jobAttrs ∧ m'.safeMode = m.safeMode := by
  induction ops generalizing m with
  | nil => simp at h; subst h; exact ⟨rfl, rfl⟩
  | cons op ops ih =>
    rw [List.foldlM_cons, Option.bind_eq_bind, Option.bind_eq_some_iff] at h
    obtain ⟨m1, h1, h2⟩ := h
    have a := DocOp.job_mode h1
    have b := ih h2
    exact ⟨b.1.trans a.1, b.2.trans a.2⟩

/-! ### authors -/

theorem attrsInsert_plain (m : Map AttrValue) (k : String) (v : AttrValue)
    (hk : k ∉ ["attribute-missing", "attribute-undefined", "showtitle", "notitle"]) :
    (attrsInsert m k v).1 = m.insert k v := by
  simp only [List.mem_cons, List.not_mem_nil, or_false, not_or] at hk
  obtain ⟨h1, h2, h3, h4⟩ := hk
  unfold attrsInsert
  rw [validateAttr_ok _ _ _ (by simp [validValue, h1, h2, h3, h4])]
  simp [h3, h4]

end Verif
