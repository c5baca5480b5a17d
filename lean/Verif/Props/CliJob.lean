import Verif.Model.CliJob
import Verif.Spec.CliJob
import Verif.Lemmas.Meta
/-! C126: attributes of the command line. -/
namespace Verif.Props
open Verif.CliJob

private theorem jobInsert_ok (m : Map JobAttr) (k : String) (j : JobAttr) (h : okValue k j.value) :
    ∃ m', jobInsert m k j = (m', none) ∧
      ∀ x, m' x = if x = k then some j else if opposite k = some x then none else m x := by
  have hv := (okValue_iff k j.value).mpr h
  unfold jobInsert validateAttr
  simp only [hv, if_true]
  refine ⟨_, rfl, fun x => ?_⟩
  unfold Map.insert
  by_cases hx : x = k
  · simp only [hx, if_true]
  · simp only [hx, if_false]
    unfold opposite
    by_cases h1 : k = "showtitle"
    · simp only [h1, if_true, Map.remove, Option.some.injEq]
      by_cases h2 : x = "notitle"
      · simp only [h2, if_true]
      · simp only [h2, Ne.symm h2, if_false]
    · by_cases h3 : k = "notitle"
      · subst h3
        simp only [h1, if_false, if_true, Map.remove, Option.some.injEq]
        by_cases h2 : x = "showtitle"
        · simp only [h2, if_true]
        · simp only [h2, Ne.symm h2, if_false]
      · simp only [h1, h3, if_false, reduceCtorEq]

private theorem jobInsert_bad (m : Map JobAttr) (k : String) (j : JobAttr) (h : ¬ okValue k j.value) :
    ∃ m', jobInsert m k j = (m', some .invalidValue) := by
  have hv : validValue k j.value = false := by
    cases hc : validValue k j.value
    · rfl
    · exact absurd ((okValue_iff k j.value).mp hc) h
  unfold jobInsert validateAttr
  simp [hv]

private theorem insertAll_ok (args : List (String × JobAttr)) (m : Map JobAttr) (h : ∀ p ∈ args, okValue p.1 p.2.value) :
    ∃ m', insertAll m args = .ok m' ∧
      ∀ x, m' x = (said x args).or (if ∃ p ∈ args, (x = "showtitle" ∧ p.1 = "notitle") ∨ (x = "notitle" ∧ p.1 = "showtitle") then none else m x) := by
  induction args generalizing m with
  | nil => exact ⟨m, rfl, fun x => by simp [said]⟩
  | cons p rest ih =>
    obtain ⟨k, j⟩ := p
    obtain ⟨m1, h1, hm1⟩ := jobInsert_ok m k j (h (k, j) (by simp))
    obtain ⟨m2, h2, hm2⟩ := ih m1 (fun p hp => h p (by simp [hp]))
    refine ⟨m2, ?_, fun x => ?_⟩
    · rw [insertAll, h1]; exact h2
    · rw [hm2 x, said]
      cases hs : said x rest with
      | some j' => rfl
      | none =>
        simp only [Option.none_or, List.mem_cons, exists_eq_or_imp]
        by_cases he : ∃ p ∈ rest, (x = "showtitle" ∧ p.1 = "notitle") ∨ (x = "notitle" ∧ p.1 = "showtitle")
        · simp only [he, or_true, if_true, not_true_eq_false, and_false, if_false, Option.none_or]
        · simp only [he, or_false, if_false, not_false_eq_true, and_true]
          rw [hm1 x]
          by_cases hk : k = x
          · subst hk
            simp
          · simp only [hk, Ne.symm hk, if_false, Option.none_or]
            unfold opposite
            by_cases a : k = "showtitle"
            · subst a
              by_cases b : x = "notitle"
              · simp [b]
              · simp [b, Ne.symm b]
            · by_cases c : k = "notitle"
              · subst c
                by_cases b : x = "showtitle"
                · simp [b]
                · simp [b, Ne.symm b]
              · simp [a, c]

private theorem insertAll_bad (args : List (String × JobAttr)) (m : Map JobAttr) (h : ∃ p ∈ args, ¬ okValue p.1 p.2.value) :
    insertAll m args = .error .invalidValue := by
  induction args generalizing m with
  | nil => simp at h
  | cons p rest ih =>
    obtain ⟨k, j⟩ := p
    by_cases hk : okValue k j.value
    · obtain ⟨m1, h1, -⟩ := jobInsert_ok m k j hk
      rw [insertAll, h1]
      refine ih m1 ?_
      obtain ⟨q, hq, hb⟩ := h
      rcases List.mem_cons.mp hq with e | e
      · subst e; exact absurd hk hb
      · exact ⟨q, e, hb⟩
    · obtain ⟨m1, h1⟩ := jobInsert_bad m k j hk
      rw [insertAll, h1]

private theorem ofSettings_other (dt : Option DocType) (mode : SafeMode) (job : Map JobAttr) (emb : Bool) (k : String) (hk : k ∉ ofJob) :
    (DocumentMeta.ofSettings dt mode job emb).jobAttrs k = job k := by
  simp only [ofJob, List.mem_cons, List.not_mem_nil, or_false, not_or] at hk
  obtain ⟨h1, h2, h3, h4, h5, h6, h7⟩ := hk
  cases dt <;> cases mode <;>
    simp [DocumentMeta.ofSettings, DocumentMeta.new, DocumentMeta.setDoctype, DocumentMeta.safeModeAttrs, Map.insert, h1, h2, h3, h4, h5, h6, h7]

/-- **C126**: the arguments of the command line are refused exactly if one of the values is not allowed for its attribute. -/
theorem C126_refused (a : Args) :
    ((∃ m, start a = .ok m) ↔ ∀ p ∈ a.attributes, okValue p.1 p.2.value) ∧
    ((∃ p ∈ a.attributes, ¬ okValue p.1 p.2.value) → start a = .error .invalidValue) := by
  have bad : (∃ p ∈ a.attributes, ¬ okValue p.1 p.2.value) → start a = .error .invalidValue := fun h => by
    unfold start
    rw [insertAll_bad _ _ h]
  refine ⟨⟨fun ⟨m, hm⟩ p hp => ?_, fun h => ?_⟩, bad⟩
  · false_or_by_contra
    rename_i hc
    rw [bad ⟨p, hp, hc⟩] at hm
    cases hm
  · obtain ⟨j, hj, -⟩ := insertAll_ok a.attributes Map.empty h
    unfold start
    rw [hj]
    exact ⟨_, rfl⟩

/-- **C126**: an attribute that the command line sets (or unsets) for good has that value from the start to the end, whatever the document does; the last
argument for it counts. Partial: not for `doctype`, and the attributes of the safe mode are those of the mode. -/
theorem C126_fixed_partial (a : Args) (m m' : DocumentMeta) (ops : List DocOp) (k : String) (v : AttrValue)
    (hs : start a = .ok m) (hrun : ops.foldlM DocOp.run m = some m') (hk : k ∉ ofJob) (hf : k ∉ doctypeFlags)
    (hv : said k a.attributes = some ⟨true, v⟩) : m.get k = some v ∧ m'.get k = some v := by
  have hok : ∀ p ∈ a.attributes, okValue p.1 p.2.value := (C126_refused a).1.mp ⟨m, hs⟩
  obtain ⟨job, hj, hx⟩ := insertAll_ok a.attributes Map.empty hok
  unfold start at hs
  rw [hj] at hs
  simp only [Except.ok.injEq] at hs
  subst hs
  have e : (DocumentMeta.ofSettings a.doctype a.mode job a.embedded).jobAttrs k = some ⟨true, v⟩ := by
    rw [ofSettings_other _ _ _ _ _ hk, hx, hv]; rfl
  refine ⟨?_, ?_⟩
  · rw [get_preferred _ _ hf, e]; rfl
  · rw [get_preferred _ _ hf, (DocOp.run_job_mode ops hrun).1, e]; rfl

/-- **C126**: an attribute that the command line sets so that the document may change it has that value as long as the document does not set it. Partial:
not for attributes that have a default. -/
theorem C126_soft_partial (a : Args) (m m' : DocumentMeta) (ops : List DocOp) (k : String) (v : AttrValue)
    (hs : start a = .ok m) (hrun : ops.foldlM DocOp.run m = some m') (hk : k ∉ ofJob) (hf : k ∉ doctypeFlags)
    (hv : said k a.attributes = some ⟨false, v⟩) (hd : k ∉ defaultTable.map (·.1)) :
    m'.get k = ((m'.docAttrs k).or (m'.headerAttrs k)).or (some v) := by
  have hok : ∀ p ∈ a.attributes, okValue p.1 p.2.value := (C126_refused a).1.mp ⟨m, hs⟩
  obtain ⟨job, hj, hx⟩ := insertAll_ok a.attributes Map.empty hok
  unfold start at hs
  rw [hj] at hs
  simp only [Except.ok.injEq] at hs
  subst hs
  have e : (DocumentMeta.ofSettings a.doctype a.mode job a.embedded).jobAttrs k = some ⟨false, v⟩ := by
    rw [ofSettings_other _ _ _ _ _ hk, hx, hv]; rfl
  have d : defaultAttrs k = none := by
    unfold defaultAttrs
    generalize defaultTable = t at hd
    induction t with
    | nil => rfl
    | cons p t ih =>
      obtain ⟨q, w⟩ := p
      simp only [List.map_cons, List.mem_cons, not_or] at hd
      rw [List.lookup_cons, beq_false_of_ne hd.1]
      exact ih hd.2
  rw [get_preferred _ _ hf, (DocOp.run_job_mode ops hrun).1, e]
  unfold preferred
  rw [d]
  cases m'.docAttrs k <;> cases m'.headerAttrs k <;> rfl

private def some2 : Args :=
  { doctype := none, attributes := [("a", ⟨true, .string "1"⟩), ("b", ⟨false, .string "2"⟩), ("showtitle", ⟨true, .bool true⟩), ("a", ⟨true, .bool false⟩)],
    mode := .modeSecure, embedded := false }

example : said "a" some2.attributes = some ⟨true, .bool false⟩ ∧ "a" ∉ ofJob ∧ "a" ∉ doctypeFlags := by
  refine ⟨?_, by decide, by decide⟩
  simp [said, some2]

example : ∃ m, start some2 = .ok m ∧ m.get "a" = some (.bool false) ∧ m.get "b" = some (.string "2") := ⟨_, rfl, by decide, by decide⟩

/-- **C126 violated** (`-a doctype=book`): the argument is accepted and has no effect. -/
theorem C126_doctype_violated (mode : SafeMode) :
    ∃ m, start { doctype := none, attributes := [("doctype", ⟨true, .string "book"⟩)], mode := mode, embedded := false } = .ok m ∧
      m.get "doctype" = some (.string "article") ∧ m.doctype = .article := by
  cases mode <;> exact ⟨_, rfl, by decide, by decide⟩

/-- **C126 violated** (`-a tip-caption=Hint@`): an attribute with a default keeps the default, though the document does not set it. -/
theorem C126_default_violated :
    ∃ m, start { doctype := none, attributes := [("tip-caption", ⟨false, .string "Hint"⟩)], mode := .modeSecure, embedded := false } = .ok m ∧
      m.get "tip-caption" = some (.string "Tip") := ⟨_, rfl, by decide⟩

end Verif.Props
