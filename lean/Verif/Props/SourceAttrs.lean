import Verif.Spec.SourceAttrs
import Verif.Props.Meta
/-!
# What a document is told about its file

**C115**: a document is told the name of its file; in the modes `server` and `secure` it cannot learn anything else about where it is.
-/
namespace Verif.Props
open Verif Verif.SourceAttrs Verif.Spec.SourceAttrs Verif.Path DocumentMeta

private theorem put_job (m : DocumentMeta) (k k' : String) (v : List Char) (h : k ≠ "showtitle" ∧ k ≠ "notitle" ∧ k ≠ "attribute-missing" ∧
    k ≠ "attribute-undefined") :
    (put m k v).jobAttrs k' = if k' = k then some ⟨true, .string (String.ofList v)⟩ else m.jobAttrs k' := by
  obtain ⟨h1, h2, h3, h4⟩ := h
  simp [put, insertJobAttr, jobInsert, validateAttr, validValue, h1, h2, h3, h4, Map.insert]

private theorem put_mode (m : DocumentMeta) (k : String) (v : List Char) : (put m k v).safeMode = m.safeMode := rfl

private theorem split_name (f : List Char) : SplitName f (stem f) (extension f) := by
  have key : ∀ f, match lastDot f with
      | some (a, b) => f = a ++ b ∧ ∃ e, b = '.' :: e ∧ '.' ∉ e
      | none => '.' ∉ f := by
    intro f
    induction f with
    | nil => simp [lastDot]
    | cons c cs ih =>
      unfold lastDot
      cases h : lastDot cs with
      | some p =>
        obtain ⟨a, b⟩ := p
        rw [h] at ih
        exact ⟨by rw [List.cons_append, ← ih.1], ih.2⟩
      | none =>
        rw [h] at ih
        simp only
        by_cases hc : c = '.'
        · rw [if_pos hc]
          exact ⟨rfl, cs, by rw [hc], ih⟩
        · rw [if_neg hc]
          simp only [List.mem_cons, not_or]
          exact ⟨fun e => hc e.symm, ih⟩
  have := key f
  unfold SplitName stem extension
  cases h : lastDot f with
  | none => rw [h] at this; exact ⟨by simp, .inl ⟨rfl, this⟩⟩
  | some p => obtain ⟨a, b⟩ := p; rw [h] at this; exact ⟨this.1, .inr this.2⟩

private theorem whole (f : List Char) : stem f ++ extension f = f := (split_name f).1.symm

private theorem started_job {dt : Option DocType} {mode : SafeMode} {job : Map JobAttr} {emb : Bool} {home : Option (List Char)} {p : Path}
    {m : DocumentMeta} (h : started dt mode job emb home (.path p) = some m) :
    ∃ f, p.fileName = some f ∧ m.safeMode = mode ∧
      m.jobAttrs "docname" = some ⟨true, .string (String.ofList (stem f))⟩ ∧
      m.jobAttrs "docfilesuffix" = some ⟨true, .string (String.ofList (extension f))⟩ ∧
      m.jobAttrs "asciidork-docfilename" = some ⟨true, .string (String.ofList f)⟩ ∧
      (2 ≤ mode.rank → m.jobAttrs "docdir" = some ⟨true, .string ""⟩ ∧ m.jobAttrs "docfile" = some ⟨true, .string (String.ofList f)⟩ ∧
        m.jobAttrs "user-home" = some ⟨true, .string "."⟩) ∧
      (mode.rank < 2 → m.jobAttrs "docdir" = some ⟨true, .string (String.ofList p.dirname)⟩ ∧
        m.jobAttrs "docfile" = some ⟨true, .string (String.ofList p.display)⟩ ∧
        ∀ h, home = some h → m.jobAttrs "user-home" = some ⟨true, .string (String.ofList h)⟩) := by
  unfold started setSourceFileAttrs at h
  cases hf : p.fileName with
  | none => simp [hf] at h
  | some f =>
    refine ⟨f, rfl, ?_⟩
    simp only [hf, put_mode] at h
    have hm : (ofSettings dt mode job emb).safeMode = mode := by cases dt <;> rfl
    rw [hm] at h
    have e0 : String.ofList ([] : List Char) = "" := rfl
    have e1 : String.ofList ['.'] = "." := rfl
    cases mode <;> simp only at h
    all_goals first
      | (cases hh : home with
         | none =>
           rw [hh] at h
           have h := Option.some.inj h
           rw [← h]
           simp [put_job, put_mode, hm, whole, SafeMode.rank]
         | some w =>
           rw [hh] at h
           have h := Option.some.inj h
           rw [← h]
           simp [put_job, put_mode, hm, whole, SafeMode.rank])
      | (have h := Option.some.inj h
         rw [← h]
         simp [put_job, put_mode, hm, whole, SafeMode.rank])

/-- **C115** (names): whatever the job says and whatever the document does, it reads the name of its file, which is split before its last dot. -/
theorem C115_names (dt : Option DocType) (mode : SafeMode) (job : Map JobAttr) (emb : Bool) (home : Option (List Char)) (p : Path)
    (m m' : DocumentMeta) (ops : List DocOp) (h : started dt mode job emb home (.path p) = some m) (hrun : ops.foldlM DocOp.run m = some m') :
    ∃ f s e, p.fileName = some f ∧ SplitName f s e ∧
      m'.get "docname" = some (.string (String.ofList s)) ∧
      m'.get "docfilesuffix" = some (.string (String.ofList e)) ∧
      m'.get "asciidork-docfilename" = some (.string (String.ofList f)) := by
  obtain ⟨f, hf, _, h1, h2, h3, _⟩ := started_job h
  exact ⟨f, stem f, extension f, hf, split_name f, (C19_readonly_fixed _ _ _ _ _ (by decide) h1 hrun).2.1,
    (C19_readonly_fixed _ _ _ _ _ (by decide) h2 hrun).2.1, (C19_readonly_fixed _ _ _ _ _ (by decide) h3 hrun).2.1⟩

/-- **C115** (secrecy): in the modes `server` and `secure`, two files of the same name in any two places, of any two users, give documents with
the very same attributes. -/
theorem C115_secret (dt : Option DocType) (mode : SafeMode) (job : Map JobAttr) (emb : Bool) (home home' : Option (List Char)) (p q : Path)
    (hm : 2 ≤ mode.rank) (h : p.fileName = q.fileName) :
    started dt mode job emb home (.path p) = started dt mode job emb home' (.path q) := by
  unfold started setSourceFileAttrs
  have hs : (ofSettings dt mode job emb).safeMode = mode := by cases dt <;> rfl
  simp only [h, put_mode, hs]
  cases q.fileName with
  | none => rfl
  | some f =>
    cases mode with
    | modeUnsafe => exact absurd hm (by decide)
    | modeSafe => exact absurd hm (by decide)
    | modeServer => rfl
    | modeSecure => rfl

/-- **C115** (server and secure): there is no directory, the file is its name, and the home of the user is `.`, whatever the job and the document
say. -/
theorem C115_secure (dt : Option DocType) (mode : SafeMode) (job : Map JobAttr) (emb : Bool) (home : Option (List Char)) (p : Path)
    (m m' : DocumentMeta) (ops : List DocOp) (hm : 2 ≤ mode.rank) (h : started dt mode job emb home (.path p) = some m)
    (hrun : ops.foldlM DocOp.run m = some m') :
    m'.get "docdir" = some (.string "") ∧
    (∃ f, p.fileName = some f ∧ m'.get "docfile" = some (.string (String.ofList f))) ∧
    m'.get "user-home" = some (.string ".") := by
  obtain ⟨f, hf, _, _, _, _, h1, _⟩ := started_job h
  obtain ⟨h1, h2, h3⟩ := h1 hm
  exact ⟨(C19_readonly_fixed _ _ _ _ _ (by decide) h1 hrun).2.1, ⟨f, hf, (C19_readonly_fixed _ _ _ _ _ (by decide) h2 hrun).2.1⟩,
    (C19_readonly_fixed _ _ _ _ _ (by decide) h3 hrun).2.1⟩

/-- **C115** (other modes): the document reads the directory and the path of its file, and the home of the user, if that is known. -/
theorem C115_told (dt : Option DocType) (mode : SafeMode) (job : Map JobAttr) (emb : Bool) (home : Option (List Char)) (p : Path)
    (m m' : DocumentMeta) (ops : List DocOp) (hm : mode.rank < 2) (h : started dt mode job emb home (.path p) = some m)
    (hrun : ops.foldlM DocOp.run m = some m') :
    m'.get "docdir" = some (.string (String.ofList p.dirname)) ∧
    m'.get "docfile" = some (.string (String.ofList p.display)) ∧
    (∀ d, home = some d → m'.get "user-home" = some (.string (String.ofList d))) := by
  obtain ⟨f, hf, _, _, _, _, _, h1⟩ := started_job h
  obtain ⟨h1, h2, h3⟩ := h1 hm
  exact ⟨(C19_readonly_fixed _ _ _ _ _ (by decide) h1 hrun).2.1, (C19_readonly_fixed _ _ _ _ _ (by decide) h2 hrun).2.1,
    fun d hd => (C19_readonly_fixed _ _ _ _ _ (by decide) (h3 d hd) hrun).2.1⟩

/-- **C115** (no file): a document from elsewhere is told nothing: its attributes are those of the job. -/
theorem C115_no_file (dt : Option DocType) (mode : SafeMode) (job : Map JobAttr) (emb : Bool) (home : Option (List Char)) :
    started dt mode job emb home .stdin = some (ofSettings dt mode job emb) ∧
    started dt mode job emb home .tmp = some (ofSettings dt mode job emb) := ⟨rfl, rfl⟩

/-! ### the hypotheses are met -/

example : ∃ m, started none .modeSecure Map.empty false (some "/home/u".toList) (.path (Path.new "/home/u/a.b.adoc".toList)) = some m ∧
    m.get "docname" = some (.string "a.b") ∧ m.get "docfilesuffix" = some (.string ".adoc") ∧ m.get "docfile" = some (.string "a.b.adoc") ∧
    m.get "docdir" = some (.string "") :=
  ⟨_, rfl, by decide +kernel, by decide +kernel, by decide +kernel, by decide +kernel⟩

example : ∃ m, started none .modeSafe Map.empty false (some "/home/u".toList) (.path (Path.new "/home/u/a.adoc".toList)) = some m ∧
    m.get "docfile" = some (.string "/home/u/a.adoc") ∧ m.get "docdir" = some (.string "/home/u") ∧ m.get "user-home" = some (.string "/home/u") :=
  ⟨_, rfl, by decide +kernel, by decide +kernel, by decide +kernel⟩

example : (Path.new "/home/u/a.adoc".toList).fileName = (Path.new "/srv/a.adoc".toList).fileName := by decide +kernel

end Verif.Props
