import Verif.Spec.StartTag
import Verif.Props.Escape
namespace Verif.StartTag
open Verif.OpenTag Verif.Spec.Escape Verif.Escape

theorem read_append (r : Reader) (a b : Str) : r.read (a ++ b) = (r.read a).read b := List.foldl_append ..

theorem read_cons (r : Reader) (c : Char) (b : Str) : r.read (c :: b) = (r.step c).read b := rfl

/-- characters of attribute names -/
def nameChar (c : Char) : Bool := !space c && c ≠ '/' && c ≠ '>' && c ≠ '='

/-- an attribute as it is written -/
def written (p : Str × Str) : Str := ' ' :: p.1 ++ "=\"".toList ++ p.2 ++ ['"']

theorem read_name (n : Str) : ∀ (r : Reader) (as : List (Str × Str)) (m : Str), (∀ c ∈ n, nameChar c = true) →
    r.state = .attrName → r.attrs = as ++ [(m, [])] → r.read n = { r with attrs := as ++ [(m ++ n, [])] } := by
  induction n with
  | nil => intro r as m _ _ h; obtain ⟨a, b, c, d, e⟩ := r; simp only at h; subst h; simp [Reader.read]
  | cons c n ih =>
    intro r as m hn hs ha
    have hc := hn c (by simp)
    simp only [nameChar, Bool.and_eq_true, Bool.not_eq_true', decide_eq_true_eq] at hc
    obtain ⟨⟨⟨h1, h2⟩, h3⟩, h4⟩ := hc
    have : r.step c = { r with attrs := as ++ [(m ++ [c], [])] } := by
      simp [Reader.step, hs, h1, h2, h3, h4, Reader.addName, ha]
    rw [read_cons, this, ih { r with attrs := as ++ [(m ++ [c], [])] } as (m ++ [c]) (fun d hd => hn d (by simp [hd])) hs rfl]
    simp

theorem read_value (v : Str) : ∀ (r : Reader) (as : List (Str × Str)) (m w : Str), '"' ∉ v →
    r.state = .double → r.attrs = as ++ [(m, w)] → r.read v = { r with attrs := as ++ [(m, w ++ v)] } := by
  induction v with
  | nil => intro r as m w _ _ h; obtain ⟨a, b, c, d, e⟩ := r; simp only at h; subst h; simp [Reader.read]
  | cons c v ih =>
    intro r as m w hv hs ha
    have h1 : c ≠ '"' := fun e => hv (by simp [e])
    have : r.step c = { r with attrs := as ++ [(m, w ++ [c])] } := by
      simp [Reader.step, hs, h1, Reader.addValue, ha]
    rw [read_cons, this, ih { r with attrs := as ++ [(m, w ++ [c])] } as m (w ++ [c]) (fun h => hv (by simp [h])) hs rfl]
    simp

theorem read_attr {r : Reader} (hr : r.state = .tagName ∨ r.state = .afterQuoted) {n v : Str} (hne : n ≠ [])
    (hn : ∀ c ∈ n, nameChar c = true) (hv : '"' ∉ v) :
    r.read (written (n, v)) = { r with state := .afterQuoted, attrs := r.attrs ++ [(n, v)] } := by
  obtain ⟨c, n, rfl⟩ := List.exists_cons_of_ne_nil hne
  have hc := hn c (by simp)
  simp only [nameChar, Bool.and_eq_true, Bool.not_eq_true', decide_eq_true_eq] at hc
  obtain ⟨⟨⟨h1, h2⟩, h3⟩, h4⟩ := hc
  have e : written (c :: n, v) = ' ' :: c :: (n ++ ('=' :: '"' :: (v ++ ['"']))) := by simp [written]
  have s1 : r.step ' ' = { r with state := .beforeName } := by
    rcases hr with hr | hr <;> simp [Reader.step, hr, Reader.before, space]
  rw [e, read_cons, s1, read_cons]
  have s2 : Reader.step { r with state := .beforeName } c = { r with state := .attrName, attrs := r.attrs ++ [([c], [])] } := by
    simp [Reader.step, Reader.before, h1, h2, h3, Reader.start]
  rw [s2, read_append, read_name n _ r.attrs [c] (fun d hd => hn d (by simp [hd])) rfl rfl, read_cons, read_cons]
  have s3 : ∀ x : Reader, x.state = .attrName → (x.step '=').step '"' = { x with state := .double } := by
    intro x hx
    simp [Reader.step, hx, space]
  rw [s3 _ rfl, read_append, read_value v _ r.attrs ([c] ++ n) [] hv rfl rfl]
  simp [Reader.read, Reader.step]

theorem read_attrs : ∀ (l : List (Str × Str)) {r : Reader}, (r.state = .tagName ∨ r.state = .afterQuoted) →
    (∀ p ∈ l, p.1 ≠ [] ∧ (∀ c ∈ p.1, nameChar c = true) ∧ '"' ∉ p.2) →
    (r.read (l.flatMap written)).step '>' =
      { r with state := .data, attrs := r.attrs ++ l, closed := r.closed + 1 } := by
  intro l
  induction l with
  | nil =>
    intro r hr _
    rcases hr with hr | hr <;> simp [Reader.read, Reader.step, hr, Reader.before, space, Reader.close]
  | cons p l ih =>
    intro r hr h
    obtain ⟨h1, h2, h3⟩ := h p (by simp)
    rw [List.flatMap_cons, read_append, read_attr hr h1 h2 h3, ih (.inr rfl) fun q hq => h q (by simp [hq])]
    simp

/-- a tag written from a name and attributes is read as such -/
theorem isTag_written {name : Str} {l : List (Str × Str)} (hne : ∃ c cs, name = c :: cs ∧ c.isAlpha = true)
    (hname : ∀ c ∈ name, nameChar c = true) (h : ∀ p ∈ l, p.1 ≠ [] ∧ (∀ c ∈ p.1, nameChar c = true) ∧ '"' ∉ p.2) :
    IsTag ('<' :: name ++ l.flatMap written ++ ['>']) (String.ofList name) l := by
  obtain ⟨c, cs, rfl, hc⟩ := hne
  have s1 : ∀ (cs : Str) (r : Reader), r.state = .tagName → (∀ c ∈ cs, nameChar c = true) →
      r.read cs = { r with name := r.name ++ cs } := by
    intro cs
    induction cs with
    | nil => intro r _ _; simp [Reader.read]
    | cons d cs ih =>
      intro r hr hd
      have hc := hd d (by simp)
      simp only [nameChar, Bool.and_eq_true, Bool.not_eq_true', decide_eq_true_eq] at hc
      obtain ⟨⟨⟨h1, h2⟩, h3⟩, h4⟩ := hc
      have : r.step d = { r with name := r.name ++ [d] } := by simp [Reader.step, hr, h1, h2, h3]
      rw [read_cons, this, ih { r with name := r.name ++ [d] } hr fun c hc => hd c (by simp [hc])]
      simp
  unfold IsTag
  simp only [List.cons_append, List.append_assoc]
  rw [read_cons, read_cons]
  have s2 : ((({} : Reader).step '<').step c) = { state := .tagName, name := [c] } := by simp [Reader.step, hc]
  rw [s2, read_append, s1 cs _ rfl fun d hd => hname d (by simp [hd]), read_append]
  have := read_attrs l (r := { state := .tagName, name := [c] ++ cs }) (.inl rfl) h
  simp only [Reader.read, List.foldl] at this ⊢
  rw [this]
  simp

/-! ### values -/

theorem unescape_cons {c : Char} (h : c ≠ '&') (s : Str) : unescape (c :: s) = c :: unescape s := by
  rw [unescape] <;> (intros; simp_all)

theorem unescape_append {a : Str} (h : '&' ∉ a) (b : Str) : unescape (a ++ b) = a ++ unescape b := by
  induction a with
  | nil => rfl
  | cons c a ih =>
    rw [List.cons_append, unescape_cons (fun e => h (by simp [e])), ih fun hm => h (by simp [hm]), List.cons_append]

theorem unescape_plain {a : Str} (h : '&' ∉ a) : unescape a = a := by
  have := unescape_append h []
  simpa [unescape] using this

theorem escape_quote (s : Str) : '"' ∉ escape true s := fun h => ((Props.C50_no_raw true s _ h).2.2 rfl).1 rfl

theorem escChar_false_quote {c : Char} (h : c ≠ '"') (cs : Str) : '"' ∉ escChar false c cs := by
  unfold escChar
  split
  · split
    · unfold ampHash
      split
      · simp
      · split <;> decide
    · decide
  · split
    · decide
    · split
      · decide
      · simp [h, Ne.symm h]

theorem escape_false_quote {s : Str} (h : '"' ∉ s) : '"' ∉ escape false s := by
  induction s with
  | nil => simp [escape]
  | cons c s ih =>
    rw [escape, List.mem_append, not_or]
    exact ⟨escChar_false_quote (fun e => h (by simp [e])) _, ih fun hm => h (by simp [hm])⟩

theorem joined_mem {c : Char} : ∀ {l : List Str}, c ∈ joined l → c = ' ' ∨ ∃ r ∈ l, c ∈ r := by
  intro l
  induction l with
  | nil => intro h; cases h
  | cons r l ih =>
    cases l with
    | nil => intro h; exact .inr ⟨r, by simp, h⟩
    | cons q l =>
      intro h
      rw [joined, List.mem_append, List.mem_cons] at h
      · rcases h with h | h | h
        · exact .inr ⟨r, by simp, h⟩
        · exact .inl h
        · rcases ih h with h | ⟨p, hp, h⟩
          · exact .inl h
          · exact .inr ⟨p, by simp [hp], h⟩
      · nofun

theorem joined_plain {l : List Str} (h : ∀ r ∈ l, Plain r) : Plain (joined l) := by
  refine ⟨fun hm => ?_, fun hm => ?_⟩
  · rcases joined_mem hm with h1 | ⟨r, hr, h1⟩
    · cases h1
    · exact (h r hr).1 h1
  · rcases joined_mem hm with h1 | ⟨r, hr, h1⟩
    · cases h1
    · exact (h r hr).2 h1

/-! ### tags -/

theorem attr_written (n v : Str) : Escape.attr n v = written (n, escape true v) := rfl

/-- the class attribute, as written -/
def clsOf (cs : List Str) : List (Str × Str) := if cs = [] then [] else [("class".toList, joined cs)]

theorem joined_snoc (cs : List Str) (h : cs ≠ []) (c : Str) : joined (cs ++ [c]) = joined cs ++ ' ' :: c := by
  induction cs with
  | nil => exact absurd rfl h
  | cons d cs ih =>
    cases cs with
    | nil => rfl
    | cons e cs =>
      have := ih (by simp)
      simp only [List.cons_append, joined] at this ⊢
      rw [this]
      simp

theorem joined_append (cs ds : List Str) (h : cs ≠ []) (h' : ds ≠ []) : joined (cs ++ ds) = joined cs ++ ' ' :: joined ds := by
  induction cs with
  | nil => exact absurd rfl h
  | cons d cs ih =>
    cases cs with
    | nil =>
      obtain ⟨e, ds, rfl⟩ := List.exists_cons_of_ne_nil h'
      rfl
    | cons e cs =>
      have := ih (by simp)
      simp only [List.cons_append, joined] at this ⊢
      rw [this]
      simp

/-- pushing classes -/
theorem cls_many (cs : List Str) (t : Tag) (h : t.opened = false) :
    cs.foldl Tag.cls t = if cs = [] then t else { t with buf := t.buf ++ " class=\"".toList ++ joined cs, opened := true } := by
  have key : ∀ (cs ds : List Str) (t : Tag) (b : Str), ds ≠ [] → t.opened = true → t.buf = b ++ joined ds →
      cs.foldl Tag.cls t = { t with buf := b ++ joined (ds ++ cs) } := by
    intro cs
    induction cs with
    | nil => intro ds t b _ _ hb; obtain ⟨x, y, z, w⟩ := t; simp only at hb; subst hb; simp
    | cons c cs ih =>
      intro ds t b hd ht hb
      have e : t.cls c = { t with buf := b ++ joined (ds ++ [c]) } := by
        rw [Tag.cls, if_pos ht, hb, joined_snoc _ hd]; simp
      rw [List.foldl_cons, e, ih (ds ++ [c]) { t with buf := b ++ joined (ds ++ [c]) } b (by simp) ht rfl]
      simp
  cases cs with
  | nil => rfl
  | cons c cs =>
    have e : t.cls c = { t with buf := t.buf ++ " class=\"".toList ++ c, opened := true } := by
      rw [Tag.cls, if_neg (by simp [h])]
    rw [List.foldl_cons, e, if_neg (by simp), key cs [c] _ (t.buf ++ " class=\"".toList) (by simp) rfl rfl]
    rfl

/-- closing the classes -/
theorem finishClasses_many (cs : List Str) (t : Tag) (h : t.opened = false) (roles : List Str)
    (ha : t.append = if roles = [] then none else some (joined roles)) :
    (cs.foldl Tag.cls t).finishClasses =
      { t with buf := t.buf ++ (clsOf (cs ++ roles)).flatMap written, append := none } := by
  rw [cls_many cs t h]
  obtain ⟨b, o, p, st⟩ := t
  simp only at h ha
  subst h ha
  by_cases hr : roles = []
  · subst hr
    by_cases hc : cs = []
    · subst hc; simp [Tag.finishClasses, clsOf]
    · simp [Tag.finishClasses, clsOf, hc, written]
  · by_cases hc : cs = []
    · subst hc; simp [Tag.finishClasses, clsOf, hr, written, Tag.cls]
    · simp [Tag.finishClasses, clsOf, hr, hc, written, Tag.cls, joined_append cs roles hc hr]

theorem new_append (i : Bool) (e : Str) (a : Attrs) :
    (Tag.new i e a).append = if a.roles = [] then none else some (joined a.roles) := by
  unfold Tag.new
  cases a.roles with
  | nil => rfl
  | cons r rs => simp

/-- the id as written -/
def idOf (a : Attrs) : List (Str × Str) := a.id.toList.map fun i => ("id".toList, escape true i)

theorem new_buf (e : Str) (a : Attrs) : (Tag.new true e a).buf = '<' :: e ++ (idOf a).flatMap written := by
  unfold Tag.new idOf
  cases a.id with
  | none => rfl
  | some i => simp [attr_written]

end Verif.StartTag
