import Verif.Spec.Columns
/-! Lemmas about column specifications. -/
namespace Verif.Columns

/-- the first character, if there is one, satisfies `P` -/
def Starts (P : Char → Prop) (l : List Char) : Prop := ∀ c rest, l = c :: rest → P c

theorem ws_facts {c : Char} (h : isWs c = true) :
    c.isDigit = false ∧ c ≠ '%' ∧ c ≠ '~' ∧ c ≠ '*' ∧ c ≠ '.' ∧ styleOf c = none ∧ hAlignOf c = none ∧ vAlignOf c = none := by
  unfold isWs at h
  simp only [Bool.or_eq_true, decide_eq_true_eq] at h
  rcases h with ((((rfl | rfl) | rfl) | rfl) | rfl) | rfl <;> decide

theorem styleChar_facts (s : Style) : styleOf (styleChar s) = some s ∧ (styleChar s).isDigit = false ∧ styleChar s ≠ '%' ∧
    styleChar s ≠ '~' ∧ styleChar s ≠ '*' ∧ styleChar s ≠ '.' ∧ hAlignOf (styleChar s) = none ∧ isWs (styleChar s) = false := by
  cases s <;> decide

theorem hChar_facts (a : HAlign) : hAlignOf (hChar a) = some a ∧ (hChar a).isDigit = false ∧ isWs (hChar a) = false := by
  cases a <;> decide

theorem vChar_facts (a : VAlign) : vAlignOf (vChar a) = some a := by cases a <;> decide

theorem digit_facts {c : Char} (h : c.isDigit = true) : c ≠ '%' ∧ c ≠ '~' ∧ c ≠ '*' ∧ c ≠ '.' ∧ hAlignOf c = none ∧ isWs c = false ∧
    c ≠ ',' ∧ c ≠ ';' := by
  have hne : ∀ d : Char, d.isDigit = false → c ≠ d := fun d hd e => by rw [e, hd] at h; exact absurd h (by decide)
  refine ⟨hne _ (by decide), hne _ (by decide), hne _ (by decide), hne _ (by decide), ?_, ?_, hne _ (by decide), hne _ (by decide)⟩
  · unfold hAlignOf
    split
    · exact absurd rfl (hne _ (by decide))
    · exact absurd rfl (hne _ (by decide))
    · exact absurd rfl (hne _ (by decide))
    · rfl
  · unfold isWs
    simp [hne ' ' (by decide), hne '\t' (by decide), hne '\n' (by decide), hne '\r' (by decide), hne '\x0b' (by decide), hne '\x0c' (by decide)]

theorem takeWhile_digits {ds l : List Char} (h : ∀ c ∈ ds, c.isDigit = true) (hl : Starts (fun c => c.isDigit = false) l) :
    (ds ++ l).takeWhile Char.isDigit = ds ∧ (ds ++ l).dropWhile Char.isDigit = l := by
  induction ds with
  | nil =>
    cases l with
    | nil => exact ⟨rfl, rfl⟩
    | cons c cs => simp [hl c cs rfl]
  | cons d ds ih =>
    have := ih (fun c hc => h c (by simp [hc]))
    simp [h d (by simp), this]

theorem takeWhile_append_dropWhile (p : Char → Bool) (l : List Char) : l.takeWhile p ++ l.dropWhile p = l := by
  induction l with
  | nil => rfl
  | cons c cs ih => by_cases h : p c <;> simp [h, ih]

theorem mem_takeWhile {p : Char → Bool} {l : List Char} {c : Char} (h : c ∈ l.takeWhile p) : p c = true := by
  induction l with
  | nil => simp at h
  | cons d ds ih =>
    by_cases hd : p d
    · simp only [List.takeWhile_cons, hd, if_true, List.mem_cons] at h
      rcases h with rfl | h
      · exact hd
      · exact ih h
    · simp [hd] at h

def styleText : Option Style → List Char | some s => [styleChar s] | none => []
def hText : Option HAlign → List Char | some a => [hChar a] | none => []
def vText : Option VAlign → List Char | some a => ['.', vChar a] | none => []
def widthText : Option WrittenWidth → List Char | some w => w.text | none => []
def multText : Option (List Char) → List Char | some ds => ds ++ ['*'] | none => []

theorem Written.text_eq (c : Written) :
    c.text = multText c.multiplier ++ hText c.h ++ vText c.v ++ widthText c.width ++ styleText c.style := rfl

/-- group 4 of a written width -/
def WrittenWidth.raw : WrittenWidth → WidthText
  | .parts ds => .digits ds | .percent ds => .percent ds | .auto => .tilde

def Written.captures (c : Written) : Captures := ⟨c.multiplier, c.h, c.v, c.width.map WrittenWidth.raw, c.style⟩

/-! #### reading what was written -/

def allWs (l : List Char) : Prop := ∀ c ∈ l, isWs c = true

theorem takeStyle_text (s : Option Style) (l : List Char) (h : allWs l) : takeStyle (styleText s ++ l) = (s, l) := by
  cases s with
  | some s => simp [styleText, takeStyle, (styleChar_facts s).1]
  | none =>
    cases l with
    | nil => rfl
    | cons c cs => simp [styleText, takeStyle, (ws_facts (h c (by simp))).2.2.2.2.2.1]

theorem starts4 (s : Option Style) (l : List Char) (h : allWs l) :
    Starts (fun c => c.isDigit = false ∧ c ≠ '%' ∧ c ≠ '~' ∧ c ≠ '*' ∧ c ≠ '.' ∧ hAlignOf c = none) (styleText s ++ l) := by
  intro c rest e
  cases s with
  | some s =>
    simp only [styleText, List.cons_append, List.cons.injEq] at e
    have := styleChar_facts s
    rw [← e.1]; exact ⟨this.2.1, this.2.2.1, this.2.2.2.1, this.2.2.2.2.1, this.2.2.2.2.2.1, this.2.2.2.2.2.2.1⟩
  | none =>
    simp only [styleText, List.nil_append] at e
    have := ws_facts (h c (by simp [e]))
    exact ⟨this.1, this.2.1, this.2.2.1, this.2.2.2.1, this.2.2.2.2.1, this.2.2.2.2.2.2.1⟩

theorem takeWidth_text (w : Option WrittenWidth) (l : List Char) (hw : ∀ x, w = some x → x.ok)
    (h : Starts (fun c => c.isDigit = false ∧ c ≠ '%' ∧ c ≠ '~' ∧ c ≠ '*' ∧ c ≠ '.' ∧ hAlignOf c = none) l) :
    takeWidth (widthText w ++ l) = (w.map WrittenWidth.raw, l) := by
  have hl : Starts (fun c => c.isDigit = false) l := fun c r e => (h c r e).1
  cases w with
  | none =>
    unfold widthText takeWidth
    have := takeWhile_digits (ds := []) (by simp) hl
    simp only [List.nil_append] at this ⊢
    rw [this.1, this.2]
    cases l with
    | nil => rfl
    | cons c cs =>
      have hc := h c cs rfl
      split
      · simp_all
      · simp_all
      · simp_all
      · rfl
  | some w =>
    have hok := hw w rfl
    cases w with
    | auto => simp [widthText, WrittenWidth.text, takeWidth, WrittenWidth.raw]
    | parts ds =>
      obtain ⟨hne, hd⟩ := hok
      have := takeWhile_digits hd hl
      unfold widthText takeWidth
      simp only [WrittenWidth.text]
      rw [this.1, this.2]
      cases ds with
      | nil => exact absurd rfl hne
      | cons d ds =>
        cases l with
        | nil => rfl
        | cons c cs =>
          have hc := h c cs rfl
          split
          · simp_all
          · simp_all [WrittenWidth.raw]
          · simp_all
          · simp_all
    | percent ds =>
      obtain ⟨hne, hd⟩ := hok
      have := takeWhile_digits (l := '%' :: l) hd (by intro c r e; simp only [List.cons.injEq] at e; rw [← e.1]; decide)
      unfold widthText takeWidth
      simp only [WrittenWidth.text, List.append_assoc, List.cons_append, List.nil_append]
      rw [this.1, this.2]
      cases ds with
      | nil => exact absurd rfl hne
      | cons d ds => rfl

theorem starts3 (w : Option WrittenWidth) (l : List Char) (hw : ∀ x, w = some x → x.ok)
    (h : Starts (fun c => c.isDigit = false ∧ c ≠ '%' ∧ c ≠ '~' ∧ c ≠ '*' ∧ c ≠ '.' ∧ hAlignOf c = none) l) :
    Starts (fun c => c ≠ '*' ∧ c ≠ '.' ∧ hAlignOf c = none) (widthText w ++ l) := by
  intro c rest e
  have hds : ∀ (ds l' : List Char), isNumber ds → ds ++ l' = c :: rest → c ≠ '*' ∧ c ≠ '.' ∧ hAlignOf c = none := by
    intro ds l' hn e
    cases ds with
    | nil => exact absurd rfl hn.1
    | cons d ds =>
      simp only [List.cons_append, List.cons.injEq] at e
      have := digit_facts (hn.2 d (by simp))
      rw [← e.1]; exact ⟨this.2.2.1, this.2.2.2.1, this.2.2.2.2.1⟩
  cases w with
  | none => have := h c rest e; exact ⟨this.2.2.2.1, this.2.2.2.2.1, this.2.2.2.2.2⟩
  | some w =>
    have hok := hw w rfl
    cases w with
    | auto =>
      simp only [widthText, WrittenWidth.text, List.cons_append, List.cons.injEq] at e
      rw [← e.1]; decide
    | parts ds => exact hds ds l hok e
    | percent ds =>
      simp only [widthText, WrittenWidth.text, List.append_assoc] at e
      exact hds ds _ hok e

theorem takeV_text (v : Option VAlign) (l : List Char) (h : Starts (fun c => c ≠ '*' ∧ c ≠ '.' ∧ hAlignOf c = none) l) :
    takeV (vText v ++ l) = (v, l) := by
  cases v with
  | some a => simp [vText, takeV, vChar_facts a]
  | none =>
    unfold vText takeV
    simp only [List.nil_append]
    split
    · rename_i c rest
      exact absurd rfl (h '.' _ rfl).2.1
    · rfl

theorem starts2 (v : Option VAlign) (l : List Char) (h : Starts (fun c => c ≠ '*' ∧ c ≠ '.' ∧ hAlignOf c = none) l) :
    Starts (fun c => c ≠ '*' ∧ hAlignOf c = none) (vText v ++ l) := by
  intro c rest e
  cases v with
  | some a =>
    simp only [vText, List.cons_append, List.cons.injEq] at e
    rw [← e.1]; decide
  | none => have := h c rest e; exact ⟨this.1, this.2.2⟩

theorem takeH_text (a : Option HAlign) (l : List Char) (h : Starts (fun c => c ≠ '*' ∧ hAlignOf c = none) l) :
    takeH (hText a ++ l) = (a, l) := by
  cases a with
  | some a => simp [hText, takeH, (hChar_facts a).1]
  | none =>
    cases l with
    | nil => rfl
    | cons c cs => simp [hText, takeH, (h c cs rfl).2]

theorem takeMultiplier_text (m : Option (List Char)) (a : Option HAlign) (v : Option VAlign) (w : Option WrittenWidth)
    (l : List Char) (hm : ∀ ds, m = some ds → isNumber ds) (hw : ∀ x, w = some x → x.ok)
    (h : Starts (fun c => c.isDigit = false ∧ c ≠ '%' ∧ c ≠ '~' ∧ c ≠ '*' ∧ c ≠ '.' ∧ hAlignOf c = none) l) :
    takeMultiplier (multText m ++ (hText a ++ (vText v ++ (widthText w ++ l)))) =
      (m, hText a ++ (vText v ++ (widthText w ++ l))) := by
  cases m with
  | some ds =>
    obtain ⟨hne, hd⟩ := hm ds rfl
    unfold takeMultiplier multText
    simp only [List.append_assoc]
    have := takeWhile_digits (l := ['*'] ++ (hText a ++ (vText v ++ (widthText w ++ l)))) hd
      (by intro c r e; simp only [List.cons_append, List.cons.injEq] at e; rw [← e.1]; decide)
    rw [this.1, this.2]
    cases ds with
    | nil => exact absurd rfl hne
    | cons d ds => rfl
  | none =>
    simp only [multText, List.nil_append]
    have key : ∀ t, (∀ ds rest', t.takeWhile Char.isDigit = ds → t.dropWhile Char.isDigit = '*' :: rest' → ds = []) →
        takeMultiplier t = (none, t) := by
      intro t ht
      unfold takeMultiplier
      split
      · rename_i d ds rest h1 h2
        exact absurd (ht _ _ h1 h2) (by simp)
      · rfl
    apply key
    have hstart : ∀ t : List Char, Starts (fun c => c.isDigit = false) t → ∀ ds (rest' : List Char), t.takeWhile Char.isDigit = ds →
        t.dropWhile Char.isDigit = '*' :: rest' → ds = [] := by
      intro t ht ds rest' h1 _
      have := (takeWhile_digits (ds := []) (by simp) ht).1
      simp only [List.nil_append] at this
      rw [← h1, this]
    cases a with
    | some a =>
      refine hstart _ ?_
      intro c r e
      simp only [hText, List.cons_append, List.cons.injEq] at e
      rw [← e.1]; exact (hChar_facts a).2.1
    | none =>
      cases v with
      | some v =>
        refine hstart _ ?_
        intro c r e
        simp only [hText, vText, List.cons_append, List.nil_append, List.cons.injEq] at e
        rw [← e.1]; decide
      | none =>
        simp only [hText, vText, List.nil_append]
        intro ds rest' h1 h2
        cases w with
        | none =>
          exact hstart l (fun c r e => (h c r e).1) ds rest' h1 h2
        | some w =>
          have hok := hw w rfl
          cases w with
          | auto =>
            refine hstart _ ?_ ds rest' h1 h2
            intro c r e
            simp only [widthText, WrittenWidth.text, List.cons_append, List.cons.injEq] at e
            rw [← e.1]; decide
          | parts es =>
            have := (takeWhile_digits hok.2 (fun c r e => (h c r e).1)).2
            simp only [widthText, WrittenWidth.text] at h2
            rw [this] at h2
            exact absurd rfl (h _ _ h2).2.2.2.1
          | percent es =>
            have := (takeWhile_digits (l := '%' :: l) hok.2 (by intro c r e; simp only [List.cons.injEq] at e; rw [← e.1]; decide)).2
            simp only [widthText, WrittenWidth.text, List.append_assoc, List.cons_append, List.nil_append] at h2
            rw [this] at h2
            simp at h2

theorem dropWhile_ws {p l : List Char} (hp : allWs p) : (p ++ l).dropWhile isWs = l.dropWhile isWs := by
  induction p with
  | nil => rfl
  | cons c cs ih =>
    simp only [List.cons_append, List.dropWhile_cons, hp c (by simp), if_true]
    exact ih (fun c hc => hp c (by simp [hc]))

theorem dropWhile_start {l : List Char} (h : Starts (fun c => isWs c = false) l) : l.dropWhile isWs = l := by
  cases l with
  | nil => rfl
  | cons c cs => simp [h c cs rfl]

theorem dropWhile_all {l : List Char} (h : allWs l) : l.dropWhile isWs = [] := by
  have := dropWhile_ws (l := []) h
  simpa using this

theorem captures_text (p : Padded) (h : p.ok) : Columns.captures p.text = some p.written.captures := by
  obtain ⟨h1, h2, h3, h4⟩ := h
  obtain ⟨before, ⟨m, a, v, w, s⟩, after⟩ := p
  have key : ∀ after, allWs after →
      (let t := multText m ++ (hText a ++ (vText v ++ (widthText w ++ (styleText s ++ after))))
       (let (m, l) := takeMultiplier t
        let (h, l) := takeH l
        let (v, l) := takeV l
        let (w, l) := takeWidth l
        let (s, l) := takeStyle l
        if l.all isWs then some (⟨m, h, v, w, s⟩ : Captures) else none) = some ⟨m, a, v, w.map WrittenWidth.raw, s⟩) := by
    intro after ha
    have s4 := starts4 s after ha
    have s3 := starts3 w _ h4 s4
    have s2 := starts2 v _ s3
    simp only [takeMultiplier_text m a v w _ h3 h4 s4, takeH_text a _ s2, takeV_text v _ s3, takeWidth_text w _ h4 s4,
      takeStyle_text s after ha]
    rw [if_pos]
    simpa [allWs] using ha
  have htext : (⟨before, ⟨m, a, v, w, s⟩, after⟩ : Padded).text =
      before ++ (multText m ++ (hText a ++ (vText v ++ (widthText w ++ (styleText s ++ after))))) := by
    simp only [Padded.text, Written.text_eq, List.append_assoc]
  unfold Columns.captures
  rw [htext, dropWhile_ws h1]
  by_cases hemp : multText m ++ (hText a ++ (vText v ++ (widthText w ++ styleText s))) = []
  · -- nothing but white space
    have e : multText m ++ (hText a ++ (vText v ++ (widthText w ++ (styleText s ++ after)))) = after := by
      have : multText m ++ (hText a ++ (vText v ++ (widthText w ++ (styleText s ++ after)))) =
          (multText m ++ (hText a ++ (vText v ++ (widthText w ++ styleText s)))) ++ after := by
        simp only [List.append_assoc]
      rw [this, hemp, List.nil_append]
    have e' : multText m ++ (hText a ++ (vText v ++ (widthText w ++ (styleText s ++ [])))) = [] := by
      rw [List.append_nil]; exact hemp
    rw [e, dropWhile_all h2, ← e']
    exact key [] (by intro c hc; simp at hc)
  · have hs : Starts (fun c => isWs c = false) (multText m ++ (hText a ++ (vText v ++ (widthText w ++ (styleText s ++ after))))) := by
      intro c rest e
      have hds : ∀ (ds l' : List Char), isNumber ds → ds ++ l' = c :: rest → isWs c = false := by
        intro ds l' hn e
        cases ds with
        | nil => exact absurd rfl hn.1
        | cons d ds =>
          simp only [List.cons_append, List.cons.injEq] at e
          rw [← e.1]; exact (digit_facts (hn.2 d (by simp))).2.2.2.2.2.1
      cases m with
      | some ds => simp only [multText, List.append_assoc] at e; exact hds ds _ (h3 ds rfl) e
      | none =>
      cases a with
      | some a =>
        simp only [multText, hText, List.nil_append, List.cons_append, List.cons.injEq] at e
        rw [← e.1]; exact (hChar_facts a).2.2
      | none =>
      cases v with
      | some v =>
        simp only [multText, hText, vText, List.nil_append, List.cons_append, List.cons.injEq] at e
        rw [← e.1]; decide
      | none =>
      cases w with
      | some w =>
        have hok := h4 w rfl
        cases w with
        | auto =>
          simp only [multText, hText, vText, widthText, WrittenWidth.text, List.nil_append, List.cons_append, List.cons.injEq] at e
          rw [← e.1]; decide
        | parts ds => exact hds ds _ hok e
        | percent ds =>
          simp only [multText, hText, vText, widthText, WrittenWidth.text, List.nil_append, List.append_assoc] at e
          exact hds ds _ hok e
      | none =>
      cases s with
      | some s =>
        simp only [multText, hText, vText, widthText, styleText, List.nil_append, List.cons_append, List.cons.injEq] at e
        rw [← e.1]; exact (styleChar_facts s).2.2.2.2.2.2.2
      | none => exact absurd rfl hemp
    rw [dropWhile_start hs]
    exact key after h2

/-! #### what was read was written -/

theorem hAlignOf_char {c : Char} {a : HAlign} (h : hAlignOf c = some a) : hChar a = c := by
  unfold hAlignOf at h; split at h <;> simp_all <;> subst h <;> rfl

theorem vAlignOf_char {c : Char} {a : VAlign} (h : vAlignOf c = some a) : vChar a = c := by
  unfold vAlignOf at h; split at h <;> simp_all <;> subst h <;> rfl

theorem styleOf_char {c : Char} {a : Style} (h : styleOf c = some a) : styleChar a = c := by
  unfold styleOf at h; split at h <;> simp_all <;> subst h <;> rfl

theorem takeStyle_read (l : List Char) : l = styleText (takeStyle l).1 ++ (takeStyle l).2 := by
  unfold takeStyle
  split
  · split
    · rename_i h; simp [styleText, styleOf_char h]
    · rfl
  · rfl

theorem takeH_read (l : List Char) : l = hText (takeH l).1 ++ (takeH l).2 := by
  unfold takeH
  split
  · split
    · rename_i h; simp [hText, hAlignOf_char h]
    · rfl
  · rfl

theorem takeV_read (l : List Char) : l = vText (takeV l).1 ++ (takeV l).2 := by
  unfold takeV
  split
  · split
    · rename_i h; simp [vText, vAlignOf_char h]
    · rfl
  · rfl

theorem takeWidth_read (l : List Char) : ∃ w : Option WrittenWidth, w.map WrittenWidth.raw = (takeWidth l).1 ∧
    (∀ x, w = some x → x.ok) ∧ l = widthText w ++ (takeWidth l).2 := by
  have happ := takeWhile_append_dropWhile Char.isDigit l
  have hd : ∀ c ∈ l.takeWhile Char.isDigit, c.isDigit = true := fun c hc => mem_takeWhile hc
  unfold takeWidth
  split
  · rename_i d ds rest h1 h2
    rw [h1] at hd; rw [h1, h2] at happ
    refine ⟨some (.percent (d :: ds)), rfl, ?_, ?_⟩
    · intro x hx; cases hx; exact ⟨by simp, hd⟩
    · simp only [widthText, WrittenWidth.text, List.append_assoc]; rw [← happ]; simp
  · rename_i d ds h1 h2
    rw [h1] at hd; rw [h1] at happ
    refine ⟨some (.parts (d :: ds)), rfl, ?_, ?_⟩
    · intro x hx; cases hx; exact ⟨by simp, hd⟩
    · simp only [widthText, WrittenWidth.text]; exact happ.symm
  · rename_i rest h1 h2
    rw [h1, h2] at happ
    exact ⟨some .auto, rfl, by intro x hx; cases hx; trivial, by simpa [widthText, WrittenWidth.text] using happ.symm⟩
  · exact ⟨none, rfl, by simp, rfl⟩

theorem takeMultiplier_read (l : List Char) : (∀ ds, (takeMultiplier l).1 = some ds → isNumber ds) ∧
    l = multText (takeMultiplier l).1 ++ (takeMultiplier l).2 := by
  have happ := takeWhile_append_dropWhile Char.isDigit l
  have hd : ∀ c ∈ l.takeWhile Char.isDigit, c.isDigit = true := fun c hc => mem_takeWhile hc
  unfold takeMultiplier
  split
  · rename_i d ds rest h1 h2
    rw [h1] at hd; rw [h1, h2] at happ
    refine ⟨?_, ?_⟩
    · intro x hx; cases hx; exact ⟨by simp, hd⟩
    · simp only [multText, List.append_assoc]; rw [← happ]; simp
  · exact ⟨by simp, rfl⟩

theorem captures_read {l : List Char} {c : Captures} (h : Columns.captures l = some c) :
    ∃ p : Padded, p.ok ∧ p.text = l ∧ p.written.captures = c := by
  unfold Columns.captures at h
  have e0 := takeWhile_append_dropWhile isWs l
  have hws : allWs (l.takeWhile isWs) := fun c hc => mem_takeWhile hc
  generalize l.takeWhile isWs = before at e0 hws
  generalize l.dropWhile isWs = l1 at e0 h
  have e1 := takeMultiplier_read l1
  rcases hm : takeMultiplier l1 with ⟨m, l2⟩
  rw [hm] at h e1
  have e2 := takeH_read l2
  rcases hh : takeH l2 with ⟨a, l3⟩
  simp only [hh] at h e2
  have e3 := takeV_read l3
  rcases hv : takeV l3 with ⟨v, l4⟩
  simp only [hv] at h e3
  obtain ⟨w, ew, hw, e4⟩ := takeWidth_read l4
  rcases hwd : takeWidth l4 with ⟨wt, l5⟩
  simp only [hwd] at h e4 ew
  have e5 := takeStyle_read l5
  rcases hs : takeStyle l5 with ⟨s, l6⟩
  simp only [hs] at h e5
  split at h
  · rename_i hall
    simp only [Option.some.injEq] at h
    refine ⟨⟨before, ⟨m, a, v, w, s⟩, l6⟩, ⟨hws, by simpa using hall, e1.1, hw⟩, ?_, ?_⟩
    · simp only [Padded.text, Written.text_eq, List.append_assoc]
      rw [← e5, ← e4, ← e3, ← e2, ← e1.2, e0]
    · rw [← h, ← ew]; rfl
  · exact absurd h (by simp)

/-! #### the columns -/

theorem parseNumber_value {g : Nat} {ds : List Char} (h : isNumber ds) (hv : valueOf ds ≤ g) :
    parseNumber g ds = some (valueOf ds) := by
  unfold parseNumber valueOf at *
  simp [h.1, hv]

theorem parseColSpec_text (p : Padded) (h : p.ok) (hr : p.written.inRange) :
    parseColSpec p.text = List.replicate p.written.times p.written.column := by
  have hc := captures_text p h
  unfold parseColSpec
  obtain ⟨before, ⟨m, a, v, w, s⟩, after⟩ := p
  have hw : widthOf (w.map WrittenWidth.raw) = (Written.column ⟨m, a, v, w, s⟩).width := by
    cases w with
    | none => rfl
    | some w =>
      cases w with
      | auto => rfl
      | parts ds =>
        simp only [Option.map_some, WrittenWidth.raw, widthOf, Written.column]
        rw [parseNumber_value (h.2.2.2 _ rfl) (hr.2.2 ds (Or.inl rfl))]; rfl
      | percent ds =>
        simp only [Option.map_some, WrittenWidth.raw, widthOf, Written.column]
        rw [parseNumber_value (h.2.2.2 _ rfl) (hr.2.2 ds (Or.inr rfl))]; rfl
  split
  · rename_i he
    simp only [List.isEmpty_iff] at he
    have : Columns.captures [] = some ⟨none, none, none, none, none⟩ := by rfl
    rw [he, this] at hc
    simp only [Option.some.injEq, Written.captures, Captures.mk.injEq] at hc
    obtain ⟨rfl, rfl, rfl, hw', rfl⟩ := hc
    have : w = none := by simpa using hw'.symm
    subst this
    rfl
  · rw [hc]
    simp only [Written.captures]
    have hcol : (⟨widthOf (w.map WrittenWidth.raw), a.getD .left, v.getD .top, s.getD .default⟩ : ColSpec) =
        Written.column ⟨m, a, v, w, s⟩ := by
      rw [hw]; rfl
    rw [hcol]
    have hone : ∀ n (x : ColSpec), List.replicate n x ++ [x] = List.replicate (n + 1) x := by
      intro n x; rw [List.replicate_succ']
    rw [hone]
    congr 1
    cases m with
    | none => rfl
    | some ds =>
      have h1 := hr.1
      have h2 := hr.2.1
      simp only [Written.times] at h1 h2 ⊢
      rw [parseNumber_value (g := i32Max) (h.2.2.1 ds rfl) h2]
      simp only [Option.getD_some]
      omega

theorem splitParts_cons (a b : List Char) (c : Char) (hc : c = ';' ∨ c = ',') (ha : ∀ x ∈ a, x ≠ ';' ∧ x ≠ ',') :
    splitParts (a ++ c :: b) = a :: splitParts b := by
  induction a with
  | nil => simp [splitParts, hc]
  | cons x xs ih =>
    have hx := ha x (by simp)
    simp only [List.cons_append, splitParts]
    rw [if_neg (by simp [hx]), ih (fun y hy => ha y (by simp [hy]))]

theorem splitParts_single (a : List Char) (ha : ∀ x ∈ a, x ≠ ';' ∧ x ≠ ',') : splitParts a = [a] := by
  induction a with
  | nil => rfl
  | cons x xs ih =>
    have hx := ha x (by simp)
    simp only [splitParts]
    rw [if_neg (by simp [hx]), ih (fun y hy => ha y (by simp [hy]))]

theorem no_separator (p : Padded) (h : p.ok) : ∀ x ∈ p.text, x ≠ ';' ∧ x ≠ ',' := by
  obtain ⟨h1, h2, h3, h4⟩ := h
  obtain ⟨before, ⟨m, a, v, w, s⟩, after⟩ := p
  intro x hx
  have hws : isWs x = true → x ≠ ';' ∧ x ≠ ',' := by
    intro h; constructor <;> (rintro rfl; exact absurd h (by decide))
  have hdg : x.isDigit = true → x ≠ ';' ∧ x ≠ ',' := fun h => ⟨(digit_facts h).2.2.2.2.2.2.2, (digit_facts h).2.2.2.2.2.2.1⟩
  simp only [Padded.text, Written.text_eq, List.mem_append] at hx
  rcases hx with (hx | ((((hx | hx) | hx) | hx) | hx)) | hx
  · exact hws (h1 x hx)
  · cases m with
    | none => simp [multText] at hx
    | some ds =>
      simp only [multText, List.mem_append, List.mem_singleton] at hx
      rcases hx with hx | rfl
      · exact hdg ((h3 ds rfl).2 x hx)
      · decide
  · cases a with
    | none => simp [hText] at hx
    | some a => simp only [hText, List.mem_singleton] at hx; subst hx; cases a <;> decide
  · cases v with
    | none => simp [vText] at hx
    | some a =>
      simp only [vText, List.mem_cons, List.not_mem_nil, or_false] at hx
      rcases hx with rfl | rfl
      · decide
      · cases a <;> decide
  · cases w with
    | none => simp [widthText] at hx
    | some w =>
      have hok := h4 w rfl
      cases w with
      | auto => simp only [widthText, WrittenWidth.text, List.mem_singleton] at hx; subst hx; decide
      | parts ds => exact hdg (hok.2 x hx)
      | percent ds =>
        simp only [widthText, WrittenWidth.text, List.mem_append, List.mem_singleton] at hx
        rcases hx with hx | rfl
        · exact hdg (hok.2 x hx)
        · decide
  · cases s with
    | none => simp [styleText] at hx
    | some a => simp only [styleText, List.mem_singleton] at hx; subst hx; cases a <;> decide
  · exact hws (h2 x hx)

theorem splitParts_cols (first : Padded) (rest : List (Bool × Padded)) (h : first.ok) (hr : ∀ x ∈ rest, x.2.ok) :
    splitParts (colsText first rest) = first.text :: rest.map fun x => x.2.text := by
  induction rest generalizing first with
  | nil => exact splitParts_single _ (no_separator first h)
  | cons x xs ih =>
    obtain ⟨b, next⟩ := x
    unfold colsText
    rw [splitParts_cons _ _ _ (by cases b <;> simp) (no_separator first h), ih next (hr (b, next) (by simp)) (fun y hy => hr y (by simp [hy]))]
    rfl

/-! #### the widths -/

theorem divisor_eq (ws : List Width) (sum : Option Nat) (h : sum.getD 0 + widthSum ws ≤ 255) :
    divisor ws sum = some (if sum = none ∧ ∀ w ∈ ws, w = .auto then none else some (sum.getD 0 + widthSum ws)) := by
  induction ws generalizing sum with
  | nil => cases sum <;> simp [divisor, widthSum]
  | cons w ws ih =>
    have step : ∀ n, (w = .proportional n ∨ w = .percentage n) → divisor (w :: ws) sum =
        some (if sum = none ∧ ∀ x ∈ w :: ws, x = .auto then none else some (sum.getD 0 + widthSum (w :: ws))) := by
      intro n hn
      have hne : w ≠ .auto := by rcases hn with rfl | rfl <;> simp
      have hs : widthSum (w :: ws) = n + widthSum ws := by rcases hn with rfl | rfl <;> rfl
      have hd : divisor (w :: ws) sum = match (generalizing := false) sum with
          | none => divisor ws (some n)
          | some s => if s + n ≤ 255 then divisor ws (some (s + n)) else none := by
        rcases hn with rfl | rfl <;> rfl
      rw [hs] at h ⊢
      rw [hd, if_neg (by simp [hne])]
      cases sum with
      | none => simp only; rw [ih _ (by simpa using h)]; simp
      | some s =>
        simp only [Option.getD_some] at h ⊢
        rw [if_pos (by omega), ih _ (by simp; omega)]; simp [Nat.add_assoc]
    cases w with
    | auto => simp only [divisor, widthSum]; rw [ih sum h]; simp
    | proportional n => exact step n (Or.inl rfl)
    | percentage n => exact step n (Or.inr rfl)

theorem divisor_overflow (ws : List Width) (sum : Option Nat) (h0 : sum.getD 0 ≤ 255) (hw : ∀ w ∈ ws, ∀ n, (w = .proportional n ∨ w = .percentage n) → n ≤ 255)
    (h : 255 < sum.getD 0 + widthSum ws) : divisor ws sum = none := by
  induction ws generalizing sum with
  | nil => simp [widthSum] at h; omega
  | cons w ws ih =>
    have hw' : ∀ w ∈ ws, ∀ n, (w = .proportional n ∨ w = .percentage n) → n ≤ 255 := fun x hx => hw x (by simp [hx])
    have step : ∀ n, (w = .proportional n ∨ w = .percentage n) → divisor (w :: ws) sum = none := by
      intro n hn
      have hb := hw w (by simp) n hn
      have hs : widthSum (w :: ws) = n + widthSum ws := by rcases hn with rfl | rfl <;> rfl
      have hd : divisor (w :: ws) sum = match (generalizing := false) sum with
          | none => divisor ws (some n)
          | some s => if s + n ≤ 255 then divisor ws (some (s + n)) else none := by
        rcases hn with rfl | rfl <;> rfl
      rw [hs] at h
      rw [hd]
      cases sum with
      | none => simp only; exact ih _ (by simpa using hb) hw' (by simpa using h)
      | some s =>
        simp only [Option.getD_some] at h ⊢
        split
        · rename_i hle
          exact ih _ (by simpa using hle) hw' (by simp; omega)
        · rfl
    cases w with
    | auto => simp only [divisor, widthSum] at h ⊢; exact ih sum h0 hw' h
    | proportional n => exact step n (Or.inl rfl)
    | percentage n => exact step n (Or.inr rfl)

theorem total_shares (a : Rat) (d : Nat) (hd : d ≠ 0) (ws : List Width) :
    total (ws.map (shareOf (some a) d)) = some (widthSum ws * 100 / d + ws.count .auto * a) := by
  induction ws with
  | nil => simp [total, widthSum]; grind
  | cons w ws ih =>
    have hq : (d : Rat) ≠ 0 := by exact_mod_cast hd
    cases w with
    | auto => simp only [List.map_cons, total, shareOf, Share.value, Option.bind_some, ih, Option.map_some, widthSum, List.count_cons_self]; grind
    | proportional n =>
      simp only [List.map_cons, total, shareOf, Share.value, div?, if_neg hq, Option.bind_some, ih, Option.map_some, widthSum,
        List.count_cons_of_ne (a := Width.auto) (b := Width.proportional n) (by simp)]
      grind
    | percentage n =>
      simp only [List.map_cons, total, shareOf, Share.value, div?, if_neg hq, Option.bind_some, ih, Option.map_some, widthSum,
        List.count_cons_of_ne (a := Width.auto) (b := Width.percentage n) (by simp)]
      grind

end Verif.Columns
