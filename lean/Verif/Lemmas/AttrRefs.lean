import Verif.Spec.AttrRefs
import Verif.Lemmas.InlineText
/-!
Lemmas for attribute references (C68).
-/
namespace Verif.AttrRefs
open Verif Verif.Inlines TokenKind

theorem refName_eq (t : Tok) : refName t = attrName t := by rw [refName, attrName, List.drop_one]

/-- the tokens of an ASCII text make up the text -/
theorem flat_tokensOf {s : String} (h : ∀ c ∈ s.toList, c.toNat < 128) : (tokensOf s).flatMap (·.lexeme) = s.toList := by
  obtain ⟨toks, h1, h2⟩ := Props.C01_lexing_lossless (Lexer.bs s) [] 0
  have htk : tokensOf s = toks.map (toTok (Lexer.bs s)) := by
    unfold tokensOf
    dsimp only
    rw [h1]
    rfl
  rw [htk]
  have : (toks.map (toTok (Lexer.bs s))).flatMap (·.lexeme) = (toks.flatMap Lexer.Tok.lexeme).map chr := by
    simp [toTok, List.flatMap_map, List.map_flatMap]
  rw [this, h2, List.map_map]
  conv => rhs; rw [← List.map_id s.toList]
  exact List.map_congr_left fun c hc => chr_ch (h c hc)

/-- a token without a reference or a line end is put into the line as it is -/
def quiet (t : Tok) : Bool := t.kind ≠ AttrRef && t.kind ≠ Newline

/-- a token of a value -/
def marked (t : Tok) : Tok := { t with attr := true }

theorem push_quiet {cfg t s line drop} (h : t.kind ≠ AttrRef) :
    push cfg t s line drop = some (line ++ [(mark t s).1], drop, (mark t s).2) := by
  unfold push
  have : (mark t s).1.kind ≠ AttrRef := by unfold mark; split <;> exact h
  simp [this]

/-- the tokens of a value go into the line -/
theorem readLine_buf {cfg} : ∀ (b : List Tok) {n src line drop}, (∀ t ∈ b, quiet t = true) → line ≠ [] → b ≠ [] →
    readLine cfg (n + b.length) ⟨true, b, src⟩ line drop = readLine cfg n ⟨false, [], src⟩ (line ++ b.map marked) drop := by
  intro b
  induction b with
  | nil => intro _ _ _ _ _ _ h; exact absurd rfl h
  | cons t b ih =>
    intro n src line drop hq hl _
    have ht := hq t (by simp)
    simp only [quiet, Bool.and_eq_true, decide_eq_true_eq] at ht
    rw [List.length_cons, ← Nat.add_assoc, readLine]
    simp only [St.next, ht.2, hl, false_and, if_false]
    rw [push_quiet ht.1]
    simp only [mark, if_true]
    cases b with
    | nil => simp [marked]
    | cons u b =>
      have := ih (n := n) (src := src) (line := line ++ [{ t with attr := true }]) (drop := drop)
        (fun x hx => hq x (by simp [hx])) (by simp) (by simp)
      simp only [List.isEmpty_cons, Bool.not_false]
      rw [this]
      simp [marked]

/-- what a token of the source is read as -/
def expand (cfg : Cfg) (t : Tok) : List Tok :=
  if cfg.subs then
    match refValue cfg t with
    | some v => t :: (valueToks t v).map marked
    | none =>
      if isMissing cfg t then
        if onMissing cfg = some "drop" ∨ onMissing cfg = some "drop-line" then [] else [{ t with kind := Word }]
      else [t]
  else [t]

/-- the token makes its line go away -/
def drops (cfg : Cfg) (t : Tok) : Bool := cfg.subs && (onMissing cfg = some "drop-line" && isMissing cfg t)

/-- values that are read in one go: not empty, without references and line ends -/
def settled (v : String) : Bool := v ≠ "" && v.toList.head? ≠ some '\x1b' && (tokensOf v).all quiet

theorem expand_vanishes (cfg : Cfg) (t : Tok) : (expand cfg t).isEmpty = vanishes cfg t := by
  unfold expand vanishes
  by_cases hs : cfg.subs = true
  · cases h : refValue cfg t with
    | some v => simp [hs, isMissing, h]
    | none =>
      by_cases hm : isMissing cfg t = true
      · by_cases hd : onMissing cfg = some "drop" ∨ onMissing cfg = some "drop-line"
        · simp [hs, hm, hd]
        · have hd1 := not_or.1 hd
          simp [hs, hm, hd1.1, hd1.2]
      · simp [hs, hm]
  · simp [hs]

/-- a plain value is read in one go -/
theorem PlainValue.settled {v : String} (h : PlainValue v) : settled v = true ∧ ∀ c ∈ v.toList, c.toNat < 128 := by
  refine ⟨?_, fun c hc => (h.chars c hc).1⟩
  simp only [AttrRefs.settled, Bool.and_eq_true, decide_eq_true_eq, List.all_eq_true]
  refine ⟨⟨h.ne, fun e => (h.chars _ (List.mem_of_head? e)).2.2.2.2 rfl⟩, ?_⟩
  obtain ⟨toks, h1, h2⟩ := Props.C01_lexing_lossless (Lexer.bs v) [] 0
  have hsp := lex_spelled _ _ _ _ (Nat.zero_le _) h1
  have htk : tokensOf v = toks.map (toTok (Lexer.bs v)) := by
    unfold tokensOf
    dsimp only
    rw [h1]
    rfl
  have hno : ∀ c : Char, c.toNat < 128 → c ∉ v.toList → ∀ i : Nat, (Lexer.bs v)[i]? ≠ some (Lexer.ch c) := by
    intro c hc hnc i hi
    obtain ⟨d, hd, hd2⟩ := List.mem_map.1 (List.mem_of_getElem? hi)
    have : d = c := by rw [← chr_ch (h.chars d hd).1, hd2, chr_ch hc]
    exact hnc (this ▸ hd)
  rw [htk]
  intro t ht
  obtain ⟨u, hu, rfl⟩ := List.mem_map.1 ht
  obtain ⟨_, _, _, g⟩ := hsp u hu
  simp only [quiet, toTok, Bool.and_eq_true]
  constructor
  · refine decide_eq_true fun e => ?_
    rw [e] at g
    exact hno '{' (by decide) (fun hc => (h.chars _ hc).2.1 rfl) _ g
  · refine decide_eq_true fun e => ?_
    rw [e] at g
    rcases g with g | g
    · exact hno '\n' (by decide) (fun hc => (h.chars _ hc).2.2.1 rfl) _ g.2
    · exact hno '\r' (by decide) (fun hc => (h.chars _ hc).2.2.2.1 rfl) _ g

theorem tokensOf_ne {v : String} (h : v ≠ "") (ha : ∀ c ∈ v.toList, c.toNat < 128) : tokensOf v ≠ [] := by
  intro e
  have := flat_tokensOf ha
  rw [e] at this
  apply h
  rw [← String.toList_inj, ← this]; rfl

theorem expand_ref_ne {cfg t v} (h : refValue cfg t = some v) (hs : cfg.subs = true) : expand cfg t ≠ [] := by
  simp [expand, h, hs]

/-- a reference to nothing -/
theorem push_missing {cfg : Cfg} {t : Tok} {s : St} {line : List Tok} {drop : Bool} (hk : t.kind = AttrRef) (hs : cfg.subs = true)
    (h1 : refValue cfg t = none) (hr : s.replacing = false) :
    push cfg t s line drop = some (line ++ expand cfg t, drop || drops cfg t, s) := by
  have h2 : isMissing cfg t = true := by simp [isMissing, hk, h1]
  have h3 : expand cfg t = if onMissing cfg = some "drop" ∨ onMissing cfg = some "drop-line" then [] else [{ t with kind := Word }] := by
    simp [expand, hs, h1, h2]
  have h4 : drops cfg t = (onMissing cfg = some "drop-line") := by simp [drops, hs, h2]
  have h5 : push cfg t s line drop = if onMissing cfg = some "drop" then some (line, drop, s)
      else if onMissing cfg = some "drop-line" then some (line, true, s)
      else some (line ++ [{ t with kind := Word }], drop, s) := by
    unfold push mark onMissing
    cases ha : cfg.attrs (attrName t) with
    | none => simp [hr, hk, hs, ha]
    | some av =>
      cases av with
      | bool b => simp [hr, hk, hs, ha]
      | string v => simp [refValue, refName_eq, hk, ha] at h1
  rw [h5, h3]
  by_cases e1 : onMissing cfg = some "drop"
  · simp [drops, e1]
  · by_cases e2 : onMissing cfg = some "drop-line" <;> simp [drops, hs, h2, e1, e2]

/-- a reference to a value -/
theorem push_value {cfg : Cfg} {t : Tok} {s : St} {line : List Tok} {drop : Bool} (hk : t.kind = AttrRef) (hs : cfg.subs = true)
    {v : String} (h1 : refValue cfg t = some v) (hv : v.toList.head? ≠ some '\x1b') :
    push cfg t s line drop = some (line ++ [(mark t s).1], drop, ⟨true, if v = "" then s.buf else valueToks t v, s.src⟩) := by
  have ha : cfg.attrs (attrName t) = some (.string v) := by
    simp only [refValue, refName_eq, hk, if_true] at h1
    split at h1
    · rename_i h; rw [h]; cases h1; rfl
    · cases h1
  unfold push mark
  by_cases hr : s.replacing = true
  · obtain ⟨k, lx, bf, at', loc⟩ := t
    simp only at hk
    subst hk
    have ha' : cfg.attrs (attrName ⟨AttrRef, lx, bf, true, loc⟩) = some (.string v) := ha
    simp [hr, hs, ha', hv, valueToks]
  · simp [hr, hk, hs, ha, hv]

/-- one token of the source -/
theorem readLine_step {cfg : Cfg} {t : Tok} (hn : t.kind ≠ Newline)
    (hv : cfg.subs = true → ∀ v, refValue cfg t = some v → settled v = true ∧ ∀ c ∈ v.toList, c.toNat < 128) {line : List Tok}
    (hl : line = [] → special cfg t = true → expand cfg t = []) (hspec : t.kind = AttrRef → special cfg t = false) :
    ∃ k, ∀ n src drop, readLine cfg (n + k) ⟨false, [], t :: src⟩ line drop =
      readLine cfg n ⟨false, [], src⟩ (line ++ expand cfg t) (drop || drops cfg t) := by
  have hns : ¬ (line = [] ∧ (t.kind = Directive ∨ (t.kind = Colon ∧ cfg.subs = true))) := by
    rintro ⟨h1, h2⟩
    have hsp : special cfg t = true := by simpa [special] using h2
    have he := hl h1 hsp
    have hk : t.kind ≠ AttrRef := fun e => by rw [hspec e] at hsp; cases hsp
    simp [expand, refValue, isMissing, hk] at he
  have hstep : ∀ n src drop, readLine cfg (n + 1) ⟨false, [], t :: src⟩ line drop =
      match push cfg t ⟨false, [], src⟩ line drop with
      | none => .error .unsupported
      | some (line, drop, s) => readLine cfg n s line drop := by
    intro n src drop
    rw [readLine]
    simp only [St.next, hn, if_false]
    rw [if_neg hns]
    rfl
  by_cases hr : t.kind = AttrRef ∧ cfg.subs = true
  · obtain ⟨hk, hs⟩ := hr
    cases h1 : refValue cfg t with
    | none =>
      refine ⟨1, fun n src drop => ?_⟩
      rw [hstep, push_missing hk hs h1 rfl]
    | some v =>
        have h2 : isMissing cfg t = false := by simp [isMissing, h1]
        obtain ⟨h3, h4⟩ := hv hs v h1
        simp only [settled, Bool.and_eq_true, decide_eq_true_eq, List.all_eq_true] at h3
        refine ⟨(valueToks t v).length + 1, fun n src drop => ?_⟩
        rw [← Nat.add_assoc, hstep]
        rw [push_value hk hs h1 h3.1.2]
        simp only [expand, drops, hs, h1, h2, mark, h3.1.1, if_true, if_false, Bool.false_eq_true, Bool.and_false, Bool.or_false]
        rw [readLine_buf]
        · simp
        · intro u hu
          obtain ⟨w, hw, rfl⟩ := List.mem_map.1 hu
          exact h3.2 w hw
        · simp
        · simpa [valueToks] using tokensOf_ne h3.1.1 h4
  · refine ⟨1, fun n src drop => ?_⟩
    have h1 : expand cfg t = [t] := by
      unfold expand
      by_cases hs : cfg.subs = true
      · have hk : t.kind ≠ AttrRef := fun e => hr ⟨e, hs⟩
        simp [hs, refValue, isMissing, hk]
      · simp [hs]
    have h2 : drops cfg t = false := by
      by_cases hs : cfg.subs = true
      · have hk : t.kind ≠ AttrRef := fun e => hr ⟨e, hs⟩
        simp [drops, isMissing, hk]
      · simp [drops, hs]
    rw [hstep, h1, h2]
    simp [push, mark, hr]

/-- up to the end of a line -/
theorem readLine_line {cfg : Cfg} : ∀ (l : List Tok) {line : List Tok}, (∀ t ∈ l, t.kind ≠ Newline) →
    (cfg.subs = true → ∀ t ∈ l, ∀ v, refValue cfg t = some v → settled v = true ∧ ∀ c ∈ v.toList, c.toNat < 128) →
    (line = [] → startOk cfg l = true) → ∃ k, ∀ n src drop,
      readLine cfg (n + k) ⟨false, [], l ++ src⟩ line drop =
        readLine cfg n ⟨false, [], src⟩ (line ++ l.flatMap (expand cfg)) (drop || l.any (drops cfg)) := by
  intro l
  induction l with
  | nil => intro line _ _ _; exact ⟨0, fun n src drop => by simp⟩
  | cons t l ih =>
    intro line hn hv hstart
    have hsp : t.kind = AttrRef → special cfg t = false := by intro h; simp [special, h]
    have hl : line = [] → special cfg t = true → expand cfg t = [] := by
      intro h1 h2
      have := hstart h1
      unfold startOk at this
      by_cases he : expand cfg t = []
      · exact he
      · have he' : vanishes cfg t = false := by rw [← expand_vanishes]; simp [he]
        simp [List.dropWhile, he', h2] at this
    obtain ⟨k1, h1⟩ := readLine_step (hn t (by simp)) (fun hs => hv hs t (by simp)) hl hsp
    obtain ⟨k2, h2⟩ := ih (line := line ++ expand cfg t) (fun u hu => hn u (by simp [hu])) (fun hs u hu => hv hs u (by simp [hu]))
      (by
        intro he
        simp only [List.append_eq_nil_iff] at he
        have := hstart he.1
        unfold startOk at this ⊢
        have he' : vanishes cfg t = true := by rw [← expand_vanishes]; simp [he.2]
        simpa [List.dropWhile, he'] using this)
    refine ⟨k2 + k1, fun n src drop => ?_⟩
    rw [← Nat.add_assoc, List.cons_append, h1, h2]
    simp [Bool.or_assoc]

/-- more steps do not change the result -/
theorem readLine_mono {cfg : Cfg} : ∀ (n : Nat) {s line drop}, readLine cfg n s line drop ≠ .error .diverged →
    ∀ m, n ≤ m → readLine cfg m s line drop = readLine cfg n s line drop := by
  intro n
  induction n with
  | zero => intro s line drop h; exact absurd rfl h
  | succ n ih =>
    intro s line drop h m hm
    obtain ⟨m, rfl⟩ : ∃ k, m = k + 1 := ⟨m - 1, by omega⟩
    rw [readLine] at h ⊢
    rw [readLine]
    cases hn : s.next with
    | none => rfl
    | some p =>
      obtain ⟨t, s'⟩ := p
      simp only [hn] at h ⊢
      split
      · rfl
      · rename_i h1
        rw [if_neg h1] at h
        split
        · rfl
        · rename_i h2
          rw [if_neg h2] at h
          cases hp : push cfg t s' line drop with
          | none => rfl
          | some q =>
            obtain ⟨line', drop', s''⟩ := q
            simp only [hp] at h ⊢
            exact ih h m (by omega)

/-- more steps do not change the result -/
theorem readAll_mono {cfg : Cfg} : ∀ (n : Nat) {s}, readAll cfg n s ≠ .error .diverged →
    ∀ m, n ≤ m → readAll cfg m s = readAll cfg n s := by
  intro n
  induction n with
  | zero => intro s h; exact absurd rfl h
  | succ n ih =>
    intro s h m hm
    obtain ⟨m, rfl⟩ : ∃ k, m = k + 1 := ⟨m - 1, by omega⟩
    rw [readAll] at h ⊢
    rw [readAll]
    cases hn : s.next with
    | none => rfl
    | some p =>
      simp only [hn] at h ⊢
      have h1 : readLine cfg (n + 1) s [] false ≠ .error .diverged := by
        intro e; rw [e] at h; exact h rfl
      rw [readLine_mono _ h1 (m + 1) hm]
      cases hr : readLine cfg (n + 1) s [] false with
      | error e => rfl
      | ok q =>
        obtain ⟨line, drop, s'⟩ := q
        simp only [hr] at h ⊢
        have h2 : readAll cfg n s' ≠ .error .diverged := by
          intro e; rw [e] at h; exact h rfl
        rw [ih h2 m (by omega)]

theorem Reads.of {cfg : Cfg} {s : St} {ls : List (List Tok)} {n : Nat} (h : readAll cfg n s = .ok ls) : Reads cfg s ls :=
  ⟨n, fun m hm => by rw [readAll_mono n (by rw [h]; exact nofun) m hm, h]⟩

theorem cutLines_split {ts : List Tok} (h : ts ≠ []) : ∃ l r, (∀ t ∈ l, t.kind ≠ Newline) ∧ cutLines ts = l :: cutLines r ∧
    (ts = l ∧ r = [] ∨ ∃ t, t.kind = Newline ∧ ts = l ++ t :: r) ∧ r.length < ts.length := by
  induction ts with
  | nil => exact absurd rfl h
  | cons t ts ih =>
    by_cases ht : t.kind = Newline
    · exact ⟨[], ts, by simp, by simp [cutLines, ht], .inr ⟨t, ht, rfl⟩, by simp⟩
    · by_cases h0 : ts = []
      · subst h0
        exact ⟨[t], [], by simpa using ht, by simp [cutLines, ht], .inl ⟨rfl, rfl⟩, by simp⟩
      · obtain ⟨l, r, h1, h2, h3, h4⟩ := ih h0
        refine ⟨t :: l, r, by simpa using ⟨ht, h1⟩, by simp [cutLines, ht, h2], ?_, by simp; omega⟩
        rcases h3 with ⟨rfl, rfl⟩ | ⟨u, hu, rfl⟩
        · exact .inl ⟨rfl, rfl⟩
        · exact .inr ⟨u, hu, rfl⟩

/-- the lines that are read -/
theorem readAll_lines {cfg : Cfg} (k : Nat) : ∀ (src : List Tok), src.length ≤ k → (∀ l ∈ cutLines src, OkLine cfg l) →
    Reads cfg ⟨false, [], src⟩ (((cutLines src).filter fun l => !l.any (drops cfg)).map (·.flatMap (expand cfg))) := by
  induction k with
  | zero =>
    intro src h _
    have : src = [] := List.length_eq_zero_iff.1 (by omega)
    subst this
    exact Reads.of (n := 1) rfl
  | succ k ih =>
    intro src h hok
    by_cases h0 : src = []
    · subst h0; exact Reads.of (n := 1) rfl
    · obtain ⟨l, r, h1, h2, h3, h4⟩ := cutLines_split h0
      rw [h2] at hok
      obtain ⟨n, hn⟩ := ih r (by omega) (fun l hl => hok l (by simp [hl]))
      have hl := hok l (by simp)
      obtain ⟨j, hj⟩ := readLine_line l (line := []) h1 (fun hs t ht v hv => (hl.values hs t ht v hv).settled) (fun _ => hl.start)
      have hline : readLine cfg (1 + j) ⟨false, [], src⟩ [] false =
          .ok (l.flatMap (expand cfg), l.any (drops cfg), ⟨false, [], r⟩) := by
        rcases h3 with ⟨h3, rfl⟩ | ⟨t, ht, h3⟩
        · have := hj 1 [] false
          rw [List.append_nil, ← h3] at this
          rw [this, readLine]
          simp [St.next, h3]
        · rw [h3, hj 1 (t :: r) false, readLine]
          simp [St.next, ht]
      refine Reads.of (n := n + j + 2) ?_
      rw [readAll]
      cases src with
      | nil => exact absurd rfl h0
      | cons t src =>
        simp only [St.next]
        rw [readLine_mono (1 + j) (by rw [hline]; exact nofun) _ (by omega), hline]
        simp only
        rw [hn _ (by omega), h2]
        by_cases hd : l.any (drops cfg) = true
        · simp [hd]
        · simp [hd]

/-! ### text -/

theorem textOf_append (a b : List Tok) : textOf (a ++ b) = textOf a ++ textOf b := by simp [textOf]

theorem textOf_flatMap (f : Tok → List Tok) (l : List Tok) : textOf (l.flatMap f) = l.flatMap fun t => textOf (f t) := by
  induction l with
  | nil => rfl
  | cons t l ih => simp only [List.flatMap_cons, textOf_append, ih]

theorem value_text {t : Tok} {v : String} (hs : settled v = true) (ha : ∀ c ∈ v.toList, c.toNat < 128) :
    textOf ((valueToks t v).map marked) = v.toList := by
  simp only [settled, Bool.and_eq_true, List.all_eq_true] at hs
  have : ((valueToks t v).map marked).filter (·.kind ≠ AttrRef) = (valueToks t v).map marked := by
    rw [List.filter_eq_self]
    intro u hu
    obtain ⟨w, hw, rfl⟩ := List.mem_map.1 hu
    obtain ⟨x, hx, rfl⟩ := List.mem_map.1 hw
    have := hs.2 x hx
    simp only [quiet, Bool.and_eq_true] at this
    exact this.1
  rw [textOf, this, ← flat_tokensOf ha]
  simp [valueToks, marked, List.flatMap_map]

theorem expand_text {cfg : Cfg} (hs : cfg.subs = true) {t : Tok}
    (hv : ∀ v, refValue cfg t = some v → settled v = true ∧ ∀ c ∈ v.toList, c.toNat < 128) :
    textOf (expand cfg t) = meaning cfg t := by
  unfold expand meaning
  cases h : refValue cfg t with
  | some v =>
    have hk : t.kind = AttrRef := by
      false_or_by_contra
      simp [refValue, *] at h
    have := value_text (t := t) (hv v h).1 (hv v h).2
    simp only [hs, if_true]
    rw [← this]
    simp [textOf, hk]
  | none =>
    by_cases hm : isMissing cfg t = true
    · by_cases hd : onMissing cfg = some "drop" ∨ onMissing cfg = some "drop-line"
      · have hd' : (onMissing cfg = some "drop" || onMissing cfg = some "drop-line") = true := by simpa using hd
        simp [hs, hm, hd, textOf]
      · have hd1 := not_or.1 hd
        simp [hs, hm, hd1.1, hd1.2, textOf]
    · have hk : t.kind ≠ AttrRef := by
        intro hk; simp [isMissing, hk, h] at hm
      simp [hs, hm, textOf, hk]

theorem markedText_flatMap (f : Tok → List Tok) (l : List Tok) : markedText (l.flatMap f) = l.flatMap fun t => markedText (f t) := by
  induction l with
  | nil => rfl
  | cons t l ih =>
    simp only [markedText] at ih ⊢
    simp only [List.flatMap_cons, List.filter_append, List.flatMap_append, ih]

theorem expand_marked {cfg : Cfg} (hs : cfg.subs = true) {t : Tok} (hu : t.attr = false)
    (hv : ∀ v, refValue cfg t = some v → settled v = true ∧ ∀ c ∈ v.toList, c.toNat < 128) :
    markedText (expand cfg t) = ((refValue cfg t).getD "").toList := by
  unfold expand
  cases h : refValue cfg t with
  | some v =>
    simp only [hs, if_true, markedText, List.filter_cons, hu, Bool.false_eq_true, if_false, Option.getD_some]
    have : ((valueToks t v).map marked).filter (·.attr) = (valueToks t v).map marked := by
      rw [List.filter_eq_self]
      intro u hu
      obtain ⟨w, hw, rfl⟩ := List.mem_map.1 hu
      rfl
    rw [this, ← flat_tokensOf (hv v h).2]
    simp [valueToks, marked, List.flatMap_map]
  | none =>
    simp only [hs, if_true, Option.getD_none]
    split
    · split
      · rfl
      · simp [markedText, hu]
    · simp [markedText, hu]

/-! ### reading ends -/

/-- the references in the buffer are of a rank below `r` -/
def Below (cfg : Cfg) (rank : String → Nat) (r : Nat) (b : List Tok) : Prop :=
  ∀ t ∈ b, (refValue cfg t).isSome = true → rank (attrName t) < r

/-- what gets smaller -/
def size (r : Nat) (s : St) : Nat × Nat × Nat := (s.src.length, r, s.buf.length)

/-- the order -/
abbrev Smaller : Nat × Nat × Nat → Nat × Nat × Nat → Prop := Prod.Lex (· < ·) (Prod.Lex (· < ·) (· < ·))

theorem smaller_wf : WellFounded Smaller := (Prod.lex Nat.lt_wfRel (Prod.lex Nat.lt_wfRel Nat.lt_wfRel)).wf

theorem smaller_trans {a b c} (h1 : Smaller a b) (h2 : Smaller b c) : Smaller a c := by
  simp only [Smaller, Prod.lex_def] at *
  omega

theorem next_smaller {cfg : Cfg} {rank : String → Nat} {r : Nat} {s s' : St} {t : Tok} (hb : Below cfg rank r s.buf)
    (h : s.next = some (t, s')) : Below cfg rank r s'.buf ∧ Smaller (size r s') (size r s) ∧
      (s'.src.length < s.src.length ∨ s'.src = s.src ∧ ((refValue cfg t).isSome = true → rank (attrName t) < r)) := by
  obtain ⟨f, b, src⟩ := s
  unfold St.next at h
  cases b with
  | cons u b =>
    simp only [Option.some.injEq, Prod.mk.injEq] at h
    obtain ⟨rfl, rfl⟩ := h
    exact ⟨fun x hx => hb x (by simp at hx ⊢; exact .inr hx), by simp [size, Smaller, Prod.lex_def], .inr ⟨rfl, hb u (by simp)⟩⟩
  | nil =>
    cases src with
    | nil => cases h
    | cons u src =>
      simp only [Option.some.injEq, Prod.mk.injEq] at h
      obtain ⟨rfl, rfl⟩ := h
      exact ⟨hb, by simp [size, Smaller, Prod.lex_def], .inl (by simp)⟩

theorem mark_st (t : Tok) (s : St) : (mark t s).2.buf = s.buf ∧ (mark t s).2.src = s.src := by
  unfold mark; split <;> exact ⟨rfl, rfl⟩

theorem attrName_mark (t : Tok) (s : St) : attrName (mark t s).1 = attrName t ∧ (mark t s).1.kind = t.kind := by
  unfold mark; split <;> exact ⟨rfl, rfl⟩

theorem push_smaller {cfg : Cfg} {rank : String → Nat} (hr : Ranked cfg rank) {r : Nat} {s s1 s2 : St} {t : Tok}
    {line line' : List Tok} {drop drop' : Bool} (hb : Below cfg rank r s.buf) (hn : s.next = some (t, s1))
    (h : push cfg t s1 line drop = some (line', drop', s2)) :
    ∃ r', Below cfg rank r' s2.buf ∧ Smaller (size r' s2) (size r s) := by
  obtain ⟨h1, h2, h3⟩ := next_smaller hb hn
  by_cases hv : t.kind = AttrRef ∧ cfg.subs = true ∧ (refValue cfg t).isSome = true
  · obtain ⟨hk, hs, hv⟩ := hv
    obtain ⟨v, hv'⟩ := Option.isSome_iff_exists.1 hv
    by_cases he : v.toList.head? = some '\x1b'
    · exfalso
      have ha : cfg.attrs (attrName t) = some (.string v) := by
        simp only [refValue, refName_eq, hk, if_true] at hv'
        split at hv'
        · rename_i h; rw [h]; cases hv'; rfl
        · cases hv'
      unfold push at h
      simp only [(attrName_mark t s1).1, (attrName_mark t s1).2, hk, hs, ha, he] at h
      simp at h
    · rw [push_value hk hs hv' he] at h
      simp only [Option.some.injEq, Prod.mk.injEq] at h
      obtain ⟨_, _, rfl⟩ := h
      by_cases hve : v = ""
      · refine ⟨r, by simpa [hve] using h1, ?_⟩
        simpa [size, hve] using h2
      · simp only [hve, if_false]
        have ha : cfg.attrs (attrName t) = some (.string v) := by
          simp only [refValue, refName_eq, hk, if_true] at hv'
          split at hv'
          · rename_i h; rw [h]; cases hv'; rfl
          · cases hv'
        refine ⟨rank (attrName t), ?_, ?_⟩
        · intro u hu hu2
          obtain ⟨w, hw, rfl⟩ := List.mem_map.1 hu
          have := hr _ _ ha w hw hu2
          rw [refName_eq] at this
          exact this
        · simp only [size, Smaller, Prod.lex_def]
          rcases h3 with h3 | ⟨h3, h4⟩
          · exact .inl h3
          · right
            exact ⟨by rw [h3], .inl (h4 hv)⟩
  · have : s2.buf = s1.buf ∧ s2.src = s1.src := by
      have hm := mark_st t s1
      have ha := attrName_mark t s1
      unfold push at h
      simp only [ha.1, ha.2] at h
      split at h
      · rename_i hk
        have hnone : refValue cfg t = none := by
          cases hx : refValue cfg t with
          | none => rfl
          | some v => exact absurd ⟨hk.1, hk.2, by simp [hx]⟩ hv
        split at h
        · rename_i v hx
          simp [refValue, refName_eq, hk.1, hx] at hnone
        · split at h
          · simp only [Option.some.injEq, Prod.mk.injEq] at h
            rw [← h.2.2]; exact hm
          · split at h
            · simp only [Option.some.injEq, Prod.mk.injEq] at h
              rw [← h.2.2]; exact hm
            · simp only [Option.some.injEq, Prod.mk.injEq] at h
              rw [← h.2.2]; exact hm
      · simp only [Option.some.injEq, Prod.mk.injEq] at h
        rw [← h.2.2]; exact hm
    refine ⟨r, by rw [this.1]; exact h1, ?_⟩
    simpa [size, this.1, this.2] using h2

/-- reading a line ends -/
theorem readLine_ends {cfg : Cfg} {rank : String → Nat} (hr : Ranked cfg rank) (x : Nat × Nat × Nat) :
    ∀ {s : St} {r : Nat} {line drop}, size r s = x → Below cfg rank r s.buf →
      ∃ n, readLine cfg n s line drop ≠ .error .diverged ∧ ∀ l d s', readLine cfg n s line drop = .ok (l, d, s') →
        ∃ r', Below cfg rank r' s'.buf ∧ (s.next ≠ none → Smaller (size r' s') x) := by
  induction x using smaller_wf.induction with
  | _ x ih =>
    intro s r line drop hx hb
    cases hn : s.next with
    | none =>
      refine ⟨1, by rw [readLine, hn]; exact nofun, ?_⟩
      intro l d s' h
      rw [readLine, hn] at h
      cases h
      exact ⟨r, hb, fun h => absurd rfl h⟩
    | some p =>
      obtain ⟨t, s1⟩ := p
      obtain ⟨h1, h2, h3⟩ := next_smaller hb hn
      by_cases hk : t.kind = Newline
      · refine ⟨1, by rw [readLine, hn]; simp [hk], ?_⟩
        intro l d s' h
        rw [readLine, hn] at h
        simp only [hk, if_true] at h
        cases h
        exact ⟨r, h1, fun _ => hx ▸ h2⟩
      · by_cases hsp : line = [] ∧ (t.kind = Directive ∨ (t.kind = Colon ∧ cfg.subs = true))
        · refine ⟨1, by rw [readLine, hn]; simp only [hk, if_false, if_pos hsp]; exact nofun, ?_⟩
          intro l d s' h
          rw [readLine, hn] at h
          simp only [hk, if_false, if_pos hsp] at h
          cases h
        · cases hp : push cfg t s1 line drop with
          | none =>
            refine ⟨1, by rw [readLine, hn]; simp only [hk, if_false, if_neg hsp, hp]; exact nofun, ?_⟩
            intro l d s' h
            rw [readLine, hn] at h
            simp only [hk, if_false, if_neg hsp, hp] at h
            cases h
          | some q =>
            obtain ⟨line', drop', s2⟩ := q
            obtain ⟨r', g1, g2⟩ := push_smaller hr hb hn hp
            rw [hx] at g2
            obtain ⟨n, g3, g4⟩ := ih _ g2 (s := s2) (r := r') (line := line') (drop := drop') rfl g1
            refine ⟨n + 1, ?_, ?_⟩
            · rw [readLine, hn]
              simp only [hk, if_false, if_neg hsp, hp]
              exact g3
            · intro l d s' h
              rw [readLine, hn] at h
              simp only [hk, if_false, if_neg hsp, hp] at h
              obtain ⟨r'', g5, g6⟩ := g4 l d s' h
              by_cases hnn : s2.next = none
              · have : s' = s2 := by
                  cases n with
                  | zero => exact absurd rfl g3
                  | succ n => rw [readLine, hnn] at h; cases h; rfl
                subst this
                exact ⟨r', g1, fun _ => g2⟩
              · exact ⟨r'', g5, fun _ => smaller_trans (g6 hnn) g2⟩

/-- reading ends -/
theorem readAll_ends {cfg : Cfg} {rank : String → Nat} (hr : Ranked cfg rank) (x : Nat × Nat × Nat) :
    ∀ {s : St} {r : Nat}, size r s = x → Below cfg rank r s.buf → ∃ n, readAll cfg n s ≠ .error .diverged := by
  induction x using smaller_wf.induction with
  | _ x ih =>
    intro s r hx hb
    cases hn : s.next with
    | none => exact ⟨1, by rw [readAll, hn]; exact nofun⟩
    | some p =>
      obtain ⟨n, h1, h2⟩ := readLine_ends hr x (s := s) (r := r) (line := []) (drop := false) hx hb
      cases h : readLine cfg n s [] false with
      | error e =>
        refine ⟨n + 1, ?_⟩
        rw [readAll, hn]
        simp only
        rw [readLine_mono n h1 _ (by omega), h]
        intro he
        rw [h] at h1
        cases he; exact h1 rfl
      | ok q =>
        obtain ⟨l, d, s'⟩ := q
        obtain ⟨r', g1, g2⟩ := h2 l d s' h
        obtain ⟨m, g3⟩ := ih _ (g2 (by simp [hn])) (s := s') (r := r') rfl g1
        refine ⟨n + m + 1, ?_⟩
        rw [readAll, hn]
        simp only
        rw [readLine_mono n h1 _ (by omega), h]
        simp only
        rw [readAll_mono m g3 _ (by omega)]
        cases hm : readAll cfg m s' with
        | error e =>
          intro he
          rw [hm] at g3
          cases he; exact g3 rfl
        | ok ls => exact nofun

theorem tokensOf_attr (s : String) : ∀ t ∈ tokensOf s, t.attr = false := by
  unfold tokensOf
  dsimp only
  split
  · simp
  · intro t ht
    obtain ⟨u, _, rfl⟩ := List.mem_map.1 ht
    rfl

end Verif.AttrRefs
