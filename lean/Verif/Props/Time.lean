import Verif.Model.Time
import Verif.Spec.Time
import Verif.Props.Meta
/-!
# The attributes with dates and times

**C105**: they tell the time of the conversion and of the last change of the document, or the time that is given for both; and nothing in the document
changes them.
-/
namespace Verif.Props
open Verif.Time Verif.Spec.Time Verif.OpenTag
open DocumentMeta

private theorem isLeap_iff (y : Nat) : isLeap y = true ↔ Leap y := by
  unfold isLeap Leap
  simp only [Bool.and_eq_true, beq_iff_eq, Bool.or_eq_true, bne_iff_ne, ne_eq]
  omega

private theorem yearDays_eq (y : Nat) : (if isLeap y then 366 else 365) = daysOfYear y := by
  unfold daysOfYear
  simp only [isLeap_iff]

private theorem daysToYear_succ {y : Nat} (h : 1970 ≤ y) : daysToYear (y + 1) = daysToYear y + daysOfYear y := by
  unfold daysToYear
  rw [show y + 1 - 1970 = y - 1970 + 1 by omega, List.range'_concat, List.map_append, List.sum_append]
  rw [show 1970 + 1 * (y - 1970) = y by omega]
  simp

private theorem daysToYear_mono {a b : Nat} (ha : 1970 ≤ a) (h : a ≤ b) : daysToYear a ≤ daysToYear b := by
  induction b with
  | zero => omega
  | succ b ih =>
    by_cases hb : a = b + 1
    · rw [hb]; exact Nat.le_refl _
    · rw [daysToYear_succ (by omega)]
      have := ih (by omega)
      omega

private theorem yearFrom_spec (fuel : Nat) : ∀ {y d : Nat}, 1970 ≤ y → d < 365 * fuel →
    1970 ≤ (yearFrom fuel y d).1 ∧ (yearFrom fuel y d).2 < daysOfYear (yearFrom fuel y d).1 ∧
      daysToYear (yearFrom fuel y d).1 + (yearFrom fuel y d).2 = daysToYear y + d := by
  induction fuel with
  | zero => intro y d _ h; omega
  | succ fuel ih =>
    intro y d hy hd
    unfold yearFrom
    simp only [yearDays_eq]
    split
    · rename_i h
      exact ⟨hy, h, rfl⟩
    · rename_i h
      have h365 : 365 ≤ daysOfYear y := by unfold daysOfYear; split <;> omega
      obtain ⟨h1, h2, h3⟩ := ih (y := y + 1) (d := d - daysOfYear y) (by omega) (by omega)
      refine ⟨h1, h2, ?_⟩
      rw [h3, daysToYear_succ hy]
      omega

private theorem monthFrom_spec : ∀ (l : List Nat) (d : Nat), d < l.sum →
    (monthFrom l d).1 < l.length ∧ (monthFrom l d).2 < l.getD (monthFrom l d).1 0 ∧ (l.take (monthFrom l d).1).sum + (monthFrom l d).2 = d
  | [], d, h => by simp at h
  | n :: ns, d, h => by
    unfold monthFrom
    split
    · rename_i h
      exact ⟨by simp, by simpa using h, by simp⟩
    · rename_i hn
      rw [List.sum_cons] at h
      obtain ⟨h1, h2, h3⟩ := monthFrom_spec ns (d - n) (by omega)
      refine ⟨by simp only [List.length_cons]; omega, by simpa using h2, ?_⟩
      simp only [List.take_succ_cons, List.sum_cons]
      omega

private theorem months_eq (y : Nat) : months y = (List.range' 1 12).map (daysOfMonth y) := by
  unfold months
  simp only [isLeap_iff]
  rfl

private theorem digits_two {n : Nat} (h : n < 100) : Digits 2 (two n) n := by
  have key : ∀ n < 100, (two n).length = 2 ∧ (∀ c ∈ two n, '0' ≤ c ∧ c ≤ '9') ∧ value (two n) = n := by decide +kernel
  exact key n h

private theorem digit_ok (n : Nat) : ('0' ≤ digit n ∧ digit n ≤ '9') ∧ (digit n).toNat - 48 = n % 10 := by
  have key : ∀ k < 10, ('0' ≤ digit k ∧ digit k ≤ '9') ∧ (digit k).toNat - 48 = k % 10 := by decide
  have e : digit n = digit (n % 10) := by unfold digit; rw [Nat.mod_mod]
  have := key (n % 10) (by omega)
  rw [← e, Nat.mod_mod] at this
  exact this

private theorem digits_four {n : Nat} (h : n < 10000) : Digits 4 (four n) n := by
  refine ⟨rfl, ?_, ?_⟩
  · intro c hc
    simp only [four, List.mem_cons, List.not_mem_nil, or_false] at hc
    rcases hc with rfl | rfl | rfl | rfl <;> exact (digit_ok _).1
  · simp only [value, four, List.foldl_cons, List.foldl_nil, (digit_ok _).2]
    omega

private theorem toDigits_four {n : Nat} (h : n < 10000) (h' : 1000 ≤ n) : Nat.toDigits 10 n = four n := by
  have key : ∀ k, k < 10 → Nat.digitChar k = digit k := by decide
  have e : ∀ k, digit k = digit (k % 10) := fun k => by unfold digit; rw [Nat.mod_mod]
  rw [Nat.toDigits_of_base_le (by omega) (by omega), Nat.toDigits_of_base_le (by omega) (by omega),
    Nat.toDigits_of_base_le (by omega) (by omega), Nat.toDigits_of_lt_base (by omega)]
  rw [key _ (by omega), key _ (by omega), key _ (by omega), key _ (by omega)]
  unfold four
  rw [e (n / 1000), e (n / 100), e (n / 10), e n, Nat.div_div_eq_div_mul, Nat.div_div_eq_div_mul]
  rw [show n / 1000 % 10 = n / 1000 by omega]
  simp [Nat.div_div_eq_div_mul]

private theorem toZoned_spec {s : Nat} {z : Date × Clock} (h : toZoned s = some z) :
    Tells (Nat.toDigits 10 z.1.year) z.1.show z.2.show (z.1.show ++ ' ' :: z.2.show) s := by
  unfold toZoned at h
  split at h
  · rename_i hs
    obtain rfl := (Option.some.inj h).symm
    obtain ⟨h1, h2, h3⟩ := yearFrom_spec (s / 86400 / 365 + 1) (y := 1970) (d := s / 86400) (by omega) (by omega)
    rw [show daysToYear 1970 = 0 from rfl, Nat.zero_add] at h3
    have hd : dateOf (s / 86400) = ⟨(yearFrom (s / 86400 / 365 + 1) 1970 (s / 86400)).1,
      (monthFrom (months (yearFrom (s / 86400 / 365 + 1) 1970 (s / 86400)).1) (yearFrom (s / 86400 / 365 + 1) 1970 (s / 86400)).2).1 + 1,
      (monthFrom (months (yearFrom (s / 86400 / 365 + 1) 1970 (s / 86400)).1) (yearFrom (s / 86400 / 365 + 1) 1970 (s / 86400)).2).2 + 1⟩ := rfl
    rw [hd]
    generalize (yearFrom (s / 86400 / 365 + 1) 1970 (s / 86400)).1 = y at *
    generalize (yearFrom (s / 86400 / 365 + 1) 1970 (s / 86400)).2 = r at *
    have hy : y < 10000 := by
      false_or_by_contra
      rename_i hy
      have e : daysToYear 10000 = 2932897 := by decide +kernel
      have := daysToYear_mono (a := 10000) (b := y) (by omega) (by omega)
      unfold lastSecond at hs
      omega
    have hsum : (months y).sum = daysOfYear y := by
      unfold months daysOfYear
      simp only [isLeap_iff]
      split <;> rfl
    obtain ⟨m1, m2, m3⟩ := monthFrom_spec (months y) r (by omega)
    generalize (monthFrom (months y) r).1 = mo at *
    generalize (monthFrom (months y) r).2 = d at *
    have hmo : mo < 12 := m1
    have hdm : d < daysOfMonth y (mo + 1) := by
      rw [months_eq] at m2
      have : ((List.range' 1 12).map (daysOfMonth y)).getD mo 0 = daysOfMonth y (mo + 1) := by
        rw [List.getD_eq_getElem?_getD, List.getElem?_map, List.getElem?_range' hmo]
        simp [Nat.add_comm]
      rw [this] at m2
      exact m2
    have hd31 : daysOfMonth y (mo + 1) ≤ 31 := by unfold daysOfMonth; split <;> (try split) <;> (try split) <;> omega
    have hto : ((months y).take mo).sum = daysToMonth y (mo + 1) := by
      unfold daysToMonth
      have key : ∀ k < 12, (List.range' 1 12).take k = List.range' 1 k := by decide
      rw [months_eq, ← List.map_take, key mo hmo, Nat.add_sub_cancel]
    refine ⟨y, mo + 1, d + 1, s % 86400 / 3600, s % 3600 / 60, s % 60, h1, ?_, ?_, ?_, rfl, ?_⟩
    · exact ⟨by omega, by omega, by omega, by omega, _, _, _, digits_four hy, digits_two (by omega), digits_two (by omega), rfl⟩
    · refine ⟨by omega, by omega, by omega, _, _, _, digits_two (by omega), digits_two (by omega), digits_two (by omega), ?_⟩
      have e : zone 0 = "+0000".toList := by decide
      rw [← e]
      rfl
    · rw [toDigits_four hy (by omega)]
      exact digits_four hy
    · unfold seconds
      rw [← hto]
      omega
  · cases h

/-- the names of the attributes that are set -/
private def timeNames : List String := ["docyear", "docdate", "doctime", "docdatetime", "localyear", "localdate", "localtime", "localdatetime"]

private theorem insertJob_eq {k : String} (hk : k ∈ timeNames) (m : DocumentMeta) (v : Str) :
    insertJob m k v = some { m with jobAttrs := m.jobAttrs.insert k ⟨true, .string (String.ofList v)⟩ } := by
  simp only [timeNames, List.mem_cons, List.not_mem_nil, or_false] at hk
  rcases hk with rfl | rfl | rfl | rfl | rfl | rfl | rfl | rfl <;> rfl

private theorem foldlM_insert (ds : Map JobAttr) (m : DocumentMeta) (a b c d e f g h : Str) :
    [("docyear", a), ("docdate", b), ("doctime", c), ("docdatetime", d), ("localyear", e), ("localdate", f), ("localtime", g),
      ("localdatetime", h)].foldlM (fun m a => insertJob m a.1 a.2) { m with jobAttrs := ds } =
    some { m with jobAttrs := [("docyear", a), ("docdate", b), ("doctime", c), ("docdatetime", d), ("localyear", e), ("localdate", f),
      ("localtime", g), ("localdatetime", h)].foldl (fun (j : Map JobAttr) (a : String × Str) => j.insert a.1 ⟨true, .string (String.ofList a.2)⟩) ds } := by
  simp only [List.foldlM_cons, List.foldlM_nil, List.foldl_cons, List.foldl_nil]
  rw [insertJob_eq (by decide)]; simp only [Option.bind_eq_bind, Option.bind_some]
  rw [insertJob_eq (by decide)]; simp only [Option.bind_some]
  rw [insertJob_eq (by decide)]; simp only [Option.bind_some]
  rw [insertJob_eq (by decide)]; simp only [Option.bind_some]
  rw [insertJob_eq (by decide)]; simp only [Option.bind_some]
  rw [insertJob_eq (by decide)]; simp only [Option.bind_some]
  rw [insertJob_eq (by decide)]; simp only [Option.bind_some]
  rw [insertJob_eq (by decide)]; simp only [Option.bind_some]
  rfl

/-- what is in the settings afterwards -/
private theorem provided {lib : Lib} {m m' : DocumentMeta} {now : Nat} {mtime rep : Option Nat}
    (h : provideTimestamps lib m now mtime rep = some m') :
    ∃ date time z, dateOr lib (Images.str m "docdate") (rep.getD (mtime.getD now)) = some date ∧
      timeOr lib (Images.str m "doctime") (rep.getD (mtime.getD now)) = some time ∧ toZoned (rep.getD now) = some z ∧
      (∀ k v, (k, v) ∈ [("docyear", Nat.toDigits 10 date.year), ("docdate", date.show), ("doctime", time.show),
        ("docdatetime", date.show ++ ' ' :: time.show), ("localyear", Nat.toDigits 10 z.1.year), ("localdate", z.1.show), ("localtime", z.2.show),
        ("localdatetime", z.1.show ++ ' ' :: z.2.show)] → m'.jobAttrs k = some ⟨true, .string (String.ofList v)⟩) ∧
      (∀ k, k ∉ timeNames → m'.get k = m.get k) := by
  unfold provideTimestamps datetimeAttrs at h
  cases hd : dateOr lib (Images.str m "docdate") (rep.getD (mtime.getD now)) with
  | none => simp [hd] at h
  | some date =>
  cases ht : timeOr lib (Images.str m "doctime") (rep.getD (mtime.getD now)) with
  | none => simp [hd, ht] at h
  | some time =>
  cases hz : toZoned (rep.getD now) with
  | none => simp [hd, ht, hz] at h
  | some z =>
  refine ⟨date, time, z, rfl, rfl, rfl, ?_⟩
  simp only [hd, ht, hz, Option.bind_eq_bind, Option.bind_some, Option.pure_def] at h
  have hf := foldlM_insert m.jobAttrs m (Nat.toDigits 10 date.year) date.show time.show (date.show ++ ' ' :: time.show)
    (Nat.toDigits 10 z.1.year) z.1.show z.2.show (z.1.show ++ ' ' :: z.2.show)
  have h' := hf.symm.trans h
  obtain rfl := (Option.some.inj h').symm
  generalize Nat.toDigits 10 date.year = a1
  generalize date.show ++ ' ' :: time.show = a2
  generalize date.show = a3
  generalize time.show = a4
  generalize z.1.show ++ ' ' :: z.2.show = a5
  generalize Nat.toDigits 10 z.1.year = a6
  generalize z.1.show = a7
  generalize z.2.show = a8
  constructor
  · intro k v hk
    simp only [List.mem_cons, List.not_mem_nil, or_false, Prod.mk.injEq] at hk
    rcases hk with ⟨rfl, rfl⟩ | ⟨rfl, rfl⟩ | ⟨rfl, rfl⟩ | ⟨rfl, rfl⟩ | ⟨rfl, rfl⟩ | ⟨rfl, rfl⟩ | ⟨rfl, rfl⟩ | ⟨rfl, rfl⟩ <;> rfl
  · intro k hk
    have hj : ([("docyear", a1), ("docdate", a3), ("doctime", a4), ("docdatetime", a2), ("localyear", a6), ("localdate", a7),
      ("localtime", a8), ("localdatetime", a5)].foldl (fun (j : Map JobAttr) (a : String × Str) => j.insert a.1 ⟨true, .string (String.ofList a.2)⟩)
        m.jobAttrs) k = m.jobAttrs k := by
      simp only [timeNames, List.mem_cons, List.not_mem_nil, or_false, not_or] at hk
      obtain ⟨h1, h2, h3, h4, h5, h6, h7, h8⟩ := hk
      simp only [List.foldl_cons, List.foldl_nil, Map.insert, h1, h2, h3, h4, h5, h6, h7, h8, if_false]
    show DocumentMeta.get { m with jobAttrs := _ } k = _
    unfold DocumentMeta.get
    simp only [hj]
    rfl

private theorem is_of {m' m'' : DocumentMeta} {ops : List DocOp} {k : String} {v : Str} (hk : k ∈ timeNames)
    (hj : m'.jobAttrs k = some ⟨true, .string (String.ofList v)⟩) (hrun : ops.foldlM DocOp.run m' = some m'') : Is m'' k v := by
  refine (C19_readonly_fixed m' m'' ops k _ ?_ hj hrun).2.1
  simp only [timeNames, List.mem_cons, List.not_mem_nil, or_false] at hk
  rcases hk with rfl | rfl | rfl | rfl | rfl | rfl | rfl | rfl <;> decide

/-- **C105**: whatever the document says, `localyear`, `localdate`, `localtime` and `localdatetime` tell the time of the conversion, or the time that
is given for all conversions. -/
theorem C105_now {lib : Lib} {m m' m'' : DocumentMeta} {now : Nat} {mtime given : Option Nat} {ops : List DocOp}
    (h : provideTimestamps lib m now mtime given = some m') (hrun : ops.foldlM DocOp.run m' = some m'') :
    AttrsTell m'' "localyear" "localdate" "localtime" "localdatetime" (given.getD now) := by
  obtain ⟨date, time, z, -, -, hz, hj, -⟩ := provided h
  exact ⟨_, _, _, _, is_of (by decide) (hj _ _ (by simp)) hrun, is_of (by decide) (hj _ _ (by simp)) hrun,
    is_of (by decide) (hj _ _ (by simp)) hrun, is_of (by decide) (hj _ _ (by simp)) hrun, toZoned_spec hz⟩

/-- **C105**: whatever the document says, `docyear`, `docdate`, `doctime` and `docdatetime` tell the time that is given for all conversions, else the
time of the last change of the document, else the time of the conversion, if no date and time of the document were asked for. -/
theorem C105_document {lib : Lib} {m m' m'' : DocumentMeta} {now : Nat} {mtime given : Option Nat} {ops : List DocOp}
    (h : provideTimestamps lib m now mtime given = some m') (hrun : ops.foldlM DocOp.run m' = some m'')
    (hd : m.get "docdate" = none) (ht : m.get "doctime" = none) :
    AttrsTell m'' "docyear" "docdate" "doctime" "docdatetime" ((given.or mtime).getD now) := by
  obtain ⟨date, time, z, h1, h2, -, hj, -⟩ := provided h
  have e : ((given.or mtime).getD now) = given.getD (mtime.getD now) := by cases given <;> rfl
  rw [e]
  have e1 : Images.str m "docdate" = none := by unfold Images.str; rw [hd]; rfl
  have e2 : Images.str m "doctime" = none := by unfold Images.str; rw [ht]; rfl
  rw [e1] at h1
  rw [e2] at h2
  obtain ⟨z', hz', rfl⟩ := Option.map_eq_some_iff.1 h1
  obtain ⟨z'', hz'', rfl⟩ := Option.map_eq_some_iff.1 h2
  obtain rfl := Option.some.inj (hz'.symm.trans hz'')
  exact ⟨_, _, _, _, is_of (by decide) (hj _ _ (by simp)) hrun, is_of (by decide) (hj _ _ (by simp)) hrun,
    is_of (by decide) (hj _ _ (by simp)) hrun, is_of (by decide) (hj _ _ (by simp)) hrun, toZoned_spec hz'⟩

/-- **C105**: with a time that is given for all conversions, neither the clock nor the file system change anything. -/
theorem C105_reproducible (lib : Lib) (m : DocumentMeta) (t now now' : Nat) (mtime mtime' : Option Nat) :
    provideTimestamps lib m now mtime (some t) = provideTimestamps lib m now' mtime' (some t) := rfl

/-- **C105**: no other attribute is changed. -/
theorem C105_others {lib : Lib} {m m' : DocumentMeta} {now : Nat} {mtime given : Option Nat} (h : provideTimestamps lib m now mtime given = some m')
    {k : String} (hk : k ∉ ["docyear", "docdate", "doctime", "docdatetime", "localyear", "localdate", "localtime", "localdatetime"]) :
    m'.get k = m.get k := by
  obtain ⟨_, _, _, -, -, -, -, ho⟩ := provided h
  exact ho k hk

private theorem digit_back {c : Char} (h : '0' ≤ c ∧ c ≤ '9') : c = digit (c.toNat - 48) ∧ c.toNat - 48 < 10 := by
  have h1 : 48 ≤ c.toNat := h.1
  have h2 : c.toNat ≤ 57 := h.2
  refine ⟨?_, by omega⟩
  unfold digit
  rw [Nat.mod_eq_of_lt (by omega), Nat.add_sub_cancel' h1, Char.ofNat_toNat]

private theorem two_back {s : Str} {n : Nat} (h : Digits 2 s n) : s = two n ∧ n < 100 := by
  obtain ⟨hl, hd, rfl⟩ := h
  match s, hl with
  | [a, b], _ =>
    obtain ⟨ha, ha'⟩ := digit_back (hd a (by simp))
    obtain ⟨hb, hb'⟩ := digit_back (hd b (by simp))
    simp only [value, List.foldl_cons, List.foldl_nil, two]
    generalize a.toNat - 48 = x at *
    generalize b.toNat - 48 = y at *
    refine ⟨?_, by omega⟩
    rw [ha, hb]
    have e : ∀ k j, k % 10 = j % 10 → digit k = digit j := fun k j h => by unfold digit; rw [h]
    rw [e x ((10 * (10 * 0 + x) + y) / 10) (by omega), e y (10 * (10 * 0 + x) + y) (by omega)]

private theorem four_back {s : Str} {n : Nat} (h : Digits 4 s n) : s = four n ∧ n < 10000 := by
  obtain ⟨hl, hd, rfl⟩ := h
  match s, hl with
  | [a, b, c, d], _ =>
    obtain ⟨ha, ha'⟩ := digit_back (hd a (by simp))
    obtain ⟨hb, hb'⟩ := digit_back (hd b (by simp))
    obtain ⟨hc, hc'⟩ := digit_back (hd c (by simp))
    obtain ⟨hd, hd'⟩ := digit_back (hd d (by simp))
    simp only [value, List.foldl_cons, List.foldl_nil, four]
    generalize a.toNat - 48 = x at *
    generalize b.toNat - 48 = y at *
    generalize c.toNat - 48 = z at *
    generalize d.toNat - 48 = w at *
    refine ⟨?_, by omega⟩
    have e : ∀ k j, k % 10 = j % 10 → digit k = digit j := fun k j h => by unfold digit; rw [h]
    rw [ha, hb, hc, hd]
    generalize hn : 10 * (10 * (10 * (10 * 0 + x) + y) + z) + w = n
    rw [e x (n / 1000) (by omega), e y (n / 100) (by omega), e z (n / 10) (by omega), e w n (by omega)]

private theorem show_date {s : Str} {y mo d : Nat} (h : IsDate s y mo d) : (Date.mk y mo d).show = s := by
  obtain ⟨-, -, -, -, a, b, c, ha, hb, hc, rfl⟩ := h
  rw [(four_back ha).1, (two_back hb).1, (two_back hc).1]
  rfl

private theorem show_time {s : Str} {h mi sec : Nat} {ahead : Int} (ht : IsTimeIn s h mi sec ahead) : (Clock.mk h mi sec ahead).show = s := by
  obtain ⟨-, -, -, a, b, c, x, y, zh, zm, ha, hb, hc, hx, hy, hm, hs⟩ := ht
  rw [(two_back ha).1, (two_back hb).1, (two_back hc).1, (two_back hx).1, (two_back hy).1] at hs
  unfold Clock.show zone
  simp only
  rcases hs with ⟨rfl, rfl⟩ | ⟨rfl, hp, rfl⟩
  · rw [if_neg (by omega), Int.natAbs_natCast, show (zh * 60 + zm) * 60 / 3600 = zh by omega, show (zh * 60 + zm) * 60 % 3600 / 60 = zm by omega,
      if_pos (by omega)]
    simp
  · rw [if_pos (by omega), Int.natAbs_neg, Int.natAbs_natCast, show (zh * 60 + zm) * 60 / 3600 = zh by omega,
      show (zh * 60 + zm) * 60 % 3600 / 60 = zm by omega, if_pos (by omega)]
    simp

private theorem str_of {m : DocumentMeta} {k : String} {s : Str} (h : m.get k = some (.string (String.ofList s))) : Images.str m k = some s := by
  unfold Images.str
  rw [h]
  simp [AttrValue.str]

/-- **C105**: a date that is asked for, such as `-a docdate=2015-01-01`, is the date of the document, and its year is the year of the document. -/
theorem C105_date_asked_for {lib : Lib} {m m' m'' : DocumentMeta} {now : Nat} {mtime given : Option Nat} {ops : List DocOp}
    (h : provideTimestamps lib m now mtime given = some m') (hrun : ops.foldlM DocOp.run m' = some m'') {s : Str} {y mo d : Nat}
    (hs : Is m "docdate" s) (hdate : IsDate s y mo d) (hl : lib.date s = some ⟨y, mo, d⟩) :
    Is m'' "docdate" s ∧ Is m'' "docyear" (Nat.toDigits 10 y) ∧ ∃ t, Is m'' "doctime" t ∧ Is m'' "docdatetime" (s ++ ' ' :: t) := by
  obtain ⟨date, time, z, h1, -, -, hj, -⟩ := provided h
  unfold dateOr at h1
  rw [str_of hs, Option.bind_some, hl] at h1
  simp only at h1
  split at h1
  · obtain rfl := (Option.some.inj h1)
    have e := show_date hdate
    have i1 := is_of (by decide) (hj "docdate" (Date.mk y mo d).show (by simp)) hrun
    have i2 := is_of (by decide) (hj "docyear" (Nat.toDigits 10 y) (by simp)) hrun
    have i3 := is_of (by decide) (hj "doctime" time.show (by simp)) hrun
    have i4 := is_of (by decide) (hj "docdatetime" ((Date.mk y mo d).show ++ ' ' :: time.show) (by simp)) hrun
    rw [e] at i1 i4
    exact ⟨i1, i2, _, i3, i4⟩
  · cases h1

/-- **C105**: a time that is asked for, such as `-a doctime=10:00:00-0700`, is the time of the document. -/
theorem C105_time_asked_for {lib : Lib} {m m' m'' : DocumentMeta} {now : Nat} {mtime given : Option Nat} {ops : List DocOp}
    (h : provideTimestamps lib m now mtime given = some m') (hrun : ops.foldlM DocOp.run m' = some m'') {s : Str} {hr mi sec : Nat} {ahead : Int}
    (hs : Is m "doctime" s) (htime : IsTimeIn s hr mi sec ahead) (hl : lib.time s = some ⟨hr, mi, sec, ahead⟩) :
    Is m'' "doctime" s ∧ ∃ d, Is m'' "docdate" d ∧ Is m'' "docdatetime" (d ++ ' ' :: s) := by
  obtain ⟨date, time, z, -, h2, -, hj, -⟩ := provided h
  unfold timeOr at h2
  rw [str_of hs, Option.bind_some, hl] at h2
  obtain rfl := (Option.some.inj h2)
  have e := show_time htime
  have i1 := is_of (by decide) (hj "docdate" date.show (by simp)) hrun
  have i3 := is_of (by decide) (hj "doctime" (Clock.mk hr mi sec ahead).show (by simp)) hrun
  have i4 := is_of (by decide) (hj "docdatetime" (date.show ++ ' ' :: (Clock.mk hr mi sec ahead).show) (by simp)) hrun
  rw [e] at i3 i4
  exact ⟨i3, _, i1, i4⟩

/-- **C105**: times before the end of the year 9999 (but for its last 26 hours) can be given, if no date is asked for.

Missing: times after that (`C105_far_violated`), and the last day of 9999 as a date that is asked for (`C105_last_day_violated`). -/
theorem C105_succeeds_partial (lib : Lib) {m : DocumentMeta} {now : Nat} {mtime given : Option Nat} (hn : given.getD now ≤ 253402207200)
    (hm : (given.or mtime).getD now ≤ 253402207200) (hd : m.get "docdate" = none) :
    (provideTimestamps lib m now mtime given).isSome := by
  have e : ((given.or mtime).getD now) = given.getD (mtime.getD now) := by cases given <;> rfl
  rw [e] at hm
  have hz : ∀ {s}, s ≤ 253402207200 → ∃ z, toZoned s = some z := fun {s} h => by
    unfold toZoned
    rw [if_pos (by unfold lastSecond; exact h)]
    exact ⟨_, rfl⟩
  obtain ⟨z, hz1⟩ := hz hn
  obtain ⟨w, hz2⟩ := hz hm
  have h1 : dateOr lib (Images.str m "docdate") (given.getD (mtime.getD now)) = some w.1 := by
    unfold dateOr Images.str
    rw [hd, hz2]
    rfl
  obtain ⟨t, h2⟩ : ∃ t, timeOr lib (Images.str m "doctime") (given.getD (mtime.getD now)) = some t := by
    unfold timeOr
    split
    · exact ⟨_, rfl⟩
    · rw [hz2]; exact ⟨_, rfl⟩
  unfold provideTimestamps datetimeAttrs
  simp only [h1, h2, hz1, Option.bind_eq_bind, Option.bind_some, Option.pure_def]
  have hf := foldlM_insert m.jobAttrs m (Nat.toDigits 10 w.1.year) w.1.show t.show (w.1.show ++ ' ' :: t.show)
    (Nat.toDigits 10 z.1.year) z.1.show z.2.show (z.1.show ++ ' ' :: z.2.show)
  exact Option.isSome_iff_exists.2 ⟨_, hf⟩

/-- **C105**, violated: later times, such as milliseconds that are given for seconds, make the parser panic. -/
theorem C105_far_violated (lib : Lib) (m : DocumentMeta) {now : Nat} (h : 253402207200 < now) (mtime : Option Nat) :
    provideTimestamps lib m now mtime none = none := by
  unfold provideTimestamps datetimeAttrs
  have hz : toZoned now = none := by
    unfold toZoned
    rw [if_neg (by unfold lastSecond; omega)]
  simp only [Option.getD_none, hz]
  cases dateOr lib (Images.str m "docdate") (mtime.getD now) <;> cases timeOr lib (Images.str m "doctime") (mtime.getD now) <;> rfl

/-- **C105**, violated: so does the last day of the year 9999, if it is asked for. -/
theorem C105_last_day_violated {lib : Lib} {m : DocumentMeta} {s : Str} (hs : Is m "docdate" s) (hl : lib.date s = some ⟨9999, 12, 31⟩)
    (now : Nat) (mtime given : Option Nat) : provideTimestamps lib m now mtime given = none := by
  have h1 : dateOr lib (Images.str m "docdate") (given.getD (mtime.getD now)) = none := by
    unfold dateOr
    rw [str_of hs, Option.bind_some, hl]
    rfl
  unfold provideTimestamps datetimeAttrs
  simp only [h1]
  rfl

/-! ### the hypotheses are met -/

/-- a library that reads one date and one time -/
def smallLib : Lib :=
  ⟨fun s => if s = "2015-01-01".toList then some ⟨2015, 1, 1⟩ else none, fun s => if s = "10:00:00-0700".toList then some ⟨10, 0, 0, -25200⟩ else none⟩

/-- the attributes of the times that the tests of the repository give (`time.rs:65-78`) -/
example : datetimeAttrs smallLib (DocumentMeta.ofSettings none .modeSafe Map.empty false) 1734960586 (some 1734872889) none =
    some [("docyear", "2024".toList), ("docdate", "2024-12-22".toList), ("doctime", "13:08:09+0000".toList),
      ("docdatetime", "2024-12-22 13:08:09+0000".toList), ("localyear", "2024".toList), ("localdate", "2024-12-23".toList),
      ("localtime", "13:29:46+0000".toList), ("localdatetime", "2024-12-23 13:29:46+0000".toList)] := by decide +kernel

example : ∃ m', provideTimestamps smallLib (DocumentMeta.ofSettings none .modeSafe Map.empty false) 1734960586 (some 1734872889) none = some m' :=
  Option.isSome_iff_exists.1 (C105_succeeds_partial _ (by decide) (by decide) rfl)

/-- a leap day -/
example : IsDate "2024-02-29".toList 2024 2 29 :=
  ⟨by decide, by decide, by decide, by decide, "2024".toList, "02".toList, "29".toList, by unfold Digits; decide, by unfold Digits; decide,
    by unfold Digits; decide, by decide⟩

example : IsTimeIn "10:00:00-0700".toList 10 0 0 (-25200) :=
  ⟨by decide, by decide, by decide, "10".toList, "00".toList, "00".toList, "07".toList, "00".toList, 7, 0, by unfold Digits; decide,
    by unfold Digits; decide, by unfold Digits; decide, by unfold Digits; decide, by unfold Digits; decide, by decide, .inr (by decide)⟩

/-- settings with a date and a time -/
def askedFor : DocumentMeta := DocumentMeta.ofSettings none .modeSafe
  ((Map.empty.insert "docdate" ⟨true, .string "2015-01-01"⟩).insert "doctime" ⟨true, .string "10:00:00-0700"⟩) false

example : askedFor.get "docdate" = some (.string (String.ofList "2015-01-01".toList)) ∧
    askedFor.get "doctime" = some (.string (String.ofList "10:00:00-0700".toList)) := by decide

/-- the date and the time are asked for on the command line (`time.rs:80-93`) -/
example : (datetimeAttrs smallLib askedFor 1734960586 (some 1734872889) none).map (fun l => l.take 4) =
    some [("docyear", "2015".toList), ("docdate", "2015-01-01".toList), ("doctime", "10:00:00-0700".toList),
      ("docdatetime", "2015-01-01 10:00:00-0700".toList)] := by decide +kernel

end Verif.Props
