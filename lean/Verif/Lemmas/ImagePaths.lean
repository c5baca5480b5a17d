import Verif.Model.Images
import Verif.Spec.Images
/-!
Paths of images: how they are joined and printed.
-/
namespace Verif.Images
open Verif.OpenTag Verif.IncludeProcess Verif.Path Verif.Split Verif.Spec.Images

/-- the component of a part -/
def compOf (w : Str) : Component := if w = ['.'] then .currentDir else if w = ['.', '.'] then .parentDir else .normal w

theorem component_part {w : Str} (h : Part w) : component w = [compOf w] := by
  obtain ⟨h0, _, _, h1, h2⟩ := h
  unfold component compOf
  rw [if_neg h0]
  split
  · rfl
  · split
    · rfl
    · rfl

theorem compOf_shown (w : Str) : (compOf w).display '/' = w ∧ (compOf w).sepAfter = true ∧ (∀ s, compOf w ≠ .uriScheme s) ∧
    compOf w ≠ .root ∧ ∀ s, compOf w ≠ .drivePrefix s := by
  unfold compOf
  split
  · rename_i h; subst h; simp [Component.display, Component.sepAfter]
  · split
    · rename_i h; subst h; simp [Component.display, Component.sepAfter]
    · simp [Component.display, Component.sepAfter]

theorem comps_parts {ws : List Str} (h : ∀ w ∈ ws, Part w) : ws.flatMap component = ws.map compOf := by
  induction ws with
  | nil => rfl
  | cons w ws ih =>
    rw [List.flatMap_cons, component_part (h w (by simp)), ih fun x hx => h x (by simp [hx])]
    rfl

theorem displayFrom_append {cs ds : List Component} (h : ∃ c, cs.getLast? = some c ∧ c.sepAfter = true) (hd : ds ≠ []) :
    displayFrom '/' (cs ++ ds) = displayFrom '/' cs ++ '/' :: displayFrom '/' ds := by
  induction cs with
  | nil => obtain ⟨c, hc, _⟩ := h; cases hc
  | cons a cs ih =>
    cases cs with
    | nil =>
      obtain ⟨c, hc, hs⟩ := h
      simp only [List.getLast?_singleton, Option.some.injEq] at hc
      subst hc
      obtain ⟨d, ds, rfl⟩ := List.exists_cons_of_ne_nil hd
      simp [displayFrom, hs]
    | cons b cs =>
      have := ih (by simpa [List.getLast?_cons_cons] using h)
      simp only [List.cons_append, displayFrom] at this ⊢
      rw [this]
      simp

theorem display_parts {ws : List Str} (h : ws ≠ []) : displayFrom '/' (ws.map compOf) = joinWith '/' ws := by
  induction ws with
  | nil => exact absurd rfl h
  | cons w ws ih =>
    cases ws with
    | nil => simp [displayFrom, joinWith, (compOf_shown w).1]
    | cons v ws =>
      have := ih (by simp)
      simp only [List.map_cons, displayFrom, joinWith] at this ⊢
      rw [this, (compOf_shown w).1, (compOf_shown w).2.1]
      simp

/-- a path text as it is parsed and printed -/
structure Printed (s : Str) (cs : List Component) : Prop where
  new : Path.new s = ⟨'/', cs⟩
  sep : fromOptionalSep s (some '/') = ⟨'/', cs⟩
  shown : displayFrom '/' cs = s
  last : ∃ c, cs.getLast? = some c ∧ c.sepAfter = true

theorem joinWith_mem {ws : List Str} {c : Char} (h : c ∈ joinWith '/' ws) : c = '/' ∨ ∃ w ∈ ws, c ∈ w := by
  induction ws with
  | nil => cases h
  | cons w ws ih =>
    cases ws with
    | nil => exact .inr ⟨w, by simp, h⟩
    | cons v ws =>
      simp only [joinWith, List.mem_append, List.mem_cons] at h
      rcases h with h | rfl | h
      · exact .inr ⟨w, by simp, h⟩
      · exact .inl rfl
      · rcases ih h with h | ⟨x, hx, h⟩
        · exact .inl h
        · exact .inr ⟨x, by simp [hx], h⟩

theorem parts_slash {ws : List Str} (h : ∀ w ∈ ws, Part w) : '\\' ∉ joinWith '/' ws := by
  intro hm
  rcases joinWith_mem hm with hm | ⟨w, hw, hm⟩
  · exact absurd hm (by decide)
  · exact (h w hw).2.2.1 hm

theorem parts_last {ws : List Str} (h : ws ≠ []) : ∃ c, (ws.map compOf).getLast? = some c ∧ c.sepAfter = true := by
  obtain ⟨ini, w, rfl⟩ := List.eq_nil_or_concat ws |>.resolve_left h
  exact ⟨compOf w, by simp, (compOf_shown w).2.1⟩

theorem parts_cons {ws : List Str} (h0 : ws ≠ []) (h : ∀ w ∈ ws, Part w) : ∃ c cs, joinWith '/' ws = c :: cs ∧ c ≠ '/' := by
  cases ws with
  | nil => exact absurd rfl h0
  | cons w ws =>
    obtain ⟨hw, hs, _⟩ := h w (by simp)
    obtain ⟨c, w, rfl⟩ := List.exists_cons_of_ne_nil hw
    have : c ≠ '/' := fun e => hs (by simp [e])
    cases ws with
    | nil => exact ⟨c, w, rfl, this⟩
    | cons v ws => exact ⟨c, w ++ '/' :: joinWith '/' (v :: ws), by simp [joinWith], this⟩

theorem new_of {s : Str} {cs : List Component} (hd : drivePrefixOf s = none) (hb : '\\' ∉ s) (h : components '/' s = cs) :
    Path.new s = ⟨'/', cs⟩ ∧ fromOptionalSep s (some '/') = ⟨'/', cs⟩ := by
  simp [Path.new, fromOptionalSep, hd, inferSeparator, hb, h]

theorem relative_printed {ws : List Str} (h0 : ws ≠ []) (h : ∀ w ∈ ws, Part w) (hd : ∀ c rest, joinWith '/' ws ≠ c :: ':' :: rest) :
    Printed (joinWith '/' ws) (ws.map compOf) := by
  have hc : components '/' (joinWith '/' ws) = ws.map compOf := by
    obtain ⟨c, cs, he, hs⟩ := parts_cons h0 h
    rw [he, components]
    simp only [hs, if_false]
    rw [← he, splitOn_joinWith _ _ h0 fun w hw => (h w hw).2.1, comps_parts h]
  have hdr : drivePrefixOf (joinWith '/' ws) = none := by
    unfold drivePrefixOf
    split
    · rename_i a b rest he
      rw [if_neg]
      intro hb
      simp only [Bool.and_eq_true, decide_eq_true_eq] at hb
      exact hd a rest (by rw [he, hb.1])
    · rfl
  obtain ⟨h1, h2⟩ := new_of hdr (parts_slash h) hc
  exact ⟨h1, h2, display_parts h0, parts_last h0⟩

theorem absolute_printed {ws : List Str} (h0 : ws ≠ []) (h : ∀ w ∈ ws, Part w) :
    Printed ('/' :: joinWith '/' ws) (.root :: ws.map compOf) := by
  have hc : components '/' ('/' :: joinWith '/' ws) = .root :: ws.map compOf := by
    rw [components]
    simp only [if_true]
    rw [splitOn_joinWith _ _ h0 fun w hw => (h w hw).2.1, comps_parts h]
  have hdr : drivePrefixOf ('/' :: joinWith '/' ws) = none := by
    unfold drivePrefixOf
    split
    · rename_i a b rest he
      injection he with h1 h2
      subst h1
      rw [if_neg (by simp [asciiAlpha])]
    · rfl
  obtain ⟨h1, h2⟩ := new_of hdr (by simp [parts_slash h]) hc
  refine ⟨h1, h2, ?_, ?_⟩
  · obtain ⟨w, ws, rfl⟩ := List.exists_cons_of_ne_nil h0
    have := display_parts h0
    simp only [List.map_cons, displayFrom] at this ⊢
    rw [this]
    simp [Component.display, Component.sepAfter]
  · obtain ⟨c, hc, hs⟩ := parts_last h0
    exact ⟨c, by rw [List.getLast?_cons, hc]; rfl, hs⟩

theorem remote_printed {ws : List Str} (h0 : ws ≠ []) (h : ∀ w ∈ ws, Part w) {sch : Str} (hsch : sch = "http".toList ∨ sch = "https".toList) :
    Printed (sch ++ "://".toList ++ joinWith '/' ws) (.uriScheme sch :: ws.map compOf) := by
  have e : sch ++ "://".toList ++ joinWith '/' ws = (sch ++ [':']) ++ '/' :: ([] ++ '/' :: joinWith '/' ws) := by simp
  have hn : '/' ∉ sch ++ [':'] ∧ '\\' ∉ sch ∧ component (sch ++ [':']) = [.uriScheme sch] := by
    rcases hsch with rfl | rfl <;> exact ⟨by decide, by decide, by decide⟩
  have hc : components '/' (sch ++ "://".toList ++ joinWith '/' ws) = .uriScheme sch :: ws.map compOf := by
    have hx : ∀ s : Str, s.head? ≠ some '/' → s ≠ [] → components '/' s = (splitOn '/' s).flatMap component := by
      intro s hs h0
      obtain ⟨c, s, rfl⟩ := List.exists_cons_of_ne_nil h0
      rw [components]
      have : c ≠ '/' := fun e => hs (by simp [e])
      simp [this]
    rw [hx _ (by rcases hsch with rfl | rfl <;> simp) (by rcases hsch with rfl | rfl <;> simp), e, splitOn_append _ _ _ hn.1,
      splitOn_append _ _ _ (by simp), splitOn_joinWith _ _ h0 fun w hw => (h w hw).2.1, List.flatMap_cons, List.flatMap_cons,
      hn.2.2, comps_parts h]
    rfl
  have hdr : drivePrefixOf (sch ++ "://".toList ++ joinWith '/' ws) = none := by
    rcases hsch with rfl | rfl <;> rfl
  obtain ⟨h1, h2⟩ := new_of hdr (by simp [hn.2.1, parts_slash h]) hc
  refine ⟨h1, h2, ?_, ?_⟩
  · obtain ⟨w, ws, rfl⟩ := List.exists_cons_of_ne_nil h0
    have := display_parts h0
    simp only [List.map_cons, displayFrom] at this ⊢
    rw [this]
    simp [Component.display, Component.sepAfter]
  · obtain ⟨c, hc, hs⟩ := parts_last h0
    exact ⟨c, by rw [List.getLast?_cons, hc]; rfl, hs⟩

theorem parts_relative {ws : List Str} (h0 : ws ≠ []) : (⟨'/', ws.map compOf⟩ : Path).isAbsolute = false := by
  obtain ⟨w, ws, rfl⟩ := List.exists_cons_of_ne_nil h0
  have := compOf_shown w
  simp only [Path.isAbsolute, List.map_cons]
  split <;> simp_all

/-- paths that are joined -/
theorem join_relative {d t : Str} {cs : List Component} {ws : List Str} (hd : Printed d cs) (h0 : ws ≠ []) (h : ∀ w ∈ ws, Part w)
    (ht : Printed t (ws.map compOf)) : Printed t (ws.map compOf) ∧ (⟨'/', cs⟩ : Path).push (Path.new t) = ⟨'/', cs ++ ws.map compOf⟩ ∧
      displayFrom '/' (cs ++ ws.map compOf) = d ++ '/' :: t := by
  refine ⟨ht, ?_, ?_⟩
  · rw [ht.new]
    simp [Path.push, parts_relative h0]
  · rw [displayFrom_append hd.last (by simpa using h0), hd.shown, ht.shown]

theorem join_absolute {t : Str} {cs ds : List Component} (ht : Printed t (.root :: ds)) :
    (⟨'/', cs⟩ : Path).push (Path.new t) = ⟨'/', .root :: ds⟩ := by
  rw [ht.new]
  simp [Path.push, Path.isAbsolute]

end Verif.Images
