import Verif.Spec.Media
import Verif.Lemmas.StartTag
import Verif.Lemmas.EmailRe
/-! Lemmas: addresses of videos. -/
namespace Verif.Media
open Verif.OpenTag Verif.StartTag Verif.Spec.Escape

/-- a parameter as it is written -/
def kv (p : Str × Str) : Str := p.1 ++ '=' :: p.2

/-- parameters as they are written, with this between them -/
def query (sep : Str) : List (Str × Str) → Str
  | [] => []
  | p :: ps => '?' :: kv p ++ ps.flatMap (sep ++ kv ·)

theorem query_snoc (sep : Str) (ps : List (Str × Str)) (p : Str × Str) :
    query sep (ps ++ [p]) = query sep ps ++ (if ps = [] then ['?'] else sep) ++ kv p := by
  cases ps with
  | nil => simp [query]
  | cons q ps => simp [query]

/-- the address so far: a path and parameters -/
def Has (u : Url) (path : Str) (ps : List (Str × Str)) : Prop := u = ⟨path ++ query "&amp;".toList ps, !ps.isEmpty⟩

theorem has_param {u : Url} {path : Str} {ps : List (Str × Str)} (h : Has u path ps) (k v : Str) : Has (u.param (k ++ '=' :: v)) path (ps ++ [(k, v)]) := by
  unfold Has at h ⊢
  subst h
  rw [query_snoc]
  cases ps with
  | nil => simp [Url.param, query, kv]
  | cons p ps => simp [Url.param, kv]

theorem has_named {u : Url} {path : Str} {ps : List (Str × Str)} (h : Has u path ps) (a : Attrs) (n : String) (k : Str) :
    Has (u.named a n (k ++ ['='])) path (ps ++ (a.named n).toList.map fun v => (k, v)) := by
  unfold Url.named
  cases a.named n with
  | none => simpa using h
  | some v => simpa using has_param h k v

theorem has_option {u : Url} {path : Str} {ps : List (Str × Str)} (h : Has u path ps) (a : Attrs) (n : String) (k v : Str) :
    Has (u.option a n (k ++ '=' :: v)) path (ps ++ if n ∈ a.options then [(k, v)] else []) := by
  unfold Url.option
  split
  · exact has_param h k v
  · simpa using h

/-! ### splitting -/

theorem splitOnce_some {c : Char} {s a b : Str} (h : splitOnce c s = some (a, b)) : s = a ++ c :: b ∧ c ∉ a := by
  unfold splitOnce at h
  split at h
  · cases h
  · rename_i x r hd
    cases h
    have hx : x = c := by
      have := List.head?_dropWhile_not (fun y => decide (y ≠ c)) s
      rw [hd] at this
      simpa using this
    subst hx
    refine ⟨?_, fun hc => ?_⟩
    · rw [← hd, List.takeWhile_append_dropWhile]
    · have := List.all_takeWhile (p := fun y => decide (y ≠ x)) (l := s)
      rw [List.all_eq_true] at this
      simpa using this _ hc

theorem splitOnce_none {c : Char} {s : Str} (h : splitOnce c s = none) : c ∉ s := by
  unfold splitOnce at h
  split at h
  · rename_i hd
    intro hc
    have h1 : s.takeWhile (fun y => decide (y ≠ c)) = s := by
      have := List.takeWhile_append_dropWhile (p := fun y => decide (y ≠ c)) (l := s)
      rw [hd, List.append_nil] at this
      exact this
    have := List.all_takeWhile (p := fun y => decide (y ≠ c)) (l := s)
    rw [h1, List.all_eq_true] at this
    simpa using this _ hc
  · cases h

/-- the parts with `c` between them -/
def join (c : Char) : List Str → Str
  | [] => []
  | [p] => p
  | p :: q :: ps => p ++ c :: join c (q :: ps)

theorem splitAll_ne (c : Char) (s : Str) : splitAll c s ≠ [] := by
  cases s with
  | nil => simp [splitAll]
  | cons x s =>
    rw [splitAll]
    split
    · simp
    · split <;> simp

theorem splitAll_join (c : Char) (s : Str) : join c (splitAll c s) = s := by
  induction s with
  | nil => rfl
  | cons x s ih =>
    rw [splitAll]
    split
    · rename_i h
      subst h
      cases hs : splitAll x s with
      | nil => exact absurd hs (splitAll_ne _ _)
      | cons p ps => rw [hs] at ih; simp [join, ih]
    · cases hs : splitAll c s with
      | nil => exact absurd hs (splitAll_ne _ _)
      | cons p ps =>
        rw [hs] at ih
        simp only
        cases ps with
        | nil => simp only [join] at ih ⊢; rw [ih]
        | cons q ps => simp only [join, List.cons_append] at ih ⊢; rw [ih]

theorem splitAll_first {c : Char} {s p : Str} {ps : List Str} (h : splitAll c s = p :: ps) : c ∉ p := by
  induction s generalizing p ps with
  | nil => simp [splitAll] at h; simp [h.1]
  | cons x s ih =>
    rw [splitAll] at h
    split at h
    · cases h; simp
    · rename_i hx
      cases hs : splitAll c s with
      | nil => exact absurd hs (splitAll_ne _ _)
      | cons q qs =>
        rw [hs] at h
        cases h
        simp only [List.mem_cons, not_or]
        exact ⟨fun h => hx h.symm, ih hs⟩

theorem splitAll_single {c : Char} {s p : Str} (h : splitAll c s = [p]) : c ∉ s := by
  have h1 := splitAll_join c s
  rw [h] at h1
  simp only [join] at h1
  subst h1
  exact splitAll_first h

theorem fold_ids (ids : List Str) (u : Url) : ids.foldl (fun u id => { u with buf := u.buf ++ ',' :: id }) u = ⟨u.buf ++ ids.flatMap (',' :: ·), u.pushed⟩ := by
  induction ids generalizing u with
  | nil => simp
  | cons i ids ih => rw [List.foldl_cons, ih]; simp

theorem join_cons (c : Char) (p : Str) (ps : List Str) : join c (p :: ps) = p ++ ps.flatMap (c :: ·) := by
  induction ps generalizing p with
  | nil => simp [join]
  | cons q ps ih => rw [join, ih]; simp

/-! ### the target -/

theorem target_has (p : Provider) (target : Str) (a : Attrs) :
    ∃ id ps, Shows p target id ∧ ps.length ≤ 1 ∧ Has (targetUrl p target a ⟨p.start, false⟩) (p.start ++ id) ps ∧
      ∀ k v, (String.toList k, v) ∈ ps ↔
        ((p = .youTube ∧ ((k = "list" ∧ ∃ id, target = id ++ '/' :: v ∧ '/' ∉ id) ∨
            (k = "playlist" ∧ '/' ∉ target ∧ (',' ∈ target ∧ v = target ∨ ',' ∉ target ∧ ∃ l, a.named "playlist" = some l ∧ v = target ++ ',' :: l)) ∨
            (k = "h" ∧ '/' ∉ target ∧ ',' ∉ target ∧ a.named "playlist" = none ∧ a.named "hash" = some v))) ∨
          (p = .vimeo ∧ k = "h" ∧ ((∃ id, target = id ++ '/' :: v ∧ '/' ∉ id) ∨ ('/' ∉ target ∧ a.named "hash" = some v))) ∨
          (p = .wistia ∧ k = "h" ∧ a.named "hash" = some v)) := by
  have tl : ∀ (k s : String), k.toList = s.toList ↔ k = s := fun k s => String.toList_inj
  have slash_unique : ∀ {id h id' h' : Str}, id ++ '/' :: h = id' ++ '/' :: h' → '/' ∉ id → '/' ∉ id' → h = h' := by
    intro id
    induction id with
    | nil =>
      intro h id' h' e h1 h2
      cases id' with
      | nil => simpa using e
      | cons x id' =>
        simp only [List.nil_append, List.cons_append, List.cons.injEq] at e
        exact absurd (by simp [← e.1]) h2
    | cons x id ih =>
      intro h id' h' e h1 h2
      cases id' with
      | nil =>
        simp only [List.nil_append, List.cons_append, List.cons.injEq] at e
        exact absurd (by simp [e.1]) h1
      | cons y id' =>
        simp only [List.cons_append, List.cons.injEq] at e
        exact ih e.2 (fun h => h1 (by simp [h])) (fun h => h2 (by simp [h]))
  have alone : (p = .wistia ∨ '/' ∉ target) → (p = .youTube → ',' ∉ target ∧ a.named "playlist" = none) →
      targetUrl p target a ⟨p.start, false⟩ = (⟨p.start ++ target, false⟩ : Url).named a "hash" "h=".toList := by
    intro h1 h2
    unfold targetUrl
    have hs : ∀ param x, p.slash = some param → splitOnce '/' target = some x → False := by
      intro param x e1 e2
      rcases h1 with rfl | h1
      · cases e1
      · exact h1 (by rw [(splitOnce_some (a := x.1) (b := x.2) e2).1]; simp)
    split
    · rename_i e1 e2
      exact (hs _ _ e1 e2).elim
    · by_cases hp : p = .youTube
      · subst hp
        obtain ⟨h2, h3⟩ := h2 rfl
        simp [h2, h3]
      · simp [hp]
  have hashed : (p = .wistia ∨ '/' ∉ target) → (p = .youTube → ',' ∉ target ∧ a.named "playlist" = none) →
      Has (targetUrl p target a ⟨p.start, false⟩) (p.start ++ target) ((a.named "hash").toList.map fun v => ("h".toList, v)) := by
    intro h1 h2
    rw [alone h1 h2]
    have : Has ⟨p.start ++ target, false⟩ (p.start ++ target) [] := by simp [Has, query]
    have := has_named this a "hash" "h".toList
    simpa using this
  have hmem : ∀ (k : String) (v : Str), (String.toList k, v) ∈ ((a.named "hash").toList.map fun v => ("h".toList, v)) ↔ k = "h" ∧ a.named "hash" = some v := by
    intro k v
    cases a.named "hash" with
    | none => simp
    | some w =>
      simp only [Option.toList, List.map_cons, List.map_nil, List.mem_singleton, Prod.mk.injEq, tl, Option.some.injEq]
      exact ⟨fun h => ⟨h.1, h.2.symm⟩, fun h => ⟨h.1, h.2.symm⟩⟩
  have hlen : ((a.named "hash").toList.map fun v => ("h".toList, v)).length ≤ 1 := by
    cases a.named "hash" <;> simp
  cases p with
  | wistia =>
    refine ⟨target, _, .alone (.inl rfl) nofun, hlen, hashed (.inl rfl) nofun, fun k v => ?_⟩
    rw [hmem]
    simp
  | vimeo =>
    cases hs : splitOnce '/' target with
    | none =>
      have hn := splitOnce_none hs
      refine ⟨target, _, .alone (.inr hn) nofun, hlen, hashed (.inr hn) nofun, fun k v => ?_⟩
      rw [hmem]
      have : ∀ id, target ≠ id ++ '/' :: v := by rintro id rfl; simp at hn
      simp [hn, this]
    | some x =>
      obtain ⟨id, h⟩ := x
      obtain ⟨rfl, hn⟩ := splitOnce_some hs
      refine ⟨id, [("h".toList, h)], .slash nofun hn, by simp, ?_, fun k v => ?_⟩
      · unfold targetUrl
        rw [hs]
        simp [Has, query, Provider.slash, kv]
      · simp only [List.mem_singleton, Prod.mk.injEq, tl]
        constructor
        · rintro ⟨rfl, rfl⟩
          exact .inr (.inl ⟨trivial, rfl, .inl ⟨id, rfl, hn⟩⟩)
        · rintro (⟨h, _⟩ | ⟨_, rfl, ⟨id', e, hn'⟩ | ⟨hc, _⟩⟩ | ⟨h, _⟩)
          · cases h
          · exact ⟨rfl, (slash_unique e hn hn').symm⟩
          · simp at hc
          · cases h
  | youTube =>
    cases hs : splitOnce '/' target with
    | some x =>
      obtain ⟨id, h⟩ := x
      obtain ⟨rfl, hn⟩ := splitOnce_some hs
      refine ⟨id, [("list".toList, h)], .slash nofun hn, by simp, ?_, fun k v => ?_⟩
      · unfold targetUrl
        rw [hs]
        simp [Has, query, Provider.slash, kv]
      · simp only [List.mem_singleton, Prod.mk.injEq, tl]
        constructor
        · rintro ⟨rfl, rfl⟩
          exact .inl ⟨trivial, .inl ⟨rfl, id, rfl, hn⟩⟩
        · rintro (⟨_, ⟨rfl, id', e, hn'⟩ | ⟨_, hc, _⟩ | ⟨_, hc, _⟩⟩ | ⟨h, _⟩ | ⟨h, _⟩)
          · exact ⟨rfl, (slash_unique e hn hn').symm⟩
          · simp at hc
          · simp at hc
          · cases h
          · cases h
    | none =>
      have hn := splitOnce_none hs
      have hnl : ∀ v id, target ≠ id ++ '/' :: v := by rintro v id rfl; simp at hn
      by_cases hc : ',' ∈ target
      · cases hsp : splitAll ',' target with
        | nil => exact absurd hsp (splitAll_ne _ _)
        | cons id ids =>
          have hid := splitAll_first hsp
          have hj := splitAll_join ',' target
          rw [hsp] at hj
          refine ⟨id, [("playlist".toList, target)], ?_, by simp, ?_, fun k v => ?_⟩
          · cases ids with
            | nil => exact absurd hc (splitAll_single hsp)
            | cons q qs =>
              rw [join] at hj
              rw [← hj] at hn ⊢
              refine .first (fun h => hn ?_) hid
              rcases List.mem_append.1 h with h | h <;> simp [h]
          · unfold targetUrl
            rw [hs]
            simp only [Provider.slash]
            rw [if_pos (by simp [hc]), hsp, playlist, fold_ids]
            rw [join_cons] at hj
            simp [Has, query, kv, ← hj]
          · simp only [List.mem_singleton, Prod.mk.injEq, tl]
            simp [hn, hnl, hc]
      · cases hp : a.named "playlist" with
        | none =>
          refine ⟨target, _, .alone (.inr hn) (fun _ => hc), hlen, hashed (.inr hn) (fun _ => ⟨hc, hp⟩), fun k v => ?_⟩
          rw [hmem]
          simp [hn, hnl, hc]
        | some l =>
          refine ⟨target, [("playlist".toList, target ++ ',' :: l)], .alone (.inr hn) (fun _ => hc), by simp, ?_, fun k v => ?_⟩
          · unfold targetUrl
            rw [hs]
            simp only [Provider.slash]
            rw [if_neg (by simp [hc])]
            simp [hp, Has, query, kv]
          · simp only [List.mem_singleton, Prod.mk.injEq, tl]
            simp [hn, hnl, hc]

/-! ### the parameters -/

/-- a parameter that is there when an option is set -/
abbrev ifOpt (a : Attrs) (n : String) (k : String) (v : Str) : List (Str × Str) := if n ∈ a.options then [(k.toList, v)] else []

/-- a parameter that is there when an attribute is set -/
abbrev ifNamed (a : Attrs) (n : String) (k : String) : List (Str × Str) := (a.named n).toList.map fun v => (k.toList, v)

theorem mem_ifOpt {a : Attrs} {n key k : String} {v w : Str} : (k.toList, v) ∈ ifOpt a n key w ↔ k = key ∧ n ∈ a.options ∧ v = w := by
  unfold ifOpt
  split
  · rename_i h
    simp [String.toList_inj, h]
  · rename_i h
    simp [h]

theorem mem_ifNamed {a : Attrs} {n key k : String} {v : Str} : (k.toList, v) ∈ ifNamed a n key ↔ k = key ∧ a.named n = some v := by
  unfold ifNamed
  cases a.named n with
  | none => simp
  | some w =>
    simp only [Option.toList, List.map_cons, List.map_nil, List.mem_singleton, Prod.mk.injEq, String.toList_inj, Option.some.injEq]
    exact ⟨fun h => ⟨h.1, h.2.symm⟩, fun h => ⟨h.1, h.2.symm⟩⟩

theorem keys_ifOpt (a : Attrs) (n key : String) (w : Str) : ((ifOpt a n key w).map (·.1)).Sublist [key.toList] := by
  unfold ifOpt
  split <;> simp

theorem keys_ifNamed (a : Attrs) (n key : String) : ((ifNamed a n key).map (·.1)).Sublist [key.toList] := by
  unfold ifNamed
  cases a.named n <;> simp

/-- the parameters for the options -/
def pairPs (a : Attrs) : Provider → List (Str × Str)
  | .youTube => ifOpt a "autoplay" "autoplay" ['1'] ++ ifOpt a "muted" "mute" ['1'] ++ ifOpt a "modest" "modestbranding" ['1'] ++ ifOpt a "loop" "loop" ['1']
  | .vimeo => ifOpt a "autoplay" "autoplay" ['1'] ++ ifOpt a "muted" "muted" ['1'] ++ ifOpt a "loop" "loop" ['1']
  | .wistia => ifOpt a "autoplay" "autoPlay" "true".toList ++ ifOpt a "muted" "muted" "true".toList ++
      ifOpt a "loop" "endVideoBehavior" "loop".toList ++ ifOpt a "reset" "endVideoBehavior" "reset".toList

theorem pairs_has {u : Url} {path : Str} {ps : List (Str × Str)} (h : Has u path ps) (a : Attrs) (p : Provider) :
    Has (p.pairs.foldl (fun u x => u.option a x.1 x.2) u) path (ps ++ pairPs a p) := by
  cases p <;> simp only [Provider.pairs, List.foldl_cons, List.foldl_nil, pairPs, ← List.append_assoc]
  · exact has_option (has_option (has_option (has_option h a "autoplay" "autoplay".toList ['1']) a "muted" "mute".toList ['1'])
      a "modest" "modestbranding".toList ['1']) a "loop" "loop".toList ['1']
  · exact has_option (has_option (has_option h a "autoplay" "autoplay".toList ['1']) a "muted" "muted".toList ['1'])
      a "loop" "loop".toList ['1']
  · exact has_option (has_option (has_option (has_option h a "autoplay" "autoPlay".toList "true".toList) a "muted" "muted".toList "true".toList)
      a "loop" "endVideoBehavior".toList "loop".toList) a "reset" "endVideoBehavior".toList "reset".toList

/-- the list, or the video again -/
def lastPs (target : Str) (a : Attrs) : List (Str × Str) :=
  match a.named "list" with
  | some list => [("list".toList, list)]
  | none => if "loop" ∈ a.options && !(target.contains '/' || target.contains ',') then [("playlist".toList, target)] else []

/-- what else YouTube is told -/
def morePs (target : Str) (a : Attrs) : List (Str × Str) :=
  [("rel".toList, if "related" ∈ a.options then ['1'] else ['0'])] ++ ifNamed a "theme" "theme" ++ ifNamed a "lang" "hl" ++ ifNamed a "end" "end" ++
    ifOpt a "nofullscreen" "fs" ['0'] ++ ifOpt a "nocontrols" "controls" ['0'] ++ lastPs target a

theorem youTube_has {u : Url} {path : Str} {ps : List (Str × Str)} (h : Has u path ps) (target : Str) (a : Attrs) :
    Has (youTubeUrl target a u) path (ps ++ morePs target a) := by
  have h1 := has_option (has_option (has_named (has_named (has_named
    (has_param h "rel".toList (if "related" ∈ a.options then ['1'] else ['0'])) a "theme" "theme".toList) a "lang" "hl".toList)
    a "end" "end".toList) a "nofullscreen" "fs".toList ['0']) a "nocontrols" "controls".toList ['0']
  unfold youTubeUrl morePs lastPs
  simp only [← List.append_assoc]
  cases a.named "list" with
  | some list => exact has_param h1 "list".toList list
  | none =>
    simp only
    split
    · exact has_param h1 "playlist".toList target
    · rw [List.append_nil]; exact h1

/-- where to start, when that is a parameter -/
def startPs (a : Attrs) : Provider → List (Str × Str)
  | .youTube => ifNamed a "start" "start"
  | .vimeo => []
  | .wistia => ifNamed a "start" "time"

/-- where to start, when it is not -/
def fragOf (a : Attrs) : Provider → Option Str
  | .vimeo => (a.named "start").map ("at=".toList ++ ·)
  | _ => none

/-- what is after `#` -/
def hashed (f : Option Str) : Str := (f.map ('#' :: ·)).getD []

theorem start_has {u : Url} {path : Str} {ps : List (Str × Str)} (h : Has u path ps) (p : Provider) (a : Attrs) :
    (startUrl p a u).buf = path ++ query "&amp;".toList (ps ++ startPs a p) ++ hashed (fragOf a p) := by
  unfold startUrl
  cases hs : a.named "start" with
  | none =>
    rw [show u.buf = _ from congrArg Url.buf h]
    cases p <;> simp [startPs, fragOf, ifNamed, hs, hashed]
  | some s =>
    cases p with
    | youTube =>
      have := has_param h "start".toList s
      have := congrArg Url.buf this
      simpa [startPs, fragOf, ifNamed, hs, hashed] using this
    | wistia =>
      have := has_param h "time".toList s
      have := congrArg Url.buf this
      simpa [startPs, fragOf, ifNamed, hs, hashed] using this
    | vimeo =>
      rw [show u.buf = _ from congrArg Url.buf h]
      simp [startPs, fragOf, hs, hashed]

/-- everything after the target -/
def restPs (target : Str) (a : Attrs) (p : Provider) : List (Str × Str) :=
  pairPs a p ++ (if p = .youTube then morePs target a else []) ++ startPs a p

theorem serviceUrl_eq {p : Provider} {target : Str} {a : Attrs} {path : Str} {ps : List (Str × Str)} (h : Has (targetUrl p target a ⟨p.start, false⟩) path ps) :
    serviceUrl p target a = path ++ query "&amp;".toList (ps ++ restPs target a p) ++ hashed (fragOf a p) := by
  unfold serviceUrl restPs
  simp only [← List.append_assoc]
  refine start_has ?_ p a
  split
  · exact youTube_has (pairs_has h a p) target a
  · rw [List.append_nil]; exact pairs_has h a p

theorem mem_last {target : Str} {a : Attrs} {k : String} {v : Str} : (k.toList, v) ∈ lastPs target a ↔
    (k = "list" ∧ a.named "list" = some v) ∨ (k = "playlist" ∧ v = target ∧ '/' ∉ target ∧ ',' ∉ target ∧ "loop" ∈ a.options ∧ a.named "list" = none) := by
  unfold lastPs
  cases a.named "list" with
  | some l =>
    simp only [List.mem_singleton, Prod.mk.injEq, String.toList_inj, Option.some.injEq, reduceCtorEq, and_false, or_false]
    exact ⟨fun h => ⟨h.1, h.2.symm⟩, fun h => ⟨h.1, h.2.symm⟩⟩
  | none =>
    simp only [reduceCtorEq, and_false, false_or, and_true]
    split
    · rename_i h
      simp only [Bool.and_eq_true, decide_eq_true_eq, Bool.not_eq_true', Bool.or_eq_false_iff, List.contains_eq_mem, decide_eq_false_iff_not] at h
      rw [List.mem_singleton, Prod.mk.injEq, String.toList_inj]
      simp [h]
    · rename_i h
      simp only [Bool.and_eq_true, decide_eq_true_eq, Bool.not_eq_true', Bool.or_eq_false_iff, List.contains_eq_mem, decide_eq_false_iff_not] at h
      simp only [List.not_mem_nil, false_iff]
      rintro ⟨_, _, h1, h2, h3⟩
      exact h ⟨h3, h1, h2⟩

theorem wanted_iff (p : Provider) (target : Str) (a : Attrs) :
    ∃ id ps, Shows p target id ∧ ps.length ≤ 1 ∧ Has (targetUrl p target a ⟨p.start, false⟩) (p.start ++ id) ps ∧
      (∀ k v, (String.toList k, v) ∈ ps → k = "h" ∨ (p = .youTube ∧ k = "list" ∧ '/' ∈ target) ∨
        (p = .youTube ∧ k = "playlist" ∧ '/' ∉ target ∧ (',' ∈ target ∨ a.named "playlist" ≠ none))) ∧
      ∀ k v, (String.toList k, v) ∈ ps ++ restPs target a p ↔ Wanted target a p k v := by
  obtain ⟨id, ps, h1, h2, h3, h4⟩ := target_has p target a
  refine ⟨id, ps, h1, h2, h3, fun k v h => ?_, fun k v => ?_⟩
  · rcases (h4 k v).1 h with ⟨rfl, ⟨rfl, i, e, hi⟩ | ⟨rfl, hs, ⟨hc, rfl⟩ | ⟨hc, l, hl, rfl⟩⟩ | ⟨rfl, hs, hc, hp, hh⟩⟩ | ⟨rfl, rfl, _⟩ | ⟨rfl, rfl, hh⟩
    · exact .inr (.inl ⟨rfl, rfl, by rw [e]; simp⟩)
    · exact .inr (.inr ⟨rfl, rfl, hs, .inl hc⟩)
    · exact .inr (.inr ⟨rfl, rfl, hs, .inr (by rw [hl]; nofun)⟩)
    · exact .inl rfl
    · exact .inl rfl
    · exact .inl rfl
  have hrel : (k.toList, v) ∈ [("rel".toList, if "related" ∈ a.options then ['1'] else ['0'])] ↔
      k = "rel" ∧ (("related" ∈ a.options ∧ v = ['1']) ∨ ("related" ∉ a.options ∧ v = ['0'])) := by
    rw [List.mem_singleton, Prod.mk.injEq, String.toList_inj]
    split <;> simp [*]
  rw [List.mem_append, h4]
  constructor
  · rintro (h | h)
    · rcases h with ⟨rfl, ⟨rfl, i, e, hi⟩ | ⟨rfl, hs, ⟨hc, rfl⟩ | ⟨hc, l, hl, rfl⟩⟩ | ⟨rfl, hs, hc, hp, hh⟩⟩ | ⟨rfl, rfl, ⟨i, e, hi⟩ | ⟨hs, hh⟩⟩ | ⟨rfl, rfl, hh⟩
      · exact .list e hi
      · exact .ids hs hc
      · exact .playlist hs hc hl
      · exact .hashYouTube hs hc hp hh
      · exact .hash e hi
      · exact .hashNamed hs hh
      · exact .hashWistia hh
    · cases p with
      | youTube =>
        simp only [restPs, pairPs, morePs, startPs, if_true, List.mem_append, mem_ifOpt, mem_ifNamed, mem_last, hrel] at h
        rcases h with ((((⟨rfl, h, rfl⟩ | ⟨rfl, h, rfl⟩) | ⟨rfl, h, rfl⟩) | ⟨rfl, h, rfl⟩) |
          (((((⟨rfl, ⟨h, rfl⟩ | ⟨h, rfl⟩⟩ | ⟨rfl, h⟩) | ⟨rfl, h⟩) | ⟨rfl, h⟩) | ⟨rfl, h, rfl⟩) | ⟨rfl, h, rfl⟩) |
            ⟨rfl, h⟩ | ⟨rfl, rfl, hs, hc, ho, hl⟩) | ⟨rfl, h⟩
        · exact .autoplay nofun h
        · exact .mute h
        · exact .modest h
        · exact .loop nofun h
        · exact .related h
        · exact .unrelated h
        · exact .theme h
        · exact .lang h
        · exact .end_ h
        · exact .small h
        · exact .nocontrols h
        · exact .listNamed h
        · exact .again hs hc ho hl
        · exact .start h
      | vimeo =>
        simp only [restPs, pairPs, startPs, reduceCtorEq, if_false, List.append_nil, List.mem_append, mem_ifOpt] at h
        rcases h with (⟨rfl, h, rfl⟩ | ⟨rfl, h, rfl⟩) | ⟨rfl, h, rfl⟩
        · exact .autoplay nofun h
        · exact .mutedVimeo h
        · exact .loop nofun h
      | wistia =>
        simp only [restPs, pairPs, startPs, reduceCtorEq, if_false, List.append_nil, List.mem_append, mem_ifOpt, mem_ifNamed] at h
        rcases h with (((⟨rfl, h, rfl⟩ | ⟨rfl, h, rfl⟩) | ⟨rfl, h, rfl⟩) | ⟨rfl, h, rfl⟩) | ⟨rfl, h⟩
        · exact .autoPlay h
        · exact .muted h
        · exact .loopWistia h
        · exact .reset h
        · exact .time h
  · intro h
    cases h with
    | list e hi => exact .inl (.inl ⟨rfl, .inl ⟨rfl, _, e, hi⟩⟩)
    | ids hs hc => exact .inl (.inl ⟨rfl, .inr (.inl ⟨rfl, hs, .inl ⟨hc, rfl⟩⟩)⟩)
    | playlist hs hc hl => exact .inl (.inl ⟨rfl, .inr (.inl ⟨rfl, hs, .inr ⟨hc, _, hl, rfl⟩⟩)⟩)
    | hashYouTube hs hc hp hh => exact .inl (.inl ⟨rfl, .inr (.inr ⟨rfl, hs, hc, hp, hh⟩)⟩)
    | hash e hi => exact .inl (.inr (.inl ⟨rfl, rfl, .inl ⟨_, e, hi⟩⟩))
    | hashNamed hs hh => exact .inl (.inr (.inl ⟨rfl, rfl, .inr ⟨hs, hh⟩⟩))
    | hashWistia hh => exact .inl (.inr (.inr ⟨rfl, rfl, hh⟩))
    | autoplay hp ho =>
      refine .inr ?_
      cases p with
      | wistia => exact absurd rfl hp
      | youTube => simp [restPs, pairPs, mem_ifOpt, ho]
      | vimeo => simp [restPs, pairPs, mem_ifOpt, ho]
    | loop hp ho =>
      refine .inr ?_
      cases p with
      | wistia => exact absurd rfl hp
      | youTube => simp [restPs, pairPs, mem_ifOpt, ho]
      | vimeo => simp [restPs, pairPs, mem_ifOpt, ho]
    | listNamed h =>
      refine .inr ?_
      simp only [restPs, morePs, if_true, List.mem_append, mem_last]
      simp [h]
    | again hs hc ho hl =>
      refine .inr ?_
      simp only [restPs, morePs, if_true, List.mem_append, mem_last]
      simp [hs, hc, ho, hl]
    | related h | unrelated h =>
      refine .inr ?_
      simp only [restPs, morePs, if_true, List.mem_append, hrel]
      simp [h]
    | theme h | lang h | end_ h | start h =>
      refine .inr ?_
      simp only [restPs, morePs, startPs, if_true, List.mem_append, mem_ifNamed]
      simp [h]
    | time h =>
      refine .inr ?_
      simp only [restPs, startPs, List.mem_append, mem_ifNamed]
      simp [h]
    | _ h =>
      refine .inr ?_
      simp only [restPs, pairPs, morePs, if_true, List.mem_append, mem_ifOpt]
      simp [h]

/-! ### reading addresses -/

theorem cut_append {c : Char} {a : Str} (h : c ∉ a) (b : Str) : cut c (a ++ c :: b) = (a, some b) := by
  induction a with
  | nil => simp [cut]
  | cons x a ih =>
    have h1 : x ≠ c := fun e => h (by simp [e])
    have h2 := ih fun hm => h (by simp [hm])
    simp [cut, h1, h2]

theorem cut_none {c : Char} {a : Str} (h : c ∉ a) : cut c a = (a, none) := by
  induction a with
  | nil => simp [cut]
  | cons x a ih =>
    have h1 : x ≠ c := fun e => h (by simp [e])
    have h2 := ih fun hm => h (by simp [hm])
    simp [cut, h1, h2]

theorem parts_none {c : Char} {a : Str} (h : c ∉ a) : parts c a = [a] := by
  induction a with
  | nil => rfl
  | cons x a ih =>
    have h1 : x ≠ c := fun e => h (by simp [e])
    have h2 := ih fun hm => h (by simp [hm])
    simp [parts, h1, h2]

theorem parts_append {c : Char} {a : Str} (h : c ∉ a) (b : Str) : parts c (a ++ c :: b) = a :: parts c b := by
  induction a with
  | nil => simp [parts]
  | cons x a ih =>
    have h1 : x ≠ c := fun e => h (by simp [e])
    have h2 := ih fun hm => h (by simp [hm])
    simp [parts, h1, h2]

/-- a parameter that can be read again -/
def CleanPair (p : Str × Str) : Prop := Clean p.1 ∧ '=' ∉ p.1 ∧ Clean p.2

theorem CleanPair.kv {p : Str × Str} (h : CleanPair p) : Clean (kv p) := by
  intro c hc
  rw [Media.kv, List.mem_append, List.mem_cons] at hc
  rcases hc with hc | rfl | hc
  · exact h.1 c hc
  · decide
  · exact h.2.2 c hc

theorem Clean.not_mem {s : Str} (h : Clean s) : '"' ∉ s ∧ '&' ∉ s ∧ '#' ∉ s ∧ '?' ∉ s :=
  ⟨fun hc => h _ hc (by decide), fun hc => h _ hc (by decide), fun hc => h _ hc (by decide), fun hc => h _ hc (by decide)⟩

theorem parts_query {p : Str × Str} {ps : List (Str × Str)} (h : ∀ q ∈ p :: ps, CleanPair q) :
    parts '&' (kv p ++ ps.flatMap (['&'] ++ kv ·)) = (p :: ps).map kv := by
  induction ps generalizing p with
  | nil => simp [parts_none ((h p (by simp)).kv.not_mem.2.1)]
  | cons q ps ih =>
    have h1 := ih (p := q) fun r hr => h r (by simp at hr ⊢; exact .inr hr)
    simp only [List.flatMap_cons, List.append_assoc, List.cons_append, List.nil_append] at h1 ⊢
    rw [parts_append ((h p (by simp)).kv.not_mem.2.1), h1]
    rfl

theorem mem_query {sep : Str} {ps : List (Str × Str)} {c : Char} (h : c ∈ query sep ps) : c = '?' ∨ c ∈ sep ∨ ∃ p ∈ ps, c ∈ kv p := by
  cases ps with
  | nil => cases h
  | cons p ps =>
    simp only [query, List.cons_append, List.mem_cons, List.mem_append, List.mem_flatMap] at h
    rcases h with h | h | ⟨q, hq, h | h⟩
    · exact .inl h
    · exact .inr (.inr ⟨p, by simp, h⟩)
    · exact .inr (.inl h)
    · exact .inr (.inr ⟨q, by simp [hq], h⟩)

theorem read_address {path : Str} {ps : List (Str × Str)} {f : Option Str} (hp : Clean path) (hps : ∀ q ∈ ps, CleanPair q) :
    readAddress (path ++ query ['&'] ps ++ hashed f) = ⟨path, ps, f⟩ := by
  have hq : '#' ∉ path ++ query ['&'] ps := by
    intro h
    rcases List.mem_append.1 h with h | h
    · exact hp.not_mem.2.2.1 h
    · rcases mem_query h with h | h | ⟨q, hq, h⟩
      · exact absurd h (by decide)
      · exact absurd h (by decide)
      · exact (hps q hq).kv.not_mem.2.2.1 h
  have hc : cut '#' (path ++ query ['&'] ps ++ hashed f) = (path ++ query ['&'] ps, f) := by
    cases f with
    | none => rw [show hashed none = [] from rfl, List.append_nil, cut_none hq]
    | some f => exact cut_append hq f
  unfold readAddress
  rw [hc]
  simp only
  cases ps with
  | nil => simp [query, cut_none hp.not_mem.2.2.2]
  | cons p ps =>
    have : path ++ query ['&'] (p :: ps) = path ++ '?' :: (kv p ++ ps.flatMap (['&'] ++ kv ·)) := by simp [query]
    rw [this, cut_append hp.not_mem.2.2.2]
    simp only
    rw [parts_query hps, List.map_map]
    congr 1
    conv => rhs; rw [← List.map_id (p :: ps)]
    refine List.map_congr_left fun q hq => ?_
    simp only [Function.comp, kv]
    rw [cut_append (hps q hq).2.1]
    rfl

theorem unescape_amp (s : Str) : unescape ("&amp;".toList ++ s) = '&' :: unescape s := by
  simp [unescape]

theorem unescape_query {path : Str} {ps : List (Str × Str)} {f : Str} (hp : '&' ∉ path) (hps : ∀ q ∈ ps, CleanPair q) (hf : '&' ∉ f) :
    unescape (path ++ query "&amp;".toList ps ++ f) = path ++ query ['&'] ps ++ f := by
  rw [List.append_assoc, unescape_append hp, List.append_assoc]
  congr 1
  cases ps with
  | nil => simp [query, unescape_plain hf]
  | cons p ps =>
    have hk : '&' ∉ '?' :: kv p := by
      simp only [List.mem_cons, not_or]
      exact ⟨by decide, (hps p (by simp)).kv.not_mem.2.1⟩
    rw [query, query, List.append_assoc, unescape_append hk, List.append_assoc]
    congr 1
    replace hps : ∀ q ∈ ps, CleanPair q := fun q hq => hps q (by simp [hq])
    clear hk
    induction ps with
    | nil => simpa using unescape_plain hf
    | cons q ps ih =>
      rw [List.flatMap_cons, List.flatMap_cons, List.append_assoc, List.append_assoc, unescape_amp,
        unescape_append ((hps q (by simp)).kv.not_mem.2.1), List.append_assoc, ih fun r hr => hps r (by simp [hr])]
      simp

/-! ### attributes without a value -/

/-- an attribute without a value, as it is written -/
def blank (n : Str) : Str := ' ' :: n

/-- an attribute with or without a value, as it is written -/
def put : Str × Option Str → Str
  | (n, some v) => written (n, v)
  | (n, none) => blank n

/-- where an attribute may follow -/
def Ready (r : Reader) : Prop := r.state = .tagName ∨ r.state = .afterQuoted ∨ r.state = .attrName

theorem read_blank_name {r : Reader} (hr : Ready r) {n : Str} (hne : n ≠ []) (hn : ∀ c ∈ n, nameChar c = true) :
    r.read (blank n) = { r with state := .attrName, attrs := r.attrs ++ [(n, [])] } := by
  obtain ⟨c, n, rfl⟩ := List.exists_cons_of_ne_nil hne
  have hc := hn c (by simp)
  simp only [nameChar, Bool.and_eq_true, Bool.not_eq_true', decide_eq_true_eq] at hc
  obtain ⟨⟨⟨h1, h2⟩, h3⟩, h4⟩ := hc
  have s2 : (r.step ' ').step c = { r with state := .attrName, attrs := r.attrs ++ [([c], [])] } := by
    rcases hr with hr | hr | hr <;> simp [Reader.step, hr, Reader.before, space, Reader.start] <;> simp [Reader.step, Reader.before, Reader.start, h1, h2, h3, h4, space] <;>
      simp_all [space]
  rw [blank, read_cons, read_cons, s2, read_name n _ r.attrs [c] (fun d hd => hn d (by simp [hd])) rfl rfl]
  rfl

theorem read_put {r : Reader} (hr : Ready r) {p : Str × Option Str} (hne : p.1 ≠ []) (hn : ∀ c ∈ p.1, nameChar c = true) (hv : ∀ v, p.2 = some v → '"' ∉ v) :
    ∃ s, r.read (put p) = { r with state := s, attrs := r.attrs ++ [(p.1, p.2.getD [])] } ∧ (s = .afterQuoted ∨ s = .attrName) := by
  obtain ⟨n, v⟩ := p
  cases v with
  | none => exact ⟨.attrName, read_blank_name hr hne hn, .inr rfl⟩
  | some v =>
    refine ⟨.afterQuoted, ?_, .inl rfl⟩
    have : put (n, some v) = blank n ++ ('=' :: '"' :: (v ++ ['"'])) := by simp [put, written, blank]
    rw [this, read_append, read_blank_name hr hne hn, read_cons, read_cons]
    have s3 : ∀ x : Reader, x.state = .attrName → (x.step '=').step '"' = { x with state := .double } := by
      intro x hx
      simp [Reader.step, hx, space]
    rw [s3 _ rfl, read_append, read_value v _ r.attrs n [] (hv v rfl) rfl rfl]
    simp [Reader.read, Reader.step]

theorem read_puts : ∀ (l : List (Str × Option Str)) {r : Reader}, Ready r →
    (∀ p ∈ l, p.1 ≠ [] ∧ (∀ c ∈ p.1, nameChar c = true) ∧ ∀ v, p.2 = some v → '"' ∉ v) →
    (r.read (l.flatMap put)).step '>' =
      { r with state := .data, attrs := r.attrs ++ l.map fun p => (p.1, p.2.getD []), closed := r.closed + 1 } := by
  intro l
  induction l with
  | nil =>
    intro r hr _
    rcases hr with hr | hr | hr <;> simp [Reader.read, Reader.step, hr, Reader.before, space, Reader.close]
  | cons p l ih =>
    intro r hr h
    obtain ⟨h1, h2, h3⟩ := h p (by simp)
    obtain ⟨s, hs, hs'⟩ := read_put hr h1 h2 h3
    rw [List.flatMap_cons, read_append, hs, ih (.inr hs') fun q hq => h q (by simp [hq])]
    simp

theorem isTag_puts {name : Str} {l : List (Str × Option Str)} (hne : ∃ c cs, name = c :: cs ∧ c.isAlpha = true)
    (hname : ∀ c ∈ name, nameChar c = true) (h : ∀ p ∈ l, p.1 ≠ [] ∧ (∀ c ∈ p.1, nameChar c = true) ∧ ∀ v, p.2 = some v → '"' ∉ v) :
    IsTag ('<' :: name ++ l.flatMap put ++ ['>']) (String.ofList name) (l.map fun p => (p.1, p.2.getD [])) := by
  obtain ⟨c, cs, rfl, hc⟩ := hne
  have s1 : ∀ (cs : Str) (r : Reader), r.state = .tagName → (∀ c ∈ cs, nameChar c = true) →
      r.read cs = { r with name := r.name ++ cs } := by
    intro cs
    induction cs with
    | nil => intro r _ _; simp [Reader.read]
    | cons d cs ih =>
      intro r hr hd
      have hc := hd d (by simp)
      simp only [nameChar, Bool.and_eq_true, Bool.not_eq_true', decide_eq_true_eq] at hc
      obtain ⟨⟨⟨h1, h2⟩, h3⟩, h4⟩ := hc
      have : r.step d = { r with name := r.name ++ [d] } := by simp [Reader.step, hr, h1, h2, h3]
      rw [read_cons, this, ih { r with name := r.name ++ [d] } hr fun c hc => hd c (by simp [hc])]
      simp
  unfold IsTag
  simp only [List.cons_append, List.append_assoc]
  rw [read_cons, read_cons]
  have s2 : ((({} : Reader).step '<').step c) = { state := .tagName, name := [c] } := by simp [Reader.step, hc]
  rw [s2, read_append, s1 cs _ rfl fun d hd => hname d (by simp [hd]), read_append]
  have := read_puts l (r := { state := .tagName, name := [c] ++ cs }) (.inl rfl) h
  simp only [Reader.read, List.foldl] at this ⊢
  rw [this]
  simp

end Verif.Media
