import Verif.Model.Path
namespace Verif.Props
open Verif.Path Verif.Split

/-- components a piece of a path can become -/
private def OkComp (sep : Char) : Component → Prop
  | .normal s => s ≠ [] ∧ sep ∉ s ∧ component s = [.normal s]
  | .uriScheme s => sep = '/' ∧ (s = "https".toList ∨ s = "http".toList)
  | .currentDir => True
  | .parentDir => True
  | .root => False
  | .drivePrefix _ => False

private theorem ok_component (sep : Char) (w : List Char) (hw : sep ∉ w) :
    ∀ c ∈ component w, (sep = '/' ∨ ∀ s, c ≠ .uriScheme s) → OkComp sep c := by
  intro c hc hu
  unfold component at hc
  repeat' split at hc
  all_goals simp at hc
  all_goals subst hc
  · trivial
  · trivial
  · rcases hu with hu | hu
    · exact ⟨hu, .inl rfl⟩
    · exact absurd rfl (hu _)
  · rcases hu with hu | hu
    · exact ⟨hu, .inr rfl⟩
    · exact absurd rfl (hu _)
  · rename_i h1 h2 h3 h4 h5
    refine ⟨h1, hw, ?_⟩
    unfold component
    rw [if_neg h1, if_neg h2, if_neg h3, if_neg h4, if_neg h5]

private theorem parse_display (sep : Char) (hs : sep = '/' ∨ sep = '\\') (cs : List Component)
    (h : ∀ c ∈ cs, OkComp sep c) : (splitOn sep (displayFrom sep cs)).flatMap component = cs := by
  have hdot1 : sep ∉ ['.'] := by rcases hs with rfl | rfl <;> decide
  have hdot2 : sep ∉ ['.', '.'] := by rcases hs with rfl | rfl <;> decide
  induction cs with
  | nil => rfl
  | cons c cs ih =>
    have hc := h c (by simp)
    have ih := ih fun x hx => h x (by simp [hx])
    cases cs with
    | nil =>
      show (splitOn sep (c.display sep)).flatMap component = [c]
      cases c with
      | normal s => simp only [Component.display]; rw [splitOn_part _ _ hc.2.1]; simpa using hc.2.2
      | uriScheme s =>
        obtain ⟨rfl, rfl | rfl⟩ := hc <;> decide
      | currentDir => simp only [Component.display]; rw [splitOn_part _ _ hdot1]; rfl
      | parentDir => simp only [Component.display]; rw [splitOn_part _ _ hdot2]; rfl
      | root => exact hc.elim
      | drivePrefix s => exact hc.elim
    | cons d ds =>
      have hj : displayFrom sep (c :: d :: ds) =
          c.display sep ++ ((if c.sepAfter then [sep] else []) ++ displayFrom sep (d :: ds)) := rfl
      rw [hj]
      have key : ∀ w : List Char, sep ∉ w → component w = [c] → c.sepAfter = true →
          (splitOn sep (w ++ ((if c.sepAfter then [sep] else []) ++ displayFrom sep (d :: ds)))).flatMap component =
            c :: d :: ds := by
        intro w hw hcw hsa
        rw [hsa]
        simp only [if_true, List.cons_append, List.nil_append]
        rw [splitOn_append _ _ _ hw, List.flatMap_cons, hcw, ih]; rfl
      cases c with
      | normal s => exact key s hc.2.1 hc.2.2 rfl
      | uriScheme s =>
        obtain ⟨rfl, hs'⟩ := hc
        simp only [Component.display, Component.sepAfter, if_true]
        have e : s ++ [':', '/'] ++ (['/'] ++ displayFrom '/' (d :: ds)) =
            (s ++ [':']) ++ '/' :: ([] ++ '/' :: displayFrom '/' (d :: ds)) := by simp
        rw [e, splitOn_append _ _ _ (by rcases hs' with rfl | rfl <;> decide), splitOn_append _ _ _ (by simp),
          List.flatMap_cons, List.flatMap_cons, ih]
        rcases hs' with rfl | rfl <;> rfl
      | currentDir => exact key _ hdot1 rfl rfl
      | parentDir => exact key _ hdot2 rfl rfl
      | root => exact hc.elim
      | drivePrefix s => exact hc.elim

private theorem display_head (sep : Char) (hs : sep = '/' ∨ sep = '\\') (c : Component) (cs : List Component)
    (hc : OkComp sep c) : ∃ a l, displayFrom sep (c :: cs) = a :: l ∧ a ≠ sep := by
  have : ∃ a l, c.display sep = a :: l ∧ a ≠ sep := by
    cases c with
    | normal s =>
      obtain ⟨a, l, rfl⟩ := List.exists_cons_of_ne_nil hc.1
      exact ⟨a, l, rfl, fun e => hc.2.1 (by simp [e])⟩
    | uriScheme s =>
      obtain ⟨rfl, rfl | rfl⟩ := hc
      · exact ⟨'h', "ttps:/".toList, rfl, by decide⟩
      · exact ⟨'h', "ttp:/".toList, rfl, by decide⟩
    | currentDir => exact ⟨'.', [], rfl, by rcases hs with rfl | rfl <;> decide⟩
    | parentDir => exact ⟨'.', ['.'], rfl, by rcases hs with rfl | rfl <;> decide⟩
    | root => exact hc.elim
    | drivePrefix s => exact hc.elim
  obtain ⟨a, l, h1, h2⟩ := this
  cases cs with
  | nil => exact ⟨a, l, h1, h2⟩
  | cons d ds =>
    refine ⟨a, l ++ ((if c.sepAfter then [sep] else []) ++ displayFrom sep (d :: ds)), ?_, h2⟩
    show c.display sep ++ _ = _
    rw [h1]; rfl

/-- a parsed relative or rooted part -/
private def OkComps (sep : Char) (cs : List Component) : Prop :=
  ∃ r rest, cs = r ++ rest ∧ (r = [] ∨ r = [.root]) ∧ ∀ c ∈ rest, OkComp sep c

private theorem ok_components (sep : Char) (path : List Char)
    (hu : sep = '/' ∨ ∀ c ∈ components sep path, ∀ s, c ≠ .uriScheme s) : OkComps sep (components sep path) := by
  have flat : ∀ l : List Char, (sep = '/' ∨ ∀ c ∈ (splitOn sep l).flatMap component, ∀ s, c ≠ .uriScheme s) →
      ∀ c ∈ (splitOn sep l).flatMap component, OkComp sep c := by
    intro l hl c hc
    obtain ⟨w, hw, hcw⟩ := List.mem_flatMap.mp hc
    exact ok_component sep w (splitOn_no_sep sep l w hw) c hcw (hl.imp id fun h => h c hc)
  cases path with
  | nil => exact ⟨[], [], rfl, .inl rfl, by simp⟩
  | cons c cs =>
    unfold components at hu ⊢
    simp only at hu ⊢
    split
    · rename_i h
      rw [if_pos h] at hu
      exact ⟨[.root], _, rfl, .inr rfl, flat cs (hu.imp id fun h c hc => h c (by simp [hc]))⟩
    · rename_i h
      rw [if_neg h] at hu
      exact ⟨[], _, rfl, .inl rfl, flat (c :: cs) hu⟩

private theorem components_display (sep : Char) (hs : sep = '/' ∨ sep = '\\') (cs : List Component)
    (h : OkComps sep cs) : components sep (displayFrom sep cs) = cs := by
  obtain ⟨r, rest, rfl, hr, hok⟩ := h
  have hp := parse_display sep hs rest hok
  rcases hr with rfl | rfl
  · cases rest with
    | nil => rfl
    | cons c rest =>
      obtain ⟨a, l, h1, h2⟩ := display_head sep hs c rest (hok c (by simp))
      rw [h1] at hp
      rw [List.nil_append, h1]
      simp only [components, if_neg h2]
      exact hp
  · have hd : displayFrom sep ([.root] ++ rest) = sep :: displayFrom sep rest := by
      cases rest with
      | nil => rfl
      | cons c rest => rfl
    rw [hd]
    simp only [components, if_true]
    rw [hp]; rfl

private theorem displayFrom_chars (P : Char → Prop) (sep : Char) (cs : List Component)
    (h : ∀ c ∈ cs, ∀ x ∈ c.display sep, P x) (hsep : P sep) : ∀ x ∈ displayFrom sep cs, P x := by
  induction cs with
  | nil => simp [displayFrom]
  | cons c cs ih =>
    have ih := ih fun d hd => h d (by simp [hd])
    cases cs with
    | nil => exact fun x hx => h c (by simp) x hx
    | cons d ds =>
      intro x hx
      have hx : x ∈ c.display sep ++ ((if c.sepAfter then [sep] else []) ++ displayFrom sep (d :: ds)) := hx
      simp only [List.mem_append] at hx
      rcases hx with hx | hx | hx
      · exact h c (by simp) x hx
      · split at hx
        · simp at hx; rw [hx]; exact hsep
        · simp at hx
      · exact ih x hx

private theorem drivePrefixOf_two (a b : Char) (l l' : List Char) :
    drivePrefixOf (a :: b :: l) = drivePrefixOf (a :: b :: l') := rfl

private theorem displayFrom_cons (sep : Char) (c : Component) (cs : List Component) :
    displayFrom sep (c :: cs) = c.display sep ++
      (if cs = [] then [] else (if c.sepAfter then [sep] else []) ++ displayFrom sep cs) := by
  cases cs with
  | nil => simp [displayFrom]
  | cons => rfl

/-- printing keeps the absence of a drive -/
private theorem no_drive (sep : Char) (hs : sep = '/' ∨ sep = '\\') (path : List Char) (h : drivePrefixOf path = none)
    (hu : sep = '/' ∨ ∀ c ∈ components sep path, ∀ s, c ≠ .uriScheme s) :
    drivePrefixOf (displayFrom sep (components sep path)) = none := by
  have hsa : asciiAlpha sep = false := by rcases hs with rfl | rfl <;> decide
  have hsc : sep ≠ ':' := by rcases hs with rfl | rfl <;> decide
  cases path with
  | nil => rfl
  | cons a cs =>
    unfold components at hu ⊢
    simp only at hu ⊢
    by_cases ha : a = sep
    · rw [if_pos ha, displayFrom_cons]
      simp only [Component.display, List.cons_append]
      generalize ([] ++ if (splitOn sep cs).flatMap component = [] then [] else
        (if Component.root.sepAfter = true then [sep] else []) ++ displayFrom sep ((splitOn sep cs).flatMap component)) = l
      cases l with
      | nil => rfl
      | cons b l => simp [drivePrefixOf, hsa]
    · rw [if_neg ha] at hu ⊢
      -- the first piece is not empty
      cases hsp : splitOn sep (a :: cs) with
      | nil => exact absurd hsp (splitOn_ne_nil _ _)
      | cons w ws =>
        have hw : ∃ t, w = a :: t := by
          unfold splitOn at hsp
          rw [if_neg ha] at hsp
          split at hsp
          · simp at hsp; exact ⟨[], hsp.1.symm⟩
          · rename_i v vs _; simp at hsp; exact ⟨v, hsp.1.symm⟩
        obtain ⟨t, rfl⟩ := hw
        have hj := joinWith_splitOn sep (a :: cs)
        rw [hsp] at hj
        rw [List.flatMap_cons]
        -- what the first piece prints
        have hcomp : ∃ c, component (a :: t) = [c] := by
          unfold component; repeat' split
          all_goals first | exact ⟨_, rfl⟩ | simp_all
        obtain ⟨c, hc⟩ := hcomp
        rw [hc, List.singleton_append, displayFrom_cons]
        have hdisp : c.display sep = a :: t ∨ (∃ s, c = .uriScheme s ∧ ((s = "https".toList) ∨ s = "http".toList)) := by
          unfold component at hc
          repeat' split at hc
          all_goals simp at hc
          all_goals subst hc
          · left; simp_all [Component.display]
          · left; simp_all [Component.display]
          · right; exact ⟨_, rfl, .inl rfl⟩
          · right; exact ⟨_, rfl, .inr rfl⟩
          · left; rfl
        rcases hdisp with hd | ⟨s, rfl, hs'⟩
        · rw [hd]
          cases t with
          | cons b t =>
            rw [List.cons_append, List.cons_append, drivePrefixOf_two a b _ t]
            have : a :: cs = a :: b :: (t ++ (if ws = [] then [] else sep :: joinWith sep ws)) := by
              rw [← hj]; cases ws <;> simp [joinWith]
            rw [this] at h
            rw [drivePrefixOf_two a b t _]; exact h
          | nil =>
            rw [List.cons_append, List.nil_append]
            split
            · rfl
            · split
              · simp [drivePrefixOf, hsc]
              · rename_i hns
                exfalso
                unfold component at hc
                repeat' split at hc
                all_goals simp at hc
                all_goals subst hc
                all_goals simp [Component.sepAfter] at hns
        · rcases hs' with rfl | rfl <;> rfl

/-- C27, in part: the printed form of a path parses to the same path (same components, same separator) for every
path text except backslash paths which contain a piece `http:` or `https:`, and backslash paths without drive whose
printed form has no backslash any more. Missing: those two, see the violations. -/
theorem C27_print_parse_partial (s : List Char)
    (h1 : (Path.new s).separator = '\\' → ∀ c ∈ (Path.new s).components, ∀ t, c ≠ .uriScheme t)
    (h2 : (Path.new s).separator = '\\' → drivePrefixOf s = none → '\\' ∈ (Path.new s).display) :
    Path.new (Path.new s).display = Path.new s := by
  unfold Path.new fromOptionalSep at h1 h2 ⊢
  cases hd : drivePrefixOf s with
  | some p =>
    simp only [hd, Option.getD_none] at h1 ⊢
    obtain ⟨a, b, l, rfl, hab, rfl⟩ : ∃ a b l, s = a :: b :: l ∧ (b = ':' && asciiAlpha a) = true ∧ p = [a, b] := by
      unfold drivePrefixOf at hd
      split at hd
      · rename_i a b l
        split at hd
        · rename_i hab; simp at hd; exact ⟨a, b, l, rfl, hab, hd.symm⟩
        · simp at hd
      · simp at hd
    have hok := ok_components '\\' l (.inr fun c hc => h1 trivial c (by simp [hc]))
    have hcd := components_display '\\' (.inr rfl) _ hok
    have hdisp : displayFrom '\\' (.drivePrefix [a, b] :: components '\\' l) =
        a :: b :: displayFrom '\\' (components '\\' l) := by
      rw [displayFrom_cons]
      cases hc : components '\\' l <;> simp [Component.display, Component.sepAfter, displayFrom]
    simp only [Path.display, List.drop_succ_cons, List.drop_zero, hdisp]
    have : drivePrefixOf (a :: b :: displayFrom '\\' (components '\\' l)) = some [a, b] := by
      show (if (b = ':' && asciiAlpha a) = true then some [a, b] else none) = _
      rw [if_pos hab]
    simp only [this, hcd]
  | none =>
    simp only [hd, Option.getD_none] at h1 h2 ⊢
    have hsep : inferSeparator s = '/' ∨ inferSeparator s = '\\' := by
      unfold inferSeparator; split <;> simp
    have hu : inferSeparator s = '/' ∨ ∀ c ∈ components (inferSeparator s) s, ∀ t, c ≠ .uriScheme t :=
      hsep.imp id h1
    have hok := ok_components _ s hu
    have hcd := components_display _ hsep _ hok
    have hnd := no_drive _ hsep s hd hu
    simp only [Path.display, hnd]
    have hinf : inferSeparator (displayFrom (inferSeparator s) (components (inferSeparator s) s)) = inferSeparator s := by
      rcases hsep with hs | hs
      · have hnb : '\\' ∉ s := by
          unfold inferSeparator at hs; split at hs
          · simp at hs
          · assumption
        rw [hs]
        unfold inferSeparator
        rw [if_neg]
        intro hm
        refine displayFrom_chars (fun x => x ≠ '\\') '/' (components '/' s) ?_ (by decide) '\\' hm rfl
        intro c hc x hx
        have hflat : ∀ l : List Char, '\\' ∉ l → ∀ c ∈ (splitOn '/' l).flatMap component, ∀ x ∈ c.display '/', x ≠ '\\' := by
          intro l hl c hc x hx
          obtain ⟨w, hw, hcw⟩ := List.mem_flatMap.mp hc
          have hwl : ∀ y ∈ w, y ∈ l := by
            clear hx hcw hc
            intro y hy
            have : y ∈ joinWith '/' (splitOn '/' l) := by
              generalize splitOn '/' l = ws at hw
              induction ws with
              | nil => cases hw
              | cons v vs ih =>
                cases vs with
                | nil => simp at hw; subst hw; exact hy
                | cons u us =>
                  show y ∈ v ++ '/' :: joinWith '/' (u :: us)
                  rcases List.mem_cons.mp hw with rfl | hw
                  · simp [hy]
                  · have := ih hw; simp [this]
            rwa [joinWith_splitOn] at this
          unfold component at hcw
          repeat' split at hcw
          all_goals simp at hcw
          all_goals subst hcw
          · simp [Component.display] at hx; rw [hx]; decide
          · simp [Component.display] at hx; rw [hx]; decide
          · have : ∀ x ∈ (Component.uriScheme "https".toList).display '/', x ≠ '\\' := by decide
            exact this x hx
          · have : ∀ x ∈ (Component.uriScheme "http".toList).display '/', x ≠ '\\' := by decide
            exact this x hx
          · intro e; subst e; exact hl (hwl _ hx)
        cases s with
        | nil => simp [components] at hc
        | cons a l =>
          unfold components at hc
          simp only at hc
          split at hc
          · rcases List.mem_cons.mp hc with rfl | hc
            · simp [Component.display] at hx; rw [hx]; decide
            · exact hflat l (fun h => hnb (by simp [h])) c hc x hx
          · exact hflat (a :: l) hnb c hc x hx
      · rw [hs]
        have := h2 hs trivial
        simp only [Path.display, hs] at this
        unfold inferSeparator
        rw [if_pos this]
    rw [hinf, hcd]

example : (Path.new "/a/./b.adoc".toList).components = [.root, .normal ['a'], .currentDir, .normal "b.adoc".toList] ∧
    (Path.new "c:\\a\\b".toList).separator = '\\' := by decide

/-- C27 is violated: a backslash path with a URI scheme does not survive printing. -/
theorem C27_backslash_uri_violated :
    Path.new (Path.new "http:\\a".toList).display ≠ Path.new "http:\\a".toList := by decide

/-- C27 is violated: one component becomes two when the last backslash is not printed. -/
theorem C27_trailing_backslash_violated :
    (Path.new "a/b\\".toList).components = [.normal "a/b".toList] ∧
    (Path.new (Path.new "a/b\\".toList).display).components = [.normal ['a'], .normal ['b']] := by decide

/-- C27: joining an absolute path replaces the base, joining a relative one puts its components after those of the
base, which stays absolute if it was. -/
theorem C27_join_components (p q : Path) :
    (q.isAbsolute = true → (p.join q).components = q.components ∧ (p.join q).isAbsolute = true) ∧
    (q.isAbsolute = false → (p.join q).components = p.components ++ q.components) ∧
    (p.isAbsolute = true → (p.join q).isAbsolute = true) := by
  refine ⟨fun h => ?_, fun h => ?_, fun h => ?_⟩
  · simp only [Path.join, Path.push, h, if_true, List.nil_append, true_and]
    exact h
  · simp [Path.join, Path.push, h]
  · by_cases hq : q.isAbsolute = true
    · simp only [Path.join, Path.push, hq, if_true, List.nil_append]; exact hq
    · simp only [Path.join, Path.push, hq, if_false, Bool.false_eq_true]
      unfold Path.isAbsolute at h ⊢
      split at h <;> simp_all

/-- C27: an absolute path joined to anything is printed as itself, if both use the same separator. -/
theorem C27_join_absolute_partial (p q : Path) (hq : q.isAbsolute = true) (hs : p.separator = q.separator) :
    (p.join q).display = q.display := by
  simp [Path.join, Path.push, Path.display, hq, hs]

/-- C27 is violated: an absolute path joined to a path with the other separator is printed as another path. -/
theorem C27_join_separator_violated :
    ((Path.new "c:\\x".toList).join (Path.new "/usr/lib".toList)).display = "\\usr\\lib".toList := by decide

/-- C27: popping removes the last component, and never the only one; it undoes joining one component. -/
theorem C27_pop (p : Path) (c : Component) (h : p.components ≠ []) :
    (Path.pop ⟨p.separator, p.components ++ [c]⟩) = (p, true) := by
  unfold Path.pop
  have : 0 < p.components.length := List.length_pos_iff.mpr h
  simp only [List.length_append, List.length_singleton, List.dropLast_concat]
  rw [if_pos (by omega)]

/-- C27, in part: popping keeps an absolute Unix path absolute. Missing: drive paths, see the violation. -/
theorem C27_pop_keeps_root_partial (p : Path) (h : p.components.head? = some .root) :
    p.pop.1.components.head? = some .root := by
  unfold Path.pop
  split
  · rename_i hl
    cases hc : p.components with
    | nil => rw [hc] at h; cases h
    | cons a l =>
      rw [hc] at h hl
      cases l with
      | nil => simp at hl
      | cons b l => simpa using h
  · exact h

/-- C27 is violated: popping removes the root of a drive. -/
theorem C27_pop_drive_violated :
    (Path.new "c:\\".toList).isAbsolute = true ∧ (Path.new "c:\\".toList).pop.1.isAbsolute = false := by decide

/-- C27: the file name of a path is its last piece, when this is a name. -/
theorem C27_file_name (sep : Char) (cs : List Component) (s : List Char) :
    (Path.mk sep (cs ++ [.normal s])).fileName = some s ∧
    ∀ n, (Path.mk sep (cs ++ [.normal s] ++ List.replicate n .currentDir)).fileName = some s := by
  have key : ∀ n, fileNameRev (List.replicate n .currentDir ++ (.normal s :: cs.reverse)) = some s := by
    intro n
    induction n with
    | zero => rfl
    | succ n ih =>
      rw [List.replicate_succ, List.cons_append, fileNameRev, if_neg (by simp), ih]
  constructor
  · unfold Path.fileName; rw [if_neg (by simp)]; simpa using key 0
  · intro n
    unfold Path.fileName; rw [if_neg (by simp)]; simpa using key n

/-- C27 is violated: asking the empty path, or the current directory, for its file name panics. -/
theorem C27_file_name_violated :
    (Path.new []).fileName = none ∧ (Path.new ".".toList).fileName = none := by decide

private theorem dirFrom_cons (sep : Char) (c : Component) (cs : List Component) :
    dirFrom sep (c :: cs) = c.dirDisplay sep ++
      (if cs = [] then [] else (if c.sepAfter then [sep] else []) ++ dirFrom sep cs) := by
  cases cs with
  | nil => simp [dirFrom]
  | cons => rfl

private theorem parse_dir (sep : Char) (hs : sep = '/' ∨ sep = '\\') (cs : List Component)
    (h : ∀ c ∈ cs, OkComp sep c) : (splitOn sep (dirFrom sep cs)).flatMap component = cs := by
  have hdot1 : sep ∉ ['.'] := by rcases hs with rfl | rfl <;> decide
  have hdot2 : sep ∉ ['.', '.'] := by rcases hs with rfl | rfl <;> decide
  induction cs with
  | nil => rfl
  | cons c cs ih =>
    have hc := h c (by simp)
    have ih := ih fun x hx => h x (by simp [hx])
    have hw : sep ∉ c.dirDisplay sep ∧ component (c.dirDisplay sep) = [c] ∧ c.sepAfter = true := by
      cases c with
      | normal s => exact ⟨hc.2.1, hc.2.2, rfl⟩
      | uriScheme s => obtain ⟨rfl, rfl | rfl⟩ := hc <;> decide
      | currentDir => exact ⟨hdot1, rfl, rfl⟩
      | parentDir => exact ⟨hdot2, rfl, rfl⟩
      | root => exact hc.elim
      | drivePrefix s => exact hc.elim
    rw [dirFrom_cons]
    split
    · rename_i hn; subst hn
      rw [List.append_nil, splitOn_part _ _ hw.1]; simpa using hw.2.1
    · rw [hw.2.2]
      simp only [if_true, List.cons_append, List.nil_append]
      rw [splitOn_append _ _ _ hw.1, List.flatMap_cons, hw.2.1, ih]; rfl

/-- C27: for a Unix path, the directory text parses back to all components but the last, so a name looked up
relative to it is a sibling of the file. -/
theorem C27_dirname_unix_partial (s : List Char) (hd : drivePrefixOf s = none) (hb : '\\' ∉ s) (c : Component)
    (init : List Component) (hc : (Path.new s).components = init ++ [c]) (hr : init = [] → c ≠ .root) :
    components '/' (Path.new s).dirname = init := by
  have hinf : inferSeparator s = '/' := by unfold inferSeparator; rw [if_neg hb]
  have hnew : Path.new s = ⟨'/', components '/' s⟩ := by
    unfold Path.new fromOptionalSep; simp only [hd, Option.getD_none, hinf]
  obtain ⟨r, rest, hcs, hrr, hok⟩ := ok_components '/' s (.inl rfl)
  rw [hnew] at hc ⊢
  simp only at hc
  have hdir : (Path.mk '/' (components '/' s)).dirname = dirFrom '/' init := by
    unfold Path.dirname
    rw [hc]
    split
    · rename_i h
      have := congrArg List.length h; simp at this; subst this; simp at h; exact absurd h (hr rfl)
    · rename_i d h
      exfalso
      have hm : Component.drivePrefix d ∈ components '/' s := by
        have h : init ++ [c] = _ := h
        rw [hc, h]; simp
      rw [hcs] at hm
      rcases List.mem_append.mp hm with hm | hm
      · rcases hrr with rfl | rfl <;> simp at hm
      · exact hok _ hm
    · rw [List.dropLast_concat]
  rw [hdir]
  -- the components before the last
  have hrest : init = [] ∨ init = [.root] ∨ (∃ i', init = r ++ i' ∧ ∀ x ∈ i', OkComp '/' x) := by
    rw [hcs] at hc
    rcases List.eq_nil_or_concat rest with rfl | ⟨i', x, rfl⟩
    · left
      rw [List.append_nil] at hc
      rcases hrr with rfl | rfl
      · simp at hc
      · have := congrArg List.length hc; simp at this; exact this
    · right; right
      have hc' : (r ++ i') ++ [x] = init ++ [c] := by simpa using hc
      have := List.append_inj_left' hc' rfl
      exact ⟨i', this.symm, fun y hy => hok y (by simp [hy])⟩
  rcases hrest with rfl | rfl | ⟨i', rfl, hi'⟩
  · rfl
  · rfl
  · have hp := parse_dir '/' (.inl rfl) i' hi'
    rcases hrr with rfl | rfl
    · cases i' with
      | nil => rfl
      | cons x xs =>
        rw [List.nil_append]
        have : ∃ a l, dirFrom '/' (x :: xs) = a :: l ∧ a ≠ '/' := by
          rw [dirFrom_cons]
          have hx := hi' x (by simp)
          cases x with
          | normal w =>
            obtain ⟨a, l, rfl⟩ := List.exists_cons_of_ne_nil hx.1
            exact ⟨a, _, rfl, fun e => hx.2.1 (by simp [e])⟩
          | uriScheme w =>
            obtain ⟨_, rfl | rfl⟩ := hx
            · exact ⟨'h', _, rfl, by decide⟩
            · exact ⟨'h', _, rfl, by decide⟩
          | currentDir => exact ⟨'.', _, rfl, by decide⟩
          | parentDir => exact ⟨'.', _, rfl, by decide⟩
          | root => exact hx.elim
          | drivePrefix w => exact hx.elim
        obtain ⟨a, l, he, ha⟩ := this
        rw [he] at hp ⊢
        simp only [components, if_neg ha]
        exact hp
    · have : dirFrom '/' ([.root] ++ i') = '/' :: dirFrom '/' i' := by
        rw [List.singleton_append, dirFrom_cons]
        cases i' <;> simp [Component.dirDisplay, Component.display, Component.sepAfter, dirFrom]
      rw [this]
      simp only [components, if_true]
      rw [hp]; rfl

example : (Path.new "/d1/d2/src.adoc".toList).dirname = "/d1/d2".toList := by decide

end Verif.Props
