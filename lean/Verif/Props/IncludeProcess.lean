import Verif.Model.IncludeProcess
namespace Verif.Props
open Verif Verif.IncludeProcess Verif.Path Verif.Split

/-! ### C15 -/

/-- C15: in secure mode an include directive never reaches the resolver, whatever the resolver, the target and the
rest of the state; the line is replaced by a link and nothing is reported. -/
theorem C15_secure_never_reads (env : Env) (h : env.mode = .modeSecure) (resolve : Target → Resolved)
    (prep : Bytes → Option Bytes) (d : Directive) :
    process env resolve prep d = ⟨[], .substituteLine (substituteLink d.hasSpaces d.lineSrc), 0⟩ := by
  unfold process; rw [if_pos h]

private theorem replaceInclude_id (l : List Char) (h : ¬ "include::".toList <:+: l) : replaceInclude l = l := by
  induction l with
  | nil => unfold replaceInclude; rfl
  | cons c cs ih =>
    unfold replaceInclude
    rw [if_neg, ih]
    · intro hi; exact h (hi.trans (List.suffix_cons c cs).isInfix)
    · intro hp; exact h (List.isPrefixOf_iff_prefix.mp hp).isInfix

private theorem insertRole_append (b : Bool) (l r : List Char) : insertRole b (l ++ r) = insertRole b l ++ insertRole b r := by
  induction l with
  | nil => rfl
  | cons c cs ih => simp only [List.cons_append, insertRole, ih]; split <;> simp

private theorem insertRole_id (b : Bool) (l : List Char) (h : '[' ∉ l) : insertRole b l = l := by
  induction l with
  | nil => rfl
  | cons c cs ih =>
    simp only [List.mem_cons, not_or] at h
    rw [insertRole, if_neg (fun e => h.1 e.symm), ih h.2]

/-- C15: the link shown instead: `link:TARGET[role=include,ATTRS]`, with the target protected by `pass:c[…]` when it
has spaces. Missing (partial): attributes or targets that contain a further `[` or `include::`; see the violation. -/
theorem C15_link_text_partial (d : Directive) (h1 : '[' ∉ d.target) (h2 : '[' ∉ d.attrs)
    (h3 : ¬ "include::".toList <:+: d.target ++ '[' :: (d.attrs ++ [']'])) :
    substituteLink d.hasSpaces d.lineSrc =
      if d.target.contains ' ' then
        "link:pass:c[".toList ++ d.target ++ "][role=include,".toList ++ d.attrs ++ "]".toList
      else "link:".toList ++ d.target ++ "[role=include,".toList ++ d.attrs ++ "]".toList := by
  have hsrc : replaceInclude d.lineSrc = "link:".toList ++ (d.target ++ '[' :: (d.attrs ++ [']'])) := by
    have e : d.lineSrc = 'i' :: ("nclude::".toList ++ (d.target ++ '[' :: (d.attrs ++ [']']))) := rfl
    rw [e]
    unfold replaceInclude
    rw [if_pos (by simp)]
    congr 1
    have : ("nclude::".toList ++ (d.target ++ '[' :: (d.attrs ++ [']']))).drop 8 = d.target ++ '[' :: (d.attrs ++ [']']) := rfl
    rw [this, replaceInclude_id _ h3]
  have hrole : ∀ b, insertRole b (d.target ++ '[' :: (d.attrs ++ [']'])) =
      d.target ++ ((if b then [']'] else []) ++ "[role=include,".toList ++ (d.attrs ++ [']'])) := by
    intro b
    rw [insertRole_append, insertRole_id b _ h1, insertRole, if_pos rfl, insertRole_append, insertRole_id b _ h2]
    simp [insertRole]
  unfold substituteLink
  rw [hsrc]
  have h5 : ("link:".toList ++ (d.target ++ '[' :: (d.attrs ++ [']']))).take 5 = "link:".toList := rfl
  have h6 : ("link:".toList ++ (d.target ++ '[' :: (d.attrs ++ [']']))).drop 5 = d.target ++ '[' :: (d.attrs ++ [']']) := rfl
  simp only [h5, h6, hrole, Directive.hasSpaces]
  by_cases hsp : d.target.contains ' ' = true
  · simp only [hsp, if_true]; simp
  · simp only [hsp, if_false, Bool.false_eq_true]; simp

example : substituteLink false "include::a.adoc[tag=x]".toList = "link:a.adoc[role=include,tag=x]".toList ∧
    substituteLink true "include::a b.adoc[]".toList = "link:pass:c[a b.adoc][role=include,]".toList := by
  constructor <;> (simp [substituteLink, replaceInclude]; decide)

/-- C15 is violated: every further bracket in the attributes gets the role again. -/
theorem C15_link_bracket_violated :
    insertRole false "a.adoc[title=\"[x]\"]".toList = "a.adoc[role=include,title=\"[role=include,x]\"]".toList := by
  decide

/-- the target is asked for with a URI by the resolver only if it is allowed -/
private theorem process_calls (env : Env) (resolve : Target → Resolved) (prep : Bytes → Option Bytes) (d : Directive)
    (t : Target) (ht : t ∈ (process env resolve prep d).calls) :
    env.mode ≠ .modeSecure ∧ env.exceeded = false ∧ env.hasResolver = true ∧
      (startsUri d.target = true → env.mode.rank ≤ SafeMode.modeServer.rank ∧ env.allowUriRead = true) ∧
      prepare d.target (startsUri d.target) env.src env.primary env.baseDir = .ok t := by
  unfold process report at ht
  by_cases h1 : env.mode = .modeSecure
  · simp [h1] at ht
  rw [if_neg h1] at ht
  by_cases h2 : (startsUri d.target && (decide (env.mode.rank > SafeMode.modeServer.rank) || !env.allowUriRead)) = true
  · rw [if_pos h2] at ht; simp at ht
  rw [if_neg h2] at ht
  by_cases h3 : env.exceeded = true
  · rw [if_pos h3] at ht; simp at ht
  rw [if_neg h3] at ht
  by_cases h4 : (!env.hasResolver) = true
  · rw [if_pos h4] at ht; simp at ht
  rw [if_neg h4] at ht
  refine ⟨h1, by simpa using h3, by simpa using h4, ?_, ?_⟩
  · intro hu
    simp only [hu, Bool.true_and, Bool.or_eq_true, decide_eq_true_eq, Bool.not_eq_true', not_or, Bool.not_eq_false] at h2
    exact ⟨by omega, h2.2⟩
  · cases hp : prepare d.target (startsUri d.target) env.src env.primary env.baseDir with
    | baseDirRequired => rw [hp] at ht; simp at ht
    | panic => rw [hp] at ht; simp at ht
    | ok u =>
      rw [hp] at ht
      have hu : t = u := by
        revert ht; simp only
        split
        · split <;> simp
        · split <;> simp
        · simp
        · simp
      rw [hu]

private theorem join_isUri (p q : Path) (h : p.isUri = false) (hq : q.isUri = false) : (p.join q).isUri = false := by
  unfold Path.join Path.push
  split
  · exact hq
  · cases hc : p.components with
    | nil => exact hq
    | cons c cs =>
      unfold Path.isUri at h ⊢
      rw [hc] at h; exact h

/-- C15, in part: outside secure mode a remote target is requested only if the mode is at most server and
`allow-uri-read` is set, for targets written as `scheme://…` or as file paths, in documents that are themselves local
files. Missing: targets such as `http:/host/file`, see the violation. -/
theorem C15_uri_needs_permission_partial (env : Env) (resolve : Target → Resolved) (prep : Bytes → Option Bytes)
    (d : Directive) (u : List Char) (hcall : Target.uri u ∈ (process env resolve prep d).calls)
    (htext : startsUri d.target = true ∨ (Path.new d.target).isUri = false)
    (hsrc : ∀ p, env.src = .path p → (Path.new p.dirname).isUri = false) :
    env.mode ≠ .modeSecure ∧ env.mode.rank ≤ SafeMode.modeServer.rank ∧ env.allowUriRead = true := by
  obtain ⟨h1, _, _, h4, h5⟩ := process_calls env resolve prep d _ hcall
  by_cases hs : startsUri d.target = true
  · exact ⟨h1, h4 hs⟩
  · exfalso
    have ht := htext.resolve_left hs
    simp only [prepare, hs, Bool.false_eq_true, if_false] at h5
    split at h5
    · split at h5 <;> simp at h5
    · split at h5
      · rename_i p hp
        simp only [Prepared.ok.injEq] at h5
        unfold Target.ofPath at h5
        have hnu : (if (Path.new d.target).isAbsolute then Path.new d.target
            else (Path.new p.dirname).join (Path.new d.target)).isUri = false := by
          split
          · exact ht
          · exact join_isUri _ _ (hsrc p hp) ht
        rw [if_neg (by simp [hnu])] at h5
        simp at h5
      · simp at h5

/-- a document `/d/a.adoc` in safe mode, without `allow-uri-read` -/
private def sampleEnv : Env :=
  ⟨.modeSafe, false, false, true, true, some "/d".toList, .path (Path.new "/d/a.adoc".toList), true⟩

example : (process { sampleEnv with allowUriRead := true } (fun _ => .notFound) some
    ⟨"https://h/x".toList, [], true⟩).calls = [.uri "https://h/x".toList] ∧
    (process sampleEnv (fun _ => .notFound) some ⟨"https://h/x".toList, [], true⟩).calls = [] := by decide +kernel

/-- C15: outside secure mode, with `allow-uri-read` set, a remote target is requested exactly as written. -/
theorem C15_permitted_uri_requested (env : Env) (resolve : Target → Resolved) (prep : Bytes → Option Bytes)
    (d : Directive) (hu : startsUri d.target = true) (hm : env.mode ≠ .modeSecure) (ha : env.allowUriRead = true)
    (hx : env.exceeded = false) (hr : env.hasResolver = true) :
    (process env resolve prep d).calls = [.uri d.target] := by
  unfold process report
  have hrank : decide (env.mode.rank > SafeMode.modeServer.rank) = false := by
    cases h : env.mode <;> simp [h, SafeMode.rank] at *
  rw [if_neg hm, if_neg (by simp [hrank, ha]), if_neg (by simp [hx]), if_neg (by simp [hr])]
  simp only [prepare, hu, if_true]
  split
  · split <;> rfl
  · split <;> rfl
  · rfl
  · rfl

/-- C15 is violated: in safe mode and without `allow-uri-read`, `include::http:/evil.com/x[]` requests the remote
`http://evil.com/x`. -/
theorem C15_single_slash_uri_violated :
    (process sampleEnv (fun _ => .notFound) some ⟨"http:/evil.com/x".toList, [], true⟩).calls =
      [.uri "http://evil.com/x".toList] ∧ sampleEnv.allowUriRead = false := by decide +kernel

/-- C15: a document read from standard input that includes an absolute path makes the program panic. -/
theorem C15_stdin_violated :
    (process { sampleEnv with src := .stdin } (fun _ => .notFound) some ⟨"/x".toList, [], true⟩).action = .panic := by
  decide +kernel

/-- C15: a relative target of the main document is requested below the base directory; a relative target of an
included file below the directory of that file. -/
theorem C15_requested_path (env : Env) (resolve : Target → Resolved) (prep : Bytes → Option Bytes)
    (d : Directive) (t : Target) (hcall : t ∈ (process env resolve prep d).calls) (hu : startsUri d.target = false)
    (hrel : (Path.new d.target).isAbsolute = false) :
    (env.primary = true → ∃ b, env.baseDir = some b ∧ t = .filePath ((Path.new b).join (Path.new d.target)).display) ∧
    (env.primary = false → ∃ p, env.src = .path p ∧
      t = Target.ofPath ((Path.new p.dirname).join (Path.new d.target))) := by
  obtain ⟨_, _, _, _, h5⟩ := process_calls env resolve prep d t hcall
  simp only [prepare, hu, hrel, Bool.false_eq_true, if_false, Bool.not_false, Bool.and_true] at h5
  constructor
  · intro hp
    rw [if_pos hp] at h5
    split at h5
    · simp at h5
    · rename_i b hb
      simp only [Prepared.ok.injEq] at h5
      exact ⟨b, hb, h5.symm⟩
  · intro hp
    rw [if_neg (by simp [hp])] at h5
    split at h5
    · rename_i p hsrc
      simp only [Prepared.ok.injEq] at h5
      exact ⟨p, hsrc, h5.symm⟩
    · simp at h5

/-! ### C16 -/

/-- Where a path leads, following symbolic links, `.` and `..`, from the directory `cur`. -/
inductive Leads (fs : FS) : List Name → List Seg → List Name → Prop where
  | done (cur) : Leads fs cur [] cur
  | root (cur rest r) : Leads fs [] rest r → Leads fs cur (.root :: rest) r
  | here (cur rest r) : Leads fs cur rest r → Leads fs cur (.cur :: rest) r
  | up (cur rest r) : Leads fs cur.dropLast rest r → Leads fs cur (.up :: rest) r
  | name (cur n rest r) : fs.exist (cur ++ [n]) = true → fs.link (cur ++ [n]) = none →
      Leads fs (cur ++ [n]) rest r → Leads fs cur (.name n :: rest) r
  | link (cur n rest r target) : fs.link (cur ++ [n]) = some target →
      Leads fs cur (target ++ rest) r → Leads fs cur (.name n :: rest) r

/-- a path leads to one place only -/
private theorem leads_unique {fs : FS} {cur : List Name} {p : List Seg} {a b : List Name} (ha : Leads fs cur p a)
    (hb : Leads fs cur p b) : a = b := by
  induction ha with
  | done cur => cases hb; rfl
  | root cur rest r _ ih => cases hb; exact ih (by assumption)
  | here cur rest r _ ih => cases hb; exact ih (by assumption)
  | up cur rest r _ ih => cases hb; exact ih (by assumption)
  | name cur n rest r h1 h2 _ ih =>
    cases hb with
    | name _ _ _ _ _ _ h => exact ih h
    | link _ _ _ _ t ht => rw [h2] at ht; cases ht
  | link cur n rest r t h1 _ ih =>
    cases hb with
    | name _ _ _ _ _ h => rw [h1] at h; cases h
    | link _ _ _ _ t' ht h =>
      rw [h1] at ht; cases ht; exact ih h

/-- C16: for every file system, in any mode but unsafe, if the resolver returns bytes, they are the contents of a
file inside the base directory: the place the requested path leads to extends, segment by segment, the place the
base directory leads to. (`canon` is `canonicalize`: it returns where a path leads.) -/
theorem C16_inside_base_dir (fs : FS) (segs : List Char → List Seg) (canon : List Char → Option (List Name))
    (hcanon : ∀ p c, canon p = some c → Leads fs [] (segs p) c)
    (baseDir : Option (List Char)) (strict : Bool) (mismatch : List Char → List Name → Bool) (mode : SafeMode)
    (hmode : mode ≠ .modeUnsafe) (path : List Char) (bytes : Bytes)
    (h : cliResolveFile canon fs baseDir strict mismatch mode path = .ok bytes) :
    ∃ base b, baseDir = some base ∧ Leads fs [] (segs base) b ∧
      ∀ c, Leads fs [] (segs path) c → b <+: c ∧ fs.content c = some bytes := by
  unfold cliResolveFile at h
  cases hc : canon path with
  | none => rw [hc] at h; simp at h
  | some pathc =>
    rw [hc] at h
    simp only [if_pos hmode] at h
    cases hb : baseDir.bind canon with
    | none => rw [hb] at h; simp at h
    | some b =>
      rw [hb] at h
      obtain ⟨base, hbase, hbc⟩ := Option.bind_eq_some_iff.mp hb
      refine ⟨base, b, hbase, hcanon _ _ hbc, fun c hlc => ?_⟩
      have := leads_unique hlc (hcanon _ _ hc)
      subst this
      simp only at h
      cases hp : b.isPrefixOf c with
      | false => simp only [hp] at h; simp at h
      | true =>
        simp only [hp] at h
        refine ⟨List.isPrefixOf_iff_prefix.mp hp, ?_⟩
        split at h
        · simp at h
        · split at h
          · rename_i bs hbs; simp at h; rw [hbs, h]
          · simp at h

/-- a file system in which `/base/l` is a link to `/etc` -/
private def sampleFS : FS :=
  ⟨fun p => p ∈ [[['b']], [['b'], ['f']], [['e']], [['e'], ['p']]],
   fun p => if p = [['b'], ['l']] then some [.root, .name ['e']] else none,
   fun p => if p = [['b'], ['f']] then some [1] else if p = [['e'], ['p']] then some [2] else none⟩

example : Leads sampleFS [] [.root, .name ['b'], .name ['l'], .up, .name ['b'], .name ['f']] [['b'], ['f']] := by
  refine .root _ _ _ (.name _ _ _ _ (by decide) (by decide) (.link _ _ _ _ [.root, .name ['e']] (by decide) ?_))
  refine .root _ _ _ (.name _ _ _ _ (by decide) (by decide) (.up _ _ _ ?_))
  exact .name _ _ _ _ (by decide) (by decide) (.name _ _ _ _ (by decide) (by decide) (.done _))

example : let canon := fun p => if p = ['b'] then some [['b']] else if p = "f".toList then some [['b'], ['f']]
      else some [['e'], ['p']]
    cliResolveFile canon sampleFS (some ['b']) false (fun _ _ => false) .modeSafe ['f'] = .ok [1] ∧
    cliResolveFile canon sampleFS (some ['b']) false (fun _ _ => false) .modeSafe ['x'] = .other ∧
    cliResolveFile canon sampleFS (some ['b']) false (fun _ _ => false) .modeUnsafe ['x'] = .ok [2] := by
  decide

/-- included text comes from one answer of the resolver -/
private theorem process_included (env : Env) (resolve : Target → Resolved) (prep : Bytes → Option Bytes)
    (d : Directive) (out : Bytes) (h : (process env resolve prep d).action = .included out) :
    ∃ t bytes, resolve t = .ok bytes ∧ prep bytes = some out := by
  unfold process report at h
  by_cases h1 : env.mode = .modeSecure
  · simp [h1] at h
  rw [if_neg h1] at h
  by_cases h2 : (startsUri d.target && (decide (env.mode.rank > SafeMode.modeServer.rank) || !env.allowUriRead)) = true
  · rw [if_pos h2] at h; (cases hst : env.strict <;> simp [hst] at h)
  rw [if_neg h2] at h
  by_cases h3 : env.exceeded = true
  · rw [if_pos h3] at h; (cases hst : env.strict <;> simp [hst] at h)
  rw [if_neg h3] at h
  by_cases h4 : (!env.hasResolver) = true
  · rw [if_pos h4] at h; (cases hst : env.strict <;> simp [hst] at h)
  rw [if_neg h4] at h
  cases hp : prepare d.target (startsUri d.target) env.src env.primary env.baseDir with
  | baseDirRequired => rw [hp] at h; (cases hst : env.strict <;> simp [hst] at h)
  | panic => rw [hp] at h; simp at h
  | ok t =>
    rw [hp] at h
    simp only at h
    cases hr : resolve t with
    | ok bytes =>
      rw [hr] at h
      simp only at h
      cases hq : prep bytes with
      | none => rw [hq] at h; (cases hst : env.strict <;> simp [hst] at h)
      | some b =>
        rw [hq] at h
        simp only [Action.included.injEq] at h
        exact ⟨t, bytes, hr, by rw [hq, h]⟩
    | notFound =>
      rw [hr] at h
      simp only at h
      split at h
      · simp at h
      · cases hst : env.strict <;> simp [hst] at h
    | io => rw [hr] at h; (cases hst : env.strict <;> simp [hst] at h)
    | other => rw [hr] at h; (cases hst : env.strict <;> simp [hst] at h)

/-- C16, for whole include directives: in a mode that is neither unsafe nor secure, whatever text an include of a
file contributes was computed from the contents of a file inside the base directory. -/
theorem C16_included_text_inside_base_dir (fs : FS) (segs : List Char → List Seg)
    (canon : List Char → Option (List Name)) (hcanon : ∀ p c, canon p = some c → Leads fs [] (segs p) c)
    (strict : Bool) (mismatch : List Char → List Name → Bool) (env : Env) (hmode : env.mode ≠ .modeUnsafe)
    (remote : List Char → Resolved) (prep : Bytes → Option Bytes) (d : Directive) (out : Bytes)
    (h : (process env (fun t => match t with
        | .filePath p => cliResolveFile canon fs env.baseDir strict mismatch env.mode p
        | .uri u => remote u) prep d).action = .included out) :
    (∃ u bytes, remote u = .ok bytes ∧ prep bytes = some out) ∨
    (∃ base b c bytes, env.baseDir = some base ∧ Leads fs [] (segs base) b ∧ b <+: c ∧
      fs.content c = some bytes ∧ prep bytes = some out) := by
  obtain ⟨t, bytes, hres, hprep⟩ := process_included env _ prep d out h
  cases t with
  | uri u => exact .inl ⟨u, bytes, hres, hprep⟩
  | filePath p =>
    right
    have hok : cliResolveFile canon fs env.baseDir strict mismatch env.mode p = .ok bytes := hres
    obtain ⟨base, b, h1, h2, h3⟩ := C16_inside_base_dir fs segs canon hcanon env.baseDir strict mismatch env.mode hmode p
      bytes hok
    cases hc : canon p with
    | none => unfold cliResolveFile at hok; rw [hc] at hok; simp at hok
    | some c =>
      obtain ⟨h4, h5⟩ := h3 c (hcanon _ _ hc)
      exact ⟨base, b, c, bytes, h1, h2, h4, h5, hprep⟩

/-! ### C17 -/

/-- C17: in secure mode no docinfo file is requested. -/
theorem C17_secure_never_reads (hasResolver : Bool) (baseDir : Option (List Char)) (a : DocinfoAttrs) :
    docinfoRequests .modeSecure hasResolver baseDir a = [] := by
  simp [docinfoRequests]

/-- one value of the `docinfo` attribute -/
inductive DocinfoKey where
  /-- the scope; `none`: all three locations -/
  | shared (loc : Option (Fin 3))
  | own (loc : Option (Fin 3))
deriving DecidableEq

/-- the locations: head, header, footer -/
def locName : Fin 3 → List Char
  | 0 => "head".toList
  | 1 => "header".toList
  | 2 => "footer".toList

/-- the file name at a location: `docinfo.html`, `docinfo-header.html`, `docinfo-footer.html` -/
def locFile (suffix : List Char) : Fin 3 → List Char
  | 0 => "docinfo".toList ++ suffix
  | 1 => "docinfo-header".toList ++ suffix
  | 2 => "docinfo-footer".toList ++ suffix

/-- how it is written -/
def DocinfoKey.render : DocinfoKey → List Char
  | shared none => "shared".toList
  | shared (some l) => "shared-".toList ++ locName l
  | own none => "private".toList
  | own (some l) => "private-".toList ++ locName l

/-- which files are wanted at a location -/
def wantedAt (keys : List DocinfoKey) (suffix : List Char) (docname : Option (List Char)) (l : Fin 3) : List (List Char) :=
  (if .shared none ∈ keys ∨ .shared (some l) ∈ keys then [locFile suffix l] else []) ++
  (match docname with
    | some (c :: cs) =>
      if .own none ∈ keys ∨ .own (some l) ∈ keys then [(c :: cs) ++ '-' :: locFile suffix l] else []
    | _ => [])

/-- keys with spaces around, separated by commas -/
def renderKeys : List (Nat × DocinfoKey × Nat) → List (List Char)
  | [] => []
  | (i, k, j) :: ks => (List.replicate i ' ' ++ (k.render ++ List.replicate j ' ')) :: renderKeys ks

private theorem dropWhile_spaces (n : Nat) (l : List Char) : (List.replicate n ' ' ++ l).dropWhile IncludeProcess.isWs = l.dropWhile IncludeProcess.isWs := by
  induction n with
  | zero => rfl
  | succ n ih => rw [List.replicate_succ, List.cons_append, List.dropWhile_cons, if_pos (by decide), ih]

private theorem key_facts (k : DocinfoKey) : k.render ≠ [] ∧ ',' ∉ k.render ∧
    k.render.reverse.dropWhile IncludeProcess.isWs = k.render.reverse := by
  rcases k with ⟨_ | l'⟩ | ⟨_ | l'⟩
  · decide
  · revert l'; decide
  · decide
  · revert l'; decide

private theorem key_inj (x y : DocinfoKey) : x.render = y.render → x = y := by
  rcases x with ⟨_ | x⟩ | ⟨_ | x⟩ <;> rcases y with ⟨_ | y⟩ | ⟨_ | y⟩
  all_goals first | (revert x y; decide) | (revert x; decide) | (revert y; decide) | decide

private theorem trim_key (i j : Nat) (k : DocinfoKey) :
    IncludeProcess.trim (List.replicate i ' ' ++ (k.render ++ List.replicate j ' ')) = k.render := by
  have h1 : ∀ l, (k.render ++ l).dropWhile IncludeProcess.isWs = k.render ++ l := by
    intro l
    rcases k with ⟨_ | l'⟩ | ⟨_ | l'⟩ <;> rfl
  have h2 := (key_facts k).2.2
  unfold IncludeProcess.trim
  rw [dropWhile_spaces, h1, List.reverse_append, List.reverse_replicate, dropWhile_spaces, h2, List.reverse_reverse]

/-- C17: outside secure mode, a `docinfo` attribute that lists any of the documented values in any order, with any
spaces, requests exactly the files these values name: at each location first the shared file, then the private one
(if the document has a name), and no other file. -/
theorem C17_exact_requests (mode : SafeMode) (hm : mode ≠ .modeSecure) (baseDir : Option (List Char))
    (a : DocinfoAttrs) (ks : List (Nat × DocinfoKey × Nat)) (hks : ks ≠ [])
    (ha : a.docinfo = some (joinWith ',' (renderKeys ks))) :
    docinfoRequests mode true baseDir a =
      ([0, 1, 2].flatMap (wantedAt (ks.map fun k => k.2.1) (a.suffix.getD ".html".toList) a.docname)).map
        (docinfoTarget a baseDir) := by
  have hno : ∀ w ∈ renderKeys ks, ',' ∉ w := by
    clear ha hks
    induction ks with
    | nil => simp [renderKeys]
    | cons k ks ih =>
      obtain ⟨i, k, j⟩ := k
      intro w hw
      rcases List.mem_cons.mp hw with rfl | hw
      · simp only [List.mem_append, List.mem_replicate, not_or]
        exact ⟨by simp, (key_facts k).2.1, by simp⟩
      · exact ih w hw
  have hne : renderKeys ks ≠ [] := by
    cases ks with
    | nil => exact absurd rfl hks
    | cons k ks => simp [renderKeys]
  have hsplit := splitOn_joinWith ',' (renderKeys ks) hne hno
  have hlist : docinfoAttributes a = ks.map fun k => k.2.1.render := by
    have hmap : ((renderKeys ks).map IncludeProcess.trim).filter (fun p => decide (p ≠ [])) = ks.map fun k => k.2.1.render := by
      clear ha hks hno hne hsplit
      induction ks with
      | nil => rfl
      | cons k ks ih =>
        obtain ⟨i, k, j⟩ := k
        simp only [renderKeys, List.map_cons, trim_key]
        have := (key_facts k).1
        rw [List.filter_cons_of_pos (by simpa using this), ih]
    unfold docinfoAttributes
    rw [ha]
    cases hj : joinWith ',' (renderKeys ks) with
    | nil =>
      exfalso
      rw [hj] at hsplit
      cases ks with
      | nil => exact hks rfl
      | cons k ks =>
        obtain ⟨i, k, j⟩ := k
        have : renderKeys ((i, k, j) :: ks) = [[]] := hsplit.symm
        simp only [renderKeys, List.cons.injEq, List.append_eq_nil_iff] at this
        exact (key_facts k).1 this.1.2.1
    | cons c cs =>
      simp only
      rw [← hj, hsplit]
      exact hmap
  have hany : ∀ (p q : DocinfoKey), ((ks.map fun k => k.2.1.render).any fun v => v == p.render || v == q.render) = true ↔
      p ∈ ks.map (fun k => k.2.1) ∨ q ∈ ks.map (fun k => k.2.1) := by
    intro p q
    simp only [List.any_map, List.any_eq_true, Function.comp_apply, Bool.or_eq_true, beq_iff_eq, List.mem_map]
    constructor
    · rintro ⟨k, hk, h | h⟩
      · exact .inl ⟨k, hk, key_inj _ _ h⟩
      · exact .inr ⟨k, hk, key_inj _ _ h⟩
    · rintro (⟨k, hk, h⟩ | ⟨k, hk, h⟩)
      · exact ⟨k, hk, .inl (by rw [h])⟩
      · exact ⟨k, hk, .inr (by rw [h])⟩
  have hfiles : ∀ l : Fin 3, docinfoFiles a (ks.map fun k => k.2.1.render) (locFile (a.suffix.getD ".html".toList) l)
      (DocinfoKey.shared (some l)).render (DocinfoKey.own (some l)).render =
      wantedAt (ks.map fun k => k.2.1) (a.suffix.getD ".html".toList) a.docname l := by
    intro l
    unfold docinfoFiles wantedAt
    have h1 := hany (.shared none) (.shared (some l))
    have h2 := hany (.own none) (.own (some l))
    have e1 : "shared".toList = (DocinfoKey.shared none).render := rfl
    have e2 : "private".toList = (DocinfoKey.own none).render := rfl
    rw [e1, e2]
    congr 1
    · simp only [h1]
    · cases a.docname with
      | none => rfl
      | some n =>
        cases n with
        | nil => simp
        | cons c cs =>
          simp only
          congr 1
          rw [h2]
          simp
  unfold docinfoRequests
  have hrank : ¬ (decide (mode.rank ≥ SafeMode.modeSecure.rank)) = true := by
    cases mode <;> simp [SafeMode.rank] at *
  rw [if_neg hrank]
  simp only [hlist]
  rw [if_neg (by simpa using hks), if_neg (by simp)]
  congr 1
  have f0 := hfiles 0
  have f1 := hfiles 1
  have f2 := hfiles 2
  simp only [List.flatMap_cons, List.flatMap_nil, List.append_nil, ← f0, ← f1, ← f2]
  rw [List.append_assoc]
  congr 1

example : (wantedAt [.shared none, .own (some 1)] ".html".toList (some "doc".toList) 1) =
    ["docinfo-header.html".toList, "doc-docinfo-header.html".toList] := by decide

/-! ### C58 -/

/-- C58 is violated: outside secure mode, a document that sets `docinfodir` to a URL makes the program request a
remote file, without `allow-uri-read` being consulted. -/
theorem C58_docinfo_remote_violated :
    docinfoRequests .modeServer true (some "/d".toList)
      ⟨some "shared-head".toList, false, false, none, some "https://evil.com".toList, none⟩ =
      [.uri "https://evil.com/docinfo.html".toList] := by decide +kernel

/-- C58 is violated: an image target `http:/evil.com/x.png` is requested from the remote host without
`allow-uri-read`. -/
theorem C58_image_remote_violated :
    imageRequest false (some "/d".toList) none "http:/evil.com/x.png".toList false =
      some (.uri "http://evil.com/x.png".toList) := by decide +kernel

/-- C58, in part: with a local base directory and without `allow-uri-read`, an image or icon is requested from a
remote host only if its target, or an `imagesdir` that is not recognised as a URI, is itself a `http(s):` path. -/
theorem C58_image_needs_permission_partial (base : List Char) (imagesdir : Option (List Char)) (target u : List Char)
    (isUri : Bool) (hb : (Path.new base).isUri = false) (ht : (Path.new target).isUri = false)
    (hdir : ∀ dir, imagesdir = some dir → uriSniff dir = false → (Path.new dir).isUri = false) :
    imageRequest false (some base) imagesdir target isUri ≠ some (.uri u) := by
  have key : ∀ p : Path, p.isUri = false → some (Target.ofPath p) ≠ some (.uri u) := by
    intro p hp
    unfold Target.ofPath
    rw [if_neg (by simp [hp])]
    simp
  unfold imageRequest
  cases isUri with
  | true => simp
  | false =>
    simp only [Bool.false_eq_true, if_false, Bool.not_false, Bool.and_true]
    cases imagesdir with
    | none => exact key _ (join_isUri _ _ hb ht)
    | some dir =>
      simp only
      cases hs : uriSniff dir with
      | true => simp
      | false =>
        simp only [Bool.false_eq_true, if_false]
        exact key _ (join_isUri _ _ (join_isUri _ _ hb (hdir dir rfl hs)) ht)

/-- C58, in part: with a local base directory and a `docinfodir` that is not a URL, docinfo files are never remote. -/
theorem C58_docinfo_local_partial (a : DocinfoAttrs) (base file u : List Char) (hb : (Path.new base).isUri = false)
    (hf : (Path.new file).isUri = false) (hd : ∀ dir, a.docinfodir = some dir → (Path.new dir).isUri = false) :
    docinfoTarget a (some base) file ≠ .uri u := by
  have key : ∀ p : Path, p.isUri = false → Target.ofPath p ≠ .uri u := by
    intro p hp
    unfold Target.ofPath
    rw [if_neg (by simp [hp])]
    simp
  unfold docinfoTarget
  cases h : a.docinfodir with
  | none => exact key _ (join_isUri _ _ hb hf)
  | some dir =>
    simp only
    split
    · exact key _ (join_isUri _ _ (hd dir h) hf)
    · exact key _ (join_isUri _ _ (join_isUri _ _ hb (hd dir h)) hf)

/-! ### C59 -/

/-- C59 is violated: the lines of a docinfo file are run together, so the code after a `//` comment is lost. -/
theorem C59_docinfo_newlines_violated :
    docinfoText "<script>// a\ngo()</script>\n".toList = "<script>// ago()</script>".toList := by decide

/-- C59, in part: a one-line docinfo file is inserted as it is. -/
theorem C59_docinfo_one_line_partial (l : List Char) (h1 : '\n' ∉ l) (h2 : '\r' ∉ l) :
    docinfoText l = l ∧ docinfoText (l ++ ['\n']) = l := by
  have hn : ∀ x : List Char, '\r' ∉ x → docinfoNewlines x = x := by
    intro x hx
    induction x with
    | nil => rfl
    | cons c cs ih =>
      simp only [List.mem_cons, not_or] at hx
      unfold docinfoNewlines
      split
      · rename_i heq; cases heq
      · rename_i heq; simp at heq; exact absurd heq.1.symm hx.1
      · rename_i heq; simp at heq; exact absurd heq.1.symm hx.1
      · rename_i heq; simp at heq; obtain ⟨rfl, rfl⟩ := heq; rw [ih hx.2]
  have h3 : splitOn '\n' l = [l] := splitOn_part _ _ h1
  have h4 : splitOn '\n' (l ++ ['\n']) = [l, []] := by
    rw [splitOn_append _ _ _ h1]; rfl
  constructor
  · unfold docinfoText linesOf
    rw [hn l h2, h3]
    simp only [List.getLast?_singleton, Option.some.injEq]
    split
    · rename_i h; rw [h]; rfl
    · simp
  · unfold docinfoText linesOf
    rw [hn _ (by simp [h2]), h4]
    simp

end Verif.Props
