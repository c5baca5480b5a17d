import Verif.Lemmas.ImagePaths
/-!
Images: which file is asked for.
-/
namespace Verif.Images
open Verif.OpenTag Verif.IncludeProcess Verif.Path Verif.Split Verif.Spec.Images

/-- a relative or an absolute path -/
theorem normal_printed {s : Str} (h : Relative s ∨ Absolute s) :
    ∃ cs, Printed s cs ∧ s.head? = (if cs.head? = some .root then some '/' else s.head?) ∧
      ((cs.head? = some .root ∧ s.head? = some '/') ∨
        (s.head? ≠ some '/' ∧ ∃ ws, ws ≠ [] ∧ (∀ w ∈ ws, Part w) ∧ cs = ws.map compOf)) := by
  rcases h with ⟨ws, h0, hp, rfl, hd⟩ | ⟨r, ⟨ws, h0, hp, rfl, _⟩, rfl⟩
  · refine ⟨_, relative_printed h0 hp hd, ?_, .inr ⟨?_, ws, h0, hp, rfl⟩⟩
    · rw [if_neg]
      obtain ⟨w, ws, rfl⟩ := List.exists_cons_of_ne_nil h0
      simpa using (compOf_shown w).2.2.2.1
    · obtain ⟨c, cs, he, hc⟩ := parts_cons h0 hp
      rw [he]
      simpa using hc
  · exact ⟨_, absolute_printed h0 hp, by simp, .inl ⟨rfl, rfl⟩⟩

/-- joining is what the path means -/
theorem push_within {d t : Str} {cs : List Component} (hd : Printed d cs) (ht : Relative t ∨ Absolute t) :
    ∃ ds, Printed t ds ∧ ((⟨'/', cs⟩ : Path).push (Path.new t)).display = within d t ∧
      ((⟨'/', cs⟩ : Path).push (Path.new t) = ⟨'/', if t.head? = some '/' then ds else cs ++ ds⟩) ∧
      ∃ c, (if t.head? = some '/' then ds else cs ++ ds).getLast? = some c ∧ c.sepAfter = true := by
  obtain ⟨ds, hp, _, h⟩ := normal_printed ht
  refine ⟨ds, hp, ?_⟩
  rcases h with ⟨hr, hs⟩ | ⟨hs, ws, h0, hws, rfl⟩
  · obtain ⟨c, ds, rfl⟩ : ∃ c cs, ds = c :: cs := by cases ds with | nil => cases hr | cons c cs => exact ⟨c, cs, rfl⟩
    cases hr
    rw [join_absolute hp]
    refine ⟨by simp [Path.display, hp.shown, within, hs], by simp [hs], ?_⟩
    rw [if_pos hs]
    exact hp.last
  · obtain ⟨_, h1, h2⟩ := join_relative hd h0 hws hp
    rw [h1]
    refine ⟨by simp [Path.display, h2, within, hs], by simp [hs], ?_⟩
    rw [if_neg hs]
    obtain ⟨c, hc, hl⟩ := hp.last
    exact ⟨c, by rw [List.getLast?_append, hc]; rfl, hl⟩

theorem head_within {d t : Str} (hd : d.head? = some '/') : (within d t).head? = some '/' := by
  unfold within
  split
  · assumption
  · cases d with
    | nil => cases hd
    | cons c d => simpa using hd

/-- a path that starts at the root is no web address -/
theorem root_isUri {cs : List Component} (h : cs.head? = some .root) : (⟨'/', cs⟩ : Path).isUri = false := by
  simp [Path.isUri, h]

theorem ofPath_file {p : Path} (h : p.isUri = false) : Target.ofPath p = .filePath p.display := by simp [Target.ofPath, h]

theorem ofPath_uri {p : Path} (h : p.isUri = true) : Target.ofPath p = .uri p.display := by simp [Target.ofPath, h]

theorem join_push (p q : Path) : p.join q = p.push q := rfl

theorem sniff_colon {s : Str} (h : ':' ∉ s) : uriSniff s = false := by
  cases s with
  | nil => rfl
  | cons c cs =>
    simp only [uriSniff]
    rw [Bool.and_eq_false_iff]
    right
    rw [Bool.and_eq_false_iff]
    right
    cases hd : (cs.drop (cs.takeWhile fun d => asciiAlpha d || d.isDigit || d = '.' || d = '+' || d = '-').length).head? with
    | none => rfl
    | some x =>
      have hx : x ∈ cs := by
        have := List.mem_of_mem_head? hd
        exact List.mem_of_mem_drop this
      have : x ≠ ':' := fun e => h (List.mem_cons_of_mem _ (e ▸ hx))
      simpa using this

/-- the file that is asked for, with a directory of images on the same machine -/
theorem request_within {allow : Bool} {base t : Str} {dir : Option Str} (hb : Absolute base)
    (hdir : ∀ d, dir = some d → (Relative d ∨ Absolute d) ∧ ':' ∉ d) (ht : Relative t ∨ Absolute t) :
    imageRequest allow (some base) dir t false = some (.filePath (within base (withinOpt dir t))) := by
  obtain ⟨cs, hp, _, h⟩ := normal_printed (.inr hb)
  have hbs : base.head? = some '/' := by obtain ⟨r, _, rfl⟩ := hb; rfl
  have hroot : cs.head? = some .root := by
    rcases h with h | ⟨h, _⟩
    · exact h.1
    · exact absurd hbs h
  have key : ∀ (b : Str) (bs : List Component), Printed b bs → bs.head? = some .root → b.head? = some '/' →
      Target.ofPath ((⟨'/', bs⟩ : Path).join (Path.new t)) = .filePath (within b t) := by
    intro b bs hb hr hs
    obtain ⟨ds, hds, h1, h2, _⟩ := push_within hb ht
    have hu : ((⟨'/', bs⟩ : Path).push (Path.new t)).isUri = false := by
      rw [h2]
      apply root_isUri
      split
      · rename_i hts
        obtain ⟨es, hes, _, hx⟩ := normal_printed ht
        rcases hx with hx | ⟨hx, _⟩
        · have : es = ds := by have := hes.new; rw [hds.new] at this; cases this; rfl
          rw [← this]; exact hx.1
        · exact absurd hts hx
      · cases bs with | nil => cases hr | cons c bs => simpa using hr
    rw [join_push, ofPath_file hu, h1]
  unfold imageRequest
  rw [if_neg (by simp), if_neg (by simp)]
  simp only
  cases dir with
  | none =>
    simp only [withinOpt]
    rw [hp.new, key base cs hp hroot hbs]
  | some d =>
    obtain ⟨hd, hc⟩ := hdir d rfl
    simp only [sniff_colon hc, Bool.false_and, Bool.false_eq_true, if_false, withinOpt]
    rw [hp.new]
    obtain ⟨ds, hds, h1, h2, hl⟩ := push_within hp hd
    have hpr : ∃ bs, (⟨'/', cs⟩ : Path).join (Path.new d) = ⟨'/', bs⟩ ∧ bs.head? = some .root ∧ displayFrom '/' bs = within base d ∧
        ∃ c, bs.getLast? = some c ∧ c.sepAfter = true := by
      refine ⟨_, h2, ?_, by rw [← h1, h2]; rfl, hl⟩
      split
      · rename_i hts
        obtain ⟨es, hes, _, hx⟩ := normal_printed hd
        rcases hx with hx | ⟨hx, _⟩
        · have : es = ds := by have := hes.new; rw [hds.new] at this; cases this; rfl
          rw [← this]; exact hx.1
        · exact absurd hts hx
      · cases cs with | nil => cases hroot | cons c bs => simpa using hroot
    obtain ⟨bs, e1, e2, e3, e4⟩ := hpr
    rw [e1]
    obtain ⟨es, hes, _, hx⟩ := normal_printed ht
    have hw : within base (within d t) = within (within base d) t := by
      unfold within
      by_cases h1 : t.head? = some '/'
      · simp [h1]
      · rw [if_neg h1, if_neg h1]
        have : (d ++ '/' :: t).head? = d.head? := by
          have hne : d ≠ [] := by
            intro e
            rcases hd with ⟨ws, h0, hp', e', _⟩ | ⟨r, _, e'⟩
            · obtain ⟨c, cs, he, _⟩ := parts_cons h0 hp'; rw [e, he] at e'; cases e'
            · rw [e] at e'; cases e'
          obtain ⟨c, d, rfl⟩ := List.exists_cons_of_ne_nil hne
          rfl
        rw [this]
        split
        · rfl
        · rw [List.append_assoc]; rfl
    rw [hw]
    congr 1
    rcases hx with ⟨hr, hs⟩ | ⟨hs, ws, h0, hws, rfl⟩
    · obtain ⟨c, es, rfl⟩ : ∃ c cs, es = c :: cs := by cases es with | nil => cases hr | cons c cs => exact ⟨c, cs, rfl⟩
      cases hr
      rw [join_push, join_absolute hes, ofPath_file (root_isUri rfl)]
      simp [Path.display, hes.shown, within, hs]
    · have hj : (⟨'/', bs⟩ : Path).push (Path.new t) = ⟨'/', bs ++ ws.map compOf⟩ := by
        rw [hes.new]
        simp [Path.push, parts_relative h0]
      rw [join_push, hj, ofPath_file (root_isUri (by cases bs with | nil => cases e2 | cons c bs => simpa using e2))]
      simp only [Path.display]
      rw [displayFrom_append e4 (by simpa using h0), e3, hes.shown]
      rw [show within (within base d) t = within base d ++ '/' :: t from if_neg hs]

/-- the address of an image in a directory -/
theorem imgPath_within {m : DocumentMeta} {t : Str} (hdir : ∀ d, str m "imagesdir" = some d → Relative d ∨ Absolute d ∨ Remote d)
    (ht : Relative t ∨ Absolute t) : imgPath m t = withinOpt (str m "imagesdir") t := by
  unfold imgPath
  cases hd : str m "imagesdir" with
  | none => rfl
  | some d =>
    have : ∃ cs, Printed d cs := by
      rcases hdir d hd with h | h | ⟨r, ⟨ws, h0, hp, rfl, _⟩, rfl | rfl⟩
      · obtain ⟨cs, h, _⟩ := normal_printed (.inl h); exact ⟨cs, h⟩
      · obtain ⟨cs, h, _⟩ := normal_printed (.inr h); exact ⟨cs, h⟩
      · exact ⟨_, remote_printed (sch := "http".toList) h0 hp (.inl rfl)⟩
      · exact ⟨_, remote_printed (sch := "https".toList) h0 hp (.inr rfl)⟩
    obtain ⟨cs, hp⟩ := this
    obtain ⟨_, _, h, _⟩ := push_within hp ht
    simp only [hp.sep, withinOpt]
    exact h

theorem sniff_remote {d : Str} (h : Remote d) : uriSniff d = true := by
  obtain ⟨r, _, rfl | rfl⟩ := h <;>
    simp [uriSniff, asciiAlpha, List.takeWhile]

/-- the address that is asked for, with a directory of images on the web -/
theorem request_remote {base t d : Str} (hd : Remote d) (ht : Relative t) :
    imageRequest true (some base) (some d) t false = some (.uri (d ++ '/' :: t)) := by
  unfold imageRequest
  rw [if_neg (by simp), if_neg (by simp)]
  simp only [sniff_remote hd, Bool.not_true, Bool.and_false, Bool.false_eq_true, if_false, if_true]
  obtain ⟨ws', h0', hp', rfl, hd'⟩ := ht
  have htp := relative_printed h0' hp' hd'
  have : ∃ cs sch, Printed d (.uriScheme sch :: cs) := by
    obtain ⟨r, ⟨ws, h0, hp, rfl, _⟩, rfl | rfl⟩ := hd
    · exact ⟨_, _, remote_printed (sch := "http".toList) h0 hp (.inl rfl)⟩
    · exact ⟨_, _, remote_printed (sch := "https".toList) h0 hp (.inr rfl)⟩
  obtain ⟨cs, sch, hp⟩ := this
  obtain ⟨_, h1, h2⟩ := join_relative hp h0' hp' htp
  rw [hp.new, join_push, h1, ofPath_uri (by rfl), Path.display, h2]

/-- the letters of encoded data -/
theorem encode_plain {bytes : List UInt8} {out : Str} (h : Base64.encode bytes = some out) : '"' ∉ out ∧ '&' ∉ out := by
  have hd : ∀ i c, Base64.digit i = some c → c ≠ '"' ∧ c ≠ '&' := by
    intro i c hc
    have : ∀ c ∈ Base64.alphabet, c ≠ '"' ∧ c ≠ '&' := by decide
    exact this c (List.mem_of_getElem? hc)
  suffices ∀ c ∈ out, c ≠ '"' ∧ c ≠ '&' from ⟨fun h => (this _ h).1 rfl, fun h => (this _ h).2 rfl⟩
  induction bytes using Base64.encode.induct generalizing out with
  | case1 => simp [Base64.encode] at h; subst h; simp
  | case2 a =>
    simp only [Base64.encode, Option.bind_eq_bind, Option.bind_eq_some_iff, Option.pure_def, Option.some.injEq] at h
    obtain ⟨a, ha, b, hb, rfl⟩ := h
    simp [hd _ _ ha, hd _ _ hb]
  | case3 a b =>
    simp only [Base64.encode, Option.bind_eq_bind, Option.bind_eq_some_iff, Option.pure_def, Option.some.injEq] at h
    obtain ⟨a, ha, b, hb, c, hc, rfl⟩ := h
    simp [hd _ _ ha, hd _ _ hb, hd _ _ hc]
  | case4 a b c rest ih =>
    simp only [Base64.encode, Option.bind_eq_bind, Option.bind_eq_some_iff, Option.pure_def, Option.some.injEq] at h
    obtain ⟨a, ha, b, hb, c, hc, d, hdd, tl, ht, rfl⟩ := h
    have := ih ht
    simp only [List.mem_cons]
    rintro x (rfl | rfl | rfl | rfl | hx)
    · exact hd _ _ ha
    · exact hd _ _ hb
    · exact hd _ _ hc
    · exact hd _ _ hdd
    · exact this x hx

end Verif.Images
