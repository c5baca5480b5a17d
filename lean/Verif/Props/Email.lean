import Verif.Props.Inlines
import Verif.Lemmas.EmailText
/-!
# C84: email addresses in running text become links
-/
namespace Verif.Props
open Verif Verif.Inlines TokenKind

/-- **C84** (links), partial: in a line of plain text an email address becomes a link to this address, all of it and nothing
else; the text around it is kept.

Missing: a full stop or a closing mark right after the address (`C84_full_stop_violated`, `C84_closing_mark_violated`), hyphens and
upper case in it (`C84_hyphen_violated`, `C84_upper_case_violated`), names that end with a number on its own or start with digits at
the start of a line (`C84_number_violated`, `C84_digits_first_violated`), plus signs, other formatting in the same line. -/
theorem C84_address_is_link_partial {env : Env} (hst : ∀ l, env.stops l = false) {subs : Substitutions} (hm : subs.contains .macros = true)
    {pre post : List Char} {m : Mail} (h : MailLine pre m post) :
    ∃ o, parse env subs (linesOf (String.ofList (pre ++ m.address ++ post))) = .ok o ∧
      o.nodes = textNode pre ++ .leaf (.link m.address) :: textNode post ∧ o.lines = [] := by
  obtain ⟨ta, u, tp, h1, h2, h3, h4, h5, h6, h7⟩ := mail_line h
  rw [h1, ← h2, ← h3, ← h7]
  exact parse_email hst hm h4 h5 h6

/-- **C84** (addresses): a token of the text is taken for an address exactly when it starts with a user name, an `@` and a domain
(`LocalPart`, `Domain`). -/
theorem C84_what_is_an_address (s : List Char) :
    isAddress s = true ↔ ∃ user domain rest, s = user ++ '@' :: (domain ++ rest) ∧ LocalPart user ∧ Domain domain :=
  isAddress_iff s

/-- **C84** (no text is lost): whatever is taken for an address, the characters of the line stay, in order. -/
theorem C84_text_is_kept (l : List Tok) : (finishLine l).flatMap Tok.lexeme = l.flatMap Tok.lexeme := finishLine_text l

/-- **C84** (nothing else is a link): a token of a line is marked as an address only if it starts with one. -/
theorem C84_only_addresses {l : List Tok} (hl : ∀ t ∈ l, t.kind ≠ Email) {u : Tok} (hu : u ∈ finishLine l) (hk : u.kind = Email) :
    ∃ user domain rest, u.lexeme = user ++ '@' :: (domain ++ rest) ∧ LocalPart user ∧ Domain domain := by
  rw [← isAddress_iff]
  exact fold_email l [] hl nofun u hu hk

/-- **C84** (ellipses): two or more full stops are not a part of the address after them, so what stands before them is not either: the tokens of the line
stay as they are, and the new one is an address exactly when it starts with one. -/
theorem C84_ellipsis (a d t : Tok) (l : List Tok) (hd : d.kind = Dots) (h2 : d.len > 1) (ht : t.kind = MaybeEmail) :
    ∃ u, pushTok (a :: l ++ [d]) t = a :: l ++ [d, u] ∧ u.lexeme = t.lexeme ∧
      (u.kind = Email ↔ ∃ user domain rest, t.lexeme = user ++ '@' :: (domain ++ rest) ∧ LocalPart user ∧ Domain domain) := by
  refine ⟨retag t, ?_, rfl, ?_⟩
  · have hi : (a :: l ++ [d]).length - 1 = l.length + 1 := by simp
    have hs : addressStart (a :: l ++ [d]) (l.length + 1) = l.length + 1 := by
      unfold addressStart
      simp [hd, h2]
    simp only [pushTok, ht, if_true, finalizeEmail, hi, hs]
    simp
  · rw [← isAddress_iff]
    unfold retag
    by_cases h : isAddress t.lexeme = true <;> simp [h]

example : nodesOf (parse para .normal (linesOf "so wait..jane@example.com")) =
    .ok [.leaf (.text "so wait..".toList), .leaf (.link "jane@example.com".toList)] := by decide +kernel

/-! ### where the code falls short -/

/-- the full stop after an address becomes a part of the link -/
theorem C84_full_stop_violated : nodesOf (parse para .normal (linesOf "write to jane@example.com. Thanks")) =
    .ok [.leaf (.text "write to ".toList), .leaf (.link "jane@example.com.".toList), .leaf (.text " Thanks".toList)] := by decide +kernel

/-- a formatting mark after an address becomes a part of the link, and the phrase is lost -/
theorem C84_closing_mark_violated : nodesOf (parse para .normal (linesOf "_jane@example.com_")) =
    .ok [.leaf (.text "_".toList), .leaf (.link "jane@example.com_".toList)] := by decide +kernel

/-- the link for an address with a hyphen goes to another address -/
theorem C84_hyphen_violated : nodesOf (parse para .normal (linesOf "jane-doe@example.com")) =
    .ok [.leaf (.text "jane-".toList), .leaf (.link "doe@example.com".toList)] := by decide +kernel

/-- addresses with upper case letters are not links -/
theorem C84_upper_case_violated : nodesOf (parse para .normal (linesOf "Jane@Example.com")) =
    .ok [.leaf (.text "Jane@Example.com".toList)] := by decide +kernel

/-- an address whose name ends with a number on its own is no link -/
theorem C84_number_violated : nodesOf (parse para .normal (linesOf "jane.42@example.com")) =
    .ok [.leaf (.text "jane.42@example.com".toList)] := by decide +kernel

/-- at the start of a line digits are left out of the address, elsewhere they are not -/
theorem C84_digits_first_violated :
    nodesOf (parse para .normal (linesOf "7up@example.com")) = .ok [.leaf (.text "7".toList), .leaf (.link "up@example.com".toList)] ∧
    nodesOf (parse para .normal (linesOf "a 7up@example.com")) = .ok [.leaf (.text "a ".toList), .leaf (.link "7up@example.com".toList)] := by
  decide +kernel

/-! ### the hypotheses are met -/

/-- `jane.doe_42x7@mail-1.example.com` -/
def someMail : Mail := ⟨[("jane".toList, '.'), ("doe".toList, '_')], "42".toList, "x7".toList, "mail-1.example.com".toList⟩

theorem someMail_ok : someMail.Ok := by
  refine ⟨by unfold someMail Label; decide, by decide, by unfold Label; decide, by intro c hc; cases hc; decide, ?_⟩
  refine ⟨"mail-1.example".toList, "com".toList, rfl, ?_, by decide, by decide, by decide⟩
  exact .more (h := "mail-1".toList) (.more (h := "mail".toList) (l := "1".toList) (.one (by unfold Label; decide)) (.inr rfl) (by unfold Label; decide))
    (.inl rfl) (by unfold Label; decide)

example : MailLine "Hello, write to ".toList someMail ", please. Now!".toList ∧ someMail.address = "jane.doe_42x7@mail-1.example.com".toList ∧
    Substitutions.normal.contains .macros = true ∧ (∀ l, para.stops l = false) := by
  refine ⟨⟨someMail_ok, by decide, by decide, ?_, nofun, by decide, by decide, ?_⟩, by decide, by decide, fun _ => rfl⟩
  · intro c hc; cases hc; decide
  · intro c hc; cases hc; decide

example : MailLine [] { name := "jane".toList, domain := "example.com".toList } [] :=
  ⟨⟨nofun, nofun, by unfold Label; decide, by intro c hc; cases hc; decide, "example".toList, "com".toList, rfl,
    .one (by unfold Label; decide), by decide, by decide, by decide⟩, nofun, rfl, nofun, fun _ _ => rfl, nofun, rfl, nofun⟩

example : LocalPart "a.b+c_1".toList ∧ Domain "x-y.z.org".toList := by
  refine ⟨⟨by decide, by decide, by decide, by decide⟩, "x-y.z".toList, "org".toList, rfl, ?_, by decide, by decide, by decide⟩
  exact .more (h := "x-y".toList) (.more (h := "x".toList) (.one (by unfold Label; decide)) (.inr rfl) (by unfold Label; decide)) (.inl rfl) (by unfold Label; decide)

end Verif.Props
