import Verif.Model.InlineText
import Verif.Spec.Phrases
/-!
Specification: what email addresses look like.
-/
namespace Verif.Inlines
open Verif

/-- a lower case letter or a digit -/
def lowerNum (c : Char) : Bool := c.isLower || c.isDigit

/-- what stands before the `@`: letters, digits, underscores, plus signs and full stops, but no full stop at the ends -/
structure LocalPart (l : List Char) : Prop where
  nonempty : l ≠ []
  chars : ∀ c ∈ l, lowerNum c = true ∨ c = '_' ∨ c = '+' ∨ c = '.'
  start : l.head? ≠ some '.'
  stop : l.getLast? ≠ some '.'

/-- one or more lower case letters and digits -/
def Label (l : List Char) : Prop := l ≠ [] ∧ ∀ c ∈ l, lowerNum c = true

/-- names joined by single full stops and hyphens -/
inductive Host : List Char → Prop where
  | one {l} : Label l → Host l
  | more {h l c} : Host h → c = '.' ∨ c = '-' → Label l → Host (h ++ c :: l)

/-- what stands after the `@`: a host name, a full stop and two to six lower case letters -/
def Domain (d : List Char) : Prop := ∃ h t, d = h ++ '.' :: t ∧ Host h ∧ 2 ≤ t.length ∧ t.length ≤ 6 ∧ ∀ c ∈ t, c.isLower = true

/-- an address: names and numbers, each with a full stop or an underscore after it; digits; a name; the domain -/
structure Mail where
  parts : List (List Char × Char) := []
  digits : List Char := []
  name : List Char
  domain : List Char

/-- what stands before the `@` -/
def Mail.user (m : Mail) : List Char := m.parts.flatMap (fun p => p.1 ++ [p.2]) ++ m.digits ++ m.name

/-- the address as it is written -/
def Mail.address (m : Mail) : List Char := m.user ++ '@' :: m.domain

/-- the last name starts with a letter -/
structure Mail.Ok (m : Mail) : Prop where
  parts : ∀ p ∈ m.parts, Label p.1 ∧ (p.2 = '.' ∨ p.2 = '_')
  digits : ∀ c ∈ m.digits, c.isDigit = true
  name : Label m.name
  letter : ∀ c, m.name.head? = some c → c.isLower = true
  domain : Domain m.domain

/-- plain text in one line, an address, plain text: white space or punctuation other than a full stop stands around the address.
The address does not start with digits at the start of the line, unless a full stop or an underscore follows. -/
structure MailLine (pre : List Char) (m : Mail) (post : List Char) : Prop where
  ok : m.Ok
  preOk : ∀ c ∈ pre, isPlain c = true ∧ c ≠ '\n'
  preRuns : noRuns pre = true
  before : ∀ c, pre.getLast? = some c → c ∈ " ,!?".toList
  start : pre = [] → m.parts = [] → m.digits = []
  postOk : ∀ c ∈ post, isPlain c = true ∧ c ≠ '\n'
  postRuns : noRuns post = true
  after : ∀ c, post.head? = some c → c ∈ " ,!?".toList

end Verif.Inlines
