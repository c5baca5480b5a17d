import Verif.Model.AuthorLine
/-!
Specification: how an author line and a revision line are written.
-/
namespace Verif.AuthorLine
open Regex

/-- the ASCII classes, for examples -/
def ascii : Classes where
  word c := c.isAlphanum || c = '_'
  digit c := c.isDigit
  word_ascii _ _ := rfl
  digit_ascii _ _ := rfl
  digit_word c h := by simp [Char.isAlphanum, h]
  word_space c h := by
    simp only [Char.isAlphanum, Char.isAlpha, Char.isUpper, Char.isLower, Char.isDigit, Bool.or_eq_true, Bool.and_eq_true, decide_eq_true_eq,
      ge_iff_le, UInt32.le_iff_toNat_le] at h
    have e : c.toNat = c.val.toNat := rfl
    have h' : (48 ≤ c.toNat ∧ c.toNat ≤ 57) ∨ (65 ≤ c.toNat ∧ c.toNat ≤ 90) ∨ (97 ≤ c.toNat ∧ c.toNat ≤ 122) ∨ c.toNat = 95 := by
      rcases h with ((h | h) | h) | h
      · exact .inr (.inl h)
      · exact .inr (.inr (.inl h))
      · exact .inl h
      · subst h; exact .inr (.inr (.inr rfl))
    simp only [space, Bool.or_eq_false_iff, Bool.and_eq_false_iff, decide_eq_false_iff_not, beq_eq_false_iff_ne]
    omega

/-- spaces in a name are written as underscores -/
def underscored (l : List Char) : List Char := l.map fun c => if c = ' ' then '_' else c

/-- an author as it is written: the names, the e-mail address (what stands before the `@` and behind it), and the white space
between them -/
structure Written where
  first : List Char
  /-- a dot behind the first name -/
  dot : Bool
  gap : List Char
  middle : List Char
  gap2 : List Char
  last : List Char
  gap3 : List Char
  email : Option (List Char × List Char)

/-- white space, at least one character of it -/
def isGap (l : List Char) : Bool := l ≠ [] && l.all space

/-- The names are not empty. The first name and the last name hold no underscores (these stand for spaces), no `<` and no `;`,
and no white space but spaces; the first name holds no dot. The last name consists of word characters and spaces. The middle
names are written as they are; they start and end with something else than white space. Without middle names there is one
character of white space between the names. -/
def Written.ok (word : Char → Bool) (w : Written) : Bool :=
  w.first ≠ [] && w.first.all (fun c => c ≠ '<' && c ≠ '.' && c ≠ ';' && c ≠ '_' && (c = ' ' || !space c)) &&
    isGap w.gap &&
    (if w.middle = [] then w.gap.length = 1 && w.gap2 = []
     else w.middle.all (fun c => c ≠ '<' && c ≠ ';' && c ≠ '_') && w.middle.head?.all (!space ·) && w.middle.getLast?.all (!space ·) && isGap w.gap2) &&
    w.last ≠ [] && w.last.all (fun c => c = ' ' || (word c && c ≠ '_')) &&
    (match w.email with
     | none => w.gap3 = []
     | some (user, host) =>
       isGap w.gap3 && user ≠ [] && user.all (fun c => !space c && c ≠ '>' && c ≠ '@') && host ≠ [] && host.all (fun c => !space c && c ≠ '>'))

/-- the address -/
def emailText : List Char × List Char → List Char
  | (user, host) => user ++ '@' :: host

/-- the text -/
def Written.text (w : Written) : List Char :=
  underscored w.first ++ (if w.dot then ['.'] else []) ++ w.gap ++ w.middle ++ w.gap2 ++ underscored w.last ++ w.gap3 ++
    (match w.email with | none => [] | some e => '<' :: emailText e ++ ['>'])

/-- who is meant -/
def Written.author (w : Written) : Author :=
  ⟨w.first ++ (if w.dot then ['.'] else []), if w.middle = [] then none else some w.middle, w.last, w.email.map emailText⟩

/-- authors, with the white space before and behind the `;` after each of them -/
def authorLine : Written → List (List Char × List Char × Written) → List Char
  | w, [] => w.text
  | w, (a, b, w') :: rest => w.text ++ a ++ ';' :: b ++ authorLine w' rest

/-- a revision line: the version (what stands before the number, the number), the date and the remark, and white space before
the date and the remark -/
structure Rev where
  pre : List Char
  number : List Char
  date : Option (List Char × List Char)
  remark : Option (List Char × List Char)

/-- A number starts with a digit. A version holds no white space, no comma and no colon. A date holds no colon. A date and a
remark are not empty, and start with something else than white space. A remark holds no line break. -/
def Rev.ok (digit : Char → Bool) (r : Rev) : Bool :=
  r.pre.all (fun c => !digit c && !space c && c ≠ ',' && c ≠ ':') &&
    r.number.head?.any Char.isDigit && r.number.all (fun c => !space c && c ≠ ',' && c ≠ ':') &&
    r.date.all (fun d => d.1.all space && d.2 ≠ [] && d.2.head?.all (!space ·) && d.2.all (· ≠ ':')) &&
    r.remark.all (fun d => d.1.all space && d.2 ≠ [] && d.2.head?.all (!space ·) && d.2.all (· ≠ '\n'))

/-- the text -/
def Rev.text (r : Rev) : List Char :=
  r.pre ++ r.number ++ (match r.date with | none => [] | some (a, d) => ',' :: a ++ d) ++ (match r.remark with | none => [] | some (a, d) => ':' :: a ++ d)

end Verif.AuthorLine
