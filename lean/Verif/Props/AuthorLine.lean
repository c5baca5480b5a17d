import Verif.Lemmas.AuthorLine
/-!
C75: the authors of an author line are read as they are written.
C76: the parts of a revision line are read as they are written.
-/
namespace Verif.Props
open Verif.Regex Verif.AuthorLine

/-- **C75 (part).** For every author line (`authorLine`: one author or more, separated by `;`, perhaps with white space around
it and behind the line): the authors that are found are those that are written, with their first name, middle names, last name
and e-mail address, in this order, and the line is not reported as invalid. What is missing: last names with other characters
than word characters (`C75_hyphen_violated`), authors with one name (`C75_one_name_violated`), more than one space between first
and last name (`C75_two_spaces_violated`). -/
theorem C75_authors_partial (cl : Classes) {w : Written} {rest : List (List Char × List Char × Written)} (hw : w.ok cl.word = true)
    (hr : ∀ p ∈ rest, p.1.all space = true ∧ p.2.1.all space = true ∧ p.2.2.ok cl.word = true) {trail : List Char} (ht : trail.all space = true) :
    parseAuthorLine cl.word (authorLine w rest ++ trail) = some (w.author :: rest.map (·.2.2.author), false) :=
  line_read cl hw hr ht

/-- No author line makes the parser panic, and the names of every author that is found can be abbreviated to initials (they are
not empty; `unwrap` in `Author::initials`). -/
theorem C75_no_panic (word : Char → Bool) (line : List Char) : ∃ as e, parseAuthorLine word line = some (as, e) ∧ ∀ a ∈ as, a.first ≠ [] ∧ a.last ≠ [] :=
  author_total line

/-- An author line that starts with something else than a name (white space, `<` or a full stop) is reported as invalid. -/
theorem C75_reported (word : Char → Bool) (c : Char) (l : List Char) (hc : space c = true ∨ c = '<' ∨ c = '.') (as : List Author) (e : Bool)
    (h : parseAuthorLine word (c :: l) = some (as, e)) : e = true := reported hc h

example : parseAuthorLine ascii.word "<Bob Foo".toList = some ([⟨"Bob".toList, none, "Foo".toList, none⟩], true) := by decide +kernel

/-- C75 fails for an author with one name: the last letter is taken as the last name. -/
theorem C75_one_name_violated : parseAuthorLine ascii.word "Bob".toList = some ([⟨"Bo".toList, none, "b".toList, none⟩], false) := by
  decide +kernel

/-- C75 fails for a last name with a hyphen: the part before it is taken as the middle name. -/
theorem C75_hyphen_violated :
    parseAuthorLine ascii.word "Mary Smith-Jones".toList = some ([⟨"Mary".toList, some "Smith-".toList, "Jones".toList, none⟩], false) := by
  decide +kernel

/-- C75 fails for two spaces between the names: there is an empty middle name. -/
theorem C75_two_spaces_violated : parseAuthorLine ascii.word "Bob  Foo".toList = some ([⟨"Bob".toList, some [], "Foo".toList, none⟩], false) := by
  decide +kernel

/-- **C76 (part).** For every revision line (a version with a number in it, and perhaps a date and a remark): the number, the
date and the remark are what is written. When there is only a version, it has to be `v` and a number of at least two
characters; other versions are taken from the document without setting the number (`C76_one_digit_violated`). -/
theorem C76_revision_partial (cl : Classes) {r : Rev} (h : r.ok cl.digit = true) (hv : r.date.isSome ∨ r.remark.isSome ∨ (r.pre = ['v'] ∧ 2 ≤ r.number.length)) :
    parseRevisionLine cl r.text = some (some ⟨some r.number, r.date.map (·.2), r.remark.map (·.2)⟩) := by
  rw [rev_read h, if_pos hv]

/-- Versions that are not `v` and a number are taken from the document, and nothing is set. -/
theorem C76_only_version (cl : Classes) {r : Rev} (h : r.ok cl.digit = true) (hd : r.date = none) (hm : r.remark = none) (hv : ¬(r.pre = ['v'] ∧ 2 ≤ r.number.length)) :
    parseRevisionLine cl r.text = some (some {}) := by
  rw [rev_read h, if_neg (by simp [hd, hm, hv]), hd, hm]
  rfl

/-- No revision line makes the parser panic: a version with a digit in it has a number. -/
theorem C76_no_panic (cl : Classes) (src : List Char) : parseRevisionLine cl src ≠ none := rev_total cl src

/-- C76 fails for `v1`: the revision number is not set. -/
theorem C76_one_digit_violated : parseRevisionLine ascii "v1".toList = some (some {}) := by
  decide +kernel

section Example
private def bob : Written := ⟨"Bob".toList, false, [' '], "L. van der".toList, [' '], "Foo Bar".toList, [' '], some ("bob".toList, "foo.com".toList)⟩
private def ann : Written := ⟨"Ann Marie".toList, true, [' '], [], [], "Jenson".toList, [], none⟩
example : bob.ok ascii.word = true ∧ ann.ok ascii.word = true := by decide +kernel
example : authorLine bob [([], [' '], ann)] = "Bob L. van der Foo_Bar <bob@foo.com>; Ann_Marie. Jenson".toList := by decide +kernel
private def rev1 : Rev := ⟨"LPR".toList, "5.5".toList, some ([' '], "October 31, 2021".toList), some ([' '], "Fall: incarnation".toList)⟩
example : rev1.ok ascii.digit = true ∧ rev1.text = "LPR5.5, October 31, 2021: Fall: incarnation".toList := by decide +kernel
example : Rev.ok ascii.digit ⟨['v'], "7.5".toList, none, none⟩ = true := by decide +kernel
end Example

end Verif.Props
