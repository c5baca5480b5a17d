/-! Model of `core/src/special_sect.rs`. -/
namespace Verif

/-- `core/src/special_sect.rs:3-14` -/
inductive SpecialSection where
  | abstract | colophon | dedication | acknowledgments | preface | appendix | glossary | bibliography
  | index
deriving DecidableEq, Repr

/-- `core/src/special_sect.rs:17-29` -/
def SpecialSection.toStr : SpecialSection → String
  | .abstract => "abstract"
  | .colophon => "colophon"
  | .dedication => "dedication"
  | .acknowledgments => "acknowledgments"
  | .preface => "preface"
  | .appendix => "appendix"
  | .glossary => "glossary"
  | .bibliography => "bibliography"
  | .index => "index"

/-- `core/src/special_sect.rs:31-43` -/
def SpecialSection.supportsSubsections : SpecialSection → Bool
  | .abstract => true
  | .colophon => false
  | .dedication => false
  | .acknowledgments => true
  | .preface => true
  | .appendix => true
  | .glossary => false
  | .bibliography => false
  | .index => true

/-- `core/src/special_sect.rs:46-62` -/
def SpecialSection.parse (s : String) : Option SpecialSection :=
  if s = "abstract" then some .abstract
  else if s = "colophon" then some .colophon
  else if s = "dedication" then some .dedication
  else if s = "acknowledgments" then some .acknowledgments
  else if s = "preface" then some .preface
  else if s = "appendix" then some .appendix
  else if s = "glossary" then some .glossary
  else if s = "bibliography" then some .bibliography
  else if s = "index" then some .index
  else none

end Verif
