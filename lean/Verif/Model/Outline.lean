import Verif.Model.LineKinds
import Verif.Model.Sections
/-!
Model: a source text of headings and paragraphs, from its bytes to its section tree, and what the sections are written as.

Simplified: no document header (the text does not start with a heading of level 0), no attributes (so `leveloffset` is 0, there is
no table of contents, and the sections have no numbers), no attribute lists (so no heading is special or discrete), and the lines
behind the first line of text of a chunk are text.
-/
namespace Verif.Outline
open Verif Verif.Lexer Verif.Directives Verif.LineKinds Verif.Sections

/-- the text of a line of a paragraph (`Model/LineKinds.lean`) -/
def textOf (word : Char → Bool) (l : List Tok) : Option (List Char) :=
  match classify word l with
  | some (.text t) => some t
  | _ => none

/-- `parse_section.rs:22-51`, `parse_block.rs:6-78`, `heading_level.rs:4-12` — what the lines of a chunk are: headings, and a paragraph
that takes all lines that are left (`parse_block.rs:423-470`; what is in its lines is not looked at, and there are a few texts that
end a paragraph before its last line). Each comes with its text; `k` is how many there were before. -/
def chunkItems (word : Char → Bool) : Nat → List (List Tok) → Option (List (Item × List (List Char)))
  | _, [] => some []
  | k, l :: ls =>
    match headingLevel l with
    | some n => (chunkItems word (k + 1) ls).map ((.heading n k none false, [headingText l]) :: ·)
    | none =>
      (allSome (textOf word) (l :: ls)).map fun ts => [(.para k, ts)]

/-- all chunks, one after the other -/
def outlineItems (word : Char → Bool) : Nat → List (List (List Tok)) → Option (List (List (Item × List (List Char))))
  | _, [] => some []
  | k, c :: cs =>
    (chunkItems word k c).bind fun is => (outlineItems word (k + is.length) cs).map (is :: ·)

/-- the items of a chunk as the parser of sections takes them -/
def toChunk : List (Item × List (List Char)) → List (Item × List Item)
  | [] => []
  | i :: is => [(i.1, is.map Prod.fst)]

/-- does the text start with a document title (`parse_doc_header.rs:169-180`)? -/
def titled : List (List (Item × List (List Char))) → Bool
  | ((.heading 0 _ _ _, _) :: _) :: _ => true
  | _ => false

/-- A source text, read and parsed (`parser.rs:282-312`): the texts of its headings and paragraphs in order, and the result of the parser. -/
def readOutline (env : Env) (plugins : List (List UInt8)) (word : Char → Bool) (src : List UInt8) : Option (List (List (List Char)) × Res (Doc × St)) :=
  (lexLines src plugins (src.length + 1) 0).bind fun lines =>
    (outlineItems word 0 (chunksOf (lines.length + 1) lines)).bind fun is =>
      if titled is then none
      else some (is.flatMap (·.map Prod.snd), parseDoc env (is.flatMap toChunk) ((lines.getLast?).any Verbatim.emptyish) false)

/-- `backend/src/html/util.rs:3-14` — `section_class`; `none` is the panic of `unreachable!` -/
def sectionClass : Nat → Option String
  | 0 => some "sect0"
  | 1 => some "sect1"
  | 2 => some "sect2"
  | 3 => some "sect3"
  | 4 => some "sect4"
  | 5 => some "sect5"
  | 6 => some "sect6"
  | _ => none

/-- `asciidoctor_html.rs:276-290,293-303`, `backend.rs:731-746` — the class of the `div` a section is written as, and the element of its heading -/
def sectionTags (level : Nat) : Option (String × String) := (sectionClass level).map fun c => (c, "h" ++ toString (level + 1))

mutual
/-- `eval.rs:143-156` — the sections of a block, in the order they are written -/
def tags : Node → Option (List (String × String))
  | .leaf _ => some []
  | .sect _ l inner => (sectionTags l).bind fun t => (tagsAll inner).map (t :: ·)
  | .compound _ _ inner => tagsAll inner
/-- the same for a list of blocks -/
def tagsAll : List Node → Option (List (String × String))
  | [] => some []
  | b :: bs => (tags b).bind fun x => (tagsAll bs).map (x ++ ·)
end

/-- `eval.rs:68-88` — the sections of a document that is no book, in the order they are written; `none` is a panic -/
def docTags : Doc → Option (List (String × String))
  | .blocks bs => tagsAll bs
  | .sections pre secs => tagsAll (pre ++ secs)
  | .parts .. => some []

end Verif.Outline
