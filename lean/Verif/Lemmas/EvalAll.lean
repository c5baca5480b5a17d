import Verif.Spec.Eval
/-! Two conditions on all blocks of a document are one, and conditions can be weakened. -/
set_option linter.unusedSectionVars false
namespace Verif.Spec.Eval
open Verif.Ast
variable {p q : Block → Prop}
mutual
theorem AllBlock.and : ∀ b : Block, AllBlock p b → AllBlock q b → AllBlock (fun b => p b ∧ q b) b
  | .mk _ _ _ _ x, h1, h2 => ⟨⟨h1.1, h2.1⟩, AllContent.and x h1.2 h2.2⟩
theorem AllContent.and : ∀ b : Content, AllContent p b → AllContent q b → AllContent (fun b => p b ∧ q b) b
  | .compound bs, h1, h2 => AllBlocks.and bs h1 h2
  | .list _ is, h1, h2 => AllItems.and is h1 h2
  | .section s, h1, h2 => AllSect.and s h1 h2
  | .table h r f, h1, h2 => ⟨AllEdge.and h h1.1 h2.1, AllRows.and r h1.2.1 h2.2.1, AllEdge.and f h1.2.2 h2.2.2⟩
  | .simple _, _, _ => trivial
  | .quoted _ _ _, _, _ => trivial
  | .image _ _, _, _ => trivial
  | .audioVideo, _, _ => trivial
  | .heading _ _, _, _ => trivial
  | .declaration _, _, _ => trivial
  | .empty, _, _ => trivial
theorem AllBlocks.and : ∀ b : List Block, AllBlocks p b → AllBlocks q b → AllBlocks (fun b => p b ∧ q b) b
  | [], _, _ => trivial
  | b :: bs, h1, h2 => ⟨AllBlock.and b h1.1 h2.1, AllBlocks.and bs h1.2 h2.2⟩
theorem AllOptBlock.and : ∀ b : Option Block, AllOptBlock p b → AllOptBlock q b → AllOptBlock (fun b => p b ∧ q b) b
  | none, _, _ => trivial
  | some b, h1, h2 => AllBlock.and b h1 h2
theorem AllOptBlocks.and : ∀ b : Option (List Block), AllOptBlocks p b → AllOptBlocks q b → AllOptBlocks (fun b => p b ∧ q b) b
  | none, _, _ => trivial
  | some b, h1, h2 => AllBlocks.and b h1 h2
theorem AllEdge.and : ∀ b : Option (List Cell), AllEdge p b → AllEdge q b → AllEdge (fun b => p b ∧ q b) b
  | none, _, _ => trivial
  | some b, h1, h2 => AllCells.and b h1 h2
theorem AllItem.and : ∀ b : Item, AllItem p b → AllItem q b → AllItem (fun b => p b ∧ q b) b
  | .plain _ bs, h1, h2 => AllBlocks.and bs h1 h2
  | .desc _ _ d bs, h1, h2 => ⟨AllOptBlock.and d h1.1 h2.1, AllBlocks.and bs h1.2 h2.2⟩
theorem AllItems.and : ∀ b : List Item, AllItems p b → AllItems q b → AllItems (fun b => p b ∧ q b) b
  | [], _, _ => trivial
  | b :: bs, h1, h2 => ⟨AllItem.and b h1.1 h2.1, AllItems.and bs h1.2 h2.2⟩
theorem AllSect.and : ∀ b : Sect, AllSect p b → AllSect q b → AllSect (fun b => p b ∧ q b) b
  | .mk _ _ bs, h1, h2 => AllBlocks.and bs h1 h2
theorem AllSects.and : ∀ b : List Sect, AllSects p b → AllSects q b → AllSects (fun b => p b ∧ q b) b
  | [], _, _ => trivial
  | b :: bs, h1, h2 => ⟨AllSect.and b h1.1 h2.1, AllSects.and bs h1.2 h2.2⟩
theorem AllCell.and : ∀ b : Cell, AllCell p b → AllCell q b → AllCell (fun b => p b ∧ q b) b
  | .asciidoc d, h1, h2 => AllDoc.and d h1 h2
  | .paragraphs _ _, _, _ => trivial
  | .literal _, _, _ => trivial
theorem AllCells.and : ∀ b : List Cell, AllCells p b → AllCells q b → AllCells (fun b => p b ∧ q b) b
  | [], _, _ => trivial
  | b :: bs, h1, h2 => ⟨AllCell.and b h1.1 h2.1, AllCells.and bs h1.2 h2.2⟩
theorem AllRows.and : ∀ b : List (List Cell), AllRows p b → AllRows q b → AllRows (fun b => p b ∧ q b) b
  | [], _, _ => trivial
  | b :: bs, h1, h2 => ⟨AllCells.and b h1.1 h2.1, AllRows.and bs h1.2 h2.2⟩
theorem AllPart.and : ∀ b : Part, AllPart p b → AllPart q b → AllPart (fun b => p b ∧ q b) b
  | .mk _ _ i s, h1, h2 => ⟨AllOptBlocks.and i h1.1 h2.1, AllSects.and s h1.2 h2.2⟩
theorem AllParts.and : ∀ b : List Part, AllParts p b → AllParts q b → AllParts (fun b => p b ∧ q b) b
  | [], _, _ => trivial
  | b :: bs, h1, h2 => ⟨AllPart.and b h1.1 h2.1, AllParts.and bs h1.2 h2.2⟩
theorem AllDocContent.and : ∀ b : DocContent, AllDocContent p b → AllDocContent q b → AllDocContent (fun b => p b ∧ q b) b
  | .blocks bs, h1, h2 => AllBlocks.and bs h1 h2
  | .sections pr s, h1, h2 => ⟨AllOptBlocks.and pr h1.1 h2.1, AllSects.and s h1.2 h2.2⟩
  | .parts pr o ps c, h1, h2 => ⟨AllOptBlocks.and pr h1.1 h2.1, AllSects.and o h1.2.1 h2.2.1,
      AllParts.and ps h1.2.2.1 h2.2.2.1, AllSects.and c h1.2.2.2 h2.2.2.2⟩
theorem AllDoc.and : ∀ d : Doc, AllDoc p d → AllDoc q d → AllDoc (fun b => p b ∧ q b) d
  | .mk _ _ _ _ _ _ c, h1, h2 => AllDocContent.and c h1 h2
end

section
variable (imp : ∀ b, p b → q b)
include imp
mutual
theorem AllBlock.imp : ∀ b : Block, AllBlock p b → AllBlock q b
  | .mk _ _ _ _ x, k => ⟨imp _ k.1, AllContent.imp x k.2⟩
theorem AllContent.imp : ∀ b : Content, AllContent p b → AllContent q b
  | .compound bs, k => AllBlocks.imp bs k
  | .list _ is, k => AllItems.imp is k
  | .section s, k => AllSect.imp s k
  | .table h r f, k => ⟨AllEdge.imp h k.1, AllRows.imp r k.2.1, AllEdge.imp f k.2.2⟩
  | .simple _, _ => trivial
  | .quoted _ _ _, _ => trivial
  | .image _ _, _ => trivial
  | .audioVideo, _ => trivial
  | .heading _ _, _ => trivial
  | .declaration _, _ => trivial
  | .empty, _ => trivial
theorem AllBlocks.imp : ∀ b : List Block, AllBlocks p b → AllBlocks q b
  | [], _ => trivial
  | b :: bs, k => ⟨AllBlock.imp b k.1, AllBlocks.imp bs k.2⟩
theorem AllOptBlock.imp : ∀ b : Option Block, AllOptBlock p b → AllOptBlock q b
  | none, _ => trivial
  | some b, k => AllBlock.imp b k
theorem AllOptBlocks.imp : ∀ b : Option (List Block), AllOptBlocks p b → AllOptBlocks q b
  | none, _ => trivial
  | some b, k => AllBlocks.imp b k
theorem AllEdge.imp : ∀ b : Option (List Cell), AllEdge p b → AllEdge q b
  | none, _ => trivial
  | some b, k => AllCells.imp b k
theorem AllItem.imp : ∀ b : Item, AllItem p b → AllItem q b
  | .plain _ bs, k => AllBlocks.imp bs k
  | .desc _ _ d bs, k => ⟨AllOptBlock.imp d k.1, AllBlocks.imp bs k.2⟩
theorem AllItems.imp : ∀ b : List Item, AllItems p b → AllItems q b
  | [], _ => trivial
  | b :: bs, k => ⟨AllItem.imp b k.1, AllItems.imp bs k.2⟩
theorem AllSect.imp : ∀ b : Sect, AllSect p b → AllSect q b
  | .mk _ _ bs, k => AllBlocks.imp bs k
theorem AllSects.imp : ∀ b : List Sect, AllSects p b → AllSects q b
  | [], _ => trivial
  | b :: bs, k => ⟨AllSect.imp b k.1, AllSects.imp bs k.2⟩
theorem AllCell.imp : ∀ b : Cell, AllCell p b → AllCell q b
  | .asciidoc d, k => AllDoc.imp d k
  | .paragraphs _ _, _ => trivial
  | .literal _, _ => trivial
theorem AllCells.imp : ∀ b : List Cell, AllCells p b → AllCells q b
  | [], _ => trivial
  | b :: bs, k => ⟨AllCell.imp b k.1, AllCells.imp bs k.2⟩
theorem AllRows.imp : ∀ b : List (List Cell), AllRows p b → AllRows q b
  | [], _ => trivial
  | b :: bs, k => ⟨AllCells.imp b k.1, AllRows.imp bs k.2⟩
theorem AllPart.imp : ∀ b : Part, AllPart p b → AllPart q b
  | .mk _ _ i s, k => ⟨AllOptBlocks.imp i k.1, AllSects.imp s k.2⟩
theorem AllParts.imp : ∀ b : List Part, AllParts p b → AllParts q b
  | [], _ => trivial
  | b :: bs, k => ⟨AllPart.imp b k.1, AllParts.imp bs k.2⟩
theorem AllDocContent.imp : ∀ b : DocContent, AllDocContent p b → AllDocContent q b
  | .blocks bs, k => AllBlocks.imp bs k
  | .sections pr s, k => ⟨AllOptBlocks.imp pr k.1, AllSects.imp s k.2⟩
  | .parts pr o ps c, k => ⟨AllOptBlocks.imp pr k.1, AllSects.imp o k.2.1,
      AllParts.imp ps k.2.2.1, AllSects.imp c k.2.2.2⟩
theorem AllDoc.imp : ∀ d : Doc, AllDoc p d → AllDoc q d
  | .mk _ _ _ _ _ _ c, k => AllDocContent.imp c k
end
end
end Verif.Spec.Eval
