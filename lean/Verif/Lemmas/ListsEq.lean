import Verif.Lemmas.ListsText
import Verif.Lemmas.ListsNest
namespace Verif.Lists
mutual
def Block.beq : Block → Block → Bool
  | .para a, .para b => a == b
  | .list d is, .list d' is' => d == d' && itemsBeq is is'
  | .exampleBlock bs, .exampleBlock bs' => blocksBeq bs bs'
  | _, _ => false
def itemsBeq : List Item → List Item → Bool
  | [], [] => true
  | i :: is, i' :: is' => i.beq i' && itemsBeq is is'
  | _, _ => false
def Item.beq : Item → Item → Bool
  | .mk m t more ex d bs, .mk m' t' more' ex' d' bs' =>
    m == m' && t == t' && more == more' && ex == ex' && descBeq d d' && blocksBeq bs bs'
def descBeq : Option Block → Option Block → Bool
  | none, none => true
  | some a, some b => a.beq b
  | _, _ => false
def blocksBeq : List Block → List Block → Bool
  | [], [] => true
  | i :: is, i' :: is' => i.beq i' && blocksBeq is is'
  | _, _ => false
end
mutual
theorem Block.beq_eq : ∀ a b : Block, a.beq b = true → a = b
  | .para a, .para b, h => by simpa [Block.beq] using h
  | .list d is, .list d' is', h => by
    simp [Block.beq] at h; obtain ⟨rfl, h⟩ := h; rw [itemsBeq_eq is is' h]
  | .exampleBlock bs, .exampleBlock bs', h => by rw [blocksBeq_eq bs bs' (by simpa [Block.beq] using h)]
  | .para _, .list _ _, h | .para _, .exampleBlock _, h | .list _ _, .para _, h | .list _ _, .exampleBlock _, h
  | .exampleBlock _, .para _, h | .exampleBlock _, .list _ _, h => by simp [Block.beq] at h
theorem itemsBeq_eq : ∀ a b : List Item, itemsBeq a b = true → a = b
  | [], [], _ => rfl
  | i :: is, i' :: is', h => by
    simp [itemsBeq] at h; rw [Item.beq_eq i i' h.1, itemsBeq_eq is is' h.2]
  | [], _ :: _, h | _ :: _, [], h => by simp [itemsBeq] at h
theorem Item.beq_eq : ∀ a b : Item, a.beq b = true → a = b
  | .mk m t more ex d bs, .mk m' t' more' ex' d' bs', h => by
    simp [Item.beq] at h
    obtain ⟨⟨⟨⟨⟨rfl, rfl⟩, rfl⟩, rfl⟩, h1⟩, h2⟩ := h
    rw [descBeq_eq d d' h1, blocksBeq_eq bs bs' h2]
theorem descBeq_eq : ∀ a b : Option Block, descBeq a b = true → a = b
  | none, none, _ => rfl
  | some a, some b, h => by rw [Block.beq_eq a b (by simpa [descBeq] using h)]
  | none, some _, h | some _, none, h => by simp [descBeq] at h
theorem blocksBeq_eq : ∀ a b : List Block, blocksBeq a b = true → a = b
  | [], [], _ => rfl
  | i :: is, i' :: is', h => by
    simp [blocksBeq] at h; rw [Block.beq_eq i i' h.1, blocksBeq_eq is is' h.2]
  | [], _ :: _, h | _ :: _, [], h => by simp [blocksBeq] at h
end

/-- to check what a document becomes -/
def gives (n : Nat) (chunks : List (List Ln)) (bs : List Block) (problems : Nat) : Bool :=
  match parseDoc n chunks with
  | none => false
  | some (bs', s) => blocksBeq bs' bs && s.chunks.isEmpty && s.problems == problems

theorem gives_spec {n : Nat} {chunks : List (List Ln)} {bs : List Block} {k : Nat} (h : gives n chunks bs k = true) :
    ∃ s, parseDoc n chunks = some (bs, s) ∧ s.chunks = [] ∧ s.problems = k := by
  unfold gives at h
  split at h
  · cases h
  · rename_i bs' s he
    simp at h
    exact ⟨s, by rw [he, blocksBeq_eq _ _ h.1.1], h.1.2, h.2⟩
end Verif.Lists
