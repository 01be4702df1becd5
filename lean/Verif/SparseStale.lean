import Verif.SparsePFProps
/-!
# Property C41: what `interface_field_evolves` leaves in a cell
-/

namespace MMSP.SparsePF

open Sparse (keys Ok)

variable {α : Type} [Field α] [LinearOrder α] [IsStrictOrderedRing α]

/-- **C41.** Both node updates keep every field stored in the destination cell before, whatever the forces. -/
theorem node_keeps {s : Sparse.Cell Int} (hs : Ok s) (h2 : 2 ≤ s.length) (lap y : Sparse.Cell α) {z : Sparse.Cell α} (hz : Ok z) {k : Int} (hk : k ∈ keys z) :
    (∀ dt epsilon w mu : α, k ∈ keys (evolveNode dt epsilon w mu s lap y z)) ∧
    ∀ (dt : α) (energy mobility : Int → Int → α) (eps w : α → α), k ∈ keys (anisoNode dt energy mobility eps w s lap y z) :=
  ⟨fun _ _ _ _ => pairNode_keeps _ _ _ hs h2 y hz hk, fun _ _ _ _ _ => pairNode_keeps _ _ _ hs h2 y hz hk⟩

/-- Two fields at and around the node. -/
def two : Sparse.Cell ℚ := [(0, 1 / 2), (1, 1 / 2)]

/-- What the destination cell held two steps ago: the same two fields and a third, adding up to 1. -/
def three : Sparse.Cell ℚ := [(0, 1 / 4), (1, 1 / 4), (2, 1 / 2)]

/-- **C41.** The property is false of `interface_field_evolves` as soon as the destination cell held another field: both cells are right, and what is stored adds up to `3/2`. -/
theorem evolve_not_simplex : Simplex two ∧ Simplex three ∧ ((evolveNode (1 / 100 : ℚ) 1 2 1 [(0, 1), (1, 1)] [(0, 0), (1, 0)] two three).map Prod.snd).sum = 3 / 2 :=
  ⟨⟨by unfold Ok; decide +kernel, by decide +kernel, by decide +kernel⟩, ⟨by unfold Ok; decide +kernel, by decide +kernel, by decide +kernel⟩, by decide +kernel⟩

/-- The hypotheses of `node_keeps` hold of these cells. -/
example : (2 : Int) ∈ keys (evolveNode (1 / 100 : ℚ) 1 2 1 [(0, 1), (1, 1)] [] two three) := (node_keeps (by unfold Ok; decide) (by decide) _ _ (by unfold Ok; decide +kernel) (by decide)).1 _ _ _ _

end MMSP.SparsePF
