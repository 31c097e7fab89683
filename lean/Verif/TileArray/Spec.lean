import Verif.TileArray.Model

/-!
# Specification vocabulary for C01–C04
-/
namespace Aihw.TileArray

/-- Specification: `l` is a best partition of `size` under the limit `m`. -/
structure GoodSplit (size m : Nat) (l : List Nat) : Prop where
  /-- the parts add up to the dimension -/
  sum : l.sum = size
  /-- no part is empty, none exceeds the limit -/
  bounds : ∀ s ∈ l, 1 ≤ s ∧ s ≤ m
  /-- earlier parts are at most one larger than, and never smaller than, later parts -/
  balanced : l.Pairwise fun a b => b ≤ a ∧ a ≤ b + 1
  /-- no partition respecting the limit uses fewer parts -/
  minimal : ∀ l' : List Nat, l'.sum = size → (∀ s ∈ l', s ≤ m) → l.length ≤ l'.length

/-- A tile of size `m × n` in any reachable state (`P m n t`) stores an `m × n` matrix: what is
written is read back, and the tile keeps being such a tile. -/
structure StoringTile {T : Type} (ops : TileOps T) (P : Nat → Nat → T → Prop) : Prop where
  set_get : ∀ m n t w, P m n t → IsMat m n w →
    ∃ t', ops.setW t w = .ok t' ∧ P m n t' ∧ ops.getW t' = .ok w

/-- A tile whose forward pass is the product with the weights it reports. -/
structure LinearTile {T : Type} (ops : TileOps T) (P : Nat → Nat → T → Prop) : Prop where
  shape : ∀ m n t w, P m n t → ops.getW t = .ok w → IsMat m n w
  fwd : ∀ m n t w x, P m n t → ops.getW t = .ok w → x.length = n → ops.fwd t x = .ok (matVec w x)

/-- The arrays reachable from the constructor: sizes partition the logical sizes, one tile per pair
of splits. -/
structure WF {T : Type} (P : Nat → Nat → T → Prop) (a : TArray T) : Prop where
  inSum : a.inSizes.sum = a.inSize
  outSum : a.outSizes.sum = a.outSize
  inNe : a.inSizes ≠ []
  outNe : a.outSizes ≠ []
  tiles : List.Forall₂ (fun n row => List.Forall₂ (fun m t => P m n t) a.outSizes row)
    a.inSizes a.tiles
  bias : ∀ b, a.bias = some b → b.length = a.outSize

/-- Reading entry `(i, j)` of a matrix. -/
def entry (w : Mat) (i j : Nat) : Option ℚ := (w[i]?).bind (·[j]?)

end Aihw.TileArray
