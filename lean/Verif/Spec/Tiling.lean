import Verif.Model.Tiling

/-!
# Specification vocabulary for tiles
-/

namespace Spurt.Spec

/-- Pixel `(r, c)` belongs to the tile: left edges inclusive, right edges exclusive. -/
def InTile (b : BBox) (r c : ℤ) : Prop := b.xmin ≤ r ∧ r < b.xmax ∧ b.ymin ≤ c ∧ c < b.ymax

instance (b : BBox) (r c : ℤ) : Decidable (InTile b r c) := by unfold InTile; infer_instance

/-- The tile is a (possibly empty) part of the image. -/
def TileInImage (shape : ℤ × ℤ) (b : BBox) : Prop :=
  0 ≤ b.xmin ∧ b.xmin ≤ b.xmax ∧ b.xmax ≤ shape.1 ∧
  0 ≤ b.ymin ∧ b.ymin ≤ b.ymax ∧ b.ymax ≤ shape.2

/-- Pixel of an image. -/
def PixelOf (shape : ℤ × ℤ) (r c : ℤ) : Prop := 0 ≤ r ∧ r < shape.1 ∧ 0 ≤ c ∧ c < shape.2

/-- Exactly one of the tiles (as positions in the list) contains the pixel. -/
def InExactlyOne (tiles : List BBox) (r c : ℤ) : Prop :=
  ∃! i : Nat, ∃ b, tiles[i]? = some b ∧ InTile b r c

/-- At most one of the tiles contains the pixel. -/
def InAtMostOne (tiles : List BBox) (r c : ℤ) : Prop :=
  ∀ i j : Nat, ∀ b b', tiles[i]? = some b → tiles[j]? = some b' → InTile b r c → InTile b' r c → i = j

/-- The tiles partition the image. -/
def PartitionsImage (shape : ℤ × ℤ) (tiles : List BBox) : Prop :=
  (∀ b ∈ tiles, TileInImage shape b) ∧ ∀ r c, PixelOf shape r c → InExactlyOne tiles r c

end Spurt.Spec
