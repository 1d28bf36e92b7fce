import Verif.Core.Table

/-!
# Unified point addition (`components/algebra/curves/pasta/plonk/unified_addition.hpp`)

One row of eleven witness columns. Points are given by affine coordinates with `(0, 0)` for the neutral element.
The sum of points of `crypto3` (external) is modelled by the chord-and-tangent formulas; it is only used for two
non-neutral points which are not opposite.
-/

namespace Verif
namespace UnifiedAddition

variable {F : Type*} [Field F]

/-- `input_type`, unified_addition.hpp:88-100. -/
structure In where
  px : Var
  py : Var
  qx : Var
  qy : Var

/-- Constraints 1 to 12, unified_addition.hpp:231-279. -/
def constraints (c : Cols) : List (Expr F) :=
  let w := c.wv
  [(w 2 - w 0) * ((w 2 - w 0) * w 10 - (w 3 - w 1)),
   (1 - (w 2 - w 0) * w 8) * (2 * w 1 * w 10 - 3 * w 0 * w 0),
   (w 0 * w 2 * w 2 - w 0 * w 2 * w 0) * (w 10 * w 10 - w 0 - w 2 - w 4),
   (w 0 * w 2 * w 2 - w 0 * w 2 * w 0) * (w 10 * (w 0 - w 4) - w 1 - w 5),
   (w 0 * w 2 * w 3 + w 0 * w 2 * w 1) * (w 10 * w 10 - w 0 - w 2 - w 4),
   (w 0 * w 2 * w 3 + w 0 * w 2 * w 1) * (w 10 * (w 0 - w 4) - w 1 - w 5),
   (1 - w 0 * w 6) * (w 4 - w 2),
   (1 - w 0 * w 6) * (w 5 - w 3),
   (1 - w 2 * w 7) * (w 4 - w 0),
   (1 - w 2 * w 7) * (w 5 - w 1),
   (1 - (w 2 - w 0) * w 8 - (w 3 + w 1) * w 9) * w 4,
   (1 - (w 2 - w 0) * w 8 - (w 3 + w 1) * w 9) * w 5]

/-- `generate_circuit`, unified_addition.hpp:303-319 with the copy constraints of 296-299. -/
def circuit (c : Cols) (inp : In) (srow : ℤ) : List (Op F) :=
  [.gate (constraints c) [srow],
   .copy inp.px (c.wa 0 srow), .copy inp.py (c.wa 1 srow), .copy inp.qx (c.wa 2 srow), .copy inp.qy (c.wa 3 srow)]

/-- Chord and tangent, for `(P + Q).X` and `(P + Q).Y` of 179-180. -/
def curveSum [DecidableEq F] (px py qx qy : F) : F × F :=
  let l := if px = qx then 3 * (px * px) / (2 * py) else (qy - py) / (qx - px)
  let x := l * l - px - qx
  (x, l * (px - x) - py)

/-- The sum written to columns 4 and 5, unified_addition.hpp:167-183. -/
def sumCells [DecidableEq F] (px py qx qy : F) : F × F :=
  if px = 0 ∧ py = 0 then (qx, qy)
  else if qx = 0 ∧ qy = 0 then (px, py)
  else if qx = px ∧ qy = -py then (0, 0)
  else curveSum px py qx qy

/-- The row, column by column, unified_addition.hpp:161-215. -/
def cell [DecidableEq F] (px py qx qy : F) : ℕ → F
  | 0 => px
  | 1 => py
  | 2 => qx
  | 3 => qy
  | 4 => (sumCells px py qx qy).1
  | 5 => (sumCells px py qx qy).2
  | 6 => if px ≠ 0 then px⁻¹ else 0
  | 7 => if qx ≠ 0 then qx⁻¹ else 0
  | 8 => if px ≠ qx then (qx - px)⁻¹ else 0
  | 9 => if px ≠ qx then 0 else if py ≠ -qy then (qy + py)⁻¹ else 0
  | 10 => if px ≠ qx then (qy - py) * (qx - px)⁻¹ else if py ≠ 0 then 3 * (px * px) * (2 * py)⁻¹ else 0
  | _ => 0

/-- `generate_assignments`, unified_addition.hpp:142-219: the four inputs are read first, then the row is written (the
last three columns in an order depending on the case; the columns are distinct). -/
def assign [DecidableEq F] (c : Cols) (inp : In) (srow : ℤ) (t : Table F) : Table F :=
  let v := cell (inp.px.value t) (inp.py.value t) (inp.qx.value t) (inp.qy.value t)
  writeAll ([0, 1, 2, 3, 4, 5, 6, 7, 10, 9, 8].map fun i : ℕ => ⟨.witness, c.w i, srow, v i⟩) t

/-- `result_type`, unified_addition.hpp:105-108. -/
def resultX (c : Cols) (srow : ℤ) : Var := c.wa 4 srow
def resultY (c : Cols) (srow : ℤ) : Var := c.wa 5 srow

end UnifiedAddition
end Verif
