import Verif.Model.UnifiedAddition
import Verif.Model.Arith
import Verif.Core.Grid
import Mathlib.Algebra.Field.ZMod

/-!
# Scalar multiplication with the endomorphism (`components/algebra/curves/pasta/plonk/variable_base_endo_scalar_mul_15_wires.hpp`)

Fifteen witness columns, 36 rows: a multiplication for the image of the point, two unified additions for `2 (T + φ T)`, 32 rows of two steps
`P ↦ 2 P + Q` each, and a last row. The file is written for an older interface of the sub-components; the calls are taken to be those of the present
ones. The component is taken to be placed on the columns 0 to 14 as its sub-components are (92-107).
-/

namespace Verif
namespace EndoMul

variable {F : Type*} [Field F]

/-- `params_type`, variable_base_endo_scalar_mul_15_wires.hpp:122-130. -/
structure In where
  tx : Var
  ty : Var
  b : Var

/-- The columns. -/
def cols : Cols := ⟨List.range 15, [0], []⟩
/-- Columns of the multiplication (92). -/
def mulCols : Cols := ⟨[0, 1, 2], [0], []⟩

/-- `rows_amount`, variable_base_endo_scalar_mul_15_wires.hpp:118-119. -/
def rows : ℕ := 33 + 1 + 1 * 2

/-- The abscissa of the point that is added, `(1 + (endo - 1) b) x` (296, 299). -/
def qxE (endo : F) (b tx : Expr F) : Expr F := (1 + .const (endo - 1) * b) * tx

/-- Constraints 1 to 3 and 4 to 6: from `P` to `R`, with slope `s` and bits `b`, `d`, variable_base_endo_scalar_mul_15_wires.hpp:295-316. -/
def stepC (endo : F) (tx ty px py rx ry s b d : Expr F) : List (Expr F) :=
  [(qxE endo b tx - px) * s - 2 * d * ty + ty + py,
   (2 * px - s * s + qxE endo b tx) * ((px - rx) * s + ry + py) - (px - rx) * 2 * py,
   (ry + py) * (ry + py) - (px - rx) * (px - rx) * (s * s - qxE endo b tx + rx)]

/-- The gate, variable_base_endo_scalar_mul_15_wires.hpp:285-324. -/
def gate (endo : F) : List (Expr F) :=
  let w := fun i r : ℤ => (cols.wv i r : Expr F)
  [w 11 0 * (1 - w 11 0), w 12 0 * (1 - w 12 0), w 13 0 * (1 - w 13 0), w 14 0 * (1 - w 14 0)] ++
  stepC endo (w 0 0) (w 1 0) (w 4 0) (w 5 0) (w 7 0) (w 8 0) (w 9 0) (w 11 0) (w 12 0) ++
  stepC endo (w 0 0) (w 1 0) (w 7 0) (w 8 0) (w 4 1) (w 5 1) (w 10 0) (w 13 0) (w 14 0) ++
  [w 6 1 - (.const 16 * w 6 0 + .const 8 * w 11 0 + .const 4 * w 12 0 + 2 * w 13 0 + w 14 0)]

/-- Inputs of the first three components, variable_base_endo_scalar_mul_15_wires.hpp:260-277. -/
def mulIn (inp : In) (srow : ℤ) : In2 := ⟨inp.tx, ⟨0, srow + 1, false, .constant⟩⟩
@[inherit_doc mulIn] def addIn (inp : In) (srow : ℤ) : UnifiedAddition.In := ⟨inp.tx, inp.ty, Multiplication.result mulCols srow, inp.ty⟩
@[inherit_doc mulIn] def dblIn (srow : ℤ) : UnifiedAddition.In :=
  ⟨UnifiedAddition.resultX cols (srow + 1), UnifiedAddition.resultY cols (srow + 1), UnifiedAddition.resultX cols (srow + 1), UnifiedAddition.resultY cols (srow + 1)⟩

/-- The first three components. -/
def startCircuit (inp : In) (srow : ℤ) : List (Op F) :=
  Multiplication.circuit mulCols (mulIn inp srow) srow ++ UnifiedAddition.circuit cols (addIn inp srow) (srow + 1) ++
    UnifiedAddition.circuit cols (dblIn srow) (srow + 2)

/-- `generate_copy_constraints`, variable_base_endo_scalar_mul_15_wires.hpp:326-365. -/
def copies (inp : In) (srow : ℤ) : List (Op F) :=
  let j := srow + 3
  [.copy (cols.wa 4 j) (UnifiedAddition.resultX cols (srow + 2)), .copy (cols.wa 5 j) (UnifiedAddition.resultY cols (srow + 2))] ++
  ((List.range 31).flatMap fun z : ℕ =>
    [.copy (cols.wa 0 (j + z)) (cols.wa 0 (j + z + 1)), .copy (cols.wa 1 (j + z)) (cols.wa 1 (j + z + 1))]) ++
  [.copy (cols.wa 6 j) ⟨0, srow + 1, false, .constant⟩, .copy (cols.wa 6 (j + 32)) inp.b]

/-- `generate_assignments_constant`, variable_base_endo_scalar_mul_15_wires.hpp:367-376. -/
def consts (endo : F) (srow : ℤ) : List (Op F) := [.constant 0 srow 0, .constant 0 (srow + 1) endo]

/-- `generate_circuit`, variable_base_endo_scalar_mul_15_wires.hpp:243-283. -/
def circuit (endo : F) (inp : In) (srow : ℤ) : List (Op F) :=
  startCircuit inp srow ++ (.gate (gate endo) (rowsFrom (srow + 3) 32) :: (copies inp srow ++ consts endo srow))

/-- `result_type`, variable_base_endo_scalar_mul_15_wires.hpp:132-139. -/
def resultX (srow : ℤ) : Var := cols.wa 4 (srow + rows - 1)
@[inherit_doc resultX] def resultY (srow : ℤ) : Var := cols.wa 5 (srow + rows - 1)

/-! ### The assignment -/

section assignment
variable [DecidableEq F]

/-- The point that is added for two bits, variable_base_endo_scalar_mul_15_wires.hpp:198-199, 215-216, 231-232. -/
def added (endo : F) (T : F × F) (b d : Bool) : F × F := ((1 + (endo - 1) * (b.toNat : F)) * T.1, (2 * (d.toNat : F) - 1) * T.2)

/-- The sum of the curve library, in coordinates. -/
def plus (P Q : F × F) : F × F := UnifiedAddition.sumCells P.1 P.2 Q.1 Q.2

/-- The points: `P` of row `i` is point `2 i`, `R` of row `i` is point `2 i + 1` (187-238). -/
def point (endo : F) (T : F × F) (bits : ℕ → Bool) : ℕ → F × F
  | 0 => plus (plus T (plus T (endo * T.1, T.2))) (endo * T.1, T.2)
  | m + 1 => plus (plus (point endo T bits m) (point endo T bits m)) (added endo T (bits (2 * m)) (bits (2 * m + 1)))

/-- `n` of row `i` (183-184, 206-209, 239). -/
def count (bits : ℕ → Bool) : ℕ → ℕ
  | 0 => 0
  | i + 1 => count bits i * 16 + (bits (4 * i)).toNat * 8 + (bits (4 * i + 1)).toNat * 4 + (bits (4 * i + 2)).toNat * 2 + (bits (4 * i + 3)).toNat

/-- The slopes (217, 224-225). -/
def slope (P Q : F × F) : F := (Q.2 - P.2) * (Q.1 - P.1)⁻¹

/-- Column `k` of row `i` (187-240). -/
def cell (endo : F) (T : F × F) (bits : ℕ → Bool) (i k : ℕ) : F :=
  let P := point endo T bits (2 * i)
  let R := point endo T bits (2 * i + 1)
  match k with
  | 0 => T.1
  | 1 => T.2
  | 4 => P.1
  | 5 => P.2
  | 6 => (count bits i : F)
  | 7 => R.1
  | 8 => R.2
  | 9 => slope P (added endo T (bits (4 * i)) (bits (4 * i + 1)))
  | 10 => slope R (added endo T (bits (4 * i + 2)) (bits (4 * i + 3)))
  | 11 => ((bits (4 * i)).toNat : F)
  | 12 => ((bits (4 * i + 1)).toNat : F)
  | 13 => ((bits (4 * i + 2)).toNat : F)
  | 14 => ((bits (4 * i + 3)).toNat : F)
  | _ => 0

/-- The cells that are written: 32 rows, and three cells of the last one. -/
def writes (srow : ℤ) (f : ℕ → ℕ → F) : List (Write F) :=
  ((List.range 32).flatMap fun i : ℕ => [0, 1, 4, 5, 6, 7, 8, 9, 10, 11, 12, 13, 14].map fun k : ℕ => ⟨.witness, cols.w (k : ℤ), srow + 3 + (i : ℤ), f i k⟩) ++
  [4, 5, 6].map fun k : ℕ => ⟨.witness, cols.w (k : ℤ), srow + 3 + ((32 : ℕ) : ℤ), f 32 k⟩

end assignment

/-- The low 128 bits of the scalar, the highest one first, variable_base_endo_scalar_mul_15_wires.hpp:175-181. -/
def bitsOf (b : ℕ) (i : ℕ) : Bool := b.testBit (127 - i)

/-- `generate_assignments`, variable_base_endo_scalar_mul_15_wires.hpp:141-241 (it does not return anything). -/
def assign {p : ℕ} [Fact p.Prime] (endo : ZMod p) (inp : In) (srow : ℤ) (t : Table (ZMod p)) : Table (ZMod p) :=
  let t1 := Multiplication.assign mulCols (mulIn inp srow) srow t
  let t2 := UnifiedAddition.assign cols (addIn inp srow) (srow + 1) t1
  let t3 := UnifiedAddition.assign cols (dblIn srow) (srow + 2) t2
  writeAll (writes srow (cell endo (inp.tx.value t3, inp.ty.value t3) (bitsOf (inp.b.value t3).val))) t3

end EndoMul
end Verif
