import Verif.Model.EdCurve
import Verif.Model.BoolScalarMul
import Verif.Model.BitBuilder

/-!
# Scalar multiplication on Ed25519

`components/algebra/curves/edwards/plonk/non_native/variable_base_multiplication_per_bit.hpp` (one double-and-add step) and
`variable_base_multiplication.hpp` (decomposition of the scalar into bits, a multiplication by the first bit, 252 steps).

Both are sequences of sub-components without gates of their own. The `result_type` constructors place the result in the table columns 0 to 8 whatever
the columns of the component are, and the steps of the multiplication are connected through these results.
-/

namespace Verif
namespace EdMul

open Ed25519 EdCurve

/-- The columns of the instance in the `result_type` constructors, variable_base_multiplication_per_bit.hpp:149 and
variable_base_multiplication.hpp:152. -/
def resCols : Cols := ⟨[0, 1, 2, 3, 4, 5, 6, 7, 8], [0], []⟩

/-! ### variable_base_multiplication_per_bit.hpp -/

/-- `input_type`, variable_base_multiplication_per_bit.hpp:121-136. -/
structure BitIn where
  tx : ℕ → Var
  ty : ℕ → Var
  rx : ℕ → Var
  ry : ℕ → Var
  k : Var

/-- `get_rows_amount`, variable_base_multiplication_per_bit.hpp:55-60: 2 rows, `dblRows` and `addRows`. -/
def bitRows : ℕ := 2 + dblRows + addRows

/-- `result_type`, variable_base_multiplication_per_bit.hpp:145-164. -/
def bitResultX (srow : ℤ) : ℕ → Var := resultX resCols (srow + bitRows - addRows)
@[inherit_doc bitResultX] def bitResultY (srow : ℤ) : ℕ → Var := resultY resCols (srow + bitRows - addRows)

/-- Operands of the sub-components, variable_base_multiplication_per_bit.hpp:237-252 and 300-315. -/
def boolIn (inp : BitIn) : BoolScalarMul.In := ⟨inp.tx, inp.ty, inp.k⟩
@[inherit_doc boolIn] def dblIn (inp : BitIn) : DblIn := ⟨inp.rx, inp.ry⟩
@[inherit_doc boolIn] def addIn (c : Cols) (srow : ℤ) : AddIn :=
  ⟨resultX c (srow + 2), resultY c (srow + 2), BoolScalarMul.resultX c srow, BoolScalarMul.resultY c srow⟩

/-- `generate_circuit`, variable_base_multiplication_per_bit.hpp:258-318. -/
def bitCircuit {F : Type*} [Field F] (c : Cols) (inp : BitIn) (srow : ℤ) : List (Op F) :=
  BoolScalarMul.circuit c (boolIn inp) srow ++ (dblCircuit c (dblIn inp) (srow + 2) ++ addCircuit c (addIn c srow) (srow + 65))

/-- `generate_assignments`, variable_base_multiplication_per_bit.hpp:196-256. -/
def bitAssign {n : ℕ} [Fact n.Prime] [Fact modulus.Prime] (c : Cols) (inp : BitIn) (srow : ℤ) (t : Table (ZMod n)) : Table (ZMod n) :=
  addAssign c (addIn c srow) (srow + 65) (dblAssign c (dblIn inp) (srow + 2) (BoolScalarMul.assign c (boolIn inp) srow t))

/-! ### variable_base_multiplication.hpp -/

/-- `input_type`, variable_base_multiplication.hpp:127-139. -/
structure MulIn where
  tx : ℕ → Var
  ty : ℕ → Var
  k : Var

/-- Rows of the decomposition into `bits` bits over nine columns. -/
def decRows (bits : ℕ) : ℕ := BitBuilder.rows 9 bits true

/-- First row of step `i` (the step for bit `i + 1`), variable_base_multiplication.hpp:246-258. -/
def stepRow (bits : ℕ) (srow : ℤ) (i : ℕ) : ℤ := srow + (decRows bits + 2 : ℕ) + (i * bitRows : ℕ)

/-- `get_rows_amount`, variable_base_multiplication.hpp:54-61. -/
def mulRows (bits : ℕ) : ℕ := decRows bits + 252 * bitRows + 2

/-- `bits.output[i]`. -/
def bitVar (c : Cols) (bits : ℕ) (msb : Bool) (srow : ℤ) (i : ℕ) : Var := BitDecomp.out c 9 bits msb srow i

/-- Operands of the multiplication by the first bit, variable_base_multiplication.hpp:241-244. -/
def firstIn (c : Cols) (bits : ℕ) (msb : Bool) (inp : MulIn) (srow : ℤ) : BoolScalarMul.In := ⟨inp.tx, inp.ty, bitVar c bits msb srow 0⟩

/-- Operands of step `i`: the point, the result so far and bit `i + 1`, variable_base_multiplication.hpp:246-258. -/
def stepIn (c : Cols) (bits : ℕ) (msb : Bool) (inp : MulIn) (srow : ℤ) : ℕ → BitIn
  | 0 => ⟨inp.tx, inp.ty, BoolScalarMul.resultX c (srow + decRows bits), BoolScalarMul.resultY c (srow + decRows bits), bitVar c bits msb srow 1⟩
  | i + 1 => ⟨inp.tx, inp.ty, bitResultX (stepRow bits srow i), bitResultY (stepRow bits srow i), bitVar c bits msb srow (i + 2)⟩

/-- The circuit of the decomposition and the first `m` steps. -/
def mulPrefix {F : Type*} [Field F] (c : Cols) (bits : ℕ) (msb : Bool) (inp : MulIn) (srow : ℤ) : ℕ → List (Op F)
  | 0 => BitDecomp.circuit c 9 bits inp.k srow ++ BoolScalarMul.circuit c (firstIn c bits msb inp srow) (srow + decRows bits)
  | m + 1 => mulPrefix c bits msb inp srow m ++ bitCircuit c (stepIn c bits msb inp srow m) (stepRow bits srow m)

/-- `generate_circuit`, variable_base_multiplication.hpp:263-310. The number of steps does not depend on `bits`. -/
def mulCircuit {F : Type*} [Field F] (c : Cols) (bits : ℕ) (msb : Bool) (inp : MulIn) (srow : ℤ) : List (Op F) :=
  mulPrefix c bits msb inp srow 252

/-- The assignment of the decomposition and the first `m` steps. -/
def mulRun {n : ℕ} [Fact n.Prime] [Fact modulus.Prime] (c : Cols) (bits : ℕ) (msb : Bool) (inp : MulIn) (srow : ℤ) (t : Table (ZMod n)) : ℕ → Table (ZMod n)
  | 0 => BoolScalarMul.assign c (firstIn c bits msb inp srow) (srow + decRows bits) (BitDecomp.assign c 9 bits inp.k srow t)
  | m + 1 => bitAssign c (stepIn c bits msb inp srow m) (stepRow bits srow m) (mulRun c bits msb inp srow t m)

/-- `generate_assignments`, variable_base_multiplication.hpp:215-261. -/
def mulAssign {n : ℕ} [Fact n.Prime] [Fact modulus.Prime] (c : Cols) (bits : ℕ) (msb : Bool) (inp : MulIn) (srow : ℤ) (t : Table (ZMod n)) : Table (ZMod n) :=
  mulRun c bits msb inp srow t 252

/-- `result_type`, variable_base_multiplication.hpp:148-166. -/
def mulResultX (bits : ℕ) (srow : ℤ) : ℕ → Var := bitResultX (srow + mulRows bits - bitRows)
@[inherit_doc mulResultX] def mulResultY (bits : ℕ) (srow : ℤ) : ℕ → Var := bitResultY (srow + mulRows bits - bitRows)

end EdMul
end Verif
