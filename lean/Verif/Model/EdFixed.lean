import Verif.Model.EdMul
import Verif.Model.ScalarRange

/-!
# Multiplication of the base point of Ed25519, and verification of EdDSA signatures

`include/nil/blueprint/components/algebra/curves/edwards/plonk/non_native/fixed_base_multiplication.hpp` and
`include/nil/blueprint/components/pubkey/eddsa/plonk/non_native/verification.hpp`.

Both files are written for an older interface of the sub-components; the calls are taken to be those of the models of the present ones
(`addCircuit`, `mulCircuit`, `ScalarRange`). The multiples of the base point that the assignment computes with the curve library are parameters.
The parts of the verification before the two multiplications (the range of `s`, the two points, SHA-512 and its reduction) are a parameter too.
-/

namespace Verif
namespace EdFixed

open Ed25519 EdCurve EdMul

/-- Four limbs of each coordinate in one row, fixed_base_multiplication.hpp:126-131, 156-161, 242-248. -/
def px (c : Cols) (row : ℤ) : ℕ → Var := fun i => c.wa i row
@[inherit_doc px] def py (c : Cols) (row : ℤ) : ℕ → Var := fun i => c.wa ((4 + i : ℕ) : ℤ) row

/-- `rows_amount`, fixed_base_multiplication.hpp:64-65: 3 rows of `scalar_non_native_range`, 13 rows of points, 11 additions. -/
def fixedRows : ℕ := 3 + 13 + 11 * addRows

/-- The row of the first point, fixed_base_multiplication.hpp:240-243. -/
def firstRow (srow : ℤ) : ℤ := srow + 3
/-- The row of point `i + 1` and the first row of addition `i`, fixed_base_multiplication.hpp:244-253. -/
def qRow (srow : ℤ) (i : ℕ) : ℤ := srow + 4 + (77 * i : ℕ)
@[inherit_doc qRow] def addRow (srow : ℤ) (i : ℕ) : ℤ := qRow srow i + 1

/-- `P_x`, `P_y` before addition `i`, fixed_base_multiplication.hpp:242-243, 254-255. -/
def accX (c : Cols) (srow : ℤ) : ℕ → ℕ → Var
  | 0 => px c (firstRow srow)
  | i + 1 => resultX c (addRow srow i)
@[inherit_doc accX] def accY (c : Cols) (srow : ℤ) : ℕ → ℕ → Var
  | 0 => py c (firstRow srow)
  | i + 1 => resultY c (addRow srow i)

/-- Operands of addition `i`, fixed_base_multiplication.hpp:250-252. -/
def stepIn (c : Cols) (srow : ℤ) (i : ℕ) : AddIn := ⟨accX c srow i, accY c srow i, px c (qRow srow i), py c (qRow srow i)⟩

section circuits
variable {F : Type*} [Field F]

/-- The circuit up to addition `m`. -/
def fixedPrefix (c : Cols) (k : Var) (srow : ℤ) : ℕ → List (Op F)
  | 0 => ScalarRange.circuit resCols k srow
  | m + 1 => fixedPrefix c k srow m ++ addCircuit c (stepIn c srow m) (addRow srow m)

/-- `generate_circuit`, fixed_base_multiplication.hpp:230-261; `generate_gates` and `generate_copy_constraints` (263-276) are empty. The range
component uses the columns 0 to 8 whatever those of the component are (51-55). -/
def fixedCircuit (c : Cols) (k : Var) (srow : ℤ) : List (Op F) := fixedPrefix c k srow 11

end circuits

/-- `result_type` (79-83) of the row returned by `generate_assignments` (227, the rows are all used), and by `verification.hpp:275-277`. -/
def fixedX (c : Cols) (srow : ℤ) : ℕ → Var := resultX c (srow + fixedRows - 1 - addRows)
@[inherit_doc fixedX] def fixedY (c : Cols) (srow : ℤ) : ℕ → Var := resultY c (srow + fixedRows - 1 - addRows)

/-- `result_type` of the row returned by `generate_circuit` (260, the last of the 13 rows of points is not counted). -/
def circuitX (c : Cols) (srow : ℤ) : ℕ → Var := resultX c (qRow srow 11 - 1 - addRows)
@[inherit_doc circuitX] def circuitY (c : Cols) (srow : ℤ) : ℕ → Var := resultY c (qRow srow 11 - 1 - addRows)

section assignments
variable {n : ℕ} [Fact n.Prime]

/-- A point and a chunk written to a row, fixed_base_multiplication.hpp:122-132, 152-162, 213-223. -/
def putPoint (c : Cols) (row : ℤ) (P : ℕ × ℕ) (z : ZMod n) (t : Table (ZMod n)) : Table (ZMod n) :=
  writeAll ((List.range 9).map fun j : ℕ => ⟨.witness, c.w j, row + ((0 : ℕ) : ℤ),
    if j < 4 then (limb P.1 j : ZMod n) else if j < 8 then (limb P.2 (j - 4) : ZMod n) else z⟩) t

/-- The assignment up to addition `m`, with the points `pts`, fixed_base_multiplication.hpp:89-167. -/
def fixedRun [Fact modulus.Prime] (c : Cols) (k : Var) (srow : ℤ) (pts : ℕ → ℕ × ℕ) (z : ZMod n) (t : Table (ZMod n)) : ℕ → Table (ZMod n)
  | 0 => putPoint c (firstRow srow) (pts 0) z (ScalarRange.assign 253 resCols k srow t)
  | m + 1 => addAssign c (stepIn c srow m) (addRow srow m) (putPoint c (qRow srow m) (pts (m + 1)) z (fixedRun c k srow pts z t m))

/-- `generate_assignments`, fixed_base_multiplication.hpp:86-228, with the points `pts`; `last` is written to the last row (197-224). -/
def fixedWith [Fact modulus.Prime] (c : Cols) (k : Var) (srow : ℤ) (pts : ℕ → ℕ × ℕ) (last : ℕ × ℕ) (t : Table (ZMod n)) : Table (ZMod n) :=
  let z : ZMod n := (ScalarRange.chunk (k.value t).val 0 : ZMod n)
  putPoint c (qRow srow 11) last z (fixedRun c k srow pts z t 11)

/-- The points that are written, fixed_base_multiplication.hpp:107-108, 136-138: `mulB` gives the multiples of the base point. -/
def fixedAssign [Fact modulus.Prime] (mulB : ℕ → ℕ × ℕ) (c : Cols) (k : Var) (srow : ℤ) (last : ℕ × ℕ) (t : Table (ZMod n)) : Table (ZMod n) :=
  fixedWith c k srow (fun i => mulB (ScalarRange.chunk (k.value t).val i * 2 ^ (22 * i))) last t

end assignments

/-! ### verification.hpp -/

/-- What the verification works on, verification.hpp:148-160: `s`, `R`, the public key, and the rest: `pre` is the circuit of the range of `s`, the two
points, SHA-512 and its reduction (183-201, 226-245), `preRows` its rows, `k` the reduced hash. -/
structure Verify (F : Type*) where
  c : Cols
  s : Var
  rx : ℕ → Var
  ry : ℕ → Var
  ax : ℕ → Var
  ay : ℕ → Var
  pre : List (Op F)
  preRows : ℕ
  k : Var
  msb : Bool

namespace Verify
variable {F : Type*} [Field F] (v : Verify F)

/-- First rows of the multiplications and the addition, verification.hpp:246-254. -/
def fixRow (srow : ℤ) : ℤ := srow + v.preRows
@[inherit_doc fixRow] def mulRow (srow : ℤ) : ℤ := v.fixRow srow + fixedRows
@[inherit_doc fixRow] def sumRow (srow : ℤ) : ℤ := v.mulRow srow + mulRows 253

/-- Operands of the second multiplication and the addition, verification.hpp:249-253. -/
def mulIn : MulIn := ⟨v.ax, v.ay, v.k⟩
@[inherit_doc mulIn] def sumIn (srow : ℤ) : AddIn := ⟨mulResultX 253 (v.mulRow srow), mulResultY 253 (v.mulRow srow), v.rx, v.ry⟩

/-- `generate_copy_constraints`, verification.hpp:266-288. -/
def copies (srow : ℤ) : List (Op F) :=
  ((List.range 4).map fun i => .copy (fixedX v.c (v.fixRow srow) i) (resultX v.c (v.sumRow srow) i)) ++
  ((List.range 4).map fun i => .copy (fixedY v.c (v.fixRow srow) i) (resultY v.c (v.sumRow srow) i))

/-- `generate_circuit`, verification.hpp:215-257, without the multiplication of the base point. -/
def others (srow : ℤ) : List (Op F) :=
  v.pre ++ (mulCircuit v.c 253 v.msb v.mulIn (v.mulRow srow) ++ addCircuit v.c (v.sumIn srow) (v.sumRow srow))

/-- `generate_circuit`, verification.hpp:215-257 (the order of the parts does not matter). -/
def circuit (srow : ℤ) : List (Op F) := v.others srow ++ (fixedCircuit v.c v.s (v.fixRow srow) ++ v.copies srow)

end Verify
end EdFixed
end Verif
