import Verif.Model.Ed25519
import Verif.Core.Edwards
import Mathlib.Logic.Function.Basic

/-!
# Points of Ed25519 on limbs

`components/algebra/curves/edwards/plonk/non_native/complete_addition.hpp`, `doubling.hpp`,
`variable_base_multiplication_per_bit.hpp`.

These components have no gates of their own: they call range, multiplication, addition and subtraction modulo
`2^255 - 19` (`Model/Ed25519.lean`) one below the other and connect some of the results by copy constraints. The
sequence of the arithmetic calls is written as a program over registers (four variables each); the result of the call
number `i` goes to the next free register. Point addition of the curve library (`T + R`, `T + T`) is the addition law
of `Core/Edwards.lean`.
-/

namespace Verif
namespace EdCurve

open Ed25519

/-- The arithmetic sub-components. -/
inductive Kind where
  | mul | add | sub
deriving DecidableEq

/-- `get_rows_amount` of multiplication.hpp, addition.hpp and subtraction.hpp. -/
def Kind.rows : Kind → ℕ
  | mul => 7
  | add => 4
  | sub => 4

/-- `result_type` of the sub-component. -/
def Kind.result (c : Cols) : Kind → ℤ → ℕ → Var
  | mul => mulResult c
  | add => addResult c
  | sub => addResult c

/-- `generate_circuit` of the sub-component. -/
def Kind.circuit {F : Type*} [Field F] (c : Cols) : Kind → In → ℤ → List (Op F)
  | mul => mulCircuit c
  | add => addCircuit c
  | sub => subCircuit c

/-- `generate_assignments` of the sub-component. -/
def Kind.assign {n : ℕ} [Fact n.Prime] (c : Cols) : Kind → In → ℤ → Table (ZMod n) → Table (ZMod n)
  | mul => mulAssign c
  | add => addAssign c
  | sub => subAssign c

/-- A call with the registers of its operands. -/
structure Call where
  kind : Kind
  a : ℕ
  b : ℕ

/-- Registers: four variables each. -/
abbrev Regs := ℕ → ℕ → Var

/-- Rows of a program. -/
def rows : List Call → ℕ
  | [] => 0
  | q :: l => q.kind.rows + rows l

/-- Registers after a program whose first result goes to register `k`. -/
def regs (c : Cols) : List Call → ℕ → Regs → ℤ → Regs
  | [], _, R, _ => R
  | q :: l, k, R, row => regs c l (k + 1) (Function.update R k (q.kind.result c row)) (row + q.kind.rows)

/-- Circuits of the calls. -/
def circuits {F : Type*} [Field F] (c : Cols) : List Call → ℕ → Regs → ℤ → List (Op F)
  | [], _, _, _ => []
  | q :: l, k, R, row =>
    q.kind.circuit c ⟨R q.a, R q.b⟩ row ++
      circuits c l (k + 1) (Function.update R k (q.kind.result c row)) (row + q.kind.rows)

/-- Assignments of the calls. -/
def assigns {n : ℕ} [Fact n.Prime] (c : Cols) : List Call → ℕ → Regs → ℤ → Table (ZMod n) → Table (ZMod n)
  | [], _, _, _, t => t
  | q :: l, k, R, row, t =>
    assigns c l (k + 1) (Function.update R k (q.kind.result c row)) (row + q.kind.rows)
      (q.kind.assign c ⟨R q.a, R q.b⟩ row t)

/-- Four limbs in the first four columns of a row: `P_x`, `P_y`, complete_addition.hpp:301-305 and 315-319. -/
def limbVars (c : Cols) (row : ℤ) : ℕ → Var := fun i => c.wa i row

/-- The limbs of a coordinate written to a row and range checked, complete_addition.hpp:297-309, doubling.hpp:263-275. -/
def putLimbs {n : ℕ} [Fact n.Prime] (c : Cols) (row : ℤ) (x : ℕ) (t : Table (ZMod n)) : Table (ZMod n) :=
  rangeAssign c (limbVars c row) row
    (writeAll ((List.range 4).map fun j : ℕ => ⟨.witness, c.w j, row, (limb x j : ZMod n)⟩) t)

/-- `d`, complete_addition.hpp:605-607. -/
def dInt : ℕ := 0x52036cee2b6ffe738cc740797779e89800700a4d4141d8ab75eb4dca135978a3

/-- The number in four variables, as an element of the field of the curve, complete_addition.hpp:253-270. -/
def coord {n : ℕ} [Fact n.Prime] (t : Table (ZMod n)) (v : ℕ → Var) : ZMod modulus :=
  (compose fun i => ((v i).value t).val : ℕ)

/-! ### complete_addition.hpp -/

/-- `input_type`, complete_addition.hpp:118-131. -/
structure AddIn where
  tx : ℕ → Var
  ty : ℕ → Var
  rx : ℕ → Var
  ry : ℕ → Var

/-- `get_rows_amount`, complete_addition.hpp:97-103. -/
def addRows : ℕ := 76

/-- `d_var_array`, complete_addition.hpp:360-363 and 497-500: constants of the rows 51 to 54. -/
def dVars (c : Cols) (srow : ℤ) : ℕ → Var := fun i => ⟨c.k 0, srow + 47 + (4 + i : ℕ), false, .constant⟩

/-- Registers 0 to 6: `T_x`, `T_y`, `R_x`, `R_y`, `P_x`, `P_y`, `d`. -/
def addRegs (c : Cols) (inp : AddIn) (srow : ℤ) : Regs
  | 0 => inp.tx
  | 1 => inp.ty
  | 2 => inp.rx
  | 3 => inp.ry
  | 4 => limbVars c srow
  | 5 => limbVars c (srow + 2)
  | _ => dVars c srow

/-- The calls, complete_addition.hpp:325-388 and 462-525: `t0 = T_x R_y` (7), `t1 = T_y R_x` (8), `t2 = T_x R_x` (9),
`t3 = T_y R_y` (10), `z0 = t0 + t1` (11), `z1 = t2 + t3` (12), `z2 = t0 t1` (13), `k0 = d z2` (14), `k1 = P_x k0` (15),
`k2 = P_y k0` (16), `k3 = P_x + k1` (17), `k4 = P_y - k2` (18). -/
def addProg : List Call :=
  [⟨.mul, 0, 3⟩, ⟨.mul, 1, 2⟩, ⟨.mul, 0, 2⟩, ⟨.mul, 1, 3⟩, ⟨.add, 7, 8⟩, ⟨.add, 9, 10⟩, ⟨.mul, 7, 8⟩, ⟨.mul, 6, 13⟩,
   ⟨.mul, 4, 14⟩, ⟨.mul, 5, 14⟩, ⟨.add, 4, 15⟩, ⟨.sub, 5, 16⟩]

section circuits
variable {F : Type*} [Field F]

/-- `generate_constants`, complete_addition.hpp:570-612. -/
def addConsts (c : Cols) (srow : ℤ) : List (Op F) :=
  (List.range 4).map fun i : ℕ => .constant (c.k 0) (srow + 47 + (4 + i : ℕ)) (limb dInt i : F)

/-- `generate_copy_constraints`, complete_addition.hpp:534-567. -/
def addCopyOut (c : Cols) (srow : ℤ) : List (Op F) :=
  ((List.range 4).map fun i : ℕ => .copy (c.wa i (srow + 32 + 2)) (c.wa i (srow + addRows - 4 - 2))) ++
  ((List.range 4).map fun i : ℕ => .copy (c.wa i (srow + 36 + 2)) (c.wa i (srow + addRows - 2)))

/-- `generate_circuit`, complete_addition.hpp:393-531. -/
def addCircuit (c : Cols) (inp : AddIn) (srow : ℤ) : List (Op F) :=
  rangeCircuit c (limbVars c srow) srow ++
  (rangeCircuit c (limbVars c (srow + 2)) (srow + 2) ++
  (circuits c addProg 7 (addRegs c inp srow) (srow + 4) ++ (addConsts c srow ++ addCopyOut c srow)))

end circuits

/-- `result_type`, complete_addition.hpp:133-154, doubling.hpp:126-147. -/
def resultX (c : Cols) (srow : ℤ) : ℕ → Var := limbVars c srow
def resultY (c : Cols) (srow : ℤ) : ℕ → Var := limbVars c (srow + 2)

section assignments
variable {n : ℕ} [Fact n.Prime]

/-- Everything but the choice of `P`, complete_addition.hpp:297-390. -/
def addWith (c : Cols) (inp : AddIn) (srow : ℤ) (px py : ℕ) (t : Table (ZMod n)) : Table (ZMod n) :=
  assigns c addProg 7 (addRegs c inp srow) (srow + 4) (putLimbs c (srow + 2) py (putLimbs c srow px t))

/-- `generate_assignments`, complete_addition.hpp:181-391. `P` is `T + R` (272). -/
def addAssign (c : Cols) (inp : AddIn) (srow : ℤ) (t : Table (ZMod n)) [Fact modulus.Prime] : Table (ZMod n) :=
  let x1 := coord t inp.tx
  let y1 := coord t inp.ty
  let x2 := coord t inp.rx
  let y2 := coord t inp.ry
  addWith c inp srow (Edwards.addX (dInt : ZMod modulus) x1 y1 x2 y2).val
    (Edwards.addY (dInt : ZMod modulus) x1 y1 x2 y2).val t

end assignments

/-! ### doubling.hpp -/

/-- `input_type`, doubling.hpp:113-124. -/
structure DblIn where
  tx : ℕ → Var
  ty : ℕ → Var

/-- `get_rows_amount`, doubling.hpp:102-108. -/
def dblRows : ℕ := 63

/-- Registers 0 to 3: `T_x`, `T_y`, `P_x`, `P_y`. -/
def dblRegs (c : Cols) (inp : DblIn) (srow : ℤ) : Regs
  | 0 => inp.tx
  | 1 => inp.ty
  | 2 => limbVars c srow
  | _ => limbVars c (srow + 2)

/-- The calls, doubling.hpp:291-344 and 420-473: `t0 = T_y T_y` (4), `t1 = T_x T_x` (5), `t2 = T_x T_y` (6),
`t3 = t0 - t1` (7), `t4 = t2 + t2` (8), `t5 = t1 + t0` (9), `t6 = t1 - t0` (10), `t7 = P_x t3` (11), `t8 = P_y + P_y`
(12), `t9 = P_y t6` (13), `t10 = t8 + t9` (14). -/
def dblProg : List Call :=
  [⟨.mul, 1, 1⟩, ⟨.mul, 0, 0⟩, ⟨.mul, 0, 1⟩, ⟨.sub, 4, 5⟩, ⟨.add, 6, 6⟩, ⟨.add, 5, 4⟩, ⟨.sub, 5, 4⟩, ⟨.mul, 2, 7⟩,
   ⟨.add, 3, 3⟩, ⟨.mul, 3, 10⟩, ⟨.add, 12, 13⟩]

section circuits
variable {F : Type*} [Field F]

/-- `generate_copy_constraints`, doubling.hpp:480-519: `t7` (row 41) with `t4` (row 29); `t5` (row 33) with `t10` (row
59), in columns `W(3)` to `W(6)` although the results of addition are in `W(0)` to `W(3)`. -/
def dblCopyOut (c : Cols) (srow : ℤ) : List (Op F) :=
  ((List.range 4).map fun i : ℕ => .copy (c.wa ((3 + i : ℕ) : ℤ) (srow + 41 + 5)) (c.wa i (srow + 29 + 2))) ++
  ((List.range 4).map fun i : ℕ => .copy (c.wa ((3 + i : ℕ) : ℤ) (srow + 33 + 2)) (c.wa ((3 + i : ℕ) : ℤ) (srow + 59 + 2)))

/-- `generate_circuit`, doubling.hpp:351-478. -/
def dblCircuit (c : Cols) (inp : DblIn) (srow : ℤ) : List (Op F) :=
  rangeCircuit c (limbVars c srow) srow ++
  (rangeCircuit c (limbVars c (srow + 2)) (srow + 2) ++
  (circuits c dblProg 4 (dblRegs c inp srow) (srow + 4) ++ dblCopyOut c srow))

end circuits

section assignments
variable {n : ℕ} [Fact n.Prime]

/-- Everything but the choice of `P`, doubling.hpp:263-346. -/
def dblWith (c : Cols) (inp : DblIn) (srow : ℤ) (px py : ℕ) (t : Table (ZMod n)) : Table (ZMod n) :=
  assigns c dblProg 4 (dblRegs c inp srow) (srow + 4) (putLimbs c (srow + 2) py (putLimbs c srow px t))

/-- `generate_assignments`, doubling.hpp:178-347. `P` is `T + T` (247). -/
def dblAssign (c : Cols) (inp : DblIn) (srow : ℤ) (t : Table (ZMod n)) [Fact modulus.Prime] : Table (ZMod n) :=
  let x := coord t inp.tx
  let y := coord t inp.ty
  dblWith c inp srow (Edwards.addX (dInt : ZMod modulus) x y x y).val (Edwards.addY (dInt : ZMod modulus) x y x y).val t

end assignments

end EdCurve
end Verif
