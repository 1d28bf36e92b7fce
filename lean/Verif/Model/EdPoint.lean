import Verif.Model.EdCurve

/-!
# Test that a pair of numbers is a point of Ed25519

`components/algebra/curves/edwards/plonk/non_native/ec_point.hpp`. The component has the old interface (template
parameters for the columns, `params_type`); its calls of range, multiplication and addition are taken to be the present
sub-components, whose numbers of rows (2, 7 and 4) are those its copy constraints are written for. The constants are
written by `generate_assignments` only; they are a list of their own here.
-/

namespace Verif
namespace EdPoint

open Ed25519 EdCurve

/-- `params_type`, ec_point.hpp:96-103. -/
structure In where
  x : ℕ → Var
  y : ℕ → Var

/-- `rows_amount`, ec_point.hpp:90-92. -/
def pointRows : ℕ := 2 * 2 + 5 * 7 + 2 * 4

/-- `a_coef_val`, ec_point.hpp:119. -/
def aInt : ℕ := 0x7fffffffffffffffffffffffffffffffffffffffffffffffffffffffffffffec

/-- `one_var`, `a_var`, `d_var` for `k = 0, 4, 8`, ec_point.hpp:131-142 and 174-185: the column is number 0 whatever the
columns of the component. -/
def constVars (srow : ℤ) (k : ℕ) : ℕ → Var := fun i => ⟨0, srow + (k + i : ℕ), false, .constant⟩

/-- Registers 0 to 4: `x`, `y`, `one`, `a`, `d`. -/
def pointRegs (inp : In) (srow : ℤ) : Regs
  | 0 => inp.x
  | 1 => inp.y
  | 2 => constVars srow 0
  | 3 => constVars srow 4
  | _ => constVars srow 8

/-- The calls, ec_point.hpp:150-164 and 193-207: `y_2` (5), `x_2` (6), `t0 = x_2 a` (7), `left = y_2 + t0` (8),
`t1 = y_2 x_2` (9), `t2 = d t1` (10), `right = one + t2` (11). -/
def pointProg : List Call :=
  [⟨.mul, 1, 1⟩, ⟨.mul, 0, 0⟩, ⟨.mul, 6, 3⟩, ⟨.add, 5, 7⟩, ⟨.mul, 5, 6⟩, ⟨.mul, 4, 9⟩, ⟨.add, 2, 10⟩]

section circuits
variable {F : Type*} [Field F]

/-- The constants of `generate_assignments`, ec_point.hpp:113 and 119-129. -/
def pointConsts (srow : ℤ) : List (Op F) :=
  ((List.range 4).map fun i : ℕ => .constant 0 (srow + (0 + i : ℕ)) (limb 1 i : F)) ++
  (((List.range 4).map fun i : ℕ => .constant 0 (srow + (4 + i : ℕ)) (limb aInt i : F)) ++
  ((List.range 4).map fun i : ℕ => .constant 0 (srow + (8 + i : ℕ)) (limb dInt i : F)))

/-- `generate_copy_constraints`, ec_point.hpp:224-237. -/
def pointCopies (c : Cols) (srow : ℤ) : List (Op F) :=
  (List.range 4).map fun i : ℕ => .copy (Ed25519.addResult c (srow + 25) i) (Ed25519.addResult c (srow + 43) i)

/-- `generate_circuit`, ec_point.hpp:168-212. -/
def pointCircuit (c : Cols) (inp : In) (srow : ℤ) : List (Op F) :=
  rangeCircuit c inp.x srow ++
  (rangeCircuit c inp.y (srow + 2) ++
  (circuits c pointProg 5 (pointRegs inp srow) (srow + 4) ++ pointCopies c srow))

end circuits

section assign
variable {n : ℕ} [Fact n.Prime]

/-- `generate_assignments` without the constants, ec_point.hpp:144-166. -/
def pointCells (c : Cols) (inp : In) (srow : ℤ) (t : Table (ZMod n)) : Table (ZMod n) :=
  assigns c pointProg 5 (pointRegs inp srow) (srow + 4)
    (rangeAssign c inp.y (srow + 2) (rangeAssign c inp.x srow t))

/-- `generate_assignments`, ec_point.hpp:108-166. -/
def pointAssign (c : Cols) (inp : In) (srow : ℤ) (t : Table (ZMod n)) : Table (ZMod n) :=
  pointCells c inp srow (writeConsts (pointConsts srow) t)

end assign

end EdPoint
end Verif
