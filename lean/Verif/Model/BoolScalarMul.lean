import Verif.Core.Grid

/-!
# Multiplication of a point by a bit
(`components/algebra/curves/edwards/plonk/non_native/bool_scalar_multiplication.hpp`)

Nine witness columns, two rows: the ordinate in the first row, the abscissa in the second. Coordinates are four limbs.
The conversion of the bit to the integer type of the foreign field and back (169) is the identity on 0 and 1 and is
left out.
-/

namespace Verif
namespace BoolScalarMul

variable {F : Type*} [Field F]

/-- `input_type`, bool_scalar_multiplication.hpp:90-104. -/
structure In where
  x : ℕ → Var
  y : ℕ → Var
  k : Var

/-- bool_scalar_multiplication.hpp:209-233. -/
def gate (c : Cols) : List (Expr F) :=
  [c.wv 4 * (c.wv 4 - 1),
   c.wv 4 - c.wv 4 1,
   c.wv 5 - (c.wv 0 * c.wv 4 + (1 - c.wv 4)),
   c.wv 6 - c.wv 1 * c.wv 4,
   c.wv 7 - c.wv 2 * c.wv 4,
   c.wv 8 - c.wv 3 * c.wv 4,
   c.wv 5 1 - c.wv 0 1 * c.wv 4 1,
   c.wv 6 1 - c.wv 1 1 * c.wv 4 1,
   c.wv 7 1 - c.wv 2 1 * c.wv 4 1,
   c.wv 8 1 - c.wv 3 1 * c.wv 4 1]

/-- bool_scalar_multiplication.hpp:250-259. -/
def copies (c : Cols) (inp : In) (srow : ℤ) : List (Op F) :=
  [.copy (c.wa 0 (srow + 1)) (inp.x 0), .copy (c.wa 1 (srow + 1)) (inp.x 1), .copy (c.wa 2 (srow + 1)) (inp.x 2),
   .copy (c.wa 3 (srow + 1)) (inp.x 3), .copy (c.wa 4 (srow + 1)) inp.k,
   .copy (c.wa 0 srow) (inp.y 0), .copy (c.wa 1 srow) (inp.y 1), .copy (c.wa 2 srow) (inp.y 2),
   .copy (c.wa 3 srow) (inp.y 3), .copy (c.wa 4 srow) inp.k]

/-- `generate_circuit`, bool_scalar_multiplication.hpp:262-280. -/
def circuit (c : Cols) (inp : In) (srow : ℤ) : List (Op F) := .gate (gate c) [srow] :: copies c inp srow

/-- `output.x`, bool_scalar_multiplication.hpp:119-123. -/
def resultX (c : Cols) (srow : ℤ) (i : ℕ) : Var := c.wa ((5 + i : ℕ) : ℤ) (srow + 1)

/-- `output.y`, bool_scalar_multiplication.hpp:114-118. -/
def resultY (c : Cols) (srow : ℤ) (i : ℕ) : Var := c.wa ((5 + i : ℕ) : ℤ) srow

/-- The cells, bool_scalar_multiplication.hpp:175-193. -/
def cell (x y : ℕ → F) (b : F) (r j : ℕ) : F :=
  if r = 0 then
    if j < 4 then y j else if j = 4 then b else if j = 5 then b * y 0 + (1 - b) else b * y (j - 5)
  else
    if j < 4 then x j else if j = 4 then b else b * x (j - 5)

/-- `generate_assignments`, bool_scalar_multiplication.hpp:158-197. -/
def assign (c : Cols) (inp : In) (srow : ℤ) (t : Table F) : Table F :=
  let x := fun i => (inp.x i).value t
  let y := fun i => (inp.y i).value t
  let b := inp.k.value t
  writeAll ((List.range 2).flatMap fun r : ℕ => (List.range 9).map fun j : ℕ =>
    ⟨.witness, c.w j, srow + r, cell x y b r j⟩) t

end BoolScalarMul
end Verif
