import Verif.Core.Grid
import Mathlib.Data.ZMod.Basic

/-!
# `scalar_non_native_range` (`components/algebra/curves/edwards/plonk/non_native/scalar_non_native_range.hpp`)

Splits a number into twelve 22-bit limbs and is meant to check that it is below the order of the prime subgroup of ed25519. Nine witness
columns, three rows.

`n` is the width of `scalar_field_type::integral_type`, which is defined outside the repository: conversions to it and sums in it are taken
modulo `2^n`.
-/

namespace Verif
namespace ScalarRange

/-- The modulus of the scalar field of ed25519 (`scalar_non_native_range.hpp:149`, `204`). The number itself is in the field library; it is also
written out in `reduction.hpp:165`. -/
def L : ℕ := 0x1000000000000000000000000000000014def9dea2f79cd65812631a5cf5d3ed

/-- `d` (150, 205). -/
def dConst : ℕ := 2 ^ 253 - L

/-- `k_chunks[i]`, `dk_chunks[i]` (154-157). -/
def chunk (x i : ℕ) : ℕ := x / 2 ^ (i * 22) % 2 ^ 22

section
variable {p : ℕ}

/-- The value written to row `m`, column `j` (158-185). -/
def cell (k dk : ℕ) (m j : ℕ) : ZMod p :=
  match m, j with
  | 0, 0 => (k : ZMod p)
  | 0, j => (chunk k (j - 1) : ZMod p)
  | 1, 4 => (dk : ZMod p)
  | 1, j => if j < 4 then (chunk k (8 + j) : ZMod p) else (chunk dk (j - 5) : ZMod p)
  | _, j => (chunk dk (4 + j) : ZMod p)

/-- The cells written. -/
def positions : List (ℕ × ℕ) :=
  (List.range 9).map (fun j => (0, j)) ++ (List.range 9).map (fun j => (1, j)) ++ (List.range 8).map (fun j => (2, j))

/-- `generate_assignments` (133-189) with integers of `n` bits. -/
def assign (n : ℕ) (c : Cols) (k : Var) (srow : ℤ) (t : Table (ZMod p)) : Table (ZMod p) :=
  let kk := (k.value t).val % 2 ^ n
  let dk := (kk + dConst % 2 ^ n) % 2 ^ n
  writeAll (positions.map fun q => ⟨.witness, c.w (q.2 : ℤ), srow + (q.1 : ℤ), cell kk dk q.1 q.2⟩) t

end

/-- `result_type` (92-100). -/
def result (c : Cols) (srow : ℤ) (i : ℕ) : Var := if i < 8 then c.wa ((i : ℤ) + 1) srow else c.wa ((i : ℤ) - 8) (srow + 1)

section
variable {F : Type*} [Field F]

/-- `constraint_1`, `constraint_2`, `constraint_3` (206-221). -/
def gate (c : Cols) : List (Expr F) :=
  let w := fun (i r : ℤ) => (c.wv i r : Expr F)
  let b := fun (n : ℕ) => (Expr.const ((2 ^ n : ℕ) : F) : Expr F)
  [w 0 (-1) - (w 1 (-1) + w 2 (-1) * b 22 + w 3 (-1) * b 44 + w 4 (-1) * b 66 + w 5 (-1) * b 88 + w 6 (-1) * b 110 + w 7 (-1) * b 132 +
      w 8 (-1) * b 154 + w 0 0 * b 176 + w 1 0 * b 198 + w 2 0 * b 220 + w 3 0 * b 242),
   w 4 0 - w 0 (-1) - .const (dConst : F),
   w 4 0 - (w 5 0 + w 6 0 * b 22 + w 7 0 * b 44 + w 8 0 * b 66 + w 0 1 * b 88 + w 1 1 * b 110 + w 2 1 * b 132 + w 3 1 * b 154 +
      w 4 1 * b 176 + w 5 1 * b 198 + w 6 1 * b 220 + w 7 1 * b 242)]

/-- `generate_circuit` (236-254) with `generate_copy_constraints` (224-234). -/
def circuit (c : Cols) (k : Var) (srow : ℤ) : List (Op F) := [.gate (gate c) [srow + 1], .copy (c.wa 0 srow) k]

end

end ScalarRange
end Verif
