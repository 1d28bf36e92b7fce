import Verif.Core.Grid
import Mathlib.Data.ZMod.Basic

/-!
# `reduction` (`components/algebra/fields/plonk/non_native/reduction.hpp`)

Reduces a 512-bit number, given as eight 64-bit words, modulo the order of the prime subgroup of ed25519. Nine witness columns, four rows.

The 512-bit and wider integers of the code are natural numbers here. With words below the modulus of a 255-bit field no 512-bit value overflows
(`8 * 2^255 * 2^253 < 2^512`), except `shft` after its last use.
-/

namespace Verif
namespace Reduction

/-- `L` (`reduction.hpp:165`, `259`). -/
def L : ℕ := 0x1000000000000000000000000000000014def9dea2f79cd65812631a5cf5d3ed

/-- `input_type` (92-98). -/
structure In where
  k : ℕ → Var

/-- `shft % L` in step `i` of the loop (171-172), and `m` of the gates (305-306). -/
def weight (i : ℕ) : ℕ := 2 ^ (64 * i) % L

/-- The accumulator `k` after the loop (166-173), which is unrolled here. -/
def acc (d : ℕ → ℕ) : ℕ :=
  d 0 * weight 0 + d 1 * weight 1 + d 2 * weight 2 + d 3 * weight 3 + d 4 * weight 4 + d 5 * weight 5 + d 6 * weight 6 + d 7 * weight 7

/-- `c` (226-231). -/
def cSum (d : ℕ → ℕ) (q : ℕ) : ℕ :=
  d 0 + d 1 * 2 ^ 64 + d 3 * (weight 3 % 2 ^ 73) + d 4 * (weight 4 % 2 ^ 73) + d 5 * (weight 5 % 2 ^ 73) +
    d 6 * (weight 6 % 2 ^ 73) + d 7 * (weight 7 % 2 ^ 73) + q * (2 ^ 73 - L % 2 ^ 73)

/-- `d` (233-235). In C++ `+` binds tighter than `&`, so the mask is a sum that contains parts of `r`. -/
def dMask (r : ℕ) : ℕ :=
  r &&& ((2 ^ 13 - 1) + r / 2 ^ 13 % 2 ^ 20 * 2 ^ 13 + r / 2 ^ 33 % 2 ^ 20 * 2 ^ 33 + r / 2 ^ 53 % 2 ^ 20 * 2 ^ 53)

/-- `v` (236). Unsigned subtraction; the theorems show it does not underflow. -/
def vQuot (d : ℕ → ℕ) (q r : ℕ) : ℕ := (cSum d q - dMask r) / 2 ^ 69

section
variable {p : ℕ}

/-- Chunks of `r`, most significant first (184-209): column `j` of the first row, then columns 0, 1, 2 of the second. -/
def chunk (r j : ℕ) : ℕ := if j = 0 then r / 2 ^ 233 else r / 2 ^ (233 - 20 * j) % 2 ^ 20

/-- `s_r` (211-218). -/
def sr (r : ℕ) : ZMod p := ((List.range 12).map fun j => ((chunk r j : ℕ) : ZMod p)).sum - ((12 * (2 ^ 20 - 1) : ℕ) : ZMod p)

/-- The value written to row `m`, column `j` (170, 178-209, 220-222, 238-242) for words `d`, quotient `q`, remainder `r`. -/
def cell (d : ℕ → ℕ) (q r : ℕ) (m j : ℕ) : ZMod p :=
  match m, j with
  | 0, j => (chunk r j : ZMod p)
  | 1, 0 => (chunk r 9 : ZMod p)
  | 1, 1 => (chunk r 10 : ZMod p)
  | 1, 2 => (chunk r 11 : ZMod p)
  | 1, 3 => ((r % 2 ^ 13 : ℕ) : ZMod p)
  | 1, 4 => (r : ZMod p)
  | 1, 5 => (sr r : ZMod p)⁻¹
  | 1, _ => 1
  | 2, 0 => ((q / 2 ^ 47 % 2 ^ 20 : ℕ) : ZMod p)
  | 2, 1 => ((q / 2 ^ 27 % 2 ^ 20 : ℕ) : ZMod p)
  | 2, 2 => ((q / 2 ^ 7 % 2 ^ 20 : ℕ) : ZMod p)
  | 2, 3 => ((q % 2 ^ 7 : ℕ) : ZMod p)
  | 2, 4 => ((vQuot d q r / 2 ^ 56 : ℕ) : ZMod p)
  | 2, 5 => ((vQuot d q r / 2 ^ 34 % 2 ^ 22 : ℕ) : ZMod p)
  | 2, 6 => ((vQuot d q r / 2 ^ 12 % 2 ^ 22 : ℕ) : ZMod p)
  | 2, _ => ((vQuot d q r % 2 ^ 12 : ℕ) : ZMod p)
  | _, 8 => (vQuot d q r : ZMod p)
  | _, j => (d j : ZMod p)

/-- The cells written: nine, seven, eight and nine in the four rows. -/
def positions : List (ℕ × ℕ) :=
  (List.range 9).map (fun j => (0, j)) ++ (List.range 7).map (fun j => (1, j)) ++ (List.range 8).map (fun j => (2, j)) ++
    (List.range 9).map (fun j => (3, j))

/-- `generate_assignments` (136-246). -/
def assign (c : Cols) (inp : In) (srow : ℤ) (t : Table (ZMod p)) : Table (ZMod p) :=
  let d := fun i => ((inp.k i).value t).val
  writeAll (positions.map fun q => ⟨.witness, c.w (q.2 : ℤ), srow + (q.1 : ℤ), cell d (acc d / L) (acc d % L) q.1 q.2⟩) t

end

/-- `result_type` (100-105): `rows_amount` is 4. -/
def result (c : Cols) (srow : ℤ) : Var := c.wa 4 (srow + 4 - 3)

section
variable {F : Type*} [Field F]

/-- `s_r` of the gates (278-282), relative to the second row. -/
def srExpr (c : Cols) : Expr F :=
  let w := fun (i r : ℤ) => (c.wv i r : Expr F)
  w 0 (-1) + w 1 (-1) + w 2 (-1) + w 3 (-1) + w 4 (-1) + w 5 (-1) + w 6 (-1) + w 7 (-1) + w 8 (-1) + w 0 0 + w 1 0 + w 2 0 -
    .const ((12 * (2 ^ 20 - 1) : ℕ) : F)

/-- First gate: `constraint_2`, `constraint_3`, `constraint_4` (284-303). -/
def gate1 (c : Cols) : List (Expr F) :=
  let w := fun (i r : ℤ) => (c.wv i r : Expr F)
  let k := fun (n : ℕ) => (Expr.const (n : F) : Expr F)
  [w 4 0 - (w 3 0 + w 2 0 * k 0x2000 + w 1 0 * k 0x200000000 + w 0 0 * k 0x20000000000000 + w 8 (-1) * k 0x2000000000000000000 +
      w 7 (-1) * k 0x200000000000000000000000 + w 6 (-1) * k 0x20000000000000000000000000000 +
      w 5 (-1) * k 0x2000000000000000000000000000000000 + w 4 (-1) * k 0x200000000000000000000000000000000000000 +
      w 3 (-1) * k 0x20000000000000000000000000000000000000000000 + w 2 (-1) * k 0x2000000000000000000000000000000000000000000000000 +
      w 1 (-1) * k 0x200000000000000000000000000000000000000000000000000000 +
      w 0 (-1) * k 0x20000000000000000000000000000000000000000000000000000000000),
   srExpr c * (srExpr c * w 5 0 - k 1),
   srExpr c * w 5 0 + (k 1 - srExpr c * w 5 0) * w 6 0 - k 1]

/-- Second gate: `constraint_1`, `constraint_5`, `constraint_6` (261-276, 304-324). -/
def gate2 (c : Cols) : List (Expr F) :=
  let w := fun (i r : ℤ) => (c.wv i r : Expr F)
  let k := fun (n : ℕ) => (Expr.const (n : F) : Expr F)
  let q := w 0 0 * k 0x800000000000 + w 1 0 * k 0x8000000 + w 2 0 * k 0x80 + w 3 0
  [w 0 1 * k 1 + w 1 1 * k 0x10000000000000000 + w 2 1 * k 0x100000000000000000000000000000000 +
      w 3 1 * k 0x1000000000000000000000000000000000000000000000000 +
      w 4 1 * k 0xffffffffffffffffffffffffffffffec6ef5bf4737dcf70d6ec31748d98951d +
      w 5 1 * k 0xffffffffffffffeb2106215d086329a93b8c838d39a5e065812631a5cf5d3ed +
      w 6 1 * k 0x2106215d086329a7ed9ce5a30a2c131b64a7f435e4fdd9539822129a02a6271 +
      w 7 1 * k 0xed9ce5a30a2c131b399411b7c309a3de24babbe38d1d7a979daf520a00acb65 - w 4 (-1) - q * k L,
   w 0 1 + w 1 1 * k (2 ^ 64) + w 3 1 * k (weight 3 % 2 ^ 73) + w 4 1 * k (weight 4 % 2 ^ 73) + w 5 1 * k (weight 5 % 2 ^ 73) +
      w 6 1 * k (weight 6 % 2 ^ 73) + w 7 1 * k (weight 7 % 2 ^ 73) + q * k (2 ^ 73 - L % 2 ^ 73) -
      (w 3 (-1) + w 2 (-1) * k (2 ^ 13) + w 1 (-1) * k (2 ^ 33) + w 0 (-1) * k (2 ^ 53)) - w 8 1 * k (2 ^ 69),
   w 8 1 - (w 4 0 * k (2 ^ 56) + w 5 0 * k (2 ^ 34) + w 6 0 * k (2 ^ 12) + w 7 0)]

/-- `generate_circuit` (358-376) with `generate_copy_constraints` (334-355). -/
def circuit (c : Cols) (inp : In) (srow : ℤ) : List (Op F) :=
  [.gate (gate1 c) [srow + 1], .gate (gate2 c) [srow + 2]] ++ (List.range 8).map fun i => .copy (c.wa (i : ℤ) (srow + 3)) (inp.k i)

end

end Reduction
end Verif
