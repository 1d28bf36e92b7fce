import Verif.Core.Grid
import Mathlib.Algebra.Field.ZMod

/-!
# Exponentiation

`components/algebra/fields/plonk/exponentiation.hpp`. The manifest (114-120) admits 15 witness columns only, and
the bit columns are addressed as `W(14 - i)`; the model fixes that width. The exponent size (a template argument
there) stays a parameter.
-/

namespace Verif
namespace Exponentiation
variable {F : Type*} [Field F]

/-- exponentiation.hpp:75-77 for 15 columns: `(15 - 2) / (2 + 1)`. -/
def perRow : ℕ := (15 - 2) / (2 + 1)
/-- exponentiation.hpp:79-81. -/
def bitsPerRow : ℕ := perRow * 2
/-- exponentiation.hpp:83-86. -/
def mainRows (es : ℕ) : ℕ := (es + bitsPerRow - 1) / bitsPerRow
/-- exponentiation.hpp:88-90. -/
def padded (es : ℕ) : ℕ := mainRows es * bitsPerRow
/-- exponentiation.hpp:92-94. -/
def rows (es : ℕ) : ℕ := mainRows es + 1

/-- `column_idx`, exponentiation.hpp:244, 290. -/
def bitCol (j b : ℕ) : ℕ := 14 - j * 2 - b

/-- Intermediate result constraint of column `j`, exponentiation.hpp:285-308. -/
def interC (c : Cols) (j : ℕ) : Expr F :=
  (List.range 2).foldl (fun (e : Expr F) (b : ℕ) =>
      e * e * (c.wv 0 * c.wv (bitCol j b : ℕ) + (1 - c.wv (bitCol j b : ℕ))))
    (if j = 0 then c.wv ((2 + perRow - 1 : ℕ) : ℤ) (-1) else c.wv ((2 + j - 1 : ℕ) : ℤ)) -
  c.wv ((2 + j : ℕ) : ℤ)

/-- Accumulated exponent constraint, exponentiation.hpp:297-301, 312. -/
def accC (c : Cols) : Expr F :=
  (List.range (bitsPerRow - 1)).foldl
      (fun (e : Expr F) (i : ℕ) => 2 * e + c.wv (bitCol ((i + 1) / 2) ((i + 1) % 2) : ℕ)) (c.wv (bitCol 0 0 : ℕ)) +
    .const (2 ^ bitsPerRow) * c.wv 1 (-1) - c.wv 1

/-- exponentiation.hpp:270-316. -/
def gate (c : Cols) : List (Expr F) :=
  ((List.range perRow).flatMap fun j =>
    ((List.range 2).map fun b => c.wv (bitCol j b : ℕ) * (1 - c.wv (bitCol j b : ℕ))) ++ [interC c j]) ++ [accC c]

/-- `zero`, exponentiation.hpp:328: note the column `W(0)` used as a constant column index. -/
def zeroVar (c : Cols) (srow : ℤ) : Var := ⟨c.w 0, srow, false, .constant⟩
/-- `one`, exponentiation.hpp:329. -/
def oneVar (c : Cols) (srow : ℤ) : Var := ⟨c.w 0, srow + 1, false, .constant⟩

/-- exponentiation.hpp:184-199 with copies 319-341 and constants 344-356. -/
def circuit (c : Cols) (es : ℕ) (base exponent : Var) (srow : ℤ) : List (Op F) :=
  [.gate (gate c) (rowsFrom (srow + 1) (mainRows es))] ++
  ((List.range (mainRows es)).map fun (i : ℕ) => .copy (c.wa 0 (srow + 1 + (i : ℤ))) base) ++
  [.copy (c.wa 1 srow) (zeroVar c srow),
   .copy (c.wa ((2 + perRow - 1 : ℕ) : ℤ) srow) (oneVar c srow),
   .copy (c.wa 1 (srow + rows es - 1)) exponent,
   .constant (c.k 0) srow 0, .constant (c.k 0) (srow + 1) 1]

/-- `result_type`, exponentiation.hpp:149-156. -/
def out (c : Cols) (es : ℕ) (srow : ℤ) : Var := c.wa ((2 + perRow - 1 : ℕ) : ℤ) (srow + rows es - 1)

/-- `acc1` after `k` bits (exponentiation.hpp:229, 251-254). -/
def accAt (base : F) (bits : ℕ → Bool) : ℕ → F
  | 0 => 1
  | k + 1 => accAt base bits k * accAt base bits k * (if bits k then base else 1)

/-- `accumulated_n` after `k` bits (exponentiation.hpp:228, 241-259; the code adds two bits at a time). -/
def nAt (bits : ℕ → Bool) : ℕ → F
  | 0 => 0
  | k + 1 => 2 * nAt bits k + (if bits k then 1 else 0)

/-- exponentiation.hpp:228-263. The second write goes to the *raw* column `intermediate_start + per_row - 1`
(line 233), not to `W(...)` of the component. -/
def writes (c : Cols) (es : ℕ) (base : F) (bits : ℕ → Bool) (srow : ℤ) : List (Write F) :=
  [⟨.witness, c.w 1, srow, 0⟩, ⟨.witness, 2 + perRow - 1, srow, 1⟩] ++
  ((List.range (mainRows es)).flatMap fun (r : ℕ) =>
    [(⟨.witness, c.w 0, srow + 1 + (r : ℤ), base⟩ : Write F)] ++
    ((List.range perRow).flatMap fun j =>
      ((List.range 2).map fun b => (⟨.witness, c.w (bitCol j b : ℕ), srow + 1 + (r : ℤ),
        if bits (r * bitsPerRow + j * 2 + b) then 1 else 0⟩ : Write F)) ++
      [⟨.witness, c.w ((2 + j : ℕ) : ℤ), srow + 1 + (r : ℤ), accAt base bits (r * bitsPerRow + j * 2 + 2)⟩]) ++
    [⟨.witness, c.w 1, srow + 1 + (r : ℤ), nAt bits (r * bitsPerRow + bitsPerRow)⟩])

/-- The bit array, most significant first, exponentiation.hpp:212-226. (An exponent of more than `padded` bits
would index outside the array; the theorems ask for `exponent < 2^padded`.) -/
def bitAt (es e k : ℕ) : Bool := e.testBit (padded es - 1 - k)

/-- exponentiation.hpp:203-267. -/
def assign {p : ℕ} [Fact p.Prime] (c : Cols) (es : ℕ) (base exponent : Var) (srow : ℤ) (t : Table (ZMod p)) :
    Table (ZMod p) :=
  writeAll (writes c es (base.value t) (bitAt es (exponent.value t).val) srow) t

end Exponentiation
end Verif
