import Verif.Core.Grid
import Mathlib.Data.ZMod.Basic

/-!
# `decomposition` (`components/hashes/sha2/plonk/decomposition.hpp`)

Splits two 128-bit field elements into eight 32-bit words, most significant word first. Nine witness columns, three rows.
-/

namespace Verif
namespace Decomposition

/-- `input_type` (`decomposition.hpp:91-97`). -/
structure In where
  d0 : Var
  d1 : Var

/-- `(data >> 16 i) & 65535` (`decomposition.hpp:197-203`, and `150-156` in `calculate`). -/
def chunk (x i : ℕ) : ℕ := x / 2 ^ (16 * i) % 65536

section
variable {p : ℕ}

/-- `calculate` (`decomposition.hpp:147-172`). -/
def calculate (x y : ZMod p) : List (ZMod p) :=
  [((chunk x.val 7 * 65536 + chunk x.val 6 : ℕ) : ZMod p), ((chunk x.val 5 * 65536 + chunk x.val 4 : ℕ) : ZMod p),
   ((chunk x.val 3 * 65536 + chunk x.val 2 : ℕ) : ZMod p), ((chunk x.val 1 * 65536 + chunk x.val 0 : ℕ) : ZMod p),
   ((chunk y.val 7 * 65536 + chunk y.val 6 : ℕ) : ZMod p), ((chunk y.val 5 * 65536 + chunk y.val 4 : ℕ) : ZMod p),
   ((chunk y.val 3 * 65536 + chunk y.val 2 : ℕ) : ZMod p), ((chunk y.val 1 * 65536 + chunk y.val 0 : ℕ) : ZMod p)]

/-- The value written to row `r`, column `j` (`decomposition.hpp:197-216`). -/
def cell (x y : ZMod p) (r j : ℕ) : ZMod p :=
  match r with
  | 0 => if j < 8 then (chunk x.val j : ZMod p) else x
  | 1 => match j with
    | 3 => ((chunk x.val 1 * 65536 + chunk x.val 0 : ℕ) : ZMod p)
    | 2 => ((chunk x.val 3 * 65536 + chunk x.val 2 : ℕ) : ZMod p)
    | 1 => ((chunk x.val 5 * 65536 + chunk x.val 4 : ℕ) : ZMod p)
    | 0 => ((chunk x.val 7 * 65536 + chunk x.val 6 : ℕ) : ZMod p)
    | 7 => ((chunk y.val 1 * 65536 + chunk y.val 0 : ℕ) : ZMod p)
    | 6 => ((chunk y.val 3 * 65536 + chunk y.val 2 : ℕ) : ZMod p)
    | 5 => ((chunk y.val 5 * 65536 + chunk y.val 4 : ℕ) : ZMod p)
    | 4 => ((chunk y.val 7 * 65536 + chunk y.val 6 : ℕ) : ZMod p)
    | _ => 0
  | _ => if j < 8 then (chunk y.val j : ZMod p) else y

/-- The cells written (`decomposition.hpp:197-216`): all of the first and the last row, eight of the middle row. -/
def positions : List (ℕ × ℕ) :=
  (List.range 9).map (fun j => (0, j)) ++ (List.range 9).map (fun j => (2, j)) ++ (List.range 8).map (fun j => (1, j))

/-- `generate_assignments` (`decomposition.hpp:180-220`). -/
def assign (c : Cols) (inp : In) (srow : ℤ) (t : Table (ZMod p)) : Table (ZMod p) :=
  writeAll (positions.map fun q => ⟨.witness, c.w (q.2 : ℤ), srow + (q.1 : ℤ), cell (inp.d0.value t) (inp.d1.value t) q.1 q.2⟩) t

/-- `result_type` (`decomposition.hpp:102-111`). -/
def result (c : Cols) (srow : ℤ) (k : ℕ) : Var := c.wa (k : ℤ) (srow + 1)
end

/-- `generate_gates` (`decomposition.hpp:257-283`). -/
def constraints {F : Type*} [Field F] (c : Cols) : List (Expr F) :=
  let w := fun (i r : ℤ) => (c.wv i r : Expr F)
  let k := fun (n : ℕ) => (Expr.const (n : F) : Expr F)
  [w 8 (-1) - (w 3 0 + w 2 0 * k (2 ^ 32) + w 1 0 * k (2 ^ 64) + w 0 0 * k (2 ^ 96)),
   w 8 1 - (w 7 0 + w 6 0 * k (2 ^ 32) + w 5 0 * k (2 ^ 64) + w 4 0 * k (2 ^ 96)),
   w 3 0 - (w 0 (-1) + w 1 (-1) * k 65536),
   w 2 0 - (w 2 (-1) + w 3 (-1) * k 65536),
   w 1 0 - (w 4 (-1) + w 5 (-1) * k 65536),
   w 0 0 - (w 6 (-1) + w 7 (-1) * k 65536),
   w 7 0 - (w 0 1 + w 1 1 * k 65536),
   w 6 0 - (w 2 1 + w 3 1 * k 65536),
   w 5 0 - (w 4 1 + w 5 1 * k 65536),
   w 4 0 - (w 6 1 + w 7 1 * k 65536)]

/-- `generate_circuit` (`decomposition.hpp:304-323`) with `generate_copy_constraints` (`286-302`). -/
def circuit {F : Type*} [Field F] (c : Cols) (inp : In) (srow : ℤ) : List (Op F) :=
  [.gate (constraints c) [srow + 1], .copy inp.d0 (c.wa 8 srow), .copy inp.d1 (c.wa 8 (srow + 2))]

end Decomposition
end Verif
