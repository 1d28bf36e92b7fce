import Verif.Core.Grid

/-!
# `flexible_x_index` (`components/systems/snark/plonk/flexible/x_index.hpp`)

`w` is the number of witness columns and `m = (w - 1) / 2` the number of blocks in a row. The component is meant to find the sign bit
`b0` of a coset point `x` from the other bits of its index.
-/

namespace Verif
namespace XIndex

variable {F : Type*} [Field F]

/-- Blocks per row (x_index.hpp:193, 227, 255). -/
def per (w : ℕ) : ℕ := (w - 1) / 2

/-- `get_rows_amount` (85-90). -/
def rows (w n : ℕ) : ℕ :=
  let cells := 2 * n
  let one := (w - 1) / 2 * 2
  if cells % one = 0 then cells / one else cells / one + 1

/-- The constant column as seen by the gate (226). -/
def omegaExpr (c : Cols) : Expr F := .var ⟨c.k 0, 0, true, .constant⟩

/-- The constraint of one block (228-231). -/
def blockExpr (c : Cols) (b : ℕ) : Expr F :=
  let prev : Expr F := c.wv ((b * 2 : ℕ) : ℤ)
  let bit : Expr F := c.wv ((b * 2 + 1 : ℕ) : ℤ)
  let next : Expr F := c.wv ((b * 2 + 2 : ℕ) : ℤ)
  next - prev * prev * (bit + omegaExpr c - omegaExpr c * bit)

/-- The copy constraints of block `q = row * per + block` (256-263): `cur` is `q` before and `q + 1` after the increment. The `break`
leaves the inner loop at `cur = n + 1`, which is in the last row. -/
def copies (c : Cols) (n : ℕ) (x : Var) (b : ℕ → Var) (srow : ℤ) (r k q : ℕ) : List (Op F) :=
  (if q ≠ 0 then [.copy (b (n - q)) (c.wa ((k * 2 + 1 : ℕ) : ℤ) (srow + r))] else []) ++
  (if q + 1 = n + 1 then [.copy x (c.wa ((k * 2 + 2 : ℕ) : ℤ) (srow + r))] else [])

/-- `generate_circuit` (287-304), `generate_gates` (211-234), `generate_copy_constraints` (237-265). The constants are written by
`generate_assignments` (191); they are part of the fixed columns, so they are listed here. -/
def circuit (c : Cols) (w n : ℕ) (omega : F) (x : Var) (b : ℕ → Var) (srow : ℤ) : List (Op F) :=
  .gate ((List.range (per w)).map (blockExpr c)) (rowsFrom srow (rows w n)) ::
  ((List.range (rows w n)).map fun (r : ℕ) => .constant (c.k 0) (srow + (r : ℤ)) omega) ++
  ((List.range (rows w n - 1)).map fun (r : ℕ) =>
    .copy (c.wa (((w - 1) / 2 * 2 : ℕ) : ℤ) (srow + (r : ℤ))) (c.wa 0 (srow + ((r + 1 : ℕ) : ℤ)))) ++
  (blocks (rows w n) (per w) (n + 1) fun r k => copies c n x b srow r k (r * per w + k)).flatten

/-- The output (114): `var(W(1), start_row_index)`. -/
def result (c : Cols) (srow : ℤ) : Var := c.wa 1 srow

/-- The first loop (171-179). -/
def point (omega : F) (b : ℕ → F) (n : ℕ) : F :=
  (List.range n).foldl (fun tmp i => tmp * tmp * (b (n - 1 - i) + omega * (1 - b (n - 1 - i)))) 1

/-- `b0` (181). -/
def sign [DecidableEq F] (omega : F) (x : F) (b : ℕ → F) (n : ℕ) : F := if point omega b n = x then 1 else 0

/-- `all_ordered_bits[cur]` (183-187), and 1 beyond its end (199). -/
def bitAt (b0 : F) (b : ℕ → F) (n q : ℕ) : F := if q = 0 then b0 else if q < n + 1 then b (n - 1 - (q - 1)) else 1

/-- The value of `tmp` before block `q` (189, 196, 200), with the initial value as a parameter. -/
def chain (omega v0 : F) (bit : ℕ → F) : ℕ → F
  | 0 => v0
  | q + 1 => chain omega v0 bit q * chain omega v0 bit q * (bit q + (1 - bit q) * omega)

/-- The writes of the second loop (190-205). The counter runs ahead in the padding (202), which changes nothing: every later block is
padding too, and there `bit = 1`. -/
def writes (c : Cols) (w n : ℕ) (omega v0 : F) (bit : ℕ → F) (srow : ℤ) : List (Write F) :=
  (List.range (rows w n)).flatMap fun (r : ℕ) =>
    ⟨.witness, c.w 0, srow + (r : ℤ), chain omega v0 bit (r * per w)⟩ ::
    (List.range (per w)).flatMap fun (k : ℕ) =>
      [⟨.witness, c.w ((k * 2 + 1 : ℕ) : ℤ), srow + (r : ℤ), bit (r * per w + k)⟩,
       ⟨.witness, c.w ((k * 2 + 2 : ℕ) : ℤ), srow + (r : ℤ), chain omega v0 bit (r * per w + k + 1)⟩]

/-- `generate_assignments` (153-208). -/
def assign [DecidableEq F] (c : Cols) (w n : ℕ) (omega : F) (x : Var) (b : ℕ → Var) (srow : ℤ) (t : Table F) : Table F :=
  let bv := fun i => (b i).value t
  writeAll (writes c w n omega 1 (bitAt (sign omega (x.value t) bv n) bv n) srow) t

end XIndex
end Verif
