import Verif.Core.Grid

/-!
# `flexible_colinear_checks` (`components/systems/snark/plonk/flexible/colinear_checks.hpp`)

`w` is the number of witness columns, `r` the number of steps; a row has `(w - 4) / 5` blocks, each sharing four columns with the next.
With fewer than nine columns the code divides by zero (88-90); the theorems assume `9 ≤ w`.
-/

namespace Verif
namespace Colinear

variable {F : Type*} [Field F]

/-- Blocks per row (188, 257). -/
def per (w : ℕ) : ℕ := (w - 4) / 5

/-- `get_rows_amount` (86-91): `5 r` blocks are allotted, not `r`. -/
def rows (w r : ℕ) : ℕ :=
  let cells := 5 * r + 4
  let one := (w - 4) / 5
  if (cells - 4) % one = 0 then (cells - 4) / one else (cells - 4) / one + 1

/-- The inputs (96-105). -/
structure Inputs where
  x : Var
  ys : ℕ → Var
  bs : ℕ → Var
  alphas : ℕ → Var

/-- The constraint of one block (259-276). -/
def blockExpr (c : Cols) (k : ℕ) : Expr F :=
  let x : Expr F := c.wv ((k * 5 : ℕ) : ℤ)
  let b : Expr F := c.wv ((k * 5 + 1 : ℕ) : ℤ)
  let y0 : Expr F := c.wv ((k * 5 + 2 : ℕ) : ℤ)
  let y1 : Expr F := c.wv ((k * 5 + 3 : ℕ) : ℤ)
  let alpha : Expr F := c.wv ((k * 5 + 4 : ℕ) : ℤ)
  let s := 2 * b * x - x
  let left := (alpha + s) * y0 - (alpha - s) * y1
  let b' : Expr F := c.wv ((k * 5 + 6 : ℕ) : ℤ)
  let y0' : Expr F := c.wv ((k * 5 + 7 : ℕ) : ℤ)
  let y1' : Expr F := c.wv ((k * 5 + 8 : ℕ) : ℤ)
  let right := (b' * y0' + (1 - b') * y1') * 2 * s
  left - right

/-- `generate_circuit` (313-333), `generate_gates` (243-279): block 0 is skipped (258); `generate_copy_constraints` (282-310) has
only a comment in its body. -/
def circuit (c : Cols) (w r : ℕ) (_inp : Inputs) (srow : ℤ) : List (Op F) :=
  [.gate (((List.range (per w)).filter fun k => k ≠ 0).map (blockExpr c)) (rowsFrom srow (rows w r))]

/-- Four values: `x`, `b`, `y0`, `y1`. -/
structure Four (F : Type*) where
  x : F
  b : F
  y0 : F
  y1 : F

/-- The values of step `q` (186, 190-192, 209-213). -/
def step (t : Table F) (inp : Inputs) (q : ℕ) : Four F :=
  ⟨inp.x.value t ^ 2 ^ q, (inp.bs q).value t, (inp.ys (2 * q)).value t, (inp.ys (2 * q + 1)).value t⟩

/-- The padding (220-233) after the values `f`. -/
def pad [DecidableEq F] (f : Four F) : Four F :=
  let alpha : F := 0
  let s := 2 * f.b * f.x - f.x
  ⟨f.x * f.x, 0, 0, ((alpha + s) * f.y0 - (alpha - s) * f.y1) * (if s = 0 then 0 else (2 * s)⁻¹)⟩

/-- The four cells at the start of block `k` of row `R`: what the previous block wrote, or for block 0 what the table holds (220-223). -/
def start [DecidableEq F] (c : Cols) (w r : ℕ) (inp : Inputs) (srow : ℤ) (t : Table F) (R : ℕ) : ℕ → Four F
  | 0 => if R * per w < r then step t inp (R * per w) else
      ⟨t .witness (c.w 0) (srow + R), t .witness (c.w 1) (srow + R), t .witness (c.w 2) (srow + R), t .witness (c.w 3) (srow + R)⟩
  | k + 1 => if R * per w + k < r then step t inp (R * per w + k + 1) else pad (start c w r inp srow t R k)

/-- Writing four values from column `j`. -/
def put (c : Cols) (srow : ℤ) (R j : ℕ) (f : Four F) : List (Write F) :=
  [⟨.witness, c.w ((j : ℕ) : ℤ), srow + (R : ℤ), f.x⟩, ⟨.witness, c.w ((j + 1 : ℕ) : ℤ), srow + (R : ℤ), f.b⟩,
   ⟨.witness, c.w ((j + 2 : ℕ) : ℤ), srow + (R : ℤ), f.y0⟩, ⟨.witness, c.w ((j + 3 : ℕ) : ℤ), srow + (R : ℤ), f.y1⟩]

/-- The writes of block `k` of row `R` (189-235). -/
def blockWrites [DecidableEq F] (c : Cols) (w r : ℕ) (inp : Inputs) (srow : ℤ) (t : Table F) (R k : ℕ) : List (Write F) :=
  if R * per w + k < r then
    put c srow R (k * 5) (step t inp (R * per w + k)) ++
    [⟨.witness, c.w ((k * 5 + 4 : ℕ) : ℤ), srow + (R : ℤ), (inp.alphas (R * per w + k)).value t⟩] ++
    put c srow R (k * 5 + 5) (step t inp (R * per w + k + 1))
  else
    ⟨.witness, c.w ((k * 5 + 4 : ℕ) : ℤ), srow + (R : ℤ), 0⟩ :: put c srow R (k * 5 + 5) (pad (start c w r inp srow t R k))

/-- `generate_assignments` (164-240). -/
def writes [DecidableEq F] (c : Cols) (w r : ℕ) (inp : Inputs) (srow : ℤ) (t : Table F) : List (Write F) :=
  (List.range (rows w r)).flatMap fun R => (List.range (per w)).flatMap fun k => blockWrites c w r inp srow t R k

def assign [DecidableEq F] (c : Cols) (w r : ℕ) (inp : Inputs) (srow : ℤ) (t : Table F) : Table F :=
  writeAll (writes c w r inp srow t) t

end Colinear
end Verif
