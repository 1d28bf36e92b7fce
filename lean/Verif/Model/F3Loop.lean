import Verif.Core.Trace

/-!
# Model of `f3_loop`

`components/systems/snark/plonk/placeholder/detail/f3_loop.hpp`: the sum `Σ α_i (s_i - t_i)` of the lookup argument.
-/

namespace Verif
namespace F3Loop
variable {F : Type*} [Field F]

/-- `input_type` (f3_loop.hpp:109-112), by index. -/
structure In where
  a : ℕ → Var
  s : ℕ → Var
  t : ℕ → Var

/-- `rows_amount_internal` (f3_loop.hpp:48-52). The floating point ceiling is modelled by exact division, which
agrees as long as `4 m` is below `2^53`. -/
def rows (w m : ℕ) : ℕ := (4 * m + w - 1) / w

/-- `last_col`, also in `result_type` (f3_loop.hpp:128-131, 299-302, 338-341). -/
def lastCol (w m : ℕ) : ℕ := if 4 * m % w = 0 then w else 4 * m % w

/-- `result_type` (f3_loop.hpp:126-133). -/
def result (c : Cols) (w m : ℕ) (srow : ℤ) : Var := c.wa ((lastCol w m : ℤ) - 1) (srow + rows w m - 1)

/-- `constraint_1` (f3_loop.hpp:220-222). -/
def first (c : Cols) : Expr F := c.wv 3 - (c.wv 1 - c.wv 2) * c.wv 0

/-- The constraint for a value in column `j` whose operands are on the same row (f3_loop.hpp:246-248, 274-276). -/
def same (c : Cols) (j : ℤ) : Expr F := c.wv j - c.wv (j - 4) - (c.wv (j - 2) - c.wv (j - 1)) * c.wv (j - 3)

/-- Value in column 3, previous sum at the end of the previous row (f3_loop.hpp:225-226, 241-242, 269-270). -/
def col3 (c : Cols) (w : ℕ) : Expr F := c.wv 3 - c.wv ((w : ℤ) - 1) (-1) - (c.wv 1 - c.wv 2) * c.wv 0

/-- Value in column 1 (f3_loop.hpp:236-238, 259-261). -/
def col1 (c : Cols) (w : ℕ) : Expr F :=
  c.wv 1 - c.wv ((w : ℤ) - 3) (-1) - (c.wv ((w : ℤ) - 1) (-1) - c.wv 0) * c.wv ((w : ℤ) - 2) (-1)

/-- Value in column 0 (f3_loop.hpp:253-256). -/
def col0 (c : Cols) (w : ℕ) : Expr F :=
  c.wv 0 - c.wv ((w : ℤ) - 4) (-1) - (c.wv ((w : ℤ) - 2) (-1) - c.wv ((w : ℤ) - 1) (-1)) * c.wv ((w : ℤ) - 3) (-1)

/-- Value in column 2 (f3_loop.hpp:264-266). -/
def col2 (c : Cols) (w : ℕ) : Expr F :=
  c.wv 2 - c.wv ((w : ℤ) - 2) (-1) - (c.wv 0 - c.wv 1) * c.wv ((w : ℤ) - 1) (-1)

/-- The gates in the order of their selectors, `generate_gates` (f3_loop.hpp:208-282). For a width divisible by four the
loop of lines 229-234 builds `constraint_` and then adds `constraint_2` once more. -/
def gates (c : Cols) (w : ℕ) : List (Expr F) :=
  if w % 4 = 0 then
    [first c, col3 c w] ++ (forStep 7 w 4).map fun (_ : ℕ) => col3 c w
  else if w % 4 = 2 then
    [first c, col1 c w, col3 c w] ++ (forStep 5 w 2).map fun (j : ℕ) => same c (j : ℤ)
  else
    [first c, col0 c w, col1 c w, col2 c w, col3 c w] ++ (forStep 4 w 1).map fun (j : ℕ) => same c (j : ℤ)

/-- The index into `selectors` for column `j` (f3_loop.hpp:351, 364, 383). -/
def sel (w j : ℕ) : ℕ := if w % 4 = 0 then j / 4 + 1 else if w % 4 = 2 then j / 2 + 1 else j + 1

/-- `start_j` on row `r` (f3_loop.hpp:346, 360, 375-379). For `x = 1` the code computes `x - 2` modulo `2^64`; the sum is
`2 - (r % 4 - 1)`. -/
def startJ (w r : ℕ) : ℕ :=
  if w % 4 = 0 then 3
  else if w % 4 = 2 then 3 - 2 * (r % 2)
  else if r % 4 = 0 then 3
  else (((3 - w % 4 : ℕ) : ℤ) + (((w % 4 : ℕ) : ℤ) - 2) * (((r % 4 : ℕ) : ℤ) - 1)).toNat

/-- The enabled selectors and their rows (f3_loop.hpp:336-396): all rows but the last, where column 3 of row 0 is
skipped, then the last row, where it is not. -/
def enabled (w m : ℕ) : List (ℕ × ℕ) :=
  (0, 0) ::
  ((List.range (rows w m - 1)).flatMap fun r =>
    ((forStep (startJ w r) w 4).filter fun j => ¬ (r = 0 ∧ j = 3)).map fun j => (sel w j, r)) ++
  (forStep (startJ w (rows w m - 1)) (lastCol w m) 4).map fun j => (sel w j, rows w m - 1)

/-- `generate_copy_constraints` (f3_loop.hpp:285-317). -/
def copies (c : Cols) (w m : ℕ) (x : In) (srow : ℤ) : List (Op F) :=
  (List.range (rows w m)).flatMap fun r =>
    (List.range (if r = rows w m - 1 then lastCol w m else w)).flatMap fun j =>
      let tmp := r * w + j
      if tmp % 4 = 0 then [.copy (c.wa j (srow + r)) (x.a (tmp / 4))]
      else if tmp % 4 = 1 then [.copy (c.wa j (srow + r)) (x.s (tmp / 4))]
      else if tmp % 4 = 2 then [.copy (c.wa j (srow + r)) (x.t (tmp / 4))]
      else []

/-- `generate_circuit` (f3_loop.hpp:320-402). -/
def circuit (c : Cols) (w m : ℕ) (x : In) (srow : ℤ) : List (Op F) :=
  ((enabled w m).map fun e => .gate [(gates c w).getD e.1 (.const 0)] [srow + (e.2 : ℤ)]) ++ copies c w m x srow

/-- `f3` after `i` turns (f3_loop.hpp:182-188). -/
def acc (x : In) (t : Table F) : ℕ → F
  | 0 => 0
  | i + 1 => acc x t i + ((x.s i).value t - (x.t i).value t) * (x.a i).value t

/-- The vector `assignments` (f3_loop.hpp:183-193). -/
def trace (m : ℕ) (x : In) (t : Table F) : List F :=
  (List.range m).flatMap fun i => [(x.a i).value t, (x.s i).value t, (x.t i).value t, acc x t (i + 1)]

/-- `generate_assignments` (f3_loop.hpp:168-205). -/
def writes (c : Cols) (w m : ℕ) (x : In) (srow : ℤ) (t : Table F) : List (Write F) :=
  (List.range (trace m x t).length).map fun i =>
    ⟨.witness, c.w ((i % w : ℕ) : ℤ), srow + ((i / w : ℕ) : ℤ), (trace m x t).getD i 0⟩

def assign (c : Cols) (w m : ℕ) (x : In) (srow : ℤ) (t : Table F) : Table F := writeAll (writes c w m x srow t) t

end F3Loop
end Verif
