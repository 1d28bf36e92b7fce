import Verif.Core.Trace

/-!
# Model of `f1_loop`

`components/systems/snark/plonk/placeholder/detail/f1_loop.hpp`: the product `∏ ((1 + β) γ + s_i + β t_i)` of the lookup
argument.
-/

namespace Verif
namespace F1Loop
variable {F : Type*} [Field F]

/-- `input_type` (f1_loop.hpp:109-113), by index. -/
structure In where
  beta : Var
  gamma : Var
  s : ℕ → Var
  t : ℕ → Var

/-- `rows_amount_internal` (f1_loop.hpp:48-54). The floating point ceiling is modelled by exact division, which agrees as
long as `3 m` is below `2^53`. -/
def rows (w m : ℕ) : ℕ :=
  let r := (3 * m + (w - 1) - 1) / (w - 1)
  if r < 2 then 2 else r

/-- `last_j` of `generate_circuit`, and `j` of `result_type` (f1_loop.hpp:130-133, 524-527). -/
def lastJ (w m : ℕ) : ℕ := if 3 * m % (w - 1) = 0 then w - 1 else 3 * m % (w - 1)

/-- `result_type` (f1_loop.hpp:128-139). -/
def result (c : Cols) (w m : ℕ) (srow : ℤ) : Var :=
  if 3 * m + 1 ≤ w then c.wa (lastJ w m) srow else c.wa (lastJ w m) (srow + rows w m - 1)

/-- `constraint_1` (f1_loop.hpp:249-252). -/
def first (c : Cols) : Expr F :=
  c.wv 3 - ((.const 1 + c.wv 0) * c.wv 0 1 + c.wv 1 + c.wv 0 * c.wv 2)

/-- The shape of all other constraints: `h - p * ((1 + W0[b]) * W0[g] + s + W0[b] * t)` with `h`, `p`, `s`, `t` given by
column and rotation. -/
def shape (c : Cols) (b g : ℤ) (h p s t : ℤ × ℤ) : Expr F :=
  c.wv h.1 h.2 - c.wv p.1 p.2 * ((.const 1 + c.wv 0 b) * c.wv 0 g + c.wv s.1 s.2 + c.wv 0 b * c.wv t.1 t.2)

/-- First constraint of a group: `h` in column 1 (f1_loop.hpp:344-349, 398-404), 2 (326-331, 417-422) or 3 (257-261,
274-278, 291-295, 309-313, 362-366, 381-385, 435-439). -/
def head (c : Cols) (w start : ℕ) (b g ro : ℤ) : Expr F :=
  if start = 1 then shape c b g (1, ro) ((w : ℤ) - 3, ro - 1) ((w : ℤ) - 2, ro - 1) ((w : ℤ) - 1, ro - 1)
  else if start = 2 then shape c b g (2, ro) ((w : ℤ) - 2, ro - 1) ((w : ℤ) - 1, ro - 1) (1, ro)
  else shape c b g (3, ro) ((w : ℤ) - 1, ro - 1) (1, ro) (2, ro)

/-- The constraint for `h` in column `j` with operands on the same row (the loops, e.g. f1_loop.hpp:264-272). -/
def same (c : Cols) (j : ℕ) (b g ro : ℤ) : Expr F :=
  shape c b g ((j : ℤ), ro) ((j : ℤ) - 3, ro) ((j : ℤ) - 2, ro) ((j : ℤ) - 1, ro)

/-- One constraint and the loop after it: columns `start`, `start + 3`, ... -/
def grp (c : Cols) (w start : ℕ) (b g ro : ℤ) : List (Expr F) :=
  head c w start b g ro :: (forStep (start + 3) w 3).map fun (j : ℕ) => same c j b g ro

/-- The gates in the order of their selectors, `generate_gates` (f1_loop.hpp:234-454). -/
def gates (c : Cols) (w : ℕ) : List (Expr F) :=
  first c ::
    (if w % 3 = 1 then grp c w 3 0 1 0 ++ (grp c w 3 (-1) 0 0 ++ grp c w 3 0 (-1) 0)
     else if w % 3 = 2 then grp c w 3 0 1 0 ++ (grp c w 2 (-1) 0 0 ++ (grp c w 1 0 (-1) 0 ++ grp c w 3 0 (-1) 1))
     else grp c w 3 0 1 0 ++ (grp c w 1 (-1) 0 0 ++ (grp c w 2 0 (-1) 0 ++ grp c w 3 0 (-1) 1)))

/-- First column of the loop on row `r` (f1_loop.hpp:533, 550, 571). -/
def startJ (w r : ℕ) : ℕ :=
  if w % 3 = 1 then 3 else if w % 3 = 2 then 3 - r % 3 else r % 3 + 3 * (if r % 3 = 0 then 1 else 0)

/-- Index into `selectors` on all rows but the last (f1_loop.hpp:537, 554, 575). -/
def pos (w r j : ℕ) : ℕ :=
  if w % 3 = 1 then (r % 2) * (w / 3) + j / 3
  else if w % 3 = 2 then (r % 3) * (w / 3) + (j + r % 3) / 3
  else (r % 3) * (w / 3) + (j + r % 3) / 3 - (if r % 3 = 2 then 1 else 0)

/-- Index into `selectors` on the last row (f1_loop.hpp:544, 560-565, 581-586). -/
def posLast (w r j : ℕ) : ℕ :=
  if w % 3 = 1 then (2 - r % 2) * (w / 3) + j / 3
  else if w % 3 = 2 then (r % 3) * (w / 3) + (j + r % 3) / 3 + (if r % 3 = 0 then w - 1 else 0)
  else (r % 3) * (w / 3) + (j + r % 3) / 3 - (if r % 3 = 2 then 1 else 0) + (if r % 3 = 0 then w - 1 else 0)

/-- Row on which the selectors of the last row are enabled (f1_loop.hpp:545, 566, 587). -/
def rowLast (w r : ℕ) : ℕ := if w % 3 = 1 then r else r - (if r % 3 = 0 then 1 else 0)

/-- The enabled selectors and their rows (f1_loop.hpp:523-594). -/
def enabled (w m : ℕ) : List (ℕ × ℕ) :=
  (0, 0) ::
  (if 3 * m + 1 > w then
    ((List.range (rows w m - 1)).flatMap fun r =>
      ((forStep (startJ w r) w 3).filter fun j => ¬ (r = 0 ∧ j = 3)).map fun j => (pos w r j, r)) ++
    (forStep (startJ w (rows w m - 1)) (lastJ w m + 1) 3).map fun j =>
      (posLast w (rows w m - 1) j, rowLast w (rows w m - 1))
   else (forStep 6 (lastJ w m + 1) 3).map fun j => (j / 3, 0))

/-- Which of the two challenges column 0 holds on row `r` (f1_loop.hpp:214-226, 475-487). -/
def isBeta (w r : ℕ) : Bool := if w % 3 = 1 then r % 2 = 0 else r % 3 ≠ 1

/-- `generate_copy_constraints` (f1_loop.hpp:457-504). The inner loop stops at the first `tmp ≥ 3 m`; as `tmp` grows with
`j` this is the same as skipping those columns. -/
def copies (c : Cols) (w m : ℕ) (x : In) (srow : ℤ) : List (Op F) :=
  (List.range (rows w m)).flatMap fun (r : ℕ) =>
    (.copy (c.wa 0 (srow + r)) (if isBeta w r then x.beta else x.gamma)) ::
    (forStep 1 (if r = rows w m - 1 then (if 3 * m % (w - 1) = 0 then w else 3 * m % (w - 1)) else w) 1).flatMap fun (j : ℕ) =>
      let tmp := r * (w - 1) + j
      if tmp ≥ 3 * m then []
      else if tmp % 3 = 1 then [.copy (c.wa j (srow + r)) (x.s (tmp / 3))]
      else if tmp % 3 = 2 then [.copy (c.wa j (srow + r)) (x.t (tmp / 3))]
      else []

/-- `generate_circuit` (f1_loop.hpp:507-600). -/
def circuit (c : Cols) (w m : ℕ) (x : In) (srow : ℤ) : List (Op F) :=
  ((enabled w m).map fun e => .gate [(gates c w).getD e.1 (.const 0)] [srow + (e.2 : ℤ)]) ++ copies c w m x srow

/-- `h` after `i` turns (f1_loop.hpp:187-197). -/
def acc (x : In) (t : Table F) : ℕ → F
  | 0 => 1
  | i + 1 => acc x t i * ((1 + x.beta.value t) * x.gamma.value t + (x.s i).value t + x.beta.value t * (x.t i).value t)

/-- The vector `assignments` (f1_loop.hpp:193-201). -/
def trace (m : ℕ) (x : In) (t : Table F) : List F :=
  (List.range m).flatMap fun i => [(x.s i).value t, (x.t i).value t, acc x t (i + 1)]

/-- The last value of `r` in the loop of lines 203-208. -/
def lastR (w m : ℕ) : ℕ := (3 * m - 1) / (w - 1)

/-- `generate_assignments` (f1_loop.hpp:174-231): the trace, then column 0 on the rows up to `row`. -/
def writes (c : Cols) (w m : ℕ) (x : In) (srow : ℤ) (t : Table F) : List (Write F) :=
  ((List.range (trace m x t).length).map fun i =>
    ⟨.witness, c.w ((i % (w - 1) + 1 : ℕ) : ℤ), srow + ((i / (w - 1) : ℕ) : ℤ), (trace m x t).getD i 0⟩) ++
  (List.range ((if lastR w m < 1 then 1 else lastR w m) + 1)).map fun (r : ℕ) =>
    ⟨.witness, c.w 0, srow + (r : ℤ), if isBeta w r then x.beta.value t else x.gamma.value t⟩

def assign (c : Cols) (w m : ℕ) (x : In) (srow : ℤ) (t : Table F) : Table F := writeAll (writes c w m x srow t) t

end F1Loop
end Verif
