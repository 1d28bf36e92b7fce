import Verif.Core.Trace

/-!
# Model of `gate_component`

`components/systems/snark/plonk/placeholder/detail/gate_component.hpp`: `q (C_0 + θ C_1 + ... + θ^d C_d)` by Horner's
method. (The comment at lines 42-43 counts to `d - 1`; the code uses `d + 1` constraints.)
-/

namespace Verif
namespace GateComponent
variable {F : Type*} [Field F]

/-- `input_type` (gate_component.hpp:116-119); `constraints` by index. -/
structure In where
  theta : Var
  cs : ℕ → Var
  sel : Var

/-- `last_gate` (gate_component.hpp:357): the column of the last item of the trace. -/
def lastGate (w d : ℕ) : ℕ := (2 * d - 1) % (w - 1) + 1

/-- `need_extra_row` (gate_component.hpp:147-149). -/
def extra (w d : ℕ) : Bool := lastGate w d ≥ w - 3

/-- `rows_amount_internal` (gate_component.hpp:55-63), with exact division for the floating point ceiling. -/
def rows (w d : ℕ) : ℕ := (2 * d + (w - 1) - 1) / (w - 1) + (if extra w d then 1 else 0)

/-- `result_type` (gate_component.hpp:130-136). -/
def result (c : Cols) (w d : ℕ) (srow : ℤ) : Var := c.wa ((w : ℤ) - 1) (srow + rows w d - 1)

/-- `constraint_1` (gate_component.hpp:253-254). -/
def first (c : Cols) : Expr F := c.wv 2 - c.wv 1 * c.wv 0

/-- The step in column `j`: `constraint_2` (257-259), `constraint_3` (262-264), the loop (267-271). -/
def step (c : Cols) (w j : ℕ) : Expr F :=
  if j = 1 then c.wv 1 - c.wv 0 * (c.wv ((w : ℤ) - 1) (-1) + c.wv ((w : ℤ) - 2) (-1))
  else if j = 2 then c.wv 2 - c.wv 0 * (c.wv 1 + c.wv ((w : ℤ) - 1) (-1))
  else c.wv (j : ℤ) - c.wv 0 * (c.wv ((j : ℤ) - 1) + c.wv ((j : ℤ) - 2))

/-- `constraint_5`, `constraint_6`, `constraint_7` (gate_component.hpp:273-286): the output on an extra row, with the last
item in column `g` of the row before. -/
def outExtra (c : Cols) (w : ℕ) (g : ℤ) : Expr F := c.wv ((w : ℤ) - 1) - c.wv 1 * (c.wv 0 + c.wv g (-1))

/-- The output on the same row (gate_component.hpp:288-293). -/
def outSame (c : Cols) (w i : ℕ) : Expr F :=
  c.wv ((w : ℤ) - 1) - c.wv (i : ℤ) * (c.wv ((i : ℤ) - 1) + c.wv ((i : ℤ) - 2))

/-- The gates in the order of their selectors, `generate_gates` (gate_component.hpp:240-296). -/
def gates (c : Cols) (w : ℕ) : List (Expr F) :=
  (first c :: step c w 1 :: step c w 2 :: (forStep 3 w 1).map (step c w)) ++
  (outExtra c w ((w : ℤ) - 3) :: outExtra c w ((w : ℤ) - 2) :: outExtra c w ((w : ℤ) - 1) ::
    (forStep 2 (w - 1) 1).map (outSame c w))

/-- `tmp` (gate_component.hpp:373, 379, 394). -/
def tmp (w r : ℕ) : ℕ := 2 - ((w - 1) % 2) * (r % 2)

/-- `first_row_last_gate` (gate_component.hpp:358-362). -/
def firstLast (w d : ℕ) : ℕ := if rows w d = 1 ∨ (rows w d = 2 ∧ extra w d = true) then lastGate w d else w - 1

/-- Value of `r` after the loop of lines 372-377. -/
def r0 (w d : ℕ) : ℕ := max 1 (rows w d - 2)

/-- Value of `r` after lines 380-385. -/
def r1 (w d : ℕ) : ℕ := if extra w d = true ∧ r0 w d = rows w d - 2 then r0 w d + 1 else r0 w d

/-- Value of `r` after lines 386-391. -/
def r2 (w d : ℕ) : ℕ := if extra w d = false ∧ r1 w d = rows w d - 2 then r1 w d + 1 else r1 w d

/-- The enabled selectors and their rows (gate_component.hpp:354-405). -/
def enabled (w d : ℕ) : List (ℕ × ℕ) :=
  (0, 0) ::
  ((forStep 4 (firstLast w d + 1) 2).map (fun i => (i, 0)) ++
  if rows w d > 1 then
    ((forStep 1 (rows w d - 2) 1).flatMap fun r => (forStep (tmp w r) w 2).map fun i => (i, r)) ++
    ((if extra w d = true ∧ r0 w d = rows w d - 2 then
        (forStep (tmp w (r0 w d)) (lastGate w d + 1) 2).map fun i => (i, r0 w d) else []) ++
    ((if extra w d = false ∧ r1 w d = rows w d - 2 then
        (forStep (tmp w (r0 w d)) w 2).map fun i => (i, r1 w d) else []) ++
    (if extra w d then [(lastGate w d + 3, r2 w d)]
     else (forStep (tmp w (r2 w d)) (lastGate w d + 1) 2).map (fun i => (i, r2 w d)) ++
       [(w + lastGate w d + 3, r2 w d)])))
  else [(w + lastGate w d + 3, 0)])

/-- Column of `C_0` (gate_component.hpp:330-333, 225-229). -/
def colC0 (w d : ℕ) : ℕ := if extra w d then 0 else 2 * d % (w - 1) + 1

/-- `generate_copy_constraints` (gate_component.hpp:299-337). -/
def copies (c : Cols) (w d : ℕ) (x : In) (srow : ℤ) : List (Op F) :=
  ((List.range (rows w d - 1)).map fun (i : ℕ) => .copy (c.wa 0 (srow + (i : ℤ))) x.theta) ++
  ((if extra w d then [] else [.copy (c.wa 0 (srow + rows w d - 1)) x.theta]) ++
  (((List.range d).map fun (i : ℕ) =>
    .copy (c.wa (((2 * i) % (w - 1) + 1 : ℕ) : ℤ) (srow + ((2 * i / (w - 1) : ℕ) : ℤ))) (x.cs (d - i))) ++
  [.copy (c.wa (colC0 w d : ℤ) (srow + rows w d - 1)) (x.cs 0),
   .copy (c.wa ((colC0 w d : ℤ) + 1) (srow + rows w d - 1)) x.sel]))

/-- `generate_circuit` (gate_component.hpp:340-411). -/
def circuit (c : Cols) (w d : ℕ) (x : In) (srow : ℤ) : List (Op F) :=
  ((enabled w d).map fun e => .gate [(gates c w).getD e.1 (.const 0)] [srow + (e.2 : ℤ)]) ++ copies c w d x srow

/-- `G` after `i` turns of the loop (gate_component.hpp:203-211). -/
def acc (d : ℕ) (x : In) (t : Table F) : ℕ → F
  | 0 => 0
  | i + 1 => x.theta.value t * (acc d x t i + (x.cs (d - i)).value t)

/-- The vector `assignments` (gate_component.hpp:202-211). -/
def trace (d : ℕ) (x : In) (t : Table F) : List F :=
  (List.range d).flatMap fun i => [(x.cs (d - i)).value t, acc d x t (i + 1)]

/-- The last value of `r` in the loop of lines 215-219. -/
def lastR (w d : ℕ) : ℕ := (2 * d - 1) / (w - 1)

/-- Row of the last three writes (gate_component.hpp:220-229). -/
def outRow (w d : ℕ) : ℕ := lastR w d + (if extra w d then 1 else 0)

/-- `generate_assignments` (gate_component.hpp:187-237). -/
def writes (c : Cols) (w d : ℕ) (x : In) (srow : ℤ) (t : Table F) : List (Write F) :=
  ((List.range (trace d x t).length).map fun i =>
    ⟨.witness, c.w ((i % (w - 1) + 1 : ℕ) : ℤ), srow + ((i / (w - 1) : ℕ) : ℤ), (trace d x t).getD i 0⟩) ++
  (((List.range (lastR w d + 1)).map fun (r : ℕ) => ⟨.witness, c.w 0, srow + (r : ℤ), x.theta.value t⟩) ++
  [⟨.witness, c.w (colC0 w d : ℤ), srow + (outRow w d : ℤ), (x.cs 0).value t⟩,
   ⟨.witness, c.w ((colC0 w d + 1 : ℕ) : ℤ), srow + (outRow w d : ℤ), x.sel.value t⟩,
   ⟨.witness, c.w ((w - 1 : ℕ) : ℤ), srow + (outRow w d : ℤ), x.sel.value t * (acc d x t d + (x.cs 0).value t)⟩])

def assign (c : Cols) (w d : ℕ) (x : In) (srow : ℤ) (t : Table F) : Table F := writeAll (writes c w d x srow t) t

end GateComponent
end Verif
