import Verif.Model.GateComponent
import Verif.Model.Arith

/-!
# Model of `basic_constraints_verifier`

`components/systems/snark/plonk/placeholder/gate_argument_verifier.hpp`: the gate argument of the Placeholder verifier,
`Σ θ^n q_{g(n)} C_n` over the constraints of all gates in order.
-/

namespace Verif
namespace GateVerifier
variable {F : Type*} [Field F]

/-- `input_type` (gate_argument_verifier.hpp:139-142), vectors by index. -/
structure In where
  theta : Var
  cs : ℕ → Var
  sel : ℕ → Var

/-- `start` at the top of turn `i` (gate_argument_verifier.hpp:242, 271, 358, 385), with `sz` for `gate_sizes`. -/
def off (sz : ℕ → ℕ) : ℕ → ℕ
  | 0 => 0
  | i + 1 => off sz i + sz i

/-- Rows of gate `i` (gate_argument_verifier.hpp:57-61; multiplication.hpp:85-87). -/
def gateRows (w : ℕ) (sz : ℕ → ℕ) (i : ℕ) : ℕ := if sz i = 1 then 1 else GateComponent.rows w (sz i - 1)

/-- `row - start_row_index` at the top of turn `i` (gate_argument_verifier.hpp:254, 269, 369, 383). -/
def rowOf (w : ℕ) (sz : ℕ → ℕ) : ℕ → ℕ
  | 0 => 0
  | i + 1 => rowOf w sz i + gateRows w sz i

/-- `total_deg` (gate_argument_verifier.hpp:65, 275-276, 392-393). -/
def totalDeg (n : ℕ) (sz : ℕ → ℕ) : ℕ := off sz (n - 1)

/-- `rows_amount_internal` (gate_argument_verifier.hpp:51-70). -/
def rows (w n : ℕ) (sz : ℕ → ℕ) : ℕ := rowOf w sz n + (if n > 1 then GateComponent.rows w (totalDeg n sz) else 0)

/-- `result_type` (gate_argument_verifier.hpp:153-163). -/
def result (c : Cols) (w n : ℕ) (sz : ℕ → ℕ) (srow : ℤ) : Var :=
  if n = 1 ∧ sz 0 = 1 then c.wa 2 (srow + rows w n sz - 1) else c.wa ((w : ℤ) - 1) (srow + rows w n sz - 1)

/-- Input of the gate component for gate `i` (gate_argument_verifier.hpp:259-263, 374-378). -/
def gateIn (sz : ℕ → ℕ) (x : In) (i : ℕ) : GateComponent.In := ⟨x.theta, fun k => x.cs (off sz i + k), x.sel i⟩

/-- Input of the multiplication for gate `i` (gate_argument_verifier.hpp:250, 364). -/
def mulIn (sz : ℕ → ℕ) (x : In) (i : ℕ) : In2 := ⟨x.cs (off sz i), x.sel i⟩

/-- The vector `G` (gate_argument_verifier.hpp:253, 268, 368, 382). -/
def G (c : Cols) (w : ℕ) (sz : ℕ → ℕ) (srow : ℤ) (i : ℕ) : Var :=
  if sz i = 1 then Multiplication.result c (srow + rowOf w sz i)
  else GateComponent.result c w (sz i - 1) (srow + rowOf w sz i)

/-- Circuit of gate `i` (gate_argument_verifier.hpp:361-384). -/
def gateOps (c : Cols) (w : ℕ) (sz : ℕ → ℕ) (x : In) (srow : ℤ) (i : ℕ) : List (Op F) :=
  if sz i = 1 then Multiplication.circuit c (mulIn sz x i) (srow + rowOf w sz i)
  else GateComponent.circuit c w (sz i - 1) (gateIn sz x i) (srow + rowOf w sz i)

/-- One turn of the loop building the constraint vector: `(j, sum, constraints)` (gate_argument_verifier.hpp:283-292,
400-409). -/
def csStep (sz : ℕ → ℕ) (g : ℕ → Var) (zero : Var) (s : ℕ × ℕ × List Var) (i : ℕ) : ℕ × ℕ × List Var :=
  if i = s.2.1 then (s.1 + 1, s.2.1 + sz s.1, s.2.2 ++ [g s.1]) else (s.1, s.2.1, s.2.2 ++ [zero])

/-- The constraint vector of the final gate (gate_argument_verifier.hpp:281-292, 398-409). -/
def finalCs (n : ℕ) (sz : ℕ → ℕ) (g : ℕ → Var) (zero : Var) : List Var :=
  ((List.range (totalDeg n sz + 1)).foldl (csStep sz g zero) (0, 0, [])).2.2

/-- The cells holding 0 and 1 (gate_argument_verifier.hpp:290, 293, 407, 410). -/
def zeroVar (c : Cols) (srow : ℤ) : Var := ⟨c.k 0, srow, false, .constant⟩
def oneVar (c : Cols) (srow : ℤ) : Var := ⟨c.k 0, srow + 1, false, .constant⟩

/-- Input of the final gate (gate_argument_verifier.hpp:295, 412). -/
def finalIn (c : Cols) (w n : ℕ) (sz : ℕ → ℕ) (x : In) (srow : ℤ) : GateComponent.In :=
  ⟨x.theta, fun k => (finalCs n sz (G c w sz srow) (zeroVar c srow)).getD k (zeroVar c srow), oneVar c srow⟩

/-- `generate_circuit` (gate_argument_verifier.hpp:331-429) with `generate_assignments_constant` (198-215). -/
def circuit (c : Cols) (w n : ℕ) (sz : ℕ → ℕ) (x : In) (srow : ℤ) : List (Op F) :=
  (List.range n).flatMap (gateOps c w sz x srow) ++
  (if n > 1 then
    [.constant (c.k 0) srow 0, .constant (c.k 0) (srow + 1) 1] ++
    GateComponent.circuit c w (totalDeg n sz) (finalIn c w n sz x srow) (srow + rowOf w sz n)
   else [])

/-- Assignment of gate `i` (gate_argument_verifier.hpp:245-270). -/
def gateRun (c : Cols) (w : ℕ) (sz : ℕ → ℕ) (x : In) (srow : ℤ) (i : ℕ) (t : Table F) : Table F :=
  if sz i = 1 then Multiplication.assign c (mulIn sz x i) (srow + rowOf w sz i) t
  else GateComponent.assign c w (sz i - 1) (gateIn sz x i) (srow + rowOf w sz i) t

/-- `generate_assignments` (gate_argument_verifier.hpp:217-306). -/
def assign (c : Cols) (w n : ℕ) (sz : ℕ → ℕ) (x : In) (srow : ℤ) (t : Table F) : Table F :=
  let t1 := (List.range n).foldl (fun t i => gateRun c w sz x srow i t) t
  if n > 1 then GateComponent.assign c w (totalDeg n sz) (finalIn c w n sz x srow) (srow + rowOf w sz n) t1 else t1

end GateVerifier
end Verif
