import Verif.Core.Table

/-!
# Gate relocation (`utils/gate_mover.hpp`) and batch gates (`component_batch.hpp`)

Constraint expressions as the visitor sees them: terms (a coefficient times a product of variables), powers
and binary operations. The simplifications which `crypto3::math::expression` may perform in its arithmetic
operators are not modelled (they are external).
-/

namespace Verif
namespace GateMover

/-- `ArithmeticOperator` (`gate_mover.hpp:76-85`). -/
inductive BinOp
  | add | sub | mult

/-- `crypto3::math::expression<var>` as visited by `gate_mover`. -/
inductive GExpr (F : Type*)
  | term (vars : List Var) (coeff : F)
  | pow (base : GExpr F) (n : ℕ)
  | bin (op : BinOp) (l r : GExpr F)

variable {F : Type*}

/-- Evaluation of an expression on a row (`plonk_constraint::evaluate`). -/
def GExpr.eval [Field F] (t : Table F) (row : ℤ) : GExpr F → F
  | .term vs k => vs.foldl (fun a v => a * v.evalAt t row) k
  | .pow b n => b.eval t row ^ n
  | .bin .add l r => l.eval t row + r.eval t row
  | .bin .sub l r => l.eval t row - r.eval t row
  | .bin .mult l r => l.eval t row * r.eval t row

/-- The variable occurrences of an expression, left to right (`expression_for_each_variable_visitor`, used in
`component_stretcher.hpp:112-117`). -/
def GExpr.vars : GExpr F → List Var
  | .term vs _ => vs
  | .pow b _ => b.vars
  | .bin _ l r => l.vars ++ r.vars

/-- `gate_mover::visit` (`gate_mover.hpp:50-86`). -/
def move (f : Var → Var) : GExpr F → GExpr F
  | .term vs k => .term (vs.map f) k
  | .pow b n => .pow (move f b) n
  | .bin op l r => .bin op (move f l) (move f r)

/-- The variable mover of `move_constraints` (`component_batch.hpp:350-352`). -/
def shiftVar (off : ℕ) (v : Var) : Var := { v with index := v.index + off }

/-- `move_constraints` (`component_batch.hpp:346-358`). -/
def moveConstraints (cs : List (GExpr F)) (off : ℕ) : List (GExpr F) := cs.map (move (shiftVar off))

/-- `generate_batch_gate` (`component_batch.hpp:360-387`): the gate of one component of width `w` repeated
`witnesses / w` times. -/
def batchGate (cs : List (GExpr F)) (witnesses w : ℕ) : List (GExpr F) :=
  cs ++ (List.range (witnesses / w - 1)).flatMap fun i => moveConstraints cs ((i + 1) * w)

end GateMover
end Verif
