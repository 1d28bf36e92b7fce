import Verif.Model.Batch
import Verif.Model.ConstBatch

/-!
# Expression evaluation through batches (`placeholder/detail/expression_evaluation_component.hpp`)

The component has no rows of its own (`170`): it walks the expression and asks the assignment table for one batched
multiplication, addition or subtraction per operation, and for batched constants. The three batches are numbers 0, 1
and 2 of `Batch.St`; other numbers are free for other components.

`boost::apply_visitor` is recursion over the three kinds of expression. `variable_map` is a total function: the exception
of `variable_map.at` on a missing variable is not modelled. `power` is an `int`; `BOOST_ASSERT(power > 0)` (`101`) is
a precondition of the theorems.
-/

namespace Verif
namespace ExprEval

open GateMover

variable {F : Type*}

/-- A variable of the component's own row (`var(component.W(i), 0)`). -/
def wv (i : ℕ) : Var := ⟨i, 0, true, .witness⟩

/-- `multiplication` as a batched component: manifest 3 (`multiplication.hpp:79`), gate (194), copy constraints (214-215,
skipped when they would link a cell with itself), result `W(2)` (109), values (157-160). -/
def mulComp [Field F] : Batch.Comp F where
  w := 3
  gate := [.bin .sub (.term [wv 0, wv 1] 1) (.term [wv 2] 1)]
  inputs := [(0, 0), (1, 1)]
  outs := [2]
  assign xs i := if i = 0 then xs.getD 0 0 else if i = 1 then xs.getD 1 0 else xs.getD 0 0 * xs.getD 1 0

/-- `addition` as a batched component: `addition.hpp:78`, gate (191), copy constraints (211-212), values (156-159). -/
def addComp [Field F] : Batch.Comp F where
  w := 3
  gate := [.bin .sub (.bin .add (.term [wv 0] 1) (.term [wv 1] 1)) (.term [wv 2] 1)]
  inputs := [(0, 0), (1, 1)]
  outs := [2]
  assign xs i := if i = 0 then xs.getD 0 0 else if i = 1 then xs.getD 1 0 else xs.getD 0 0 + xs.getD 1 0

/-- `subtraction` as a batched component: `subtraction.hpp:90`, gate (191), copy constraints (211-212), values (155-158). -/
def subComp [Field F] : Batch.Comp F where
  w := 3
  gate := [.bin .sub (.bin .sub (.term [wv 0] 1) (.term [wv 1] 1)) (.term [wv 2] 1)]
  inputs := [(0, 0), (1, 1)]
  outs := [2]
  assign xs i := if i = 0 then xs.getD 0 0 else if i = 1 then xs.getD 1 0 else xs.getD 0 0 - xs.getD 1 0

/-- The batch asked for an operation (`expression_evaluation_component.hpp:129-142`). -/
def batchOf : BinOp → ℕ
  | .mult => 0
  | .add => 1
  | .sub => 2

/-- The storages of the assignment table: batched constants and batches (`assignment.hpp:123`, `139`, `144`). -/
structure St (F : Type*) where
  consts : List F
  batch : Batch.St F

/-- The table as `var_value` reads it, with the constant storage as a column (`assignment.hpp:764-766`). -/
def overlay [Zero F] (t : Table F) (consts : List F) : Table F := fun ty i r =>
  if ty = .constant ∧ i = ConstBatch.constIndex then consts.getD r.toNat 0 else t ty i r

/-- What stays fixed during a walk: the batched components, the order of the maps, the table, the flag handed on as
`called_from_generate_circuit`, and `variable_map`. -/
structure Env (F : Type*) where
  c : ℕ → Batch.Comp F
  le : List Var → List Var → Bool
  t : Table F
  circ : Bool
  map : Var → Var

/-- `add_input_to_batch<...>({a, b}, generate_assignment_call).output`
(`expression_evaluation_component.hpp:84-86` and others). -/
def req [Zero F] (n : Env F) (b : ℕ) (x y : Var) (s : St F) : St F × Var :=
  let r := Batch.addInput n.c n.le (overlay n.t s.consts) s.batch b [x, y] n.circ
  (⟨s.consts, r.1⟩, r.2.headD ⟨0, 0, false, .witness⟩)

/-- `add_batch_constant_variable`. -/
def con [DecidableEq F] (x : F) (s : St F) : St F × Var :=
  let r := ConstBatch.add s.consts x
  (⟨r.1, s.batch⟩, r.2)

/-- The loop over the remaining variables of a term (91-95). -/
def mulVars [Zero F] (n : Env F) : List Var → Var → St F → St F × Var
  | [], r, s => (s, r)
  | v :: vs, r, s => let q := req n 0 r (n.map v) s; mulVars n vs q.2 q.1

/-- The loop of `pow_operation` (107-119) and the last multiplication (120-122). -/
def powLoop [Zero F] (n : Env F) (k : ℕ) (r e : Var) (s : St F) : St F × Var :=
  if 1 < k then
    if k % 2 = 0 then let q := req n 0 e e s; powLoop n (k / 2) r q.2 q.1
    else let q := req n 0 r e s; powLoop n (k - 1) q.2 e q.1
  else req n 0 r e s
  termination_by k

/-- `expression_to_execution_simple` (71-144). -/
def visit [Zero F] [One F] [DecidableEq F] (n : Env F) : GExpr F → St F → St F × Var
  | .term [] k, s => con k s
  | .term (v :: vs) k, s =>
    if k ≠ 1 then let o := con k s; let q := req n 0 o.2 (n.map v) o.1; mulVars n vs q.2 q.1
    else mulVars n vs (n.map v) s
  | .pow b k, s =>
    let q := visit n b s
    if k = 1 then q else let o := con 1 q.1; powLoop n k o.2 q.2 o.1
  | .bin op l r, s =>
    let q := visit n l s
    let q' := visit n r q.1
    req n (batchOf op) q.2 q'.2 q'.1

/-- One call of `generate_assignments` or `generate_circuit`, with the table at that moment. -/
structure Call (F : Type*) where
  t : Table F
  circ : Bool
  map : Var → Var
  expr : GExpr F

/-- `generate_assignments` (`expression_evaluation_component.hpp:255-270`) creates the evaluator with
`_generate_assignment_call = true`, and every request passes that flag on as `called_from_generate_circuit`
(`assignment.hpp:186-189`). -/
def assignCall (t : Table F) (map : Var → Var) (e : GExpr F) : Call F := ⟨t, true, map, e⟩

/-- `generate_circuit` (272-289), with `false`. -/
def circuitCall (t : Table F) (map : Var → Var) (e : GExpr F) : Call F := ⟨t, false, map, e⟩

/-- Calls in order, with the output variable of each. -/
def calls [Zero F] [One F] [DecidableEq F] (c : ℕ → Batch.Comp F) (le : List Var → List Var → Bool) :
    St F → List (Call F) → St F × List Var
  | s, [] => (s, [])
  | s, k :: l =>
    let r := visit ⟨c, le, k.t, k.circ, k.map⟩ k.expr s
    let r' := calls c le r.1 l
    (r'.1, r.2 :: r'.2)

/-- Nothing requested yet. -/
def St.empty : St F := ⟨[], ⟨[], fun _ => []⟩⟩

/-- A variable after both finalisations (`assignment.hpp:213-220`, `315-322`). -/
def final (c : ℕ → Batch.Comp F) (ps : List Batch.Place) (col : ℕ) (rows : List ℕ) (v : Var) : Var :=
  ConstBatch.substConst col rows (Batch.subst (Batch.mapOf c ps) v)

end ExprEval
end Verif
