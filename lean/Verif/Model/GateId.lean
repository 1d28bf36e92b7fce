import Verif.Model.Circuit
import Mathlib.Data.List.Sort
import Mathlib.Data.Prod.Lex

/-!
# Model of gate identities (`gate_id.hpp`)

The random values of `value_set` (gate_id.hpp:47-165), one per point, column type, column index and rotation,
are two arbitrary tables `p1 p2` read at row 0 (so that the cell at row `rot` is the value of the variable
with that rotation). The random multipliers are arbitrary sequences. The field order used by `std::stable_sort`
is an arbitrary linear order. The lazily grown containers are read as total functions. The asserts on
rotations outside `{-1, 0, 1}` and public input variables are not modelled.
-/

namespace Verif
variable {F : Type*} [Field F] [LinearOrder F]

/-- The data of `value_set`. -/
structure ValueSet (F : Type*) where
  p1 : Table F
  p2 : Table F
  /-- `get_power` -/
  pw : ℕ → F
  /-- `get_lookup_power` -/
  lpw : ℕ → F
  /-- `get_table_power` -/
  tpw : ℕ → F

/-- `Σ get_power(i) * values[i]` over the sorted value pairs (gate_id.hpp:205-216). -/
def idSum (pw : ℕ → F) (vals : List (F ×ₗ F)) : F × F :=
  let sorted := vals.insertionSort (· ≤ ·)
  ((sorted.mapIdx fun i v => pw i * (ofLex v).1).sum, (sorted.mapIdx fun i v => pw i * (ofLex v).2).sum)

/-- `eval_constraint` (gate_id.hpp:183-192). -/
def evalC (vs : ValueSet F) (c : Expr F) : F ×ₗ F := toLex (c.eval vs.p1 0, c.eval vs.p2 0)

/-- `gate_id` of the `add_gate` overloads (gate_id.hpp:195-239). -/
def gateId (vs : ValueSet F) : GArg F → F × F
  | .single c => ofLex (evalC vs c)
  | .many cs => idSum vs.pw (cs.map (evalC vs))

/-- `lookup_gate_id::eval_constraint` (gate_id.hpp:293-311). -/
def evalL (vs : ValueSet F) (l : LookupC F) : F ×ₗ F :=
  toLex (vs.tpw l.table * (l.inputs.mapIdx fun i e => vs.lpw i * e.eval vs.p1 0).sum,
         vs.tpw l.table * (l.inputs.mapIdx fun i e => vs.lpw i * e.eval vs.p2 0).sum)

/-- `lookup_gate_id` of a list of lookup constraints (gate_id.hpp:314-336). -/
def lookupGateId (vs : ValueSet F) (ls : List (LookupC F)) : F × F := idSum vs.pw (ls.map (evalL vs))

end Verif
