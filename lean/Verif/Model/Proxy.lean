import Verif.Model.Circuit
import Verif.Model.ConstBatch
import Mathlib.Data.Finset.Basic

/-!
# Proxies of a circuit and an assignment shared by several provers

`blueprint/plonk/circuit_proxy.hpp`, `blueprint/plonk/assignment_proxy.hpp`, the six argument `is_satisfied` of
`utils/satisfiability_check.hpp`.

Each prover holds a `circuit_proxy` and an `assignment_proxy` with the same circuit and table behind. Both are derived from the class
they stand for, so each has gates, tables, counters and storages of its own; a member function that is not overridden works on those.
-/

namespace Verif
namespace Proxy

/-- The two proxies of one prover: `used_gates`, `used_lookup_gates`, `used_copy_constraints` (circuit_proxy.hpp:52-55; indices into
the containers of the shared circuit), `used_rows`, `used_selector_rows` (assignment_proxy.hpp:53-54), and, of the base class of the
proxy itself, `next_selector_index` (circuit.hpp:75) and `assignment_batch_constant_storage` (assignment.hpp:144). -/
structure Prover (F : Type*) where
  gates : Finset ℕ
  lookups : Finset ℕ
  copies : Finset ℕ
  rows : Finset ℕ
  selRows : Finset ℕ
  ownNext : ℕ
  ownConsts : List F

/-- Shared circuit, shared table, proxies of the provers. -/
structure State (F K L : Type*) where
  circ : Circuit F K L
  asg : Asg F
  prov : ℕ → Prover F

section
variable {F K L : Type*} [Field F] [DecidableEq K] [DecidableEq L]

/-- Fresh proxies over an empty circuit (circuit_proxy.hpp:74-76, assignment_proxy.hpp:56-68). -/
def State.init : State F K L := ⟨Circuit.init, Asg.init, fun _ => ⟨∅, ∅, ∅, ∅, ∅, 0, []⟩⟩

/-- `get_gate_index`, `get_lookup_gate_index` (circuit_proxy.hpp:57-70): position of the first gate with the selector, else the
number of gates. -/
def gateIndex {α : Type*} (l : List (ℕ × α)) (s : ℕ) : ℕ := l.findIdx fun g => g.1 == s

/-- Rows entering `used_rows` when a cell is written through the proxy: `selector` (assignment_proxy.hpp:103-107), `witness`
(184-187), `constant` (231-235), but not `public_input` (209-212). -/
def touched (ty : ColType) (r : ℕ) : Finset ℕ := if ty = .publicInput then ∅ else {r}

/-- Rows entering `used_selector_rows` (assignment_proxy.hpp:105). -/
def touchedSel (ty : ColType) (r : ℕ) : Finset ℕ := if ty = .selector then {r} else ∅

/-- A command issued through the proxies of prover `p`: `add_gate` (circuit_proxy.hpp:136-152), `add_lookup_gate` (154-170),
`add_copy_constraint` (204-209), `enable_selector` (assignment_proxy.hpp:133-137), cell writes. `get_dynamic_lookup_table_selector`
(circuit.hpp:178-182) is not overridden and counts in the proxy. -/
def step (gid : GArg F → K) (lid : List (LookupC F) → L) (st : State F K L) (pc : ℕ × Cmd F) : State F K L :=
  let P := st.prov pc.1
  let set := fun Q => Function.update st.prov pc.1 Q
  match pc.2 with
  | .gate g rows =>
    let r := st.circ.addGate (gid g) g.cs
    ⟨r.1, enableRows st.asg r.2 rows,
      set { P with gates := insert (gateIndex r.1.gates r.2) P.gates, rows := P.rows ∪ rows.toFinset,
                   selRows := P.selRows ∪ rows.toFinset }⟩
  | .lookup l rows =>
    let r := st.circ.addLookup (lid l) l
    ⟨r.1, enableRows st.asg r.2 rows,
      set { P with lookups := insert (gateIndex r.1.lookups r.2) P.lookups, rows := P.rows ∪ rows.toFinset,
                   selRows := P.selRows ∪ rows.toFinset }⟩
  | .copy a b =>
    let c := st.circ.addCopy a b
    ⟨c, st.asg, set (if 0 < c.copies.length then { P with copies := insert (c.copies.length - 1) P.copies } else P)⟩
  | .dyn => ⟨st.circ, st.asg, set { P with ownNext := P.ownNext + 1 }⟩
  | .write ty i r v =>
    ⟨st.circ, st.asg.write ty i r v, set { P with rows := P.rows ∪ touched ty r, selRows := P.selRows ∪ touchedSel ty r }⟩

/-- `enable_selector(selector, begin, end, step)` of the proxy (assignment_proxy.hpp:139-146): the loop over the rows, without the
final update of the allocated rows in the function it overrides. -/
def enableRange (a : Asg F) (s first last step : ℕ) : Asg F := Asg.enableLoop a s first last step

/-- The selector handed out by `get_dynamic_lookup_table_selector` called on the proxy of prover `p` (circuit.hpp:178-182). -/
def dynSelector (st : State F K L) (p : ℕ) : ℕ := (st.prov p).ownNext

/-- `add_batch_constant_variable` called on the proxy of prover `p` (assignment.hpp:577-590, not overridden). -/
def addConst [DecidableEq F] (st : State F K L) (p : ℕ) (x : F) : State F K L × Var :=
  let r := ConstBatch.add (st.prov p).ownConsts x
  ({ st with prov := Function.update st.prov p { st.prov p with ownConsts := r.1 } }, r.2)

/-- The state after a history (oldest command first). -/
def run (gid : GArg F → K) (lid : List (LookupC F) → L) (h : List (ℕ × Cmd F)) : State F K L := h.foldl (step gid lid) State.init
end

section check
variable {F K L : Type*} [Field F] [DecidableEq F]

/-- The six argument `is_satisfied` (satisfiability_check.hpp:101-252): the gates, lookup gates and copy constraints with the given
indices, at the given rows. `sel` is the table whose selectors are read: line 118-121 (and 146-149) names the base class in the call,
`assignments.plonk_assignment_table<..>::selector(..)`, which is no virtual call. An index out of range does not occur. -/
def isSatisfiedOn (lk : ℕ → List F → Bool) (c : Circuit F K L) (sel a : Asg F) (ug ul uc rows : Finset ℕ) : Bool :=
  decide (∀ i ∈ ug, ((c.gates[i]?).all fun g => decide (∀ q ∈ rows,
    (!selOn sel g.1 q || g.2.all fun e => decide (e.eval a.toTable (q : ℤ) = 0)) = true)) = true) &&
  decide (∀ i ∈ ul, ((c.lookups[i]?).all fun g => decide (∀ q ∈ rows,
    (!selOn sel g.1 q || g.2.all fun l => lk l.table (l.inputs.map (Expr.eval a.toTable (q : ℤ)))) = true)) = true) &&
  decide (∀ i ∈ uc, ((c.copies[i]?).all fun p => decide (p.1.value a.toTable = p.2.value a.toTable)) = true)

/-- `is_satisfied` on the two proxies of prover `p` (assignment_proxy.hpp:444-459): the selectors are those of the table the proxy
itself is, created without rows in its constructor (assignment_proxy.hpp:58-62) and never written. -/
def proxyCheck (lk : ℕ → List F → Bool) (st : State F K L) (p : ℕ) : Bool :=
  let P := st.prov p
  isSatisfiedOn lk st.circ Asg.init st.asg P.gates P.lookups P.copies P.selRows

/-- The same sets, with the shared table in place of the proxy: `is_satisfied(bp.get(), assignments.get(), ..)`. -/
def sharedCheck (lk : ℕ → List F → Bool) (st : State F K L) (p : ℕ) : Bool :=
  let P := st.prov p
  isSatisfiedOn lk st.circ st.asg st.asg P.gates P.lookups P.copies P.selRows
end check

/-! ### Values shared between provers -/
section shared
variable {F : Type*} [Zero F]

/-- `save_shared_var` (assignment_proxy.hpp:422-431): appends to the shared column 0; the variable is the public input of column 1
at that row. `row` is the size of the column, so that the access enlarges it by one. -/
def saveShared (store : List F) (x : F) : List F × Var := (store ++ [x], ⟨1, store.length, false, .publicInput⟩)

/-- The version for several variables (assignment_proxy.hpp:433-442). The values are read first here; reading is not affected as
variables of shared values are only handed out by this function. -/
def saveSharedAll : List F → List F → List F × List Var
  | store, [] => (store, [])
  | store, x :: l => let r := saveShared store x; let q := saveSharedAll r.1 l; (q.1, r.2 :: q.2)

/-- `var_value` for public inputs of a column above 0 (assignment.hpp:767-769): column `index - 1` of the shared storage, which has
one column. `none` is the assertion on the row or the access beyond the one column. -/
def sharedValue (store : List F) (v : Var) : Option F :=
  if v.type = .publicInput ∧ v.index = 1 ∧ 0 ≤ v.rotation then store[v.rotation.toNat]? else none
end shared

end Proxy
end Verif
