import Verif.Model.Assignment

/-!
# Model of the circuit container and of the satisfiability check

`blueprint/plonk/circuit.hpp` and `utils/satisfiability_check.hpp`.
-/

namespace Verif

/-- Argument of `add_gate`: the overloads taking one constraint (circuit.hpp:138-140) or a list (134-136,
142-144) compute their gate id differently (`gate_id.hpp:227-235`), so they are kept apart. -/
inductive GArg (F : Type*)
  | single (c : Expr F)
  | many (cs : List (Expr F))

/-- The constraints stored in the gate. -/
def GArg.cs {F : Type*} : GArg F → List (Expr F)
  | .single c => [c]
  | .many cs => cs

/-- A lookup constraint: table id and input expressions (`plonk_lookup_constraint`). -/
structure LookupC (F : Type*) where
  table : ℕ
  inputs : List (Expr F)

/-- `circuit` (circuit.hpp:42-80): gates with their selectors, copy constraints, the two
`gate id → selector` maps and the shared selector counter. `K`, `L` are the types of gate ids. -/
structure Circuit (F K L : Type*) where
  gates : List (ℕ × List (Expr F))
  lookups : List (ℕ × List (LookupC F))
  copies : List (Var × Var)
  selMap : K → Option ℕ
  lookMap : L → Option ℕ
  next : ℕ

namespace Circuit
variable {F K L : Type*} [DecidableEq K] [DecidableEq L]

/-- A fresh circuit. -/
def init : Circuit F K L := ⟨[], [], [], fun _ => none, fun _ => none, 0⟩

/-- `add_gate` (circuit.hpp:114-144). `id` is the gate id of `cs`. Returns the selector. -/
def addGate (c : Circuit F K L) (id : K) (cs : List (Expr F)) : Circuit F K L × ℕ :=
  match c.selMap id with
  | some s => (c, s)
  | none =>
    ({ c with selMap := Function.update c.selMap id (some c.next)
              gates := c.gates ++ [(c.next, cs)]
              next := c.next + 1 }, c.next)

/-- `add_lookup_gate` (circuit.hpp:146-156). -/
def addLookup (c : Circuit F K L) (id : L) (cs : List (LookupC F)) : Circuit F K L × ℕ :=
  match c.lookMap id with
  | some s => (c, s)
  | none =>
    ({ c with lookMap := Function.update c.lookMap id (some c.next)
              lookups := c.lookups ++ [(c.next, cs)]
              next := c.next + 1 }, c.next)

/-- `get_dynamic_lookup_table_selector` (circuit.hpp:178-182). -/
def dynSelector (c : Circuit F K L) : Circuit F K L × ℕ := ({ c with next := c.next + 1 }, c.next)

/-- `private_storage_index` (assignment.hpp: `std::numeric_limits<std::size_t>::max()`). -/
def privIdx : ℕ := 2 ^ 64 - 1

/-- `add_copy_constraint` (circuit.hpp:235-246). -/
def addCopy (c : Circuit F K L) (a b : Var) : Circuit F K L :=
  if a = b then c
  else if a.index = privIdx ∨ b.index = privIdx then c
  else { c with copies := c.copies ++ [(a, b)] }

end Circuit

section sat
variable {F K L : Type*} [Field F] [DecidableEq F]

/-- Rows at which a selector is non-zero (satisfiability_check.hpp:126-127, 149-150). -/
def selOn (a : Asg F) (s q : ℕ) : Bool :=
  match a.read? .selector s q with
  | some v => decide (v ≠ 0)
  | none => false

/-- `is_satisfied` (satisfiability_check.hpp:44-68 and 101-252): all gates, all lookup gates, all rows
below the allocated rows, then all copy constraints. `lk` decides membership of a tuple in a lookup
table. -/
def isSatisfied (lk : ℕ → List F → Bool) (c : Circuit F K L) (a : Asg F) : Bool :=
  (c.gates.all fun g => (List.range a.alloc).all fun q =>
    !selOn a g.1 q || g.2.all fun e => decide (e.eval a.toTable (q : ℤ) = 0)) &&
  (c.lookups.all fun g => (List.range a.alloc).all fun q =>
    !selOn a g.1 q || g.2.all fun l => lk l.table (l.inputs.map (Expr.eval a.toTable (q : ℤ)))) &&
  (c.copies.all fun p => decide (p.1.value a.toTable = p.2.value a.toTable))
end sat

/-- What client code does while building a circuit and its assignment, in any order. -/
inductive Cmd (F : Type*)
  /-- `s = bp.add_gate(..)`, then `assignment.enable_selector(s, row)` for the given rows. -/
  | gate (g : GArg F) (rows : List ℕ)
  /-- `s = bp.add_lookup_gate(..)`, then `enable_selector(s, row)`. -/
  | lookup (l : List (LookupC F)) (rows : List ℕ)
  /-- `bp.add_copy_constraint({a, b})`. -/
  | copy (a b : Var)
  /-- Reserving a selector for a dynamic lookup table. -/
  | dyn
  /-- A cell write. -/
  | write (ty : ColType) (i r : ℕ) (v : F)

section run
variable {F K L : Type*} [Field F] [DecidableEq K] [DecidableEq L]

/-- Enabling a selector on several rows, one call each. -/
def enableRows (a : Asg F) (s : ℕ) (rows : List ℕ) : Asg F := rows.foldl (fun a r => a.enable s r) a

/-- One step. `gid`, `lid` compute gate ids. -/
def Cmd.step (gid : GArg F → K) (lid : List (LookupC F) → L) (st : Circuit F K L × Asg F) :
    Cmd F → Circuit F K L × Asg F
  | .gate g rows => let r := st.1.addGate (gid g) g.cs; (r.1, enableRows st.2 r.2 rows)
  | .lookup l rows => let r := st.1.addLookup (lid l) l; (r.1, enableRows st.2 r.2 rows)
  | .copy a b => (st.1.addCopy a b, st.2)
  | .dyn => (st.1.dynSelector.1, st.2)
  | .write ty i r v => (st.1, st.2.write ty i r v)

/-- The state after a history (oldest command first). -/
def runCmds (gid : GArg F → K) (lid : List (LookupC F) → L) (cmds : List (Cmd F)) :
    Circuit F K L × Asg F :=
  cmds.foldl (Cmd.step gid lid) (Circuit.init, Asg.init)
end run

end Verif
