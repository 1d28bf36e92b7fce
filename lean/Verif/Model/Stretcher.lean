import Verif.Core.UnionFind
import Verif.Model.GateMover
import Verif.Model.HuangLu
import Mathlib.Data.Nat.Find
import Mathlib.Data.Set.Finite.Basic
import Mathlib.Data.Finset.Basic
import Mathlib.Data.Fintype.EquivFin

/-!
# Component stretcher (`component_stretcher.hpp`)

The component being stretched is given by what `generate_circuit` and `generate_assignments` leave in the temporary
circuit and table (`component_stretcher.hpp:206-216`): its gates, where their selectors are on, its copy constraints
and its cells, on rows `0 .. rows-1`.

Not modelled: `circuit::add_gate` (gates stay in order), the conversion of the inputs to the temporary table
(`input_type_converter`; public input variables of the temporary table stand for the original inputs through an
arbitrary map `dec`), and lookup gates (the stretcher ignores them).
-/

namespace Verif
namespace Stretcher
open GateMover HuangLu

variable {F : Type*}

/-- The temporary circuit: `gates[s]` has selector `s`, on where `sel s row`. -/
structure Comp (F : Type*) where
  rows : ℕ
  W : ℕ
  gates : List (List (GExpr F))
  sel : ℕ → ℕ → Bool
  copies : List (Var × Var)

/-- Variables of a gate. -/
def gateVars (cs : List (GExpr F)) : List Var := cs.flatMap GExpr.vars

/-- `island[d + 1]`: a non-constant variable of rotation `d` occurs (`component_stretcher.hpp:105-126`). -/
def usesW (cs : List (GExpr F)) (d : ℤ) : Bool := (gateVars cs).any fun v => decide (v.type ≠ .constant) && decide (v.rotation = d)

/-- `island[d + 4]`: a constant of rotation `d` occurs. -/
def usesC (cs : List (GExpr F)) (d : ℤ) : Bool := (gateVars cs).any fun v => decide (v.type = .constant) && decide (v.rotation = d)

/-- The `union_set` calls for row `i` and selector `s` (`component_stretcher.hpp:135-161`). -/
def rowUnions (C : Comp F) (i s : ℕ) : List (ℕ × ℕ) :=
  let cs := C.gates.getD s []
  (if usesW cs (-1) then [(i - 1, i), (i - 1, C.rows + s)] else []) ++
  (if usesW cs 0 then [(i, C.rows + s)] else []) ++
  (if usesW cs 1 then [(i, i + 1), (i + 1, C.rows + s)] else []) ++
  (if usesC cs (-1) then [(i - 1, C.rows + C.gates.length)] else []) ++
  (if usesC cs 0 then [(i, C.rows + C.gates.length)] else []) ++
  (if usesC cs 1 then [(i + 1, C.rows + C.gates.length)] else [])

/-- All `union_set` calls of `generate_zones` (`component_stretcher.hpp:128-163`). -/
def unions (C : Comp F) : List (ℕ × ℕ) :=
  (List.range C.rows).flatMap fun i => (List.range C.gates.length).flatMap fun s =>
    if C.sel s i then rowUnions C i s else []

/-- `zones.find_set`. -/
def find (C : Comp F) : ℕ → ℕ := ufOf (unions C)

/-- `constant_priority[j]` (`component_stretcher.hpp:150-161`). -/
def priority (C : Comp F) (j : ℕ) : Bool :=
  (List.range C.rows).any fun i => (List.range C.gates.length).any fun s => C.sel s i &&
    (usesC (C.gates.getD s []) (-1) && decide (i - 1 = j) || usesC (C.gates.getD s []) 0 && decide (i = j) ||
      usesC (C.gates.getD s []) 1 && decide (i + 1 = j))

/-- The zones of the rows. -/
def zoneOf (C : Comp F) : List ℕ := (List.range C.rows).map (find C)

/-- Where everything goes: the content of `zones.zone_sizes` in iteration order and the stretch factor. -/
structure Layout where
  zs : List Item
  stretch : ℕ
  start : ℤ

/-- `zone_mapping[z]`. -/
def agent (L : Layout) (z : ℕ) : ℕ := (huangLu L.zs L.stretch z).getD 0

/-- `line_mapping[i]`. -/
def line (C : Comp F) (L : Layout) (i : ℕ) : ℕ := (remap (zoneOf C) L.zs L.stretch).getD i 0

/-- The scan `while (constant_assigned[first]) first++` (`component_stretcher.hpp:250-252`). Reading past the end of
`constant_assigned` (undefined behaviour) is taken to read `false`. -/
def nextFree (asg : List ℕ) (first : ℕ) : ℕ :=
  Nat.find (p := fun k => first ≤ k ∧ k ∉ asg) (by
    obtain ⟨k, hk⟩ := Infinite.exists_notMem_finset (asg.toFinset ∪ Finset.range first)
    simp only [Finset.mem_union, List.mem_toFinset, Finset.mem_range, not_or, not_lt] at hk
    exact ⟨k, hk.2, hk.1⟩)

/-- The loop over the constrained constants (`component_stretcher.hpp:253-271`): `constant_remapping`. -/
def alloc (ln : ℕ → ℕ) : List ℕ → List ℕ → ℕ → (ℕ → Option ℕ) → ℕ → Option ℕ
  | [], _, _, m => m
  | r :: rs, asg, first, m =>
    if ln r ∈ asg then
      alloc ln rs (first :: asg) (nextFree (first :: asg) first) (Function.update m r (some first))
    else
      alloc ln rs (ln r :: asg) (if first = ln r then nextFree (ln r :: asg) first else first)
        (Function.update m r (some (ln r)))

/-- `constant_assigned` after the row loop (`component_stretcher.hpp:229-236`). -/
def assigned0 (C : Comp F) (L : Layout) : List ℕ :=
  ((List.range C.rows).filter fun i => priority C i).map (line C L)

/-- `constant_remapping`, `crows` being the rows of the constrained constants in the order of the set. -/
def constRemap (C : Comp F) (L : Layout) (crows : List ℕ) : ℕ → Option ℕ :=
  alloc (line C L) crows (assigned0 C L) (nextFree (assigned0 C L) 0) fun _ => none

/-- The row the constants of row `i` are moved to (`component_stretcher.hpp:379-396` and `401-410`). -/
def place (C : Comp F) (L : Layout) (crows : List ℕ) (i : ℕ) : ℕ := (constRemap C L crows i).getD (line C L i)

/-- `move_var` as called for copy constraints (`component_stretcher.hpp:277-308`, `398-417`). -/
def moveVar (C : Comp F) (L : Layout) (crows : List ℕ) (dec : Var → Var) (v : Var) : Var :=
  match v.type with
  | .constant => { v with rotation := L.start + place C L crows v.rotation.toNat }
  | .publicInput => dec v
  | .witness => ⟨agent L (find C v.rotation.toNat) * C.W + v.index, L.start + line C L v.rotation.toNat, v.relative, .witness⟩
  | .selector => v

/-- `move_gate_var` (`component_stretcher.hpp:310-341`). -/
def moveGateVar (C : Comp F) (L : Layout) (s : ℕ) (v : Var) : Var :=
  match v.type with
  | .witness => { v with index := agent L (find C (C.rows + s)) * C.W + v.index }
  | _ => v

/-- The gates and copy constraints of the temporary circuit hold. -/
def OrigSat [Field F] (C : Comp F) (t : Table F) : Prop :=
  (∀ s < C.gates.length, ∀ i < C.rows, C.sel s i = true → ∀ e ∈ C.gates.getD s [], e.eval t i = 0) ∧
  ∀ c ∈ C.copies, c.1.value t = c.2.value t

/-- The gates and copy constraints which `move_circuit` adds to the circuit hold
(`component_stretcher.hpp:343-420`): gate `s` is on at the images of its rows. -/
def MovedSat [Field F] (C : Comp F) (L : Layout) (crows : List ℕ) (dec : Var → Var) (T : Table F) : Prop :=
  (∀ s < C.gates.length, ∀ i < C.rows, C.sel s i = true →
    ∀ e ∈ (C.gates.getD s []).map (move (moveGateVar C L s)), e.eval T (L.start + line C L i) = 0) ∧
  ∀ c ∈ C.copies, (moveVar C L crows dec c.1).value T = (moveVar C L crows dec c.2).value T

/-- The writes of `move_assignment` and of the constants in `move_circuit` (`component_stretcher.hpp:377-396`,
`422-444`), for a table with `nc` constant columns. -/
def writes (C : Comp F) (L : Layout) (crows : List ℕ) (nc : ℕ) (t : Table F) : List (Write F) :=
  ((List.range C.rows).flatMap fun i => (List.range nc).flatMap fun c =>
    if (constRemap C L crows i).isSome || priority C i then
      [⟨.constant, c, L.start + place C L crows i, t .constant c i⟩] else []) ++
  ((List.range C.rows).flatMap fun i => (List.range C.W).map fun w =>
    ⟨.witness, agent L (find C i) * C.W + w, L.start + line C L i, t .witness w i⟩)

end Stretcher
end Verif
