import Verif.Core.Table

/-!
# zkEVM state transitions (`zkevm/state.hpp`)
-/

namespace Verif
namespace ZkState

/-- `state_var` without its cached value (`state.hpp:40-48`). -/
structure StateVar where
  selector : ℕ
  type : ColType

/-- `transition_type` (`state.hpp:120-136`); the `std::int64_t value` is an integer. -/
inductive Transition where
  | default
  | any
  | sameValue
  | delta (v : ℤ)
  | newValue (v : ℤ)

/-- `variable(offset)` (`state.hpp:82-85`). -/
def StateVar.variable (s : StateVar) (off : ℤ) : Var := ⟨s.selector, off, true, s.type⟩

section
variable {F : Type*} [Field F]

/-- `handle_transition` (`state.hpp:181-199`); `std::nullopt` is `none`. Conversion of the integer to a field
element is the ring cast. -/
def handle (s : StateVar) (t : Transition) (dflt : StateVar → Expr F) : Option (Expr F) :=
  match t with
  | .sameValue => some (.var (s.variable 1) - .var (s.variable 0))
  | .delta v => some (.var (s.variable 1) - .var (s.variable 0) - .const (v : F))
  | .newValue v => some (.var (s.variable 1) - .const (v : F))
  | .default => some (dflt s)
  | .any => none

/-- `handle_pc_default` (`state.hpp:202-208`). -/
def pcDefault (s : StateVar) : Expr F := .var (s.variable 1) - .var (s.variable 0) - 1
/-- `handle_stack_size_default` (`state.hpp:211-217`). -/
def stackDefault (s : StateVar) : Expr F := .var (s.variable 1) - .var (s.variable 0)
/-- `handle_memory_size_default` (`state.hpp:220-226`). -/
def memoryDefault (s : StateVar) : Expr F := .var (s.variable 1) - .var (s.variable 0)
/-- `handle_curr_gas_default` (`state.hpp:229-236`). -/
def gasDefault (s : StateVar) : Expr F := .var (s.variable 1) - .var (s.variable 0)

/-- The transition part of `zkevm_state` (`state.hpp:88-103`). -/
structure State where
  pc : StateVar
  stackSize : StateVar
  memorySize : StateVar
  currGas : StateVar

/-- `zkevm_state_transition` (`state.hpp:159-163`). -/
structure StateTransition where
  pc : Transition
  stackSize : Transition
  memorySize : Transition
  currGas : Transition

/-- `generate_frozen_state_transition` (`state.hpp:165-171`). -/
def frozen : StateTransition := ⟨.sameValue, .sameValue, .sameValue, .sameValue⟩

/-- `generate_transition_constraints` (`state.hpp:239-253`). -/
def constraints (s : State) (t : StateTransition) : List (Expr F) :=
  (handle s.pc t.pc pcDefault).toList ++ (handle s.stackSize t.stackSize stackDefault).toList ++
  (handle s.memorySize t.memorySize memoryDefault).toList ++ (handle s.currGas t.currGas gasDefault).toList

/-- The state-freezing constraints of `generate_generic_transition_constraints`
(`zkevm_circuit.hpp:287-293`): `(1 - end) * (1 - step_next) * constraint`. -/
def frozenConstraints (s : State) (stepSel : StateVar) (endSel : ℕ) : List (Expr F) :=
  (constraints s frozen).map fun e =>
    (1 - .var ⟨endSel, 0, true, .selector⟩) * (1 - .var (stepSel.variable 1)) * e
end

end ZkState
end Verif
