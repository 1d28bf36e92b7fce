import Verif.Model.ZkevmState
import Mathlib.Tactic.LinearCombination

/-!
# zkEVM state transitions: C41
-/

set_option linter.unusedSimpArgs false

namespace Verif
namespace ZkState
variable {F : Type*} [Field F]

/-- Specification: what a declaration says about the current value `x` and the next value `y` of one component
whose default step is `+ d`. -/
def Allows (d : F) : Transition → F → F → Prop
  | .sameValue, x, y => y = x
  | .delta v, x, y => y = x + (v : F)
  | .newValue v, _, y => y = (v : F)
  | .default, x, y => y = x + d
  | .any, _, _ => True

/-- The value of a state variable on a row. -/
def StateVar.at (s : StateVar) (t : Table F) (row : ℤ) : F := t s.type s.selector row

theorem handle_iff (s : StateVar) (tr : Transition) (d : F) (dflt : StateVar → Expr F) (t : Table F) (row : ℤ)
    (hd : (dflt s).eval t row = t s.type s.selector (row + 1) - t s.type s.selector row - d) :
    (∀ e ∈ (handle s tr dflt).toList, e.eval t row = 0) ↔ Allows d tr (s.at t row) (s.at t (row + 1)) := by
  have e0 : ∀ off : ℤ, (Expr.var (s.variable off) : Expr F).eval t row = t s.type s.selector (row + off) := by
    intro off; simp [StateVar.variable, Expr.eval, Var.evalAt]
  cases tr with
  | sameValue => simp [handle, Allows, StateVar.at, e0, sub_eq_zero]
  | any => simp [handle, Allows]
  | delta v =>
    simp only [handle, Allows, StateVar.at, e0, Option.toList_some, List.mem_singleton, forall_eq, Expr.eval_sub,
      Expr.eval_const, add_zero]
    rw [sub_sub, sub_eq_zero]
  | newValue v =>
    simp only [handle, Allows, StateVar.at, e0, Option.toList_some, List.mem_singleton, forall_eq, Expr.eval_sub,
      Expr.eval_const, add_zero]
    rw [sub_eq_zero]
  | default =>
    simp only [handle, Allows, StateVar.at, Option.toList_some, List.mem_singleton, forall_eq, hd]
    rw [sub_sub, sub_eq_zero]

end ZkState

open ZkState

/-- C41: two consecutive rows satisfy the generated constraints iff every component changes as declared; the
default is `+1` for the program counter and no change for the others. -/
theorem zkevm_transition_iff {F : Type*} [Field F] (s : State) (tr : StateTransition) (t : Table F) (row : ℤ) :
    (∀ e ∈ ZkState.constraints s tr, e.eval t row = 0) ↔
      Allows 1 tr.pc (s.pc.at t row) (s.pc.at t (row + 1)) ∧
      Allows 0 tr.stackSize (s.stackSize.at t row) (s.stackSize.at t (row + 1)) ∧
      Allows 0 tr.memorySize (s.memorySize.at t row) (s.memorySize.at t (row + 1)) ∧
      Allows 0 tr.currGas (s.currGas.at t row) (s.currGas.at t (row + 1)) := by
  simp only [ZkState.constraints, List.forall_mem_append, and_assoc]
  refine and_congr ?_ (and_congr ?_ (and_congr ?_ ?_)) <;> apply handle_iff <;>
    simp [pcDefault, stackDefault, memoryDefault, gasDefault, StateVar.variable, Expr.eval, Var.evalAt]

/-- C41 for the freezing constraints of the circuit: unless the row is the last one or the next row starts an
operation, the four state components do not change. -/
theorem zkevm_frozen {F : Type*} [Field F] (s : State) (stepSel : StateVar) (endSel : ℕ) (t : Table F) (row : ℤ) :
    (∀ e ∈ frozenConstraints s stepSel endSel, e.eval t row = 0) ↔
      (t .selector endSel row = 1 ∨ stepSel.at t (row + 1) = 1 ∨
        (s.pc.at t (row + 1) = s.pc.at t row ∧ s.stackSize.at t (row + 1) = s.stackSize.at t row ∧
          s.memorySize.at t (row + 1) = s.memorySize.at t row ∧ s.currGas.at t (row + 1) = s.currGas.at t row)) := by
  have h := zkevm_transition_iff s frozen t row
  simp only [Allows, frozen] at h
  have e1 : (Expr.var ⟨endSel, 0, true, .selector⟩ : Expr F).eval t row = t .selector endSel row := by
    simp [Expr.eval, Var.evalAt]
  have e2 : (Expr.var (stepSel.variable 1) : Expr F).eval t row = stepSel.at t (row + 1) := by
    simp [Expr.eval, Var.evalAt, StateVar.variable, StateVar.at]
  by_cases h1 : t .selector endSel row = 1
  · simp [frozenConstraints, e1, h1]
  by_cases h2 : stepSel.at t (row + 1) = 1
  · simp [frozenConstraints, e1, e2, h1, h2]
  have h1' : (1 : F) - t .selector endSel row ≠ 0 := fun h => h1 (sub_eq_zero.1 h).symm
  have h2' : (1 : F) - stepSel.at t (row + 1) ≠ 0 := fun h => h2 (sub_eq_zero.1 h).symm
  rw [or_iff_right h1, or_iff_right h2, ← h]
  simp [frozenConstraints, e1, e2, h1', h2', frozen]

/-- Non-vacuity: a jump to `5` that pops two stack items and leaves the gas unconstrained. -/
example : ∃ (t : Table ℚ), ∀ e ∈ ZkState.constraints ⟨⟨0, .witness⟩, ⟨1, .witness⟩, ⟨2, .witness⟩, ⟨3, .witness⟩⟩
    ⟨.newValue 5, .delta (-2), .default, .any⟩, e.eval t 0 = 0 := by
  refine ⟨fun _ i r => if r = 0 then (if i = 1 then 7 else 0) else if i = 0 then 5 else if i = 1 then 5 else if i = 2 then 0 else 9, ?_⟩
  rw [zkevm_transition_iff]
  simp [Allows, StateVar.at]
  norm_num

end Verif
