import Verif.Model.Arith
import Verif.Model.Circuit

/-!
# Straight-line programs compiled component by component

What a client of the library does: for each instruction a component is placed on a fresh row, `generate_circuit` and
`generate_assignments` are called, and the result variable is handed to later instructions
(`components/algebra/fields/plonk/*.hpp` through the containers of `blueprint/plonk/circuit.hpp` and
`assignment.hpp`; `test/test_plonk_component.hpp` is the one-instruction case).
-/

namespace Verif

/-- An obligation as the calls which record it. The overload of `add_gate` depends on the number of constraints. -/
def Op.cmd {F : Type*} : Op F → Cmd F
  | .gate [c] rows => .gate (.single c) (rows.map Int.toNat)
  | .gate cs rows => .gate (.many cs) (rows.map Int.toNat)
  | .copy a b => .copy a b
  | .constant col row v => .write .constant col row.toNat v
  | .lookup _ _ _ => .dyn

/-- A cell write as a call. -/
def Write.cmd {F : Type*} (w : Write F) : Cmd F := .write w.type w.index w.row.toNat w.val

/-- Arithmetic instructions: the component used. -/
inductive Kind
  | add | sub | mul | div

/-- An operand: a public input or the result of an earlier instruction. -/
inductive Arg
  | input (k : ℕ)
  | res (i : ℕ)

/-- An instruction with the witness columns its component got. -/
structure Instr where
  kind : Kind
  x : Arg
  y : Arg
  cols : Cols

namespace Prog

/-- The variable of an operand. -/
def argVar (p : List Instr) : Arg → Var
  | .input k => ⟨0, k, false, .publicInput⟩
  | .res i => match p[i]? with
    | some ins => ins.cols.wa 2 i
    | none => ⟨0, 0, false, .publicInput⟩

section
variable {F : Type*} [Field F]

/-- `generate_circuit` of the component of an instruction, on row `i`. -/
def insOps (p : List Instr) (i : ℕ) (ins : Instr) : List (Op F) :=
  let inp : In2 := ⟨argVar p ins.x, argVar p ins.y⟩
  match ins.kind with
  | .add => Addition.circuit ins.cols inp i
  | .sub => Subtraction.circuit ins.cols inp i
  | .mul => Multiplication.circuit ins.cols inp i
  | .div => Division.circuit ins.cols inp i

/-- `generate_assignments` of the component of an instruction. -/
def insAssign (p : List Instr) (i : ℕ) (ins : Instr) (t : Table F) : Table F :=
  let inp : In2 := ⟨argVar p ins.x, argVar p ins.y⟩
  match ins.kind with
  | .add => Addition.assign ins.cols inp i t
  | .sub => Subtraction.assign ins.cols inp i t
  | .mul => Multiplication.assign ins.cols inp i t
  | .div => Division.assign ins.cols inp i t

/-- The writes behind `insAssign`, with the values stored. -/
def insWrites (p : List Instr) (i : ℕ) (ins : Instr) (t : Table F) : List (Write F) :=
  let x := (argVar p ins.x).value t
  let y := (argVar p ins.y).value t
  let w := fun (j : ℤ) (v : F) => (⟨.witness, ins.cols.w j, i, v⟩ : Write F)
  match ins.kind with
  | .add => [w 0 x, w 1 y, w 2 (x + y)]
  | .sub => [w 0 x, w 1 y, w 2 (x - y)]
  | .mul => [w 0 x, w 1 y, w 2 (x * y)]
  | .div => [w 0 x, w 1 y, w 2 (x / y), w 3 y⁻¹]

/-- The obligations of a whole program. -/
def ops (p : List Instr) : List (Op F) := (List.range p.length).flatMap fun i =>
  match p[i]? with
  | some ins => insOps p i ins
  | none => []

/-- The table after the first `n` instructions. -/
def tableAt (p : List Instr) (t : Table F) : ℕ → Table F
  | 0 => t
  | n + 1 => match p[n]? with
    | some ins => insAssign p n ins (tableAt p t n)
    | none => tableAt p t n

/-- The calls made for the first `n` instructions: for each, the circuit and then the assignment. -/
def cmdsAt (p : List Instr) (t : Table F) : ℕ → List (Cmd F)
  | 0 => []
  | n + 1 => match p[n]? with
    | some ins => cmdsAt p t n ++ (insOps p n ins).map Op.cmd ++ (insWrites p n ins (tableAt p t n)).map Write.cmd
    | none => cmdsAt p t n

/-- The table of the public inputs. -/
def inputTable (inp : List F) : Table F :=
  fun ty i r => if ty = .publicInput ∧ i = 0 ∧ 0 ≤ r then inp.getD r.toNat 0 else 0

/-- The whole history: the public inputs are written first. -/
def history (p : List Instr) (inp : List F) : List (Cmd F) :=
  ((List.range inp.length).map fun k => Cmd.write .publicInput 0 k (inp.getD k 0)) ++
    cmdsAt p (inputTable inp) p.length
end
end Prog
end Verif
