import Verif.Core.Table

/-!
# The stack of the zkEVM machine and what the operations do to it

`zkevm/stack.hpp` and the parts of `generate_assignments` of the operations that read and write the stack. The head of the
list is the top; `pop` and `top` of an empty stack, undefined in C++, are `none`. The cells written for the words are in
`Model/Zkevm.lean`.
-/

namespace Verif
namespace ZkevmStack

abbrev Word := BitVec 256

/-- `push`, stack.hpp:38-40. -/
def push (s : List Word) (w : Word) : List Word := w :: s

/-- `pop`, stack.hpp:42-46. -/
def pop : List Word → Option (Word × List Word)
  | [] => none
  | w :: s => some (w, s)

/-- `top`, stack.hpp:48-50. -/
def top (s : List Word) : Option Word := (pop s).map Prod.fst

/-- `swap`, stack.hpp:52-57. -/
def swap (s : List Word) : Option (List Word) := do
  let (a, s) ← pop s
  let (b, s) ← pop s
  return push (push s a) b

/-- `dup`, stack.hpp:59-63. -/
def dup (s : List Word) : Option (List Word) := do
  let (a, s) ← pop s
  return push (push s a) a

/-- The implemented opcodes, zkevm_circuit.hpp:299-303. -/
inductive Opc
  | iszero | add | sub | mul | div
  deriving DecidableEq, Repr

/-- The words written to the rows of an operation, first row first, and the stack after it. -/
structure Effect where
  words : List Word
  stack : List Word
  deriving DecidableEq

/-- `generate_assignments`: add_sub.hpp:120-131, 155-161; mul.hpp:145-152, 198-200; div.hpp:217-230, 298-300;
iszero.hpp:73-98. The words are `a`, `b`, `result` (and `q` for DIV) after the `std::swap` of SUB. -/
def assign (o : Opc) (s : List Word) : Option Effect := do
  match o with
  | .iszero =>
    let (a, s) ← pop s
    return ⟨[a, if a = 0 then 1 else 0], push s a⟩
  | .add =>
    let (a, s) ← pop s
    let (b, s) ← pop s
    let result := a + b
    return ⟨[a, b, result], push (push s b) a⟩
  | .sub =>
    let (a, s) ← pop s
    let (b, s) ← pop s
    let result := a - b
    let (result, a) := (a, result)
    return ⟨[a, b, result], push (push s b) result⟩
  | .mul =>
    let (a, s) ← pop s
    let (b, s) ← pop s
    let result := a * b
    return ⟨[a, b, result], push (push s b) a⟩
  | .div =>
    let (a, s) ← pop s
    let (b, s) ← pop s
    let result := if b ≠ 0 then BitVec.ofNat 256 (a.toNat / b.toNat) else 0
    let q := if b ≠ 0 then BitVec.ofNat 256 (a.toNat % b.toNat) else a
    return ⟨[a, b, result, q], push (push s b) a⟩

/-- A sequence of calls of `assign_opcode` (zkevm_circuit.hpp:148-160) on one machine: the words of each, and the stack in
the end. -/
def run : List Opc → List Word → Option (List (List Word) × List Word)
  | [], s => some ([], s)
  | o :: os, s => do
    let e ← assign o s
    let (ws, s) ← run os e.stack
    return (e.words :: ws, s)

end ZkevmStack
end Verif
