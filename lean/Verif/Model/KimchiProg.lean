import Verif.Model.Arith
import Verif.Model.Exponentiation

/-!
# How the kimchi components are put together

The components under `include/nil/blueprint/components/systems/snark/plonk/kimchi` have no gates of their own: `generate_circuit` and
`generate_assignments` call the arithmetic components one after the other, each on the row after the previous one, and hand the output variables on. A
component is modelled as a builder of the list of these calls. `zk::components::multiplication` and so on, which the code names, stand for the
components of `components/algebra/fields/plonk` (`Model/Arith.lean`, `Model/Exponentiation.lean`). The wires are 0 to 14 in order and the constant
column is 0, as in the tests of kimchi; other orders do not work with `exponentiation` (C25).
-/

namespace Verif
namespace Kimchi

/-- `W0`, ..., `W14`. -/
def c15 : Cols := ⟨List.range 15, [0], []⟩
/-- `W0`, `W1`. -/
def c2 : Cols := ⟨[0, 1], [0], []⟩
/-- `W0`, `W1`, `W2`. -/
def c3 : Cols := ⟨[0, 1, 2], [0], []⟩
/-- `W0`, ..., `W3`. -/
def c4 : Cols := ⟨[0, 1, 2, 3], [0], []⟩

/-- An operand: a variable given to the component, or the output of call `i`. -/
inductive Arg
  | ext (v : Var)
  | res (i : ℕ)

/-- A call of a component. `konst` is a row whose constant column gets a value, which is used through a variable of that column. `mul
pad` leaves `pad` rows free after the multiplication. -/
inductive Call (p : ℕ)
  | add (x y : Arg)
  | sub (x y : Arg)
  | mul (pad : ℕ) (x y : Arg)
  | div (x y : Arg)
  | mulc (k : ZMod p) (x : Arg)
  | exp (es : ℕ) (x y : Arg)
  | konst (k : ZMod p)

abbrev Prog (p : ℕ) := List (Call p)

namespace Call
variable {p : ℕ} [Fact p.Prime]

/-- `rows_amount` of the component called. -/
def rows : Call p → ℕ
  | exp es _ _ => Exponentiation.rows es
  | mul pad _ _ => 1 + pad
  | _ => 1

/-- The output variable of the component called. -/
def out (row : ℤ) : Call p → Var
  | add _ _ => Addition.result c3 row
  | sub _ _ => Subtraction.result c3 row
  | mul _ _ _ => Multiplication.result c3 row
  | div _ _ => Division.result c4 row
  | mulc _ _ => MulByConstant.result c2 row
  | exp es _ _ => Exponentiation.out c15 es row
  | konst _ => ⟨0, row, false, .constant⟩

/-- `generate_circuit` of the component called. -/
def ops (f : Arg → Var) (row : ℤ) : Call p → List (Op (ZMod p))
  | add x y => Addition.circuit c3 ⟨f x, f y⟩ row
  | sub x y => Subtraction.circuit c3 ⟨f x, f y⟩ row
  | mul _ x y => Multiplication.circuit c3 ⟨f x, f y⟩ row
  | div x y => Division.circuit c4 ⟨f x, f y⟩ row
  | mulc k x => MulByConstant.circuit c2 k (f x) row
  | exp es x y => Exponentiation.circuit c15 es (f x) (f y) row
  | konst k => [.constant 0 row k]

/-- `generate_assignments` of the component called. -/
def assign (f : Arg → Var) (row : ℤ) (t : Table (ZMod p)) : Call p → Table (ZMod p)
  | add x y => Addition.assign c3 ⟨f x, f y⟩ row t
  | sub x y => Subtraction.assign c3 ⟨f x, f y⟩ row t
  | mul _ x y => Multiplication.assign c3 ⟨f x, f y⟩ row t
  | div x y => Division.assign c4 ⟨f x, f y⟩ row t
  | mulc k x => MulByConstant.assign c2 k (f x) row t
  | exp es x y => Exponentiation.assign c15 es (f x) (f y) row t
  | konst _ => t

end Call

section
variable {p : ℕ} [Fact p.Prime]

/-- The row of call `i`. -/
def rowAt (R : Prog p) (base : ℤ) (i : ℕ) : ℤ := base + ((R.take i).map Call.rows).sum

/-- The variable of an operand. -/
def argVar (R : Prog p) (base : ℤ) : Arg → Var
  | .ext v => v
  | .res i => match R[i]? with
    | some c => c.out (rowAt R base i)
    | none => ⟨0, 0, false, .publicInput⟩

/-- `generate_circuit`. -/
def ops (R : Prog p) (base : ℤ) : List (Op (ZMod p)) :=
  (List.range R.length).flatMap fun i => match R[i]? with
    | some c => c.ops (argVar R base) (rowAt R base i)
    | none => []

/-- `generate_assignments`, the first `n` calls. -/
def assignAt (R : Prog p) (base : ℤ) (t : Table (ZMod p)) : ℕ → Table (ZMod p)
  | 0 => t
  | n + 1 => match R[n]? with
    | some c => c.assign (argVar R base) (rowAt R base n) (assignAt R base t n)
    | none => assignAt R base t n

/-- `generate_assignments`. -/
def assign (R : Prog p) (base : ℤ) (t : Table (ZMod p)) : Table (ZMod p) := assignAt R base t R.length

/-- A component: it appends its calls and returns its result. -/
def Bld (p : ℕ) (α : Type) := Prog p → α × Prog p

instance : Monad (Bld p) where
  pure a := fun P => (a, P)
  bind m f := fun P => f (m P).1 (m P).2

/-- One call. -/
def emit (c : Call p) : Bld p Arg := fun P => (.res P.length, P ++ [c])

/-- `for (i = 0; i < n; i++)`. -/
def loop {α : Type} (f : ℕ → α → Bld p α) (a : α) : ℕ → Bld p α
  | 0 => pure a
  | n + 1 => do
    let b ← loop f a n
    f n b

/-- `generate_circuit` of a component on its own, from row `row` on. -/
def circuitOf {α : Type} (m : Bld p α) (row : ℤ) : List (Op (ZMod p)) := ops (m []).2 row

/-- `generate_assignments` of a component on its own. -/
def assignOf {α : Type} (m : Bld p α) (row : ℤ) (t : Table (ZMod p)) : Table (ZMod p) := assign (m []).2 row t

/-- The result of a component on its own. -/
def resultOf {α : Type} (m : Bld p α) : α := (m []).1

/-- The variable of an operand of a component on its own. -/
def varOf {α : Type} (m : Bld p α) (row : ℤ) (a : Arg) : Var := argVar (m []).2 row a

/-- The number of rows a component takes. -/
def heightOf {α : Type} (m : Bld p α) : ℕ := ((m []).2.map Call.rows).sum

end

end Kimchi
end Verif
