import Verif.Model.Arith
import Verif.Model.Exponentiation

/-!
# Square root

`components/algebra/fields/plonk/sqrt.hpp`: Euler's criterion through the exponentiation component, then a chain of
one-row arithmetic components whose last output is copied to a zero constant. The exponent size (256 there) stays a
parameter. The field's own `sqrt()` is not part of the repository and is a parameter `sq`.
-/

namespace Verif
namespace Sqrt
variable {F : Type*} [Field F]

/-- The arithmetic sub-components, sqrt.hpp:96-101. -/
inductive Kind
  | add | sub | mul
  deriving DecidableEq

/-- `generate_circuit` of a sub-component. -/
def Kind.circuit (k : Kind) (c : Cols) (inp : In2) (srow : ℤ) : List (Op F) :=
  match k with
  | .add => Addition.circuit c inp srow
  | .sub => Subtraction.circuit c inp srow
  | .mul => Multiplication.circuit c inp srow

/-- `generate_assignments` of a sub-component. -/
def Kind.assign (k : Kind) (c : Cols) (inp : In2) (srow : ℤ) (t : Table F) : Table F :=
  match k with
  | .add => Addition.assign c inp srow t
  | .sub => Subtraction.assign c inp srow t
  | .mul => Multiplication.assign c inp srow t

/-- Sub-components on consecutive rows (`row += ..._rows_amount`, each is 1). -/
def chainCircuit (c : Cols) : List (Kind × In2) → ℤ → List (Op F)
  | [], _ => []
  | (k, inp) :: l, row => k.circuit c inp row ++ chainCircuit c l (row + 1)

/-- The same for assignments. -/
def chainAssign (c : Cols) : List (Kind × In2) → ℤ → Table F → Table F
  | [], _, t => t
  | (k, inp) :: l, row, t => chainAssign c l (row + 1) (k.assign c inp row t)

/-- `{W(0), W(1), W(2)}, {}, {}`, sqrt.hpp:221, 227, 232. -/
def c3 (c : Cols) : Cols := ⟨[c.w 0, c.w 1, c.w 2], [], []⟩

/-- sqrt.hpp:202-204; constant column 0 is used whatever `C(0)` is. -/
def expVar (srow : ℤ) : Var := ⟨0, srow, false, .constant⟩
def zeroVar (srow : ℤ) : Var := ⟨0, srow + 1, false, .constant⟩
def oneVar (srow : ℤ) : Var := ⟨0, srow + 2, false, .constant⟩

/-- Row of the first multiplication, sqrt.hpp:206, 219. -/
def xRow (es : ℕ) (srow : ℤ) : ℤ := srow + 3 + Exponentiation.rows es

/-- Rows, sqrt.hpp:59-92. -/
def rows (es : ℕ) : ℕ := 3 + Exponentiation.rows es + 13

/-- The chain after `x * x` (sqrt.hpp:227-263 and 326-360); `r i` is the output of the sub-component on row `rx + i`. -/
def steps (c : Cols) (y q x one : Var) (rx : ℤ) : List (Kind × In2) :=
  let r : ℤ → Var := fun i => (c3 c).wa 2 (rx + i)
  [(.add, ⟨q, one⟩), (.sub, ⟨y, r 0⟩), (.mul, ⟨q, r 1⟩), (.mul, ⟨r 3, r 2⟩),
   (.sub, ⟨one, q⟩), (.add, ⟨x, one⟩), (.mul, ⟨q, r 5⟩), (.mul, ⟨r 7, r 6⟩),
   (.mul, ⟨r 5, r 1⟩), (.mul, ⟨r 9, r 0⟩), (.add, ⟨r 4, r 8⟩), (.add, ⟨r 11, r 10⟩)]

/-- `generate_circuit`, sqrt.hpp:184-272 with 368-402. `half` is `(modulus - 1) / 2`. -/
def circuit (c : Cols) (es : ℕ) (half : F) (y : Var) (srow : ℤ) : List (Op F) :=
  let rx := xRow es srow
  let x := c.wa 0 rx
  Exponentiation.circuit c es y (expVar srow) (srow + 3) ++
  Multiplication.circuit (c3 c) ⟨x, x⟩ rx ++
  chainCircuit (c3 c) (steps c y (Exponentiation.out c es (srow + 3)) x (oneVar srow) rx) (rx + 1) ++
  [.copy (zeroVar srow) (c.wa 2 (srow + rows es - 1)),
   .constant (c.k 0) srow half, .constant (c.k 0) (srow + 1) 0, .constant (c.k 0) (srow + 2) 1]

/-- `result_type`, sqrt.hpp:148-157. -/
def out (c : Cols) (es : ℕ) (srow : ℤ) : Var := c.wa 0 (xRow es srow)

/-- The arithmetic part of `generate_assignments`, sqrt.hpp:320-360; here `x` is read from table column 0 (321). -/
def tailAssign (c : Cols) (es : ℕ) (y : Var) (srow : ℤ) (t : Table F) : Table F :=
  let rx := xRow es srow
  let x : Var := ⟨0, rx, false, .witness⟩
  chainAssign (c3 c) (steps c y (Exponentiation.out c es (srow + 3)) x (oneVar srow) rx) (rx + 1)
    (Multiplication.assign (c3 c) ⟨x, x⟩ rx t)

/-- `generate_assignments`, sqrt.hpp:276-365 (the `assert(false)` branch writes nothing). -/
def assign {p : ℕ} [Fact p.Prime] (c : Cols) (es : ℕ) (sq : ZMod p → ZMod p) (y : Var) (srow : ℤ)
    (t : Table (ZMod p)) : Table (ZMod p) :=
  let t1 := Exponentiation.assign c es y (expVar srow) (srow + 3) t
  let q := (Exponentiation.out c es (srow + 3)).value t1
  let t2 := if q = 0 ∨ q = 1 then t1.set .witness (c.w 0) (xRow es srow) (sq (y.value t1))
    else if q = -1 then t1.set .witness (c.w 0) (xRow es srow) (-1) else t1
  tailAssign c es y srow t2

end Sqrt
end Verif
