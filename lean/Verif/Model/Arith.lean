import Verif.Core.Table

/-!
# Model of the one-row arithmetic components

`components/algebra/fields/plonk/{addition,subtraction,multiplication,division,division_or_zero,
multiplication_by_constant}.hpp`.

For each component: `circuit` is `generate_circuit` (gate, selector rows, copy constraints, constants),
`assign` is `generate_assignments` (cell writes in program order, each input re-read from the current
table as the code does), `result` is `result_type`, `calculate` is the static `calculate`, and
`emptyAssign` is `generate_empty_assignments`.
-/

namespace Verif

/-- `input_type { var x, y; }` of the binary components. -/
structure In2 where
  x : Var
  y : Var

namespace Addition
variable {F : Type*} [Field F]
/-- addition.hpp:191-193 (gate), 209-212 (copy constraints), 224-228. -/
def circuit (c : Cols) (inp : In2) (srow : ℤ) : List (Op F) :=
  [.gate [c.wv 0 + c.wv 1 - c.wv 2] [srow],
   .copy inp.x (c.wa 0 srow),
   .copy (c.wa 1 srow) inp.y]
/-- addition.hpp:156-159. -/
def assign (c : Cols) (inp : In2) (srow : ℤ) (t0 : Table F) : Table F :=
  let t1 := t0.set .witness (c.w 0) srow (inp.x.value t0)
  let t2 := t1.set .witness (c.w 1) srow (inp.y.value t1)
  t2.set .witness (c.w 2) srow (inp.x.value t2 + inp.y.value t2)
/-- addition.hpp:109. -/
def result (c : Cols) (srow : ℤ) : Var := c.wa 2 srow
/-- addition.hpp:134-137. -/
def calculate (x y : F) : F := x + y
/-- addition.hpp:175-176. -/
def emptyAssign (c : Cols) (inp : In2) (srow : ℤ) (t : Table F) : Table F :=
  t.set .witness (c.w 2) srow (calculate (inp.x.value t) (inp.y.value t))
end Addition

namespace Subtraction
variable {F : Type*} [Field F]
/-- subtraction.hpp:191-193, 209-212, 225-229. -/
def circuit (c : Cols) (inp : In2) (srow : ℤ) : List (Op F) :=
  [.gate [c.wv 0 - c.wv 1 - c.wv 2] [srow],
   .copy inp.x (c.wa 0 srow),
   .copy (c.wa 1 srow) inp.y]
/-- subtraction.hpp:155-158. -/
def assign (c : Cols) (inp : In2) (srow : ℤ) (t0 : Table F) : Table F :=
  let t1 := t0.set .witness (c.w 0) srow (inp.x.value t0)
  let t2 := t1.set .witness (c.w 1) srow (inp.y.value t1)
  t2.set .witness (c.w 2) srow (inp.x.value t2 - inp.y.value t2)
/-- subtraction.hpp:108. -/
def result (c : Cols) (srow : ℤ) : Var := c.wa 2 srow
/-- subtraction.hpp:133-136. -/
def calculate (x y : F) : F := x - y
/-- subtraction.hpp:174-175. -/
def emptyAssign (c : Cols) (inp : In2) (srow : ℤ) (t : Table F) : Table F :=
  t.set .witness (c.w 2) srow (calculate (inp.x.value t) (inp.y.value t))
end Subtraction

namespace Multiplication
variable {F : Type*} [Field F]
/-- multiplication.hpp:194-196, 212-215 (copies are skipped when the input already is the cell),
228-232. -/
def circuit (c : Cols) (inp : In2) (srow : ℤ) : List (Op F) :=
  .gate [c.wv 0 * c.wv 1 - c.wv 2] [srow] ::
  ((if inp.x ≠ c.wa 0 srow then [.copy inp.x (c.wa 0 srow)] else []) ++
   (if inp.y ≠ c.wa 1 srow then [.copy (c.wa 1 srow) inp.y] else []))
/-- multiplication.hpp:157-160. -/
def assign (c : Cols) (inp : In2) (srow : ℤ) (t0 : Table F) : Table F :=
  let t1 := t0.set .witness (c.w 0) srow (inp.x.value t0)
  let t2 := t1.set .witness (c.w 1) srow (inp.y.value t1)
  t2.set .witness (c.w 2) srow (inp.x.value t2 * inp.y.value t2)
/-- multiplication.hpp:109. -/
def result (c : Cols) (srow : ℤ) : Var := c.wa 2 srow
/-- multiplication.hpp:134-137. -/
def calculate (x y : F) : F := x * y
/-- multiplication.hpp:177-178. -/
def emptyAssign (c : Cols) (inp : In2) (srow : ℤ) (t : Table F) : Table F :=
  t.set .witness (c.w 2) srow (calculate (inp.x.value t) (inp.y.value t))
end Multiplication

namespace Division
variable {F : Type*} [Field F]
/-- division.hpp:190-193, 208-211, 223-227. -/
def circuit (c : Cols) (inp : In2) (srow : ℤ) : List (Op F) :=
  [.gate [c.wv 1 * c.wv 2 - c.wv 0, c.wv 1 * c.wv 3 - 1] [srow],
   .copy inp.x (c.wa 0 srow),
   .copy (c.wa 1 srow) inp.y]
/-- division.hpp:153-157. (`0.inversed()` is not defined in the code; Lean's `0⁻¹ = 0` is only used
in completeness under the hypothesis that the divisor is non-zero.) -/
def assign (c : Cols) (inp : In2) (srow : ℤ) (t0 : Table F) : Table F :=
  let t1 := t0.set .witness (c.w 0) srow (inp.x.value t0)
  let t2 := t1.set .witness (c.w 1) srow (inp.y.value t1)
  let t3 := t2.set .witness (c.w 2) srow (inp.x.value t2 / inp.y.value t2)
  t3.set .witness (c.w 3) srow (inp.y.value t3)⁻¹
/-- division.hpp:108. -/
def result (c : Cols) (srow : ℤ) : Var := c.wa 2 srow
/-- division.hpp:132-135. -/
def calculate (x y : F) : F := x / y
/-- division.hpp:173-174. -/
def emptyAssign (c : Cols) (inp : In2) (srow : ℤ) (t : Table F) : Table F :=
  t.set .witness (c.w 2) srow (calculate (inp.x.value t) (inp.y.value t))
end Division

namespace DivisionOrZero
variable {F : Type*} [Field F] [DecidableEq F]
/-- division_or_zero.hpp:192-197, 211-214, 226-230. -/
def circuit (c : Cols) (inp : In2) (srow : ℤ) : List (Op F) :=
  [.gate [c.wv 1 * c.wv 3 - c.wv 4,
          c.wv 4 * (c.wv 4 - 1),
          (c.wv 3 - c.wv 1) * (c.wv 4 - 1),
          c.wv 0 * c.wv 3 - c.wv 2] [srow],
   .copy inp.x (c.wa 0 srow),
   .copy (c.wa 1 srow) inp.y]
/-- division_or_zero.hpp:153-163. -/
def assign (c : Cols) (inp : In2) (srow : ℤ) (t0 : Table F) : Table F :=
  let t1 := t0.set .witness (c.w 0) srow (inp.x.value t0)
  let t2 := t1.set .witness (c.w 1) srow (inp.y.value t1)
  let t3 := t2.set .witness (c.w 2) srow
    (if inp.y.value t2 ≠ 0 then inp.x.value t2 * (inp.y.value t2)⁻¹ else 0)
  let t4 := t3.set .witness (c.w 3) srow (if inp.y.value t3 = 0 then 0 else (inp.y.value t3)⁻¹)
  t4.set .witness (c.w 4) srow (inp.y.value t4 * t4 .witness (c.w 3) srow)
/-- division_or_zero.hpp:106. -/
def result (c : Cols) (srow : ℤ) : Var := c.wa 2 srow
/-- division_or_zero.hpp:132-135. -/
def calculate (x y : F) : F := if y = 0 then 0 else x * y⁻¹
/-- division_or_zero.hpp:177-178. -/
def emptyAssign (c : Cols) (inp : In2) (srow : ℤ) (t : Table F) : Table F :=
  t.set .witness (c.w 2) srow (calculate (inp.x.value t) (inp.y.value t))
end DivisionOrZero

namespace MulByConstant
variable {F : Type*} [Field F]
/-- multiplication_by_constant.hpp:184-187 (the gate reads constant column **0**), 201-202, 214-219,
234 (the constant is written to column `C(0)`). -/
def circuit (c : Cols) (k : F) (x : Var) (srow : ℤ) : List (Op F) :=
  [.gate [c.wv 0 * .var ⟨0, 0, true, .constant⟩ - c.wv 1] [srow],
   .copy x (c.wa 0 srow),
   .constant (c.k 0) srow k]
/-- multiplication_by_constant.hpp:154-156. -/
def assign (c : Cols) (k : F) (x : Var) (srow : ℤ) (t0 : Table F) : Table F :=
  let t1 := t0.set .witness (c.w 0) srow (x.value t0)
  t1.set .witness (c.w 1) srow (k * x.value t1)
/-- multiplication_by_constant.hpp:108. -/
def result (c : Cols) (srow : ℤ) : Var := c.wa 1 srow
/-- multiplication_by_constant.hpp:133-136. -/
def calculate (x k : F) : F := x * k
end MulByConstant

end Verif
