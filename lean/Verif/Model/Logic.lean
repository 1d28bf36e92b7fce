import Verif.Model.Arith

/-!
# Flag, boolean and interpolation components

`components/algebra/fields/plonk/{logic_and_flag,logic_or_flag,linear_interpolation,
quadratic_interpolation}.hpp`, `.../non_native/{equality_flag,logic_ops}.hpp`,
`.../non_native/detail/boolean_op_component.hpp`.
-/

namespace Verif

namespace LogicAndFlag
variable {F : Type*} [Field F] [DecidableEq F]
/-- logic_and_flag.hpp:60-62. -/
def rows (w : ℕ) : ℕ := if w = 2 then 3 else if w < 5 then 2 else 1
/-- logic_and_flag.hpp:243: `-1` for the three-row layout (the gate sits on the middle row). -/
def offset (w : ℕ) : ℤ := if rows w = 3 then -1 else 0
/-- The gate variable of the `k`-th value: `wl[k]` of logic_and_flag.hpp:246-261. -/
def gv (c : Cols) (w k : ℕ) : Expr F := c.wv ((k % w : ℕ)) ((k / w : ℕ) + offset w)
/-- logic_and_flag.hpp:262. -/
def fv (c : Cols) (w : ℕ) : Expr F := c.wv ((w - 1 : ℕ)) (offset w + rows w - 1)
/-- logic_and_flag.hpp:264-269 (gate), 286-287 (copies), 301-305. -/
def circuit (c : Cols) (w : ℕ) (inp : In2) (srow : ℤ) : List (Op F) :=
  let x := gv c w 0
  let y := gv c w 1
  let p := gv c w 2
  let v := gv c w 3
  let f := fv c w
  [.gate [p - x * y, f * (f - 1), f - p * v, (v - p) * (f - 1)]
      [srow + (if rows w = 3 then 1 else 0)],
   .copy (c.wa 0 srow) inp.x,
   .copy (c.wa 1 srow) inp.y]
/-- The array `t` of logic_and_flag.hpp:189-194. -/
def vals (x y : F) : ℕ → F
  | 0 => x
  | 1 => y
  | 2 => x * y
  | 3 => if x * y = 0 then x * y else (x * y)⁻¹
  | _ => (if x * y = 0 then x * y else (x * y)⁻¹) * (x * y)
/-- logic_and_flag.hpp:196-206. -/
def writes (c : Cols) (w : ℕ) (srow : ℤ) (x y : F) : List (Write F) :=
  ((List.range (rows w)).flatMap fun i => (List.range w).flatMap fun j =>
    if i * w + j < 5 then [⟨.witness, c.w j, srow + i, vals x y (i * w + j)⟩] else []) ++
  [⟨.witness, c.w ((w - 1 : ℕ)), srow + rows w - 1, vals x y 4⟩]
/-- logic_and_flag.hpp:186-211. -/
def assign (c : Cols) (w : ℕ) (inp : In2) (srow : ℤ) (t : Table F) : Table F :=
  writeAll (writes c w srow (inp.x.value t) (inp.y.value t)) t
/-- logic_and_flag.hpp:126-128. -/
def result (c : Cols) (w : ℕ) (srow : ℤ) : Var := c.wa ((w - 1 : ℕ)) (srow + rows w - 1)
/-- logic_and_flag.hpp:130-134, the result of a skipped component. -/
def emptyResult (c : Cols) (srow : ℤ) : Var := c.wa 0 srow
/-- logic_and_flag.hpp:158-169. -/
def calculate (x y : F) : F := vals x y 4
/-- logic_and_flag.hpp:224-225. -/
def emptyAssign (c : Cols) (inp : In2) (srow : ℤ) (t : Table F) : Table F :=
  t.set .witness (c.w 0) srow (calculate (inp.x.value t) (inp.y.value t))
end LogicAndFlag

namespace LogicOrFlag
variable {F : Type*} [Field F] [DecidableEq F]
/-- logic_or_flag.hpp:64-66. -/
def rows (w : ℕ) : ℕ := if w ≤ 4 then 6 - w else if w < 7 then 2 else 1
/-- logic_or_flag.hpp:258. -/
def offset (w : ℕ) : ℤ := if 3 ≤ rows w then -1 else 0
/-- `wl[k]` of logic_or_flag.hpp:261-277. -/
def gv (c : Cols) (w k : ℕ) : Expr F := c.wv ((k % w : ℕ)) ((k / w : ℕ) + offset w)
/-- logic_or_flag.hpp:278. -/
def fv (c : Cols) (w : ℕ) : Expr F := c.wv ((w - 1 : ℕ)) (offset w + rows w - 1)
/-- Constraints 1-6 (logic_or_flag.hpp:280-287). -/
def flagConstraints (c : Cols) (w : ℕ) : List (Expr F) :=
  let x := gv c w 0
  let y := gv c w 1
  let vx := gv c w 2
  let vy := gv c w 3
  let fx := gv c w 4
  let fy := gv c w 5
  [fx - x * vx, fy - y * vy, fx * (fx - 1), fy * (fy - 1), (vx - x) * (fx - 1), (vy - y) * (fy - 1)]
/-- logic_or_flag.hpp:280-301 (gates), 319-320 (copies), 335-347. -/
def circuit (c : Cols) (w : ℕ) (inp : In2) (srow : ℤ) : List (Op F) :=
  (if w = 2 then
    let fx := c.wv ((4 % w : ℕ)) 0
    let fy := c.wv ((5 % w : ℕ)) 0
    let f := c.wv ((w - 1 : ℕ)) 1
    [.gate (flagConstraints c w) [srow + 1], .gate [f - fx - fy + fx * fy] [srow + 2]]
  else
    let fx := gv c w 4
    let fy := gv c w 5
    let f := fv c w
    [.gate (flagConstraints c w ++ [f - fx - fy + fx * fy]) [srow + (if 3 ≤ rows w then 1 else 0)]]) ++
  [.copy (c.wa 0 srow) inp.x, .copy (c.wa 1 srow) inp.y]
/-- `t.is_zero() ? t : t.inversed()`. -/
def invOrZero (x : F) : F := if x = 0 then x else x⁻¹
/-- The array `t` of logic_or_flag.hpp:200-208. -/
def vals (x y : F) : ℕ → F
  | 0 => x
  | 1 => y
  | 2 => invOrZero x
  | 3 => invOrZero y
  | 4 => x * invOrZero x
  | 5 => y * invOrZero y
  | _ => x * invOrZero x + y * invOrZero y - x * invOrZero x * (y * invOrZero y)
/-- logic_or_flag.hpp:210-218. -/
def writes (c : Cols) (w : ℕ) (srow : ℤ) (x y : F) : List (Write F) :=
  ((List.range (rows w)).flatMap fun i => (List.range w).map fun j =>
    ⟨.witness, c.w j, srow + i, vals x y ((i * w + j) % 7)⟩) ++
  [⟨.witness, c.w ((w - 1 : ℕ)), srow + rows w - 1, vals x y 6⟩]
/-- logic_or_flag.hpp:197-222. -/
def assign (c : Cols) (w : ℕ) (inp : In2) (srow : ℤ) (t : Table F) : Table F :=
  writeAll (writes c w srow (inp.x.value t) (inp.y.value t)) t
/-- logic_or_flag.hpp:134-136. -/
def result (c : Cols) (w : ℕ) (srow : ℤ) : Var := c.wa ((w - 1 : ℕ)) (srow + rows w - 1)
/-- logic_or_flag.hpp:138-142. -/
def emptyResult (c : Cols) (srow : ℤ) : Var := c.wa 0 srow
/-- logic_or_flag.hpp:166-179. -/
def calculate (x y : F) : F := vals x y 6
/-- logic_or_flag.hpp:236-238. -/
def emptyAssign (c : Cols) (inp : In2) (srow : ℤ) (t : Table F) : Table F :=
  t.set .witness (c.w 0) srow (calculate (inp.x.value t) (inp.y.value t))
end LogicOrFlag

namespace EqualityFlag
variable {F : Type*} [Field F] [DecidableEq F]
/-- equality_flag.hpp:183-194 (gate), 208-211 (copies), 223-227. `ineq` is the `inequality` flag. -/
def circuit (c : Cols) (ineq : Bool) (inp : In2) (srow : ℤ) : List (Op F) :=
  let x := c.wv 0
  let y := c.wv 1
  let inv := c.wv 2
  let r := c.wv 3
  [.gate [r * (r - 1),
          (x - y) * inv + (if ineq then 0 - r else r - 1),
          (inv - (x - y)) * (if ineq then r - 1 else r)] [srow],
   .copy inp.x (c.wa 0 srow),
   .copy inp.y (c.wa 1 srow)]
/-- equality_flag.hpp:156-167. -/
def assign (c : Cols) (ineq : Bool) (inp : In2) (srow : ℤ) (t : Table F) : Table F :=
  let x := inp.x.value t
  let y := inp.y.value t
  writeAll
    [⟨.witness, c.w 0, srow, x⟩, ⟨.witness, c.w 1, srow, y⟩,
     ⟨.witness, c.w 2, srow, if x = y then 0 else (x - y)⁻¹⟩,
     ⟨.witness, c.w 3, srow, if (if x = y then !ineq else ineq) then 1 else 0⟩] t
/-- equality_flag.hpp:108. -/
def result (c : Cols) (srow : ℤ) : Var := c.wa 3 srow
end EqualityFlag

/-- A boolean operation: number of arguments, constraint and value (boolean_op_component.hpp:81-84). -/
structure BoolOp (F : Type*) where
  args : ℕ
  constraint : (ℕ → Expr F) → Expr F
  value : (ℕ → F) → F

namespace BoolOp
variable {F : Type*} [Field F] [DecidableEq F]
/-- boolean_op_component.hpp:185-190 (gate), 209-214 (copies), 234-238. -/
def circuit (op : BoolOp F) (c : Cols) (inp : ℕ → Var) (srow : ℤ) : List (Op F) :=
  .gate [op.constraint fun i => c.wv i] [srow] ::
  (List.range op.args).map fun i => .copy (inp i) (c.wa i srow)
/-- The input loop of boolean_op_component.hpp:159-164. -/
def load (c : Cols) (inp : ℕ → Var) (srow : ℤ) (t : Table F) : ℕ → Table F × (ℕ → F)
  | 0 => (t, fun _ => 0)
  | n + 1 =>
    let r := load c inp srow t n
    let v := (inp n).value r.1
    (r.1.set .witness (c.w n) srow v, Function.update r.2 n v)
/-- boolean_op_component.hpp:159-167. -/
def assign (op : BoolOp F) (c : Cols) (inp : ℕ → Var) (srow : ℤ) (t : Table F) : Table F :=
  let r := load c inp srow t op.args
  r.1.set .witness (c.w op.args) srow (op.value r.2)
/-- boolean_op_component.hpp:106. -/
def result (op : BoolOp F) (c : Cols) (srow : ℤ) : Var := c.wa op.args srow

/-- logic_ops.hpp:87-94. -/
def lnot : BoolOp F := ⟨1, fun w => 1 - w 0 - w 1, fun v => 1 - v 0⟩
/-- logic_ops.hpp:155-162. -/
def land : BoolOp F := ⟨2, fun w => w 2 - w 0 * w 1, fun v => v 0 * v 1⟩
/-- logic_ops.hpp:223-230. -/
def lor : BoolOp F := ⟨2, fun w => w 2 - (w 0 + w 1 - w 0 * w 1), fun v => v 0 + v 1 - v 0 * v 1⟩
/-- logic_ops.hpp:291-298. -/
def lxor : BoolOp F :=
  ⟨2, fun w => w 2 - (w 0 + w 1 - 2 * w 0 * w 1), fun v => v 0 + v 1 - 2 * v 0 * v 1⟩
/-- logic_ops.hpp:361-368. -/
def lnand : BoolOp F := ⟨2, fun w => w 2 - (1 - w 0 * w 1), fun v => 1 - v 0 * v 1⟩
/-- logic_ops.hpp:428-435. -/
def lnor : BoolOp F :=
  ⟨2, fun w => w 2 - (1 - (w 0 + w 1 - w 0 * w 1)), fun v => 1 - (v 0 + v 1 - v 0 * v 1)⟩
/-- logic_ops.hpp:495-502. -/
def select : BoolOp F :=
  ⟨3, fun w => w 3 - (w 0 * w 1 + (1 - w 0) * w 2), fun v => if v 0 = 0 then v 2 else v 1⟩
end BoolOp

/-- `input_type` of the linear interpolation. -/
structure InLin where
  x0 : Var
  z0 : Var
  x1 : Var
  z1 : Var

namespace LinearInter
variable {F : Type*} [Field F] [DecidableEq F]
/-- linear_interpolation.hpp:174-182 (gate), 196-199 (copies), 211-213. -/
def circuit (c : Cols) (i : InLin) (srow : ℤ) : List (Op F) :=
  let X0 := c.wv 0
  let Z0 := c.wv 1
  let X1 := c.wv 2
  let Z1 := c.wv 3
  let A0 := c.wv 4
  let A1 := c.wv 5
  let I := c.wv 6
  [.gate [A1 * X0 + A0 - Z0, A1 * X1 + A0 - Z1, (X1 - X0) * I - 1] [srow],
   .copy (c.wa 0 srow) i.x0, .copy (c.wa 1 srow) i.z0, .copy (c.wa 2 srow) i.x1,
   .copy (c.wa 3 srow) i.z1]
/-- linear_interpolation.hpp:141-159. -/
def assign (c : Cols) (i : InLin) (srow : ℤ) (t : Table F) : Table F :=
  let x0 := i.x0.value t
  let z0 := i.z0.value t
  let x1 := i.x1.value t
  let z1 := i.z1.value t
  writeAll
    ([⟨.witness, c.w 0, srow, x0⟩, ⟨.witness, c.w 1, srow, z0⟩, ⟨.witness, c.w 2, srow, x1⟩,
      ⟨.witness, c.w 3, srow, z1⟩] ++
     if x0 ≠ x1 then
       [⟨.witness, c.w 4, srow, (x1 * z0 - x0 * z1) * (x1 - x0)⁻¹⟩,
        ⟨.witness, c.w 5, srow, (z1 - z0) * (x1 - x0)⁻¹⟩, ⟨.witness, c.w 6, srow, (x1 - x0)⁻¹⟩]
     else [⟨.witness, c.w 4, srow, 0⟩, ⟨.witness, c.w 5, srow, 0⟩, ⟨.witness, c.w 6, srow, 0⟩]) t
/-- linear_interpolation.hpp:97-98. -/
def result (c : Cols) (srow : ℤ) : Var × Var := (c.wa 4 srow, c.wa 5 srow)
end LinearInter

/-- `input_type` of the quadratic interpolation. -/
structure InQuad where
  x0 : Var
  z0 : Var
  x1 : Var
  z1 : Var
  x2 : Var
  z2 : Var

namespace QuadraticInter
variable {F : Type*} [Field F] [DecidableEq F]
/-- quadratic_interpolation.hpp:42-46, row-major 3x3 determinant. -/
def det3 (a0 a1 a2 a3 a4 a5 a6 a7 a8 : F) : F :=
  a0 * a4 * a8 + a1 * a5 * a6 + a2 * a3 * a7 - a2 * a4 * a6 - a0 * a5 * a7 - a1 * a3 * a8
/-- quadratic_interpolation.hpp:201-215 (gate), 229-234 (copies), 246-248. -/
def circuit (c : Cols) (i : InQuad) (srow : ℤ) : List (Op F) :=
  let X0 := c.wv 0
  let Z0 := c.wv 1
  let X1 := c.wv 2
  let Z1 := c.wv 3
  let X2 := c.wv 4
  let Z2 := c.wv 5
  let A0 := c.wv 6
  let A1 := c.wv 7
  let A2 := c.wv 8
  let I := c.wv 9
  [.gate [A2 * X0 * X0 + A1 * X0 + A0 - Z0, A2 * X1 * X1 + A1 * X1 + A0 - Z1,
          A2 * X2 * X2 + A1 * X2 + A0 - Z2, (X1 - X0) * (X2 - X0) * (X2 - X1) * I - 1] [srow],
   .copy (c.wa 0 srow) i.x0, .copy (c.wa 1 srow) i.z0, .copy (c.wa 2 srow) i.x1,
   .copy (c.wa 3 srow) i.z1, .copy (c.wa 4 srow) i.x2, .copy (c.wa 5 srow) i.z2]
/-- quadratic_interpolation.hpp:154-186. -/
def assign (c : Cols) (i : InQuad) (srow : ℤ) (t : Table F) : Table F :=
  let x0 := i.x0.value t
  let z0 := i.z0.value t
  let x1 := i.x1.value t
  let z1 := i.z1.value t
  let x2 := i.x2.value t
  let z2 := i.z2.value t
  let d := (x1 - x0) * (x2 - x0) * (x2 - x1)
  writeAll
    ([⟨.witness, c.w 0, srow, x0⟩, ⟨.witness, c.w 1, srow, z0⟩, ⟨.witness, c.w 2, srow, x1⟩,
      ⟨.witness, c.w 3, srow, z1⟩, ⟨.witness, c.w 4, srow, x2⟩, ⟨.witness, c.w 5, srow, z2⟩] ++
     if d ≠ 0 then
       [⟨.witness, c.w 6, srow, det3 z0 x0 (x0 * x0) z1 x1 (x1 * x1) z2 x2 (x2 * x2) * d⁻¹⟩,
        ⟨.witness, c.w 7, srow, det3 1 z0 (x0 * x0) 1 z1 (x1 * x1) 1 z2 (x2 * x2) * d⁻¹⟩,
        ⟨.witness, c.w 8, srow, det3 1 x0 z0 1 x1 z1 1 x2 z2 * d⁻¹⟩,
        ⟨.witness, c.w 9, srow, d⁻¹⟩]
     else [⟨.witness, c.w 6, srow, 0⟩, ⟨.witness, c.w 7, srow, 0⟩, ⟨.witness, c.w 8, srow, 0⟩,
           ⟨.witness, c.w 9, srow, 0⟩]) t
/-- quadratic_interpolation.hpp:109-111. -/
def result (c : Cols) (srow : ℤ) : Var × Var × Var := (c.wa 6 srow, c.wa 7 srow, c.wa 8 srow)
end QuadraticInter

end Verif
