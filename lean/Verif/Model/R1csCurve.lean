import Verif.Model.R1csSha256

/-!
# r1cs components for points of Montgomery and twisted Edwards curves

`include/nil/blueprint/components/algebra/curves/montgomery/element_g1.hpp`,
`include/nil/blueprint/components/algebra/curves/twisted_edwards/element_g1.hpp`.

The parameters of the curves (`A`, `a`, `d`) and the square root in the constructor of the converter come from the algebra library and are arguments here.
-/

namespace Verif
namespace R1cs
namespace Curve

section
variable {F : Type*} [Field F]

/-- `element_g1` in affine coordinates (`element_g1_affine.hpp:51-95`): two linear combinations. -/
structure Pt (F : Type*) where
  X : Lc F
  Y : Lc F

/-- A point of two variables (`element_g1_affine.hpp:71-79`). -/
def Pt.vars (x y : ℕ) : Pt F := ⟨Lc.var x, Lc.var y⟩

/-- The values of the coordinates. -/
def Pt.eval (s : Asg F) (P : Pt F) : F × F := (P.X.eval s, P.Y.eval s)

/-! ### Montgomery addition -/

/-- `element_g1_addition` for the Montgomery form (`montgomery/element_g1.hpp:46-87`); `x`, `y` are the variables of the result. -/
structure MontAdd (F : Type*) where
  p1 : Pt F
  p2 : Pt F
  x : ℕ
  y : ℕ
  lambda : ℕ

/-- `generate_gates` (`montgomery/element_g1.hpp:89-101`). -/
def MontAdd.gates (A : F) (k : MontAdd F) : List (Constraint F) :=
  [⟨k.p2.X.sub k.p1.X, Lc.var k.lambda, k.p2.Y.sub k.p1.Y⟩,
    ⟨Lc.var k.lambda, Lc.var k.lambda, (((Lc.const A).add k.p1.X).add k.p2.X).add (Lc.var k.x)⟩,
    ⟨k.p1.X.sub (Lc.var k.x), Lc.var k.lambda, (Lc.var k.y).add k.p1.Y⟩]

/-- `generate_assignments` (103-115). `p1.X ≠ p2.X` is a precondition of `inversed`. -/
def MontAdd.steps (A : F) (k : MontAdd F) : List (Step F) :=
  [(k.lambda, fun s => (k.p2.Y.eval s - k.p1.Y.eval s) * (k.p2.X.eval s - k.p1.X.eval s)⁻¹),
    (k.x, fun s => val s k.lambda ^ 2 - A - k.p1.X.eval s - k.p2.X.eval s),
    (k.y, fun s => -(k.p1.Y.eval s + val s k.lambda * (val s k.x - k.p1.X.eval s)))]

/-! ### Conversion to the twisted Edwards form -/

/-- `element_g1_to_twisted_edwards` (`montgomery/element_g1.hpp:121-166`). -/
structure Convert (F : Type*) where
  p : Pt F
  x : ℕ
  y : ℕ

/-- `generate_gates` (168-175); `scale` is the square root of `4 / (a - d) / B` (149-153). -/
def Convert.gates (scale : F) (k : Convert F) : List (Constraint F) :=
  [⟨k.p.Y, Lc.var k.x, Lc.smul scale k.p.X⟩, ⟨k.p.X.add (Lc.const 1), Lc.var k.y, k.p.X.sub (Lc.const 1)⟩]

/-- `generate_assignments` (177-183). `to_twisted_edwards` of the algebra library is taken to compute the two quotients. -/
def Convert.steps (scale : F) (k : Convert F) : List (Step F) :=
  [(k.x, fun s => scale * k.p.X.eval s * (k.p.Y.eval s)⁻¹), (k.y, fun s => (k.p.X.eval s - 1) * (k.p.X.eval s + 1)⁻¹)]

/-! ### Twisted Edwards addition -/

/-- `element_g1_addition` for the twisted Edwards form (`twisted_edwards/element_g1.hpp:46-116`): `base` is the first of the seven intermediate variables in
the order of `init` (81-87). -/
structure EdAdd (F : Type*) where
  p1 : Pt F
  p2 : Pt F
  x : ℕ
  y : ℕ
  base : ℕ

namespace EdAdd
variable (k : EdAdd F)

/-- `X1X2`. -/
def x1x2 : ℕ := k.base
/-- `X1Y2`. -/
def x1y2 : ℕ := k.base + 1
/-- `Y1Y2`. -/
def y1y2 : ℕ := k.base + 2
/-- `Y1X2`. -/
def y1x2 : ℕ := k.base + 3
/-- `X1X2Y1Y2`. -/
def prod : ℕ := k.base + 4
/-- `dX1X2Y1Y2`. -/
def dprod : ℕ := k.base + 5
/-- `aX1X2`. -/
def ax1x2 : ℕ := k.base + 6

/-- `generate_gates` (118-143). -/
def gates (a d : F) : List (Constraint F) :=
  [⟨k.p1.Y, k.p2.X, Lc.var k.y1x2⟩, ⟨k.p1.X, k.p2.Y, Lc.var k.x1y2⟩, ⟨k.p1.X, k.p2.X, Lc.var k.x1x2⟩, ⟨k.p1.Y, k.p2.Y, Lc.var k.y1y2⟩,
    ⟨Lc.var k.x1x2, Lc.var k.y1y2, Lc.var k.prod⟩, ⟨Lc.const d, Lc.var k.prod, Lc.var k.dprod⟩, ⟨Lc.const a, Lc.var k.x1x2, Lc.var k.ax1x2⟩,
    ⟨Lc.var k.y, [(0, 1), (k.dprod, -1)], [(k.y1y2, 1), (k.ax1x2, -1)]⟩, ⟨Lc.var k.x, [(0, 1), (k.dprod, 1)], [(k.x1y2, 1), (k.y1x2, 1)]⟩]

/-- `generate_assignments` (145-168). -/
def steps (a d : F) : List (Step F) :=
  [(k.x1x2, fun s => k.p1.X.eval s * k.p2.X.eval s), (k.x1y2, fun s => k.p1.X.eval s * k.p2.Y.eval s),
    (k.y1y2, fun s => k.p1.Y.eval s * k.p2.Y.eval s), (k.y1x2, fun s => k.p1.Y.eval s * k.p2.X.eval s),
    (k.prod, fun s => val s k.x1x2 * val s k.y1y2), (k.dprod, fun s => d * val s k.prod), (k.ax1x2, fun s => a * val s k.x1x2),
    (k.x, fun s => (val s k.x1y2 + val s k.y1x2) * (1 + val s k.dprod)⁻¹), (k.y, fun s => (val s k.y1y2 - val s k.ax1x2) * (1 - val s k.dprod)⁻¹)]

end EdAdd

/-! ### Well-formedness -/

/-- `element_g1_is_well_formed` (`twisted_edwards/element_g1.hpp:175-221`): `base` is the first of the variables `XX`, `aXX`, `dXX`, `YY`, `dXXYY`, `lhs`,
`rhs`. -/
structure WellFormed (F : Type*) where
  p : Pt F
  base : ℕ

/-- `generate_gates` (223-243). -/
def WellFormed.gates (a d : F) (k : WellFormed F) : List (Constraint F) :=
  [⟨k.p.X, k.p.X, Lc.var k.base⟩, ⟨k.p.Y, k.p.Y, Lc.var (k.base + 3)⟩, ⟨Lc.const a, Lc.var k.base, Lc.var (k.base + 1)⟩,
    ⟨[(k.base + 1, 1), (k.base + 3, 1)], Lc.const 1, Lc.var (k.base + 5)⟩, ⟨Lc.const d, Lc.var k.base, Lc.var (k.base + 2)⟩,
    ⟨Lc.var (k.base + 2), Lc.var (k.base + 3), Lc.var (k.base + 4)⟩, ⟨[(k.base + 4, 1), (0, 1)], Lc.const 1, Lc.var (k.base + 6)⟩,
    ⟨Lc.var (k.base + 5), Lc.const 1, Lc.var (k.base + 6)⟩]

/-- `generate_assignments` (245-260). -/
def WellFormed.steps (a d : F) (k : WellFormed F) : List (Step F) :=
  [(k.base, fun s => k.p.X.eval s * k.p.X.eval s), (k.base + 3, fun s => k.p.Y.eval s * k.p.Y.eval s), (k.base + 1, fun s => a * val s k.base),
    (k.base + 5, fun s => val s (k.base + 1) + val s (k.base + 3)), (k.base + 2, fun s => d * val s k.base),
    (k.base + 4, fun s => val s (k.base + 2) * val s (k.base + 3)), (k.base + 6, fun s => val s (k.base + 4) + 1)]

/-! ### Conditional addition -/

/-- `element_g1_conditional_addition` (`twisted_edwards/element_g1.hpp:316-365`): `base` is the first of the variables `p_to_add.X`, `p_to_add.Y`,
`Y_intermediate_to_add1`, `Y_intermediate_to_add2`, `cannot_add`. The addition of `p1` and `p_to_add` is commented out in the code (344-345, 363-364). -/
structure CondAdd (F : Type*) where
  p1 : Pt F
  p2 : Pt F
  result : Pt F
  canAdd : ℕ
  base : ℕ

/-- `generate_gates` (367-410). -/
def CondAdd.gates (k : CondAdd F) : List (Constraint F) :=
  [⟨k.p2.X, Lc.var k.canAdd, Lc.var k.base⟩, ⟨k.p2.Y, Lc.var k.canAdd, Lc.var (k.base + 2)⟩,
    ⟨Lc.var k.canAdd, (Lc.const 1).sub (Lc.var k.canAdd), Lc.const 0⟩,
    ⟨Lc.var (k.base + 4), (Lc.const 1).sub (Lc.var (k.base + 4)), Lc.const 0⟩,
    ⟨[(k.base + 4, 1), (k.canAdd, 1)], Lc.const 1, Lc.const 1⟩, ⟨Lc.var (k.base + 4), Lc.const 1, Lc.var (k.base + 3)⟩,
    ⟨[(k.base + 2, 1), (k.base + 3, 1)], Lc.const 1, Lc.var (k.base + 1)⟩]

/-- `generate_assignments` (412-431). -/
def CondAdd.steps [DecidableEq F] (k : CondAdd F) : List (Step F) :=
  [(k.base, fun s => k.p2.X.eval s * val s k.canAdd), (k.base + 2, fun s => k.p2.Y.eval s * val s k.canAdd),
    (k.base + 4, fun s => if val s k.canAdd = 1 then 0 else 1), (k.base + 3, fun s => val s (k.base + 4) * 1),
    (k.base + 1, fun s => if val s k.canAdd = 1 then val s (k.base + 2) else 1)]

end
end Curve
end R1cs
end Verif
