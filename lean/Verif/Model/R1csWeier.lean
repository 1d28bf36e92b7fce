import Verif.Model.R1csCurve

/-!
# r1cs components for points of short Weierstrass curves

`components/algebra/curves/weierstrass/r1cs/element_g1.hpp` and `components/algebra/curves/detail/r1cs/scalar_mul.hpp`. The coefficients `a`, `b` of the
curve (`CurveType::pairing::pair_curve_type::a`, `::b`) are arguments.
-/

namespace Verif
namespace R1cs
namespace Weier
open Curve (Pt)

section
variable {F : Type*} [Field F]

/-- `element_g1_is_well_formed` (element_g1.hpp:108-122). -/
structure WellFormed (F : Type*) where
  P : Pt F
  xsq : ℕ
  ysq : ℕ

/-- `generate_gates` (element_g1.hpp:123-134). -/
def WellFormed.gates (a b : F) (k : WellFormed F) : List (Constraint F) :=
  [⟨k.P.X, k.P.X, Lc.var k.xsq⟩, ⟨k.P.Y, k.P.Y, Lc.var k.ysq⟩,
    ⟨k.P.X, (Lc.var k.xsq).add (Lc.const a), (Lc.var k.ysq).add (Lc.const (-b))⟩]

/-- `generate_assignments` (element_g1.hpp:135-138). -/
def WellFormed.steps (k : WellFormed F) : List (Step F) := [(k.xsq, fun s => k.P.X.eval s ^ 2), (k.ysq, fun s => k.P.Y.eval s ^ 2)]

/-- `element_g1_add` (element_g1.hpp:145-182); the result `C` is two variables. -/
structure Add (F : Type*) where
  A : Pt F
  B : Pt F
  x : ℕ
  y : ℕ
  lambda : ℕ
  inv : ℕ

/-- `generate_gates` (element_g1.hpp:183-197). -/
def Add.gates (k : Add F) : List (Constraint F) :=
  [⟨Lc.var k.lambda, k.B.X.sub k.A.X, k.B.Y.sub k.A.Y⟩,
    ⟨Lc.var k.lambda, Lc.var k.lambda, ((Lc.var k.x).add k.A.X).add k.B.X⟩,
    ⟨Lc.var k.lambda, k.A.X.sub (Lc.var k.x), (Lc.var k.y).add k.A.Y⟩,
    ⟨Lc.var k.inv, k.B.X.sub k.A.X, Lc.const 1⟩]

/-- `generate_assignments` (element_g1.hpp:198-205). -/
def Add.steps (k : Add F) : List (Step F) :=
  [(k.inv, fun s => (k.B.X.eval s - k.A.X.eval s)⁻¹), (k.lambda, fun s => (k.B.Y.eval s - k.A.Y.eval s) * val s k.inv),
    (k.x, fun s => val s k.lambda ^ 2 - k.A.X.eval s - k.B.X.eval s),
    (k.y, fun s => val s k.lambda * (k.A.X.eval s - val s k.x) - k.A.Y.eval s)]

/-- `element_g1_doubled` (element_g1.hpp:212-230); the result `B` is two variables. -/
structure Dbl (F : Type*) where
  A : Pt F
  x : ℕ
  y : ℕ
  xsq : ℕ
  lambda : ℕ

/-- `generate_gates` (element_g1.hpp:231-246). -/
def Dbl.gates (a : F) (k : Dbl F) : List (Constraint F) :=
  [⟨k.A.X, k.A.X, Lc.var k.xsq⟩,
    ⟨Lc.smul 2 (Lc.var k.lambda), k.A.Y, (Lc.smul 3 (Lc.var k.xsq)).add (Lc.const a)⟩,
    ⟨Lc.var k.lambda, Lc.var k.lambda, (Lc.var k.x).add (Lc.smul 2 k.A.X)⟩,
    ⟨Lc.var k.lambda, k.A.X.sub (Lc.var k.x), (Lc.var k.y).add k.A.Y⟩]

/-- `generate_assignments` (element_g1.hpp:247-257). -/
def Dbl.steps (a : F) (k : Dbl F) : List (Step F) :=
  [(k.xsq, fun s => k.A.X.eval s ^ 2), (k.lambda, fun s => (3 * val s k.xsq + a) * (2 * k.A.Y.eval s)⁻¹),
    (k.x, fun s => val s k.lambda ^ 2 - 2 * k.A.X.eval s), (k.y, fun s => val s k.lambda * (k.A.X.eval s - val s k.x) - k.A.Y.eval s)]

/-- `scalar_mul` (scalar_mul.hpp:54-79): `num` points, `elt` bits for each, `base` is `next_free_var` at construction, `start` is the member `base`. -/
structure Mul (F : Type*) where
  num : ℕ
  elt : ℕ
  start : Pt F
  scalars : ℕ → ℕ
  points : ℕ → Pt F
  rx : ℕ
  ry : ℕ
  base : ℕ

namespace Mul
variable (k : Mul F)

/-- `scalar_size`. -/
def size : ℕ := k.num * k.elt

/-- The first variable of the power made by doubler `d` (scalar_mul.hpp:85-92). The doubler's own variables are the two after the point. -/
def dv (d : ℕ) : ℕ := k.base + 4 * d

/-- `points_and_powers[i * elt + j]` (scalar_mul.hpp:85-92). -/
def power (i j : ℕ) : Pt F := if j = 0 then k.points i else Pt.vars (k.dv (i * (k.elt - 1) + (j - 1))) (k.dv (i * (k.elt - 1) + (j - 1)) + 1)

/-- Doubler `i * (elt - 1) + j` (scalar_mul.hpp:89-90). -/
def dbl (i j : ℕ) : Dbl F :=
  let v := k.dv (i * (k.elt - 1) + j)
  ⟨k.power i j, v, v + 1, v + 2, v + 3⟩

/-- The first variable of round `i` of the second loop (scalar_mul.hpp:95-107). -/
def av (i : ℕ) : ℕ := k.base + 4 * (k.num * (k.elt - 1)) + 6 * i

/-- The variables of `chosen_results[i + 1]` (scalar_mul.hpp:98-102). -/
def chosenX (i : ℕ) : ℕ := if i < k.size - 1 then k.av i + 2 else k.rx
/-- See `chosenX`. -/
def chosenY (i : ℕ) : ℕ := if i < k.size - 1 then k.av i + 3 else k.ry

/-- `chosen_results[i]` (scalar_mul.hpp:94-102). -/
def chosen : ℕ → Pt F
  | 0 => k.start
  | i + 1 => Pt.vars (k.chosenX i) (k.chosenY i)

/-- `adders[i]` (scalar_mul.hpp:104-105); in the last round no variables are allocated for `chosen_results`. -/
def adder (i : ℕ) : Add F :=
  let o := if i < k.size - 1 then 4 else 2
  ⟨k.chosen i, k.power (i / k.elt) (i % k.elt), k.av i, k.av i + 1, k.av i + o, k.av i + (o + 1)⟩

/-- One round of the second loop of `generate_gates` (scalar_mul.hpp:117-133). -/
def round (i : ℕ) : List (Constraint F) :=
  (k.adder i).gates ++
    [⟨Lc.var (k.scalars i), (Lc.var (k.av i)).sub (k.chosen i).X, (Lc.var (k.chosenX i)).sub (k.chosen i).X⟩,
      ⟨Lc.var (k.scalars i), (Lc.var (k.av i + 1)).sub (k.chosen i).Y, (Lc.var (k.chosenY i)).sub (k.chosen i).Y⟩]

/-- `generate_gates` (scalar_mul.hpp:110-138); doubler `d` of the first loop is doubler `d % (elt - 1)` of point `d / (elt - 1)`. -/
def gates (a : F) : List (Constraint F) :=
  ((List.range k.num).flatMap fun i => (List.range (k.elt - 1)).flatMap fun j => (k.dbl i j).gates a) ++ (List.range k.size).flatMap k.round

/-- One round of the second loop of `generate_assignments` (scalar_mul.hpp:145-155). -/
def roundSteps [DecidableEq F] (i : ℕ) : List (Step F) :=
  (k.adder i).steps ++
    [(k.chosenX i, fun s => if val s (k.scalars i) = 0 then (k.chosen i).X.eval s else val s (k.av i)),
      (k.chosenY i, fun s => if val s (k.scalars i) = 0 then (k.chosen i).Y.eval s else val s (k.av i + 1))]

/-- `generate_assignments` (scalar_mul.hpp:140-156). -/
def steps [DecidableEq F] (a : F) : List (Step F) :=
  ((List.range k.num).flatMap fun i => (List.range (k.elt - 1)).flatMap fun j => (k.dbl i j).steps a) ++ (List.range k.size).flatMap k.roundSteps

end Mul
end
end Weier
end R1cs
end Verif
