import Verif.Core.R1cs
import Mathlib.Data.Fin.VecNotation

/-!
# Arithmetic of extension fields in r1cs

`components/algebra/fields/r1cs/{element_fp2,element_fp3,element_fp4,element_fp6_2over3}.hpp`.

All fields of the towers are `F[W] / (W^n - β)`: Fp2 (`n = 2`), Fp3 (`n = 3`), Fp4 = Fp2[V]/(V^2 - U) (`n = 4`, `data[i].data[j]` is the
coefficient of `W^(i + 2j)`, see the comment in element_fp4.hpp:307-310), Fp6 = Fp3[V]/(V^2 - U) (`n = 6`, likewise). An element of a
component is a vector of entries in the order of the powers of `W`. `β` is the `non_residue` of all levels.
-/

namespace Verif
namespace R1cs
namespace Ext

/-- A coefficient of an element: a variable, or a linear combination that is not a variable (`blueprint_linear_combination.hpp:66-76`). -/
inductive Ent (F : Type*)
  | var (i : ℕ)
  | lin (l : Lc F)

/-- An element with `n` coefficients (element_fp2.hpp:64, element_fp3.hpp:65, element_fp4.hpp:61, element_fp6_2over3.hpp:62). -/
abbrev Elt (F : Type*) (n : ℕ) := Fin n → Ent F

section
variable {F : Type*} [Field F]

/-- The linear combination of a coefficient. -/
def Ent.lc : Ent F → Lc F
  | .var i => Lc.var i
  | .lin l => l

/-- Writing through `lc_val`: a linear combination that is no variable has only a cached value (circuit.hpp:88-107). -/
def Ent.write : Ent F → F → List (ℕ × F)
  | .var i, v => [(i, v)]
  | .lin _, _ => []

/-- `get_element` (element_fp2.hpp:138-143, element_fp3.hpp:152-158). -/
def ev (s : Asg F) {n : ℕ} (A : Elt F n) : Fin n → F := fun i => (A i).lc.eval s

/-- `generate_assignments(el)` of an element (element_fp2.hpp:133-136, element_fp3.hpp:146-150, element_fp4.hpp:83-86,
element_fp6_2over3.hpp:85-88). -/
def writeElt {n : ℕ} (R : Elt F n) (v : Fin n → F) : List (ℕ × F) := (List.ofFn fun i => (R i).write (v i)).flatten

/-- A fresh element: `n` variables from `b` (element_fp2.hpp:70-80, element_fp3.hpp:71-86). -/
def fresh (n b : ℕ) : Elt F n := fun i => .var (b + i)

/-! ### Fp2 -/

/-- `mul_by_X` (element_fp2.hpp:166-172). -/
def fp2MulX (β : F) (A : Elt F 2) : Elt F 2 := ![.lin (Lc.smul β (A 1).lc), .lin (A 0).lc]

/-- `element_fp2_mul::generate_gates` (element_fp2.hpp:219-246). -/
def fp2Mul (β : F) (v1 : ℕ) (A B R : Elt F 2) : List (Constraint F) :=
  [⟨(A 1).lc, (B 1).lc, Lc.var v1⟩,
    ⟨(A 0).lc, (B 0).lc, (R 0).lc.add (Lc.smul (-β) (Lc.var v1))⟩,
    ⟨(A 0).lc.add (A 1).lc, (B 0).lc.add (B 1).lc, ((R 1).lc.add (R 0).lc).add (Lc.smul (1 - β) (Lc.var v1))⟩]

/-- `element_fp2_mul::generate_assignments` (element_fp2.hpp:248-258): the writes. -/
def fp2MulAssign (β : F) (v1 : ℕ) (A B R : Elt F 2) (s : Asg F) : List (ℕ × F) :=
  let a := ev s A
  let b := ev s B
  (v1, a 1 * b 1) :: ((R 0).write (a 0 * b 0 + β * (a 1 * b 1)) ++ (R 1).write ((a 0 + a 1) * (b 0 + b 1) - a 0 * b 0 - a 1 * b 1))

/-- `element_fp2_mul_by_lc::generate_gates`, `element_fp3_mul_by_lc::generate_gates` (element_fp2.hpp:281-286, element_fp3.hpp:335-342). -/
def mulByLc {n : ℕ} (A : Elt F n) (l : Lc F) (R : Elt F n) : List (Constraint F) := List.ofFn fun i => ⟨(A i).lc, l, (R i).lc⟩

/-- `generate_assignments` (element_fp2.hpp:288-291, element_fp3.hpp:344-348): the writes. -/
def mulByLcAssign {n : ℕ} (A : Elt F n) (l : Lc F) (R : Elt F n) (s : Asg F) : List (ℕ × F) :=
  writeElt R fun i => ev s A i * l.eval s

/-- `element_fp2_squared::generate_gates` (element_fp2.hpp:315-339). -/
def fp2Sq (β : F) (A R : Elt F 2) : List (Constraint F) :=
  [⟨Lc.smul 2 (A 0).lc, (A 1).lc, (R 1).lc⟩,
    ⟨(A 0).lc.add (A 1).lc, (A 0).lc.add (Lc.smul β (A 1).lc), (R 0).lc.add (Lc.smul ((1 + β) * 2⁻¹) (R 1).lc)⟩]

/-- `element_fp2_squared::generate_assignments` (element_fp2.hpp:341-347): the writes. -/
def fp2SqAssign (β : F) (A R : Elt F 2) (s : Asg F) : List (ℕ × F) :=
  let a := ev s A 0
  let b := ev s A 1
  (R 1).write (2 * a * b) ++ (R 0).write ((a + b) * (a + β * b) - a * b - β * a * b)

/-! ### Fp3 -/

/-- `mul_by_X` (element_fp3.hpp:184-191). -/
def fp3MulX (β : F) (A : Elt F 3) : Elt F 3 := ![.lin (Lc.smul β (A 2).lc), .lin (A 0).lc, .lin (A 1).lc]

/-- `element_fp3_mul::generate_gates` (element_fp3.hpp:238-301). -/
def fp3Mul (β : F) (v0 v4 : ℕ) (A B R : Elt F 3) : List (Constraint F) :=
  let a := fun i => (A i).lc
  let b := fun i => (B i).lc
  let r := fun i => (R i).lc
  [⟨a 0, b 0, Lc.var v0⟩, ⟨a 2, b 2, Lc.var v4⟩,
    ⟨((a 0).add (a 1)).add (a 2), ((b 0).add (b 1)).add (b 2),
      ((((r 1).add (r 2)).add (Lc.smul β⁻¹ (r 0))).add (Lc.smul (1 - β⁻¹) (Lc.var v0))).add (Lc.smul (1 - β) (Lc.var v4))⟩,
    ⟨((a 0).sub (a 1)).add (a 2), ((b 0).sub (b 1)).add (b 2),
      ((((Lc.smul (-1) (r 1)).add (r 2)).add (Lc.smul (1 + β⁻¹) (Lc.var v0))).sub (Lc.smul β⁻¹ (r 0))).add
        (Lc.smul (1 + β) (Lc.var v4))⟩,
    ⟨((a 0).add (Lc.smul 2 (a 1))).add (Lc.smul 4 (a 2)), ((b 0).add (Lc.smul 2 (b 1))).add (Lc.smul 4 (b 2)),
      ((((Lc.smul 2 (r 1)).add (Lc.smul 4 (r 2))).add (Lc.smul (8 * β⁻¹) (r 0))).add (Lc.smul (1 - 8 * β⁻¹) (Lc.var v0))).add
        (Lc.smul (16 - 2 * β) (Lc.var v4))⟩]

/-- Multiplication of values of Fp3 (`Aval * Bval`, element_fp3.hpp:309). -/
def fp3Val (β : F) (a b : Fin 3 → F) : Fin 3 → F :=
  ![a 0 * b 0 + β * (a 1 * b 2 + a 2 * b 1), a 0 * b 1 + a 1 * b 0 + β * (a 2 * b 2), a 0 * b 2 + a 1 * b 1 + a 2 * b 0]

/-- `element_fp3_mul::generate_assignments` (element_fp3.hpp:303-311): the writes. `element_fp3_squared` is `element_fp3_mul` of an element
with itself (element_fp3.hpp:365-379). -/
def fp3MulAssign (β : F) (v0 v4 : ℕ) (A B R : Elt F 3) (s : Asg F) : List (ℕ × F) :=
  (v0, ev s A 0 * ev s B 0) :: (v4, ev s A 2 * ev s B 2) :: writeElt R (fp3Val β (ev s A) (ev s B))

/-! ### Fp4 -/

/-- `data[i]` of an element of Fp4. -/
def half4 (A : Elt F 4) (i : Fin 2) : Elt F 2 := ![A ⟨i, by omega⟩, A ⟨i + 2, by omega⟩]

/-- Sum of two elements as linear combinations (element_fp4.hpp:190-192, element_fp6_2over3.hpp:206-210). -/
def addElt {n : ℕ} (A B : Elt F n) : Elt F n := fun i => .lin ((A i).lc.add (B i).lc)

/-- `v0`: `result.data[0]` minus `non_residue` times `v1` (element_fp4.hpp:184-188, 490-494). -/
def v0of4 (β : F) (R0 v1 : Elt F 2) : Elt F 2 := ![.lin ((R0 0).lc.sub (Lc.smul β (v1 1).lc)), .lin ((R0 1).lc.sub (v1 0).lc)]

/-- `element_fp4_tower_mul` (element_fp4.hpp:157-212); variables from `b`: `v1` (2), then `v1` of `compute_v1`, `compute_v0`,
`compute_result_c1`. -/
def fp4Tower (β : F) (b : ℕ) (A B R : Elt F 4) : List (Constraint F) :=
  let v1 : Elt F 2 := fresh 2 b
  let v0 := v0of4 β (half4 R 0) v1
  fp2Mul β (b + 3) (half4 A 0) (half4 B 0) v0 ++ fp2Mul β (b + 2) (half4 A 1) (half4 B 1) v1 ++
    fp2Mul β (b + 4) (addElt (half4 A 0) (half4 A 1)) (addElt (half4 B 0) (half4 B 1)) (addElt (addElt (half4 R 1) v0) v1)

/-- Multiplication of values of Fp4 (`Aval * Bval`, element_fp4.hpp:228). -/
def fp4Val (β : F) (a b : Fin 4 → F) : Fin 4 → F :=
  ![a 0 * b 0 + β * (a 1 * b 3 + a 2 * b 2 + a 3 * b 1), a 0 * b 1 + a 1 * b 0 + β * (a 2 * b 3 + a 3 * b 2),
    a 0 * b 2 + a 1 * b 1 + a 2 * b 0 + β * (a 3 * b 3), a 0 * b 3 + a 1 * b 2 + a 2 * b 1 + a 3 * b 0]

/-- `element_fp4_tower_mul::generate_assignments` (element_fp4.hpp:214-231): the writes of the three multiplications and of the result. All
values are functions of `A` and `B`, which are not written. -/
def fp4TowerAssign (β : F) (b : ℕ) (A B R : Elt F 4) (s : Asg F) : List (ℕ × F) :=
  let v1 : Elt F 2 := fresh 2 b
  let v0 := v0of4 β (half4 R 0) v1
  fp2MulAssign β (b + 3) (half4 A 0) (half4 B 0) v0 s ++ fp2MulAssign β (b + 2) (half4 A 1) (half4 B 1) v1 s ++
    fp2MulAssign β (b + 4) (addElt (half4 A 0) (half4 A 1)) (addElt (half4 B 0) (half4 B 1)) (addElt (addElt (half4 R 1) v0) v1) s ++
    writeElt R (fp4Val β (ev s A) (ev s B))

/-- `element_fp4_direct_mul::generate_gates` (element_fp4.hpp:326-394). -/
def fp4Direct (β : F) (v1 v2 v6 : ℕ) (A B R : Elt F 4) : List (Constraint F) :=
  let u := (1 - β)⁻¹
  let a := fun i => (A i).lc
  let b := fun i => (B i).lc
  let c := fun i => (R i).lc
  let v := fun i => (Lc.var i : Lc F)
  let comb := fun (k1 k2 k3 : F) (x : Fin 4 → Lc F) => (((x 0).add (Lc.smul k1 (x 1))).add (Lc.smul k2 (x 2))).add (Lc.smul k3 (x 3))
  [⟨comb 1 1 1 a, comb 1 1 1 b, v v1⟩, ⟨comb (-1) 1 (-1) a, comb (-1) 1 (-1) b, v v2⟩, ⟨a 3, b 3, v v6⟩,
    ⟨a 0, b 0, ((((Lc.smul u (c 0)).add (Lc.smul (β * u) (c 2))).sub (Lc.smul (β * u * 2⁻¹) (v v1))).sub
      (Lc.smul (β * u * 2⁻¹) (v v2))).add (Lc.smul β (v v6))⟩,
    ⟨comb 2 4 8 a, comb 2 4 8 b, ((((((Lc.smul (-15 * u) (c 0)).sub (Lc.smul (30 * u) (c 1))).sub (Lc.smul (3 * (4 + β) * u) (c 2))).sub
      (Lc.smul (6 * (4 + β) * u) (c 3))).add (Lc.smul ((24 - 3 * β * 2⁻¹) * u) (v v1))).add
      (Lc.smul ((-8 + β * 2⁻¹) * u) (v v2))).sub (Lc.smul (3 * (-16 + β)) (v v6))⟩,
    ⟨comb (-2) 4 (-8) a, comb (-2) 4 (-8) b, ((((((Lc.smul (-15 * u) (c 0)).add (Lc.smul (30 * u) (c 1))).sub
      (Lc.smul (3 * (4 + β) * u) (c 2))).add (Lc.smul (6 * (4 + β) * u) (c 3))).add (Lc.smul ((24 - 3 * β * 2⁻¹) * u) (v v2))).add
      (Lc.smul ((-8 + β * 2⁻¹) * u) (v v1))).sub (Lc.smul (3 * (-16 + β)) (v v6))⟩,
    ⟨comb 3 9 27 a, comb 3 9 27 b, ((((((Lc.smul (-80 * u) (c 0)).sub (Lc.smul (240 * u) (c 1))).sub
      (Lc.smul (8 * (9 + β) * u) (c 2))).sub (Lc.smul (24 * (9 + β) * u) (c 3))).sub (Lc.smul (2 * (-81 + β) * u) (v v1))).add
      (Lc.smul ((-81 + β) * u) (v v2))).sub (Lc.smul (8 * (-81 + β)) (v v6))⟩]

/-- `element_fp4_direct_mul::generate_r1cs_witness` (element_fp4.hpp:396-421): the writes. -/
def fp4DirectAssign (β : F) (v1 v2 v6 : ℕ) (A B R : Elt F 4) (s : Asg F) : List (ℕ × F) :=
  let a := ev s A
  let b := ev s B
  (v1, (a 0 + a 1 + a 2 + a 3) * (b 0 + b 1 + b 2 + b 3)) :: (v2, (a 0 - a 1 + a 2 - a 3) * (b 0 - b 1 + b 2 - b 3)) ::
    (v6, a 3 * b 3) :: writeElt R (fp4Val β a b)

/-- `element_fp4_squared` (element_fp4.hpp:465-515); `v1` are the variables `b`, `b + 1`. -/
def fp4Sq (β : F) (b : ℕ) (A R : Elt F 4) : List (Constraint F) :=
  let v1 : Elt F 2 := fresh 2 b
  let v0 := v0of4 β (half4 R 0) v1
  fp2Sq β (half4 A 1) v1 ++ fp2Sq β (half4 A 0) v0 ++
    fp2Sq β (addElt (half4 A 0) (half4 A 1)) (addElt (addElt (half4 R 1) v0) v1)

/-- `element_fp4_squared::generate_assignments` (element_fp4.hpp:517-531): the writes. -/
def fp4SqAssign (β : F) (b : ℕ) (A R : Elt F 4) (s : Asg F) : List (ℕ × F) :=
  fp2SqAssign β (half4 A 1) (fresh 2 b) s ++ writeElt R (fp4Val β (ev s A) (ev s A))

/-- `element_fp4_cyclotomic_squared` (element_fp4.hpp:567-627). -/
def fp4Cyc (β : F) (A R : Elt F 4) : List (Constraint F) :=
  let r00 := (half4 R 0 0).lc
  let r01 := (half4 R 0 1).lc
  let r10 := (half4 R 1 0).lc
  let r11 := (half4 R 1 1).lc
  let e0 : Elt F 2 := ![.lin (Lc.smul 2⁻¹ r01), .lin (Lc.smul (2 * β)⁻¹ (r00.sub (Lc.const 1)))]
  let e1 : Elt F 2 := ![.lin (((Lc.smul 2⁻¹ ((r01.add r00).sub (Lc.const 1))).add r10).add (Lc.const 1)),
    .lin (((Lc.smul (2 * β)⁻¹ (r00.sub (Lc.const 1))).add r11).add (Lc.smul 2⁻¹ r01))]
  fp2Sq β (half4 A 1) e0 ++ fp2Sq β (addElt (half4 A 0) (half4 A 1)) e1

/-- `element_fp4_cyclotomic_squared::generate_assignments` (element_fp4.hpp:629-639): the writes. -/
def fp4CycAssign (β : F) (A R : Elt F 4) (s : Asg F) : List (ℕ × F) := writeElt R (fp4Val β (ev s A) (ev s A))

/-! ### Fp6 -/

/-- `data[i]` of an element of Fp6. -/
def half6 (A : Elt F 6) (i : Fin 2) : Elt F 3 := ![A ⟨i, by omega⟩, A ⟨i + 2, by omega⟩, A ⟨i + 4, by omega⟩]

/-- `v0` (element_fp6_2over3.hpp:199-203). -/
def v0of6 (β : F) (R0 v1 : Elt F 3) : Elt F 3 :=
  ![.lin ((R0 0).lc.sub (Lc.smul β (v1 2).lc)), .lin ((R0 1).lc.sub (v1 0).lc), .lin ((R0 2).lc.sub (v1 1).lc)]

/-- `element_fp6_2over3_mul` (element_fp6_2over3.hpp:175-238); variables from `b`: `v1` (3), then two for each of `compute_v1`,
`compute_v0`, `compute_result_c1`. `element_fp6_2over3_squared` is this with `B = A` (445-459). -/
def fp6Mul (β : F) (b : ℕ) (A B R : Elt F 6) : List (Constraint F) :=
  let v1 : Elt F 3 := fresh 3 b
  let v0 := v0of6 β (half6 R 0) v1
  fp3Mul β (b + 5) (b + 6) (half6 A 0) (half6 B 0) v0 ++ fp3Mul β (b + 3) (b + 4) (half6 A 1) (half6 B 1) v1 ++
    fp3Mul β (b + 7) (b + 8) (addElt (half6 A 0) (half6 A 1)) (addElt (half6 B 0) (half6 B 1)) (addElt (addElt (half6 R 1) v0) v1)

/-- Multiplication of values of Fp6 (`Aval * Bval`, element_fp6_2over3.hpp:256). -/
def fp6Val (β : F) (a b : Fin 6 → F) : Fin 6 → F :=
  ![a 0 * b 0 + β * (a 1 * b 5 + a 2 * b 4 + a 3 * b 3 + a 4 * b 2 + a 5 * b 1),
    a 0 * b 1 + a 1 * b 0 + β * (a 2 * b 5 + a 3 * b 4 + a 4 * b 3 + a 5 * b 2),
    a 0 * b 2 + a 1 * b 1 + a 2 * b 0 + β * (a 3 * b 5 + a 4 * b 4 + a 5 * b 3),
    a 0 * b 3 + a 1 * b 2 + a 2 * b 1 + a 3 * b 0 + β * (a 4 * b 5 + a 5 * b 4),
    a 0 * b 4 + a 1 * b 3 + a 2 * b 2 + a 3 * b 1 + a 4 * b 0 + β * (a 5 * b 5),
    a 0 * b 5 + a 1 * b 4 + a 2 * b 3 + a 3 * b 2 + a 4 * b 1 + a 5 * b 0]

/-- `element_fp6_2over3_mul::generate_assignments` (element_fp6_2over3.hpp:240-267): the writes. -/
def fp6MulAssign (β : F) (b : ℕ) (A B R : Elt F 6) (s : Asg F) : List (ℕ × F) :=
  let v1 : Elt F 3 := fresh 3 b
  let v0 := v0of6 β (half6 R 0) v1
  fp3MulAssign β (b + 5) (b + 6) (half6 A 0) (half6 B 0) v0 s ++ fp3MulAssign β (b + 3) (b + 4) (half6 A 1) (half6 B 1) v1 s ++
    fp3MulAssign β (b + 7) (b + 8) (addElt (half6 A 0) (half6 A 1)) (addElt (half6 B 0) (half6 B 1))
      (addElt (addElt (half6 R 1) v0) v1) s ++ writeElt R (fp6Val β (ev s A) (ev s B))

/-- `element_fp6_2over3_mul_by_2345` (element_fp6_2over3.hpp:313-388); variables from `b`: `v1` (3), `compute_v1` (2), `v0` (3),
`compute_result_c1` (2). -/
def fp6Mul2345 (β : F) (b : ℕ) (A B R : Elt F 6) : List (Constraint F) :=
  let v1 : Elt F 3 := fresh 3 b
  let v0 : Elt F 3 := fresh 3 (b + 5)
  fp3Mul β (b + 3) (b + 4) (half6 A 1) (half6 B 1) v1 ++
    [⟨(half6 A 0 1).lc, Lc.smul β (half6 B 0 2).lc, (half6 R 0 0).lc.sub (Lc.smul β (v1 2).lc)⟩,
      ⟨(half6 A 0 2).lc, Lc.smul β (half6 B 0 2).lc, (half6 R 0 1).lc.sub (v1 0).lc⟩,
      ⟨(half6 A 0 0).lc, (half6 B 0 2).lc, (half6 R 0 2).lc.sub (v1 1).lc⟩] ++
    fp3Mul β (b + 8) (b + 9) (addElt (half6 A 0) (half6 A 1)) (addElt (half6 B 0) (half6 B 1)) (addElt (addElt (half6 R 1) v0) v1)

/-- `element_fp6_2over3_mul_by_2345::generate_assignments` (element_fp6_2over3.hpp:390-424): the writes. -/
def fp6Mul2345Assign (β : F) (b : ℕ) (A B R : Elt F 6) (s : Asg F) : List (ℕ × F) :=
  let v1 : Elt F 3 := fresh 3 b
  let v0 : Elt F 3 := fresh 3 (b + 5)
  fp3MulAssign β (b + 3) (b + 4) (half6 A 1) (half6 B 1) v1 s ++ writeElt v0 (fp3Val β (ev s (half6 A 0)) (ev s (half6 B 0))) ++
    fp3MulAssign β (b + 8) (b + 9) (addElt (half6 A 0) (half6 A 1)) (addElt (half6 B 0) (half6 B 1))
      (addElt (addElt (half6 R 1) v0) v1) s ++ writeElt R (fp6Val β (ev s A) (ev s B))

/-- `element_fp6_2over3_cyclotomic_squared` (element_fp6_2over3.hpp:504-558). -/
def fp6Cyc (β : F) (A R : Elt F 6) : List (Constraint F) :=
  let a : Elt F 2 := ![half6 A 0 0, half6 A 1 1]
  let b : Elt F 2 := ![half6 A 1 0, half6 A 0 2]
  let c : Elt F 2 := ![half6 A 0 1, half6 A 1 2]
  let asq : Elt F 2 := ![.lin (Lc.smul 3⁻¹ ((half6 R 0 0).lc.add (Lc.smul 2 (a 0).lc))),
    .lin (Lc.smul 3⁻¹ ((half6 R 1 1).lc.sub (Lc.smul 2 (a 1).lc)))]
  let bsq : Elt F 2 := ![.lin (Lc.smul 3⁻¹ ((half6 R 0 1).lc.add (Lc.smul 2 (c 0).lc))),
    .lin (Lc.smul 3⁻¹ ((half6 R 1 2).lc.sub (Lc.smul 2 (c 1).lc)))]
  let csq : Elt F 2 := ![.lin (Lc.smul 3⁻¹ ((half6 R 0 2).lc.add (Lc.smul 2 (b 1).lc))),
    .lin (Lc.smul (3 * β)⁻¹ ((half6 R 1 0).lc.sub (Lc.smul 2 (b 0).lc)))]
  fp2Sq β a asq ++ fp2Sq β b bsq ++ fp2Sq β c csq

/-- `Aval.cyclotomic_squared()` as spelled out at element_fp6_2over3.hpp:510-529 (the function itself is in the algebra library). -/
def fp6CycVal (β : F) (a : Fin 6 → F) : Fin 6 → F :=
  ![3 * (a 0 * a 0 + β * (a 3 * a 3)) - 2 * a 0, 3 * β * (2 * a 2 * a 5) + 2 * a 1, 3 * (a 1 * a 1 + β * (a 4 * a 4)) - 2 * a 2,
    3 * (2 * a 0 * a 3) + 2 * a 3, 3 * (a 2 * a 2 + β * (a 5 * a 5)) - 2 * a 4, 3 * (2 * a 1 * a 4) + 2 * a 5]

/-- `element_fp6_2over3_cyclotomic_squared::generate_assignments` (element_fp6_2over3.hpp:566-579): the write of the result; the three
squarings then write linear combinations only. -/
def fp6CycAssign (β : F) (A R : Elt F 6) (s : Asg F) : List (ℕ × F) := writeElt R (fp6CycVal β (ev s A))

end
end Ext
end R1cs
end Verif
