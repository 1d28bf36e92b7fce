import Verif.Model.R1csExt
import Mathlib.Algebra.BigOperators.Fin
import Mathlib.Algebra.Algebra.Basic
import Mathlib.Algebra.Field.ZMod
import Mathlib.Tactic.FieldSimp
import Mathlib.Tactic.FinCases
import Mathlib.Tactic.IntervalCases

/-!
# The extension field components compute products

Specification: `school n β a b` is the product of `a` and `b` in `F[W]/(W^n - β)`, coefficient by coefficient; `school_ring` says that it is
the product in every commutative ring over `F` that has an element `W` with `W^n = β`.
-/

set_option linter.unusedSectionVars false

namespace Verif
namespace R1cs
namespace Ext

open Finset

variable {F : Type*} [Field F]

/-- Multiplication in `F[W]/(W^n - β)`. -/
def school (n : ℕ) (β : F) (a b : Fin n → F) : Fin n → F := fun k =>
  ∑ i : Fin n, ∑ j : Fin n, if (i : ℕ) + j = k then a i * b j else if (i : ℕ) + j = k + n then β * (a i * b j) else 0

/-- The element with the given coefficients. -/
def toRing {R : Type*} [CommRing R] [Algebra F R] (W : R) {n : ℕ} (a : Fin n → F) : R := ∑ i, algebraMap F R (a i) * W ^ (i : ℕ)

/-- `school` is the product in every ring with `W^n = β`. -/
theorem school_ring {R : Type*} [CommRing R] [Algebra F R] (W : R) {n : ℕ} (β : F) (hW : W ^ n = algebraMap F R β)
    (a b : Fin n → F) : toRing W (school n β a b) = toRing W a * toRing W b := by
  have step : ∀ i j : Fin n, (∑ k : Fin n, algebraMap F R (if (i : ℕ) + j = k then a i * b j else
      if (i : ℕ) + j = k + n then β * (a i * b j) else 0) * W ^ (k : ℕ)) =
      algebraMap F R (a i) * W ^ (i : ℕ) * (algebraMap F R (b j) * W ^ (j : ℕ)) := by
    intro i j
    by_cases h : (i : ℕ) + j < n
    · rw [Finset.sum_eq_single ⟨i + j, h⟩]
      · simp only [if_true, map_mul, pow_add]; ring
      · intro k _ hk
        rw [if_neg (fun e => hk (Fin.ext e.symm)), if_neg (by omega)]; simp
      · simp
    · have h' : (i : ℕ) + j - n < n := by omega
      rw [Finset.sum_eq_single ⟨i + j - n, h'⟩]
      · have e1 : ¬ ((i : ℕ) + j = (i : ℕ) + j - n) := by have := i.2; omega
        have e2 : (i : ℕ) + j = (i : ℕ) + j - n + n := by omega
        simp only [if_neg e1]
        rw [if_pos e2, map_mul, map_mul, ← hW]
        have : W ^ (i : ℕ) * W ^ (j : ℕ) = W ^ n * W ^ ((i : ℕ) + j - n) := by rw [← pow_add, ← pow_add]; congr 1; omega
        linear_combination (-algebraMap F R (a i) * algebraMap F R (b j)) * this
      · intro k _ hk
        rw [if_neg (by omega), if_neg (fun e => hk (Fin.ext (by simp only; omega)))]; simp
      · simp
  unfold toRing
  rw [Finset.sum_mul_sum]
  simp only [school, map_sum, Finset.sum_mul]
  rw [Finset.sum_comm]
  refine Finset.sum_congr rfl fun i _ => ?_
  rw [Finset.sum_comm]
  exact Finset.sum_congr rfl fun j _ => step i j

theorem school2 (β : F) (a b : Fin 2 → F) : school 2 β a b = ![a 0 * b 0 + β * (a 1 * b 1), a 0 * b 1 + a 1 * b 0] := by
  funext k
  fin_cases k <;> simp [school, Fin.sum_univ_succ]

theorem school3 (β : F) (a b : Fin 3 → F) : school 3 β a b = fp3Val β a b := by
  funext k
  fin_cases k <;> simp [school, Fin.sum_univ_succ, fp3Val] <;> ring

theorem school4 (β : F) (a b : Fin 4 → F) : school 4 β a b = fp4Val β a b := by
  funext k
  fin_cases k <;> simp [school, Fin.sum_univ_succ, fp4Val] <;> ring

theorem school6 (β : F) (a b : Fin 6 → F) : school 6 β a b = fp6Val β a b := by
  funext k
  fin_cases k <;> simp [school, Fin.sum_univ_succ, fp6Val] <;> ring

/-! ### Gates -/

theorem ev_apply (s : Asg F) {n : ℕ} (A : Elt F n) (i : Fin n) : ev s A i = (A i).lc.eval s := rfl

theorem ev_fresh (s : Asg F) (n b : ℕ) (i : Fin n) : ev s (fresh n b) i = val s (b + i) := by simp [ev, fresh, Ent.lc]

theorem ev_addElt (s : Asg F) {n : ℕ} (A B : Elt F n) (i : Fin n) : ev s (addElt A B) i = ev s A i + ev s B i := by
  simp [ev, addElt, Ent.lc]

/-- C117: the Fp2 multiplication accepts exactly the products. -/
theorem fp2Mul_iff (β : F) (v1 : ℕ) (A B R : Elt F 2) (s : Asg F) :
    Sat s (fp2Mul β v1 A B R) ↔ val s v1 = ev s A 1 * ev s B 1 ∧ ev s R = school 2 β (ev s A) (ev s B) := by
  rw [school2]
  simp only [fp2Mul, sat_cons, sat_nil, Constraint.Holds, eval_add, eval_smul, eval_var, and_true, ← ev_apply]
  constructor
  · rintro ⟨h1, h2, h3⟩
    refine ⟨h1.symm, ?_⟩
    funext k
    fin_cases k
    · show ev s R 0 = _ + _
      linear_combination -h2 - β * h1
    · show ev s R 1 = _ + _
      linear_combination h2 - h3 + h1
  · rintro ⟨h1, h2⟩
    have e0 : ev s R 0 = ev s A 0 * ev s B 0 + β * (ev s A 1 * ev s B 1) := by rw [h2]; rfl
    have e1 : ev s R 1 = ev s A 0 * ev s B 1 + ev s A 1 * ev s B 0 := by rw [h2]; rfl
    refine ⟨h1.symm, ?_, ?_⟩
    · rw [e0, h1]; ring
    · rw [e0, e1, h1]; ring

/-- C117: the Fp2 squaring accepts exactly the squares. -/
theorem fp2Sq_iff (h2 : (2 : F) ≠ 0) (β : F) (A R : Elt F 2) (s : Asg F) :
    Sat s (fp2Sq β A R) ↔ ev s R = school 2 β (ev s A) (ev s A) := by
  rw [school2]
  have hi : (2 : F)⁻¹ * 2 = 1 := inv_mul_cancel₀ h2
  simp only [fp2Sq, sat_cons, sat_nil, Constraint.Holds, eval_add, eval_smul, and_true, ← ev_apply]
  constructor
  · rintro ⟨h1, h3⟩
    funext k
    fin_cases k
    · show ev s R 0 = _ + _
      linear_combination -h3 + (1 + β) * 2⁻¹ * h1 - (1 + β) * (ev s A 0 * ev s A 1) * hi
    · show ev s R 1 = _ + _
      linear_combination -h1
  · intro h
    have e0 : ev s R 0 = ev s A 0 * ev s A 0 + β * (ev s A 1 * ev s A 1) := by rw [h]; rfl
    have e1 : ev s R 1 = ev s A 0 * ev s A 1 + ev s A 1 * ev s A 0 := by rw [h]; rfl
    refine ⟨by rw [e1]; ring, ?_⟩
    rw [e0, e1]
    linear_combination (-(1 + β) * (ev s A 0 * ev s A 1)) * hi

/-- C117: multiplication by a linear combination. -/
theorem mulByLc_iff {n : ℕ} (A : Elt F n) (l : Lc F) (R : Elt F n) (s : Asg F) :
    Sat s (mulByLc A l R) ↔ ∀ i, ev s R i = ev s A i * l.eval s := by
  simp only [Sat, mulByLc, List.mem_ofFn, forall_exists_index, forall_apply_eq_imp_iff, Constraint.Holds]
  exact forall_congr' fun i => eq_comm

/-- C117: `mul_by_X` of Fp2 is multiplication by `W`. -/
theorem fp2MulX_eq (β : F) (A : Elt F 2) (s : Asg F) : ev s (fp2MulX β A) = school 2 β ![0, 1] (ev s A) := by
  rw [school2]
  funext k
  fin_cases k <;> simp [ev, fp2MulX, Ent.lc]

/-- C117: `mul_by_X` of Fp3 is multiplication by `W`. -/
theorem fp3MulX_eq (β : F) (A : Elt F 3) (s : Asg F) : ev s (fp3MulX β A) = school 3 β ![0, 1, 0] (ev s A) := by
  rw [school3]
  funext k
  fin_cases k <;> simp [ev, fp3MulX, Ent.lc, fp3Val]

theorem fp3_core (h2 : (2 : F) ≠ 0) (h3 : (3 : F) ≠ 0) {β i : F} (hi : i * β = 1) (a0 a1 a2 b0 b1 b2 r0 r1 r2 : F) :
    ((a0 + a1 + a2) * (b0 + b1 + b2) = r1 + r2 + i * r0 + (1 - i) * (a0 * b0) + (1 - β) * (a2 * b2) ∧
      (a0 - a1 + a2) * (b0 - b1 + b2) = -1 * r1 + r2 + (1 + i) * (a0 * b0) - i * r0 + (1 + β) * (a2 * b2) ∧
      (a0 + 2 * a1 + 4 * a2) * (b0 + 2 * b1 + 4 * b2) =
        2 * r1 + 4 * r2 + 8 * i * r0 + (1 - 8 * i) * (a0 * b0) + (16 - 2 * β) * (a2 * b2)) ↔
    r0 = a0 * b0 + β * (a1 * b2 + a2 * b1) ∧ r1 = a0 * b1 + a1 * b0 + β * (a2 * b2) ∧ r2 = a0 * b2 + a1 * b1 + a2 * b0 := by
  constructor
  · rintro ⟨c1, c2, c3⟩
    have hi0 : i ≠ 0 := left_ne_zero_of_mul_eq_one hi
    have e2 : r2 = a0 * b2 + a1 * b1 + a2 * b0 := by
      apply mul_left_cancel₀ h2
      linear_combination -c1 - c2
    have e0 : r0 = a0 * b0 + β * (a1 * b2 + a2 * b1) := by
      apply mul_left_cancel₀ (mul_ne_zero (mul_ne_zero h2 h3) hi0)
      linear_combination 2 * c1 - c3 - 2 * e2 - 6 * (a1 * b2 + a2 * b1) * hi
    refine ⟨e0, ?_, e2⟩
    linear_combination -c1 - e2 - i * e0 - (a1 * b2 + a2 * b1) * hi
  · rintro ⟨rfl, rfl, rfl⟩
    refine ⟨?_, ?_, ?_⟩
    · linear_combination -(a1 * b2 + a2 * b1) * hi
    · linear_combination (a1 * b2 + a2 * b1) * hi
    · linear_combination -8 * (a1 * b2 + a2 * b1) * hi

/-- C117: the Fp3 multiplication accepts exactly the products, in characteristic other than 2 and 3. -/
theorem fp3Mul_iff (h2 : (2 : F) ≠ 0) (h3 : (3 : F) ≠ 0) {β : F} (hβ : β ≠ 0) (v0 v4 : ℕ) (A B R : Elt F 3) (s : Asg F) :
    Sat s (fp3Mul β v0 v4 A B R) ↔
      val s v0 = ev s A 0 * ev s B 0 ∧ val s v4 = ev s A 2 * ev s B 2 ∧ ev s R = school 3 β (ev s A) (ev s B) := by
  rw [school3]
  have hi : β⁻¹ * β = 1 := inv_mul_cancel₀ hβ
  simp only [fp3Mul, sat_cons, sat_nil, Constraint.Holds, eval_add, eval_sub, eval_smul, eval_var, and_true, ← ev_apply]
  have core := fp3_core h2 h3 hi (ev s A 0) (ev s A 1) (ev s A 2) (ev s B 0) (ev s B 1) (ev s B 2) (ev s R 0) (ev s R 1) (ev s R 2)
  constructor
  · rintro ⟨q0, q4, q1, q2, q3⟩
    refine ⟨q0.symm, q4.symm, ?_⟩
    rw [← q0, ← q4] at q1 q2 q3
    obtain ⟨e0, e1, e2⟩ := core.1 ⟨q1, q2, q3⟩
    funext k
    fin_cases k
    · exact e0
    · exact e1
    · exact e2
  · rintro ⟨q0, q4, q⟩
    rw [q0, q4]
    exact ⟨rfl, rfl, core.2 ⟨by rw [q]; rfl, by rw [q]; rfl, by rw [q]; rfl⟩⟩

/-! ### Fp4 -/

theorem ev_half4_0 (s : Asg F) (A : Elt F 4) (i : Fin 2) : ev s (half4 A i) 0 = ev s A ⟨i, by omega⟩ := rfl
theorem ev_half4_1 (s : Asg F) (A : Elt F 4) (i : Fin 2) : ev s (half4 A i) 1 = ev s A ⟨i + 2, by omega⟩ := rfl
theorem ev_v0of4_0 (s : Asg F) (β : F) (R v : Elt F 2) : ev s (v0of4 β R v) 0 = ev s R 0 - β * ev s v 1 := by
  simp [ev, v0of4, Ent.lc]
theorem ev_v0of4_1 (s : Asg F) (β : F) (R v : Elt F 2) : ev s (v0of4 β R v) 1 = ev s R 1 - ev s v 0 := by
  simp [ev, v0of4, Ent.lc]

theorem eq_vec2 {x : Fin 2 → F} {a b : F} : x = ![a, b] ↔ x 0 = a ∧ x 1 = b := by
  constructor
  · rintro rfl; exact ⟨rfl, rfl⟩
  · rintro ⟨rfl, rfl⟩; funext k; fin_cases k <;> rfl

theorem eq_vec3 {x : Fin 3 → F} {a b c : F} : x = ![a, b, c] ↔ x 0 = a ∧ x 1 = b ∧ x 2 = c := by
  constructor
  · rintro rfl; exact ⟨rfl, rfl, rfl⟩
  · rintro ⟨rfl, rfl, rfl⟩; funext k; fin_cases k <;> rfl

theorem eq_vec4 {x : Fin 4 → F} {a b c d : F} : x = ![a, b, c, d] ↔ x 0 = a ∧ x 1 = b ∧ x 2 = c ∧ x 3 = d := by
  constructor
  · rintro rfl; exact ⟨rfl, rfl, rfl, rfl⟩
  · rintro ⟨rfl, rfl, rfl, rfl⟩; funext k; fin_cases k <;> rfl

theorem eq_vec6 {x : Fin 6 → F} {a b c d e f : F} :
    x = ![a, b, c, d, e, f] ↔ x 0 = a ∧ x 1 = b ∧ x 2 = c ∧ x 3 = d ∧ x 4 = e ∧ x 5 = f := by
  constructor
  · rintro rfl; exact ⟨rfl, rfl, rfl, rfl, rfl, rfl⟩
  · rintro ⟨rfl, rfl, rfl, rfl, rfl, rfl⟩; funext k; fin_cases k <;> rfl

/-- C118: the tower multiplication of Fp4 accepts exactly the products (with the five auxiliary variables as calculated). -/
theorem fp4Tower_iff (β : F) (b : ℕ) (A B R : Elt F 4) (s : Asg F) :
    Sat s (fp4Tower β b A B R) ↔
      val s b = ev s A 1 * ev s B 1 + β * (ev s A 3 * ev s B 3) ∧ val s (b + 1) = ev s A 1 * ev s B 3 + ev s A 3 * ev s B 1 ∧
      val s (b + 2) = ev s A 3 * ev s B 3 ∧ val s (b + 3) = ev s A 2 * ev s B 2 ∧
      val s (b + 4) = (ev s A 2 + ev s A 3) * (ev s B 2 + ev s B 3) ∧ ev s R = school 4 β (ev s A) (ev s B) := by
  rw [school4, fp4Val, eq_vec4]
  simp only [fp4Tower, sat_append, fp2Mul_iff, school2, eq_vec2, ev_addElt, ev_v0of4_0, ev_v0of4_1, ev_half4_0, ev_half4_1, ev_fresh]
  show ((_ ∧ ev s R 0 - β * val s (b + 1) = ev s A 0 * ev s B 0 + β * (ev s A 2 * ev s B 2) ∧
      ev s R 2 - val s (b + 0) = ev s A 0 * ev s B 2 + ev s A 2 * ev s B 0) ∧
    (_ ∧ val s (b + 0) = ev s A 1 * ev s B 1 + β * (ev s A 3 * ev s B 3) ∧ val s (b + 1) = ev s A 1 * ev s B 3 + ev s A 3 * ev s B 1)) ∧
    (_ ∧ ev s R 1 + (ev s R 0 - β * val s (b + 1)) + val s (b + 0) =
      (ev s A 0 + ev s A 1) * (ev s B 0 + ev s B 1) + β * ((ev s A 2 + ev s A 3) * (ev s B 2 + ev s B 3)) ∧
      ev s R 3 + (ev s R 2 - val s (b + 0)) + val s (b + 1) =
      (ev s A 0 + ev s A 1) * (ev s B 2 + ev s B 3) + (ev s A 2 + ev s A 3) * (ev s B 0 + ev s B 1)) ↔ _
  rw [Nat.add_zero]
  constructor
  · rintro ⟨⟨⟨p1, p2, p3⟩, q1, q2, q3⟩, r1, r2, r3⟩
    refine ⟨q2, q3, q1, p1, r1, ?_, ?_, ?_, ?_⟩
    · linear_combination p2 + β * q3
    · linear_combination r2 - p2 - q2
    · linear_combination p3 + q2
    · linear_combination r3 - p3 - q3
  · rintro ⟨q2, q3, q1, p1, r1, t0, t1, t2, t3⟩
    refine ⟨⟨⟨p1, ?_, ?_⟩, q1, q2, q3⟩, r1, ?_, ?_⟩
    · linear_combination t0 - β * q3
    · linear_combination t2 - q2
    · linear_combination t1 + t0 - β * q3 + q2
    · linear_combination t3 + t2 - q2 + q3

/-- C118: the squaring of Fp4 accepts exactly the squares. -/
theorem fp4Sq_iff (h2 : (2 : F) ≠ 0) (β : F) (b : ℕ) (A R : Elt F 4) (s : Asg F) :
    Sat s (fp4Sq β b A R) ↔
      val s b = ev s A 1 * ev s A 1 + β * (ev s A 3 * ev s A 3) ∧ val s (b + 1) = ev s A 1 * ev s A 3 + ev s A 3 * ev s A 1 ∧
      ev s R = school 4 β (ev s A) (ev s A) := by
  rw [school4, fp4Val, eq_vec4]
  simp only [fp4Sq, sat_append, fp2Sq_iff h2, school2, eq_vec2, ev_addElt, ev_v0of4_0, ev_v0of4_1, ev_half4_0, ev_half4_1, ev_fresh]
  show ((val s (b + 0) = ev s A 1 * ev s A 1 + β * (ev s A 3 * ev s A 3) ∧ val s (b + 1) = ev s A 1 * ev s A 3 + ev s A 3 * ev s A 1) ∧
    ev s R 0 - β * val s (b + 1) = ev s A 0 * ev s A 0 + β * (ev s A 2 * ev s A 2) ∧
      ev s R 2 - val s (b + 0) = ev s A 0 * ev s A 2 + ev s A 2 * ev s A 0) ∧
    (ev s R 1 + (ev s R 0 - β * val s (b + 1)) + val s (b + 0) =
      (ev s A 0 + ev s A 1) * (ev s A 0 + ev s A 1) + β * ((ev s A 2 + ev s A 3) * (ev s A 2 + ev s A 3)) ∧
      ev s R 3 + (ev s R 2 - val s (b + 0)) + val s (b + 1) =
      (ev s A 0 + ev s A 1) * (ev s A 2 + ev s A 3) + (ev s A 2 + ev s A 3) * (ev s A 0 + ev s A 1)) ↔ _
  rw [Nat.add_zero]
  constructor
  · rintro ⟨⟨⟨q2, q3⟩, p2, p3⟩, r2, r3⟩
    refine ⟨q2, q3, ?_, ?_, ?_, ?_⟩
    · linear_combination p2 + β * q3
    · linear_combination r2 - p2 - q2
    · linear_combination p3 + q2
    · linear_combination r3 - p3 - q3
  · rintro ⟨q2, q3, t0, t1, t2, t3⟩
    refine ⟨⟨⟨q2, q3⟩, ?_, ?_⟩, ?_, ?_⟩
    · linear_combination t0 - β * q3
    · linear_combination t2 - q2
    · linear_combination t1 + t0 - β * q3 + q2
    · linear_combination t3 + t2 - q2 + q3

/-- The conjugate over Fp2: `W ↦ -W`. -/
def conj4 (a : Fin 4 → F) : Fin 4 → F := ![a 0, -a 1, a 2, -a 3]

theorem ev_pair0 (s : Asg F) (x y : Lc F) : ev s (![.lin x, .lin y] : Elt F 2) 0 = x.eval s := rfl
theorem ev_pair1 (s : Asg F) (x y : Lc F) : ev s (![.lin x, .lin y] : Elt F 2) 1 = y.eval s := rfl

theorem half_iff (h2 : (2 : F) ≠ 0) (x y : F) : 2⁻¹ * x = y ↔ x = 2 * y := by
  constructor
  · intro h; rw [← h, mul_inv_cancel_left₀ h2]
  · intro h; rw [h, inv_mul_cancel_left₀ h2]

/-- C118: on elements of norm 1 over Fp2 the cyclotomic squaring accepts exactly the squares. -/
theorem fp4Cyc_iff (h2 : (2 : F) ≠ 0) {β : F} (hβ : β ≠ 0) (A R : Elt F 4) (s : Asg F)
    (hn : school 4 β (ev s A) (conj4 (ev s A)) = ![1, 0, 0, 0]) :
    Sat s (fp4Cyc β A R) ↔ ev s R = school 4 β (ev s A) (ev s A) := by
  rw [school4, fp4Val, eq_vec4] at hn
  obtain ⟨n0, -, n2, -⟩ := hn
  have n0 : ev s A 0 * ev s A 0 + β * (ev s A 1 * -ev s A 3 + ev s A 2 * ev s A 2 + ev s A 3 * -ev s A 1) = 1 := n0
  have n2 : ev s A 0 * ev s A 2 + ev s A 1 * -ev s A 1 + ev s A 2 * ev s A 0 + β * (ev s A 3 * -ev s A 3) = 0 := n2
  rw [school4, fp4Val, eq_vec4]
  simp only [fp4Cyc, sat_append, fp2Sq_iff h2, school2, eq_vec2, ev_addElt, ev_half4_0, ev_half4_1]
  have hb : (2 * β)⁻¹ = 2⁻¹ * β⁻¹ := mul_inv _ _
  have hbi : β * β⁻¹ = 1 := mul_inv_cancel₀ hβ
  have ht : (2 : F) * 2⁻¹ = 1 := mul_inv_cancel₀ h2
  simp only [ev_pair0, ev_pair1, eval_add, eval_sub, eval_smul, eval_const]
  show (2⁻¹ * ev s R 2 = ev s A 1 * ev s A 1 + β * (ev s A 3 * ev s A 3) ∧
      (2 * β)⁻¹ * (ev s R 0 - 1) = ev s A 1 * ev s A 3 + ev s A 3 * ev s A 1) ∧
    (2⁻¹ * (ev s R 2 + ev s R 0 - 1) + ev s R 1 + 1 =
      (ev s A 0 + ev s A 1) * (ev s A 0 + ev s A 1) + β * ((ev s A 2 + ev s A 3) * (ev s A 2 + ev s A 3)) ∧
      (2 * β)⁻¹ * (ev s R 0 - 1) + ev s R 3 + 2⁻¹ * ev s R 2 =
      (ev s A 0 + ev s A 1) * (ev s A 2 + ev s A 3) + (ev s A 2 + ev s A 3) * (ev s A 0 + ev s A 1)) ↔ _
  rw [hb]
  generalize ev s A 0 = a0, ev s A 1 = a1, ev s A 2 = a2, ev s A 3 = a3 at *
  generalize ev s R 0 = c0, ev s R 1 = c1, ev s R 2 = c2, ev s R 3 = c3
  generalize (2 : F)⁻¹ = t at *
  generalize β⁻¹ = y at *
  constructor
  · rintro ⟨⟨e0, e1⟩, e2, e3⟩
    have d2 : c2 = 2 * (a1 * a1 + β * (a3 * a3)) := by linear_combination 2 * e0 - c2 * ht
    have d0 : c0 = 1 + 2 * β * (a1 * a3 + a3 * a1) := by
      linear_combination 2 * β * e1 - (c0 - 1) * ht - 2 * t * (c0 - 1) * hbi
    refine ⟨?_, ?_, ?_, ?_⟩
    · linear_combination d0 - n0
    · subst d0 d2
      linear_combination e2 + n0 - (a1 * a1 + β * (a3 * a3) + β * (a1 * a3 + a3 * a1)) * ht
    · linear_combination d2 - n2
    · linear_combination e3 - e1 - e0 + n2
  · rintro ⟨rfl, rfl, rfl, rfl⟩
    refine ⟨⟨?_, ?_⟩, ?_, ?_⟩
    · linear_combination t * n2 + (a1 * a1 + β * (a3 * a3)) * ht
    · linear_combination t * y * n0 + 4 * t * a1 * a3 * hbi + 2 * a1 * a3 * ht
    · linear_combination t * n2 + t * n0 + (a1 * a1 + β * (a3 * a3) + 2 * β * a1 * a3) * ht - n0
    · linear_combination t * n2 + (a1 * a1 + β * (a3 * a3)) * ht + (t * y * n0 + 4 * t * a1 * a3 * hbi + 2 * a1 * a3 * ht) - n2

theorem clear_iff (h2 : (2 : F) ≠ 0) {β : F} (hβ : β ≠ 1) (X Y Z W L : F) (hL : L = (1 - β)⁻¹ * (Y + 2⁻¹ * Z) + W) :
    X = L ↔ 2 * (1 - β) * X = 2 * Y + Z + 2 * (1 - β) * W := by
  have hu : (1 - β) * (1 - β)⁻¹ = 1 := mul_inv_cancel₀ (sub_ne_zero.2 hβ.symm)
  have hi : 2 * (2 : F)⁻¹ = 1 := mul_inv_cancel₀ h2
  have h0 : 2 * (1 - β) ≠ 0 := mul_ne_zero h2 (sub_ne_zero.2 hβ.symm)
  have e : 2 * (1 - β) * L = 2 * Y + Z + 2 * (1 - β) * W := by
    rw [hL]; linear_combination (2 * Y + 2 * 2⁻¹ * Z) * hu + Z * hi
  rw [← e]
  exact (mul_right_inj' h0).symm

/-- C118: the direct multiplication of Fp4 accepts exactly the products, in characteristic other than 2, 3 and 5 and for `β ≠ 1`. -/
theorem fp4Direct_iff (h2 : (2 : F) ≠ 0) (h3 : (3 : F) ≠ 0) (h5 : (5 : F) ≠ 0) {β : F} (hβ : β ≠ 1) (v1 v2 v6 : ℕ) (A B R : Elt F 4)
    (s : Asg F) :
    Sat s (fp4Direct β v1 v2 v6 A B R) ↔
      val s v1 = (ev s A 0 + ev s A 1 + ev s A 2 + ev s A 3) * (ev s B 0 + ev s B 1 + ev s B 2 + ev s B 3) ∧
      val s v2 = (ev s A 0 - ev s A 1 + ev s A 2 - ev s A 3) * (ev s B 0 - ev s B 1 + ev s B 2 - ev s B 3) ∧
      val s v6 = ev s A 3 * ev s B 3 ∧ ev s R = school 4 β (ev s A) (ev s B) := by
  rw [school4, fp4Val, eq_vec4]
  simp only [fp4Direct, sat_cons, sat_nil, Constraint.Holds, eval_add, eval_sub, eval_smul, eval_var, and_true, ← ev_apply]
  generalize val s v1 = w1, val s v2 = w2, val s v6 = w6
  generalize ev s A 0 = a0, ev s A 1 = a1, ev s A 2 = a2, ev s A 3 = a3
  generalize ev s B 0 = b0, ev s B 1 = b1, ev s B 2 = b2, ev s B 3 = b3
  generalize ev s R 0 = c0, ev s R 1 = c1, ev s R 2 = c2, ev s R 3 = c3
  rw [clear_iff h2 hβ (a0 * b0) (c0 + β * c2) (-(β * (w1 + w2))) (β * w6) _ (by ring),
    clear_iff h2 hβ ((a0 + 2 * a1 + 4 * a2 + 8 * a3) * (b0 + 2 * b1 + 4 * b2 + 8 * b3))
      (-15 * c0 - 30 * c1 - 3 * (4 + β) * c2 - 6 * (4 + β) * c3 + 24 * w1 - 8 * w2) (-3 * β * w1 + β * w2) (-(3 * (-16 + β) * w6)) _ (by ring),
    clear_iff h2 hβ ((a0 + -2 * a1 + 4 * a2 + -8 * a3) * (b0 + -2 * b1 + 4 * b2 + -8 * b3))
      (-15 * c0 + 30 * c1 - 3 * (4 + β) * c2 + 6 * (4 + β) * c3 + 24 * w2 - 8 * w1) (-3 * β * w2 + β * w1) (-(3 * (-16 + β) * w6)) _ (by ring),
    clear_iff h2 hβ ((a0 + 3 * a1 + 9 * a2 + 27 * a3) * (b0 + 3 * b1 + 9 * b2 + 27 * b3))
      (-80 * c0 - 240 * c1 - 8 * (9 + β) * c2 - 24 * (9 + β) * c3 - 2 * (-81 + β) * w1 + (-81 + β) * w2) 0 (-(8 * (-81 + β) * w6)) _ (by ring)]
  constructor
  · rintro ⟨e1, e2, e6, f0, f3, f4, f5⟩
    have g1 : w1 = (a0 + a1 + a2 + a3) * (b0 + b1 + b2 + b3) := by linear_combination -e1
    have g2 : w2 = (a0 - a1 + a2 - a3) * (b0 - b1 + b2 - b3) := by linear_combination -e2
    have g6 : w6 = a3 * b3 := e6.symm
    have hd : 48 * (β - 1) ≠ 0 := by
      refine mul_ne_zero ?_ (sub_ne_zero.2 hβ)
      rw [show (48 : F) = 2 ^ 4 * 3 by norm_num]; exact mul_ne_zero (pow_ne_zero _ h2) h3
    subst g1 g2 g6
    have d2 : c2 = a0 * b2 + a1 * b1 + a2 * b0 + β * (a3 * b3) := by
      refine mul_left_cancel₀ hd ?_
      linear_combination -f3 - f4 - 30 * f0
    have d0 : c0 = a0 * b0 + β * (a1 * b3 + a2 * b2 + a3 * b1) := by
      refine mul_left_cancel₀ h2 ?_
      linear_combination -f0 - 2 * β * d2
    have d3 : c3 = a0 * b3 + a1 * b2 + a2 * b1 + a3 * b0 := by
      refine mul_left_cancel₀ hd ?_
      subst d0 d2
      linear_combination -f5 + 4 * f3 - 4 * f4
    have d1 : c1 = a0 * b1 + a1 * b0 + β * (a2 * b3 + a3 * b2) := by
      have h60 : (120 : F) ≠ 0 := by
        rw [show (120 : F) = 2 ^ 3 * 3 * 5 by norm_num]; exact mul_ne_zero (mul_ne_zero (pow_ne_zero _ h2) h3) h5
      refine mul_left_cancel₀ h60 ?_
      subst d0 d2 d3
      linear_combination f3 - f4
    exact ⟨rfl, rfl, rfl, d0, d1, d2, d3⟩
  · rintro ⟨rfl, rfl, rfl, rfl, rfl, rfl, rfl⟩
    refine ⟨?_, ?_, ?_, ?_, ?_, ?_, ?_⟩ <;> ring

/-! ### Fp6 -/

theorem ev_half6_0 (s : Asg F) (A : Elt F 6) (i : Fin 2) : ev s (half6 A i) 0 = ev s A ⟨i, by omega⟩ := rfl
theorem ev_half6_1 (s : Asg F) (A : Elt F 6) (i : Fin 2) : ev s (half6 A i) 1 = ev s A ⟨i + 2, by omega⟩ := rfl
theorem ev_half6_2 (s : Asg F) (A : Elt F 6) (i : Fin 2) : ev s (half6 A i) 2 = ev s A ⟨i + 4, by omega⟩ := rfl
theorem ev_v0of6_0 (s : Asg F) (β : F) (R v : Elt F 3) : ev s (v0of6 β R v) 0 = ev s R 0 - β * ev s v 2 := by
  simp [ev, v0of6, Ent.lc]
theorem ev_v0of6_1 (s : Asg F) (β : F) (R v : Elt F 3) : ev s (v0of6 β R v) 1 = ev s R 1 - ev s v 0 := by
  simp [ev, v0of6, Ent.lc]
theorem ev_v0of6_2 (s : Asg F) (β : F) (R v : Elt F 3) : ev s (v0of6 β R v) 2 = ev s R 2 - ev s v 1 := by
  simp [ev, v0of6, Ent.lc]

/-- C119: the multiplication of Fp6 accepts exactly the products (with the nine auxiliary variables as calculated). -/
theorem fp6Mul_iff (h2 : (2 : F) ≠ 0) (h3 : (3 : F) ≠ 0) {β : F} (hβ : β ≠ 0) (b : ℕ) (A B R : Elt F 6) (s : Asg F) :
    Sat s (fp6Mul β b A B R) ↔
      (ev s (fresh 3 b) = school 3 β (ev s (half6 A 1)) (ev s (half6 B 1)) ∧
      val s (b + 3) = ev s A 1 * ev s B 1 ∧ val s (b + 4) = ev s A 5 * ev s B 5 ∧
      val s (b + 5) = ev s A 0 * ev s B 0 ∧ val s (b + 6) = ev s A 4 * ev s B 4 ∧
      val s (b + 7) = (ev s A 0 + ev s A 1) * (ev s B 0 + ev s B 1) ∧ val s (b + 8) = (ev s A 4 + ev s A 5) * (ev s B 4 + ev s B 5)) ∧
      ev s R = school 6 β (ev s A) (ev s B) := by
  rw [school6, fp6Val, eq_vec6]
  simp only [fp6Mul, sat_append, fp3Mul_iff h2 h3 hβ, school3, fp3Val, eq_vec3, ev_addElt, ev_v0of6_0, ev_v0of6_1, ev_v0of6_2,
    ev_half6_0, ev_half6_1, ev_half6_2, ev_fresh]
  show ((val s (b + 5) = ev s A 0 * ev s B 0 ∧ val s (b + 6) = ev s A 4 * ev s B 4 ∧
      ev s R 0 - β * val s (b + 2) = ev s A 0 * ev s B 0 + β * (ev s A 2 * ev s B 4 + ev s A 4 * ev s B 2) ∧
      ev s R 2 - val s (b + 0) = ev s A 0 * ev s B 2 + ev s A 2 * ev s B 0 + β * (ev s A 4 * ev s B 4) ∧
      ev s R 4 - val s (b + 1) = ev s A 0 * ev s B 4 + ev s A 2 * ev s B 2 + ev s A 4 * ev s B 0) ∧
    (val s (b + 3) = ev s A 1 * ev s B 1 ∧ val s (b + 4) = ev s A 5 * ev s B 5 ∧
      val s (b + 0) = ev s A 1 * ev s B 1 + β * (ev s A 3 * ev s B 5 + ev s A 5 * ev s B 3) ∧
      val s (b + 1) = ev s A 1 * ev s B 3 + ev s A 3 * ev s B 1 + β * (ev s A 5 * ev s B 5) ∧
      val s (b + 2) = ev s A 1 * ev s B 5 + ev s A 3 * ev s B 3 + ev s A 5 * ev s B 1)) ∧
    (val s (b + 7) = (ev s A 0 + ev s A 1) * (ev s B 0 + ev s B 1) ∧ val s (b + 8) = (ev s A 4 + ev s A 5) * (ev s B 4 + ev s B 5) ∧
      ev s R 1 + (ev s R 0 - β * val s (b + 2)) + val s (b + 0) = (ev s A 0 + ev s A 1) * (ev s B 0 + ev s B 1) +
        β * ((ev s A 2 + ev s A 3) * (ev s B 4 + ev s B 5) + (ev s A 4 + ev s A 5) * (ev s B 2 + ev s B 3)) ∧
      ev s R 3 + (ev s R 2 - val s (b + 0)) + val s (b + 1) = (ev s A 0 + ev s A 1) * (ev s B 2 + ev s B 3) +
        (ev s A 2 + ev s A 3) * (ev s B 0 + ev s B 1) + β * ((ev s A 4 + ev s A 5) * (ev s B 4 + ev s B 5)) ∧
      ev s R 5 + (ev s R 4 - val s (b + 1)) + val s (b + 2) = (ev s A 0 + ev s A 1) * (ev s B 4 + ev s B 5) +
        (ev s A 2 + ev s A 3) * (ev s B 2 + ev s B 3) + (ev s A 4 + ev s A 5) * (ev s B 0 + ev s B 1)) ↔
    ((val s (b + 0) = ev s A 1 * ev s B 1 + β * (ev s A 3 * ev s B 5 + ev s A 5 * ev s B 3) ∧
      val s (b + 1) = ev s A 1 * ev s B 3 + ev s A 3 * ev s B 1 + β * (ev s A 5 * ev s B 5) ∧
      val s (b + 2) = ev s A 1 * ev s B 5 + ev s A 3 * ev s B 3 + ev s A 5 * ev s B 1) ∧ _) ∧ _
  constructor
  · rintro ⟨⟨⟨p0, p4, x0, x1, x2⟩, q0, q4, y0, y1, y2⟩, r0, r4, z0, z1, z2⟩
    refine ⟨⟨⟨y0, y1, y2⟩, q0, q4, p0, p4, r0, r4⟩, ?_, ?_, ?_, ?_, ?_, ?_⟩
    · linear_combination x0 + β * y2
    · linear_combination z0 - x0 - y0
    · linear_combination x1 + y0
    · linear_combination z1 - x1 - y1
    · linear_combination x2 + y1
    · linear_combination z2 - x2 - y2
  · rintro ⟨⟨⟨y0, y1, y2⟩, q0, q4, p0, p4, r0, r4⟩, t0, t1, t2, t3, t4, t5⟩
    refine ⟨⟨⟨p0, p4, ?_, ?_, ?_⟩, q0, q4, y0, y1, y2⟩, r0, r4, ?_, ?_, ?_⟩
    · linear_combination t0 - β * y2
    · linear_combination t2 - y0
    · linear_combination t4 - y1
    · linear_combination t1 + t0 - β * y2 + y0
    · linear_combination t3 + t2 - y0 + y1
    · linear_combination t5 + t4 - y1 + y2

/-- The Frobenius of Fp6: `W ↦ ζ W`. -/
def frob (ζ : F) (a : Fin 6 → F) : Fin 6 → F := fun i => ζ ^ (i : ℕ) * a i

/-- On the cyclotomic subgroup (`α^(q²) α = α^q`) the formula of the cyclotomic squaring is the square. -/
theorem fp6CycVal_eq {β ζ : F} (hζ : ζ ^ 2 - ζ + 1 = 0) (a : Fin 6 → F)
    (hc : school 6 β a (frob ζ (frob ζ a)) = frob ζ a) : fp6CycVal β a = school 6 β a a := by
  have p2 : ζ ^ 2 = ζ - 1 := by linear_combination hζ
  have p3 : ζ ^ 3 = -1 := by linear_combination (ζ + 1) * hζ
  have p4 : ζ ^ 4 = -ζ := by linear_combination ζ * p3
  have p5 : ζ ^ 5 = 1 - ζ := by linear_combination ζ ^ 2 * p3 - p2
  have p6 : ζ ^ 6 = 1 := by linear_combination (ζ ^ 3 - 1) * p3
  have p8 : ζ ^ 8 = ζ - 1 := by linear_combination ζ ^ 2 * p6 + p2
  have p10 : ζ ^ 10 = -ζ := by linear_combination ζ ^ 4 * p6 + p4
  have f0 : frob ζ (frob ζ a) 0 = a 0 := by show ζ ^ 0 * (ζ ^ 0 * a 0) = _; ring
  have f1 : frob ζ (frob ζ a) 1 = (ζ - 1) * a 1 := by show ζ ^ 1 * (ζ ^ 1 * a 1) = _; rw [← p2]; ring
  have f2 : frob ζ (frob ζ a) 2 = -ζ * a 2 := by show ζ ^ 2 * (ζ ^ 2 * a 2) = _; rw [← p4]; ring
  have f3 : frob ζ (frob ζ a) 3 = a 3 := by show ζ ^ 3 * (ζ ^ 3 * a 3) = _; linear_combination a 3 * p6
  have f4 : frob ζ (frob ζ a) 4 = (ζ - 1) * a 4 := by show ζ ^ 4 * (ζ ^ 4 * a 4) = _; rw [← p8]; ring
  have f5 : frob ζ (frob ζ a) 5 = -ζ * a 5 := by show ζ ^ 5 * (ζ ^ 5 * a 5) = _; rw [← p10]; ring
  rw [school6, fp6Val] at hc
  obtain ⟨g0, g1, g2, g3, g4, g5⟩ := eq_vec6.1 hc.symm
  rw [f0, f1, f2, f3, f4, f5] at g0 g1 g2 g3 g4
  rw [f0, f1, f2, f3, f4, f5] at g5
  have g0 : ζ ^ 0 * a 0 = _ := g0
  have g1 : ζ ^ 1 * a 1 = _ := g1
  have g2 : ζ ^ 2 * a 2 = _ := g2
  have g3 : ζ ^ 3 * a 3 = _ := g3
  have g4 : ζ ^ 4 * a 4 = _ := g4
  have g5 : ζ ^ 5 * a 5 = _ := g5
  rw [p2] at g2
  rw [p3] at g3
  rw [p4] at g4
  rw [p5] at g5
  have k0 : a 0 = a 0 * a 0 + β * (a 3 * a 3) - β * (a 1 * a 5 + a 2 * a 4) := by linear_combination g0
  have k1 : a 1 = a 0 * a 1 + β * (a 3 * a 4 - 2 * a 2 * a 5) := by
    linear_combination (1 - ζ) * g1 + (a 1 - (a 0 * a 1 + β * (a 3 * a 4 - 2 * a 2 * a 5))) * hζ
  have k2 : a 2 = -a 0 * a 2 + a 1 * a 1 + β * (a 4 * a 4 - a 3 * a 5) := by
    linear_combination -ζ * g2 + (a 2 - (-a 0 * a 2 + a 1 * a 1 + β * (a 4 * a 4 - a 3 * a 5))) * hζ
  have k3 : -a 3 = 2 * a 0 * a 3 - a 1 * a 2 - β * (a 4 * a 5) := by linear_combination g3
  have k4 : -a 4 = a 0 * a 4 + a 1 * a 3 - a 2 * a 2 - β * (a 5 * a 5) := by
    linear_combination (1 - ζ) * g4 + (-a 4 - (a 0 * a 4 + a 1 * a 3 - a 2 * a 2 - β * (a 5 * a 5))) * hζ
  have k5 : a 5 = a 0 * a 5 - 2 * a 1 * a 4 + a 2 * a 3 := by
    linear_combination ζ * g5 + (a 5 - (a 0 * a 5 - 2 * a 1 * a 4 + a 2 * a 3)) * hζ
  rw [school6, fp6Val, fp6CycVal, eq_vec6]
  refine ⟨?_, ?_, ?_, ?_, ?_, ?_⟩
  · show 3 * (a 0 * a 0 + β * (a 3 * a 3)) - 2 * a 0 = _
    linear_combination -2 * k0
  · show 3 * β * (2 * a 2 * a 5) + 2 * a 1 = _
    linear_combination 2 * k1
  · show 3 * (a 1 * a 1 + β * (a 4 * a 4)) - 2 * a 2 = _
    linear_combination -2 * k2
  · show 3 * (2 * a 0 * a 3) + 2 * a 3 = _
    linear_combination -2 * k3
  · show 3 * (a 2 * a 2 + β * (a 5 * a 5)) - 2 * a 4 = _
    linear_combination 2 * k4
  · show 3 * (2 * a 1 * a 4) + 2 * a 5 = _
    linear_combination 2 * k5

theorem third_iff (h3 : (3 : F) ≠ 0) {β : F} (hβ : β ≠ 0) (x y : F) : (3 * β)⁻¹ * x = y ↔ x = 3 * β * y := by
  have h0 : 3 * β ≠ 0 := mul_ne_zero h3 hβ
  constructor
  · intro h; rw [← h, mul_inv_cancel_left₀ h0]
  · intro h; rw [h, inv_mul_cancel_left₀ h0]

/-- C119: the cyclotomic squaring of Fp6 accepts exactly the formula's value. -/
theorem fp6Cyc_iff (h2 : (2 : F) ≠ 0) (h3 : (3 : F) ≠ 0) {β : F} (hβ : β ≠ 0) (A R : Elt F 6) (s : Asg F) :
    Sat s (fp6Cyc β A R) ↔ ev s R = fp6CycVal β (ev s A) := by
  rw [fp6CycVal, eq_vec6]
  simp only [fp6Cyc, sat_append, fp2Sq_iff h2, school2, eq_vec2, ev_pair0, ev_pair1, eval_add, eval_sub, eval_smul]
  have t : ∀ x y : F, 3⁻¹ * x = y ↔ x = 3 * y := fun x y => by simpa using third_iff h3 (one_ne_zero (α := F)) x y
  rw [third_iff h3 hβ, t, t, t, t, t]
  show (((ev s R 0 + 2 * ev s A 0 = 3 * (ev s A 0 * ev s A 0 + β * (ev s A 3 * ev s A 3)) ∧
      ev s R 3 - 2 * ev s A 3 = 3 * (ev s A 0 * ev s A 3 + ev s A 3 * ev s A 0)) ∧
    (ev s R 2 + 2 * ev s A 2 = 3 * (ev s A 1 * ev s A 1 + β * (ev s A 4 * ev s A 4)) ∧
      ev s R 5 - 2 * ev s A 5 = 3 * (ev s A 1 * ev s A 4 + ev s A 4 * ev s A 1))) ∧
    (ev s R 4 + 2 * ev s A 4 = 3 * (ev s A 2 * ev s A 2 + β * (ev s A 5 * ev s A 5)) ∧
      ev s R 1 - 2 * ev s A 1 = 3 * β * (ev s A 2 * ev s A 5 + ev s A 5 * ev s A 2))) ↔ _
  constructor
  · rintro ⟨⟨⟨e0, e3⟩, e2, e5⟩, e4, e1⟩
    refine ⟨?_, ?_, ?_, ?_, ?_, ?_⟩
    · linear_combination e0
    · linear_combination e1
    · linear_combination e2
    · linear_combination e3
    · linear_combination e4
    · linear_combination e5
  · rintro ⟨e0, e1, e2, e3, e4, e5⟩
    refine ⟨⟨⟨?_, ?_⟩, ?_, ?_⟩, ?_, ?_⟩
    · linear_combination e0
    · linear_combination e3
    · linear_combination e2
    · linear_combination e5
    · linear_combination e4
    · linear_combination e1

/-- C119: on the cyclotomic subgroup the cyclotomic squaring accepts exactly the squares. -/
theorem fp6Cyc_square (h2 : (2 : F) ≠ 0) (h3 : (3 : F) ≠ 0) {β ζ : F} (hβ : β ≠ 0) (hζ : ζ ^ 2 - ζ + 1 = 0) (A R : Elt F 6) (s : Asg F)
    (hc : school 6 β (ev s A) (frob ζ (frob ζ (ev s A))) = frob ζ (ev s A)) :
    Sat s (fp6Cyc β A R) ↔ ev s R = school 6 β (ev s A) (ev s A) := by
  rw [fp6Cyc_iff h2 h3 hβ, fp6CycVal_eq hζ _ hc]

/-! ### Multiplication by an element without coefficients 0 and 1 -/

/-- What the constraints of `element_fp6_2over3_mul_by_2345` say. -/
theorem fp6Mul2345_iff (h2 : (2 : F) ≠ 0) (h3 : (3 : F) ≠ 0) {β : F} (hβ : β ≠ 0) (b : ℕ) (A B R : Elt F 6) (s : Asg F) :
    Sat s (fp6Mul2345 β b A B R) ↔
      (val s (b + 3) = ev s A 1 * ev s B 1 ∧ val s (b + 4) = ev s A 5 * ev s B 5 ∧
        ev s (fresh 3 b) = school 3 β (ev s (half6 A 1)) (ev s (half6 B 1))) ∧
      (ev s R 0 - β * val s (b + 2) = ev s A 2 * (β * ev s B 4) ∧ ev s R 2 - val s (b + 0) = ev s A 4 * (β * ev s B 4) ∧
        ev s R 4 - val s (b + 1) = ev s A 0 * ev s B 4) ∧
      val s (b + 8) = (ev s A 0 + ev s A 1) * (ev s B 0 + ev s B 1) ∧ val s (b + 9) = (ev s A 4 + ev s A 5) * (ev s B 4 + ev s B 5) ∧
      ev s (addElt (addElt (half6 R 1) (fresh 3 (b + 5))) (fresh 3 b)) =
        school 3 β (ev s (addElt (half6 A 0) (half6 A 1))) (ev s (addElt (half6 B 0) (half6 B 1))) := by
  simp only [fp6Mul2345, sat_append, fp3Mul_iff h2 h3 hβ, sat_cons, sat_nil, Constraint.Holds, eval_sub, eval_smul, and_true,
    ← ev_apply, ev_addElt, ev_half6_0, ev_half6_1, ev_half6_2, ev_fresh]
  constructor
  · rintro ⟨⟨h1, e0, e1, e2⟩, h4, h5, h6⟩
    exact ⟨h1, ⟨e0.symm, e1.symm, e2.symm⟩, h4, h5, h6⟩
  · rintro ⟨h1, ⟨e0, e1, e2⟩, h4, h5, h6⟩
    exact ⟨⟨h1, e0.symm, e1.symm, e2.symm⟩, h4, h5, h6⟩

/-- C120: with the missing multiplication (`v0 = A.data[0] * B.data[0]`) and the two coefficients of `B` zero, the result is the product. -/
theorem fp6Mul2345_partial (h2 : (2 : F) ≠ 0) (h3 : (3 : F) ≠ 0) {β : F} (hβ : β ≠ 0) (b : ℕ) (A B R : Elt F 6) (s : Asg F)
    (hB0 : ev s B 0 = 0) (hB2 : ev s B 2 = 0)
    (hv0 : ev s (fresh 3 (b + 5)) = school 3 β (ev s (half6 A 0)) (ev s (half6 B 0)))
    (hs : Sat s (fp6Mul2345 β b A B R)) : ev s R = school 6 β (ev s A) (ev s B) := by
  obtain ⟨⟨-, -, e1⟩, ⟨r0, r2, r4⟩, -, -, e3⟩ := (fp6Mul2345_iff h2 h3 hβ b A B R s).1 hs
  rw [school3, fp3Val, eq_vec3] at hv0 e1 e3
  obtain ⟨x0, x1, x2⟩ := hv0
  obtain ⟨y0, y1, y2⟩ := e1
  obtain ⟨z0, z1, z2⟩ := e3
  simp only [ev_addElt, ev_half6_0, ev_half6_1, ev_half6_2, ev_fresh] at x0 x1 x2 y0 y1 y2 z0 z1 z2
  have x0 : val s (b + 5 + 0) = ev s A 0 * ev s B 0 + β * (ev s A 2 * ev s B 4 + ev s A 4 * ev s B 2) := x0
  have x1 : val s (b + 5 + 1) = ev s A 0 * ev s B 2 + ev s A 2 * ev s B 0 + β * (ev s A 4 * ev s B 4) := x1
  have x2 : val s (b + 5 + 2) = ev s A 0 * ev s B 4 + ev s A 2 * ev s B 2 + ev s A 4 * ev s B 0 := x2
  have y0 : val s (b + 0) = ev s A 1 * ev s B 1 + β * (ev s A 3 * ev s B 5 + ev s A 5 * ev s B 3) := y0
  have y1 : val s (b + 1) = ev s A 1 * ev s B 3 + ev s A 3 * ev s B 1 + β * (ev s A 5 * ev s B 5) := y1
  have y2 : val s (b + 2) = ev s A 1 * ev s B 5 + ev s A 3 * ev s B 3 + ev s A 5 * ev s B 1 := y2
  have z0 : ev s R 1 + val s (b + 5 + 0) + val s (b + 0) = (ev s A 0 + ev s A 1) * (ev s B 0 + ev s B 1) +
        β * ((ev s A 2 + ev s A 3) * (ev s B 4 + ev s B 5) + (ev s A 4 + ev s A 5) * (ev s B 2 + ev s B 3)) := z0
  have z1 : ev s R 3 + val s (b + 5 + 1) + val s (b + 1) = (ev s A 0 + ev s A 1) * (ev s B 2 + ev s B 3) +
        (ev s A 2 + ev s A 3) * (ev s B 0 + ev s B 1) + β * ((ev s A 4 + ev s A 5) * (ev s B 4 + ev s B 5)) := z1
  have z2 : ev s R 5 + val s (b + 5 + 2) + val s (b + 2) = (ev s A 0 + ev s A 1) * (ev s B 4 + ev s B 5) +
        (ev s A 2 + ev s A 3) * (ev s B 2 + ev s B 3) + (ev s A 4 + ev s A 5) * (ev s B 0 + ev s B 1) := z2
  rw [school6, fp6Val, eq_vec6]
  refine ⟨?_, ?_, ?_, ?_, ?_, ?_⟩
  · linear_combination r0 + β * y2 - ev s A 0 * hB0 - β * ev s A 4 * hB2
  · linear_combination z0 - x0 - y0
  · linear_combination r2 + y0 - ev s A 0 * hB2 - ev s A 2 * hB0
  · linear_combination z1 - x1 - y1
  · linear_combination r4 + y1 - ev s A 2 * hB2 - ev s A 4 * hB0
  · linear_combination z2 - x2 - y2

/-- The assignment with the given values of the variables `1, 2, ...`. -/
def ofList (l : List F) : Asg F := fun n => l.getD (n - 1) 0

/-- C120 is false of the code: `v0` is a fresh element that no constraint determines, so that for all factors the three coefficients of
`result.data[1]` can be anything. -/
theorem fp6Mul2345_forged (h2 : (2 : F) ≠ 0) (h3 : (3 : F) ≠ 0) {β : F} (hβ : β ≠ 0) (a b : Fin 6 → F) (r1 r3 r5 : F) :
    ∃ s : Asg F, ev s (fresh 6 1) = a ∧ ev s (fresh 6 7) = b ∧ Sat s (fp6Mul2345 β 19 (fresh 6 1) (fresh 6 7) (fresh 6 13)) ∧
      ev s (fresh 6 13) 1 = r1 ∧ ev s (fresh 6 13) 3 = r3 ∧ ev s (fresh 6 13) 5 = r5 := by
  let y0 := a 1 * b 1 + β * (a 3 * b 5 + a 5 * b 3)
  let y1 := a 1 * b 3 + a 3 * b 1 + β * (a 5 * b 5)
  let y2 := a 1 * b 5 + a 3 * b 3 + a 5 * b 1
  let z0 := (a 0 + a 1) * (b 0 + b 1) + β * ((a 2 + a 3) * (b 4 + b 5) + (a 4 + a 5) * (b 2 + b 3))
  let z1 := (a 0 + a 1) * (b 2 + b 3) + (a 2 + a 3) * (b 0 + b 1) + β * ((a 4 + a 5) * (b 4 + b 5))
  let z2 := (a 0 + a 1) * (b 4 + b 5) + (a 2 + a 3) * (b 2 + b 3) + (a 4 + a 5) * (b 0 + b 1)
  refine ⟨ofList [a 0, a 1, a 2, a 3, a 4, a 5, b 0, b 1, b 2, b 3, b 4, b 5,
    a 2 * (β * b 4) + β * y2, r1, a 4 * (β * b 4) + y0, r3, a 0 * b 4 + y1, r5,
    y0, y1, y2, a 1 * b 1, a 5 * b 5, z0 - y0 - r1, z1 - y1 - r3, z2 - y2 - r5,
    (a 0 + a 1) * (b 0 + b 1), (a 4 + a 5) * (b 4 + b 5)], ?_, ?_, ?_, ?_, ?_, ?_⟩
  · funext i; rw [ev_fresh]; fin_cases i <;> rfl
  · funext i; rw [ev_fresh]; fin_cases i <;> rfl
  · rw [fp6Mul2345_iff h2 h3 hβ]
    simp only [school3, fp3Val, eq_vec3, ev_addElt, ev_half6_0, ev_half6_1, ev_half6_2, ev_fresh]
    refine ⟨⟨rfl, rfl, rfl, rfl, rfl⟩, ⟨?_, ?_, ?_⟩, rfl, rfl, ?_, ?_, ?_⟩
    · show a 2 * (β * b 4) + β * y2 - β * y2 = a 2 * (β * b 4); ring
    · show a 4 * (β * b 4) + y0 - y0 = a 4 * (β * b 4); ring
    · show a 0 * b 4 + y1 - y1 = a 0 * b 4; ring
    · show r1 + (z0 - y0 - r1) + y0 = z0; ring
    · show r3 + (z1 - y1 - r3) + y1 = z1; ring
    · show r5 + (z2 - y2 - r5) + y2 = z2; ring
  · rw [ev_fresh]; rfl
  · rw [ev_fresh]; rfl
  · rw [ev_fresh]; rfl

/-! ### The honest assignments -/

/-- The result is an element of variables, the auxiliary variables are `b, ..., b + m - 1`. -/
structure Setup {n : ℕ} (R : Elt F n) (r : Fin n → ℕ) (b m : ℕ) : Prop where
  isVar : ∀ i, R i = .var (r i)
  inj : Function.Injective r
  pos : ∀ i, r i ≠ 0
  bpos : b ≠ 0
  out : ∀ i, r i < b ∨ b + m ≤ r i

/-- The factor does not use the result nor the auxiliary variables. -/
def Clear {n k : ℕ} (A : Elt F k) (r : Fin n → ℕ) (b m : ℕ) : Prop :=
  ∀ i, (A i).lc.Uses fun j => (∀ k, j ≠ r k) ∧ (j < b ∨ b + m ≤ j)

theorem mem_writeElt {n : ℕ} {R : Elt F n} {r : Fin n → ℕ} (hR : ∀ i, R i = .var (r i)) (v : Fin n → F) (t : ℕ × F) :
    t ∈ writeElt R v ↔ ∃ i, t = (r i, v i) := by
  simp only [writeElt, List.mem_flatten, List.mem_ofFn]
  constructor
  · rintro ⟨l, ⟨i, rfl⟩, ht⟩
    rw [hR i] at ht
    exact ⟨i, by simpa [Ent.write] using ht⟩
  · rintro ⟨i, rfl⟩
    exact ⟨_, ⟨i, rfl⟩, by rw [hR i]; simp [Ent.write]⟩

theorem writes_ok {n : ℕ} {R : Elt F n} {r : Fin n → ℕ} {b m : ℕ} (hS : Setup R r b m) (s : Asg F) (W : List (ℕ × F)) (f : ℕ → F)
    (v : Fin n → F) (hW : ∀ t ∈ W, (∃ o < m, t = (b + o, f o)) ∨ ∃ i, t = (r i, v i))
    (hf : ∀ o < m, (b + o, f o) ∈ W) (hv : ∀ i, (r i, v i) ∈ W) :
    (∀ o < m, val (s.setAll W) (b + o) = f o) ∧ ev (s.setAll W) R = v ∧
      ∀ {k : ℕ} (A : Elt F k), Clear A r b m → ev (s.setAll W) A = ev s A := by
  refine ⟨fun o ho => ?_, ?_, fun {k} A hA => ?_⟩
  · rw [val_pos _ (by have := hS.bpos; omega)]
    refine Asg.setAll_mem _ _ (hf o ho) fun t ht e => ?_
    rcases hW t ht with ⟨o', ho', rfl⟩ | ⟨i, rfl⟩
    · have : o' = o := by simpa using e
      rw [this]
    · have e : r i = b + o := e
      have := hS.out i; omega
  · funext i
    show (R i).lc.eval _ = v i
    rw [hS.isVar i]
    show (Lc.var (r i)).eval _ = v i
    rw [eval_var, val_pos _ (hS.pos i)]
    refine Asg.setAll_mem _ _ (hv i) fun t ht e => ?_
    rcases hW t ht with ⟨o', ho', rfl⟩ | ⟨i', rfl⟩
    · have e : b + o' = r i := e
      have := hS.out i; omega
    · rw [hS.inj e]
  · funext i
    refine Lc.eval_congr (hA i) fun j hj => Asg.setAll_ne _ _ fun t ht e => ?_
    rcases hW t ht with ⟨o', ho', rfl⟩ | ⟨i', rfl⟩
    · have e : b + o' = j := e
      have := hj.2; omega
    · exact hj.1 i' e.symm

/-- C117: the honest assignment of `element_fp2_mul`. -/
theorem fp2Mul_complete (β : F) {v1 : ℕ} {A B R : Elt F 2} {r : Fin 2 → ℕ} (hS : Setup R r v1 1) (hA : Clear A r v1 1) (hB : Clear B r v1 1)
    (s : Asg F) : Sat (s.setAll (fp2MulAssign β v1 A B R s)) (fp2Mul β v1 A B R) := by
  have h := writes_ok hS s (fp2MulAssign β v1 A B R s) (fun _ => ev s A 1 * ev s B 1) (school 2 β (ev s A) (ev s B)) ?_ ?_ ?_
  · obtain ⟨h1, h2, h3⟩ := h
    rw [fp2Mul_iff, h2, h3 A hA, h3 B hB]
    exact ⟨h1 0 (by omega), rfl⟩
  all_goals simp only [fp2MulAssign, hS.isVar, Ent.write, school2]
  · intro t ht
    simp only [List.mem_cons, List.cons_append, List.nil_append, List.not_mem_nil, or_false] at ht
    rcases ht with rfl | rfl | rfl
    · exact Or.inl ⟨0, by omega, rfl⟩
    · exact Or.inr ⟨0, rfl⟩
    · refine Or.inr ⟨1, Prod.ext rfl ?_⟩
      show _ = ev s A 0 * ev s B 1 + ev s A 1 * ev s B 0
      simp only; ring
  · intro o ho
    obtain rfl : o = 0 := by omega
    simp
  · intro i
    fin_cases i
    · simp
    · have : (r 1, ev s A 0 * ev s B 1 + ev s A 1 * ev s B 0) =
        (r 1, (ev s A 0 + ev s A 1) * (ev s B 0 + ev s B 1) - ev s A 0 * ev s B 0 - ev s A 1 * ev s B 1) := by
        refine Prod.ext rfl ?_; simp only; ring
      show (r 1, ev s A 0 * ev s B 1 + ev s A 1 * ev s B 0) ∈ _
      rw [this]; simp

/-- C117: the honest assignment of `element_fp2_squared`. -/
theorem fp2Sq_complete (h2 : (2 : F) ≠ 0) (β : F) {A R : Elt F 2} {r : Fin 2 → ℕ} {b : ℕ} (hS : Setup R r b 0) (hA : Clear A r b 0)
    (s : Asg F) : Sat (s.setAll (fp2SqAssign β A R s)) (fp2Sq β A R) := by
  have h := writes_ok hS s (fp2SqAssign β A R s) (fun _ => 0) (school 2 β (ev s A) (ev s A)) ?_ ?_ ?_
  · obtain ⟨-, h2', h3⟩ := h
    rw [fp2Sq_iff h2, h2', h3 A hA]
  all_goals simp only [fp2SqAssign, hS.isVar, Ent.write, school2]
  · intro t ht
    simp only [List.mem_cons, List.cons_append, List.nil_append, List.not_mem_nil, or_false] at ht
    rcases ht with rfl | rfl
    · refine Or.inr ⟨1, Prod.ext rfl ?_⟩
      show _ = ev s A 0 * ev s A 1 + ev s A 1 * ev s A 0
      simp only; ring
    · refine Or.inr ⟨0, Prod.ext rfl ?_⟩
      show _ = ev s A 0 * ev s A 0 + β * (ev s A 1 * ev s A 1)
      simp only; ring
  · intro o ho; omega
  · intro i
    fin_cases i
    · have : (r 0, ev s A 0 * ev s A 0 + β * (ev s A 1 * ev s A 1)) =
        (r 0, (ev s A 0 + ev s A 1) * (ev s A 0 + β * ev s A 1) - ev s A 0 * ev s A 1 - β * ev s A 0 * ev s A 1) := by
        refine Prod.ext rfl ?_; simp only; ring
      show (r 0, ev s A 0 * ev s A 0 + β * (ev s A 1 * ev s A 1)) ∈ _
      rw [this]; simp
    · have : (r 1, ev s A 0 * ev s A 1 + ev s A 1 * ev s A 0) = (r 1, 2 * ev s A 0 * ev s A 1) := by
        refine Prod.ext rfl ?_; simp only; ring
      show (r 1, ev s A 0 * ev s A 1 + ev s A 1 * ev s A 0) ∈ _
      rw [this]; simp

/-- The writes of auxiliary variables followed by the result. -/
theorem writes_app {n : ℕ} {R : Elt F n} {r : Fin n → ℕ} {b m : ℕ} (hS : Setup R r b m) (s : Asg F) (L : List (ℕ × F)) (f : ℕ → F)
    (v : Fin n → F) (hL : ∀ t, t ∈ L ↔ ∃ o < m, t = (b + o, f o)) :
    (∀ o < m, val (s.setAll (L ++ writeElt R v)) (b + o) = f o) ∧ ev (s.setAll (L ++ writeElt R v)) R = v ∧
      ∀ {k : ℕ} (A : Elt F k), Clear A r b m → ev (s.setAll (L ++ writeElt R v)) A = ev s A := by
  refine writes_ok hS s _ f v (fun t ht => ?_) (fun o ho => ?_) fun i => ?_
  · rcases List.mem_append.1 ht with h | h
    · exact Or.inl ((hL t).1 h)
    · exact Or.inr ((mem_writeElt hS.isVar v t).1 h)
  · exact List.mem_append_left _ ((hL _).2 ⟨o, ho, rfl⟩)
  · exact List.mem_append_right _ ((mem_writeElt hS.isVar v _).2 ⟨i, rfl⟩)

/-- C117: the honest assignment of `element_fp2_mul_by_lc` and `element_fp3_mul_by_lc`. -/
theorem mulByLc_complete {n : ℕ} {A R : Elt F n} {l : Lc F} {r : Fin n → ℕ} {b : ℕ} (hS : Setup R r b 0) (hA : Clear A r b 0)
    (hl : l.Uses fun j => ∀ k, j ≠ r k) (s : Asg F) : Sat (s.setAll (mulByLcAssign A l R s)) (mulByLc A l R) := by
  obtain ⟨-, h2, h3⟩ := writes_app hS s [] (fun _ => 0) (fun i => ev s A i * l.eval s) (by simp)
  have hl' : l.eval (s.setAll (mulByLcAssign A l R s)) = l.eval s := by
    refine Lc.eval_congr hl fun j hj => Asg.setAll_ne _ _ fun t ht e => ?_
    obtain ⟨i, rfl⟩ := (mem_writeElt hS.isVar _ t).1 ht
    exact hj i e.symm
  rw [mulByLc_iff]
  intro i
  rw [hl']
  show ev (s.setAll ([] ++ writeElt R fun i => ev s A i * l.eval s)) R i = _
  rw [h2]
  show _ = ev (s.setAll ([] ++ writeElt R fun i => ev s A i * l.eval s)) A i * _
  rw [h3 A hA]

/-- The same with the auxiliary variables in the order `p`. -/
theorem writes_perm {n : ℕ} {R : Elt F n} {r : Fin n → ℕ} {b m : ℕ} (hS : Setup R r b m) (s : Asg F) (W : List (ℕ × F)) (p : List ℕ)
    (f : ℕ → F) (v : Fin n → F) (hp : ∀ o, o ∈ p ↔ o < m) (hW : W = (p.map fun o => (b + o, f o)) ++ writeElt R v) :
    (∀ o < m, val (s.setAll W) (b + o) = f o) ∧ ev (s.setAll W) R = v ∧
      ∀ {k : ℕ} (A : Elt F k), Clear A r b m → ev (s.setAll W) A = ev s A := by
  subst hW
  refine writes_app hS s _ f v fun t => ?_
  simp only [List.mem_map, hp]
  exact exists_congr fun o => and_congr_right fun _ => eq_comm

/-- C117: the honest assignment of `element_fp3_mul`. -/
theorem fp3Mul_complete (h2 : (2 : F) ≠ 0) (h3 : (3 : F) ≠ 0) {β : F} (hβ : β ≠ 0) {b : ℕ} {A B R : Elt F 3} {r : Fin 3 → ℕ}
    (hS : Setup R r b 2) (hA : Clear A r b 2) (hB : Clear B r b 2) (s : Asg F) :
    Sat (s.setAll (fp3MulAssign β b (b + 1) A B R s)) (fp3Mul β b (b + 1) A B R) := by
  obtain ⟨f1, f2, f3⟩ := writes_perm hS s (fp3MulAssign β b (b + 1) A B R s) [0, 1]
    (fun o => [ev s A 0 * ev s B 0, ev s A 2 * ev s B 2].getD o 0) (fp3Val β (ev s A) (ev s B)) (by intro o; simp; omega) rfl
  rw [fp3Mul_iff h2 h3 hβ, f2, f3 A hA, f3 B hB, school3]
  exact ⟨f1 0 (by omega), f1 1 (by omega), rfl⟩

/-- C118: the honest assignment of `element_fp4_tower_mul`. -/
theorem fp4Tower_complete (β : F) {b : ℕ} {A B R : Elt F 4} {r : Fin 4 → ℕ}
    (hS : Setup R r b 5) (hA : Clear A r b 5) (hB : Clear B r b 5) (s : Asg F) :
    Sat (s.setAll (fp4TowerAssign β b A B R s)) (fp4Tower β b A B R) := by
  obtain ⟨f1, f2, f3⟩ := writes_perm hS s (fp4TowerAssign β b A B R s) [3, 2, 0, 1, 4]
    (fun o => [ev s A 1 * ev s B 1 + β * (ev s A 3 * ev s B 3),
      (ev s A 1 + ev s A 3) * (ev s B 1 + ev s B 3) - ev s A 1 * ev s B 1 - ev s A 3 * ev s B 3,
      ev s A 3 * ev s B 3, ev s A 2 * ev s B 2, ev s (addElt (half4 A 0) (half4 A 1)) 1 * ev s (addElt (half4 B 0) (half4 B 1)) 1].getD o 0)
    (fp4Val β (ev s A) (ev s B)) (by intro o; simp; omega) rfl
  rw [fp4Tower_iff, f2, f3 A hA, f3 B hB, school4]
  refine ⟨f1 0 (by omega), (f1 1 (by omega)).trans ?_, f1 2 (by omega), f1 3 (by omega), (f1 4 (by omega)).trans ?_, rfl⟩
  · show (ev s A 1 + ev s A 3) * (ev s B 1 + ev s B 3) - ev s A 1 * ev s B 1 - ev s A 3 * ev s B 3 = _
    ring
  · show ev s (addElt (half4 A 0) (half4 A 1)) 1 * ev s (addElt (half4 B 0) (half4 B 1)) 1 = _
    rw [ev_addElt, ev_addElt]; rfl

/-- C118: the honest assignment of `element_fp4_direct_mul`. -/
theorem fp4Direct_complete (h2 : (2 : F) ≠ 0) (h3 : (3 : F) ≠ 0) (h5 : (5 : F) ≠ 0) {β : F} (hβ : β ≠ 1) {b : ℕ} {A B R : Elt F 4}
    {r : Fin 4 → ℕ} (hS : Setup R r b 3) (hA : Clear A r b 3) (hB : Clear B r b 3) (s : Asg F) :
    Sat (s.setAll (fp4DirectAssign β b (b + 1) (b + 2) A B R s)) (fp4Direct β b (b + 1) (b + 2) A B R) := by
  obtain ⟨f1, f2, f3⟩ := writes_perm hS s (fp4DirectAssign β b (b + 1) (b + 2) A B R s) [0, 1, 2]
    (fun o => [(ev s A 0 + ev s A 1 + ev s A 2 + ev s A 3) * (ev s B 0 + ev s B 1 + ev s B 2 + ev s B 3),
      (ev s A 0 - ev s A 1 + ev s A 2 - ev s A 3) * (ev s B 0 - ev s B 1 + ev s B 2 - ev s B 3), ev s A 3 * ev s B 3].getD o 0)
    (fp4Val β (ev s A) (ev s B)) (by intro o; simp; omega) rfl
  rw [fp4Direct_iff h2 h3 h5 hβ, f2, f3 A hA, f3 B hB, school4]
  exact ⟨f1 0 (by omega), f1 1 (by omega), f1 2 (by omega), rfl⟩

/-- C118: the honest assignment of `element_fp4_squared`. -/
theorem fp4Sq_complete (h2 : (2 : F) ≠ 0) (β : F) {b : ℕ} {A R : Elt F 4} {r : Fin 4 → ℕ} (hS : Setup R r b 2) (hA : Clear A r b 2)
    (s : Asg F) : Sat (s.setAll (fp4SqAssign β b A R s)) (fp4Sq β b A R) := by
  obtain ⟨f1, f2, f3⟩ := writes_perm hS s (fp4SqAssign β b A R s) [1, 0]
    (fun o => [(ev s A 1 + ev s A 3) * (ev s A 1 + β * ev s A 3) - ev s A 1 * ev s A 3 - β * ev s A 1 * ev s A 3,
      2 * ev s A 1 * ev s A 3].getD o 0) (fp4Val β (ev s A) (ev s A)) (by intro o; simp; omega) rfl
  rw [fp4Sq_iff h2, f2, f3 A hA, school4]
  refine ⟨(f1 0 (by omega)).trans ?_, (f1 1 (by omega)).trans ?_, rfl⟩
  · show (ev s A 1 + ev s A 3) * (ev s A 1 + β * ev s A 3) - ev s A 1 * ev s A 3 - β * ev s A 1 * ev s A 3 = _
    ring
  · show 2 * ev s A 1 * ev s A 3 = _
    ring

/-- C118: the honest assignment of `element_fp4_cyclotomic_squared`, on elements of norm 1. -/
theorem fp4Cyc_complete (h2 : (2 : F) ≠ 0) {β : F} (hβ : β ≠ 0) {b : ℕ} {A R : Elt F 4} {r : Fin 4 → ℕ} (hS : Setup R r b 0)
    (hA : Clear A r b 0) (s : Asg F) (hn : school 4 β (ev s A) (conj4 (ev s A)) = ![1, 0, 0, 0]) :
    Sat (s.setAll (fp4CycAssign β A R s)) (fp4Cyc β A R) := by
  obtain ⟨-, f2, f3⟩ := writes_perm hS s (fp4CycAssign β A R s) [] (fun _ => 0) (fp4Val β (ev s A) (ev s A)) (by simp) rfl
  rw [fp4Cyc_iff h2 hβ _ _ _ (by rw [f3 A hA]; exact hn), f2, f3 A hA, school4]

/-- C119: the honest assignment of `element_fp6_2over3_mul`. -/
theorem fp6Mul_complete (h2 : (2 : F) ≠ 0) (h3 : (3 : F) ≠ 0) {β : F} (hβ : β ≠ 0) {b : ℕ} {A B R : Elt F 6} {r : Fin 6 → ℕ}
    (hS : Setup R r b 9) (hA : Clear A r b 9) (hB : Clear B r b 9) (s : Asg F) :
    Sat (s.setAll (fp6MulAssign β b A B R s)) (fp6Mul β b A B R) := by
  obtain ⟨f1, f2, f3⟩ := writes_perm hS s (fp6MulAssign β b A B R s) [5, 6, 3, 4, 0, 1, 2, 7, 8]
    (fun o => [fp3Val β (ev s (half6 A 1)) (ev s (half6 B 1)) 0, fp3Val β (ev s (half6 A 1)) (ev s (half6 B 1)) 1,
      fp3Val β (ev s (half6 A 1)) (ev s (half6 B 1)) 2, ev s A 1 * ev s B 1, ev s A 5 * ev s B 5, ev s A 0 * ev s B 0, ev s A 4 * ev s B 4,
      ev s (addElt (half6 A 0) (half6 A 1)) 0 * ev s (addElt (half6 B 0) (half6 B 1)) 0,
      ev s (addElt (half6 A 0) (half6 A 1)) 2 * ev s (addElt (half6 B 0) (half6 B 1)) 2].getD o 0)
    (fp6Val β (ev s A) (ev s B)) (by intro o; simp; omega) rfl
  have g : ∀ X : Elt F 6, Clear X r b 9 → ev (s.setAll (fp6MulAssign β b A B R s)) (half6 X 1) = ev s (half6 X 1) := fun X hX => by
    have := f3 X hX
    funext i; fin_cases i
    · exact congrFun this 1
    · exact congrFun this 3
    · exact congrFun this 5
  rw [fp6Mul_iff h2 h3 hβ, f2, f3 A hA, f3 B hB, school6, school3, g A hA, g B hB]
  refine ⟨⟨?_, f1 3 (by omega), f1 4 (by omega), f1 5 (by omega), f1 6 (by omega), (f1 7 (by omega)).trans ?_,
    (f1 8 (by omega)).trans ?_⟩, rfl⟩
  · funext i
    rw [ev_fresh]
    fin_cases i
    · exact f1 0 (by omega)
    · exact f1 1 (by omega)
    · exact f1 2 (by omega)
  · show ev s (addElt (half6 A 0) (half6 A 1)) 0 * ev s (addElt (half6 B 0) (half6 B 1)) 0 = _
    rw [ev_addElt, ev_addElt]; rfl
  · show ev s (addElt (half6 A 0) (half6 A 1)) 2 * ev s (addElt (half6 B 0) (half6 B 1)) 2 = _
    rw [ev_addElt, ev_addElt]; rfl

/-- C119: the honest assignment of `element_fp6_2over3_cyclotomic_squared`. -/
theorem fp6Cyc_complete (h2 : (2 : F) ≠ 0) (h3 : (3 : F) ≠ 0) {β : F} (hβ : β ≠ 0) {b : ℕ} {A R : Elt F 6} {r : Fin 6 → ℕ}
    (hS : Setup R r b 0) (hA : Clear A r b 0) (s : Asg F) : Sat (s.setAll (fp6CycAssign β A R s)) (fp6Cyc β A R) := by
  obtain ⟨-, f2, f3⟩ := writes_perm hS s (fp6CycAssign β A R s) [] (fun _ => 0) (fp6CycVal β (ev s A)) (by simp) rfl
  rw [fp6Cyc_iff h2 h3 hβ, f2, f3 A hA]

/-- C120: the honest assignment of `element_fp6_2over3_mul_by_2345`. -/
theorem fp6Mul2345_complete (h2 : (2 : F) ≠ 0) (h3 : (3 : F) ≠ 0) {β : F} (hβ : β ≠ 0) {b : ℕ} {A B R : Elt F 6} {r : Fin 6 → ℕ}
    (hS : Setup R r b 10) (hA : Clear A r b 10) (hB : Clear B r b 10) (s : Asg F) (hB0 : ev s B 0 = 0) (hB2 : ev s B 2 = 0) :
    Sat (s.setAll (fp6Mul2345Assign β b A B R s)) (fp6Mul2345 β b A B R) := by
  obtain ⟨f1, f2, f3⟩ := writes_perm hS s (fp6Mul2345Assign β b A B R s) [3, 4, 0, 1, 2, 5, 6, 7, 8, 9]
    (fun o => [fp3Val β (ev s (half6 A 1)) (ev s (half6 B 1)) 0, fp3Val β (ev s (half6 A 1)) (ev s (half6 B 1)) 1,
      fp3Val β (ev s (half6 A 1)) (ev s (half6 B 1)) 2, ev s A 1 * ev s B 1, ev s A 5 * ev s B 5,
      fp3Val β (ev s (half6 A 0)) (ev s (half6 B 0)) 0, fp3Val β (ev s (half6 A 0)) (ev s (half6 B 0)) 1,
      fp3Val β (ev s (half6 A 0)) (ev s (half6 B 0)) 2,
      ev s (addElt (half6 A 0) (half6 A 1)) 0 * ev s (addElt (half6 B 0) (half6 B 1)) 0,
      ev s (addElt (half6 A 0) (half6 A 1)) 2 * ev s (addElt (half6 B 0) (half6 B 1)) 2].getD o 0)
    (fp6Val β (ev s A) (ev s B)) (by intro o; simp; omega) rfl
  have gA : ∀ i : Fin 6, ev (s.setAll (fp6Mul2345Assign β b A B R s)) A i = ev s A i := fun i => congrFun (f3 A hA) i
  have gB : ∀ i : Fin 6, ev (s.setAll (fp6Mul2345Assign β b A B R s)) B i = ev s B i := fun i => congrFun (f3 B hB) i
  have gR : ∀ i : Fin 6, ev (s.setAll (fp6Mul2345Assign β b A B R s)) R i = fp6Val β (ev s A) (ev s B) i := fun i => congrFun f2 i
  rw [fp6Mul2345_iff h2 h3 hβ]
  simp only [school3, fp3Val, eq_vec3, ev_addElt, ev_half6_0, ev_half6_1, ev_half6_2, ev_fresh, gA, gB, gR]
  have y0 := f1 0 (by omega)
  have y1 := f1 1 (by omega)
  have y2 := f1 2 (by omega)
  have x0 : _ = ev s A 0 * ev s B 0 + β * (ev s A 2 * ev s B 4 + ev s A 4 * ev s B 2) := f1 5 (by omega)
  have x1 : _ = ev s A 0 * ev s B 2 + ev s A 2 * ev s B 0 + β * (ev s A 4 * ev s B 4) := f1 6 (by omega)
  have x2 : _ = ev s A 0 * ev s B 4 + ev s A 2 * ev s B 2 + ev s A 4 * ev s B 0 := f1 7 (by omega)
  have y0 : _ = ev s A 1 * ev s B 1 + β * (ev s A 3 * ev s B 5 + ev s A 5 * ev s B 3) := y0
  have y1 : _ = ev s A 1 * ev s B 3 + ev s A 3 * ev s B 1 + β * (ev s A 5 * ev s B 5) := y1
  have y2 : _ = ev s A 1 * ev s B 5 + ev s A 3 * ev s B 3 + ev s A 5 * ev s B 1 := y2
  have r0 : fp6Val β (ev s A) (ev s B) 0 = ev s A 0 * ev s B 0 +
    β * (ev s A 1 * ev s B 5 + ev s A 2 * ev s B 4 + ev s A 3 * ev s B 3 + ev s A 4 * ev s B 2 + ev s A 5 * ev s B 1) := rfl
  have r1 : fp6Val β (ev s A) (ev s B) 1 = ev s A 0 * ev s B 1 + ev s A 1 * ev s B 0 +
    β * (ev s A 2 * ev s B 5 + ev s A 3 * ev s B 4 + ev s A 4 * ev s B 3 + ev s A 5 * ev s B 2) := rfl
  have r2 : fp6Val β (ev s A) (ev s B) 2 = ev s A 0 * ev s B 2 + ev s A 1 * ev s B 1 + ev s A 2 * ev s B 0 +
    β * (ev s A 3 * ev s B 5 + ev s A 4 * ev s B 4 + ev s A 5 * ev s B 3) := rfl
  have r3 : fp6Val β (ev s A) (ev s B) 3 = ev s A 0 * ev s B 3 + ev s A 1 * ev s B 2 + ev s A 2 * ev s B 1 + ev s A 3 * ev s B 0 +
    β * (ev s A 4 * ev s B 5 + ev s A 5 * ev s B 4) := rfl
  have r4 : fp6Val β (ev s A) (ev s B) 4 = ev s A 0 * ev s B 4 + ev s A 1 * ev s B 3 + ev s A 2 * ev s B 2 + ev s A 3 * ev s B 1 +
    ev s A 4 * ev s B 0 + β * (ev s A 5 * ev s B 5) := rfl
  have r5 : fp6Val β (ev s A) (ev s B) 5 = ev s A 0 * ev s B 5 + ev s A 1 * ev s B 4 + ev s A 2 * ev s B 3 + ev s A 3 * ev s B 2 +
    ev s A 4 * ev s B 1 + ev s A 5 * ev s B 0 := rfl
  have w8 := f1 8 (by omega)
  have w9 := f1 9 (by omega)
  have w8 : _ = ev s (addElt (half6 A 0) (half6 A 1)) 0 * ev s (addElt (half6 B 0) (half6 B 1)) 0 := w8
  have w9 : _ = ev s (addElt (half6 A 0) (half6 A 1)) 2 * ev s (addElt (half6 B 0) (half6 B 1)) 2 := w9
  rw [ev_addElt, ev_addElt] at w8 w9
  refine ⟨⟨f1 3 (by omega), f1 4 (by omega), y0, y1, y2⟩, ⟨?_, ?_, ?_⟩, w8, w9, ?_, ?_, ?_⟩
  · rw [r0, y2, hB0, hB2]; ring
  · rw [r2, y0, hB0, hB2]; ring
  · rw [r4, y1, hB0, hB2]; ring
  · refine (congrArg₂ (· + ·) (congrArg₂ (· + ·) r1 x0) y0).trans ?_
    show _ = (ev s A 0 + ev s A 1) * (ev s B 0 + ev s B 1) +
        β * ((ev s A 2 + ev s A 3) * (ev s B 4 + ev s B 5) + (ev s A 4 + ev s A 5) * (ev s B 2 + ev s B 3))
    ring
  · refine (congrArg₂ (· + ·) (congrArg₂ (· + ·) r3 x1) y1).trans ?_
    show _ = (ev s A 0 + ev s A 1) * (ev s B 2 + ev s B 3) +
        (ev s A 2 + ev s A 3) * (ev s B 0 + ev s B 1) + β * ((ev s A 4 + ev s A 5) * (ev s B 4 + ev s B 5))
    ring
  · refine (congrArg₂ (· + ·) (congrArg₂ (· + ·) r5 x2) y2).trans ?_
    show _ = (ev s A 0 + ev s A 1) * (ev s B 4 + ev s B 5) +
        (ev s A 2 + ev s A 3) * (ev s B 2 + ev s B 3) + (ev s A 4 + ev s A 5) * (ev s B 0 + ev s B 1)
    ring

/-! ### Cases -/

private instance : Fact (Nat.Prime 7) := ⟨by decide⟩
private instance : Fact (Nat.Prime 13) := ⟨by decide⟩

theorem setup_fresh (n b m : ℕ) (hb : b ≠ 0) : Setup (fresh n b : Elt F n) (fun i => b + i) (b + n) m :=
  ⟨fun _ => rfl, fun i j e => Fin.ext (by simpa using e), fun i => by omega, by omega, fun i => by have := i.2; omega⟩

theorem clear_fresh (k a n b m : ℕ) (h : a + k ≤ b) : Clear (fresh k a : Elt F k) (fun i : Fin n => b + i) (b + n) m := fun i t ht => by
  have := i.2
  have e : t = (a + (i : ℕ), 1) := by simpa [fresh, Ent.lc, Lc.var] using ht
  subst e
  exact Or.inr ⟨fun k => by simp only; omega, Or.inl (by simp only; omega)⟩

/-- Products of fresh elements `A`, `B` into a fresh element: the hypotheses of the completeness theorems are met. -/
example (s : Asg (ZMod 13)) : Sat (s.setAll (fp4TowerAssign 2 13 (fresh 4 1) (fresh 4 5) (fresh 4 9) s))
    (fp4Tower 2 13 (fresh 4 1) (fresh 4 5) (fresh 4 9)) :=
  fp4Tower_complete 2 (setup_fresh 4 9 5 (by omega)) (clear_fresh 4 1 4 9 5 (by omega)) (clear_fresh 4 5 4 9 5 (by omega)) s

example (s : Asg (ZMod 13)) : Sat (s.setAll (fp6MulAssign 2 19 (fresh 6 1) (fresh 6 7) (fresh 6 13) s))
    (fp6Mul 2 19 (fresh 6 1) (fresh 6 7) (fresh 6 13)) :=
  fp6Mul_complete (by decide) (by decide) (by decide) (setup_fresh 6 13 9 (by omega)) (clear_fresh 6 1 6 13 9 (by omega))
    (clear_fresh 6 7 6 13 9 (by omega)) s

/-- An element of norm 1 in the extension of degree 4 of `ZMod 13`. -/
example : school 4 (2 : ZMod 13) ![9, 2, 9, 1] (conj4 ![9, 2, 9, 1]) = ![1, 0, 0, 0] ∧
    school 4 (2 : ZMod 13) ![9, 2, 9, 1] ![9, 2, 9, 1] = ![4, 7, 12, 2] := by decide +kernel

/-- An element of the cyclotomic subgroup in the extension of degree 6 of `ZMod 7`. -/
example : (3 : ZMod 7) ^ 2 - 3 + 1 = 0 ∧ school 6 (3 : ZMod 7) ![4, 5, 6, 1, 2, 0] (frob 3 (frob 3 ![4, 5, 6, 1, 2, 0])) =
    frob 3 ![4, 5, 6, 1, 2, 0] ∧ school 6 (3 : ZMod 7) ![4, 5, 6, 1, 2, 0] ![4, 5, 6, 1, 2, 0] = ![0, 3, 1, 5, 6, 4] := by decide +kernel

/-- A forged product: `(1 + W)(W + W^3)` with third coefficient 5 instead of 1. -/
example : ∃ s : Asg (ZMod 7), ev s (fresh 6 1) = ![1, 1, 0, 0, 0, 0] ∧ ev s (fresh 6 7) = ![0, 1, 0, 1, 0, 0] ∧
    Sat s (fp6Mul2345 3 19 (fresh 6 1) (fresh 6 7) (fresh 6 13)) ∧
      ev s (fresh 6 13) ≠ school 6 3 ![1, 1, 0, 0, 0, 0] ![0, 1, 0, 1, 0, 0] := by
  obtain ⟨s, h1, h2, h3, -, h5, -⟩ := fp6Mul2345_forged (F := ZMod 7) (by decide) (by decide) (β := 3) (by decide) ![1, 1, 0, 0, 0, 0]
    ![0, 1, 0, 1, 0, 0] 1 5 0
  refine ⟨s, h1, h2, h3, fun e => ?_⟩
  rw [e] at h5
  revert h5
  decide +kernel

end Ext
end R1cs
end Verif
