import Verif.Model.R1csWeier
import Verif.Core.Weierstrass
import Verif.Props.R1csCurve
import Mathlib.Algebra.BigOperators.Fin

/-!
# C159, C160: points of short Weierstrass curves in r1cs
-/

set_option linter.unusedSectionVars false
set_option linter.unusedSimpArgs false
set_option linter.unusedVariables false

namespace Verif
namespace R1cs
namespace Weier
open WeierstrassCurve.Affine Weierstrass
open Curve (Pt agree eval_vars uses_var)

section
variable {F : Type*} [Field F] {a b : F}

/-- The linear combinations have the coordinates of the point, which is not neutral. -/
def Coords (s : Asg F) (P : Pt F) (G : (curve a b).Point) : Prop := ∃ x y h, G = Point.some x y h ∧ P.eval s = (x, y)

theorem Coords.ne {s : Asg F} {P : Pt F} {G : (curve a b).Point} (h : Coords s P G) : G ≠ 0 := by
  obtain ⟨x, y, n, rfl, -⟩ := h
  exact Point.some_ne_zero n

/-! ### C159 -/

/-- **C159**, validity: accepted exactly if the point is on the curve and the two squares are squares. -/
theorem wellFormed_iff (s : Asg F) (k : WellFormed F) : Sat s (k.gates a b) ↔
    (k.P.Y.eval s ^ 2 = k.P.X.eval s ^ 3 + a * k.P.X.eval s + b ∧ val s k.xsq = k.P.X.eval s ^ 2 ∧ val s k.ysq = k.P.Y.eval s ^ 2) := by
  simp only [WellFormed.gates, sat_cons, sat_nil, and_true, Constraint.Holds, eval_add, eval_var, eval_const]
  constructor
  · rintro ⟨h1, h2, h3⟩
    refine ⟨?_, by rw [← h1]; ring, by rw [← h2]; ring⟩
    rw [← h1, ← h2] at h3
    linear_combination -h3
  · rintro ⟨h1, h2, h3⟩
    rw [h2, h3]
    exact ⟨by ring, by ring, by linear_combination -h1⟩

/-- The honest assignment is accepted for points of the curve. -/
theorem wellFormed_complete (k : WellFormed F) (s : Asg F) (hx0 : k.xsq ≠ 0) (hy0 : k.ysq ≠ 0) (hne : k.xsq ≠ k.ysq)
    (hX : k.P.X.Uses fun i => i ≠ k.xsq ∧ i ≠ k.ysq) (hY : k.P.Y.Uses fun i => i ≠ k.xsq ∧ i ≠ k.ysq)
    (h : k.P.Y.eval s ^ 2 = k.P.X.eval s ^ 3 + a * k.P.X.eval s + b) : Sat (run k.steps s) (k.gates a b) := by
  have hs : Ssa k.steps := by
    refine ⟨hx0, ?_, by simpa using hne.symm, hy0, ?_, by simp, trivial⟩
    · intro s s' h
      dsimp only
      rw [agree hX fun i hi => h i ⟨hi.1, by simpa using hi.2⟩]
    · intro s s' h
      dsimp only
      rw [agree hY fun i hi => h i ⟨hi.2, by simp⟩]
  have e := run_eq _ hs s
  simp only [WellFormed.steps, List.mem_cons, List.not_mem_nil, or_false, forall_eq_or_imp, forall_eq] at e
  have hw : Writes k.steps (fun i => i = k.xsq ∨ i = k.ysq) := by
    intro t ht
    simp only [WellFormed.steps, List.mem_cons, List.not_mem_nil, or_false] at ht
    rcases ht with rfl | rfl <;> simp
  have kp : ∀ i, i ≠ k.xsq ∧ i ≠ k.ysq → val (run k.steps s) i = val s i := fun i hi => run_keep _ s hw (by tauto)
  refine (wellFormed_iff _ k).2 ⟨?_, e.1, e.2⟩
  rw [agree hX kp, agree hY kp]; exact h

theorem add_gates_iff (s : Asg F) (k : Add F) : Sat s k.gates ↔ k.B.X.eval s ≠ k.A.X.eval s ∧ val s k.inv = (k.B.X.eval s - k.A.X.eval s)⁻¹ ∧
    val s k.lambda * (k.B.X.eval s - k.A.X.eval s) = k.B.Y.eval s - k.A.Y.eval s ∧ val s k.x = val s k.lambda ^ 2 - k.A.X.eval s - k.B.X.eval s ∧
    val s k.y = val s k.lambda * (k.A.X.eval s - val s k.x) - k.A.Y.eval s := by
  simp only [Add.gates, sat_cons, sat_nil, and_true, Constraint.Holds, eval_sub, eval_add, eval_var, eval_const]
  constructor
  · rintro ⟨h1, h2, h3, h4⟩
    have hne : k.B.X.eval s - k.A.X.eval s ≠ 0 := right_ne_zero_of_mul_eq_one h4
    exact ⟨sub_ne_zero.1 hne, eq_inv_of_mul_eq_one_left h4, h1, by linear_combination -h2, by linear_combination -h3⟩
  · rintro ⟨h0, h1, h2, h3, h4⟩
    refine ⟨h2, by linear_combination -h3, by linear_combination -h4, ?_⟩
    rw [h1, inv_mul_cancel₀ (sub_ne_zero.2 h0)]

/-- **C159**, addition: an accepted result is the sum, and the abscissas differ. -/
theorem add_sound [DecidableEq F] {s : Asg F} {k : Add F} {P Q : (curve a b).Point} (hP : Coords s k.A P) (hQ : Coords s k.B Q) (h : Sat s k.gates) :
    Coords s (Pt.vars k.x k.y) (P + Q) := by
  obtain ⟨h0, -, h1, h2, h3⟩ := (add_gates_iff s k).1 h
  obtain ⟨x1, y1, n1, rfl, e1⟩ := hP
  obtain ⟨x2, y2, n2, rfl, e2⟩ := hQ
  simp only [Pt.eval, Prod.mk.injEq] at e1 e2
  rw [e1.1, e2.1] at h0 h2
  rw [e1.1, e1.2, e2.1, e2.2] at h1
  rw [e1.1, e1.2] at h3
  obtain ⟨n3, e⟩ := add_cases n1 n2 (val s k.lambda) (Or.inl ⟨h0.symm, h1⟩)
  refine ⟨_, _, n3, e, ?_⟩
  rw [eval_vars, h3, h2]

/-- Equal or opposite points are rejected. -/
theorem add_rejects [DecidableEq F] {s : Asg F} {k : Add F} {P Q : (curve a b).Point} (hP : Coords s k.A P) (hQ : Coords s k.B Q) (h : P = Q ∨ P = -Q) :
    ¬ Sat s k.gates := by
  intro hs
  have h0 := ((add_gates_iff s k).1 hs).1
  obtain ⟨x1, y1, n1, rfl, e1⟩ := hP
  obtain ⟨x2, y2, n2, rfl, e2⟩ := hQ
  simp only [Pt.eval, Prod.mk.injEq] at e1 e2
  rw [e1.1, e2.1] at h0
  rcases h with h | h
  · exact h0 ((Point.some.injEq _ _ _ _ _ _).mp h).1.symm
  · rw [Point.neg_some] at h
    exact h0 ((Point.some.injEq _ _ _ _ _ _).mp h).1.symm

/-- Points that are neither equal nor opposite have different abscissas. -/
theorem x_ne_of [DecidableEq F] {s : Asg F} {A B : Pt F} {P Q : (curve a b).Point} (hP : Coords s A P) (hQ : Coords s B Q) (h1 : P ≠ Q) (h2 : P + Q ≠ 0) :
    B.X.eval s ≠ A.X.eval s := by
  obtain ⟨x1, y1, n1, rfl, e1⟩ := hP
  obtain ⟨x2, y2, n2, rfl, e2⟩ := hQ
  simp only [Pt.eval, Prod.mk.injEq] at e1 e2
  rw [e1.1, e2.1]
  rintro rfl
  rcases eq_or_opp n1 n2 with h | h
  · exact h1 h
  · exact h2 h

theorem dbl_gates_iff (s : Asg F) (k : Dbl F) : Sat s (k.gates a) ↔ val s k.xsq = k.A.X.eval s ^ 2 ∧
    2 * k.A.Y.eval s * val s k.lambda = 3 * k.A.X.eval s ^ 2 + a ∧ val s k.x = val s k.lambda ^ 2 - 2 * k.A.X.eval s ∧
    val s k.y = val s k.lambda * (k.A.X.eval s - val s k.x) - k.A.Y.eval s := by
  simp only [Dbl.gates, sat_cons, sat_nil, and_true, Constraint.Holds, eval_sub, eval_add, eval_var, eval_const, eval_smul]
  constructor
  · rintro ⟨h1, h2, h3, h4⟩
    exact ⟨by rw [← h1]; ring, by linear_combination h2 - 3 * h1, by linear_combination -h3, by linear_combination -h4⟩
  · rintro ⟨h1, h2, h3, h4⟩
    exact ⟨by rw [h1]; ring, by rw [h1]; linear_combination h2, by linear_combination -h3, by linear_combination -h4⟩

/-- **C159**, doubling: an accepted result is the double. -/
theorem dbl_sound [DecidableEq F] {s : Asg F} {k : Dbl F} {P : (curve a b).Point} (hP : Coords s k.A P) (h : Sat s (k.gates a)) :
    Coords s (Pt.vars k.x k.y) (2 • P) := by
  obtain ⟨-, h1, h2, h3⟩ := (dbl_gates_iff s k).1 h
  obtain ⟨x1, y1, n1, rfl, e1⟩ := hP
  simp only [Pt.eval, Prod.mk.injEq] at e1
  rw [e1.1, e1.2] at h1 h3
  rw [e1.1] at h2
  have hy : y1 ≠ -y1 := by
    intro e
    have z : 2 * y1 = 0 := by linear_combination e
    rw [z, zero_mul] at h1
    exact (nonsingular_iff'.1 n1).2.elim (fun h => h h1.symm) fun h => h z
  obtain ⟨n3, e⟩ := add_cases n1 n1 (val s k.lambda) (Or.inr ⟨rfl, hy, h1⟩)
  rw [two_nsmul]
  refine ⟨_, _, n3, e, ?_⟩
  rw [eval_vars, h3, h2]
  refine Prod.ext ?_ ?_ <;> ring

/-- A point that is its own opposite is rejected. -/
theorem dbl_rejects [DecidableEq F] {s : Asg F} {k : Dbl F} {P : (curve a b).Point} (hP : Coords s k.A P) (h : 2 • P = 0) : ¬ Sat s (k.gates a) :=
  fun hs => (dbl_sound hP hs).ne h

theorem y_ne_of [DecidableEq F] {s : Asg F} {A : Pt F} {P : (curve a b).Point} (hP : Coords s A P) (h : 2 • P ≠ 0) : 2 * A.Y.eval s ≠ 0 := by
  obtain ⟨x1, y1, n1, rfl, e1⟩ := hP
  simp only [Pt.eval, Prod.mk.injEq] at e1
  rw [e1.2]
  intro e
  apply h
  rw [two_nsmul]
  exact add_opp n1 n1 (by linear_combination e)

/-! ### Straight-line assignments -/

/-- The variables of the adder. -/
def Add.vars (k : Add F) : List ℕ := [k.x, k.y, k.lambda, k.inv]

/-- The variables of the adder are distinct, and its inputs do not use them. -/
structure Add.WF (k : Add F) : Prop where
  zero : 0 ∉ k.vars
  nodup : k.vars.Nodup
  inp : k.A.X.Uses (· ∉ k.vars) ∧ k.A.Y.Uses (· ∉ k.vars) ∧ k.B.X.Uses (· ∉ k.vars) ∧ k.B.Y.Uses (· ∉ k.vars)

theorem Add.ssa {k : Add F} (h : k.WF) : Ssa k.steps := by
  obtain ⟨h0, hn, i1, i2, i3, i4⟩ := h
  simp only [Add.vars, List.mem_cons, List.not_mem_nil, or_false, not_or] at h0
  have hn' := hn
  simp only [Add.vars, List.nodup_cons, List.mem_cons, List.not_mem_nil, or_false, not_or, not_false_eq_true, List.nodup_nil, and_true] at hn
  obtain ⟨⟨xy, xl, xi⟩, ⟨yl, yi⟩, li⟩ := hn
  have mem : ∀ i, i ∉ k.vars ↔ i ≠ k.x ∧ i ≠ k.y ∧ i ≠ k.lambda ∧ i ≠ k.inv := fun i => by simp [Add.vars]
  refine ⟨Ne.symm h0.2.2.2, ?_, ?_, Ne.symm h0.2.2.1, ?_, ?_, Ne.symm h0.1, ?_, ?_, Ne.symm h0.2.1, ?_, by simp, trivial⟩
  · intro s s' hs
    simp only [List.mem_cons, List.not_mem_nil, or_false, forall_eq_or_imp, forall_eq] at hs
    have g : ∀ i, i ∉ k.vars → val s i = val s' i := fun i hi => by obtain ⟨a1, a2, a3, a4⟩ := (mem i).1 hi; exact hs i ⟨a4, a3, a1, a2⟩
    dsimp only
    rw [agree i1 g, agree i3 g]
  · simp only [List.mem_cons, List.not_mem_nil, or_false, forall_eq_or_imp, forall_eq]
    exact ⟨li, xi, yi⟩
  · intro s s' hs
    simp only [List.mem_cons, List.not_mem_nil, or_false, forall_eq_or_imp, forall_eq] at hs
    have g : ∀ i, i ∉ k.vars → val s i = val s' i := fun i hi => by obtain ⟨a1, a2, a3, a4⟩ := (mem i).1 hi; exact hs i ⟨a3, a1, a2⟩
    dsimp only
    rw [agree i2 g, agree i4 g, hs k.inv ⟨Ne.symm li, Ne.symm xi, Ne.symm yi⟩]
  · simp only [List.mem_cons, List.not_mem_nil, or_false, forall_eq_or_imp, forall_eq]
    exact ⟨xl, yl⟩
  · intro s s' hs
    simp only [List.mem_cons, List.not_mem_nil, or_false, forall_eq_or_imp, forall_eq] at hs
    have g : ∀ i, i ∉ k.vars → val s i = val s' i := fun i hi => by obtain ⟨a1, a2, a3, a4⟩ := (mem i).1 hi; exact hs i ⟨a1, a2⟩
    dsimp only
    rw [agree i1 g, agree i3 g, hs k.lambda ⟨Ne.symm xl, Ne.symm yl⟩]
  · simp only [List.mem_cons, List.not_mem_nil, or_false, forall_eq_or_imp, forall_eq]
    exact Ne.symm xy
  · intro s s' hs
    simp only [List.not_mem_nil, false_implies, implies_true, and_true] at hs
    have g : ∀ i, i ∉ k.vars → val s i = val s' i := fun i hi => by obtain ⟨a1, a2, a3, a4⟩ := (mem i).1 hi; exact hs i a2
    dsimp only
    rw [agree i1 g, agree i2 g, hs k.lambda (Ne.symm yl), hs k.x xy]

theorem Add.writes (k : Add F) : Writes k.steps (· ∈ k.vars) := by
  intro t ht
  simp only [Add.steps, List.mem_cons, List.not_mem_nil, or_false] at ht
  rcases ht with rfl | rfl | rfl | rfl <;> simp [Add.vars]

theorem Add.within {k : Add F} {U : ℕ → Prop} (hv : ∀ i ∈ k.vars, U i) (h : k.A.X.Uses U ∧ k.A.Y.Uses U ∧ k.B.X.Uses U ∧ k.B.Y.Uses U) : Within k.steps U := by
  obtain ⟨h1, h2, h3, h4⟩ := h
  simp only [Add.vars, List.mem_cons, List.not_mem_nil, or_false, forall_eq_or_imp, forall_eq] at hv
  obtain ⟨v1, v2, v3, v4⟩ := hv
  intro t ht
  simp only [Add.steps, List.mem_cons, List.not_mem_nil, or_false] at ht
  rcases ht with rfl | rfl | rfl | rfl
  · exact ⟨v4, fun s s' hs => by dsimp only; rw [agree h1 hs, agree h3 hs]⟩
  · exact ⟨v3, fun s s' hs => by dsimp only; rw [agree h2 hs, agree h4 hs, hs _ v4]⟩
  · exact ⟨v1, fun s s' hs => by dsimp only; rw [agree h1 hs, agree h3 hs, hs _ v3]⟩
  · exact ⟨v2, fun s s' hs => by dsimp only; rw [agree h1 hs, agree h2 hs, hs _ v3, hs _ v1]⟩

theorem add_gates_of_steps {s : Asg F} {k : Add F} (h : ∀ t ∈ k.steps, val s t.1 = t.2 s) (hne : k.B.X.eval s ≠ k.A.X.eval s) : Sat s k.gates := by
  simp only [Add.steps, List.mem_cons, List.not_mem_nil, or_false, forall_eq_or_imp, forall_eq] at h
  obtain ⟨h1, h2, h3, h4⟩ := h
  refine (add_gates_iff s k).2 ⟨hne, h1, ?_, h3, h4⟩
  rw [h2, h1, mul_assoc, inv_mul_cancel₀ (sub_ne_zero.2 hne), mul_one]

/-- The honest assignment of the adder is accepted if the points are neither equal nor opposite. -/
theorem add_complete [DecidableEq F] (k : Add F) (hk : k.WF) (s : Asg F) {P Q : (curve a b).Point} (hP : Coords s k.A P) (hQ : Coords s k.B Q)
    (h1 : P ≠ Q) (h2 : P + Q ≠ 0) : Sat (run k.steps s) k.gates := by
  have kp : ∀ i, i ∉ k.vars → val (run k.steps s) i = val s i := fun i hi => run_keep _ s k.writes hi
  refine add_gates_of_steps (run_eq _ (Add.ssa hk) s) ?_
  rw [agree hk.inp.1 kp, agree hk.inp.2.2.1 kp]
  exact x_ne_of hP hQ h1 h2

/-- The variables of the doubler. -/
def Dbl.vars (k : Dbl F) : List ℕ := [k.x, k.y, k.xsq, k.lambda]

/-- The variables of the doubler are distinct, and its input does not use them. -/
structure Dbl.WF (k : Dbl F) : Prop where
  zero : 0 ∉ k.vars
  nodup : k.vars.Nodup
  inp : k.A.X.Uses (· ∉ k.vars) ∧ k.A.Y.Uses (· ∉ k.vars)

theorem Dbl.ssa {k : Dbl F} (h : k.WF) : Ssa (k.steps a) := by
  obtain ⟨h0, hn, i1, i2⟩ := h
  simp only [Dbl.vars, List.mem_cons, List.not_mem_nil, or_false, not_or] at h0
  simp only [Dbl.vars, List.nodup_cons, List.mem_cons, List.not_mem_nil, or_false, not_or, not_false_eq_true, List.nodup_nil, and_true] at hn
  obtain ⟨⟨xy, xq, xl⟩, ⟨yq, yl⟩, ql⟩ := hn
  have mem : ∀ i, i ∉ k.vars ↔ i ≠ k.x ∧ i ≠ k.y ∧ i ≠ k.xsq ∧ i ≠ k.lambda := fun i => by simp [Dbl.vars]
  refine ⟨Ne.symm h0.2.2.1, ?_, ?_, Ne.symm h0.2.2.2, ?_, ?_, Ne.symm h0.1, ?_, ?_, Ne.symm h0.2.1, ?_, by simp, trivial⟩
  · intro s s' hs
    simp only [List.mem_cons, List.not_mem_nil, or_false, forall_eq_or_imp, forall_eq] at hs
    have g : ∀ i, i ∉ k.vars → val s i = val s' i := fun i hi => by obtain ⟨a1, a2, a3, a4⟩ := (mem i).1 hi; exact hs i ⟨a3, a4, a1, a2⟩
    dsimp only
    rw [agree i1 g]
  · simp only [List.mem_cons, List.not_mem_nil, or_false, forall_eq_or_imp, forall_eq]
    exact ⟨Ne.symm ql, xq, yq⟩
  · intro s s' hs
    simp only [List.mem_cons, List.not_mem_nil, or_false, forall_eq_or_imp, forall_eq] at hs
    have g : ∀ i, i ∉ k.vars → val s i = val s' i := fun i hi => by obtain ⟨a1, a2, a3, a4⟩ := (mem i).1 hi; exact hs i ⟨a4, a1, a2⟩
    dsimp only
    rw [agree i2 g, hs k.xsq ⟨ql, Ne.symm xq, Ne.symm yq⟩]
  · simp only [List.mem_cons, List.not_mem_nil, or_false, forall_eq_or_imp, forall_eq]
    exact ⟨xl, yl⟩
  · intro s s' hs
    simp only [List.mem_cons, List.not_mem_nil, or_false, forall_eq_or_imp, forall_eq] at hs
    have g : ∀ i, i ∉ k.vars → val s i = val s' i := fun i hi => by obtain ⟨a1, a2, a3, a4⟩ := (mem i).1 hi; exact hs i ⟨a1, a2⟩
    dsimp only
    rw [agree i1 g, hs k.lambda ⟨Ne.symm xl, Ne.symm yl⟩]
  · simp only [List.mem_cons, List.not_mem_nil, or_false, forall_eq_or_imp, forall_eq]
    exact Ne.symm xy
  · intro s s' hs
    simp only [List.not_mem_nil, false_implies, implies_true, and_true] at hs
    have g : ∀ i, i ∉ k.vars → val s i = val s' i := fun i hi => by obtain ⟨a1, a2, a3, a4⟩ := (mem i).1 hi; exact hs i a2
    dsimp only
    rw [agree i1 g, agree i2 g, hs k.lambda (Ne.symm yl), hs k.x xy]

theorem Dbl.writes (k : Dbl F) : Writes (k.steps a) (· ∈ k.vars) := by
  intro t ht
  simp only [Dbl.steps, List.mem_cons, List.not_mem_nil, or_false] at ht
  rcases ht with rfl | rfl | rfl | rfl <;> simp [Dbl.vars]

theorem Dbl.within {k : Dbl F} {U : ℕ → Prop} (hv : ∀ i ∈ k.vars, U i) (h : k.A.X.Uses U ∧ k.A.Y.Uses U) : Within (k.steps a) U := by
  obtain ⟨h1, h2⟩ := h
  simp only [Dbl.vars, List.mem_cons, List.not_mem_nil, or_false, forall_eq_or_imp, forall_eq] at hv
  obtain ⟨v1, v2, v3, v4⟩ := hv
  intro t ht
  simp only [Dbl.steps, List.mem_cons, List.not_mem_nil, or_false] at ht
  rcases ht with rfl | rfl | rfl | rfl
  · exact ⟨v3, fun s s' hs => by dsimp only; rw [agree h1 hs]⟩
  · exact ⟨v4, fun s s' hs => by dsimp only; rw [agree h2 hs, hs _ v3]⟩
  · exact ⟨v1, fun s s' hs => by dsimp only; rw [agree h1 hs, hs _ v4]⟩
  · exact ⟨v2, fun s s' hs => by dsimp only; rw [agree h1 hs, agree h2 hs, hs _ v4, hs _ v1]⟩

theorem dbl_gates_of_steps {s : Asg F} {k : Dbl F} (h : ∀ t ∈ k.steps a, val s t.1 = t.2 s) (hne : 2 * k.A.Y.eval s ≠ 0) : Sat s (k.gates a) := by
  simp only [Dbl.steps, List.mem_cons, List.not_mem_nil, or_false, forall_eq_or_imp, forall_eq] at h
  obtain ⟨h1, h2, h3, h4⟩ := h
  refine (dbl_gates_iff s k).2 ⟨h1, ?_, h3, h4⟩
  rw [h2, h1, mul_comm, mul_assoc, inv_mul_cancel₀ hne, mul_one]

/-- The honest assignment of the doubler is accepted if the point is not its own opposite. -/
theorem dbl_complete [DecidableEq F] (k : Dbl F) (hk : k.WF) (s : Asg F) {P : (curve a b).Point} (hP : Coords s k.A P) (h : 2 • P ≠ 0) :
    Sat (run (k.steps a) s) (k.gates a) := by
  have kp : ∀ i, i ∉ k.vars → val (run (k.steps a) s) i = val s i := fun i hi => run_keep _ s k.writes hi
  refine dbl_gates_of_steps (run_eq _ (Dbl.ssa hk) s) ?_
  rw [agree hk.inp.2 kp]
  exact y_ne_of hP h

end

/-! ### C160 -/

namespace Mul
section
variable {F : Type*} [Field F] [DecidableEq F] {a b : F} (k : Mul F)

/-- The scalar of point `i`: its bits, the lowest first. -/
def scalar (s : Asg F) (i : ℕ) : ℕ := ∑ j ∈ Finset.range k.elt, if val s (k.scalars (i * k.elt + j)) = 0 then 0 else 2 ^ j

/-- The partial sums. -/
def acc (s : Asg F) (G : (curve a b).Point) (P : ℕ → (curve a b).Point) (m : ℕ) : (curve a b).Point :=
  G + ∑ t ∈ Finset.range m, if val s (k.scalars t) = 0 then 0 else 2 ^ (t % k.elt) • P (t / k.elt)

theorem acc_succ (s : Asg F) (G : (curve a b).Point) (P : ℕ → (curve a b).Point) (m : ℕ) :
    k.acc s G P (m + 1) = if val s (k.scalars m) = 0 then k.acc s G P m else k.acc s G P m + 2 ^ (m % k.elt) • P (m / k.elt) := by
  unfold acc
  rw [Finset.sum_range_succ]
  split
  · rw [add_zero]
  · rw [add_assoc]

/-- The last partial sum is the multi scalar multiplication. -/
theorem acc_size (s : Asg F) (G : (curve a b).Point) (P : ℕ → (curve a b).Point) :
    k.acc s G P k.size = G + ∑ i ∈ Finset.range k.num, k.scalar s i • P i := by
  unfold acc size
  congr 1
  induction k.num with
  | zero => simp
  | succ n ih =>
    rw [Finset.sum_range_succ, ← ih, Nat.add_mul, Nat.one_mul, Finset.sum_range_add]
    congr 1
    unfold scalar
    rw [Finset.sum_smul]
    refine Finset.sum_congr rfl fun j hj => ?_
    have hj := Finset.mem_range.1 hj
    have e1 : (n * k.elt + j) % k.elt = j := by rw [mul_comm, Nat.mul_add_mod, Nat.mod_eq_of_lt hj]
    have e2 : (n * k.elt + j) / k.elt = n := by rw [mul_comm, Nat.mul_add_div (by omega), Nat.div_eq_of_lt hj, add_zero]
    rw [e1, e2]
    split
    · rw [zero_smul]
    · rfl

theorem sat_iff (s : Asg F) : Sat s (k.gates a) ↔ (∀ i < k.num, ∀ j < k.elt - 1, Sat s ((k.dbl i j).gates a)) ∧ ∀ m < k.size, Sat s (k.round m) := by
  unfold gates
  rw [sat_append, sat_flatMap, sat_flatMap]
  simp only [sat_flatMap, List.mem_range]

theorem power_succ (i j : ℕ) : k.power i (j + 1) = Pt.vars (k.dbl i j).x (k.dbl i j).y := by
  simp [power, dbl]

/-- The powers. -/
theorem power_coords (s : Asg F) (P : ℕ → (curve a b).Point) (hP : ∀ i < k.num, Coords s (k.points i) (P i))
    (hd : ∀ i < k.num, ∀ j < k.elt - 1, Coords s (k.power i j) (2 ^ j • P i) → Sat s ((k.dbl i j).gates a)) :
    ∀ i < k.num, ∀ j, j ≤ k.elt - 1 → Coords s (k.power i j) (2 ^ j • P i) := by
  intro i hi j
  induction j with
  | zero => intro _; rw [pow_zero, one_smul]; exact hP i hi
  | succ j ih =>
    intro hj
    have h := ih (by omega)
    rw [k.power_succ, pow_succ, mul_comm, mul_smul]
    exact dbl_sound h (hd i hi j (by omega) h)

theorem idx {m : ℕ} (h : m < k.size) : m / k.elt < k.num ∧ m % k.elt ≤ k.elt - 1 ∧ 0 < k.elt := by
  have h0 : 0 < k.elt := by
    rcases Nat.eq_zero_or_pos k.elt with e | e
    · rw [size, e, Nat.mul_zero] at h; omega
    · exact e
  have := Nat.mod_lt m h0
  exact ⟨(Nat.div_lt_iff_lt_mul h0).2 h, by omega, h0⟩

/-- The choice. -/
theorem round_iff (s : Asg F) (m : ℕ) : Sat s (k.round m) ↔ Sat s (k.adder m).gates ∧
    val s (k.chosenX m) - (k.chosen m).X.eval s = val s (k.scalars m) * (val s (k.av m) - (k.chosen m).X.eval s) ∧
    val s (k.chosenY m) - (k.chosen m).Y.eval s = val s (k.scalars m) * (val s (k.av m + 1) - (k.chosen m).Y.eval s) := by
  unfold round
  rw [sat_append]
  simp only [sat_cons, sat_nil, and_true, Constraint.Holds, eval_sub, eval_var]
  constructor
  · rintro ⟨h1, h2, h3⟩; exact ⟨h1, h2.symm, h3.symm⟩
  · rintro ⟨h1, h2, h3⟩; exact ⟨h1, h2.symm, h3.symm⟩

theorem chosen_step (s : Asg F) {G : (curve a b).Point} {P : ℕ → (curve a b).Point} {m : ℕ} (hb : (val s (k.scalars m) = 0 ∨ val s (k.scalars m) = 1))
    (hc : Coords s (k.chosen m) (k.acc s G P m)) (hp : Coords s (k.power (m / k.elt) (m % k.elt)) (2 ^ (m % k.elt) • P (m / k.elt))) (h : Sat s (k.round m)) :
    Coords s (k.chosen (m + 1)) (k.acc s G P (m + 1)) := by
  obtain ⟨h1, h2, h3⟩ := (k.round_iff s m).1 h
  rw [k.acc_succ]
  rcases hb with e | e
  · rw [if_pos e]
    obtain ⟨x, y, n, e1, e2⟩ := hc
    refine ⟨x, y, n, e1, ?_⟩
    simp only [Pt.eval, Prod.mk.injEq] at e2
    show (Pt.vars (k.chosenX m) (k.chosenY m) : Pt F).eval s = _
    rw [eval_vars]
    rw [e] at h2 h3
    refine Prod.ext ?_ ?_
    · show val s _ = x; rw [← e2.1]; linear_combination h2
    · show val s _ = y; rw [← e2.2]; linear_combination h3
  · rw [if_neg (by rw [e]; exact one_ne_zero)]
    have := add_sound (k := k.adder m) hc hp h1
    obtain ⟨x, y, n, e1, e2⟩ := this
    refine ⟨x, y, n, e1, ?_⟩
    rw [← e2]
    show (Pt.vars (k.chosenX m) (k.chosenY m) : Pt F).eval s = (Pt.vars (k.av m) (k.av m + 1) : Pt F).eval s
    rw [eval_vars, eval_vars]
    rw [e] at h2 h3
    refine Prod.ext ?_ ?_
    · show val s (k.chosenX m) = val s (k.av m); linear_combination h2
    · show val s (k.chosenY m) = val s (k.av m + 1); linear_combination h3

theorem chosen_size (hn : 0 < k.size) : k.chosen k.size = Pt.vars k.rx k.ry := by
  obtain ⟨n, e⟩ : ∃ n, k.size = n + 1 := ⟨k.size - 1, by omega⟩
  rw [e]
  show Pt.vars (k.chosenX n) (k.chosenY n) = _
  unfold chosenX chosenY
  rw [if_neg (by omega), if_neg (by omega)]

/-- **C160, soundness.** Points of the curve and bits given: an accepted result is the start plus the sum of the multiples of the points. -/
theorem sound (s : Asg F) (hn : 0 < k.size) {G : (curve a b).Point} {P : ℕ → (curve a b).Point} (hG : Coords s k.start G)
    (hP : ∀ i < k.num, Coords s (k.points i) (P i)) (hb : ∀ m < k.size, (val s (k.scalars m) = 0 ∨ val s (k.scalars m) = 1)) (h : Sat s (k.gates a)) :
    Coords s (Pt.vars k.rx k.ry) (G + ∑ i ∈ Finset.range k.num, k.scalar s i • P i) := by
  obtain ⟨h1, h2⟩ := (k.sat_iff s).1 h
  have hpow := k.power_coords s P hP fun i hi j hj _ => h1 i hi j hj
  have : ∀ m ≤ k.size, Coords s (k.chosen m) (k.acc s G P m) := by
    intro m
    induction m with
    | zero => intro _; unfold acc; rw [Finset.range_zero, Finset.sum_empty, add_zero]; exact hG
    | succ m ih =>
      intro hm
      have hm' : m < k.size := by omega
      exact k.chosen_step s (hb m hm') (ih (by omega)) (hpow _ (k.idx hm').1 _ (k.idx hm').2.1) (h2 m hm')
  have := this k.size le_rfl
  rw [k.chosen_size hn, k.acc_size] at this
  exact this

/-- The price: if the start is the first point or its opposite, nothing is accepted, whatever the bits are. -/
theorem rejects (s : Asg F) (hn : 0 < k.size) {G : (curve a b).Point} {P : ℕ → (curve a b).Point} (hG : Coords s k.start G)
    (hP : ∀ i < k.num, Coords s (k.points i) (P i)) (h : G = P 0 ∨ G = -P 0) : ¬ Sat s (k.gates a) := by
  intro hs
  have h2 := ((k.round_iff s 0).1 (((k.sat_iff s).1 hs).2 0 hn)).1
  refine add_rejects (k := k.adder 0) hG ?_ h h2
  show Coords s (k.power (0 / k.elt) (0 % k.elt)) _
  rw [Nat.zero_div, Nat.zero_mod]
  have := (k.idx hn).1
  rw [Nat.zero_div] at this
  exact hP 0 this

/-- Variables that are allocated before `hi` and are not the result. -/
def Rd (hi v : ℕ) : Prop := v < hi ∧ v ≠ k.rx ∧ v ≠ k.ry

/-- The caller's variables: allocated before the component's own, the result distinct from the inputs. -/
structure WF : Prop where
  rx0 : 0 < k.rx
  ry0 : 0 < k.ry
  rx : k.rx < k.base
  ry : k.ry < k.base
  ne : k.rx ≠ k.ry
  start : k.start.X.Uses (k.Rd k.base) ∧ k.start.Y.Uses (k.Rd k.base)
  points : ∀ i < k.num, (k.points i).X.Uses (k.Rd k.base) ∧ (k.points i).Y.Uses (k.Rd k.base)
  scalars : ∀ m < k.size, k.Rd k.base (k.scalars m)

variable {k}

theorem uses_mono {l : Lc F} {U V : ℕ → Prop} (h : l.Uses U) (hUV : ∀ i, U i → V i) : l.Uses V := fun t ht => (h t ht).imp id (hUV _)

theorem Rd.mono {x y v : ℕ} (h : k.Rd x v) (hxy : x ≤ y) : k.Rd y v := ⟨lt_of_lt_of_le h.1 hxy, h.2⟩

theorem WF.rd (h : k.WF) {hi v : ℕ} (h1 : v < hi) (h2 : k.base ≤ v) : k.Rd hi v := by
  have := h.rx
  have := h.ry
  exact ⟨h1, by omega, by omega⟩

theorem base_le_dv (d : ℕ) : k.base ≤ k.dv d := by unfold dv; omega

theorem dv_succ (d : ℕ) : k.dv (d + 1) = k.dv d + 4 := by unfold dv; omega

theorem dv_mono {d e : ℕ} (h : d ≤ e) : k.dv d ≤ k.dv e := by unfold dv; omega

theorem av_zero : k.av 0 = k.dv (k.num * (k.elt - 1)) := by unfold av dv; omega

theorem av_succ (i : ℕ) : k.av (i + 1) = k.av i + 6 := by unfold av; omega

theorem av_mono {d e : ℕ} (h : d ≤ e) : k.av d ≤ k.av e := by unfold av; omega

theorem base_le_av (d : ℕ) : k.base ≤ k.av d := by unfold av; omega

theorem uses_power (h : k.WF) {i j : ℕ} (hi : i < k.num) :
    (k.power i j).X.Uses (k.Rd (k.dv (i * (k.elt - 1) + j))) ∧ (k.power i j).Y.Uses (k.Rd (k.dv (i * (k.elt - 1) + j))) := by
  rcases j with _ | j
  · have := h.points i hi
    exact ⟨uses_mono this.1 fun v hv => hv.mono (base_le_dv _), uses_mono this.2 fun v hv => hv.mono (base_le_dv _)⟩
  · rw [k.power_succ]
    have e : k.dv (i * (k.elt - 1) + (j + 1)) = k.dv (i * (k.elt - 1) + j) + 4 := dv_succ _
    have hb := base_le_dv (k := k) (i * (k.elt - 1) + j)
    rw [e]
    constructor
    · exact uses_var (h.rd (by show k.dv _ < _; omega) hb)
    · exact uses_var (h.rd (by show k.dv _ + 1 < _; omega) (by show _ ≤ k.dv _ + 1; omega))

theorem uses_chosen (h : k.WF) {m : ℕ} (hm : m < k.size) : (k.chosen m).X.Uses (k.Rd (k.av m)) ∧ (k.chosen m).Y.Uses (k.Rd (k.av m)) := by
  rcases m with _ | m
  · exact ⟨uses_mono h.start.1 fun v hv => hv.mono (base_le_av _), uses_mono h.start.2 fun v hv => hv.mono (base_le_av _)⟩
  · have hb := base_le_av (k := k) m
    have e := av_succ (k := k) m
    constructor
    · refine uses_var (h.rd ?_ ?_) <;> (unfold chosenX; rw [if_pos (by omega)]; omega)
    · refine uses_var (h.rd ?_ ?_) <;> (unfold chosenY; rw [if_pos (by omega)]; omega)

theorem dbl_vars (i j : ℕ) : ∀ v ∈ (k.dbl i j).vars, k.dv (i * (k.elt - 1) + j) ≤ v ∧ v < k.dv (i * (k.elt - 1) + j + 1) := by
  rw [dv_succ]
  simp only [Dbl.vars, dbl, List.mem_cons, List.not_mem_nil, or_false, forall_eq_or_imp, forall_eq]
  omega

theorem dbl_wf (h : k.WF) {i j : ℕ} (hi : i < k.num) : (k.dbl i j).WF := by
  have hv := dbl_vars (k := k) i j
  have hb := base_le_dv (k := k) (i * (k.elt - 1) + j)
  have h0 := h.rx
  have hu := uses_power h (j := j) hi
  refine ⟨fun h1 => ?_, ?_, ?_, ?_⟩
  · have := (hv 0 h1).1
    omega
  · simp [Dbl.vars, dbl]
  · exact uses_mono hu.1 fun v hv' hm => absurd hv'.1 (Nat.not_lt.2 (hv v hm).1)
  · exact uses_mono hu.2 fun v hv' hm => absurd hv'.1 (Nat.not_lt.2 (hv v hm).1)

theorem dbl_within (h : k.WF) {i j : ℕ} (hi : i < k.num) : Within ((k.dbl i j).steps a) (k.Rd (k.dv (i * (k.elt - 1) + j + 1))) := by
  have hv := dbl_vars (k := k) i j
  have hb := base_le_dv (k := k) (i * (k.elt - 1) + j)
  have hu := uses_power h (j := j) hi
  have hle : k.dv (i * (k.elt - 1) + j) ≤ k.dv (i * (k.elt - 1) + j + 1) := dv_mono (by omega)
  exact Dbl.within (fun v hm => h.rd (hv v hm).2 (le_trans hb (hv v hm).1)) ⟨uses_mono hu.1 fun v hv => hv.mono hle, uses_mono hu.2 fun v hv => hv.mono hle⟩

theorem dbl_writes (i j : ℕ) : Writes ((k.dbl i j).steps a) (k.dv (i * (k.elt - 1) + j) ≤ ·) :=
  (Dbl.writes _).mono fun v hv => (dbl_vars i j v hv).1

theorem outer_le {n i i' j : ℕ} (h : i < i') : i * n + j + 1 ≤ i' * n ∨ n ≤ j := by
  rcases Nat.lt_or_ge j n with h1 | h1
  · have := Nat.mul_le_mul_right n (Nat.succ_le_of_lt h)
    rw [Nat.succ_mul] at this
    omega
  · exact Or.inr h1

theorem doubles_within (h : k.WF) {i : ℕ} (hi : i < k.num) :
    Within ((List.range (k.elt - 1)).flatMap fun j => (k.dbl i j).steps a) (k.Rd (k.dv ((i + 1) * (k.elt - 1)))) := by
  apply Within.flatMap
  intro j hj
  have hj := List.mem_range.1 hj
  refine (dbl_within h hi).mono fun v hv => hv.mono (dv_mono ?_)
  rw [Nat.succ_mul]
  omega

theorem doubles_writes (i : ℕ) : Writes ((List.range (k.elt - 1)).flatMap fun j => (k.dbl i j).steps a) (k.dv (i * (k.elt - 1)) ≤ ·) := by
  apply Writes.flatMap
  intro j _
  exact (dbl_writes i j).mono fun v hv => le_trans (dv_mono (by omega)) hv

theorem doubles_ssa (h : k.WF) : Ssa ((List.range k.num).flatMap fun i => (List.range (k.elt - 1)).flatMap fun j => (k.dbl i j).steps a) := by
  refine Ssa.loop k.num (fun i => k.Rd (k.dv ((i + 1) * (k.elt - 1)))) (fun i v => k.dv (i * (k.elt - 1)) ≤ v) ?_ (fun i hi => doubles_within h hi) (fun i _ => doubles_writes i) ?_
  · intro i hi
    refine Ssa.loop (k.elt - 1) (fun j => k.Rd (k.dv (i * (k.elt - 1) + j + 1))) (fun j v => k.dv (i * (k.elt - 1) + j) ≤ v) (fun j _ => Dbl.ssa (dbl_wf h hi))
      (fun j _ => dbl_within h hi) (fun j _ => dbl_writes i j) ?_
    intro j j' hj _ v h1 h2
    have := dv_mono (k := k) (d := i * (k.elt - 1) + j + 1) (e := i * (k.elt - 1) + j') (by omega)
    have := h1.1
    omega
  · intro i i' hi _ v h1 h2
    have := dv_mono (k := k) (Nat.mul_le_mul_right (k.elt - 1) (Nat.succ_le_of_lt hi))
    have := h1.1
    have h3 : k.dv (i.succ * (k.elt - 1)) = k.dv ((i + 1) * (k.elt - 1)) := rfl
    omega

theorem chosen_cases (k : Mul F) (m : ℕ) : (m < k.size - 1 ∧ k.chosenX m = k.av m + 2 ∧ k.chosenY m = k.av m + 3 ∧ (k.adder m).vars = [k.av m, k.av m + 1, k.av m + 4, k.av m + 5]) ∨
    (¬ m < k.size - 1 ∧ k.chosenX m = k.rx ∧ k.chosenY m = k.ry ∧ (k.adder m).vars = [k.av m, k.av m + 1, k.av m + 2, k.av m + 3]) := by
  unfold chosenX chosenY adder Add.vars
  split
  · left; exact ⟨by assumption, rfl, rfl, rfl⟩
  · right; exact ⟨by assumption, rfl, rfl, rfl⟩

theorem adder_vars (k : Mul F) (m : ℕ) : ∀ v ∈ (k.adder m).vars, k.av m ≤ v ∧ v < k.av (m + 1) := by
  rw [av_succ]
  rcases chosen_cases k m with ⟨-, -, -, e⟩ | ⟨-, -, -, e⟩ <;> rw [e] <;>
    simp only [List.mem_cons, List.not_mem_nil, or_false, forall_eq_or_imp, forall_eq] <;> omega

theorem uses_adder (h : k.WF) {m : ℕ} (hm : m < k.size) :
    (k.adder m).A.X.Uses (k.Rd (k.av m)) ∧ (k.adder m).A.Y.Uses (k.Rd (k.av m)) ∧ (k.adder m).B.X.Uses (k.Rd (k.av m)) ∧ (k.adder m).B.Y.Uses (k.Rd (k.av m)) := by
  have hc := uses_chosen h hm
  obtain ⟨h1, h2, h3⟩ := k.idx hm
  have hp := uses_power h (j := m % k.elt) h1
  have hle : k.dv (m / k.elt * (k.elt - 1) + m % k.elt) ≤ k.av m := by
    refine le_trans (dv_mono (e := k.num * (k.elt - 1)) ?_) (by rw [← av_zero]; exact av_mono (by omega))
    have := Nat.mul_le_mul_right (k.elt - 1) (Nat.succ_le_of_lt h1)
    rw [Nat.succ_mul] at this
    omega
  exact ⟨hc.1, hc.2, uses_mono hp.1 fun v hv => hv.mono hle, uses_mono hp.2 fun v hv => hv.mono hle⟩

theorem adder_wf (h : k.WF) {m : ℕ} (hm : m < k.size) : (k.adder m).WF := by
  have hv := adder_vars k m
  have hb := base_le_av (k := k) m
  have h0 := h.rx
  have hu := uses_adder h hm
  have hn : ∀ v, k.Rd (k.av m) v → v ∉ (k.adder m).vars := fun v hv' hm => absurd hv'.1 (Nat.not_lt.2 (hv v hm).1)
  refine ⟨fun h1 => ?_, ?_, uses_mono hu.1 hn, uses_mono hu.2.1 hn, uses_mono hu.2.2.1 hn, uses_mono hu.2.2.2 hn⟩
  · have := (hv 0 h1).1
    omega
  · rcases chosen_cases k m with ⟨-, -, -, e⟩ | ⟨-, -, -, e⟩ <;> rw [e] <;> simp

/-- What the round reads and writes. -/
def RoundU (k : Mul F) (m v : ℕ) : Prop := v < k.av (m + 1) ∧ (m < k.size - 1 → v ≠ k.rx ∧ v ≠ k.ry)

theorem round_within (h : k.WF) {m : ℕ} (hm : m < k.size) : Within (k.roundSteps m) (RoundU k m) := by
  have hb := base_le_av (k := k) m
  have e6 := av_succ (k := k) m
  have hx := h.rx
  have hy := h.ry
  have up : ∀ v, k.Rd (k.av m) v → RoundU k m v := fun v hv => ⟨by have := hv.1; omega, fun _ => hv.2⟩
  have vr : ∀ v, k.av m ≤ v → v < k.av (m + 1) → RoundU k m v := fun v h1 h2 => ⟨h2, fun _ => ⟨by omega, by omega⟩⟩
  have hu := uses_adder h hm
  have hc := uses_chosen h hm
  have hs := (h.scalars m hm).mono hb
  have ha0 : RoundU k m (k.av m) := vr _ le_rfl (by omega)
  have ha1 : RoundU k m (k.av m + 1) := vr _ (by omega) (by omega)
  have hX : RoundU k m (k.chosenX m) ∧ RoundU k m (k.chosenY m) := by
    rcases chosen_cases k m with ⟨hl, e1, e2, -⟩ | ⟨hl, e1, e2, -⟩ <;> rw [e1, e2]
    · exact ⟨vr _ (by omega) (by omega), vr _ (by omega) (by omega)⟩
    · exact ⟨⟨by omega, fun h => absurd h hl⟩, ⟨by omega, fun h => absurd h hl⟩⟩
  refine Within.append (Add.within (fun v hv => vr v (adder_vars k m v hv).1 (adder_vars k m v hv).2)
    ⟨uses_mono hu.1 up, uses_mono hu.2.1 up, uses_mono hu.2.2.1 up, uses_mono hu.2.2.2 up⟩) ?_
  intro t ht
  simp only [List.mem_cons, List.not_mem_nil, or_false] at ht
  rcases ht with rfl | rfl
  · refine ⟨hX.1, fun s s' hs' => ?_⟩
    dsimp only
    rw [hs' _ (up _ hs), hs' _ ha0, agree (uses_mono hc.1 up) hs']
  · refine ⟨hX.2, fun s s' hs' => ?_⟩
    dsimp only
    rw [hs' _ (up _ hs), hs' _ ha1, agree (uses_mono hc.2 up) hs']

theorem round_writes (k : Mul F) (m : ℕ) : Writes (k.roundSteps m) (fun v => k.av m ≤ v ∨ v = k.rx ∨ v = k.ry) := by
  refine Writes.append ((Add.writes _).mono fun v hv => Or.inl (adder_vars k m v hv).1) ?_
  intro t ht
  simp only [List.mem_cons, List.not_mem_nil, or_false] at ht
  rcases chosen_cases k m with ⟨-, e1, e2, -⟩ | ⟨-, e1, e2, -⟩ <;> rcases ht with rfl | rfl <;> dsimp only <;> omega

theorem round_ssa (h : k.WF) {m : ℕ} (hm : m < k.size) : Ssa (k.roundSteps m) := by
  have hb := base_le_av (k := k) m
  have hx := h.rx
  have hy := h.ry
  have hx0 := h.rx0
  have hy0 := h.ry0
  have hne := h.ne
  have hu := uses_adder h hm
  have hc := uses_chosen h hm
  have hs := (h.scalars m hm).mono hb
  have key : k.chosenX m ≠ 0 ∧ k.chosenY m ≠ 0 ∧ k.chosenX m ≠ k.chosenY m ∧ k.chosenX m ∉ (k.adder m).vars ∧ k.chosenY m ∉ (k.adder m).vars ∧
      (∀ v, k.Rd (k.av m) v → v ≠ k.chosenX m ∧ v ≠ k.chosenY m) ∧ k.av m ≠ k.chosenX m ∧ k.av m ≠ k.chosenY m ∧ k.av m + 1 ≠ k.chosenY m := by
    rcases chosen_cases k m with ⟨hl, e1, e2, e3⟩ | ⟨hl, e1, e2, e3⟩ <;> rw [e1, e2, e3] <;> simp only [List.mem_cons, List.not_mem_nil, or_false]
    · refine ⟨by omega, by omega, by omega, by omega, by omega, fun v hv => ?_, by omega, by omega, by omega⟩
      have := hv.1
      omega
    · exact ⟨by omega, by omega, by omega, by omega, by omega, fun v hv => hv.2, by omega, by omega, by omega⟩
  obtain ⟨k1, k2, k3, k4, k5, k6, k7, k8, k9⟩ := key
  refine Ssa.append (U := fun v => k.Rd (k.av m) v ∨ v ∈ (k.adder m).vars) (T := fun v => v = k.chosenX m ∨ v = k.chosenY m) (Add.ssa (adder_wf h hm)) ?_ ?_ ?_ ?_
  · refine ⟨k1, ?_, by simpa using k3.symm, k2, ?_, by simp, trivial⟩
    · intro s s' hs'
      simp only [List.mem_cons, List.not_mem_nil, or_false, forall_eq] at hs'
      dsimp only
      rw [hs' _ (k6 _ hs), hs' _ ⟨k7, k8⟩, agree hc.1 fun v hv => hs' v (k6 v hv)]
    · intro s s' hs'
      simp only [List.not_mem_nil, false_implies, implies_true, and_true] at hs'
      dsimp only
      rw [hs' _ (k6 _ hs).2, hs' _ k9, agree hc.2 fun v hv => hs' v (k6 v hv).2]
  · exact Add.within (fun v hv => Or.inr hv) ⟨uses_mono hu.1 fun v => Or.inl, uses_mono hu.2.1 fun v => Or.inl, uses_mono hu.2.2.1 fun v => Or.inl, uses_mono hu.2.2.2 fun v => Or.inl⟩
  · intro t ht
    simp only [List.mem_cons, List.not_mem_nil, or_false] at ht
    rcases ht with rfl | rfl
    · exact Or.inl rfl
    · exact Or.inr rfl
  · rintro v (hv | hv) (rfl | rfl)
    · exact (k6 _ hv).1 rfl
    · exact (k6 _ hv).2 rfl
    · exact k4 hv
    · exact k5 hv

theorem steps_ssa (h : k.WF) : Ssa (k.steps a) := by
  have hx := h.rx
  have hy := h.ry
  refine Ssa.append (U := k.Rd (k.av 0)) (T := fun v => k.av 0 ≤ v ∨ v = k.rx ∨ v = k.ry) (doubles_ssa h) ?_ ?_ ?_ ?_
  · refine Ssa.loop k.size (RoundU k) (fun m v => k.av m ≤ v ∨ v = k.rx ∨ v = k.ry) (fun m hm => round_ssa h hm) (fun m hm => round_within h hm) (fun m _ => round_writes k m) ?_
    intro m m' hm hm' v h1 h2
    have := av_mono (k := k) (Nat.succ_le_of_lt hm)
    have e : k.av m.succ = k.av (m + 1) := rfl
    have h3 := h1.1
    have h4 := h1.2 (by omega)
    rcases h2 with h2 | h2 | h2
    · omega
    · exact h4.1 h2
    · exact h4.2 h2
  · apply Within.flatMap
    intro i hi
    have hi := List.mem_range.1 hi
    refine (doubles_within h hi).mono fun v hv => hv.mono ?_
    rw [av_zero]
    exact dv_mono (Nat.mul_le_mul_right _ (Nat.succ_le_of_lt hi))
  · apply Writes.flatMap
    intro m _
    exact (round_writes k m).mono fun v hv => hv.imp (fun h => le_trans (av_mono (by omega)) h) id
  · rintro v hv (h1 | h1 | h1)
    · have := hv.1
      omega
    · exact hv.2.1 h1
    · exact hv.2.2 h1

theorem steps_keep (h : k.WF) (s : Asg F) {v : ℕ} (hv : k.Rd k.base v) : val (run (k.steps a) s) v = val s v := by
  refine run_keep (T := fun v => k.base ≤ v ∨ v = k.rx ∨ v = k.ry) _ s ?_ ?_
  · refine Writes.append (Writes.flatMap fun i _ => (doubles_writes i).mono fun v hv => Or.inl (le_trans (base_le_dv _) hv)) ?_
    exact Writes.flatMap fun m _ => (round_writes k m).mono fun v hv => hv.imp (fun h => le_trans (base_le_av _) h) id
  · rintro (h1 | h1 | h1)
    · have := hv.1
      omega
    · exact hv.2.1 h1
    · exact hv.2.2 h1

theorem Coords.congr {s s' : Asg F} {A : Pt F} {U : ℕ → Prop} {P : (curve a b).Point} (hu : A.X.Uses U ∧ A.Y.Uses U) (h : ∀ i, U i → val s' i = val s i)
    (hc : Coords s A P) : Coords s' A P := by
  obtain ⟨x, y, n, e1, e2⟩ := hc
  refine ⟨x, y, n, e1, ?_⟩
  rw [← e2]
  unfold Pt.eval
  rw [agree hu.1 h, agree hu.2 h]

/-- **C160, completeness.** The honest assignment is accepted if no needed multiple is neutral and no partial sum is the next multiple or its opposite. -/
theorem complete (h : k.WF) (s : Asg F) {G : (curve a b).Point} {P : ℕ → (curve a b).Point} (hG : Coords s k.start G)
    (hP : ∀ i < k.num, Coords s (k.points i) (P i)) (hb : ∀ m < k.size, (val s (k.scalars m) = 0 ∨ val s (k.scalars m) = 1))
    (h2 : ∀ i < k.num, ∀ j < k.elt - 1, 2 ^ (j + 1) • P i ≠ 0)
    (hne : ∀ m < k.size, k.acc s G P m ≠ 2 ^ (m % k.elt) • P (m / k.elt) ∧ k.acc s G P m + 2 ^ (m % k.elt) • P (m / k.elt) ≠ 0) :
    Sat (run (k.steps a) s) (k.gates a) := by
  have e := run_eq _ (steps_ssa (a := a) h) s
  have kp : ∀ v, k.Rd k.base v → val (run (k.steps a) s) v = val s v := fun v hv => steps_keep h s hv
  generalize run (k.steps a) s = s' at e kp ⊢
  have hG' := Coords.congr h.start kp hG
  have hP' : ∀ i < k.num, Coords s' (k.points i) (P i) := fun i hi => Coords.congr (h.points i hi) kp (hP i hi)
  have hb' : ∀ m < k.size, (val s' (k.scalars m) = 0 ∨ val s' (k.scalars m) = 1) := fun m hm => by rw [kp _ (h.scalars m hm)]; exact hb m hm
  have hacc : ∀ m ≤ k.size, k.acc s' G P m = k.acc s G P m := by
    intro m hm
    unfold acc
    congr 1
    refine Finset.sum_congr rfl fun t ht => ?_
    have ht := Finset.mem_range.1 ht
    rw [kp _ (h.scalars t (by omega))]
  have e1 : ∀ i < k.num, ∀ j < k.elt - 1, ∀ t ∈ (k.dbl i j).steps a, val s' t.1 = t.2 s' := fun i hi j hj t ht =>
    e t (List.mem_append_left _ (List.mem_flatMap.2 ⟨i, List.mem_range.2 hi, List.mem_flatMap.2 ⟨j, List.mem_range.2 hj, ht⟩⟩))
  have e2 : ∀ m < k.size, ∀ t ∈ k.roundSteps m, val s' t.1 = t.2 s' := fun m hm t ht =>
    e t (List.mem_append_right _ (List.mem_flatMap.2 ⟨m, List.mem_range.2 hm, ht⟩))
  have hd : ∀ i < k.num, ∀ j < k.elt - 1, Coords s' (k.power i j) (2 ^ j • P i) → Sat s' ((k.dbl i j).gates a) := by
    intro i hi j hj hc
    refine dbl_gates_of_steps (e1 i hi j hj) (y_ne_of hc ?_)
    rw [← mul_smul, mul_comm, ← pow_succ]
    exact h2 i hi j hj
  have hpow := k.power_coords s' P hP' hd
  have hr : ∀ m < k.size, Coords s' (k.chosen m) (k.acc s' G P m) → Sat s' (k.round m) := by
    intro m hm hc
    have hs := e2 m hm
    have hp := hpow _ (k.idx hm).1 _ (k.idx hm).2.1
    rw [hacc m hm.le] at hc
    have ha := add_gates_of_steps (k := k.adder m) (fun t ht => hs t (List.mem_append_left _ ht)) (x_ne_of hc hp (hne m hm).1 (hne m hm).2)
    have hx := hs _ (List.mem_append_right _ List.mem_cons_self)
    have hy := hs _ (List.mem_append_right _ (List.mem_cons_of_mem _ List.mem_cons_self))
    dsimp only at hx hy
    refine (k.round_iff s' m).2 ⟨ha, ?_⟩
    rcases hb' m hm with e | e
    · rw [if_pos e] at hx hy
      rw [hx, hy, e]
      exact ⟨by ring, by ring⟩
    · rw [if_neg (by rw [e]; exact one_ne_zero)] at hx hy
      rw [hx, hy, e]
      exact ⟨by ring, by ring⟩
  have hch : ∀ m ≤ k.size, Coords s' (k.chosen m) (k.acc s' G P m) := by
    intro m
    induction m with
    | zero => intro _; unfold acc; rw [Finset.range_zero, Finset.sum_empty, add_zero]; exact hG'
    | succ m ih =>
      intro hm
      have hm' : m < k.size := by omega
      exact k.chosen_step s' (hb' m hm') (ih (by omega)) (hpow _ (k.idx hm').1 _ (k.idx hm').2.1) (hr m hm' (ih (by omega)))
  refine (k.sat_iff s').2 ⟨fun i hi j hj => hd i hi j hj (hpow i hi j (by omega)), fun m hm => hr m hm (hch m hm.le)⟩

end
end Mul

section
/-! Non-vacuity: `y² = x³ + 2 x + 2` over 17 elements, a group of 19 elements; `G = (9, 16) = 5 P`, `P = (5, 1)`, scalar 3, result `8 P = (13, 7)`. -/

private local instance : Fact (Nat.Prime 17) := ⟨by decide⟩

/-- One point, two bits. -/
private def exK : Mul (ZMod 17) := ⟨1, 2, Pt.vars 5 6, fun m => m + 1, fun _ => Pt.vars 3 4, 7, 8, 9⟩
/-- The inputs. -/
private def exS : Asg (ZMod 17) := fun i => if i = 1 then 1 else if i = 2 then 1 else if i = 3 then 5 else if i = 4 then 1 else if i = 5 then 9 else if i = 6 then 16 else 0

private theorem exN : (curve (2 : ZMod 17) 2).Nonsingular 9 16 := nonsingular_iff'.2 (by decide)
private theorem exN' : (curve (2 : ZMod 17) 2).Nonsingular 5 1 := nonsingular_iff'.2 (by decide)

example : Coords (a := 2) (b := 2) exS exK.start (Point.some 9 16 exN) := ⟨9, 16, exN, rfl, by decide +kernel⟩
example : ∀ i < exK.num, Coords (a := 2) (b := 2) exS (exK.points i) (Point.some 5 1 exN') := fun _ _ => ⟨5, 1, exN', rfl, by show Pt.eval exS (Pt.vars 3 4) = _; decide +kernel⟩
example : exK.scalar exS 0 = 3 := by decide +kernel
example : Sat (run (exK.steps 2) exS) (exK.gates 2) ∧ val (run (exK.steps 2) exS) 7 = 13 ∧ val (run (exK.steps 2) exS) 8 = 7 := by
  unfold Sat Constraint.Holds; decide +kernel
example : exK.WF := by
  have v : ∀ n, n = 3 ∨ n = 4 ∨ n = 5 ∨ n = 6 → exK.Rd exK.base n := by
    intro n h
    refine ⟨?_, ?_, ?_⟩ <;> simp only [exK] <;> omega
  refine ⟨by decide, by decide, by decide, by decide, by decide, ⟨uses_var (v _ (by omega)), uses_var (v _ (by omega))⟩, fun _ _ => ⟨uses_var (v _ (by omega)), uses_var (v _ (by omega))⟩, ?_⟩
  intro m hm
  have hm : m < 2 := hm
  refine ⟨?_, ?_, ?_⟩ <;> simp only [exK] <;> omega

end
end Weier
end R1cs
end Verif
