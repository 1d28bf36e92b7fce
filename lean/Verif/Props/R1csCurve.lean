import Verif.Model.R1csCurve
import Verif.Core.Jubjub
import Verif.Props.R1csRun
import Mathlib.Algebra.Field.ZMod
import Mathlib.Tactic.NormNum.Prime

/-!
# C94: points of Montgomery and twisted Edwards curves in r1cs
-/

set_option linter.unusedSectionVars false
set_option linter.unusedSimpArgs false

namespace Verif
namespace R1cs
namespace Curve

open WeierstrassCurve.Affine Montgomery

section
variable {F : Type*} [Field F]

/-- The linear combinations have the coordinates of the point, which is not neutral. -/
def Coords {A : F} (s : Asg F) (P : Pt F) (G : (curve A).Point) : Prop := ∃ x y h, G = Point.some x y h ∧ P.eval s = (x, y)

@[simp] theorem eval_vars (s : Asg F) (x y : ℕ) : (Pt.vars x y : Pt F).eval s = (val s x, val s y) := by simp [Pt.eval, Pt.vars]

/-- What the constraints of the Montgomery addition say about the result, and what its assignment computes. -/
def AddOk (A : F) (s : Asg F) (k : MontAdd F) : Prop :=
  k.p1.X.eval s ≠ k.p2.X.eval s →
    val s k.lambda = (k.p2.Y.eval s - k.p1.Y.eval s) / (k.p2.X.eval s - k.p1.X.eval s) ∧
    val s k.x = val s k.lambda ^ 2 - A - k.p1.X.eval s - k.p2.X.eval s ∧
    val s k.y = val s k.lambda * (k.p1.X.eval s - val s k.x) - k.p1.Y.eval s

theorem montAdd_ok_of_gates {A : F} {s : Asg F} {k : MontAdd F} (h : Sat s (k.gates A)) : AddOk A s k := by
  intro hne
  simp only [MontAdd.gates, sat_cons, sat_nil, and_true, Constraint.Holds, eval_sub, eval_add, eval_var, eval_const] at h
  obtain ⟨h1, h2, h3⟩ := h
  refine ⟨?_, ?_, ?_⟩
  · rw [eq_div_iff (sub_ne_zero.2 (Ne.symm hne))]; linear_combination h1
  · linear_combination -h2
  · linear_combination -h3

theorem montAdd_ok_of_steps {A : F} {s : Asg F} {k : MontAdd F} (h : ∀ t ∈ k.steps A, val s t.1 = t.2 s) : AddOk A s k := by
  intro _
  simp only [MontAdd.steps, List.mem_cons, List.not_mem_nil, or_false, forall_eq_or_imp, forall_eq] at h
  obtain ⟨h1, h2, h3⟩ := h
  exact ⟨by rw [h1, div_eq_mul_inv], h2, by linear_combination h3⟩

theorem montAdd_gates_of_ok {A : F} {s : Asg F} {k : MontAdd F} (hne : k.p1.X.eval s ≠ k.p2.X.eval s) (h : AddOk A s k) : Sat s (k.gates A) := by
  obtain ⟨h1, h2, h3⟩ := h hne
  rw [eq_div_iff (sub_ne_zero.2 (Ne.symm hne))] at h1
  simp only [MontAdd.gates, sat_cons, sat_nil, and_true, Constraint.Holds, eval_sub, eval_add, eval_var, eval_const]
  exact ⟨by linear_combination h1, by linear_combination -h2, by linear_combination -h3⟩

theorem coords_of_ok [DecidableEq F] {A : F} {s : Asg F} {k : MontAdd F} {P Q : (curve A).Point} (hP : Coords s k.p1 P) (hQ : Coords s k.p2 Q)
    (hne : k.p1.X.eval s ≠ k.p2.X.eval s) (h : AddOk A s k) : Coords s (Pt.vars k.x k.y) (P + Q) := by
  obtain ⟨h1, h2, h3⟩ := h hne
  obtain ⟨x1, y1, n1, rfl, e1⟩ := hP
  obtain ⟨x2, y2, n2, rfl, e2⟩ := hQ
  simp only [Pt.eval, Prod.mk.injEq] at e1 e2
  rw [e1.1, e1.2, e2.1, e2.2, eq_div_iff (by rw [← e1.1, ← e2.1]; exact sub_ne_zero.2 (Ne.symm hne))] at h1
  rw [e1.1, e2.1] at h2 hne
  rw [e1.1, e1.2] at h3
  obtain ⟨n3, e⟩ := add_cases n1 n2 (val s k.lambda) (Or.inl ⟨hne, h1⟩)
  refine ⟨_, _, n3, e, ?_⟩
  rw [eval_vars, h3, h2]

/-- **C94**, Montgomery addition: if the two points have different abscissas, an accepted result is their sum in the group of the curve. -/
theorem montAdd_sound [DecidableEq F] {A : F} {s : Asg F} {k : MontAdd F} {P Q : (curve A).Point} (hP : Coords s k.p1 P) (hQ : Coords s k.p2 Q)
    (hne : k.p1.X.eval s ≠ k.p2.X.eval s) (h : Sat s (k.gates A)) : Coords s (Pt.vars k.x k.y) (P + Q) :=
  coords_of_ok hP hQ hne (montAdd_ok_of_gates h)

/-- The variables of the adder are distinct, and its inputs do not use them. -/
structure MontAdd.WF (k : MontAdd F) : Prop where
  x0 : k.x ≠ 0
  y0 : k.y ≠ 0
  l0 : k.lambda ≠ 0
  xy : k.x ≠ k.y
  xl : k.x ≠ k.lambda
  yl : k.y ≠ k.lambda
  p1 : k.p1.X.Uses (fun i => i ≠ k.x ∧ i ≠ k.y ∧ i ≠ k.lambda) ∧ k.p1.Y.Uses (fun i => i ≠ k.x ∧ i ≠ k.y ∧ i ≠ k.lambda)
  p2 : k.p2.X.Uses (fun i => i ≠ k.x ∧ i ≠ k.y ∧ i ≠ k.lambda) ∧ k.p2.Y.Uses (fun i => i ≠ k.x ∧ i ≠ k.y ∧ i ≠ k.lambda)

theorem eval_set {s : Asg F} {l : Lc F} {P : ℕ → Prop} (h : l.Uses P) {i : ℕ} (v : F) (hi : ¬ P i) : l.eval (s.set i v) = l.eval s :=
  Lc.eval_congr h fun _ hj => Asg.set_ne s v fun e => hi (e ▸ hj)

theorem agree {l : Lc F} {U : ℕ → Prop} (h : l.Uses U) {s s' : Asg F} (hs : ∀ i, U i → val s i = val s' i) : l.eval s = l.eval s' := reads_eval l h s s' hs

theorem Reads.comp2 {f g : Asg F → F} {U : ℕ → Prop} (hf : Reads f U) (hg : Reads g U) (o : F → F → F) : Reads (fun s => o (f s) (g s)) U :=
  fun s s' h => by show o (f s) (g s) = o (f s') (g s'); rw [hf s s' h, hg s s' h]

/-- The steps of the adder are straight-line. -/
theorem MontAdd.ssa (A : F) {k : MontAdd F} (h : k.WF) : Ssa (k.steps A) := by
  refine ⟨h.l0, ?_, ?_, h.x0, ?_, ?_, h.y0, ?_, ?_, trivial⟩
  · intro s s' hs
    have a : ∀ i, i ≠ k.x ∧ i ≠ k.y ∧ i ≠ k.lambda → val s i = val s' i := by
      intro i hi
      apply hs
      simp only [List.mem_cons, List.not_mem_nil, or_false, forall_eq_or_imp, forall_eq]
      exact ⟨hi.2.2, hi.1, hi.2.1⟩
    dsimp only
    rw [agree h.p1.1 a, agree h.p1.2 a, agree h.p2.1 a, agree h.p2.2 a]
  · simp only [List.mem_cons, List.not_mem_nil, or_false, forall_eq_or_imp, forall_eq]
    exact ⟨h.xl, h.yl⟩
  · intro s s' hs
    simp only [List.mem_cons, List.not_mem_nil, or_false, forall_eq_or_imp, forall_eq] at hs
    have a : ∀ i, i ≠ k.x ∧ i ≠ k.y ∧ i ≠ k.lambda → val s i = val s' i := fun i hi => hs i ⟨hi.1, hi.2.1⟩
    dsimp only
    rw [agree h.p1.1 a, agree h.p2.1 a, hs k.lambda ⟨h.xl.symm, h.yl.symm⟩]
  · simp only [List.mem_cons, List.not_mem_nil, or_false, forall_eq_or_imp, forall_eq]
    exact h.xy.symm
  · intro s s' hs
    simp only [List.not_mem_nil, false_implies, implies_true, and_true] at hs
    have a : ∀ i, i ≠ k.x ∧ i ≠ k.y ∧ i ≠ k.lambda → val s i = val s' i := fun i hi => hs i hi.2.1
    dsimp only
    rw [agree h.p1.1 a, agree h.p1.2 a, hs k.lambda h.yl.symm, hs k.x h.xy]
  · simp

/-- Completeness: if the abscissas differ, the assignment satisfies the constraints. -/
theorem montAdd_complete (A : F) {k : MontAdd F} (hk : k.WF) (s : Asg F) (hne : k.p1.X.eval s ≠ k.p2.X.eval s) : Sat (run (k.steps A) s) (k.gates A) := by
  apply montAdd_gates_of_ok _ (montAdd_ok_of_steps (run_eq _ (MontAdd.ssa A hk) s))
  have hw : Writes (k.steps A) (fun i => i = k.x ∨ i = k.y ∨ i = k.lambda) := by
    intro t ht
    simp only [MontAdd.steps, List.mem_cons, List.not_mem_nil, or_false] at ht
    rcases ht with rfl | rfl | rfl <;> simp
  have a : ∀ i, i ≠ k.x ∧ i ≠ k.y ∧ i ≠ k.lambda → val (run (k.steps A) s) i = val s i := fun i hi => run_keep _ s hw (by tauto)
  rw [agree hk.p1.1 a, agree hk.p2.1 a]
  exact hne

/-- If the two points are equal, the constraints do not determine the result: every slope gives an accepted one. The two abscissas must differ for the
component to be used. -/
theorem montAdd_equal_points (A : F) {k : MontAdd F} (hk : k.WF) (s : Asg F) (hX : k.p1.X.eval s = k.p2.X.eval s) (hY : k.p1.Y.eval s = k.p2.Y.eval s)
    (l : F) : ∃ s' : Asg F, (∀ i, i ≠ k.x ∧ i ≠ k.y ∧ i ≠ k.lambda → s' i = s i) ∧ Sat s' (k.gates A) ∧ val s' k.x = l ^ 2 - A - 2 * k.p1.X.eval s := by
  let v := l ^ 2 - A - 2 * k.p1.X.eval s
  let s' := ((s.set k.lambda l).set k.x v).set k.y (l * (k.p1.X.eval s - v) - k.p1.Y.eval s)
  have a : ∀ i, i ≠ k.x ∧ i ≠ k.y ∧ i ≠ k.lambda → s' i = s i := by
    rintro i ⟨h1, h2, h3⟩
    show Asg.set _ _ _ _ = _
    rw [Asg.set_ne _ _ h2, Asg.set_ne _ _ h1, Asg.set_ne _ _ h3]
  have vx : val s' k.x = v := by show val (Asg.set _ _ _) _ = _; rw [val_set_ne _ _ hk.xy, val_set_same _ _ hk.x0]
  have vy : val s' k.y = l * (k.p1.X.eval s - v) - k.p1.Y.eval s := by show val (Asg.set _ _ _) _ = _; rw [val_set_same _ _ hk.y0]
  have vl : val s' k.lambda = l := by
    show val (Asg.set _ _ _) _ = _; rw [val_set_ne _ _ hk.yl.symm, val_set_ne _ _ hk.xl.symm, val_set_same _ _ hk.l0]
  refine ⟨s', a, ?_, vx⟩
  simp only [MontAdd.gates, sat_cons, sat_nil, and_true, Constraint.Holds, eval_sub, eval_add, eval_var, eval_const]
  rw [Lc.eval_congr hk.p1.1 a, Lc.eval_congr hk.p1.2 a, Lc.eval_congr hk.p2.1 a, Lc.eval_congr hk.p2.2 a, vx, vy, vl, ← hX, ← hY]
  refine ⟨by ring, ?_, by ring⟩
  show _ = A + _ + _ + (l ^ 2 - A - 2 * k.p1.X.eval s)
  ring

/-! ### Conversion -/

/-- What the constraints of the conversion say, and what its assignment computes. -/
def ConvOk (sc : F) (s : Asg F) (k : Convert F) : Prop :=
  k.p.Y.eval s ≠ 0 → k.p.X.eval s + 1 ≠ 0 → val s k.x = sc * k.p.X.eval s / k.p.Y.eval s ∧ val s k.y = (k.p.X.eval s - 1) / (k.p.X.eval s + 1)

theorem convert_ok_of_gates {sc : F} {s : Asg F} {k : Convert F} (h : Sat s (k.gates sc)) : ConvOk sc s k := by
  intro hy hx
  simp only [Convert.gates, sat_cons, sat_nil, and_true, Constraint.Holds, eval_sub, eval_add, eval_var, eval_const, eval_smul] at h
  obtain ⟨h1, h2⟩ := h
  exact ⟨by rw [eq_div_iff hy]; linear_combination h1, by rw [eq_div_iff hx]; linear_combination h2⟩

theorem convert_ok_of_steps {sc : F} {s : Asg F} {k : Convert F} (h : ∀ t ∈ k.steps sc, val s t.1 = t.2 s) : ConvOk sc s k := by
  intro _ _
  simp only [Convert.steps, List.mem_cons, List.not_mem_nil, or_false, forall_eq_or_imp, forall_eq] at h
  exact ⟨by rw [h.1, div_eq_mul_inv], by rw [h.2, div_eq_mul_inv]⟩

theorem convert_gates_of_ok {sc : F} {s : Asg F} {k : Convert F} (hy : k.p.Y.eval s ≠ 0) (hx : k.p.X.eval s + 1 ≠ 0) (h : ConvOk sc s k) :
    Sat s (k.gates sc) := by
  obtain ⟨h1, h2⟩ := h hy hx
  rw [eq_div_iff hy] at h1
  rw [eq_div_iff hx] at h2
  simp only [Convert.gates, sat_cons, sat_nil, and_true, Constraint.Holds, eval_sub, eval_add, eval_var, eval_const, eval_smul]
  exact ⟨by linear_combination h1, by linear_combination h2⟩

theorem toEd_of_ok [DecidableEq F] {A sc a d : F} (hp : Params A sc a d) {s : Asg F} {k : Convert F} {P : (curve A).Point} (hP : Coords s k.p P)
    (hn : NonTors P) (h : ConvOk sc s k) : (val s k.x, val s k.y) = toEd sc P := by
  obtain ⟨x, y, n, rfl, e⟩ := hP
  simp only [Pt.eval, Prod.mk.injEq] at e
  have hy : y ≠ 0 := hn
  unfold ConvOk at h
  rw [e.1, e.2] at h
  obtain ⟨h1, h2⟩ := h hy (x_ne hp (equation_of n))
  rw [toEd_some n hy, h1, h2]

/-- **C94**, conversion: for a point of the curve that is not of order two, an accepted result is the corresponding point of the twisted Edwards curve. -/
theorem convert_sound [DecidableEq F] {A sc a d : F} (hp : Params A sc a d) {s : Asg F} {k : Convert F} {P : (curve A).Point} (hP : Coords s k.p P)
    (hn : NonTors P) (h : Sat s (k.gates sc)) : (val s k.x, val s k.y) = toEd sc P := toEd_of_ok hp hP hn (convert_ok_of_gates h)

/-- The variables of the converter are distinct, and its input does not use them. -/
structure Convert.WF (k : Convert F) : Prop where
  x0 : k.x ≠ 0
  y0 : k.y ≠ 0
  xy : k.x ≠ k.y
  p : k.p.X.Uses (fun i => i ≠ k.x ∧ i ≠ k.y) ∧ k.p.Y.Uses (fun i => i ≠ k.x ∧ i ≠ k.y)

theorem Convert.ssa (sc : F) {k : Convert F} (h : k.WF) : Ssa (k.steps sc) := by
  refine ⟨h.x0, ?_, ?_, h.y0, ?_, ?_, trivial⟩
  · intro s s' hs
    simp only [List.mem_cons, List.not_mem_nil, or_false, forall_eq_or_imp, forall_eq] at hs
    dsimp only
    rw [agree h.p.1 hs, agree h.p.2 hs]
  · simpa using h.xy.symm
  · intro s s' hs
    simp only [List.not_mem_nil, false_implies, implies_true, and_true] at hs
    dsimp only
    rw [agree h.p.1 fun i hi => hs i hi.2]
  · simp

/-- Completeness. -/
theorem convert_complete (sc : F) {k : Convert F} (hk : k.WF) (s : Asg F) (hy : k.p.Y.eval s ≠ 0) (hx : k.p.X.eval s + 1 ≠ 0) :
    Sat (run (k.steps sc) s) (k.gates sc) := by
  have hw : Writes (k.steps sc) (fun i => i = k.x ∨ i = k.y) := by
    intro t ht
    simp only [Convert.steps, List.mem_cons, List.not_mem_nil, or_false] at ht
    rcases ht with rfl | rfl <;> simp
  have a : ∀ i, i ≠ k.x ∧ i ≠ k.y → val (run (k.steps sc) s) i = val s i := fun i hi => run_keep _ s hw (by tauto)
  apply convert_gates_of_ok _ _ (convert_ok_of_steps (run_eq _ (Convert.ssa sc hk) s))
  · rw [agree hk.p.2 a]; exact hy
  · rw [agree hk.p.1 a]; exact hx

/-- For the point of order two the abscissa of the result is not constrained: every value is accepted. -/
theorem convert_order_two (sc : F) {k : Convert F} (hk : k.WF) (s : Asg F) (hX : k.p.X.eval s = 0) (hY : k.p.Y.eval s = 0) (v : F) :
    ∃ s' : Asg F, (∀ i, i ≠ k.x ∧ i ≠ k.y → s' i = s i) ∧ Sat s' (k.gates sc) ∧ val s' k.x = v := by
  let s' := (s.set k.x v).set k.y (-1)
  have a : ∀ i, i ≠ k.x ∧ i ≠ k.y → s' i = s i := by
    rintro i ⟨h1, h2⟩
    show Asg.set _ _ _ _ = _
    rw [Asg.set_ne _ _ h2, Asg.set_ne _ _ h1]
  have vx : val s' k.x = v := by show val (Asg.set _ _ _) _ = _; rw [val_set_ne _ _ hk.xy, val_set_same _ _ hk.x0]
  have vy : val s' k.y = -1 := by show val (Asg.set _ _ _) _ = _; rw [val_set_same _ _ hk.y0]
  refine ⟨s', a, ?_, vx⟩
  simp only [Convert.gates, sat_cons, sat_nil, and_true, Constraint.Holds, eval_sub, eval_add, eval_var, eval_const, eval_smul]
  rw [Lc.eval_congr hk.p.1 a, Lc.eval_congr hk.p.2 a, vx, vy, hX, hY]
  exact ⟨by ring, by ring⟩

/-! ### Twisted Edwards addition -/

/-- What the constraints of the twisted Edwards addition say. -/
theorem edAdd_sat {a d : F} (s : Asg F) (k : EdAdd F) :
    Sat s (k.gates a d) ↔
      (val s k.x1x2 = k.p1.X.eval s * k.p2.X.eval s ∧ val s k.x1y2 = k.p1.X.eval s * k.p2.Y.eval s ∧ val s k.y1y2 = k.p1.Y.eval s * k.p2.Y.eval s ∧
        val s k.y1x2 = k.p1.Y.eval s * k.p2.X.eval s ∧ val s k.prod = val s k.x1x2 * val s k.y1y2 ∧ val s k.dprod = d * val s k.prod ∧
        val s k.ax1x2 = a * val s k.x1x2) ∧
      val s k.x * (1 + val s k.dprod) = val s k.x1y2 + val s k.y1x2 ∧ val s k.y * (1 - val s k.dprod) = val s k.y1y2 - val s k.ax1x2 := by
  simp only [EdAdd.gates, sat_cons, sat_nil, and_true, Constraint.Holds, eval_cons, eval_nil, eval_var, eval_const, val_zero, one_mul, neg_mul, add_zero,
    ← sub_eq_add_neg]
  constructor
  · rintro ⟨h1, h2, h3, h4, h5, h6, h7, h8, h9⟩
    exact ⟨⟨h3.symm, h2.symm, h4.symm, h1.symm, h5.symm, h6.symm, h7.symm⟩, h9, h8⟩
  · rintro ⟨⟨h3, h2, h4, h1, h5, h6, h7⟩, h9, h8⟩
    exact ⟨h1.symm, h2.symm, h3.symm, h4.symm, h5.symm, h6.symm, h7.symm, h8, h9⟩

/-- **C94**, twisted Edwards addition: for points of the curve, an accepted result is their sum. -/
theorem edAdd_sound {a d : F} (hc : TEd.Complete a d) {s : Asg F} {k : EdAdd F} (h1 : TEd.On a d (k.p1.eval s).1 (k.p1.eval s).2)
    (h2 : TEd.On a d (k.p2.eval s).1 (k.p2.eval s).2) (h : Sat s (k.gates a d)) : (val s k.x, val s k.y) = TEd.add a d (k.p1.eval s) (k.p2.eval s) := by
  obtain ⟨d1, d2⟩ := TEd.den_ne hc h1 h2
  obtain ⟨⟨e1, e2, e3, e4, e5, e6, e7⟩, e8, e9⟩ := (edAdd_sat s k).1 h
  unfold TEd.add
  refine Prod.ext ?_ ?_
  · show _ = _ / _
    rw [eq_div_iff d1]
    simp only [Pt.eval]
    rw [e6, e5, e1, e2, e3, e4] at e8
    linear_combination e8
  · show _ = _ / _
    rw [eq_div_iff d2]
    simp only [Pt.eval]
    rw [e7, e6, e5, e1, e3] at e9
    linear_combination e9

/-- For points of the curve, the equations of the assignment give the constraints. -/
theorem edAdd_gates_of_steps {a d : F} (hc : TEd.Complete a d) {s : Asg F} {k : EdAdd F} (h1 : TEd.On a d (k.p1.eval s).1 (k.p1.eval s).2)
    (h2 : TEd.On a d (k.p2.eval s).1 (k.p2.eval s).2) (h : ∀ t ∈ k.steps a d, val s t.1 = t.2 s) : Sat s (k.gates a d) := by
  obtain ⟨d1, d2⟩ := TEd.den_ne hc h1 h2
  simp only [EdAdd.steps, List.mem_cons, List.not_mem_nil, or_false, forall_eq_or_imp, forall_eq] at h
  obtain ⟨e1, e2, e3, e4, e5, e6, e7, e8, e9⟩ := h
  have hd : val s k.dprod = d * (k.p1.X.eval s * k.p2.X.eval s * k.p1.Y.eval s * k.p2.Y.eval s) := by rw [e6, e5, e1, e3]; ring
  refine (edAdd_sat s k).2 ⟨⟨e1, e2, e3, e4, e5, e6, e7⟩, ?_, ?_⟩
  · rw [e8, mul_assoc, inv_mul_cancel₀ (by rw [hd]; exact d1), mul_one]
  · rw [e9, mul_assoc, inv_mul_cancel₀ (by rw [hd]; exact d2), mul_one]

/-- The variables of the adder are distinct, and its inputs do not use them. -/
structure EdAdd.WF (k : EdAdd F) : Prop where
  x0 : k.x ≠ 0
  y0 : k.y ≠ 0
  b0 : k.base ≠ 0
  xy : k.x ≠ k.y
  xb : k.x < k.base ∨ k.base + 7 ≤ k.x
  yb : k.y < k.base ∨ k.base + 7 ≤ k.y
  p1 : k.p1.X.Uses (fun i => i ≠ k.x ∧ i ≠ k.y ∧ (i < k.base ∨ k.base + 7 ≤ i)) ∧ k.p1.Y.Uses (fun i => i ≠ k.x ∧ i ≠ k.y ∧ (i < k.base ∨ k.base + 7 ≤ i))
  p2 : k.p2.X.Uses (fun i => i ≠ k.x ∧ i ≠ k.y ∧ (i < k.base ∨ k.base + 7 ≤ i)) ∧ k.p2.Y.Uses (fun i => i ≠ k.x ∧ i ≠ k.y ∧ (i < k.base ∨ k.base + 7 ≤ i))

theorem EdAdd.ssa (a d : F) {k : EdAdd F} (h : k.WF) : Ssa (k.steps a d) := by
  have hx0 := h.x0; have hy0 := h.y0; have hb0 := h.b0; have hxy := h.xy; have hxb := h.xb; have hyb := h.yb
  have R : ∀ {V : ℕ → Prop}, (∀ i, i ≠ k.x ∧ i ≠ k.y ∧ (i < k.base ∨ k.base + 7 ≤ i) → V i) →
      Reads (fun s => k.p1.X.eval s) V ∧ Reads (fun s => k.p1.Y.eval s) V ∧ Reads (fun s => k.p2.X.eval s) V ∧ Reads (fun s => k.p2.Y.eval s) V := fun hV =>
    ⟨(reads_eval _ h.p1.1).mono hV, (reads_eval _ h.p1.2).mono hV, (reads_eval _ h.p2.1).mono hV, (reads_eval _ h.p2.2).mono hV⟩
  simp only [EdAdd.steps, Ssa, List.mem_cons, List.not_mem_nil, or_false, forall_eq_or_imp, forall_eq, false_implies, implies_true, and_true,
    EdAdd.x1x2, EdAdd.x1y2, EdAdd.y1y2, EdAdd.y1x2, EdAdd.prod, EdAdd.dprod, EdAdd.ax1x2]
  refine ⟨by omega, ?_, by omega, by omega, ?_, by omega, by omega, ?_, by omega, by omega, ?_, by omega, by omega, ?_, by omega, by omega, ?_, by omega,
    by omega, ?_, by omega, by omega, ?_, by omega, by omega, ?_⟩
  · obtain ⟨r1, r2, r3, r4⟩ := R (V := fun i => i ≠ k.base ∧ i ≠ k.base + 1 ∧ i ≠ k.base + 2 ∧ i ≠ k.base + 3 ∧ i ≠ k.base + 4 ∧ i ≠ k.base + 5 ∧
      i ≠ k.base + 6 ∧ i ≠ k.x ∧ i ≠ k.y) (fun i hi => by omega)
    exact Reads.comp2 r1 r3 (· * ·)
  · obtain ⟨r1, r2, r3, r4⟩ := R (V := fun i => i ≠ k.base + 1 ∧ i ≠ k.base + 2 ∧ i ≠ k.base + 3 ∧ i ≠ k.base + 4 ∧ i ≠ k.base + 5 ∧
      i ≠ k.base + 6 ∧ i ≠ k.x ∧ i ≠ k.y) (fun i hi => by omega)
    exact Reads.comp2 r1 r4 (· * ·)
  · obtain ⟨r1, r2, r3, r4⟩ := R (V := fun i => i ≠ k.base + 2 ∧ i ≠ k.base + 3 ∧ i ≠ k.base + 4 ∧ i ≠ k.base + 5 ∧
      i ≠ k.base + 6 ∧ i ≠ k.x ∧ i ≠ k.y) (fun i hi => by omega)
    exact Reads.comp2 r2 r4 (· * ·)
  · obtain ⟨r1, r2, r3, r4⟩ := R (V := fun i => i ≠ k.base + 3 ∧ i ≠ k.base + 4 ∧ i ≠ k.base + 5 ∧
      i ≠ k.base + 6 ∧ i ≠ k.x ∧ i ≠ k.y) (fun i hi => by omega)
    exact Reads.comp2 r2 r3 (· * ·)
  · exact Reads.comp2 (reads_val (by omega)) (reads_val (by omega)) (· * ·)
  · exact Reads.comp2 (f := fun _ => d) (fun _ _ _ => rfl) (reads_val (by omega)) (· * ·)
  · exact Reads.comp2 (f := fun _ => a) (fun _ _ _ => rfl) (reads_val (by omega)) (· * ·)
  · exact Reads.comp2 (Reads.comp2 (reads_val (by omega)) (reads_val (by omega)) (· + ·)) (reads_val (v := k.base + 5) (by omega)) fun u v => u * (1 + v)⁻¹
  · exact Reads.comp2 (Reads.comp2 (reads_val (by omega)) (reads_val (by omega)) (· - ·)) (reads_val (v := k.base + 5) (by omega)) fun u v => u * (1 - v)⁻¹

theorem EdAdd.writes (a d : F) (k : EdAdd F) : Writes (k.steps a d) (fun i => i = k.x ∨ i = k.y ∨ k.base ≤ i ∧ i < k.base + 7) := by
  intro t ht
  simp only [EdAdd.steps, List.mem_cons, List.not_mem_nil, or_false, EdAdd.x1x2, EdAdd.x1y2, EdAdd.y1y2, EdAdd.y1x2, EdAdd.prod, EdAdd.dprod, EdAdd.ax1x2] at ht
  rcases ht with rfl | rfl | rfl | rfl | rfl | rfl | rfl | rfl | rfl <;> dsimp only <;> omega

/-- Completeness: for points of the curve the assignment satisfies the constraints. -/
theorem edAdd_complete {a d : F} (hc : TEd.Complete a d) {k : EdAdd F} (hk : k.WF) (s : Asg F) (h1 : TEd.On a d (k.p1.eval s).1 (k.p1.eval s).2)
    (h2 : TEd.On a d (k.p2.eval s).1 (k.p2.eval s).2) : Sat (run (k.steps a d) s) (k.gates a d) := by
  have a' : ∀ i, i ≠ k.x ∧ i ≠ k.y ∧ (i < k.base ∨ k.base + 7 ≤ i) → val (run (k.steps a d) s) i = val s i :=
    fun i hi => run_keep _ s (EdAdd.writes a d k) (by omega)
  apply edAdd_gates_of_steps hc _ _ (run_eq _ (EdAdd.ssa a d hk) s)
  · simp only [Pt.eval]; rw [agree hk.p1.1 a', agree hk.p1.2 a']; exact h1
  · simp only [Pt.eval]; rw [agree hk.p2.1 a', agree hk.p2.2 a']; exact h2

/-! ### Well-formedness -/

/-- **C94**, well-formedness: accepted exactly if the point is on the curve. -/
theorem wellFormed_sound {a d : F} {s : Asg F} {k : WellFormed F} (h : Sat s (k.gates a d)) : TEd.On a d (k.p.eval s).1 (k.p.eval s).2 := by
  simp only [WellFormed.gates, sat_cons, sat_nil, and_true, Constraint.Holds, eval_cons, eval_nil, eval_var, eval_const, val_zero, one_mul, mul_one, add_zero] at h
  obtain ⟨h1, h2, h3, h4, h5, h6, h7, h8⟩ := h
  unfold TEd.On
  simp only [Pt.eval]
  rw [← h4, ← h7, ← h3, ← h6, ← h5, ← h1, ← h2] at h8
  linear_combination h8

theorem WellFormed.ssa (a d : F) {k : WellFormed F} (hb : k.base ≠ 0)
    (hp : k.p.X.Uses (fun i => i < k.base ∨ k.base + 7 ≤ i) ∧ k.p.Y.Uses (fun i => i < k.base ∨ k.base + 7 ≤ i)) : Ssa (k.steps a d) := by
  simp only [WellFormed.steps, Ssa, List.mem_cons, List.not_mem_nil, or_false, forall_eq_or_imp, forall_eq, false_implies, implies_true, and_true]
  refine ⟨by omega, ?_, by omega, by omega, ?_, by omega, by omega, ?_, by omega, by omega, ?_, by omega, by omega, ?_, by omega, by omega, ?_, by omega,
    by omega, ?_⟩
  · exact Reads.comp2 ((reads_eval _ hp.1).mono fun i hi => by omega) ((reads_eval _ hp.1).mono fun i hi => by omega) (· * ·)
  · exact Reads.comp2 ((reads_eval _ hp.2).mono fun i hi => by omega) ((reads_eval _ hp.2).mono fun i hi => by omega) (· * ·)
  · exact Reads.comp2 (f := fun _ => a) (fun _ _ _ => rfl) (reads_val (by omega)) (· * ·)
  · exact Reads.comp2 (reads_val (by omega)) (reads_val (by omega)) (· + ·)
  · exact Reads.comp2 (f := fun _ => d) (fun _ _ _ => rfl) (reads_val (by omega)) (· * ·)
  · exact Reads.comp2 (reads_val (by omega)) (reads_val (by omega)) (· * ·)
  · exact Reads.comp2 (reads_val (by omega)) (f := fun s => val s (k.base + 4)) (g := fun _ => 1) (fun _ _ _ => rfl) (· + ·)

/-- Completeness: for a point of the curve the assignment satisfies the constraints. -/
theorem wellFormed_complete {a d : F} {k : WellFormed F} (hb : k.base ≠ 0)
    (hp : k.p.X.Uses (fun i => i < k.base ∨ k.base + 7 ≤ i) ∧ k.p.Y.Uses (fun i => i < k.base ∨ k.base + 7 ≤ i)) (s : Asg F)
    (h : TEd.On a d (k.p.eval s).1 (k.p.eval s).2) : Sat (run (k.steps a d) s) (k.gates a d) := by
  have e := run_eq _ (WellFormed.ssa a d hb hp) s
  have hw : Writes (k.steps a d) (fun i => k.base ≤ i ∧ i < k.base + 7) := by
    intro t ht
    simp only [WellFormed.steps, List.mem_cons, List.not_mem_nil, or_false] at ht
    rcases ht with rfl | rfl | rfl | rfl | rfl | rfl | rfl <;> dsimp only <;> omega
  have a' : ∀ i, (i < k.base ∨ k.base + 7 ≤ i) → val (run (k.steps a d) s) i = val s i := fun i hi => run_keep _ s hw (by omega)
  unfold TEd.On at h
  simp only [Pt.eval] at h
  rw [← agree hp.1 a', ← agree hp.2 a'] at h
  generalize run (k.steps a d) s = s' at *
  simp only [WellFormed.steps, List.mem_cons, List.not_mem_nil, or_false, forall_eq_or_imp, forall_eq] at e
  obtain ⟨e1, e2, e3, e4, e5, e6, e7⟩ := e
  simp only [WellFormed.gates, sat_cons, sat_nil, and_true, Constraint.Holds, eval_cons, eval_nil, eval_var, eval_const, val_zero, one_mul, mul_one, add_zero]
  refine ⟨e1.symm, e2.symm, e3.symm, e4.symm, e5.symm, e6.symm, e7.symm, ?_⟩
  rw [e4, e7, e3, e6, e5, e1, e2]
  linear_combination h

/-! ### Conditional addition -/

/-- **C94**, conditional addition, the part that is there: the selector is a bit and `p_to_add` is the second point or the neutral element. That the result is
the sum of the first point and `p_to_add` is missing, see `condAdd_result_free`. -/
theorem condAdd_sound_partial {s : Asg F} {k : CondAdd F} (h : Sat s k.gates) :
    (val s k.canAdd = 1 ∧ (val s k.base, val s (k.base + 1)) = k.p2.eval s) ∨ (val s k.canAdd = 0 ∧ (val s k.base, val s (k.base + 1)) = (0, 1)) := by
  simp only [CondAdd.gates, sat_cons, sat_nil, and_true, Constraint.Holds, eval_cons, eval_nil, eval_var, eval_const, eval_sub, val_zero, one_mul, mul_one,
    add_zero] at h
  obtain ⟨h1, h2, h3, h4, h5, h6, h7⟩ := h
  rcases mul_eq_zero.1 h3 with h0 | h0
  · right
    refine ⟨h0, Prod.ext ?_ ?_⟩
    · dsimp only; rw [← h1, h0, mul_zero]
    · dsimp only; rw [← h7, ← h6, ← h2, h0]; rw [h0] at h5; linear_combination h5
  · left
    have h0 : val s k.canAdd = 1 := by linear_combination -h0
    refine ⟨h0, Prod.ext ?_ ?_⟩
    · simp only [Pt.eval]; rw [← h1, h0, mul_one]
    · simp only [Pt.eval]; rw [← h7, ← h6, ← h2, h0]; rw [h0] at h5; linear_combination h5

/-- The result of the conditional addition is not constrained: whatever is accepted with one result is accepted with any other. -/
theorem condAdd_result_free {s : Asg F} {k : CondAdd F} {x y : ℕ} (hr : k.result = Pt.vars x y) (h0 : x ≠ 0 ∧ y ≠ 0 ∧ x ≠ y)
    (hx : x ≠ k.canAdd ∧ (x < k.base ∨ k.base + 5 ≤ x)) (hy : y ≠ k.canAdd ∧ (y < k.base ∨ k.base + 5 ≤ y))
    (h2 : k.p2.X.Uses (fun i => i ≠ x ∧ i ≠ y) ∧ k.p2.Y.Uses (fun i => i ≠ x ∧ i ≠ y)) (h : Sat s k.gates) (v : F × F) :
    ∃ s' : Asg F, (∀ i, i ≠ x → i ≠ y → s' i = s i) ∧ Sat s' k.gates ∧ k.result.eval s' = v := by
  let s' := (s.set x v.1).set y v.2
  have a : ∀ i, i ≠ x ∧ i ≠ y → s' i = s i := by
    rintro i ⟨h1, h2⟩
    show Asg.set _ _ _ _ = _
    rw [Asg.set_ne _ _ h2, Asg.set_ne _ _ h1]
  have a' : ∀ i, i ≠ x → i ≠ y → val s' i = val s i := fun i h1 h2 => val_congr (a i ⟨h1, h2⟩)
  refine ⟨s', fun i h1 h2 => a i ⟨h1, h2⟩, ?_, ?_⟩
  · simp only [CondAdd.gates, sat_cons, sat_nil, and_true, Constraint.Holds, eval_cons, eval_nil, eval_var, eval_const, eval_sub] at h ⊢
    rw [Lc.eval_congr h2.1 a, Lc.eval_congr h2.2 a, a' k.canAdd hx.1.symm hy.1.symm, a' k.base (by omega) (by omega), a' (k.base + 1) (by omega) (by omega),
      a' (k.base + 2) (by omega) (by omega), a' (k.base + 3) (by omega) (by omega), a' (k.base + 4) (by omega) (by omega)]
    simpa using h
  · rw [hr, eval_vars]
    refine Prod.ext ?_ ?_
    · show val (Asg.set _ _ _) _ = _; rw [val_set_ne _ _ h0.2.2, val_set_same _ _ h0.1]
    · show val (Asg.set _ _ _) _ = _; rw [val_set_same _ _ h0.2.1]

end
/-! ### Concrete cases -/

instance fact_prime_13 : Fact (Nat.Prime 13) := ⟨by norm_num⟩

/-- A small curve: `y^2 = x^3 + 8 x^2 + x` and `-x^2 + y^2 = 1 + 2 x^2 y^2` over the field of 13 elements. -/
theorem exParams : Params (8 : ZMod 13) 4 12 2 := ⟨by decide, by decide, by decide, by decide, ⟨5, by decide, by decide⟩, by decide⟩

theorem exPoint {x y : ZMod 13} (h : y ^ 2 = x ^ 3 + 8 * x ^ 2 + x) (hy : y ≠ 0) : (curve (8 : ZMod 13)).Nonsingular x y := by
  rw [WeierstrassCurve.Affine.nonsingular_iff', WeierstrassCurve.Affine.equation_iff]
  simp only [curve, zero_mul, add_zero, one_mul]
  refine ⟨by linear_combination h, Or.inr ?_⟩
  revert y; revert x; decide

/-- An adder of the points in variables 1, 2 and 3, 4. -/
def exAdd : MontAdd (ZMod 13) := ⟨Pt.vars 1 2, Pt.vars 3 4, 5, 6, 7⟩

theorem uses_var {F : Type*} [Field F] {i : ℕ} {P : ℕ → Prop} (h : P i) : (Lc.var i : Lc F).Uses P := by
  intro t ht
  rw [List.mem_singleton.1 ht]
  exact Or.inr h

theorem exAdd_wf : exAdd.WF :=
  ⟨by decide, by decide, by decide, by decide, by decide, by decide, ⟨uses_var (by decide), uses_var (by decide)⟩, ⟨uses_var (by decide), uses_var (by decide)⟩⟩

/-- Two points with different abscissas: the assignment is accepted and gives the coordinates of the sum. -/
example : let s : Asg (ZMod 13) := fun i => if i = 1 then 1 else if i = 2 then 6 else if i = 3 then 2 else if i = 4 then 4 else 0
    ∃ P Q : (curve (8 : ZMod 13)).Point, Coords (run (exAdd.steps 8) s) (Pt.vars 1 2) P ∧ Coords (run (exAdd.steps 8) s) (Pt.vars 3 4) Q ∧
      Coords (run (exAdd.steps 8) s) (Pt.vars 5 6) (P + Q) ∧ (val (run (exAdd.steps 8) s) 5, val (run (exAdd.steps 8) s) 6) = (6, 4) := by
  intro s
  have hP : Coords (run (exAdd.steps 8) s) (Pt.vars 1 2) (Point.some 1 6 (exPoint (by decide) (by decide)) : (curve (8 : ZMod 13)).Point) :=
    ⟨_, _, _, rfl, by rw [eval_vars]; decide⟩
  have hQ : Coords (run (exAdd.steps 8) s) (Pt.vars 3 4) (Point.some 2 4 (exPoint (by decide) (by decide)) : (curve (8 : ZMod 13)).Point) :=
    ⟨_, _, _, rfl, by rw [eval_vars]; decide⟩
  refine ⟨_, _, hP, hQ, montAdd_sound (k := exAdd) hP hQ ?_ (montAdd_complete 8 exAdd_wf s ?_), by decide +kernel⟩
  · show (Lc.var 1 : Lc (ZMod 13)).eval _ ≠ (Lc.var 3 : Lc (ZMod 13)).eval _; rw [eval_var, eval_var]; decide
  · show (Lc.var 1 : Lc (ZMod 13)).eval _ ≠ (Lc.var 3 : Lc (ZMod 13)).eval _; rw [eval_var, eval_var]; decide

/-- A converter of the point in variables 1, 2. -/
def exConv : Convert (ZMod 13) := ⟨Pt.vars 1 2, 3, 4⟩

theorem exConv_wf : exConv.WF := ⟨by decide, by decide, by decide, ⟨uses_var (by decide), uses_var (by decide)⟩⟩

/-- A conversion that is accepted. -/
example : let s : Asg (ZMod 13) := fun i => if i = 1 then 1 else if i = 2 then 6 else 0
    (val (run (exConv.steps 4) s) 3, val (run (exConv.steps 4) s) 4) = toEd 4 (Point.some 1 6 (exPoint (by decide) (by decide)) : (curve (8 : ZMod 13)).Point) := by
  intro s
  refine convert_sound exParams (k := exConv) ⟨_, _, _, rfl, ?_⟩ (show (6 : ZMod 13) ≠ 0 by decide) (convert_complete 4 exConv_wf s ?_ ?_)
  · show (Pt.vars 1 2 : Pt (ZMod 13)).eval _ = _; rw [eval_vars]; decide
  · show (Lc.var 2 : Lc (ZMod 13)).eval _ ≠ 0; rw [eval_var]; decide
  · show (Lc.var 1 : Lc (ZMod 13)).eval _ + 1 ≠ 0; rw [eval_var]; decide

/-- An adder of twisted Edwards points in variables 1, 2 and 3, 4. -/
def exEd : EdAdd (ZMod 13) := ⟨Pt.vars 1 2, Pt.vars 3 4, 5, 6, 7⟩

theorem exEd_wf : exEd.WF := by
  refine ⟨by decide, by decide, by decide, by decide, by decide, by decide, ⟨uses_var ?_, uses_var ?_⟩, ⟨uses_var ?_, uses_var ?_⟩⟩ <;> decide

/-- Two points of the twisted Edwards curve: the assignment is accepted and gives their sum. -/
example : let s : Asg (ZMod 13) := fun i => if i = 1 then 2 else if i = 2 then 4 else if i = 3 then 6 else if i = 4 then 3 else 0
    Sat (run (exEd.steps 12 2) s) (exEd.gates 12 2) ∧ (val (run (exEd.steps 12 2) s) 5, val (run (exEd.steps 12 2) s) 6) = TEd.add 12 2 (2, 4) (6, 3) := by
  intro s
  have h1 : TEd.On (12 : ZMod 13) 2 (exEd.p1.eval s).1 (exEd.p1.eval s).2 := by
    show TEd.On (12 : ZMod 13) 2 ((Pt.vars 1 2 : Pt (ZMod 13)).eval s).1 ((Pt.vars 1 2 : Pt (ZMod 13)).eval s).2
    rw [eval_vars]; unfold TEd.On; decide
  have h2 : TEd.On (12 : ZMod 13) 2 (exEd.p2.eval s).1 (exEd.p2.eval s).2 := by
    show TEd.On (12 : ZMod 13) 2 ((Pt.vars 3 4 : Pt (ZMod 13)).eval s).1 ((Pt.vars 3 4 : Pt (ZMod 13)).eval s).2
    rw [eval_vars]; unfold TEd.On; decide
  refine ⟨edAdd_complete exParams.comp exEd_wf s h1 h2, by decide +kernel⟩

/-- The conditional addition accepts a result that is neither the first point nor the sum: with the selector 0, `p1 = p2 = (2, 4)`, the result `(7, 7)`. -/
example : ∃ s : Asg (ZMod 13), let k : CondAdd (ZMod 13) := ⟨Pt.vars 1 2, Pt.vars 1 2, Pt.vars 3 4, 5, 6⟩
    Sat s k.gates ∧ k.p1.eval s = (2, 4) ∧ val s 5 = 0 ∧ k.result.eval s = (7, 7) := by
  refine ⟨fun i => [1, 2, 4, 7, 7, 0, 0, 1, 0, 1, 1].getD i 0, ?_⟩
  simp only [CondAdd.gates, sat_cons, sat_nil, and_true, Constraint.Holds, eval_cons, eval_nil, eval_var, eval_const, eval_sub, val_zero, Pt.vars, eval_vars, Pt.eval]
  decide

/-- Jubjub's parameters meet the conditions. -/
example : Params (40962 : ZMod blsR) (Jubjub.scale : ZMod blsR) (-1) (Jubjub.d : ZMod blsR) := Jubjub.params

end Curve
end R1cs
end Verif
