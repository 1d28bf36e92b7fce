import Verif.Model.UnifiedAddition
import Verif.Core.Primality
import Mathlib.AlgebraicGeometry.EllipticCurve.Affine.Point
import Mathlib.Tactic.FieldSimp
import Mathlib.Tactic.LinearCombination
import Mathlib.Tactic.IntervalCases
import Mathlib.Tactic.NormNum.Prime
import Mathlib.Algebra.Field.ZMod
import Mathlib.NumberTheory.LegendreSymbol.QuadraticReciprocity
import Mathlib.FieldTheory.Finite.Basic

/-!
# C34: unified point addition

The specification is Mathlib's group of points of the Weierstrass curve `y² = x³ + b`.
-/

set_option linter.unusedSimpArgs false
set_option linter.unusedVariables false
set_option linter.unusedSectionVars false

namespace Verif
namespace UnifiedAddition

variable {F : Type*} [Field F]

/-- `y² = x³ + b`. -/
def curve (b : F) : WeierstrassCurve.Affine F := ⟨0, 0, 0, 0, b⟩

/-- Coordinates, with `(0, 0)` for the neutral element. -/
def enc {b : F} : (curve b).Point → F × F
  | .zero => (0, 0)
  | .some x y _ => (x, y)

theorem enc_zero {b : F} : enc (0 : (curve b).Point) = (0, 0) := rfl

theorem equation_of {b x y : F} (h : (curve b).Nonsingular x y) : y ^ 2 = x ^ 3 + b := by
  have := ((curve b).equation_iff x y).1 h.1
  simpa [curve] using this

/-- Mathlib's sum in coordinates: the only fact about the group the proofs use. -/
theorem add_cases [DecidableEq F] {b : F} {x₁ y₁ x₂ y₂ : F} (h₁ : (curve b).Nonsingular x₁ y₁)
    (h₂ : (curve b).Nonsingular x₂ y₂) (l x y : F)
    (hl : x₁ ≠ x₂ ∧ l * (x₂ - x₁) = y₂ - y₁ ∨ x₁ = x₂ ∧ y₁ ≠ -y₂ ∧ 2 * y₁ * l = 3 * x₁ ^ 2)
    (hx : x = l ^ 2 - x₁ - x₂) (hy : y = l * (x₁ - x) - y₁) :
    enc (WeierstrassCurve.Affine.Point.some x₁ y₁ h₁ + .some x₂ y₂ h₂ : (curve b).Point) = (x, y) := by
  have hn : (curve b).negY x₂ y₂ = -y₂ := by simp [WeierstrassCurve.Affine.negY, curve]
  have hslope : (curve b).slope x₁ x₂ y₁ y₂ = l := by
    rcases hl with ⟨hne, hl⟩ | ⟨he, hyn, hl⟩
    · rw [WeierstrassCurve.Affine.slope_of_X_ne hne, div_eq_iff (sub_ne_zero.2 hne)]
      linear_combination hl
    · rw [WeierstrassCurve.Affine.slope_of_Y_ne he (by rw [hn]; exact hyn)]
      have hy2 : y₁ = y₂ := by
        have e1 := equation_of h₁
        have e2 := equation_of h₂
        rw [he] at e1
        have : (y₁ - y₂) * (y₁ + y₂) = 0 := by linear_combination e1 - e2
        rcases mul_eq_zero.1 this with h | h
        · exact sub_eq_zero.1 h
        · exact absurd (eq_neg_of_add_eq_zero_left h) hyn
      have hd : y₁ - (curve b).negY x₁ y₁ ≠ 0 := by
        simp only [WeierstrassCurve.Affine.negY, curve]
        intro h
        apply hyn
        rw [← hy2]
        linear_combination h
      rw [div_eq_iff hd]
      simp only [WeierstrassCurve.Affine.negY, curve]
      linear_combination -hl
  have hxy : ¬(x₁ = x₂ ∧ y₁ = (curve b).negY x₂ y₂) := by
    rintro ⟨a1, a2⟩
    rcases hl with ⟨hne, _⟩ | ⟨_, hyn, _⟩
    · exact hne a1
    · exact hyn (a2.trans hn)
  rw [WeierstrassCurve.Affine.Point.add_some hxy]
  simp only [enc, hslope]
  simp only [WeierstrassCurve.Affine.addY, WeierstrassCurve.Affine.negAddY, WeierstrassCurve.Affine.addX,
    WeierstrassCurve.Affine.negY, curve]
  rw [hy, hx]
  refine Prod.ext ?_ ?_
  · show _ = _; ring
  · show _ = _; ring

theorem add_opp [DecidableEq F] {b : F} {x y y' : F} (h₁ : (curve b).Nonsingular x y) (h₂ : (curve b).Nonsingular x y')
    (h : y = -y') : (WeierstrassCurve.Affine.Point.some x y h₁ + .some x y' h₂ : (curve b).Point) = 0 :=
  WeierstrassCurve.Affine.Point.add_of_Y_eq rfl (by rw [h]; simp [WeierstrassCurve.Affine.negY, curve])

/-- **C34**, soundness: on a curve `y² = x³ + b` with no point of abscissa 0, a satisfying table's output is the group sum. -/
theorem unifiedAddition_sound [DecidableEq F] (b : F) (hb : ∀ y : F, y ^ 2 ≠ b) (c : Cols) (inp : In) (srow : ℤ)
    (t : Table F) (P Q : (curve b).Point) (hP : enc P = (inp.px.value t, inp.py.value t))
    (hQ : enc Q = (inp.qx.value t, inp.qy.value t)) (h : Sat t (circuit c inp srow)) :
    ((resultX c srow).value t, (resultY c srow).value t) = enc (P + Q) := by
  simp [circuit, constraints] at h
  obtain ⟨⟨c1, c2, c3, c4, c5, c6, c7, c8, c9, c10, c11, c12⟩, k1, k2, k3, k4⟩ := h
  rw [k1, k2] at hP
  rw [k3, k4] at hQ
  have rx : (resultX c srow).value t = t .witness (c.w 4) srow := rfl
  have ry : (resultY c srow).value t = t .witness (c.w 5) srow := rfl
  rw [rx, ry]
  clear rx ry k1 k2 k3 k4
  generalize t .witness (c.w 0) srow = x1 at *
  generalize t .witness (c.w 1) srow = y1 at *
  generalize t .witness (c.w 2) srow = x2 at *
  generalize t .witness (c.w 3) srow = y2 at *
  generalize t .witness (c.w 4) srow = x3 at *
  generalize t .witness (c.w 5) srow = y3 at *
  generalize t .witness (c.w 6) srow = w6 at *
  generalize t .witness (c.w 7) srow = w7 at *
  generalize t .witness (c.w 8) srow = w8 at *
  generalize t .witness (c.w 9) srow = w9 at *
  generalize t .witness (c.w 10) srow = l at *
  have fst {a a' : F} {x x' : F} (h : (a, x) = (a', x')) : a = a' := congrArg Prod.fst h
  have snd {a a' : F} {x x' : F} (h : (a, x) = (a', x')) : x = x' := congrArg Prod.snd h
  match P, Q, hP, hQ with
  | .zero, Q, hP, hQ =>
    have e1 : (0 : F) = x1 := fst hP
    have e : (WeierstrassCurve.Affine.Point.zero + Q : (curve b).Point) = Q := zero_add Q
    rw [e, hQ]
    subst e1
    have h3 : x3 = x2 := by
      rcases c7 with h | h
      · simp at h
      · exact sub_eq_zero.1 h
    have h4 : y3 = y2 := by
      rcases c8 with h | h
      · simp at h
      · exact sub_eq_zero.1 h
    rw [h3, h4]
  | .some x y hp, .zero, hP, hQ =>
    have e1 : (0 : F) = x2 := fst hQ
    have e : (WeierstrassCurve.Affine.Point.some x y hp + .zero : (curve b).Point) = .some x y hp := add_zero _
    rw [e, hP]
    subst e1
    have h3 : x3 = x1 := by
      rcases c9 with h | h
      · simp at h
      · exact sub_eq_zero.1 h
    have h4 : y3 = y1 := by
      rcases c10 with h | h
      · simp at h
      · exact sub_eq_zero.1 h
    rw [h3, h4]
  | .some x y hp, .some x' y' hq, hP, hQ =>
    have e1 : x = x1 := fst hP
    have e2 : y = y1 := snd hP
    have e3 : x' = x2 := fst hQ
    have e4 : y' = y2 := snd hQ
    subst e1 e2 e3 e4
    have hx0 : x ≠ 0 := by
      rintro rfl
      have := equation_of hp
      exact hb y (by rw [this]; ring)
    have hx0' : x' ≠ 0 := by
      rintro rfl
      have := equation_of hq
      exact hb y' (by rw [this]; ring)
    by_cases hxx : x = x'
    · subst hxx
      by_cases hyy : y = -y'
      · rw [add_opp hp hq hyy, enc_zero]
        have h3 : x3 = 0 := by
          rcases c11 with h | h
          · rw [hyy] at h; simp at h
          · exact h
        have h4 : y3 = 0 := by
          rcases c12 with h | h
          · rw [hyy] at h; simp at h
          · exact h
        rw [h3, h4]
      · have hs : x * x * y' + x * x * y ≠ 0 := by
          intro h
          have : x * x * (y + y') = 0 := by linear_combination h
          rcases mul_eq_zero.1 this with h | h
          · exact (mul_ne_zero hx0 hx0) h
          · exact hyy (eq_neg_of_add_eq_zero_left h)
        have h5 := c5.resolve_left hs
        have h6 := c6.resolve_left hs
        have h2 := c2.resolve_left (by simp)
        refine (add_cases hp hq l x3 y3 (Or.inr ⟨rfl, hyy, by linear_combination h2⟩) ?_ ?_).symm
        · linear_combination -h5
        · linear_combination -h6
    · have hs : x * x' * x' - x * x' * x ≠ 0 := by
        intro h
        have : x * x' * (x' - x) = 0 := by linear_combination h
        rcases mul_eq_zero.1 this with h | h
        · exact (mul_ne_zero hx0 hx0') h
        · exact hxx (sub_eq_zero.1 h).symm
      have h3 := c3.resolve_left hs
      have h4 := c4.resolve_left hs
      have h1 := c1.resolve_left fun h => hxx (sub_eq_zero.1 h).symm
      refine (add_cases hp hq l x3 y3 (Or.inl ⟨hxx, by linear_combination h1⟩) ?_ ?_).symm
      · linear_combination -h3
      · linear_combination -h4

/-- The sum the assigner computes is the group sum. -/
theorem sumCells_eq [DecidableEq F] (b : F) (hb : ∀ y : F, y ^ 2 ≠ b) (h2 : (2 : F) ≠ 0) (P Q : (curve b).Point) :
    sumCells (enc P).1 (enc P).2 (enc Q).1 (enc Q).2 = enc (P + Q) := by
  match P, Q with
  | .zero, Q =>
    have e : (WeierstrassCurve.Affine.Point.zero + Q : (curve b).Point) = Q := zero_add Q
    rw [e]
    simp [sumCells, enc]
  | .some x y hp, .zero =>
    have e : (WeierstrassCurve.Affine.Point.some x y hp + .zero : (curve b).Point) = .some x y hp := add_zero _
    rw [e]
    simp only [sumCells, enc]
    split_ifs with h
    · rw [h.1, h.2]
    · rfl
    · simp_all
    · simp_all
  | .some x y hp, .some x' y' hq =>
    have hx0 : x ≠ 0 := by
      rintro rfl
      have := equation_of hp
      exact hb y (by rw [this]; ring)
    have hx0' : x' ≠ 0 := by
      rintro rfl
      have := equation_of hq
      exact hb y' (by rw [this]; ring)
    show sumCells x y x' y' = _
    unfold sumCells
    rw [if_neg (fun h => hx0 h.1), if_neg (fun h => hx0' h.1)]
    split_ifs with h
    · obtain ⟨h1, h3⟩ := h
      subst h1
      rw [add_opp hp hq (by rw [h3, neg_neg]), enc_zero]
    · refine (add_cases hp hq (if x = x' then 3 * (x * x) / (2 * y) else (y' - y) / (x' - x)) _ _ ?_ ?_ ?_).symm
      · by_cases hxx : x = x'
        · right
          have hyn : y ≠ -y' := fun hc => h ⟨hxx.symm, by rw [hc, neg_neg]⟩
          have e1 := equation_of hp
          have e2 := equation_of hq
          have hy0 : y ≠ 0 := by
            rintro rfl
            apply hyn
            rw [← hxx] at e2
            have : y' ^ 2 = 0 := by linear_combination e2 - e1
            rw [pow_eq_zero_iff (by norm_num)] at this
            rw [this, neg_zero]
          refine ⟨hxx, hyn, ?_⟩
          rw [if_pos hxx]
          have h2y : 2 * y ≠ 0 := mul_ne_zero h2 hy0
          rw [mul_div_cancel₀ _ h2y]
          ring
        · left
          refine ⟨hxx, ?_⟩
          rw [if_neg hxx, div_mul_cancel₀]
          exact sub_ne_zero.2 fun h => hxx h.symm
      · ring
      · rfl

/-- The constraints hold on the assigned row. -/
theorem cell_sat [DecidableEq F] (b : F) (hb : ∀ y : F, y ^ 2 ≠ b) (h2 : (2 : F) ≠ 0) (htor : ∀ x : F, x ^ 3 + b ≠ 0)
    (P Q : (curve b).Point) (c : Cols) (t : Table F) (srow : ℤ)
    (ht : ∀ i : ℕ, i < 11 → t .witness (c.w i) srow = cell (enc P).1 (enc P).2 (enc Q).1 (enc Q).2 i) :
    ∀ e ∈ constraints (F := F) c, e.eval t srow = 0 := by
  have g0 := ht 0 (by decide)
  have g1 := ht 1 (by decide)
  have g2 := ht 2 (by decide)
  have g3 := ht 3 (by decide)
  have g4 := ht 4 (by decide)
  have g5 := ht 5 (by decide)
  have g6 := ht 6 (by decide)
  have g7 := ht 7 (by decide)
  have g8 := ht 8 (by decide)
  have g9 := ht 9 (by decide)
  have g10 := ht 10 (by decide)
  simp only [Nat.cast_zero, Nat.cast_one, Nat.cast_ofNat, cell] at g0 g1 g2 g3 g4 g5 g6 g7 g8 g9 g10
  simp only [constraints, List.mem_cons, List.not_mem_nil, or_false, forall_eq_or_imp, forall_eq]
  simp only [Expr.eval_add, Expr.eval_sub, Expr.eval_mul, Expr.eval_one, Expr.eval_two, Expr.eval_three, Cols.eval_wv, add_zero]
  simp only [g0, g1, g2, g3, g4, g5, g6, g7, g8, g9, g10]
  clear g0 g1 g2 g3 g4 g5 g6 g7 g8 g9 g10 ht
  match P, Q with
  | .zero, .zero => simp [sumCells, enc]
  | .zero, .some x y hp =>
    have hx0 : x ≠ 0 := by
      rintro rfl
      have := equation_of hp
      exact hb y (by rw [this]; ring)
    simp [sumCells, enc, hx0, hx0.symm]
    field_simp
    ring
  | .some x y hp, .zero =>
    have hx0 : x ≠ 0 := by
      rintro rfl
      have := equation_of hp
      exact hb y (by rw [this]; ring)
    simp [sumCells, enc, hx0, hx0.symm]
    field_simp
    ring
  | .some x y hp, .some x' y' hq =>
    have hx0 : x ≠ 0 := by
      rintro rfl
      have := equation_of hp
      exact hb y (by rw [this]; ring)
    have hx0' : x' ≠ 0 := by
      rintro rfl
      have := equation_of hq
      exact hb y' (by rw [this]; ring)
    have hy0 : y ≠ 0 := by
      rintro rfl
      have := equation_of hp
      exact htor x (by rw [← this]; ring)
    have h2y : 2 * y ≠ 0 := mul_ne_zero h2 hy0
    by_cases hxx : x = x'
    · subst hxx
      by_cases hyy : y = -y'
      · have hyy' : y' = -y := by rw [hyy, neg_neg]
        subst hyy'
        simp [sumCells, enc, hx0, hy0]
        field_simp
        ring
      · have hyy' : ¬ y' = -y := fun h => hyy (by rw [h, neg_neg])
        have e1 := equation_of hp
        have e2 := equation_of hq
        have hyeq : y' = y := by
          have : (y' - y) * (y' + y) = 0 := by linear_combination e2 - e1
          rcases mul_eq_zero.1 this with h | h
          · exact sub_eq_zero.1 h
          · exact absurd (eq_neg_of_add_eq_zero_left h) hyy'
        subst hyeq
        have hs : y' + y' ≠ 0 := by rw [← two_mul]; exact h2y
        simp only [sumCells, enc, curveSum, hx0, hyy, hyy', hy0, false_and, and_false, if_false, if_true, ne_eq, not_true_eq_false,
          not_false_eq_true, div_eq_mul_inv]
        have hl : 2 * y' * (3 * (x * x) * (2 * y')⁻¹) = 3 * (x * x) := by rw [mul_comm, mul_assoc, inv_mul_cancel₀ h2y, mul_one]
        have hi : x * x⁻¹ = 1 := mul_inv_cancel₀ hx0
        have hj : (y' + y') * (y' + y')⁻¹ = 1 := mul_inv_cancel₀ hs
        generalize 3 * (x * x) * (2 * y')⁻¹ = l at *
        generalize x⁻¹ = i at *
        generalize (y' + y')⁻¹ = j at *
        refine ⟨by ring, by linear_combination hl, by ring, by ring, by ring, by ring, ?_, ?_, ?_, ?_, ?_, ?_⟩
        · rw [hi]; ring
        · rw [hi]; ring
        · rw [hi]; ring
        · rw [hi]; ring
        · rw [hj]; ring
        · rw [hj]; ring
    · have hxx' : ¬ x' = x := fun h => hxx h.symm
      have hd : x' - x ≠ 0 := sub_ne_zero.2 hxx'
      simp only [sumCells, enc, curveSum, hx0, hx0', hxx, hxx', false_and, and_false, if_false, if_true, ne_eq, not_true_eq_false,
          not_false_eq_true, div_eq_mul_inv]
      have hl : (x' - x) * ((y' - y) * (x' - x)⁻¹) = y' - y := by rw [mul_comm, mul_assoc, inv_mul_cancel₀ hd, mul_one]
      have hi : x * x⁻¹ = 1 := mul_inv_cancel₀ hx0
      have hi' : x' * x'⁻¹ = 1 := mul_inv_cancel₀ hx0'
      have hj : (x' - x) * (x' - x)⁻¹ = 1 := mul_inv_cancel₀ hd
      generalize (y' - y) * (x' - x)⁻¹ = l at *
      generalize x⁻¹ = i at *
      generalize x'⁻¹ = i' at *
      generalize (x' - x)⁻¹ = j at *
      refine ⟨by rw [hl]; ring, by rw [hj]; ring, by ring, by ring, by ring, by ring, ?_, ?_, ?_, ?_, ?_, ?_⟩
      · rw [hi]; ring
      · rw [hi]; ring
      · rw [hi']; ring
      · rw [hi']; ring
      · rw [hj]; ring
      · rw [hj]; ring

/-- Completeness for a component that sits on the first columns of a wider one. -/
theorem unifiedAddition_complete_wide [DecidableEq F] (b : F) (hb : ∀ y : F, y ^ 2 ≠ b) (h2 : (2 : F) ≠ 0)
    (htor : ∀ x : F, x ^ 3 + b ≠ 0) (c : Cols) {n : ℕ} (hn : 11 ≤ n) (hc : c.OK n) (inp : In) (srow : ℤ) (t : Table F) (P Q : (curve b).Point)
    (hP : enc P = (inp.px.value t, inp.py.value t)) (hQ : enc Q = (inp.qx.value t, inp.qy.value t))
    (o1 : inp.px.Outside srow 1) (o2 : inp.py.Outside srow 1) (o3 : inp.qx.Outside srow 1) (o4 : inp.qy.Outside srow 1) :
    let t' := assign c inp srow (writeConsts (circuit c inp srow) t)
    Sat t' (circuit c inp srow) ∧ Frame c srow 1 t t' ∧ ((resultX c srow).value t', (resultY c srow).value t') = enc (P + Q) := by
  intro t'
  have hw : writeConsts (circuit c inp srow) t = t := rfl
  have e1 : (enc P).1 = inp.px.value t := by rw [hP]
  have e2 : (enc P).2 = inp.py.value t := by rw [hP]
  have e3 : (enc Q).1 = inp.qx.value t := by rw [hQ]
  have e4 : (enc Q).2 = inp.qy.value t := by rw [hQ]
  have hcell : ∀ i : ℕ, i < 11 → t' .witness (c.w i) srow = cell (enc P).1 (enc P).2 (enc Q).1 (enc Q).2 i := by
    intro i hi
    rw [e1, e2, e3, e4]
    show writeAll _ t .witness (c.w i) srow = _
    have := writeAll_of_mem ([0, 1, 2, 3, 4, 5, 6, 7, 10, 9, 8].map fun i : ℕ => (⟨.witness, c.w i, srow,
      cell (inp.px.value t) (inp.py.value t) (inp.qx.value t) (inp.qy.value t) i⟩ : Write F)) t
      ⟨.witness, c.w i, srow, cell (inp.px.value t) (inp.py.value t) (inp.qx.value t) (inp.qy.value t) i⟩ ?_ ?_
    · exact this
    · refine List.mem_map.2 ⟨i, ?_, rfl⟩
      interval_cases i <;> simp
    · intro w hw _ hidx _
      obtain ⟨j, hj, rfl⟩ := List.mem_map.1 hw
      have hj11 : j < 11 := by
        simp only [List.mem_cons, List.not_mem_nil, or_false] at hj
        omega
      have : (j : ℤ) = i := (hc.inj ⟨by omega, by omega⟩ ⟨by omega, by omega⟩).1 hidx
      have : j = i := by exact_mod_cast this
      rw [this]
  have hown : Own c srow 1 ([0, 1, 2, 3, 4, 5, 6, 7, 10, 9, 8].map fun i : ℕ => (⟨.witness, c.w i, srow,
      cell (inp.px.value t) (inp.py.value t) (inp.qx.value t) (inp.qy.value t) i⟩ : Write F)) := by
    intro w hw
    obtain ⟨j, hj, rfl⟩ := List.mem_map.1 hw
    exact ⟨rfl, Cols.w_mem (by rw [hc.2]; omega) _, by simp, by simp⟩
  have hframe : Frame c srow 1 t t' := hown.frame t
  refine ⟨?_, hframe, ?_⟩
  · have hsat := cell_sat b hb h2 htor P Q c t' srow hcell
    have q0 := hcell 0 (by decide)
    have q1 := hcell 1 (by decide)
    have q2 := hcell 2 (by decide)
    have q3 := hcell 3 (by decide)
    have f1 := hframe.outside o1
    have f2 := hframe.outside o2
    have f3 := hframe.outside o3
    have f4 := hframe.outside o4
    simp only [Nat.cast_zero, Nat.cast_one, Nat.cast_ofNat, cell, e1, e2, e3, e4] at q0 q1 q2 q3
    simp [circuit, f1, f2, f3, f4, q0, q1, q2, q3]
    exact hsat
  · rw [← sumCells_eq b hb h2 P Q]
    exact Prod.ext (hcell 4 (by decide)) (hcell 5 (by decide))

/-- **C34**, completeness: with no point of abscissa 0 and no point of order two, the generated row satisfies the circuit,
only that row is touched, and the output is the group sum. -/
theorem unifiedAddition_complete [DecidableEq F] (b : F) (hb : ∀ y : F, y ^ 2 ≠ b) (h2 : (2 : F) ≠ 0)
    (htor : ∀ x : F, x ^ 3 + b ≠ 0) (c : Cols) (hc : c.OK 11) (inp : In) (srow : ℤ) (t : Table F) (P Q : (curve b).Point)
    (hP : enc P = (inp.px.value t, inp.py.value t)) (hQ : enc Q = (inp.qx.value t, inp.qy.value t))
    (o1 : inp.px.Outside srow 1) (o2 : inp.py.Outside srow 1) (o3 : inp.qx.Outside srow 1) (o4 : inp.qy.Outside srow 1) :
    let t' := assign c inp srow (writeConsts (circuit c inp srow) t)
    Sat t' (circuit c inp srow) ∧ Frame c srow 1 t t' ∧ ((resultX c srow).value t', (resultY c srow).value t') = enc (P + Q) :=
  unifiedAddition_complete_wide b hb h2 htor c le_rfl hc inp srow t P Q hP hQ o1 o2 o3 o4

/-- The honest row fails for a point of order two added to itself: constraint 2 asks for a tangent slope. -/
theorem unifiedAddition_incomplete_two_torsion [DecidableEq F] (x : F) (hx : x ≠ 0) (h3 : (3 : F) ≠ 0) (c : Cols) (hc : c.OK 11)
    (inp : In) (srow : ℤ) (t : Table F) (hpx : inp.px.value t = x) (hpy : inp.py.value t = 0) (hqx : inp.qx.value t = x)
    (hqy : inp.qy.value t = 0) : ¬ Sat (assign c inp srow t) (circuit c inp srow) := by
  intro h
  simp [circuit, constraints] at h
  obtain ⟨⟨_, c2, _⟩, _⟩ := h
  simp [assign, cell, hpx, hpy, hqx, hqy, Table.set_apply, hc.inj, h3, hx] at c2

/-- With a point of abscissa 0 the constraints force a wrong sum: `P = Q = (0, y)`. -/
theorem unifiedAddition_unsound_zero_abscissa [DecidableEq F] (y : F) (hy : y ≠ 0) (h2 : (2 : F) ≠ 0)
    (hns : (curve (y ^ 2)).Nonsingular 0 y) (c : Cols) (inp : In) (srow : ℤ) (t : Table F)
    (hP : (inp.px.value t, inp.py.value t) = (0, y)) (hQ : (inp.qx.value t, inp.qy.value t) = (0, y))
    (h : Sat t (circuit c inp srow)) :
    ((resultX c srow).value t, (resultY c srow).value t) ≠
      enc (WeierstrassCurve.Affine.Point.some 0 y hns + .some 0 y hns : (curve (y ^ 2)).Point) := by
  have hne : y ≠ -y := by
    intro h0
    have : 2 * y = 0 := by linear_combination h0
    exact (mul_ne_zero h2 hy) this
  rw [add_cases hns hns 0 0 (-y) (Or.inr ⟨rfl, hne, by ring⟩) (by ring) (by ring)]
  simp [circuit, constraints] at h
  obtain ⟨⟨_, _, _, _, _, _, _, c8, _⟩, k1, k2, k3, k4⟩ := h
  simp only [Prod.mk.injEq] at hP hQ
  rw [← k1, hP.1, ← k4, hQ.2] at c8
  have h5 : t .witness (c.w 5) srow = y := by
    rcases c8 with h | h
    · simp at h
    · exact sub_eq_zero.1 h
  intro he
  have h6 : t .witness (c.w 5) srow = -y := congrArg Prod.snd he
  exact hne (h5.symm.trans h6)

/-! ## Instances -/

instance : Fact (Nat.Prime 7) := ⟨by norm_num⟩

theorem ex_nonsing (x y : ZMod 7) (h : y ^ 2 = x ^ 3 + 3) (hy : y ≠ 0) : (curve (3 : ZMod 7)).Nonsingular x y := by
  rw [WeierstrassCurve.Affine.nonsingular_iff, WeierstrassCurve.Affine.equation_iff]
  refine ⟨by simpa [curve] using h, Or.inr ?_⟩
  simp only [curve]
  revert hy
  revert y
  decide +revert

/-- `y² = x³ + 3` over the field of seven elements: `(1, 2) + (1, 2) = (6, 3)`, all hypotheses met. -/
example : ∃ t : Table (ZMod 7),
    Sat t (circuit ⟨[0, 1, 2, 3, 4, 5, 6, 7, 8, 9, 10], [], []⟩
      ⟨⟨0, 0, false, .witness⟩, ⟨1, 0, false, .witness⟩, ⟨0, 0, false, .witness⟩, ⟨1, 0, false, .witness⟩⟩ 1) ∧
    (resultX ⟨[0, 1, 2, 3, 4, 5, 6, 7, 8, 9, 10], [], []⟩ 1).value t = 6 := by
  have hn : (curve (3 : ZMod 7)).Nonsingular 1 2 := ex_nonsing 1 2 (by decide) (by decide)
  have h := unifiedAddition_complete (F := ZMod 7) 3 (by decide) (by decide) (by decide) ⟨[0, 1, 2, 3, 4, 5, 6, 7, 8, 9, 10], [], []⟩
    ⟨by decide, rfl⟩
    ⟨⟨0, 0, false, .witness⟩, ⟨1, 0, false, .witness⟩, ⟨0, 0, false, .witness⟩, ⟨1, 0, false, .witness⟩⟩ 1
    (fun _ i r => if r = 0 then (if i = 0 then 1 else 2) else 0) (.some 1 2 hn) (.some 1 2 hn) rfl rfl
    (by intro _; left; decide) (by intro _; left; decide) (by intro _; left; decide) (by intro _; left; decide)
  refine ⟨_, h.1, ?_⟩
  rw [add_cases hn hn 6 6 3 (Or.inr ⟨rfl, by decide, by decide⟩) (by decide) (by decide)] at h
  exact congrArg Prod.fst h.2.2

/-! ## The Pasta curves -/

theorem two_nonsquare : ¬ IsSquare (2 : ZMod 5) := by decide

theorem five_nonsquare (p : ℕ) [Fact p.Prime] (h4 : p % 4 = 1) (h5 : p % 5 = 2) (y : ZMod p) : y ^ 2 ≠ 5 := by
  have : Fact (Nat.Prime 5) := ⟨by norm_num⟩
  intro h
  have hs : IsSquare ((5 : ℕ) : ZMod p) := ⟨y, by rw [← sq, h]; norm_num⟩
  have := (ZMod.exists_sq_eq_prime_iff_of_mod_four_eq_one h4 (by norm_num : (5:ℕ) ≠ 2)).1 hs
  have hp : ((p : ℕ) : ZMod 5) = 2 := by
    rw [← ZMod.natCast_mod, h5]; rfl
  rw [hp] at this
  exact two_nonsquare this

theorem not_cube (p a k : ℕ) [Fact p.Prime] (hk : p - 1 = 3 * k) (hr : powMod p 256 a k ≠ 1) (hk2 : k < 2 ^ 256) (hp1 : 1 < p)
    (ha : ¬ p ∣ a) (x : ZMod p) : x ^ 3 ≠ (a : ZMod p) := by
  intro h
  have hx : x ≠ 0 := by
    rintro rfl
    apply ha
    rw [← ZMod.natCast_eq_zero_iff, ← h]
    norm_num
  have h1 := ZMod.pow_card_sub_one_eq_one hx
  rw [hk, pow_mul, h, ← Nat.cast_pow] at h1
  have h2 : ((a ^ k : ℕ) : ZMod p) = ((1 : ℕ) : ZMod p) := by rw [h1]; norm_num
  rw [ZMod.natCast_eq_natCast_iff', ← powMod_eq p 256 a k hk2, Nat.mod_eq_of_lt hp1] at h2
  exact hr h2

/-- The hypotheses of C34 hold for a prime with these residues. -/
theorem pasta_ok (p k : ℕ) [Fact p.Prime] (h4 : p % 4 = 1) (h5 : p % 5 = 2) (hk : p - 1 = 3 * k)
    (hr : powMod p 256 (p - 5) k ≠ 1) (hk2 : k < 2 ^ 256) (hp : 5 < p) :
    (∀ y : ZMod p, y ^ 2 ≠ 5) ∧ (2 : ZMod p) ≠ 0 ∧ ∀ x : ZMod p, x ^ 3 + 5 ≠ 0 := by
  refine ⟨five_nonsquare p h4 h5, ?_, fun x hx => ?_⟩
  · intro h
    have h2 : ((2 : ℕ) : ZMod p) = 0 := by exact_mod_cast h
    rw [ZMod.natCast_eq_zero_iff] at h2
    have := Nat.le_of_dvd (by norm_num) h2
    omega
  · refine not_cube p (p - 5) k hk hr hk2 (by omega) (fun hd => ?_) x ?_
    · have := Nat.le_of_dvd (by omega) hd
      omega
    · rw [Nat.cast_sub (by omega), ZMod.natCast_self]
      push_cast
      linear_combination hx

/-- C34 applies to Pallas and Vesta (`y² = x³ + 5`). -/
theorem pallas_ok :
    (∀ y : ZMod pallasP, y ^ 2 ≠ 5) ∧ (2 : ZMod pallasP) ≠ 0 ∧ ∀ x : ZMod pallasP, x ^ 3 + 5 ≠ 0 :=
  pasta_ok pallasP ((pallasP - 1) / 3) (by decide +kernel) (by decide +kernel) (by decide +kernel) (by decide +kernel)
    (by decide +kernel) (by decide +kernel)

theorem vesta_ok :
    (∀ y : ZMod vestaP, y ^ 2 ≠ 5) ∧ (2 : ZMod vestaP) ≠ 0 ∧ ∀ x : ZMod vestaP, x ^ 3 + 5 ≠ 0 :=
  pasta_ok vestaP ((vestaP - 1) / 3) (by decide +kernel) (by decide +kernel) (by decide +kernel) (by decide +kernel)
    (by decide +kernel) (by decide +kernel)

end UnifiedAddition
end Verif
