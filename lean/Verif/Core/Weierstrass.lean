import Mathlib.AlgebraicGeometry.EllipticCurve.Affine.Point
import Mathlib.Tactic.FieldSimp
import Mathlib.Tactic.LinearCombination
import Mathlib.Tactic.Ring

/-!
# Short Weierstrass curves

Mathlib's group of points of `y^2 = x^3 + a x + b` in coordinates.
-/

namespace Verif
namespace Weierstrass
variable {K : Type*} [Field K]

/-- `y^2 = x^3 + a x + b`. -/
def curve (a b : K) : WeierstrassCurve.Affine K := ⟨0, 0, 0, a, b⟩

theorem equation_of {a b x y : K} (h : (curve a b).Nonsingular x y) : y ^ 2 = x ^ 3 + a * x + b := by
  have := ((curve a b).equation_iff x y).1 h.1
  simpa [curve] using this

theorem nonsingular_iff' {a b x y : K} : (curve a b).Nonsingular x y ↔ y ^ 2 = x ^ 3 + a * x + b ∧ (3 * x ^ 2 + a ≠ 0 ∨ 2 * y ≠ 0) := by
  rw [WeierstrassCurve.Affine.nonsingular_iff, WeierstrassCurve.Affine.equation_iff]
  have e1 : ((0 : K) * y ≠ 3 * x ^ 2 + 2 * 0 * x + a) ↔ (3 * x ^ 2 + a ≠ 0) := by
    rw [zero_mul, mul_zero, zero_mul, add_zero, ne_comm]
  have e2 : (y ≠ -y - 0 * x - 0) ↔ 2 * y ≠ 0 := by
    rw [zero_mul, sub_zero, sub_zero, not_iff_not]
    constructor
    · intro h; linear_combination h
    · intro h; linear_combination h
  simp only [curve]
  rw [e1, e2]
  simp

/-- Mathlib's sum in coordinates. -/
theorem add_cases [DecidableEq K] {a b : K} {x₁ y₁ x₂ y₂ : K} (h₁ : (curve a b).Nonsingular x₁ y₁) (h₂ : (curve a b).Nonsingular x₂ y₂) (l : K)
    (hl : x₁ ≠ x₂ ∧ l * (x₂ - x₁) = y₂ - y₁ ∨ x₁ = x₂ ∧ y₁ ≠ -y₂ ∧ 2 * y₁ * l = 3 * x₁ ^ 2 + a) :
    ∃ h : (curve a b).Nonsingular (l ^ 2 - x₁ - x₂) (l * (x₁ - (l ^ 2 - x₁ - x₂)) - y₁),
      (WeierstrassCurve.Affine.Point.some x₁ y₁ h₁ + .some x₂ y₂ h₂ : (curve a b).Point) = .some _ _ h := by
  have hn : (curve a b).negY x₂ y₂ = -y₂ := by simp [WeierstrassCurve.Affine.negY, curve]
  have hslope : (curve a b).slope x₁ x₂ y₁ y₂ = l := by
    rcases hl with ⟨hne, hl⟩ | ⟨he, hyn, hl⟩
    · rw [WeierstrassCurve.Affine.slope_of_X_ne hne, div_eq_iff (sub_ne_zero.2 hne)]
      linear_combination hl
    · rw [WeierstrassCurve.Affine.slope_of_Y_ne he (by rw [hn]; exact hyn)]
      have hy2 : y₁ = y₂ := by
        have e1 := equation_of h₁
        have e2 := equation_of h₂
        rw [he] at e1
        have : (y₁ - y₂) * (y₁ + y₂) = 0 := by linear_combination e1 - e2
        rcases mul_eq_zero.1 this with h | h
        · exact sub_eq_zero.1 h
        · exact absurd (eq_neg_of_add_eq_zero_left h) hyn
      have hd : y₁ - (curve a b).negY x₁ y₁ ≠ 0 := by
        simp only [WeierstrassCurve.Affine.negY, curve]
        intro h
        apply hyn
        rw [← hy2]
        linear_combination h
      rw [div_eq_iff hd]
      simp only [WeierstrassCurve.Affine.negY, curve]
      linear_combination -hl
  have hxy : ¬(x₁ = x₂ ∧ y₁ = (curve a b).negY x₂ y₂) := by
    rintro ⟨a1, a2⟩
    rcases hl with ⟨hne, _⟩ | ⟨_, hyn, _⟩
    · exact hne a1
    · exact hyn (a2.trans hn)
  have ex : (curve a b).addX x₁ x₂ ((curve a b).slope x₁ x₂ y₁ y₂) = l ^ 2 - x₁ - x₂ := by
    rw [hslope]; simp only [WeierstrassCurve.Affine.addX, curve]; ring
  have ey : (curve a b).addY x₁ x₂ y₁ ((curve a b).slope x₁ x₂ y₁ y₂) = l * (x₁ - (l ^ 2 - x₁ - x₂)) - y₁ := by
    rw [hslope]
    simp only [WeierstrassCurve.Affine.addY, WeierstrassCurve.Affine.negAddY, WeierstrassCurve.Affine.addX, WeierstrassCurve.Affine.negY, curve]
    ring
  have hs := WeierstrassCurve.Affine.nonsingular_add h₁ h₂ hxy
  rw [ex, ey] at hs
  refine ⟨hs, ?_⟩
  rw [WeierstrassCurve.Affine.Point.add_some hxy]
  simp only [ex, ey]

theorem add_opp [DecidableEq K] {a b : K} {x y y' : K} (h₁ : (curve a b).Nonsingular x y) (h₂ : (curve a b).Nonsingular x y') (h : y = -y') :
    (WeierstrassCurve.Affine.Point.some x y h₁ + .some x y' h₂ : (curve a b).Point) = 0 :=
  WeierstrassCurve.Affine.Point.add_of_Y_eq rfl (by rw [h]; simp [WeierstrassCurve.Affine.negY, curve])

/-- Two points with the same abscissa are equal or opposite. -/
theorem eq_or_opp [DecidableEq K] {a b : K} {x y y' : K} (h₁ : (curve a b).Nonsingular x y) (h₂ : (curve a b).Nonsingular x y') :
    (WeierstrassCurve.Affine.Point.some x y h₁ : (curve a b).Point) = .some x y' h₂ ∨ (.some x y h₁ + .some x y' h₂ : (curve a b).Point) = 0 := by
  have : (y - y') * (y + y') = 0 := by linear_combination equation_of h₁ - equation_of h₂
  rcases mul_eq_zero.1 this with h | h
  · left
    have := sub_eq_zero.1 h
    subst this; rfl
  · exact Or.inr (add_opp h₁ h₂ (eq_neg_of_add_eq_zero_left h))

end Weierstrass
end Verif
