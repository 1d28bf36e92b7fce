import Mathlib.Algebra.Field.Basic
import Mathlib.Algebra.Group.Even
import Mathlib.Tactic.FieldSimp
import Mathlib.Tactic.LinearCombination
import Mathlib.Tactic.Ring

/-!
# Addition on a twisted Edwards curve `-x^2 + y^2 = 1 + d x^2 y^2`

Specification of the components for Ed25519. When `-1` is a square and `d` is not, the addition formulas never divide
by zero.
-/

namespace Verif
namespace Edwards

variable {K : Type*} [Field K]

/-- The curve. -/
def On (d x y : K) : Prop := -x ^ 2 + y ^ 2 = 1 + d * x ^ 2 * y ^ 2

/-- Abscissa of the sum. -/
def addX (d x1 y1 x2 y2 : K) : K := (x1 * y2 + y1 * x2) / (1 + d * (x1 * x2 * y1 * y2))

/-- Ordinate of the sum. -/
def addY (d x1 y1 x2 y2 : K) : K := (y1 * y2 + x1 * x2) / (1 - d * (x1 * x2 * y1 * y2))

/-- `d` nonsquare and `-1` square: the formulas are complete. -/
structure Complete (d : K) : Prop where
  two : (2 : K) ≠ 0
  neg : ∃ i : K, i ^ 2 = -1
  non : ¬ IsSquare d

theorem square_ne {d x1 y1 x2 y2 e : K} (hd : Complete d) (h1 : On d x1 y1) (h2 : On d x2 y2)
    (he : d * (x1 * x2 * y1 * y2) = e) (he2 : e ^ 2 = 1) : False := by
  obtain ⟨h20, ⟨i, hi⟩, hd⟩ := hd
  have i0 : i ≠ 0 := by rintro rfl; simp at hi
  have e0 : e ≠ 0 := by rintro rfl; simp at he2
  have hx1 : x1 ≠ 0 := by rintro rfl; apply e0; rw [← he]; ring
  have hy1 : y1 ≠ 0 := by rintro rfl; apply e0; rw [← he]; ring
  have hy2 : y2 ≠ 0 := by rintro rfl; apply e0; rw [← he]; ring
  unfold On at h1 h2
  -- with `X = i x` the curve is `X^2 + y^2 = 1 + (-d) X^2 y^2`
  have key : ∀ s : K, s ^ 2 = 1 → i * x2 + s * y2 ≠ 0 → False := by
    intro s hs hne
    apply hd
    refine ⟨i * (i * x1 + s * e * y1) / (i * x1 * y1 * (i * x2 + s * y2)), ?_⟩
    have hden : i * x1 * y1 * (i * x2 + s * y2) ≠ 0 :=
      mul_ne_zero (mul_ne_zero (mul_ne_zero i0 hx1) hy1) hne
    rw [div_mul_div_comm, eq_div_iff (mul_ne_zero hden hden)]
    have a1 : d * x1 ^ 2 * y1 ^ 2 * (-x2 ^ 2 + y2 ^ 2) = -x1 ^ 2 + y1 ^ 2 := by
      linear_combination d * x1 ^ 2 * y1 ^ 2 * h2 + (-1) * h1 + he2 + (d * (x1 * x2 * y1 * y2) + e) * he
    have a2 : d * x1 ^ 2 * y1 ^ 2 * (x2 * y2) = e * x1 * y1 := by
      linear_combination x1 * y1 * he
    have l : d * (i * x1 * y1 * (i * x2 + s * y2) * (i * x1 * y1 * (i * x2 + s * y2)))
        = -(d * x1 ^ 2 * y1 ^ 2 * (-x2 ^ 2 + y2 ^ 2)) - 2 * i * s * (d * x1 ^ 2 * y1 ^ 2 * (x2 * y2)) := by
      linear_combination (d * x1 ^ 2 * y1 ^ 2 * (i * x2 + s * y2) ^ 2 - d * x1 ^ 2 * y1 ^ 2 * x2 ^ 2) * hi
        - d * x1 ^ 2 * y1 ^ 2 * y2 ^ 2 * hs
    rw [l, a1, a2]
    linear_combination (-1) * ((i * x1 + s * e * y1) ^ 2 - x1 ^ 2) * hi + y1 ^ 2 * e ^ 2 * hs + y1 ^ 2 * he2
  by_cases c1 : i * x2 + 1 * y2 = 0
  · by_cases c2 : i * x2 + (-1) * y2 = 0
    · have : (2 : K) * y2 = 0 := by linear_combination c1 - c2
      rcases mul_eq_zero.1 this with h | h
      · exact h20 h
      · exact hy2 h
    · exact key (-1) (by ring) c2
  · exact key 1 (by ring) c1

/-- The denominators of the sum of two points of the curve are not zero. -/
theorem den_ne {d x1 y1 x2 y2 : K} (hd : Complete d) (h1 : On d x1 y1) (h2 : On d x2 y2) :
    1 + d * (x1 * x2 * y1 * y2) ≠ 0 ∧ 1 - d * (x1 * x2 * y1 * y2) ≠ 0 := by
  constructor
  · intro h
    exact square_ne hd h1 h2 (e := -1) (by linear_combination h) (by ring)
  · intro h
    exact square_ne hd h1 h2 (e := 1) (by linear_combination -h) (by ring)

/-- The equations of the sum determine it. -/
theorem eq_add {d x1 y1 x2 y2 x y : K} (hd : Complete d) (h1 : On d x1 y1) (h2 : On d x2 y2)
    (hx : x + x * (d * (x1 * y2 * (y1 * x2))) = x1 * y2 + y1 * x2)
    (hy : y - y * (d * (x1 * y2 * (y1 * x2))) = x1 * x2 + y1 * y2) :
    x = addX d x1 y1 x2 y2 ∧ y = addY d x1 y1 x2 y2 := by
  obtain ⟨d1, d2⟩ := den_ne hd h1 h2
  unfold addX addY
  rw [eq_div_iff d1, eq_div_iff d2]
  exact ⟨by linear_combination hx, by linear_combination hy⟩

theorem add_eq {d x1 y1 x2 y2 : K} (hd : Complete d) (h1 : On d x1 y1) (h2 : On d x2 y2) :
    addX d x1 y1 x2 y2 + addX d x1 y1 x2 y2 * (d * (x1 * y2 * (y1 * x2))) = x1 * y2 + y1 * x2 ∧
    addY d x1 y1 x2 y2 - addY d x1 y1 x2 y2 * (d * (x1 * y2 * (y1 * x2))) = x1 * x2 + y1 * y2 := by
  obtain ⟨d1, d2⟩ := den_ne hd h1 h2
  have e1 : addX d x1 y1 x2 y2 * (1 + d * (x1 * x2 * y1 * y2)) = x1 * y2 + y1 * x2 := by
    unfold addX; exact div_mul_cancel₀ _ d1
  have e2 : addY d x1 y1 x2 y2 * (1 - d * (x1 * x2 * y1 * y2)) = y1 * y2 + x1 * x2 := by
    unfold addY; exact div_mul_cancel₀ _ d2
  exact ⟨by linear_combination e1, by linear_combination e2⟩

/-- The sum is on the curve. -/
theorem on_add {d x1 y1 x2 y2 : K} (hd : Complete d) (h1 : On d x1 y1) (h2 : On d x2 y2) :
    On d (addX d x1 y1 x2 y2) (addY d x1 y1 x2 y2) := by
  obtain ⟨d1, d2⟩ := den_ne hd h1 h2
  have g : -(x1 * y2 + y1 * x2) ^ 2 * (1 - d * (x1 * x2 * y1 * y2)) ^ 2
      + (y1 * y2 + x1 * x2) ^ 2 * (1 + d * (x1 * x2 * y1 * y2)) ^ 2
      = ((1 + d * (x1 * x2 * y1 * y2)) * (1 - d * (x1 * x2 * y1 * y2))) ^ 2
        + d * (x1 * y2 + y1 * x2) ^ 2 * (y1 * y2 + x1 * x2) ^ 2 := by
    unfold On at h1 h2
    linear_combination
      ((-x2 ^ 2 + y2 ^ 2) * (1 + (d * (x1 * x2 * y1 * y2)) ^ 2)
        - d * x2 ^ 2 * y2 ^ 2 * (-x1 ^ 2 + y1 ^ 2 + 1 + d * x1 ^ 2 * y1 ^ 2)) * h1
      + ((1 + d * x1 ^ 2 * y1 ^ 2) * (1 + (d * (x1 * x2 * y1 * y2)) ^ 2)
        - d * x1 ^ 2 * y1 ^ 2 * (-x2 ^ 2 + y2 ^ 2 + 1 + d * x2 ^ 2 * y2 ^ 2)) * h2
  unfold On addX addY
  generalize 1 + d * (x1 * x2 * y1 * y2) = a at *
  generalize 1 - d * (x1 * x2 * y1 * y2) = b at *
  field_simp
  linear_combination g

/-- The equations of the double determine it. -/
theorem eq_double {d x1 y1 x y : K} (hd : Complete d) (h1 : On d x1 y1)
    (hx : x * (y1 ^ 2 - x1 ^ 2) = 2 * (x1 * y1)) (hy : 2 * y + y * (x1 ^ 2 - y1 ^ 2) = x1 ^ 2 + y1 ^ 2) :
    x = addX d x1 y1 x1 y1 ∧ y = addY d x1 y1 x1 y1 := by
  unfold On at h1
  exact eq_add hd h1 h1 (by linear_combination hx + (-x) * h1) (by linear_combination hy + y * h1)

/-- The equation of the abscissa alone. -/
theorem eq_double_x {d x1 y1 x : K} (hd : Complete d) (h1 : On d x1 y1) (hx : x * (y1 ^ 2 - x1 ^ 2) = 2 * (x1 * y1)) :
    x = addX d x1 y1 x1 y1 := by
  obtain ⟨d1, d2⟩ := den_ne hd h1 h1
  unfold addX
  rw [eq_div_iff d1]
  unfold On at h1
  linear_combination hx + (-x) * h1

theorem double_eq {d x1 y1 : K} (hd : Complete d) (h1 : On d x1 y1) :
    addX d x1 y1 x1 y1 * (y1 ^ 2 - x1 ^ 2) = 2 * (x1 * y1) ∧
    2 * addY d x1 y1 x1 y1 + addY d x1 y1 x1 y1 * (x1 ^ 2 - y1 ^ 2) = x1 ^ 2 + y1 ^ 2 := by
  obtain ⟨a, b⟩ := add_eq hd h1 h1
  unfold On at h1
  exact ⟨by linear_combination a + addX d x1 y1 x1 y1 * h1, by linear_combination b - addY d x1 y1 x1 y1 * h1⟩

/-- `(0, 1)` is neutral. -/
theorem add_zero_left (d x y : K) : addX d 0 1 x y = x ∧ addY d 0 1 x y = y := by
  simp [addX, addY]

theorem add_zero_right (d x y : K) : addX d x y 0 1 = x ∧ addY d x y 0 1 = y := by
  simp [addX, addY]

theorem on_zero (d : K) : On d 0 1 := by simp [On]

end Edwards
end Verif
