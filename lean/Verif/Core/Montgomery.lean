import Mathlib.AlgebraicGeometry.EllipticCurve.Affine.Point
import Mathlib.Algebra.Group.Even
import Mathlib.Tactic.FieldSimp
import Mathlib.Tactic.LinearCombination
import Mathlib.Tactic.Ring

/-!
# Montgomery and twisted Edwards curves

Specification of the r1cs curve components: the Montgomery curve `y^2 = x^3 + A x^2 + x` with Mathlib's group of points, the twisted Edwards curve
`a x^2 + y^2 = 1 + d x^2 y^2` with the usual addition formulas, and the map between them, which is shown to take sums to sums.
-/

set_option linter.unusedSectionVars false
set_option linter.unusedSimpArgs false

namespace Verif

/-! ### Twisted Edwards curves -/

namespace TEd
variable {K : Type*} [Field K]

/-- The curve. -/
def On (a d x y : K) : Prop := a * x ^ 2 + y ^ 2 = 1 + d * x ^ 2 * y ^ 2

/-- The sum of two points. -/
def add (a d : K) (P Q : K × K) : K × K :=
  ((P.1 * Q.2 + P.2 * Q.1) / (1 + d * (P.1 * Q.1 * P.2 * Q.2)), (P.2 * Q.2 - a * (P.1 * Q.1)) / (1 - d * (P.1 * Q.1 * P.2 * Q.2)))

/-- `a` a nonzero square and `d` not a square: the formulas are complete. -/
structure Complete (a d : K) : Prop where
  two : (2 : K) ≠ 0
  sq : ∃ r : K, r ≠ 0 ∧ r ^ 2 = a
  non : ¬ IsSquare d

theorem square_ne {a d x1 y1 x2 y2 e : K} (hc : Complete a d) (h1 : On a d x1 y1) (h2 : On a d x2 y2)
    (he : d * (x1 * x2 * y1 * y2) = e) (he2 : e ^ 2 = 1) : False := by
  obtain ⟨h20, ⟨r, r0, hr⟩, hd⟩ := hc
  have e0 : e ≠ 0 := by rintro rfl; simp at he2
  have hx1 : x1 ≠ 0 := by rintro rfl; apply e0; rw [← he]; ring
  have hy1 : y1 ≠ 0 := by rintro rfl; apply e0; rw [← he]; ring
  have hy2 : y2 ≠ 0 := by rintro rfl; apply e0; rw [← he]; ring
  unfold On at h1 h2
  have key : ∀ t : K, t ^ 2 = 1 → r * x2 + t * y2 ≠ 0 → False := by
    intro t ht hne
    apply hd
    refine ⟨(r * x1 + t * e * y1) / (x1 * y1 * (r * x2 + t * y2)), ?_⟩
    have hden : x1 * y1 * (r * x2 + t * y2) ≠ 0 := mul_ne_zero (mul_ne_zero hx1 hy1) hne
    rw [div_mul_div_comm, eq_div_iff (mul_ne_zero hden hden)]
    have a1 : d * x1 ^ 2 * y1 ^ 2 * (a * x2 ^ 2 + y2 ^ 2) = a * x1 ^ 2 + y1 ^ 2 := by
      linear_combination d * x1 ^ 2 * y1 ^ 2 * h2 + (-1) * h1 + he2 + (d * (x1 * x2 * y1 * y2) + e) * he
    have a2 : d * x1 ^ 2 * y1 ^ 2 * (x2 * y2) = e * x1 * y1 := by linear_combination x1 * y1 * he
    have l : d * (x1 * y1 * (r * x2 + t * y2) * (x1 * y1 * (r * x2 + t * y2))) =
        d * x1 ^ 2 * y1 ^ 2 * (a * x2 ^ 2 + y2 ^ 2) + 2 * r * t * (d * x1 ^ 2 * y1 ^ 2 * (x2 * y2)) := by
      linear_combination d * x1 ^ 2 * y1 ^ 2 * x2 ^ 2 * hr + d * x1 ^ 2 * y1 ^ 2 * y2 ^ 2 * ht
    rw [l, a1, a2]
    linear_combination (-1) * x1 ^ 2 * hr - e ^ 2 * y1 ^ 2 * ht - y1 ^ 2 * he2
  by_cases c1 : r * x2 + 1 * y2 = 0
  · by_cases c2 : r * x2 + (-1) * y2 = 0
    · have : (2 : K) * y2 = 0 := by linear_combination c1 - c2
      exact (mul_eq_zero.1 this).elim h20 hy2
    · exact key (-1) (by ring) c2
  · exact key 1 (by ring) c1

/-- The denominators of the sum of two points of the curve are not zero. -/
theorem den_ne {a d x1 y1 x2 y2 : K} (hc : Complete a d) (h1 : On a d x1 y1) (h2 : On a d x2 y2) :
    1 + d * (x1 * x2 * y1 * y2) ≠ 0 ∧ 1 - d * (x1 * x2 * y1 * y2) ≠ 0 := by
  constructor
  · intro h
    exact square_ne hc h1 h2 (e := -1) (by linear_combination h) (by ring)
  · intro h
    exact square_ne hc h1 h2 (e := 1) (by linear_combination -h) (by ring)

/-- The sum is on the curve. -/
theorem on_add {a d : K} {P Q : K × K} (hc : Complete a d) (h1 : On a d P.1 P.2) (h2 : On a d Q.1 Q.2) :
    On a d (add a d P Q).1 (add a d P Q).2 := by
  obtain ⟨x1, y1⟩ := P
  obtain ⟨x2, y2⟩ := Q
  obtain ⟨d1, d2⟩ := den_ne hc h1 h2
  have g : a * (x1 * y2 + y1 * x2) ^ 2 * (1 - d * (x1 * x2 * y1 * y2)) ^ 2 + (y1 * y2 - a * (x1 * x2)) ^ 2 * (1 + d * (x1 * x2 * y1 * y2)) ^ 2 =
      ((1 + d * (x1 * x2 * y1 * y2)) * (1 - d * (x1 * x2 * y1 * y2))) ^ 2 + d * (x1 * y2 + y1 * x2) ^ 2 * (y1 * y2 - a * (x1 * x2)) ^ 2 := by
    unfold On at h1 h2
    dsimp only at h1 h2
    linear_combination
      ((a * x2 ^ 2 + y2 ^ 2) * (1 + (d * (x1 * x2 * y1 * y2)) ^ 2)
        - d * x2 ^ 2 * y2 ^ 2 * (a * x1 ^ 2 + y1 ^ 2 + 1 + d * x1 ^ 2 * y1 ^ 2)) * h1
      + ((1 + d * x1 ^ 2 * y1 ^ 2) * (1 + (d * (x1 * x2 * y1 * y2)) ^ 2)
        - d * x1 ^ 2 * y1 ^ 2 * (a * x2 ^ 2 + y2 ^ 2 + 1 + d * x2 ^ 2 * y2 ^ 2)) * h2
  unfold On add
  dsimp only at *
  generalize 1 + d * (x1 * x2 * y1 * y2) = u at *
  generalize 1 - d * (x1 * x2 * y1 * y2) = v at *
  field_simp
  linear_combination g

theorem on_zero (a d : K) : On a d 0 1 := by unfold On; ring

theorem zero_add' (a d : K) (P : K × K) : add a d (0, 1) P = P := by simp [add]

theorem add_zero' (a d : K) (P : K × K) : add a d P (0, 1) = P := by simp [add]

theorem add_comm' (a d : K) (P Q : K × K) : add a d P Q = add a d Q P := by
  have e : Q.1 * P.1 * Q.2 * P.2 = P.1 * Q.1 * P.2 * Q.2 := by ring
  unfold add
  rw [e]
  refine Prod.ext ?_ ?_
  · show _ / _ = _ / _; congr 1; ring
  · show _ / _ = _ / _; congr 1; ring

end TEd

/-! ### The Montgomery curve -/

namespace Montgomery
variable {K : Type*} [Field K]

/-- `y^2 = x^3 + A x^2 + x`. -/
def curve (A : K) : WeierstrassCurve.Affine K := ⟨0, A, 0, 1, 0⟩

theorem equation_of {A x y : K} (h : (curve A).Nonsingular x y) : y ^ 2 = x ^ 3 + A * x ^ 2 + x := by
  have := ((curve A).equation_iff x y).1 h.1
  simpa [curve] using this

/-- Mathlib's sum in coordinates. -/
theorem add_cases [DecidableEq K] {A : K} {x₁ y₁ x₂ y₂ : K} (h₁ : (curve A).Nonsingular x₁ y₁) (h₂ : (curve A).Nonsingular x₂ y₂) (l : K)
    (hl : x₁ ≠ x₂ ∧ l * (x₂ - x₁) = y₂ - y₁ ∨ x₁ = x₂ ∧ y₁ ≠ -y₂ ∧ 2 * y₁ * l = 3 * x₁ ^ 2 + 2 * A * x₁ + 1) :
    ∃ h : (curve A).Nonsingular (l ^ 2 - A - x₁ - x₂) (l * (x₁ - (l ^ 2 - A - x₁ - x₂)) - y₁),
      (WeierstrassCurve.Affine.Point.some x₁ y₁ h₁ + .some x₂ y₂ h₂ : (curve A).Point) = .some _ _ h := by
  have hn : (curve A).negY x₂ y₂ = -y₂ := by simp [WeierstrassCurve.Affine.negY, curve]
  have hslope : (curve A).slope x₁ x₂ y₁ y₂ = l := by
    rcases hl with ⟨hne, hl⟩ | ⟨he, hyn, hl⟩
    · rw [WeierstrassCurve.Affine.slope_of_X_ne hne, div_eq_iff (sub_ne_zero.2 hne)]
      linear_combination hl
    · rw [WeierstrassCurve.Affine.slope_of_Y_ne he (by rw [hn]; exact hyn)]
      have hy2 : y₁ = y₂ := by
        have e1 := equation_of h₁
        have e2 := equation_of h₂
        rw [he] at e1
        have : (y₁ - y₂) * (y₁ + y₂) = 0 := by linear_combination e1 - e2
        rcases mul_eq_zero.1 this with h | h
        · exact sub_eq_zero.1 h
        · exact absurd (eq_neg_of_add_eq_zero_left h) hyn
      have hd : y₁ - (curve A).negY x₁ y₁ ≠ 0 := by
        simp only [WeierstrassCurve.Affine.negY, curve]
        intro h
        apply hyn
        rw [← hy2]
        linear_combination h
      rw [div_eq_iff hd]
      simp only [WeierstrassCurve.Affine.negY, curve]
      linear_combination -hl
  have hxy : ¬(x₁ = x₂ ∧ y₁ = (curve A).negY x₂ y₂) := by
    rintro ⟨a1, a2⟩
    rcases hl with ⟨hne, _⟩ | ⟨_, hyn, _⟩
    · exact hne a1
    · exact hyn (a2.trans hn)
  have ex : (curve A).addX x₁ x₂ ((curve A).slope x₁ x₂ y₁ y₂) = l ^ 2 - A - x₁ - x₂ := by
    rw [hslope]; simp only [WeierstrassCurve.Affine.addX, curve]; ring
  have ey : (curve A).addY x₁ x₂ y₁ ((curve A).slope x₁ x₂ y₁ y₂) = l * (x₁ - (l ^ 2 - A - x₁ - x₂)) - y₁ := by
    rw [hslope]
    simp only [WeierstrassCurve.Affine.addY, WeierstrassCurve.Affine.negAddY, WeierstrassCurve.Affine.addX, WeierstrassCurve.Affine.negY, curve]
    ring
  have hs := WeierstrassCurve.Affine.nonsingular_add h₁ h₂ hxy
  rw [ex, ey] at hs
  refine ⟨hs, ?_⟩
  rw [WeierstrassCurve.Affine.Point.add_some hxy]
  simp only [ex, ey]

theorem add_opp [DecidableEq K] {A : K} {x y y' : K} (h₁ : (curve A).Nonsingular x y) (h₂ : (curve A).Nonsingular x y') (h : y = -y') :
    (WeierstrassCurve.Affine.Point.some x y h₁ + .some x y' h₂ : (curve A).Point) = 0 :=
  WeierstrassCurve.Affine.Point.add_of_Y_eq rfl (by rw [h]; simp [WeierstrassCurve.Affine.negY, curve])

/-- The point is neutral or has nonzero ordinate: it is not of order two. -/
def NonTors {A : K} : (curve A).Point → Prop
  | .zero => True
  | .some _ y _ => y ≠ 0

/-- The corresponding point of the twisted Edwards curve; `s` is the scale factor. The point `(0, 0)` of order two corresponds to `(0, -1)`. -/
def toEd {A : K} (s : K) [DecidableEq K] : (curve A).Point → K × K
  | .zero => (0, 1)
  | .some x y _ => if y = 0 then (0, -1) else (s * x / y, (x - 1) / (x + 1))

/-- Parameters of the two forms of one curve: the coefficient `A` and the scale factor of the Montgomery form and the coefficients of the twisted
Edwards form. -/
structure Params (A s a d : K) : Prop where
  s0 : s ≠ 0
  ha : a * s ^ 2 = A + 2
  hd : d * s ^ 2 = A - 2
  comp : TEd.Complete a d

/-- The parameters as the library computes them: `A = 2 (a + d) / (a - d)`, `s ^ 2 = 4 / (a - d)`. -/
theorem params_of {A s a d : K} (hc : TEd.Complete a d) (hA : A * (a - d) = 2 * (a + d)) (hs : s ^ 2 = 4 / (a - d)) : Params A s a d := by
  have h2 := hc.two
  have had : a - d ≠ 0 := by
    intro h
    obtain ⟨r, _, hr⟩ := hc.sq
    apply hc.non
    exact ⟨r, by rw [← pow_two, hr]; exact (sub_eq_zero.1 h).symm⟩
  have h4 : s ^ 2 * (a - d) = 4 := by rw [hs]; exact div_mul_cancel₀ _ had
  refine ⟨?_, ?_, ?_, hc⟩
  · rintro rfl
    have h0 : (2 : K) * 2 = 0 := by linear_combination -h4
    exact (mul_self_ne_zero.2 h2) h0
  · apply mul_right_cancel₀ had; linear_combination a * h4 - hA
  · apply mul_right_cancel₀ had; linear_combination d * h4 - hA

section
variable {A s a d : K}

/-- No point of the curve has abscissa -1. -/
theorem x_ne (hp : Params A s a d) {x y : K} (h : y ^ 2 = x ^ 3 + A * x ^ 2 + x) : x + 1 ≠ 0 := by
  intro h0
  have e : x = -1 := by linear_combination h0
  subst e
  apply hp.comp.non
  refine ⟨y / s, ?_⟩
  have := hp.s0
  have := hp.hd
  field_simp
  linear_combination this - h

/-- The only point with ordinate 0 has abscissa 0. -/
theorem x_eq (hp : Params A s a d) {x : K} (h : (0 : K) = x ^ 3 + A * x ^ 2 + x) : x = 0 := by
  by_contra hx
  have e : x ^ 2 + A * x + 1 = 0 := by
    apply (mul_eq_zero.1 (show x * (x ^ 2 + A * x + 1) = 0 by linear_combination -h)).resolve_left hx
  obtain ⟨r, r0, hr⟩ := hp.comp.sq
  -- `(x + 1)^2 = (2 - A) x` and `(x - 1)^2 = -(A + 2) x`, so `d / a = (A - 2) / (A + 2)` is a square
  have h1 : (x + 1) ^ 2 = -(d * s ^ 2) * x := by rw [hp.hd]; linear_combination e
  have h2 : (x - 1) ^ 2 = -(a * s ^ 2) * x := by rw [hp.ha]; linear_combination e
  have hx1 : x - 1 ≠ 0 := by
    intro h0
    rw [h0] at h2
    have : a * s ^ 2 * x = 0 := by linear_combination h2
    rw [← hr] at this
    exact (mul_ne_zero (mul_ne_zero (pow_ne_zero _ r0) (pow_ne_zero _ hp.s0)) hx) this
  apply hp.comp.non
  refine ⟨r * (x + 1) / (x - 1), ?_⟩
  rw [div_mul_div_comm, eq_div_iff (mul_ne_zero hx1 hx1)]
  rw [show r * (x + 1) * (r * (x + 1)) = a * (x + 1) ^ 2 by rw [← hr]; ring, h1]
  linear_combination d * h2

theorem toEd_some [DecidableEq K] {x y : K} (h : (curve A).Nonsingular x y) (hy : y ≠ 0) :
    toEd s (.some x y h : (curve A).Point) = (s * x / y, (x - 1) / (x + 1)) := by simp [toEd, hy]

theorem toEd_zero [DecidableEq K] : toEd s (0 : (curve A).Point) = (0, 1) := rfl

/-- The corresponding point is on the twisted Edwards curve. -/
theorem toEd_on [DecidableEq K] (hp : Params A s a d) (P : (curve A).Point) : TEd.On a d (toEd s P).1 (toEd s P).2 := by
  match P with
  | .zero => exact TEd.on_zero a d
  | .some x y h =>
    by_cases hy : y = 0
    · simp only [toEd, if_pos hy]; unfold TEd.On; ring
    · rw [toEd_some h hy]
      have e := equation_of h
      have hx := x_ne hp e
      unfold TEd.On
      dsimp only
      have ha := hp.ha
      have hd := hp.hd
      field_simp
      have hs2 : a * s ^ 2 * x ^ 2 * (x + 1) ^ 2 + y ^ 2 * (x - 1) ^ 2 = y ^ 2 * (x + 1) ^ 2 + d * s ^ 2 * x ^ 2 * (x - 1) ^ 2 := by
        rw [ha, hd]; linear_combination (-4 * x) * e
      linear_combination hs2

theorem line_x (l m x1 x2 x3 : K) (e2 : x1 * x2 + x1 * x3 + x2 * x3 = 1 - 2 * l * m) (e3 : x1 * x2 * x3 = m ^ 2) :
    x3 * ((l * x1 + m) * (l * x2 + m) * (x1 + 1) * (x2 + 1) + (l ^ 2 - x1 - x2 - x3 - 2) * (x1 * x2 * (x1 - 1) * (x2 - 1))) =
      -(l * x3 + m) * (x1 * (x2 - 1) * (x1 + 1) * (l * x2 + m) + x2 * (x1 - 1) * (x2 + 1) * (l * x1 + m)) := by grind

theorem line_y (l m x1 x2 x3 : K) (e2 : x1 * x2 + x1 * x3 + x2 * x3 = 1 - 2 * l * m) (e3 : x1 * x2 * x3 = m ^ 2) :
    (x3 - 1) * ((l * x1 + m) * (l * x2 + m) * (x1 + 1) * (x2 + 1) - (l ^ 2 - x1 - x2 - x3 - 2) * (x1 * x2 * (x1 - 1) * (x2 - 1))) =
      (x3 + 1) * ((x1 - 1) * (x2 - 1) * (l * x1 + m) * (l * x2 + m) - (l ^ 2 - x1 - x2 - x3 + 2) * (x1 * x2 * (x1 + 1) * (x2 + 1))) := by grind

/-- Three points of the curve on one line, the third one negated: the Edwards formulas give the third point. -/
theorem line_add [DecidableEq K] (hp : Params A s a d) {x1 y1 x2 y2 l x3 y3 : K} (h1 : (curve A).Nonsingular x1 y1) (h2 : (curve A).Nonsingular x2 y2)
    (h3 : (curve A).Nonsingular x3 y3) (y10 : y1 ≠ 0) (y20 : y2 ≠ 0) (y30 : y3 ≠ 0)
    (hl2 : y2 - y1 = l * (x2 - x1)) (hx : x1 + x2 + x3 = l ^ 2 - A) (hy : y3 = l * (x1 - x3) - y1)
    (e2 : x1 * x2 + x1 * x3 + x2 * x3 = 1 - 2 * l * (y1 - l * x1)) (e3 : x1 * x2 * x3 = (y1 - l * x1) ^ 2) :
    toEd s (.some x3 y3 h3 : (curve A).Point) = TEd.add a d (toEd s (.some x1 y1 h1 : (curve A).Point)) (toEd s (.some x2 y2 h2 : (curve A).Point)) := by
  have q1 := toEd_on hp (.some x1 y1 h1 : (curve A).Point)
  have q2 := toEd_on hp (.some x2 y2 h2 : (curve A).Point)
  obtain ⟨d1, d2⟩ := TEd.den_ne hp.comp q1 q2
  have n1 := x_ne hp (equation_of h1)
  have n2 := x_ne hp (equation_of h2)
  have n3 := x_ne hp (equation_of h3)
  have s0 := hp.s0
  unfold TEd.add
  rw [toEd_some h1 y10, toEd_some h2 y20, toEd_some h3 y30] at *
  dsimp only at *
  obtain ⟨m, hm⟩ : ∃ m, m = y1 - l * x1 := ⟨_, rfl⟩
  rw [← hm] at e2 e3
  have k1 : y1 = l * x1 + m := by rw [hm]; ring
  have k2 : y2 = l * x2 + m := by rw [hm]; linear_combination hl2
  have k3 : y3 = -(l * x3 + m) := by rw [hm]; linear_combination hy
  have kA : A = l ^ 2 - x1 - x2 - x3 := by linear_combination hx
  have ix := line_x l m x1 x2 x3 e2 e3
  have iy := line_y l m x1 x2 x3 e2 e3
  rw [← k1, ← k2, ← k3, ← kA, ← hp.hd] at ix
  rw [← k1, ← k2, ← kA, ← hp.hd, ← hp.ha] at iy
  refine Prod.ext ?_ ?_
  · dsimp only
    rw [eq_div_iff d1]
    field_simp
    linear_combination ix
  · dsimp only
    rw [eq_div_iff d2]
    field_simp
    linear_combination iy

/-- **The map between the two forms is a homomorphism** away from the point of order two. -/
theorem toEd_add [DecidableEq K] (hp : Params A s a d) (P Q : (curve A).Point) (hP : NonTors P) (hQ : NonTors Q) (hPQ : NonTors (P + Q)) :
    toEd s (P + Q) = TEd.add a d (toEd s P) (toEd s Q) := by
  match P, Q, hP, hQ, hPQ with
  | .zero, Q, _, _, _ =>
    rw [show (WeierstrassCurve.Affine.Point.zero + Q : (curve A).Point) = Q from zero_add Q]
    exact (TEd.zero_add' a d _).symm
  | .some x1 y1 h1, .zero, _, _, _ =>
    rw [show (WeierstrassCurve.Affine.Point.some x1 y1 h1 + .zero : (curve A).Point) = .some x1 y1 h1 from add_zero _]
    exact (TEd.add_zero' a d _).symm
  | .some x1 y1 h1, .some x2 y2 h2, y10, y20, hPQ =>
    have f1 := equation_of h1
    have f2 := equation_of h2
    have two := hp.comp.two
    replace y10 : y1 ≠ 0 := y10
    replace y20 : y2 ≠ 0 := y20
    by_cases hx : x1 = x2
    · subst hx
      by_cases hy : y1 = -y2
      · rw [add_opp h1 h2 hy, toEd_zero]
        have q2 := toEd_on hp (.some x1 y2 h2 : (curve A).Point)
        obtain ⟨d1, d2⟩ := TEd.den_ne hp.comp (toEd_on hp (.some x1 y1 h1 : (curve A).Point)) q2
        unfold TEd.add
        rw [toEd_some h1 y10, toEd_some h2 y20] at *
        subst hy
        dsimp only at *
        refine Prod.ext ?_ ?_
        · dsimp only
          symm
          rw [div_eq_zero_iff]
          left
          rw [div_neg]; ring
        · dsimp only
          rw [eq_div_iff d2]
          unfold TEd.On at q2
          rw [div_neg]
          linear_combination -q2
      · have hy' : y1 = y2 := by
          have : (y1 - y2) * (y1 + y2) = 0 := by linear_combination f1 - f2
          rcases mul_eq_zero.1 this with h | h
          · exact sub_eq_zero.1 h
          · exact absurd (eq_neg_of_add_eq_zero_left h) hy
        subst hy'
        have hl : 2 * y1 * ((3 * x1 ^ 2 + 2 * A * x1 + 1) / (2 * y1)) = 3 * x1 ^ 2 + 2 * A * x1 + 1 := by
          field_simp
        obtain ⟨l, hl'⟩ : ∃ l, l = (3 * x1 ^ 2 + 2 * A * x1 + 1) / (2 * y1) := ⟨_, rfl⟩
        rw [← hl'] at hl
        obtain ⟨h3, e⟩ := add_cases h1 h2 l (Or.inr ⟨rfl, hy, hl⟩)
        rw [e] at hPQ ⊢
        refine line_add hp h1 h2 h3 y10 y20 hPQ (by ring) (by ring) rfl ?_ ?_
        · linear_combination hl
        · linear_combination x1 * hl - f1
    · have hl : (y2 - y1) / (x2 - x1) * (x2 - x1) = y2 - y1 := div_mul_cancel₀ _ (sub_ne_zero.2 (Ne.symm hx))
      obtain ⟨l, hl'⟩ : ∃ l, l = (y2 - y1) / (x2 - x1) := ⟨_, rfl⟩
      rw [← hl'] at hl
      obtain ⟨h3, e⟩ := add_cases h1 h2 l (Or.inl ⟨hx, hl⟩)
      rw [e] at hPQ ⊢
      have hx' := sub_ne_zero.2 hx
      have key : x1 * x2 + x1 * (l ^ 2 - A - x1 - x2) + x2 * (l ^ 2 - A - x1 - x2) = 1 - 2 * l * (y1 - l * x1) := by
        apply mul_left_cancel₀ hx'
        linear_combination f1 - f2 - (l * (x2 - x1) + y1 + y2) * hl
      refine line_add hp h1 h2 h3 y10 y20 hPQ hl.symm (by ring) rfl key ?_
      linear_combination x1 * key - f1

/-- The correspondence is injective. -/
theorem toEd_inj [DecidableEq K] (hp : Params A s a d) {P Q : (curve A).Point} (hP : NonTors P) (hQ : NonTors Q) (h : toEd s P = toEd s Q) : P = Q := by
  have h2 := hp.comp.two
  have fin : ∀ {x y : K} (n : (curve A).Nonsingular x y), y ≠ 0 → toEd s (WeierstrassCurve.Affine.Point.some x y n : (curve A).Point) ≠ (0, 1) := by
    intro x y n hy e
    rw [toEd_some n hy, Prod.mk.injEq] at e
    have := e.2
    rw [div_eq_iff (x_ne hp (equation_of n))] at this
    exact h2 (by linear_combination -this)
  match P, Q, hP, hQ, h with
  | .zero, .zero, _, _, _ => rfl
  | .zero, .some x y n, _, hQ, h => exact absurd h.symm (fin n hQ)
  | .some x y n, .zero, hP, _, h => exact absurd h (fin n hP)
  | .some x1 y1 n1, .some x2 y2 n2, hP, hQ, h =>
    have hy1 : y1 ≠ 0 := hP
    have hy2 : y2 ≠ 0 := hQ
    rw [toEd_some n1 hy1, toEd_some n2 hy2, Prod.mk.injEq] at h
    obtain ⟨e1, e2⟩ := h
    rw [div_eq_div_iff (x_ne hp (equation_of n1)) (x_ne hp (equation_of n2))] at e2
    have hx : x1 = x2 := by
      have : 2 * (x1 - x2) = 0 := by linear_combination e2
      exact sub_eq_zero.1 ((mul_eq_zero.1 this).resolve_left h2)
    subst hx
    have hx0 : x1 ≠ 0 := by
      rintro rfl
      have := equation_of n1
      exact hy1 (pow_eq_zero_iff (n := 2) (by norm_num) |>.1 (by linear_combination this))
    rw [div_eq_div_iff hy1 hy2] at e1
    have : y1 = y2 := (mul_left_cancel₀ (mul_ne_zero hp.s0 hx0) e1).symm
    subst this
    rfl

end
end Montgomery
end Verif
