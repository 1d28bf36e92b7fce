import Verif.Props.PastaOrder
import Verif.Model.VarBaseMul

/-!
# One step of the variable base multiplication: `P ↦ (P + Q) + P`

The constraints on slope and next point, read as equations, against Mathlib's group.
-/

set_option linter.unusedVariables false
set_option linter.unusedSectionVars false

namespace Verif
namespace VarBaseMul
open UnifiedAddition (curve enc enc_zero equation_of add_cases sumCells_eq)

variable {F : Type*} [Field F]

/-- The equation of constraints 1 to 5. -/
def Slope (px py bx qy s : F) : Prop := (px - bx) * s = py - qy

/-- The equations of constraints 6 to 15. -/
def Chord (px py bx s nx ny : F) : Prop :=
  (2 * py - s * (2 * px - s ^ 2 + bx)) * (2 * py - s * (2 * px - s ^ 2 + bx)) =
    (2 * px - s ^ 2 + bx) * (2 * px - s ^ 2 + bx) * (nx - bx + s ^ 2) ∧
  (ny + py) * (2 * px - s ^ 2 + bx) = (px - nx) * (2 * py - s * (2 * px - s ^ 2 + bx))

variable {cb : F}

theorem enc_inj (hb : ∀ y : F, y ^ 2 ≠ cb) {P Q : (curve cb).Point} (h : enc P = enc Q) : P = Q := by
  match P, Q with
  | .zero, .zero => rfl
  | .zero, .some x y hn =>
    have e := Prod.mk.inj h
    exact absurd (by rw [equation_of hn, ← e.1]; ring) (hb y)
  | .some x y hn, .zero =>
    have e := Prod.mk.inj h
    exact absurd (by rw [equation_of hn, e.1]; ring) (hb y)
  | .some x y hn, .some x' y' hn' =>
    obtain ⟨rfl, rfl⟩ := Prod.mk.inj h
    rfl

theorem enc_neg (P : (curve cb).Point) : enc (-P) = ((enc P).1, -(enc P).2) := by
  match P with
  | .zero => show enc (0 : (curve cb).Point) = _; simp [enc]
  | .some x y hn =>
    have e : -(WeierstrassCurve.Affine.Point.some x y hn) = .some x _ ((WeierstrassCurve.Affine.nonsingular_neg ..).2 hn) := rfl
    rw [e]
    simp [enc, WeierstrassCurve.Affine.negY, curve]

/-- Two points with the same abscissa. -/
theorem eq_or_neg (hb : ∀ y : F, y ^ 2 ≠ cb) {P Q : (curve cb).Point} (h : (enc P).1 = (enc Q).1) : P = Q ∨ P = -Q := by
  match P, Q with
  | .zero, .zero => exact Or.inl rfl
  | .zero, .some x y hn =>
    have e : (0 : F) = x := h
    exact absurd (by rw [equation_of hn, ← e]; ring) (hb y)
  | .some x y hn, .zero =>
    have e : x = 0 := h
    exact absurd (by rw [equation_of hn, e]; ring) (hb y)
  | .some x y hn, .some x' y' hn' =>
    have e : x = x' := h
    subst e
    have h1 := equation_of hn
    have h2 := equation_of hn'
    have h3 : (y - y') * (y + y') = 0 := by linear_combination h1 - h2
    rcases mul_eq_zero.1 h3 with h4 | h4
    · left
      have : y = y' := by linear_combination h4
      subst this; rfl
    · right
      apply enc_inj hb
      rw [enc_neg]
      show (x, y) = (x, -y')
      rw [show y = -y' by linear_combination h4]

theorem enc_ne_x (hb : ∀ y : F, y ^ 2 ≠ cb) {P : (curve cb).Point} (h : P ≠ 0) : (enc P).1 ≠ 0 := by
  intro h0
  rcases eq_or_neg hb (P := P) (Q := 0) (by rw [h0]; rfl) with h1 | h1
  · exact h h1
  · exact h (h1.trans rfl)

theorem eq_some {P : (curve cb).Point} (h : P ≠ 0) : ∃ hn, P = .some (enc P).1 (enc P).2 hn := by
  match P with
  | .zero => exact absurd rfl h
  | .some x y hn => exact ⟨hn, rfl⟩

variable [DecidableEq F]

/-- A sum with a chord. -/
theorem enc_add (hb : ∀ y : F, y ^ 2 ≠ cb) {A Q : (curve cb).Point} (hA : A ≠ 0) (hQ : Q ≠ 0)
    (hne : (enc A).1 ≠ (enc Q).1) {s : F} (hs : s * ((enc Q).1 - (enc A).1) = (enc Q).2 - (enc A).2) :
    enc (A + Q) = (s ^ 2 - (enc A).1 - (enc Q).1,
      s * ((enc A).1 - (s ^ 2 - (enc A).1 - (enc Q).1)) - (enc A).2) := by
  obtain ⟨hn, eA⟩ := eq_some hA
  obtain ⟨hm, eQ⟩ := eq_some hQ
  have h := add_cases hn hm s _ _ (Or.inl ⟨hne, hs⟩) rfl rfl
  rw [← eA, ← eQ] at h
  exact h

/-- What the constraints of a step say. -/
theorem chord_iff (hb : ∀ y : F, y ^ 2 ≠ cb) {A Q : (curve cb).Point} (hA : A ≠ 0) (hQ : Q ≠ 0) (h1 : A ≠ Q) (h2 : A ≠ -Q)
    (h3 : A + Q + A ≠ 0) {s nx ny : F} (hs : Slope (enc A).1 (enc A).2 (enc Q).1 (enc Q).2 s) :
    Chord (enc A).1 (enc A).2 (enc Q).1 s nx ny ↔ (nx, ny) = enc (A + Q + A) := by
  have hne : (enc A).1 ≠ (enc Q).1 := by
    intro h
    rcases eq_or_neg hb h with h | h
    · exact h1 h
    · exact h2 h
  unfold Slope at hs
  have hR := enc_add hb hA hQ hne (s := s) (by linear_combination -hs)
  have hR0 : A + Q ≠ 0 := fun h => h2 (eq_neg_of_add_eq_zero_left h)
  have hu : (enc (A + Q)).1 ≠ (enc A).1 := by
    intro h
    rcases eq_or_neg hb h with h | h
    · exact hQ (by simpa using h)
    · exact h3 (by rw [h]; exact neg_add_cancel A)
  have hu' : 2 * (enc A).1 - s ^ 2 + (enc Q).1 ≠ 0 := by
    intro h
    apply hu
    rw [hR]
    linear_combination -h
  set px := (enc A).1
  set py := (enc A).2
  set bx := (enc Q).1
  set u := 2 * px - s ^ 2 + bx with eu
  set v := 2 * py - s * u with ev
  have hS := enc_add hb hR0 hA hu (s := v / u) (by
    rw [hR]
    simp only
    rw [show px - (s ^ 2 - px - bx) = u by rw [eu]; ring, div_mul_cancel₀ _ hu', ev]
    change 2 * py - s * u = py - _
    ring)
  rw [hS, hR]
  simp only
  rw [Prod.mk.injEq]
  have hvu : v / u * u = v := div_mul_cancel₀ _ hu'
  generalize hl : v / u = l at *
  constructor
  · rintro ⟨c1, c2⟩
    rw [← eu, ← ev] at c1 c2
    have e1 : nx = l ^ 2 - (s ^ 2 - px - bx) - px := by
      apply mul_left_cancel₀ (mul_ne_zero hu' hu')
      rw [← hvu] at c1
      linear_combination -c1
    refine ⟨e1, ?_⟩
    apply mul_left_cancel₀ hu'
    rw [← hvu] at c2
    have e2 : (px - nx) * l = ny + py := by
      apply mul_right_cancel₀ hu'
      linear_combination -c2
    have e3 : u = 2 * px - s ^ 2 + bx := eu
    have e4 : l * u = 2 * py - s * u := by rw [hvu]
    rw [e1] at e2
    have e5 : ny = (px - (l ^ 2 - (s ^ 2 - px - bx) - px)) * l - py := by linear_combination -e2
    rw [e5]
    have e6 : l * (px - (s ^ 2 - px - bx)) = 2 * py - s * (px - (s ^ 2 - px - bx)) := by
      have : px - (s ^ 2 - px - bx) = u := by rw [e3]; ring
      rw [this]; exact e4
    linear_combination u * e6
  · rintro ⟨e1, e2⟩
    have e4 : l * (2 * px - s ^ 2 + bx) = 2 * py - s * (2 * px - s ^ 2 + bx) := by rw [← eu, hvu]
    unfold Chord
    subst e1
    subst e2
    constructor
    · rw [← e4]; ring
    · rw [← e4]; linear_combination (-(2 * px - s ^ 2 + bx)) * e4

/-- A step that would reach the neutral element cannot be satisfied. -/
theorem chord_zero (hb : ∀ y : F, y ^ 2 ≠ cb) (htwo : (2 : F) ≠ 0) (htor : ∀ x : F, x ^ 3 + cb ≠ 0)
    {A Q : (curve cb).Point} (hA : A ≠ 0) (hQ : Q ≠ 0) (h1 : A ≠ Q) (h2 : A ≠ -Q)
    (h3 : A + Q + A = 0) {s nx ny : F} (hs : Slope (enc A).1 (enc A).2 (enc Q).1 (enc Q).2 s) :
    ¬ Chord (enc A).1 (enc A).2 (enc Q).1 s nx ny := by
  have hne : (enc A).1 ≠ (enc Q).1 := by
    intro h
    rcases eq_or_neg hb h with h | h
    · exact h1 h
    · exact h2 h
  unfold Slope at hs
  have hR := enc_add hb hA hQ hne (s := s) (by linear_combination -hs)
  have hN : A + Q = -A := eq_neg_of_add_eq_zero_left h3
  rw [hN, enc_neg] at hR
  obtain ⟨r1, r2⟩ := Prod.mk.inj hR
  have hu : 2 * (enc A).1 - s ^ 2 + (enc Q).1 = 0 := by linear_combination r1
  rintro ⟨c1, -⟩
  rw [hu] at c1
  have : (2 * (enc A).2) * (2 * (enc A).2) = 0 := by linear_combination c1
  have hy : (enc A).2 = 0 := by
    rcases mul_eq_zero.1 this with h | h <;> exact (mul_eq_zero.1 h).resolve_left htwo
  obtain ⟨hn, -⟩ := eq_some hA
  have := equation_of hn
  rw [hy] at this
  exact htor _ (this.symm.trans (by ring))

end VarBaseMul
end Verif
