import Verif.Model.KimchiGroup
import Verif.Props.KimchiSponge
import Mathlib.NumberTheory.LegendreSymbol.QuadraticChar.Basic

/-!
# C152: `to_group`
-/

set_option linter.unusedSimpArgs false
set_option linter.unusedVariables false
set_option linter.unusedSectionVars false

namespace Verif
namespace KimchiGroup
open Kimchi (c3)
open KimchiSponge (Before Same Upto Below Within before_wa upto_wv frame_within)
variable {p : ℕ} [Fact p.Prime]

/-! ### Specification

The map of Shallue and van de Woestijne for `y^2 = x^3 + b`, `groupmap/src/lib.rs` of proof-systems. -/

/-- The right side of the equation of the curve. -/
def rhs {F : Type*} [Field F] (b x : F) : F := x ^ 3 + b

/-- The point is on the curve. -/
def OnCurve {F : Type*} [Field F] (b x y : F) : Prop := y ^ 2 = rhs b x

/-- The constants of the map are right: `fu = f(u)`, `inv3 = 1/(3u^2)`, `sq = sqrt(-3u^2)`, `half = (sq - u)/2`. -/
structure Curve.Valid {F : Type*} [Field F] (K : Curve F) : Prop where
  two : (2 : F) ≠ 0
  fu : K.fu = K.u ^ 3 + K.b
  inv3 : K.inv3 * (3 * K.u ^ 2) = 1
  sq : K.sq ^ 2 = -(3 * K.u ^ 2)
  half : 2 * K.half = K.sq - K.u
  fu0 : K.fu ≠ 0

/-- The three candidates for the coordinate `x` of the point of `t`. -/
def cand {F : Type*} [Field F] (K : Curve F) (t : F) : ℕ → F
  | 0 => K.half - t ^ 2 / (t ^ 2 + K.fu) * K.sq
  | 1 => -K.u - (K.half - t ^ 2 / (t ^ 2 + K.fu) * K.sq)
  | _ => K.u - (t ^ 2 + K.fu) ^ 2 / t ^ 2 * K.inv3

/-- The product of the three right sides is a square. -/
theorem cand_square {F : Type*} [Field F] (K : Curve F) (hK : K.Valid) (t : F) (h0 : t ≠ 0) (h1 : t ^ 2 + K.fu ≠ 0) :
    IsSquare (rhs K.b (cand K t 0) * rhs K.b (cand K t 1) * rhs K.b (cand K t 2)) := by
  obtain ⟨h2, hf, h3, hs, hh, hf0⟩ := hK
  have hu : (3 * K.u ^ 2 : F) ≠ 0 := right_ne_zero_of_mul_eq_one h3
  have hs0 : K.sq ≠ 0 := fun h => hu (by rw [h] at hs; linear_combination hs)
  set c := K.sq with hc
  set a := t ^ 2 / (t ^ 2 + K.fu) with ha
  have ha1 : a * (t ^ 2 + K.fu) = t ^ 2 := div_mul_cancel₀ _ h1
  set X := cand K t 0 with hX
  have hX' : X = K.half - a * c := rfl
  have hY' : cand K t 1 = -K.u - X := rfl
  -- the root
  set s := (t ^ 2 + K.fu) / (c * t) with hsd
  have hct : c * t ≠ 0 := mul_ne_zero hs0 h0
  have hs1 : s * (c * t) = t ^ 2 + K.fu := div_mul_cancel₀ _ hct
  have hsne : s ≠ 0 := fun h => h1 (by rw [← hs1, h, zero_mul])
  have hZ : cand K t 2 = K.u + s ^ 2 := by
    show K.u - (t ^ 2 + K.fu) ^ 2 / t ^ 2 * K.inv3 = _
    have e : (t ^ 2 + K.fu) ^ 2 / t ^ 2 = s ^ 2 * c ^ 2 := by
      rw [div_eq_iff (pow_ne_zero 2 h0), ← hs1]; ring
    rw [e, hs]
    linear_combination (s ^ 2) * h3
  -- h
  set h := X ^ 2 + K.u * X + K.u ^ 2 with hh'
  have e1 : 4 * h = 4 * (3 * K.u ^ 2 * (a * (1 - a))) := by
    have : 2 * X = c - K.u - 2 * a * c := by rw [hX']; linear_combination hh
    rw [hh']
    have q : 4 * (X ^ 2 + K.u * X + K.u ^ 2) = (2 * X + K.u) ^ 2 + 3 * K.u ^ 2 := by ring
    rw [q, this]
    linear_combination (1 - 2 * a) ^ 2 * hs
  have e2 : h = 3 * K.u ^ 2 * (a * (1 - a)) := by
    have h4 : (4 : F) ≠ 0 := by
      have : (4 : F) = 2 * 2 := by norm_num
      rw [this]; exact mul_ne_zero h2 h2
    exact mul_left_cancel₀ h4 e1
  have e3 : h * s ^ 2 = -K.fu := by
    have hq : (c * t) ^ 2 ≠ 0 := pow_ne_zero 2 hct
    apply mul_right_cancel₀ hq
    have : h * s ^ 2 * (c * t) ^ 2 = h * (s * (c * t)) ^ 2 := by ring
    rw [this, hs1, e2]
    have b1 : (1 - a) * (t ^ 2 + K.fu) = K.fu := by linear_combination -ha1
    calc 3 * K.u ^ 2 * (a * (1 - a)) * (t ^ 2 + K.fu) ^ 2 = 3 * K.u ^ 2 * (a * (t ^ 2 + K.fu)) * ((1 - a) * (t ^ 2 + K.fu)) := by ring
      _ = 3 * K.u ^ 2 * t ^ 2 * K.fu := by rw [ha1, b1]
      _ = _ := by rw [mul_pow, hs]; ring
  have hne : h ≠ 0 := fun h' => hf0 (by rw [h'] at e3; linear_combination e3)
  set g := rhs K.b X * rhs K.b (-K.u - X) with hg
  have g1 : g = K.fu ^ 2 - 3 * K.u * h * K.fu + 3 * K.u ^ 2 * h ^ 2 - h ^ 3 := by
    rw [hg, hf, hh']; unfold rhs; ring
  have g3 : rhs K.b (K.u + s ^ 2) * h ^ 2 = s ^ 2 * g := by
    have f1 : K.fu = -(h * s ^ 2) := by linear_combination e3
    have f2 : K.b = -(h * s ^ 2) - K.u ^ 3 := by linear_combination f1 - hf
    rw [g1, f1]; unfold rhs; rw [f2]; ring
  rw [hY', hZ]
  refine ⟨s * g / h, ?_⟩
  rw [← hg]
  have hh2 : h * h ≠ 0 := mul_ne_zero hne hne
  have : s * g / h * (s * g / h) = s ^ 2 * g ^ 2 / (h * h) := by rw [div_mul_div_comm]; ring
  rw [this, eq_div_iff hh2]
  linear_combination g * g3

/-- So one of the candidates is on the curve. -/
theorem cand_exists (K : Curve (ZMod p)) (hK : K.Valid) (t : ZMod p) (h0 : t ≠ 0) (h1 : t ^ 2 + K.fu ≠ 0) : ∃ i < 3, ∃ y, OnCurve K.b (cand K t i) y := by
  have hp : ringChar (ZMod p) ≠ 2 := by
    intro h
    apply hK.two
    have : ((ringChar (ZMod p) : ℕ) : ZMod p) = 0 := ringChar.Nat.cast_ringChar
    rw [h] at this
    exact_mod_cast this
  by_contra hn
  push Not at hn
  have key : ∀ i < 3, quadraticChar (ZMod p) (rhs K.b (cand K t i)) = -1 := by
    intro i hi
    rw [quadraticChar_neg_one_iff_not_isSquare]
    rintro ⟨y, hy⟩
    exact hn i hi y (by rw [OnCurve, hy]; ring)
  have hs := cand_square K hK t h0 h1
  have hne : rhs K.b (cand K t 0) * rhs K.b (cand K t 1) * rhs K.b (cand K t 2) ≠ 0 := by
    intro h
    have : quadraticChar (ZMod p) (rhs K.b (cand K t 0) * rhs K.b (cand K t 1) * rhs K.b (cand K t 2)) = 0 := by rw [h]; simp
    rw [map_mul, map_mul, key 0 (by omega), key 1 (by omega), key 2 (by omega)] at this
    norm_num at this
  have := (quadraticChar_one_iff_isSquare hne).2 hs
  rw [map_mul, map_mul, key 0 (by omega), key 1 (by omega), key 2 (by omega)] at this
  norm_num at this

/-! ### What the circuit says -/

/-- The equation of a call. -/
def G.Val (T : Table (ZMod p)) : G → Prop
  | .add x y r => (w2 r).value T = x.value T + y.value T
  | .sub x y r => (w2 r).value T = x.value T - y.value T
  | .mul x y r => (w2 r).value T = x.value T * y.value T
  | .divz x y r => (w2 r).value T = x.value T / y.value T
  | .root _ _ => True

theorem G.sat_val (T : Table (ZMod p)) (g : G) (h : Sat T g.ops) : g.Val T := by
  cases g with
  | add x y r => exact addition_sound c3 ⟨x, y⟩ r T h
  | sub x y r => exact subtraction_sound c3 ⟨x, y⟩ r T h
  | mul x y r => exact multiplication_sound c3 ⟨x, y⟩ r T h
  | divz x y r =>
    obtain ⟨h1, h2⟩ := divisionOrZero_sound c5 ⟨x, y⟩ r T h
    show (DivisionOrZero.result c5 r).value T = x.value T / y.value T
    by_cases h0 : y.value T = 0
    · rw [h2 h0, h0, div_zero]
    · rw [eq_div_iff h0]; exact h1 h0
  | root => trivial

/-- The constants are in the table. -/
structure KIn (K : Curve (ZMod p)) (s : ℤ) (T : Table (ZMod p)) : Prop where
  k0 : (kv s 0).value T = 0
  k1 : (kv s 1).value T = 1
  k2 : (kv s 2).value T = -1
  k3 : (kv s 3).value T = K.u
  k4 : (kv s 4).value T = K.fu
  k5 : (kv s 5).value T = K.inv3
  k6 : (kv s 6).value T = K.sq
  k7 : (kv s 7).value T = K.half
  k8 : (kv s 8).value T = K.b

theorem kIn_of_sat (K : Curve (ZMod p)) (s : ℤ) (T : Table (ZMod p)) (h : Sat T (consts K s)) : KIn K s T := by
  simp only [consts, sat_cons] at h
  obtain ⟨h0, h1, h2, h3, h4, h5, h6, h7, h8, -⟩ := h
  have e : kv s 0 = ⟨0, s, false, .constant⟩ := by simp [kv]
  exact ⟨by rw [e]; exact h0, h1, h2, h3, h4, h5, h6, h7, h8⟩

/-- The selector of a `y`: 1 unless it is -1. -/
def ok (y : ZMod p) : ZMod p := if y = -1 then 0 else 1

theorem ok_eq (y : ZMod p) : (y - -1) * (1 / (y - -1)) - 1 + 1 = ok y := by
  unfold ok
  split
  · rename_i h; rw [h]; simp
  · rename_i h
    have : y - -1 ≠ 0 := fun h' => h (by linear_combination h')
    rw [mul_one_div, div_self this]; ring

/-- Not the nullifier before. -/
theorem non_eq (n : ZMod p) : (n * (1 / n) - 1) * -1 = if n = 0 then 1 else 0 := by
  split
  · rename_i h; rw [h]; simp
  · rename_i h; rw [mul_one_div, div_self h]; ring

/-- The nullifiers of three `y`s: each looks only at the one before. -/
def null (y : ℕ → ZMod p) : ℕ → ZMod p
  | 0 => ok (y 0)
  | 1 => ok (y 1) * if ok (y 0) = 0 then 1 else 0
  | _ => ok (y 2) * if (ok (y 1) * if ok (y 0) = 0 then 1 else 0) = 0 then 1 else 0

theorem sat_calls (T : Table (ZMod p)) (l : List G) (h : Sat T (l.flatMap G.ops)) : ∀ g ∈ l, g.Val T := fun g hg =>
  g.sat_val T fun o ho => h o (List.mem_flatMap.2 ⟨g, hg, ho⟩)

theorem xs_val (K : Curve (ZMod p)) (s : ℤ) (t : Var) (T : Table (ZMod p)) (hk : KIn K s T) (h : ∀ g ∈ xsCalls s t s, g.Val T) (i : ℕ) :
    (xv s i).value T = cand K (t.value T) i := by
  obtain ⟨k0, k1, k2, k3, k4, k5, k6, k7, k8⟩ := hk
  simp only [xsCalls, List.forall_mem_cons, G.Val, k0, k1, k3, k4, k5, k6, k7] at h
  obtain ⟨e0, e1, e2, e3, e4, e5, e6, e7, e8, e9, e10, e11, e12, e13, e14, e15, -⟩ := h
  have a1 : (w2 (s + 5)).value T = t.value T ^ 2 / (t.value T ^ 2 + K.fu) := by
    rw [e5, e4, e3, e2, e1, e0]
    by_cases h0 : t.value T = 0
    · rw [h0]; simp
    by_cases h1 : t.value T ^ 2 + K.fu = 0
    · have : t.value T * t.value T + K.fu = 0 := by linear_combination h1
      rw [this, h1]; simp
    · have h1' : t.value T * t.value T + K.fu ≠ 0 := fun h => h1 (by linear_combination h)
      field_simp
  have a2 : (w2 (s + 13)).value T = (t.value T ^ 2 + K.fu) ^ 2 / t.value T ^ 2 := by
    rw [e13, e12, e11, e10, e3, e2, e1, e0]
    by_cases h0 : t.value T = 0
    · rw [h0]; simp
    by_cases h1 : t.value T ^ 2 + K.fu = 0
    · have : t.value T * t.value T + K.fu = 0 := by linear_combination h1
      rw [this, h1]; simp
    · have h1' : t.value T * t.value T + K.fu ≠ 0 := fun h => h1 (by linear_combination h)
      field_simp
  have b1 : (w2 (s + 7)).value T = K.half - t.value T ^ 2 / (t.value T ^ 2 + K.fu) * K.sq := by rw [e7, e6, a1]
  match i with
  | 0 => exact b1
  | 1 =>
    show (w2 (s + 9)).value T = _
    rw [e9, e8, b1, zero_sub]; rfl
  | n + 2 =>
    show (w2 (s + 15)).value T = _
    rw [e15, e14, a2]; rfl

theorem e2_val (K : Curve (ZMod p)) (s : ℤ) (y : Var) (r : ℤ) (T : Table (ZMod p)) (hk : KIn K s T) (h : ∀ g ∈ e2Calls s y r, g.Val T) :
    (w2 (r + 4)).value T = ok (y.value T) := by
  simp only [e2Calls, List.forall_mem_cons, G.Val, hk.k1, hk.k2] at h
  obtain ⟨e0, e1, e2, e3, e4, -⟩ := h
  rw [e4, e3, e2, e1, e0, ok_eq]

theorem e5_val (K : Curve (ZMod p)) (s : ℤ) (y n : Var) (r : ℤ) (T : Table (ZMod p)) (hk : KIn K s T) (h : ∀ g ∈ e2Calls s y r, g.Val T)
    (h' : ∀ g ∈ e5Calls s n r, g.Val T) : (w2 (r + 9)).value T = ok (y.value T) * if n.value T = 0 then 1 else 0 := by
  have e := e2_val K s y r T hk h
  simp only [e5Calls, List.forall_mem_cons, G.Val, hk.k1, hk.k2] at h'
  obtain ⟨e0, e1, e2, e3, e4, -⟩ := h'
  rw [e4, e, e3, e2, e1, e0, non_eq]

theorem sum_val (x y n ax ay : Var) (r : ℤ) (T : Table (ZMod p)) (h : ∀ g ∈ sumCalls x y n ax ay r, g.Val T) :
    (w2 (r + 1)).value T = ax.value T + x.value T * n.value T ∧ (w2 (r + 3)).value T = ay.value T + y.value T * n.value T := by
  simp only [sumCalls, List.forall_mem_cons, G.Val] at h
  obtain ⟨e0, e1, e2, e3, -⟩ := h
  exact ⟨by rw [e1, e0], by rw [e3, e2]⟩

/-- **C152** What every accepted table satisfies: the candidates are those of the map, and the output is the sum of the candidates times the nullifiers.
Missing: the `y`s are roots, and only one nullifier is 1. -/
theorem toGroup_sound_partial (K : Curve (ZMod p)) (s : ℤ) (t : Var) (T : Table (ZMod p)) (h : Sat T (circuit K s t)) :
    (∀ i, (xv s i).value T = cand K (t.value T) i) ∧
    (outX s).value T = ∑ i ∈ Finset.range 3, cand K (t.value T) i * null (fun i => (yv s i).value T) i ∧
    (outY s).value T = ∑ i ∈ Finset.range 3, (yv s i).value T * null (fun i => (yv s i).value T) i := by
  rw [circuit, sat_append] at h
  have hk := kIn_of_sat K s T h.2
  have V := sat_calls T _ h.1
  have M : ∀ l, l <:+: calls s t → ∀ g ∈ l, g.Val T := fun l hl g hg => V g (hl.subset hg)
  have vx := xs_val K s t T hk (fun g hg => V g (by simp only [calls, List.mem_append]; tauto))
  have n0 : (nv s 0).value T = null (fun i => (yv s i).value T) 0 := by
    have := e2_val K s (yv s 0) (s + 28) T hk (fun g hg => V g (by simp only [calls, List.mem_append]; tauto))
    rw [show s + 28 + 4 = s + 32 by ring] at this
    exact this
  have n1 : (nv s 1).value T = null (fun i => (yv s i).value T) 1 := by
    have := e5_val K s (yv s 1) (nv s 0) (s + 33) T hk (fun g hg => V g (by simp only [calls, List.mem_append]; tauto))
      (fun g hg => V g (by simp only [calls, List.mem_append]; tauto))
    rw [show s + 33 + 9 = s + 42 by ring, n0] at this
    exact this
  have n2 : (nv s 2).value T = null (fun i => (yv s i).value T) 2 := by
    have := e5_val K s (yv s 2) (nv s 1) (s + 43) T hk (fun g hg => V g (by simp only [calls, List.mem_append]; tauto))
      (fun g hg => V g (by simp only [calls, List.mem_append]; tauto))
    rw [show s + 43 + 9 = s + 52 by ring, n1] at this
    exact this
  obtain ⟨p1, q1⟩ := sum_val _ _ _ _ _ (s + 53) T (fun g hg => V g (by simp only [calls, List.mem_append]; exact Or.inl (Or.inl (Or.inr hg))))
  obtain ⟨p2, q2⟩ := sum_val _ _ _ _ _ (s + 57) T (fun g hg => V g (by simp only [calls, List.mem_append]; exact Or.inl (Or.inr hg)))
  obtain ⟨p3, q3⟩ := sum_val _ _ _ _ _ (s + 61) T (fun g hg => V g (by simp only [calls, List.mem_append]; exact Or.inr hg))
  rw [show s + 53 + 1 = s + 54 by ring] at p1
  rw [show s + 53 + 3 = s + 56 by ring] at q1
  rw [show s + 57 + 1 = s + 58 by ring] at p2
  rw [show s + 57 + 3 = s + 60 by ring] at q2
  rw [show s + 61 + 1 = s + 62 by ring] at p3
  rw [show s + 61 + 3 = s + 64 by ring] at q3
  refine ⟨vx, ?_, ?_⟩
  · show (w2 (s + 62)).value T = _
    rw [p3, p2, p1, hk.k0, n0, n1, n2, vx, vx, vx, Finset.sum_range_succ, Finset.sum_range_succ, Finset.sum_range_one]; ring
  · show (w2 (s + 64)).value T = _
    rw [q3, q2, q1, hk.k0, n0, n1, n2, Finset.sum_range_succ, Finset.sum_range_succ, Finset.sum_range_one]; ring

/-! ### Tables -/

/-- Row of a call. -/
def G.row : G → ℤ
  | .add _ _ r => r
  | .sub _ _ r => r
  | .mul _ _ r => r
  | .divz _ _ r => r
  | .root _ r => r

/-- The operands are settled. -/
def G.Ready : G → Prop
  | .add x y r => Before x r ∧ Before y r
  | .sub x y r => Before x r ∧ Before y r
  | .mul x y r => Before x r ∧ Before y r
  | .divz x y r => Before x r ∧ Before y r
  | .root x r => Before x r

theorem ok3 : c3.OK 3 := ⟨by decide, by decide⟩
theorem ok5 : c5.OK 5 := ⟨by decide, by decide⟩

theorem G.below (g : G) (h : g.Ready) : ∀ o ∈ (g.ops : List (Op (ZMod p))), Below (g.row + 1) o := by
  have three : ∀ (a : Expr (ZMod p)) (x y : Var) (r : ℤ), Upto 0 a → Before x (r + 1) → Before y (r + 1) →
      ∀ o ∈ ([.gate [a] [r], .copy x (c3.wa 0 r), .copy (c3.wa 1 r) y] : List (Op (ZMod p))), Below (r + 1) o := by
    intro a x y r ha hx hy o ho
    simp only [List.mem_cons, List.not_mem_nil, or_false] at ho
    rcases ho with rfl | rfl | rfl
    · intro q hq e he
      rw [List.mem_singleton] at hq he
      subst hq he
      exact ⟨0, ha, by omega⟩
    · exact ⟨hx, before_wa _ _ _ _ (by omega)⟩
    · exact ⟨before_wa _ _ _ _ (by omega), hy⟩
  have w : ∀ i : ℤ, Upto 0 (c3.wv i : Expr (ZMod p)) := fun i => upto_wv _ _ _ _ le_rfl
  have w' : ∀ i : ℤ, Upto 0 (c5.wv i : Expr (ZMod p)) := fun i => upto_wv _ _ _ _ le_rfl
  have mulB : ∀ (x y : Var) (r : ℤ), Before x (r + 1) → Before y (r + 1) → ∀ o ∈ (Multiplication.circuit c3 ⟨x, y⟩ r : List (Op (ZMod p))), Below (r + 1) o := by
    intro x y r hx hy o ho
    refine three (c3.wv 0 * c3.wv 1 - c3.wv 2) x y r (show Upto 0 (Expr.sub (.mul (c3.wv 0) (c3.wv 1)) (c3.wv 2)) from ⟨⟨w _, w _⟩, w _⟩) hx hy o ?_
    simp only [Multiplication.circuit, List.mem_cons, List.mem_append] at ho
    rcases ho with rfl | ho | ho
    · simp
    · split at ho
      · simp only [List.mem_singleton] at ho; rw [ho]; simp
      · simp at ho
    · split at ho
      · simp only [List.mem_singleton] at ho; rw [ho]; simp
      · simp at ho
  intro o ho
  cases g with
  | add x y r => exact three (c3.wv 0 + c3.wv 1 - c3.wv 2) x y r (show Upto 0 (Expr.sub (.add (c3.wv 0) (c3.wv 1)) (c3.wv 2)) from ⟨⟨w _, w _⟩, w _⟩) (h.1.mono (by omega)) (h.2.mono (by omega)) o ho
  | sub x y r => exact three (c3.wv 0 - c3.wv 1 - c3.wv 2) x y r (show Upto 0 (Expr.sub (.sub (c3.wv 0) (c3.wv 1)) (c3.wv 2)) from ⟨⟨w _, w _⟩, w _⟩) (h.1.mono (by omega)) (h.2.mono (by omega)) o ho
  | mul x y r => exact mulB x y r (h.1.mono (by omega)) (h.2.mono (by omega)) o ho
  | root x r => exact mulB _ _ r (before_wa _ _ _ _ (by omega)) (before_wa _ _ _ _ (by omega)) o ho
  | divz x y r =>
    simp only [G.ops, DivisionOrZero.circuit, List.mem_cons, List.not_mem_nil, or_false] at ho
    simp only [G.row]
    rcases ho with rfl | rfl | rfl
    · intro q hq e he
      rw [List.mem_singleton] at hq
      subst hq
      refine ⟨0, ?_, by omega⟩
      simp only [List.mem_cons, List.not_mem_nil, or_false] at he
      rcases he with rfl | rfl | rfl | rfl
      · exact ⟨⟨w' _, w' _⟩, w' _⟩
      · exact ⟨w' _, w' _, trivial⟩
      · exact ⟨⟨w' _, w' _⟩, w' _, trivial⟩
      · exact ⟨⟨w' _, w' _⟩, w' _⟩
    · exact ⟨h.1.mono (by omega), before_wa _ _ _ _ (by omega)⟩
    · exact ⟨before_wa _ _ _ _ (by omega), h.2.mono (by omega)⟩

/-- The root has been written. -/
def G.Root (f : ℤ → ZMod p → ZMod p) (T : Table (ZMod p)) : G → Prop
  | .root x r => (w0 r).value T = f r (x.value T)
  | _ => True

theorem G.complete (f : ℤ → ZMod p → ZMod p) (g : G) (h : g.Ready) (t : Table (ZMod p)) :
    Sat (g.assign f t) g.ops ∧ Within g.row (g.row + 1) t (g.assign f t) ∧ g.Root f (g.assign f t) := by
  cases g with
  | add x y r =>
    have := addition_complete (F := ZMod p) c3 ok3 ⟨x, y⟩ r t (h.1.outside 1) (h.2.outside 1)
    exact ⟨this.1, frame_within this.2.1, trivial⟩
  | sub x y r =>
    have := subtraction_complete (F := ZMod p) c3 ok3 ⟨x, y⟩ r t (h.1.outside 1) (h.2.outside 1)
    exact ⟨this.1, frame_within this.2.1, trivial⟩
  | mul x y r =>
    have := multiplication_complete (F := ZMod p) c3 ok3 ⟨x, y⟩ r t (h.1.outside 1) (h.2.outside 1)
    have e : writeConsts (Multiplication.circuit c3 ⟨x, y⟩ r) t = t := by
      apply KimchiSponge.writeConsts_in
      intro c q v hm
      simp only [Multiplication.circuit, List.mem_cons, reduceCtorEq, false_or, List.mem_append] at hm
      rcases hm with hm | hm <;> split at hm <;> simp at hm
    rw [e] at this
    exact ⟨this.1, frame_within this.2.1, trivial⟩
  | divz x y r =>
    have := divisionOrZero_complete (F := ZMod p) c5 ok5 ⟨x, y⟩ r t (h.1.outside 1) (h.2.outside 1)
    exact ⟨this.1, frame_within this.2.1, trivial⟩
  | root x r =>
    have d0 : c3.w 0 = 0 := by decide
    have d1 : c3.w 1 = 1 := by decide
    have d2 : c3.w 2 = 2 := by decide
    set y := f r (x.value t) with hy
    set T := G.assign f t (.root x r) with hT
    have c0 : T .witness 0 r = y := by
      rw [hT]; simp [G.assign, Multiplication.assign, w0, Cols.wa, d0, d1, d2, Table.set_apply, Var.value, hy]
    have c1 : T .witness 1 r = y := by
      rw [hT]; simp [G.assign, Multiplication.assign, w0, Cols.wa, d0, d1, d2, Table.set_apply, Var.value, hy]
    have c2 : T .witness 2 r = y * y := by
      rw [hT]; simp [G.assign, Multiplication.assign, w0, Cols.wa, d0, d1, d2, Table.set_apply, Var.value, hy]
    have wi : Within r (r + 1) t T := by
      intro ty i q hn
      have : ∀ j : ℕ, ¬ (ty = .witness ∧ i = j ∧ q = r) := by
        rintro j ⟨h1, -, h3⟩
        exact hn ⟨h1, by omega, by omega⟩
      rw [hT]
      simp only [G.assign, Multiplication.assign, d0, d1, d2, Table.set_apply, if_neg (this 0), if_neg (this 1), if_neg (this 2)]
    refine ⟨?_, wi, ?_⟩
    · simp only [G.ops, Multiplication.circuit, sat_cons, sat_append]
      refine ⟨?_, ?_, ?_⟩
      · simp [Op.Holds, Cols.wv, d0, d1, d2, c0, c1, c2, Expr.eval, Var.evalAt]
      · simp [w0]
      · split
        · simp [Op.Holds, w0, Cols.wa, Var.value, d0, d1, c0, c1]
        · simp
    · show (w0 r).value T = f r (x.value T)
      rw [wi.same.value h]
      show T .witness (c3.w 0) r = _
      rw [d0, c0]

/-- Calls one per row, with settled operands. -/
def Chain : ℤ → List G → Prop
  | _, [] => True
  | lo, g :: l => g.row = lo ∧ g.Ready ∧ Chain (lo + 1) l

theorem Chain.append {lo : ℤ} {l l' : List G} (h : Chain lo l) (h' : Chain (lo + l.length) l') : Chain lo (l ++ l') := by
  induction l generalizing lo with
  | nil => simpa using h'
  | cons g l ih =>
    refine ⟨h.1, h.2.1, ih h.2.2 ?_⟩
    have : lo + 1 + (l.length : ℤ) = lo + ((g :: l).length : ℤ) := by simp; ring
    rw [this]; exact h'

theorem chain_ok (f : ℤ → ZMod p → ZMod p) (l : List G) (lo : ℤ) (h : Chain lo l) (t : Table (ZMod p)) :
    Sat (l.foldl (G.assign f) t) (l.flatMap G.ops) ∧ Within lo (lo + l.length) t (l.foldl (G.assign f) t) ∧ ∀ g ∈ l, g.Root f (l.foldl (G.assign f) t) := by
  induction l generalizing lo t with
  | nil => exact ⟨by simp, fun _ _ _ _ => rfl, by simp⟩
  | cons g l ih =>
    obtain ⟨g1, g2, g3⟩ := h
    obtain ⟨s1, s2, s3⟩ := g.complete f g2 t
    obtain ⟨i1, i2, i3⟩ := ih _ g3 (G.assign f t g)
    have e : (g :: l).foldl (G.assign f) t = l.foldl (G.assign f) (G.assign f t g) := rfl
    rw [e, List.flatMap_cons, sat_append]
    refine ⟨⟨fun o ho => ?_, i1⟩, fun ty i r hn => ?_, fun g' hg' => ?_⟩
    · refine (g.below g2 o ho).holds ?_ (s1 o ho)
      rw [g1]; exact i2.same
    · simp only [List.length_cons] at hn
      push_cast at hn
      rw [i2 ty i r (by rintro ⟨q1, q2, q3⟩; exact hn ⟨q1, by omega, by omega⟩), s2 ty i r (by rintro ⟨q1, q2, q3⟩; exact hn ⟨q1, by omega, by omega⟩)]
    · rcases List.mem_cons.1 hg' with rfl | hg'
      · cases g' with
        | root x r =>
          have hr : r + 1 = lo + 1 := by have : r = lo := g1; omega
          show (w0 r).value _ = f r (x.value _)
          have hw : Before (w0 r) (lo + 1) := before_wa _ _ _ _ (by omega)
          rw [i2.same.value hw, i2.same.value (Before.mono g2 (by omega))]
          exact s3
        | _ => trivial
      · exact i3 g' hg'

theorem calls_chain (s : ℤ) (t : Var) (ht : Before t s) : Chain s (calls s t) := by
  have k : ∀ i r, Before (kv s i) r := fun i r hw => by simp [kv] at hw
  have w : ∀ a b : ℤ, a < b → Before (w2 a) b := fun a b h => before_wa _ _ _ _ h
  have y : ∀ a b : ℤ, a < b → Before (w0 a) b := fun a b h => before_wa _ _ _ _ h
  simp only [calls, xsCalls, yCalls, e2Calls, e5Calls, sumCalls, List.cons_append, List.nil_append, Chain, G.row, G.Ready, xv, xsOut, yv, nv, yRow]
  and_intros <;> first | trivial | exact ht | exact k _ _ | exact w _ _ (by push_cast; omega) | exact y _ _ (by push_cast; omega) | (push_cast; omega)

/-- **C152** Whatever roots are written, the table is accepted and only the counted rows are written. -/
theorem toGroup_complete (f : ℤ → ZMod p → ZMod p) (K : Curve (ZMod p)) (s : ℤ) (t : Var) (ht : Before t s) (T0 : Table (ZMod p)) :
    let T := assign f s t (writeConsts (consts K s) T0)
    Sat T (circuit K s t) ∧ Within s (s + rows) (writeConsts (consts K s) T0) T ∧
      ∀ i < 3, (yv s i).value T = f (yRow s i + 3) (rhs K.b (cand K (t.value T) i)) := by
  intro T
  obtain ⟨a1, a2, a3⟩ := chain_ok f (calls s t) s (calls_chain s t ht) (writeConsts (consts K s) T0)
  have hl : ((calls s t).length : ℤ) = rows := rfl
  rw [hl] at a2
  have hc : Sat T (consts K s) := by
    have e : ∀ r, T .constant 0 r = writeConsts (consts K s) T0 .constant 0 r := fun r => a2 _ _ _ (by simp)
    intro o ho
    simp only [consts, List.mem_cons, List.not_mem_nil, or_false] at ho
    rcases ho with rfl | rfl | rfl | rfl | rfl | rfl | rfl | rfl | rfl <;> simp only [Op.Holds] <;> rw [e] <;>
      simp [consts, writeConsts_constant, Table.set_apply]
  have hs : Sat T (circuit K s t) := (sat_append ..).2 ⟨a1, hc⟩
  refine ⟨hs, a2, ?_⟩
  have hk := kIn_of_sat K s T hc
  have vx := (toGroup_sound_partial K s t T hs).1
  have V := sat_calls T _ a1
  have one : ∀ i, (∀ g ∈ yCalls s (xv s i) (yRow s i), g ∈ calls s t) → (yv s i).value T = f (yRow s i + 3) (rhs K.b (cand K (t.value T) i)) := by
    intro i hm
    have hv : ∀ g ∈ yCalls s (xv s i) (yRow s i), g.Val T := fun g hg => V g (hm g hg)
    simp only [yCalls, List.forall_mem_cons, G.Val, hk.k8] at hv
    obtain ⟨e0, e1, e2, -⟩ := hv
    have hr := a3 (.root (w2 (yRow s i + 2)) (yRow s i + 3)) (hm _ (by simp [yCalls]))
    have hr' : (yv s i).value T = f (yRow s i + 3) ((w2 (yRow s i + 2)).value T) := hr
    rw [hr', e2, e1, e0, vx]
    congr 1
    unfold rhs; ring
  intro i hi
  rcases (by omega : i = 0 ∨ i = 1 ∨ i = 2) with rfl | rfl | rfl
  · exact one 0 fun g hg => by simp only [calls, List.mem_append]; tauto
  · exact one 1 fun g hg => by simp only [calls, List.mem_append]; tauto
  · exact one 2 fun g hg => by simp only [calls, List.mem_append]; tauto

/-- **C152 is false**: for every `t` the output can be `(0, 0)`, which is not on the curve: the copy constraint between the square of `y` and the right side is
missing. -/
theorem toGroup_forged (K : Curve (ZMod p)) (hb : K.b ≠ 0) (s : ℤ) (t : Var) (ht : Before t s) (T0 : Table (ZMod p)) :
    ∃ T, Sat T (circuit K s t) ∧ Within s (s + rows) (writeConsts (consts K s) T0) T ∧ (outX s).value T = 0 ∧ (outY s).value T = 0 ∧
      ¬ OnCurve K.b ((outX s).value T) ((outY s).value T) := by
  obtain ⟨h1, h2, h3⟩ := toGroup_complete (fun _ _ => -1) K s t ht T0
  obtain ⟨-, e1, e2⟩ := toGroup_sound_partial K s t _ h1
  have n : ∀ i, i < 3 → null (fun i => (yv s i).value (assign (fun _ _ => -1) s t (writeConsts (consts K s) T0))) i = 0 := by
    intro i hi
    rcases (by omega : i = 0 ∨ i = 1 ∨ i = 2) with rfl | rfl | rfl <;> simp [null, h3, ok]
  rw [Finset.sum_range_succ, Finset.sum_range_succ, Finset.sum_range_one, n 0 (by omega), n 1 (by omega), n 2 (by omega)] at e1 e2
  have e1 : _ = (0 : ZMod p) := e1.trans (by ring)
  have e2 : _ = (0 : ZMod p) := e2.trans (by ring)
  refine ⟨_, h1, h2, e1, e2, ?_⟩
  rw [e1, e2]
  intro h
  unfold OnCurve rhs at h
  exact hb (by linear_combination -h)

/-- **C152 is false**: the second coordinate is any element but -1. -/
theorem toGroup_any (K : Curve (ZMod p)) (s : ℤ) (t : Var) (ht : Before t s) (T0 : Table (ZMod p)) (v : ZMod p) (hv : v ≠ -1) :
    ∃ T, Sat T (circuit K s t) ∧ (outX s).value T = cand K (t.value T) 2 ∧ (outY s).value T = v := by
  obtain ⟨h1, -, h3⟩ := toGroup_complete (fun r _ => if r = yRow s 2 + 3 then v else -1) K s t ht T0
  obtain ⟨-, e1, e2⟩ := toGroup_sound_partial K s t _ h1
  have y0 := h3 0 (by omega)
  have y1 := h3 1 (by omega)
  have y2 := h3 2 (by omega)
  rw [if_neg (by simp [yRow])] at y0 y1
  rw [if_pos rfl] at y2
  refine ⟨_, h1, ?_, ?_⟩
  · rw [e1, Finset.sum_range_succ, Finset.sum_range_succ, Finset.sum_range_one]
    simp [null, y0, y1, y2, ok, hv]
  · rw [e2, Finset.sum_range_succ, Finset.sum_range_succ, Finset.sum_range_one]
    simp [null, y0, y1, y2, ok, hv]

/-- A square root as the comments of the code assume it: -1 for an element without root. -/
def IsRoot (sq : ZMod p → ZMod p) : Prop := ∀ a, (IsSquare a → sq a ^ 2 = a) ∧ (¬ IsSquare a → sq a = -1)

theorem ok_root {sq : ZMod p → ZMod p} (h : IsRoot sq) {a : ZMod p} (h1 : a ≠ 1) : ok (sq a) = if IsSquare a then 1 else 0 := by
  unfold ok
  by_cases ha : IsSquare a
  · have e := (h a).1 ha
    rw [if_pos ha, if_neg]
    intro h'
    rw [h'] at e
    exact h1 (by linear_combination -e)
  · rw [if_neg ha, if_pos ((h a).2 ha)]

/-- **C152** The honest table is right if exactly one candidate is on the curve. -/
theorem toGroup_honest_partial (sq : ZMod p → ZMod p) (hsq : IsRoot sq) (K : Curve (ZMod p)) (s : ℤ) (t : Var) (ht : Before t s) (T0 : Table (ZMod p)) :
    let T := assign (fun _ => sq) s t (writeConsts (consts K s) T0)
    ∀ i < 3, (∀ j < 3, IsSquare (rhs K.b (cand K (t.value T) j)) ↔ j = i) → rhs K.b (cand K (t.value T) i) ≠ 1 →
      Sat T (circuit K s t) ∧ (outX s).value T = cand K (t.value T) i ∧ OnCurve K.b ((outX s).value T) ((outY s).value T) := by
  intro T i hi hj h1
  obtain ⟨g1, -, g3⟩ := toGroup_complete (fun _ => sq) K s t ht T0
  obtain ⟨-, e1, e2⟩ := toGroup_sound_partial K s t _ g1
  have o : ∀ j < 3, ok ((yv s j).value T) = if j = i then 1 else 0 := by
    intro j hj'
    rw [g3 j hj']
    by_cases hji : j = i
    · subst hji
      rw [ok_root hsq h1, if_pos ((hj j hi).2 rfl), if_pos rfl]
    · unfold ok
      rw [if_pos ((hsq _).2 fun h => hji ((hj j hj').1 h)), if_neg hji]
  have n : ∀ j < 3, null (fun i => (yv s i).value T) j = if j = i then 1 else 0 := by
    intro j hj'
    have o0 := o 0 (by omega)
    have o1 := o 1 (by omega)
    have o2 := o 2 (by omega)
    rcases (by omega : i = 0 ∨ i = 1 ∨ i = 2) with rfl | rfl | rfl <;> rcases (by omega : j = 0 ∨ j = 1 ∨ j = 2) with rfl | rfl | rfl <;>
      simp [null, o0, o1, o2]
  rw [Finset.sum_range_succ, Finset.sum_range_succ, Finset.sum_range_one] at e1 e2
  have n0 := n 0 (by omega)
  have n1 := n 1 (by omega)
  have n2 := n 2 (by omega)
  have r1 : (outX s).value T = cand K (t.value T) i := by
    refine e1.trans ?_
    rw [n0, n1, n2]
    rcases (by omega : i = 0 ∨ i = 1 ∨ i = 2) with rfl | rfl | rfl <;> simp <;> rfl
  have r2 : (outY s).value T = (yv s i).value T := by
    refine e2.trans ?_
    rw [n0, n1, n2]
    rcases (by omega : i = 0 ∨ i = 1 ∨ i = 2) with rfl | rfl | rfl <;> simp <;> rfl
  refine ⟨g1, r1, ?_⟩
  rw [r1, r2, g3 i hi]
  exact (hsq _).1 ((hj i hi).2 rfl)

/-- The honest output when all three candidates are on the curve: the sum of the first and the third. -/
theorem toGroup_honest_three (sq : ZMod p → ZMod p) (hsq : IsRoot sq) (K : Curve (ZMod p)) (s : ℤ) (t : Var) (ht : Before t s) (T0 : Table (ZMod p)) :
    let T := assign (fun _ => sq) s t (writeConsts (consts K s) T0)
    (∀ j < 3, IsSquare (rhs K.b (cand K (t.value T) j)) ∧ rhs K.b (cand K (t.value T) j) ≠ 1) →
      (outX s).value T = cand K (t.value T) 0 + cand K (t.value T) 2 ∧
      (outY s).value T = sq (rhs K.b (cand K (t.value T) 0)) + sq (rhs K.b (cand K (t.value T) 2)) := by
  intro T hj
  obtain ⟨g1, -, g3⟩ := toGroup_complete (fun _ => sq) K s t ht T0
  obtain ⟨-, e1, e2⟩ := toGroup_sound_partial K s t _ g1
  have o : ∀ j < 3, ok ((yv s j).value T) = 1 := fun j hj' => by rw [g3 j hj', ok_root hsq (hj j hj').2, if_pos (hj j hj').1]
  have n0 : null (fun i => (yv s i).value T) 0 = 1 := o 0 (by omega)
  have n1 : null (fun i => (yv s i).value T) 1 = 0 := by simp [null, o 0 (by omega)]
  have n2 : null (fun i => (yv s i).value T) 2 = 1 := by simp [null, o 0 (by omega), o 1 (by omega), o 2 (by omega)]
  rw [Finset.sum_range_succ, Finset.sum_range_succ, Finset.sum_range_one] at e1 e2
  constructor
  · refine e1.trans ?_
    rw [n0, n1, n2]; ring
  · refine e2.trans ?_
    rw [n0, n1, n2]
    have y0 : (yv s 0).value T = sq (rhs K.b (cand K (t.value T) 0)) := g3 0 (by omega)
    have y2 : (yv s 2).value T = sq (rhs K.b (cand K (t.value T) 2)) := g3 2 (by omega)
    rw [y0, y2]; ring

/-- **C152 is false for the honest table too**: with the constants of the two curves the output for `t = 0` is not on the curve, whichever roots are taken. -/
theorem toGroup_zero_off_curve (sq : ZMod p → ZMod p) (hsq : IsRoot sq) (K : Curve (ZMod p)) (hK : K.Valid) (hu : K.u = 1) (hb : K.b = 5)
    (h5 : (5 : ZMod p) ≠ 0) (h6 : IsSquare (6 : ZMod p)) (s : ℤ) (t : Var) (ht : Before t s) (T0 : Table (ZMod p)) :
    let T := assign (fun _ => sq) s t (writeConsts (consts K s) T0)
    t.value T = 0 → Sat T (circuit K s t) ∧ ¬ OnCurve K.b ((outX s).value T) ((outY s).value T) := by
  intro T h0
  obtain ⟨g1, -, -⟩ := toGroup_complete (fun _ => sq) K s t ht T0
  refine ⟨g1, ?_⟩
  have c0 : cand K 0 0 = K.half := by simp [cand]
  have c1 : cand K 0 1 = -K.u - K.half := by simp [cand]
  have c2 : cand K 0 2 = K.u := by simp [cand]
  have w : K.half ^ 2 + K.half + 1 = 0 := by
    have h4 : (4 : ZMod p) ≠ 0 := by
      have : (4 : ZMod p) = 2 * 2 := by norm_num
      rw [this]; exact mul_ne_zero hK.two hK.two
    have hs := hK.sq
    have hh := hK.half
    rw [hu] at hs hh
    apply mul_left_cancel₀ h4
    linear_combination (2 * K.half + K.sq + 1) * hh + hs
  have r : ∀ j < 3, rhs K.b (cand K 0 j) = 6 := by
    intro j hj
    rcases (by omega : j = 0 ∨ j = 1 ∨ j = 2) with rfl | rfl | rfl
    · rw [c0, rhs, hb]; linear_combination (K.half - 1) * w
    · rw [c1, rhs, hb, hu]; linear_combination (-K.half - 2) * w
    · rw [c2, rhs, hb, hu]; norm_num
  have h61 : (6 : ZMod p) ≠ 1 := fun h => h5 (by linear_combination h)
  obtain ⟨e1, e2⟩ := toGroup_honest_three sq hsq K s t ht T0 (fun j hj => by
    show IsSquare (rhs K.b (cand K (t.value T) j)) ∧ rhs K.b (cand K (t.value T) j) ≠ 1
    rw [h0, r j hj]; exact ⟨h6, h61⟩)
  have e1 : (outX s).value T = cand K (t.value T) 0 + cand K (t.value T) 2 := e1
  have e2 : (outY s).value T = sq (rhs K.b (cand K (t.value T) 0)) + sq (rhs K.b (cand K (t.value T) 2)) := e2
  rw [e1, e2, h0, r 0 (by omega), r 2 (by omega), c0, c2, hu]
  have q := (hsq 6).1 h6
  intro h
  unfold OnCurve rhs at h
  rw [hb] at h
  -- 24 = 4
  have : (2 : ZMod p) * 2 * 5 = 0 := by linear_combination h - 4 * q + (K.half + 2) * w
  exact mul_ne_zero (mul_ne_zero hK.two hK.two) h5 this

/-- **C152 is false**: the variables `result_type` names are outside the rows of the component, unless it starts near row 0; they hold anything. -/
theorem toGroup_result_free (K : Curve (ZMod p)) (s : ℤ) (hs : rows ≤ s) (t : Var) (ht : Before t s)
    (T0 : Table (ZMod p)) (a b : ZMod p) :
    ∃ T, Sat T (circuit K s t) ∧ (resultX s).value T = a ∧ (resultY s).value T = b := by
  have hr : (rows : ℤ) = 65 := by decide
  have key : ∀ r : ℤ, r = 62 ∨ r = 64 → (w2 r).value (writeConsts (consts K s) ((T0.set .witness 2 62 a).set .witness 2 64 b)) = if r = 62 then a else b := by
    intro r h
    have d2 : c3.w 2 = 2 := by decide
    show writeConsts (consts K s) ((T0.set .witness 2 62 a).set .witness 2 64 b) .witness (c3.w 2) r = _
    rw [KimchiSponge.writeConsts_ty _ _ _ _ _ (by simp), d2]
    rcases h with rfl | rfl <;> simp [Table.set_apply]
  obtain ⟨h1, h2, -⟩ := toGroup_complete (fun _ _ => 0) K s t ht ((T0.set .witness 2 62 a).set .witness 2 64 b)
  have e1 : resultX s = w2 62 := by unfold resultX; rw [hr]; norm_num
  have e2 : resultY s = w2 64 := by unfold resultY; rw [hr]; norm_num
  refine ⟨_, h1, ?_, ?_⟩
  · rw [e1, h2.same.value (v := w2 62) (KimchiSponge.before_wa _ _ _ _ (by omega)), key _ (Or.inl rfl), if_pos rfl]
  · rw [e2, h2.same.value (v := w2 64) (KimchiSponge.before_wa _ _ _ _ (by omega)), key _ (Or.inr rfl), if_neg (by decide)]

/-- From row 0 they are the right ones. -/
theorem toGroup_result_zero : resultX 0 = outX 0 ∧ resultY 0 = outY 0 := ⟨rfl, rfl⟩

/-! ### The two curves -/

theorem nat_eq {q : ℕ} {a b : ℕ} (h : a % q = b % q) : (a : ZMod q) = b := (ZMod.natCast_eq_natCast_iff' a b q).2 h

theorem nat_ne {q : ℕ} {a b : ℕ} (h : a % q ≠ b % q) : (a : ZMod q) ≠ b := fun e => h ((ZMod.natCast_eq_natCast_iff' a b q).1 e)

theorem valid_of {q : ℕ} [Fact q.Prime] (K : Curve ℕ) (h2 : 2 % q ≠ 0) (hf : K.fu = K.u ^ 3 + K.b) (h3 : K.inv3 * (3 * K.u ^ 2) % q = 1 % q)
    (hs : (K.sq ^ 2 + 3 * K.u ^ 2) % q = 0) (hh : (2 * K.half + K.u) % q = K.sq % q) (h0 : K.fu % q ≠ 0) : (K.cast q).Valid where
  two := by have := nat_ne (q := q) (a := 2) (b := 0) (by simpa using h2); simpa using this
  fu := by show ((K.fu : ℕ) : ZMod q) = ((K.u : ℕ) : ZMod q) ^ 3 + ((K.b : ℕ) : ZMod q); rw [hf]; push_cast; ring
  inv3 := by have := nat_eq h3; push_cast at this; exact this
  sq := by
    have := nat_eq (q := q) (a := K.sq ^ 2 + 3 * K.u ^ 2) (b := 0) (by simpa using hs)
    push_cast at this
    show ((K.sq : ℕ) : ZMod q) ^ 2 = -(3 * ((K.u : ℕ) : ZMod q) ^ 2)
    linear_combination this
  half := by
    have := nat_eq hh
    push_cast at this
    show 2 * ((K.half : ℕ) : ZMod q) = ((K.sq : ℕ) : ZMod q) - ((K.u : ℕ) : ZMod q)
    linear_combination this
  fu0 := by
    have := nat_ne (q := q) (a := K.fu) (b := 0) (by simpa using h0)
    show ((K.fu : ℕ) : ZMod q) ≠ 0
    simpa using this

/-- The constants of the code are right. -/
theorem pallas_valid : (pallasK.cast pallasP).Valid :=
  valid_of pallasK (by decide +kernel) (by decide +kernel) (by decide +kernel) (by decide +kernel) (by decide +kernel) (by decide +kernel)

theorem vesta_valid : (vestaK.cast vestaP).Valid :=
  valid_of vestaK (by decide +kernel) (by decide +kernel) (by decide +kernel) (by decide +kernel) (by decide +kernel) (by decide +kernel)

theorem six_pallas : IsSquare (6 : ZMod pallasP) :=
  ⟨((16529367526445723262478303825122581175399563069290091271396079358777790485830 : ℕ) : ZMod pallasP), by
    have := nat_eq (q := pallasP) (a := 6) (b := 16529367526445723262478303825122581175399563069290091271396079358777790485830 *
      16529367526445723262478303825122581175399563069290091271396079358777790485830) (by decide +kernel)
    rw [Nat.cast_mul] at this
    exact_mod_cast this⟩

theorem six_vesta : IsSquare (6 : ZMod vestaP) :=
  ⟨((11426906929455361843568202299992114520848200991084027513389447476559454104162 : ℕ) : ZMod vestaP), by
    have := nat_eq (q := vestaP) (a := 6) (b := 11426906929455361843568202299992114520848200991084027513389447476559454104162 *
      11426906929455361843568202299992114520848200991084027513389447476559454104162) (by decide +kernel)
    rw [Nat.cast_mul] at this
    exact_mod_cast this⟩

theorem five_pallas : (5 : ZMod pallasP) ≠ 0 := by
  have := nat_ne (q := pallasP) (a := 5) (b := 0) (by decide +kernel)
  exact_mod_cast this

theorem five_vesta : (5 : ZMod vestaP) ≠ 0 := by
  have := nat_ne (q := vestaP) (a := 5) (b := 0) (by decide +kernel)
  exact_mod_cast this

/-- A root function as the comments assume it exists. -/
theorem root_exists : ∃ sq : ZMod p → ZMod p, IsRoot sq := by
  classical
  refine ⟨fun a => if h : IsSquare a then h.choose else -1, fun a => ⟨fun h => ?_, fun h => by simp [h]⟩⟩
  simp only [h, dif_pos]
  rw [pow_two]; exact h.choose_spec.symm

/-- Pallas, `t = 0` in a public input: accepted, honest, off the curve. -/
theorem pallas_zero_off_curve : ∃ T : Table (ZMod pallasP), Sat T (circuit (pallasK.cast pallasP) 0 ⟨0, 0, false, .publicInput⟩) ∧
    ¬ OnCurve (5 : ZMod pallasP) ((resultX 0).value T) ((resultY 0).value T) := by
  obtain ⟨sq, hsq⟩ := root_exists (p := pallasP)
  have ht : Before (⟨0, 0, false, .publicInput⟩ : Var) 0 := fun h => by simp at h
  have b5 : (pallasK.cast pallasP).b = 5 := by show ((5 : ℕ) : ZMod pallasP) = 5; norm_num
  have u1 : (pallasK.cast pallasP).u = 1 := by show ((1 : ℕ) : ZMod pallasP) = 1; norm_num
  obtain ⟨-, w, -⟩ := toGroup_complete (fun _ => sq) (pallasK.cast pallasP) 0 _ ht (fun _ _ _ => 0)
  have v : (⟨0, 0, false, .publicInput⟩ : Var).value (writeConsts (consts (pallasK.cast pallasP) 0) (fun _ _ _ => 0)) = 0 := KimchiSponge.writeConsts_ty _ _ _ _ _ (by simp)
  obtain ⟨h1, h2⟩ := toGroup_zero_off_curve sq hsq _ pallas_valid u1 b5 five_pallas six_pallas 0 _ ht (fun _ _ _ => 0) ((w.same.value ht).trans v)
  rw [b5] at h2
  refine ⟨_, h1, ?_⟩
  rw [toGroup_result_zero.1, toGroup_result_zero.2]
  exact h2

/-- The same for vesta. -/
theorem vesta_zero_off_curve : ∃ T : Table (ZMod vestaP), Sat T (circuit (vestaK.cast vestaP) 0 ⟨0, 0, false, .publicInput⟩) ∧
    ¬ OnCurve (5 : ZMod vestaP) ((resultX 0).value T) ((resultY 0).value T) := by
  obtain ⟨sq, hsq⟩ := root_exists (p := vestaP)
  have ht : Before (⟨0, 0, false, .publicInput⟩ : Var) 0 := fun h => by simp at h
  have b5 : (vestaK.cast vestaP).b = 5 := by show ((5 : ℕ) : ZMod vestaP) = 5; norm_num
  have u1 : (vestaK.cast vestaP).u = 1 := by show ((1 : ℕ) : ZMod vestaP) = 1; norm_num
  obtain ⟨-, w, -⟩ := toGroup_complete (fun _ => sq) (vestaK.cast vestaP) 0 _ ht (fun _ _ _ => 0)
  have v : (⟨0, 0, false, .publicInput⟩ : Var).value (writeConsts (consts (vestaK.cast vestaP) 0) (fun _ _ _ => 0)) = 0 := KimchiSponge.writeConsts_ty _ _ _ _ _ (by simp)
  obtain ⟨h1, h2⟩ := toGroup_zero_off_curve sq hsq _ vesta_valid u1 b5 five_vesta six_vesta 0 _ ht (fun _ _ _ => 0) ((w.same.value ht).trans v)
  rw [b5] at h2
  refine ⟨_, h1, ?_⟩
  rw [toGroup_result_zero.1, toGroup_result_zero.2]
  exact h2

/-- Every `t` but finitely many has a candidate on the curve. -/
example (t : ZMod pallasP) (h0 : t ≠ 0) (h1 : t ^ 2 + (pallasK.cast pallasP).fu ≠ 0) : ∃ i < 3, ∃ y, OnCurve (pallasK.cast pallasP).b (cand (pallasK.cast pallasP) t i) y :=
  cand_exists _ pallas_valid t h0 h1

end KimchiGroup
end Verif
