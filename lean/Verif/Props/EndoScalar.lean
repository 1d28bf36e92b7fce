import Verif.Model.EndoScalar
import Verif.Core.Paint
import Verif.Core.Primality
import Mathlib.Algebra.BigOperators.Ring.Finset
import Mathlib.Algebra.CharP.Basic
import Mathlib.Data.ZMod.Basic
import Mathlib.Tactic.NormNum.Prime

/-!
# C68: the endomorphism scalar

`spec lam x` is the scalar the Halo endomorphism multiplication uses for the 128-bit challenge `x`: the base-4 digits
of `x` select `+1`, `-1` for the part multiplied by `lam` (digits 3, 2) or for the other part (digits 1, 0).
-/

set_option linter.unusedSimpArgs false
set_option linter.unusedVariables false
set_option linter.unusedSectionVars false

namespace Verif
namespace EndoScalar

/-- Contribution of a digit to the part multiplied by the endomorphism constant. -/
def cc : ℕ → ℤ
  | 2 => -1
  | 3 => 1
  | _ => 0

/-- Contribution of a digit to the other part. -/
def dd : ℕ → ℤ
  | 0 => -1
  | 1 => 1
  | _ => 0

/-- Signed sum of the digits of `x` in base 4, each read through `f`. -/
def sumA (f : ℕ → ℤ) (m x : ℕ) : ℤ := ∑ i ∈ Finset.range m, 2 ^ i * f (x / 4 ^ i % 4)

/-- The scalar of the challenge `x` of 128 bits. -/
def spec {F : Type*} [Field F] (lam : F) (x : ℕ) : F :=
  lam * ((2 ^ 65 + sumA cc 64 x : ℤ) : F) + ((2 ^ 65 + sumA dd 64 x : ℤ) : F)

theorem sumA_zero (f : ℕ → ℤ) (x : ℕ) : sumA f 0 x = 0 := by simp [sumA]

theorem sumA_succ (f : ℕ → ℤ) (m h e : ℕ) (he : e < 4) : sumA f (m + 1) (4 * h + e) = 2 * sumA f m h + f e := by
  unfold sumA
  rw [Finset.sum_range_succ', Finset.mul_sum]
  congr 1
  · apply Finset.sum_congr rfl
    intro i _
    have e1 : (4 * h + e) / 4 ^ (i + 1) = h / 4 ^ i := by
      rw [pow_succ', ← Nat.div_div_eq_div_mul]
      congr 1; omega
    rw [e1, pow_succ]; ring
  · have : (4 * h + e) / 4 ^ 0 % 4 = e := by simp; omega
    rw [this]; simp

/-- Base 4, most significant digit first. -/
def H (e : ℕ → ℕ) : ℕ → ℕ
  | 0 => 0
  | k + 1 => 4 * H e k + e k

theorem H_lt (e : ℕ → ℕ) (he : ∀ k, e k < 4) (k : ℕ) : H e k < 4 ^ k := by
  induction k with
  | zero => simp [H]
  | succ k ih =>
    have := he k
    rw [H, pow_succ]; omega

section sound
variable {F : Type*} [Field F]

theorem crumbC_eval {x : Expr F} {t : Table F} {row : ℤ} (h : (crumbC x).eval t row = 0) :
    ∃ e : ℕ, e < 4 ∧ x.eval t row = (e : F) := by
  simp only [crumbC, Expr.eval_mul, Expr.eval_sub, Expr.eval_one, Expr.eval_two, Expr.eval_three, mul_eq_zero,
    sub_eq_zero] at h
  rcases h with ((h | h) | h) | h
  · exact ⟨0, by omega, by simpa using h⟩
  · exact ⟨1, by omega, by simpa using h⟩
  · exact ⟨2, by omega, by simpa using h⟩
  · exact ⟨3, by omega, by simpa using h⟩

theorem crumbC_zero {x : Expr F} {t : Table F} {row : ℤ} {e : ℕ} (he : e < 4) (h : x.eval t row = (e : F)) :
    (crumbC x).eval t row = 0 := by
  simp only [crumbC, Expr.eval_mul, Expr.eval_sub, Expr.eval_one, Expr.eval_two, Expr.eval_three, h]
  interval_cases e <;> norm_num

theorem cf_eval (h6 : (6 : F) ≠ 0) {x : Expr F} {t : Table F} {row : ℤ} {e : ℕ} (he : e < 4)
    (h : x.eval t row = (e : F)) : (cf x).eval t row = (cc e : F) := by
  have h2 : (2 : F) ≠ 0 := fun h => h6 (by linear_combination 3 * h)
  have h3 : (3 : F) ≠ 0 := fun h => h6 (by linear_combination 2 * h)
  simp only [cf, Expr.eval_mul, Expr.eval_add, Expr.eval_const, h]
  interval_cases e <;> simp [cc] <;> field_simp <;> norm_num

theorem df_eval (h6 : (6 : F) ≠ 0) {x : Expr F} {t : Table F} {row : ℤ} {e : ℕ} (he : e < 4)
    (h : x.eval t row = (e : F)) : (df x).eval t row = (dd e : F) := by
  have h2 : (2 : F) ≠ 0 := fun h => h6 (by linear_combination 3 * h)
  have h3 : (3 : F) ≠ 0 := fun h => h6 (by linear_combination 2 * h)
  simp only [df, Expr.eval_mul, Expr.eval_add, Expr.eval_const, h]
  interval_cases e <;> simp [dd] <;> field_simp <;> norm_num

/-- What the first gate says of one row, for digits `e`. -/
structure RowEqs (c : Cols) (t : Table F) (row : ℤ) (e : ℕ → ℕ) : Prop where
  dig : ∀ j : ℕ, j < 8 → t .witness (c.w ((7 + j : ℕ) : ℤ)) row = (e j : F)
  a : t .witness (c.w 4) row = 256 * t .witness (c.w 2) row + 128 * (cc (e 0) : F) + 64 * (cc (e 1) : F)
    + 32 * (cc (e 2) : F) + 16 * (cc (e 3) : F) + 8 * (cc (e 4) : F) + 4 * (cc (e 5) : F) + 2 * (cc (e 6) : F) + (cc (e 7) : F)
  b : t .witness (c.w 5) row = 256 * t .witness (c.w 3) row + 128 * (dd (e 0) : F) + 64 * (dd (e 1) : F)
    + 32 * (dd (e 2) : F) + 16 * (dd (e 3) : F) + 8 * (dd (e 4) : F) + 4 * (dd (e 5) : F) + 2 * (dd (e 6) : F) + (dd (e 7) : F)
  n : t .witness (c.w 1) row = 2 ^ 16 * t .witness (c.w 0) row + 2 ^ 14 * (e 0 : F) + 2 ^ 12 * (e 1 : F)
    + 2 ^ 10 * (e 2 : F) + 2 ^ 8 * (e 3 : F) + 2 ^ 6 * (e 4 : F) + 2 ^ 4 * (e 5 : F) + 2 ^ 2 * (e 6 : F) + (e 7 : F)

theorem gate1_row (h6 : (6 : F) ≠ 0) (c : Cols) (t : Table F) (row : ℤ) :
    (∀ x ∈ gate1 c, x.eval t row = 0) ↔ ∃ e : ℕ → ℕ, (∀ j, e j < 4) ∧ RowEqs c t row e := by
  constructor
  · intro h
    simp only [gate1, List.forall_mem_cons] at h
    obtain ⟨g0, g1, g2, g3, g4, g5, g6, g7, ga, gb, gn, -⟩ := h
    obtain ⟨e0, l0, q0⟩ := crumbC_eval g0
    obtain ⟨e1, l1, q1⟩ := crumbC_eval g1
    obtain ⟨e2, l2, q2⟩ := crumbC_eval g2
    obtain ⟨e3, l3, q3⟩ := crumbC_eval g3
    obtain ⟨e4, l4, q4⟩ := crumbC_eval g4
    obtain ⟨e5, l5, q5⟩ := crumbC_eval g5
    obtain ⟨e6, l6, q6⟩ := crumbC_eval g6
    obtain ⟨e7, l7, q7⟩ := crumbC_eval g7
    refine ⟨fun j => if j = 0 then e0 else if j = 1 then e1 else if j = 2 then e2 else if j = 3 then e3
      else if j = 4 then e4 else if j = 5 then e5 else if j = 6 then e6 else e7, ?_, ?_, ?_, ?_, ?_⟩
    · intro j
      dsimp only
      split_ifs <;> assumption
    · intro j hj
      simp only [Cols.eval_wv, add_zero] at q0 q1 q2 q3 q4 q5 q6 q7
      interval_cases j <;> simp <;> assumption
    · simp only [Expr.eval_sub, Expr.eval_add, Expr.eval_mul, Expr.eval_const, cf_eval h6 l0 q0, cf_eval h6 l1 q1,
        cf_eval h6 l2 q2, cf_eval h6 l3 q3, cf_eval h6 l4 q4, cf_eval h6 l5 q5, cf_eval h6 l6 q6, cf_eval h6 l7 q7,
        Cols.eval_wv, add_zero] at ga
      simp
      linear_combination ga
    · simp only [Expr.eval_sub, Expr.eval_add, Expr.eval_mul, Expr.eval_const, df_eval h6 l0 q0, df_eval h6 l1 q1,
        df_eval h6 l2 q2, df_eval h6 l3 q3, df_eval h6 l4 q4, df_eval h6 l5 q5, df_eval h6 l6 q6, df_eval h6 l7 q7,
        Cols.eval_wv, add_zero] at gb
      simp
      linear_combination gb
    · simp only [Expr.eval_sub, Expr.eval_add, Expr.eval_mul, Expr.eval_const, q0, q1, q2, q3, q4, q5, q6, q7] at gn
      simp only [Cols.eval_wv, add_zero] at gn
      simp
      linear_combination gn
  · rintro ⟨e, he, hd, ha, hb, hn⟩
    have q0 : (c.wv 7 : Expr F).eval t row = (e 0 : F) := by rw [Cols.eval_wv, add_zero]; exact hd 0 (by omega)
    have q1 : (c.wv 8 : Expr F).eval t row = (e 1 : F) := by rw [Cols.eval_wv, add_zero]; exact hd 1 (by omega)
    have q2 : (c.wv 9 : Expr F).eval t row = (e 2 : F) := by rw [Cols.eval_wv, add_zero]; exact hd 2 (by omega)
    have q3 : (c.wv 10 : Expr F).eval t row = (e 3 : F) := by rw [Cols.eval_wv, add_zero]; exact hd 3 (by omega)
    have q4 : (c.wv 11 : Expr F).eval t row = (e 4 : F) := by rw [Cols.eval_wv, add_zero]; exact hd 4 (by omega)
    have q5 : (c.wv 12 : Expr F).eval t row = (e 5 : F) := by rw [Cols.eval_wv, add_zero]; exact hd 5 (by omega)
    have q6 : (c.wv 13 : Expr F).eval t row = (e 6 : F) := by rw [Cols.eval_wv, add_zero]; exact hd 6 (by omega)
    have q7 : (c.wv 14 : Expr F).eval t row = (e 7 : F) := by rw [Cols.eval_wv, add_zero]; exact hd 7 (by omega)
    simp only [gate1, List.forall_mem_cons]
    refine ⟨crumbC_zero (he 0) q0, crumbC_zero (he 1) q1, crumbC_zero (he 2) q2, crumbC_zero (he 3) q3,
      crumbC_zero (he 4) q4, crumbC_zero (he 5) q5, crumbC_zero (he 6) q6, crumbC_zero (he 7) q7, ?_, ?_, ?_, by simp⟩
    · simp only [Expr.eval_sub, Expr.eval_add, Expr.eval_mul, Expr.eval_const, cf_eval h6 (he 0) q0, cf_eval h6 (he 1) q1,
        cf_eval h6 (he 2) q2, cf_eval h6 (he 3) q3, cf_eval h6 (he 4) q4, cf_eval h6 (he 5) q5, cf_eval h6 (he 6) q6,
        cf_eval h6 (he 7) q7, Cols.eval_wv, add_zero]
      linear_combination ha
    · simp only [Expr.eval_sub, Expr.eval_add, Expr.eval_mul, Expr.eval_const, df_eval h6 (he 0) q0, df_eval h6 (he 1) q1,
        df_eval h6 (he 2) q2, df_eval h6 (he 3) q3, df_eval h6 (he 4) q4, df_eval h6 (he 5) q5, df_eval h6 (he 6) q6,
        df_eval h6 (he 7) q7, Cols.eval_wv, add_zero]
      linear_combination hb
    · simp only [Expr.eval_sub, Expr.eval_add, Expr.eval_mul, Expr.eval_const, q0, q1, q2, q3, q4, q5, q6, q7]
      simp only [Cols.eval_wv, add_zero]
      linear_combination hn

/-- All of the circuit. -/
structure Eqs (endoR : F) (c : Cols) (scalar : Var) (srow : ℤ) (t : Table F) (e : ℕ → ℕ) : Prop where
  lt : ∀ k, e k < 4
  row : ∀ r : ℕ, r < 8 → RowEqs c t (srow + r) (fun j => e (8 * r + j))
  n : ∀ r : ℕ, r < 7 → t .witness (c.w 0) (srow + (r + 1)) = t .witness (c.w 1) (srow + r)
  a : ∀ r : ℕ, r < 7 → t .witness (c.w 2) (srow + (r + 1)) = t .witness (c.w 4) (srow + r)
  b : ∀ r : ℕ, r < 7 → t .witness (c.w 3) (srow + (r + 1)) = t .witness (c.w 5) (srow + r)
  inp : t .witness (c.w 1) (srow + 7) = scalar.value t
  out : t .witness (c.w 6) (srow + 7) = endoR * t .witness (c.w 4) (srow + 7) + t .witness (c.w 5) (srow + 7)

theorem circuit_unpack (h6 : (6 : F) ≠ 0) (endoR : F) (c : Cols) (scalar : Var) (srow : ℤ) (t : Table F) :
    Sat t (circuit endoR c scalar srow) ↔ ∃ e, Eqs endoR c scalar srow t e := by
  have hcopy : Sat t (copies c scalar srow : List (Op F)) ↔
      (∀ r : ℕ, r < 7 → t .witness (c.w 0) (srow + (r + 1)) = t .witness (c.w 1) (srow + r) ∧
        t .witness (c.w 2) (srow + (r + 1)) = t .witness (c.w 4) (srow + r) ∧
        t .witness (c.w 3) (srow + (r + 1)) = t .witness (c.w 5) (srow + r)) ∧
      t .witness (c.w 1) (srow + 7) = scalar.value t := by
    simp only [copies, sat_append, sat_cons, sat_nil, holds_copy, Cols.value_wa, and_true]
    refine and_congr_left fun _ => ?_
    simp only [Sat, List.mem_flatMap, List.mem_range, forall_exists_index, and_imp]
    constructor
    · intro h r hr
      refine ⟨?_, ?_, ?_⟩
      · simpa using h (.copy (c.wa 0 (srow + (r + 1))) (c.wa 1 (srow + r))) r hr (by simp)
      · simpa using h (.copy (c.wa 2 (srow + (r + 1))) (c.wa 4 (srow + r))) r hr (by simp)
      · simpa using h (.copy (c.wa 3 (srow + (r + 1))) (c.wa 5 (srow + r))) r hr (by simp)
    · intro h o r hr ho
      simp only [List.mem_cons, List.not_mem_nil, or_false] at ho
      rcases ho with rfl | rfl | rfl
      · simpa using (h r hr).1
      · simpa using (h r hr).2.1
      · simpa using (h r hr).2.2
  rw [circuit, sat_cons, sat_cons, hcopy, holds_gate, holds_gate]
  constructor
  · rintro ⟨h1, h2, h3, h4⟩
    have hrow : ∀ r : ℕ, ∃ e : ℕ → ℕ, (∀ j, e j < 4) ∧ (r < 8 → RowEqs c t (srow + r) e) := by
      intro r
      by_cases hr : r < 8
      · obtain ⟨e, he, hq⟩ := (gate1_row h6 c t (srow + r)).1 (h1 _ (mem_rowsFrom.2 ⟨r, hr, rfl⟩))
        exact ⟨e, he, fun _ => hq⟩
      · exact ⟨fun _ => 0, fun _ => by norm_num, fun h => absurd h hr⟩
    choose e he hq using hrow
    refine ⟨fun k => e (k / 8) (k % 8), fun k => he _ _, ?_, fun r hr => (h3 r hr).1, fun r hr => (h3 r hr).2.1,
      fun r hr => (h3 r hr).2.2, h4, ?_⟩
    · intro r hr
      obtain ⟨hd, ha, hb, hn⟩ := hq r hr
      have key : ∀ j, j < 8 → e ((8 * r + j) / 8) ((8 * r + j) % 8) = e r j := by
        intro j hj
        congr 1 <;> omega
      refine ⟨fun j hj => ?_, ?_, ?_, ?_⟩
      · rw [key j hj]; exact hd j hj
      · rw [key 0 (by omega), key 1 (by omega), key 2 (by omega), key 3 (by omega), key 4 (by omega), key 5 (by omega),
          key 6 (by omega), key 7 (by omega)]
        exact ha
      · rw [key 0 (by omega), key 1 (by omega), key 2 (by omega), key 3 (by omega), key 4 (by omega), key 5 (by omega),
          key 6 (by omega), key 7 (by omega)]
        exact hb
      · rw [key 0 (by omega), key 1 (by omega), key 2 (by omega), key 3 (by omega), key 4 (by omega), key 5 (by omega),
          key 6 (by omega), key 7 (by omega)]
        exact hn
    · have := h2 (srow + 7) (by simp) _ (List.mem_singleton.2 rfl)
      simp only [Expr.eval_sub, Expr.eval_add, Expr.eval_mul, Expr.eval_const, Cols.eval_wv, add_zero] at this
      linear_combination this
  · rintro ⟨e, hlt, hrow, hn, ha, hb, hinp, hout⟩
    refine ⟨?_, ?_, fun r hr => ⟨hn r hr, ha r hr, hb r hr⟩, hinp⟩
    · intro r hr
      obtain ⟨i, hi, rfl⟩ := mem_rowsFrom.1 hr
      exact (gate1_row h6 c t _).2 ⟨_, fun j => hlt _, hrow i hi⟩
    · intro r hr x hx
      rw [List.mem_singleton] at hr
      subst hr
      simp only [gate2, List.mem_singleton] at hx
      subst hx
      simp only [Expr.eval_sub, Expr.eval_add, Expr.eval_mul, Expr.eval_const, Cols.eval_wv, add_zero]
      linear_combination hout

/-- Exactly what a satisfying table says: the three accumulators start from whatever the first row holds. -/
theorem endo_accepts (h6 : (6 : F) ≠ 0) (endoR : F) (c : Cols) (scalar : Var) (srow : ℤ) (t : Table F)
    (h : Sat t (circuit endoR c scalar srow)) :
    ∃ x : ℕ, x < 2 ^ 128 ∧ scalar.value t = 2 ^ 128 * t .witness (c.w 0) srow + (x : F) ∧
      (result c srow).value t = endoR * (2 ^ 64 * t .witness (c.w 2) srow + (sumA cc 64 x : F))
        + (2 ^ 64 * t .witness (c.w 3) srow + (sumA dd 64 x : F)) := by
  obtain ⟨e, hlt, hrow, hn, ha, hb, hinp, hout⟩ := (circuit_unpack h6 endoR c scalar srow t).1 h
  have key : ∀ r : ℕ, r < 8 →
      (t .witness (c.w 4) (srow + r) = 2 ^ (8 * r + 8) * t .witness (c.w 2) srow + (sumA cc (8 * r + 8) (H e (8 * r + 8)) : F)) ∧
      (t .witness (c.w 5) (srow + r) = 2 ^ (8 * r + 8) * t .witness (c.w 3) srow + (sumA dd (8 * r + 8) (H e (8 * r + 8)) : F)) ∧
      (t .witness (c.w 1) (srow + r) = 2 ^ (16 * r + 16) * t .witness (c.w 0) srow + (H e (8 * r + 8) : F)) := by
    have step : ∀ r : ℕ, r < 8 → ∀ A B N : F,
        t .witness (c.w 2) (srow + r) = A + (sumA cc (8 * r) (H e (8 * r)) : F) →
        t .witness (c.w 3) (srow + r) = B + (sumA dd (8 * r) (H e (8 * r)) : F) →
        t .witness (c.w 0) (srow + r) = N + (H e (8 * r) : F) →
        t .witness (c.w 4) (srow + r) = 256 * A + (sumA cc (8 * r + 8) (H e (8 * r + 8)) : F) ∧
        t .witness (c.w 5) (srow + r) = 256 * B + (sumA dd (8 * r + 8) (H e (8 * r + 8)) : F) ∧
        t .witness (c.w 1) (srow + r) = 2 ^ 16 * N + (H e (8 * r + 8) : F) := by
      intro r hr A B N hA hB hN
      obtain ⟨_, qa, qb, qn⟩ := hrow r hr
      have hs : ∀ (f : ℕ → ℤ) (k : ℕ), sumA f (k + 1) (H e (k + 1)) = 2 * sumA f k (H e k) + f (e k) :=
        fun f k => sumA_succ f k (H e k) (e k) (hlt k)
      refine ⟨?_, ?_, ?_⟩
      · rw [qa, hA, hs cc (8 * r + 7), hs cc (8 * r + 6), hs cc (8 * r + 5), hs cc (8 * r + 4), hs cc (8 * r + 3),
          hs cc (8 * r + 2), hs cc (8 * r + 1), hs cc (8 * r)]
        push_cast
        simp only [add_zero]
        ring
      · rw [qb, hB, hs dd (8 * r + 7), hs dd (8 * r + 6), hs dd (8 * r + 5), hs dd (8 * r + 4), hs dd (8 * r + 3),
          hs dd (8 * r + 2), hs dd (8 * r + 1), hs dd (8 * r)]
        push_cast
        simp only [add_zero]
        ring
      · rw [qn, hN]
        simp only [H]
        push_cast
        simp only [add_zero]
        ring
    intro r
    induction r with
    | zero =>
      intro _
      have := step 0 (by omega) (t .witness (c.w 2) srow) (t .witness (c.w 3) srow) (t .witness (c.w 0) srow)
        (by simp [sumA_zero]) (by simp [sumA_zero]) (by simp [H])
      obtain ⟨p1, p2, p3⟩ := this
      refine ⟨?_, ?_, ?_⟩
      · rw [p1]; norm_num
      · rw [p2]; norm_num
      · rw [p3]
    | succ r ih =>
      intro hr
      obtain ⟨i1, i2, i3⟩ := ih (by omega)
      have n1 := hn r (by omega)
      have a1 := ha r (by omega)
      have b1 := hb r (by omega)
      obtain ⟨p1, p2, p3⟩ := step (r + 1) hr (2 ^ (8 * r + 8) * t .witness (c.w 2) srow)
        (2 ^ (8 * r + 8) * t .witness (c.w 3) srow) (2 ^ (16 * r + 16) * t .witness (c.w 0) srow)
        (by push_cast; rw [a1, i1]; rfl) (by push_cast; rw [b1, i2]; rfl) (by push_cast; rw [n1, i3]; rfl)
      refine ⟨?_, ?_, ?_⟩
      · rw [p1]; congr 1; ring
      · rw [p2]; congr 1; ring
      · rw [p3]; congr 1; ring
  obtain ⟨k1, k2, k3⟩ := key 7 (by omega)
  push_cast at k1 k2 k3
  refine ⟨H e 64, ?_, ?_, ?_⟩
  · have := H_lt e hlt 64
    norm_num at this ⊢
    exact this
  · rw [← hinp, k3]
  · rw [result, Cols.value_wa, hout, k1, k2]

/-- **C68**, what holds of the circuit: if the first row starts from the values the code writes there (which no
constraint enforces), the output is the endomorphism scalar of the input. -/
theorem endo_sound_partial {p : ℕ} [Fact p.Prime] (hp : 2 ^ 128 ≤ p) (endoR : ZMod p) (c : Cols) (scalar : Var)
    (srow : ℤ) (t : Table (ZMod p)) (h : Sat t (circuit endoR c scalar srow))
    (hn : t .witness (c.w 0) srow = 0) (ha : t .witness (c.w 2) srow = 2) (hb : t .witness (c.w 3) srow = 2) :
    (scalar.value t).val < 2 ^ 128 ∧ (result c srow).value t = spec endoR (scalar.value t).val := by
  have h6 : (6 : ZMod p) ≠ 0 := by
    intro h
    have h' : ((6 : ℕ) : ZMod p) = 0 := by exact_mod_cast h
    rw [ZMod.natCast_eq_zero_iff] at h'
    have := Nat.le_of_dvd (by norm_num) h'
    norm_num at hp; omega
  obtain ⟨x, hx, hs, ho⟩ := endo_accepts h6 endoR c scalar srow t h
  rw [hn, mul_zero, zero_add] at hs
  have hv : (scalar.value t).val = x := by rw [hs, ZMod.val_natCast_of_lt (by omega)]
  refine ⟨by omega, ?_⟩
  rw [hv, ho, ha, hb, spec]
  push_cast
  ring

/-- **C68** refuted: the accumulators of the first row are free, so every pair of input and output is accepted. -/
theorem endo_unsound (h6 : (6 : F) ≠ 0) (endoR : F) (c : Cols) (hc : c.OK 15) (scalar : Var) (srow : ℤ)
    (hs : scalar.Outside srow 8) (t : Table F) (y : F) :
    ∃ t', Frame c srow 8 t t' ∧ Sat t' (circuit endoR c scalar srow) ∧ scalar.value t' = scalar.value t ∧
      (result c srow).value t' = y := by
  have h2 : (2 : F) ≠ 0 := fun h => h6 (by linear_combination 3 * h)
  set s := scalar.value t with hsd
  -- all digits 0: n is multiplied by 2^16, a by 2^8, b becomes 2^8 b - 255
  set n0 : F := s / 2 ^ 128 with hn0
  set b0 : F := (y + (2 ^ 64 - 1)) / 2 ^ 64 with hb0
  have hn0' : n0 * 2 ^ 128 = s := by rw [hn0, div_mul_cancel₀ _ (pow_ne_zero _ h2)]
  have hb0' : b0 * 2 ^ 64 = y + (2 ^ 64 - 1) := by rw [hb0, div_mul_cancel₀ _ (pow_ne_zero _ h2)]
  let N : ℕ → F := fun r => n0 * 2 ^ (16 * r)
  let B : ℕ → F := fun r => b0 * 2 ^ (8 * r) - (2 ^ (8 * r) - 1)
  let g : ℕ → ℕ → F := fun r j => if j = 0 then N r else if j = 1 then N (r + 1) else if j = 3 then B r
    else if j = 5 then B (r + 1) else if j = 6 then y else 0
  obtain ⟨T, hfr, hT⟩ := paint hc srow 8 g t
  have g0 : ∀ r : ℕ, r < 8 → T .witness (c.w 0) (srow + r) = N r := fun r hr => hT r 0 hr (by omega)
  have g1 : ∀ r : ℕ, r < 8 → T .witness (c.w 1) (srow + r) = N (r + 1) := fun r hr => hT r 1 hr (by omega)
  have g2 : ∀ r : ℕ, r < 8 → T .witness (c.w 2) (srow + r) = 0 := fun r hr => hT r 2 hr (by omega)
  have g3 : ∀ r : ℕ, r < 8 → T .witness (c.w 3) (srow + r) = B r := fun r hr => hT r 3 hr (by omega)
  have g4 : ∀ r : ℕ, r < 8 → T .witness (c.w 4) (srow + r) = 0 := fun r hr => hT r 4 hr (by omega)
  have g5 : ∀ r : ℕ, r < 8 → T .witness (c.w 5) (srow + r) = B (r + 1) := fun r hr => hT r 5 hr (by omega)
  have g6 : ∀ r : ℕ, r < 8 → T .witness (c.w 6) (srow + r) = y := fun r hr => hT r 6 hr (by omega)
  have gd : ∀ r j : ℕ, r < 8 → j < 8 → T .witness (c.w ((7 + j : ℕ) : ℤ)) (srow + r) = 0 := by
    intro r j hr hj
    rw [hT r (7 + j) hr (by omega)]
    simp only [g]
    rw [if_neg (by omega), if_neg (by omega), if_neg (by omega), if_neg (by omega), if_neg (by omega)]
  have hB8 : B 8 = y := by
    simp only [B]
    norm_num at hb0' ⊢
    linear_combination hb0'
  refine ⟨T, hfr, (circuit_unpack h6 endoR c scalar srow T).2 ⟨fun _ => 0, ?_⟩, hfr.outside hs, ?_⟩
  · refine ⟨fun _ => by omega, ?_, ?_, ?_, ?_, ?_, ?_⟩
    · intro r hr
      refine ⟨fun j hj => by rw [gd r j hr hj]; simp, ?_, ?_, ?_⟩
      · rw [g4 r hr, g2 r hr]; simp [cc]
      · rw [g5 r hr, g3 r hr]
        simp only [B, dd]
        push_cast
        ring
      · rw [g1 r hr, g0 r hr]
        simp only [N]
        push_cast
        ring
    · intro r hr
      have := g0 (r + 1) (by omega)
      push_cast at this
      rw [this, g1 r (by omega)]
    · intro r hr
      have := g2 (r + 1) (by omega)
      push_cast at this
      rw [this, g4 r (by omega)]
    · intro r hr
      have := g3 (r + 1) (by omega)
      push_cast at this
      rw [this, g5 r (by omega)]
    · have := g1 7 (by omega)
      push_cast at this
      rw [this, hfr.outside hs, ← hsd]
      simp only [N]
      norm_num at hn0' ⊢
      exact hn0'
    · have e4 := g4 7 (by omega)
      have e5 := g5 7 (by omega)
      have e6 := g6 7 (by omega)
      push_cast at e4 e5 e6
      rw [e4, e5, e6, hB8]; ring
  · have e6 := g6 7 (by omega)
    push_cast at e6
    exact e6

end sound

section complete
variable {p : ℕ} [Fact p.Prime]

theorem bit_lt (size x i : ℕ) : bit size x i < 2 := Bool.toNat_lt _

theorem crumb_lt (size x k : ℕ) : crumb size x k < 4 := by
  have := bit_lt size x (2 * k + 1)
  have := bit_lt size x (2 * k)
  unfold crumb; omega

theorem bit_eq (size x i : ℕ) : bit size x i = x / 2 ^ (size - 1 - i) % 2 := by
  rw [bit, Nat.testBit_eq_decide_div_mod_eq]
  have := Nat.mod_lt (x / 2 ^ (size - 1 - i)) (show 0 < 2 by omega)
  by_cases h : x / 2 ^ (size - 1 - i) % 2 = 1
  · rw [h]; simp
  · rw [show x / 2 ^ (size - 1 - i) % 2 = 0 by omega]; simp

/-- The crumbs are the base-4 digits. -/
theorem crumb_eq {m x k : ℕ} (hk : k < m) : crumb (2 * m) x k = x / 4 ^ (m - 1 - k) % 4 := by
  rw [crumb, bit_eq, bit_eq, show 2 * m - 1 - (2 * k + 1) = 2 * (m - 1 - k) by omega,
    show 2 * m - 1 - 2 * k = 2 * (m - 1 - k) + 1 by omega, pow_succ, ← Nat.div_div_eq_div_mul, pow_mul]
  norm_num
  omega

theorem H_crumb {m x k : ℕ} (hx : x < 4 ^ m) (hk : k ≤ m) : H (crumb (2 * m) x) k = x / 4 ^ (m - k) := by
  induction k with
  | zero => rw [H, Nat.sub_zero, Nat.div_eq_of_lt hx]
  | succ k ih =>
    rw [H, ih (by omega), crumb_eq (by omega), show m - k = m - (k + 1) + 1 by omega, pow_succ, ← Nat.div_div_eq_div_mul,
      show m - 1 - k = m - (k + 1) by omega]
    omega

theorem sgn_cc (b0 b1 : ℕ) (h0 : b0 < 2) (h1 : b1 < 2) (a : ZMod p) :
    (if b1 = 0 then a else a + (if b0 = 1 then 1 else -1)) = a + (cc (b0 + 2 * b1) : ZMod p) := by
  interval_cases b0 <;> interval_cases b1 <;> simp [cc]

theorem sgn_dd (b0 b1 : ℕ) (h0 : b0 < 2) (h1 : b1 < 2) (a : ZMod p) :
    (if b1 = 0 then a + (if b0 = 1 then 1 else -1) else a) = a + (dd (b0 + 2 * b1) : ZMod p) := by
  interval_cases b0 <;> interval_cases b1 <;> simp [dd]

theorem st_succ (size x k : ℕ) :
    (st size x (k + 1) : St p).a = 2 * (st size x k : St p).a + (cc (crumb size x k) : ZMod p) ∧
    (st size x (k + 1) : St p).b = 2 * (st size x k : St p).b + (dd (crumb size x k) : ZMod p) ∧
    (st size x (k + 1) : St p).n = 4 * (st size x k : St p).n + (crumb size x k : ZMod p) := by
  refine ⟨?_, ?_, ?_⟩
  · show (step _ _ _ _).a = _
    simp only [step]
    rw [sgn_cc _ _ (bit_lt _ _ _) (bit_lt _ _ _), crumb]; ring
  · show (step _ _ _ _).b = _
    simp only [step]
    rw [sgn_dd _ _ (bit_lt _ _ _) (bit_lt _ _ _), crumb]; ring
  · show (step _ _ _ _).n = _
    simp only [step]; ring

theorem st_eq (size x k : ℕ) :
    (st size x k : St p).a = ((2 ^ (k + 1) + sumA cc k (H (crumb size x) k) : ℤ) : ZMod p) ∧
    (st size x k : St p).b = ((2 ^ (k + 1) + sumA dd k (H (crumb size x) k) : ℤ) : ZMod p) ∧
    (st size x k : St p).n = (H (crumb size x) k : ZMod p) := by
  induction k with
  | zero => simp [st, sumA_zero, H]
  | succ k ih =>
    obtain ⟨i1, i2, i3⟩ := ih
    obtain ⟨s1, s2, s3⟩ := st_succ (p := p) size x k
    rw [s1, s2, s3, i1, i2, i3]
    simp only [H]
    rw [sumA_succ cc k _ _ (crumb_lt size x k), sumA_succ dd k _ _ (crumb_lt size x k)]
    refine ⟨?_, ?_, ?_⟩ <;> push_cast <;> ring

/-- The cells the assigner fills. -/
def cell (endoR : ZMod p) (size x r j : ℕ) : ZMod p :=
  if j = 0 then (st size x (8 * r)).n else if j = 1 then (st size x (8 * r + 8)).n
  else if j = 2 then (st size x (8 * r)).a else if j = 3 then (st size x (8 * r)).b
  else if j = 4 then (st size x (8 * r + 8)).a else if j = 5 then (st size x (8 * r + 8)).b
  else if j = 6 then (st size x (size / 2)).a * endoR + (st size x (size / 2)).b
  else (crumb size x (8 * r + (j - 7)) : ZMod p)

/-- The list of writes. -/
def ws (endoR : ZMod p) (size : ℕ) (c : Cols) (srow : ℤ) (x : ℕ) : List (Write (ZMod p)) :=
  ((List.range (size / 16)).flatMap fun r => rowWrites c srow size x r) ++
    [⟨.witness, c.w 6, srow + ((size / 16 : ℕ) : ℤ) - 1,
      (st size x (size / 2)).a * endoR + (st size x (size / 2)).b⟩]

theorem assign_eq (endoR : ZMod p) (size : ℕ) (c : Cols) (scalar : Var) (srow : ℤ) (t : Table (ZMod p)) :
    assign endoR size c scalar srow t = writeAll (ws endoR size c srow (scalar.value t).val) t := rfl

theorem mem_row {endoR : ZMod p} {c : Cols} {srow : ℤ} {size x r : ℕ} {w : Write (ZMod p)} :
    w ∈ rowWrites c srow size x r ↔ ∃ j : ℕ, j < 15 ∧ j ≠ 6 ∧ w = ⟨.witness, c.w (j : ℤ), srow + r, cell endoR size x r j⟩ := by
  constructor
  · intro h
    simp only [rowWrites, List.mem_append, List.mem_cons, List.not_mem_nil, or_false, List.mem_map, List.mem_range] at h
    rcases h with ((rfl | rfl | rfl) | ⟨j, hj, rfl⟩) | (rfl | rfl | rfl)
    · exact ⟨0, by omega, by omega, rfl⟩
    · exact ⟨2, by omega, by omega, rfl⟩
    · exact ⟨3, by omega, by omega, rfl⟩
    · refine ⟨7 + j, by omega, by omega, ?_⟩
      congr 1
      unfold cell
      rw [if_neg (by omega), if_neg (by omega), if_neg (by omega), if_neg (by omega), if_neg (by omega),
        if_neg (by omega), if_neg (by omega), show 7 + j - 7 = j by omega]
    · exact ⟨1, by omega, by omega, rfl⟩
    · exact ⟨4, by omega, by omega, rfl⟩
    · exact ⟨5, by omega, by omega, rfl⟩
  · rintro ⟨j, hj, hj6, rfl⟩
    simp only [rowWrites, List.mem_append, List.mem_cons, List.not_mem_nil, or_false, List.mem_map, List.mem_range]
    by_cases h : j < 7
    · interval_cases j
      · exact Or.inl (Or.inl (Or.inl rfl))
      · exact Or.inr (Or.inl rfl)
      · exact Or.inl (Or.inl (Or.inr (Or.inl rfl)))
      · exact Or.inl (Or.inl (Or.inr (Or.inr rfl)))
      · exact Or.inr (Or.inr (Or.inl rfl))
      · exact Or.inr (Or.inr (Or.inr rfl))
      · omega
    · refine Or.inl (Or.inr ⟨j - 7, by omega, ?_⟩)
      rw [show 7 + (j - 7) = j by omega]
      congr 1
      unfold cell
      rw [if_neg (by omega), if_neg (by omega), if_neg (by omega), if_neg (by omega), if_neg (by omega),
        if_neg (by omega), if_neg (by omega)]

theorem ws_grid (endoR : ZMod p) {m : ℕ} (hm : 0 < m) (c : Cols) (srow : ℤ) (x : ℕ) :
    GridWrites c srow 15 m (cell endoR (16 * m) x) (ws endoR (16 * m) c srow x) := by
  have hd : 16 * m / 16 = m := by omega
  intro w hw
  simp only [ws, hd, List.mem_append, List.mem_flatMap, List.mem_range, List.mem_singleton] at hw
  rcases hw with ⟨r, hr, hw⟩ | rfl
  · obtain ⟨j, hj, _, rfl⟩ := (mem_row (endoR := endoR)).1 hw
    exact ⟨r, hr, j, hj, rfl⟩
  · refine ⟨m - 1, by omega, 6, by omega, ?_⟩
    congr 1
    rw [Nat.cast_sub (by omega)]; push_cast; ring

theorem ws_read (endoR : ZMod p) {m : ℕ} (hm : 0 < m) {c : Cols} (hc : c.OK 15) (srow : ℤ) (x : ℕ)
    (t : Table (ZMod p)) {r j : ℕ} (hr : r < m) (hj : j < 15) (h6 : j ≠ 6) :
    writeAll (ws endoR (16 * m) c srow x) t .witness (c.w (j : ℤ)) (srow + r) = cell endoR (16 * m) x r j := by
  refine (ws_grid endoR hm c srow x).read hc t hj ?_
  simp only [ws, List.mem_append, List.mem_flatMap, List.mem_range, List.mem_singleton]
  exact Or.inl ⟨r, by omega, (mem_row (endoR := endoR)).2 ⟨j, hj, h6, rfl⟩⟩

theorem ws_read6 (endoR : ZMod p) {m : ℕ} (hm : 0 < m) {c : Cols} (hc : c.OK 15) (srow : ℤ) (x : ℕ)
    (t : Table (ZMod p)) :
    writeAll (ws endoR (16 * m) c srow x) t .witness (c.w 6) (srow + ((m - 1 : ℕ) : ℤ)) =
      cell endoR (16 * m) x (m - 1) 6 := by
  refine (ws_grid endoR hm c srow x).read hc t (j := 6) (by omega) ?_
  simp only [ws, List.mem_append, List.mem_flatMap, List.mem_range, List.mem_singleton]
  refine Or.inr ?_
  congr 1
  rw [show 16 * m / 16 = m by omega, Nat.cast_sub (by omega)]; push_cast; ring

/-- **C68**, completeness: for a scalar size of 128 bits and a challenge that fits, the generated table is accepted and
holds the endomorphism scalar. -/
theorem endo_complete (hp : 3 < p) (endoR : ZMod p) (c : Cols) (hc : c.OK 15) (scalar : Var) (srow : ℤ)
    (hs : scalar.Outside srow 8) (t : Table (ZMod p)) (hx : (scalar.value t).val < 2 ^ 128) :
    let t' := assign endoR 128 c scalar srow (writeConsts (circuit endoR c scalar srow) t)
    Sat t' (circuit endoR c scalar srow) ∧ Frame c srow 8 t t' ∧
      (result c srow).value t' = spec endoR (scalar.value t).val := by
  have hw : writeConsts (circuit endoR c scalar srow) t = t := by
    apply writeConsts_noConst
    intro o ho col row v
    simp only [circuit, copies, List.mem_cons, List.mem_append, List.mem_flatMap, List.not_mem_nil, or_false] at ho
    rcases ho with rfl | rfl | ⟨_, _, rfl | rfl | rfl⟩ | rfl <;> simp
  have h6 : (6 : ZMod p) ≠ 0 := by
    intro h
    have h' : ((6 : ℕ) : ZMod p) = 0 := by exact_mod_cast h
    rw [ZMod.natCast_eq_zero_iff] at h'
    have hpr : p.Prime := Fact.out
    rcases (hpr.dvd_mul (m := 2) (n := 3)).1 (by simpa using h') with h | h
    · have := Nat.le_of_dvd (by norm_num) h; omega
    · have := Nat.le_of_dvd (by norm_num) h; omega
  intro t'
  have ht' : t' = writeAll (ws endoR (16 * 8) c srow (scalar.value t).val) t := by
    show assign _ _ _ _ _ _ = _
    rw [hw, assign_eq]
  set x := (scalar.value t).val with hxd
  have hfr : Frame c srow 8 t t' := by
    rw [ht']; exact ((ws_grid endoR (by omega) c srow x).own hc).frame t
  have rd : ∀ r j : ℕ, r < 8 → j < 15 → j ≠ 6 →
      t' .witness (c.w (j : ℤ)) (srow + r) = cell endoR 128 x r j := by
    intro r j hr hj h6
    rw [ht']; exact ws_read endoR (by omega) hc srow x t hr hj h6
  have rd6 : t' .witness (c.w 6) (srow + 7) = (st 128 x 64).a * endoR + (st 128 x 64).b := by
    rw [ht']
    exact ws_read6 endoR (m := 8) (by omega) hc srow x t
  have hH : H (crumb 128 x) 64 = x := by
    have := H_crumb (m := 64) (x := x) (k := 64) (by norm_num at hx ⊢; exact hx) le_rfl
    rw [this]; simp
  obtain ⟨s1, s2, s3⟩ := st_eq (p := p) 128 x 64
  rw [hH] at s1 s2 s3
  refine ⟨(circuit_unpack h6 endoR c scalar srow t').2 ⟨crumb 128 x, crumb_lt 128 x, ?_, ?_, ?_, ?_, ?_, ?_⟩, hfr, ?_⟩
  · intro r hr
    have r0 := rd r 0 hr (by omega) (by omega)
    have r1 := rd r 1 hr (by omega) (by omega)
    have r2 := rd r 2 hr (by omega) (by omega)
    have r3 := rd r 3 hr (by omega) (by omega)
    have r4 := rd r 4 hr (by omega) (by omega)
    have r5 := rd r 5 hr (by omega) (by omega)
    simp only [cell, Nat.cast_zero, Nat.cast_one, Nat.cast_ofNat] at r0 r1 r2 r3 r4 r5
    norm_num at r0 r1 r2 r3 r4 r5
    have u := fun k => st_succ (p := p) 128 x k
    refine ⟨?_, ?_, ?_, ?_⟩
    · intro j hj
      rw [rd r (7 + j) hr (by omega) (by omega)]
      unfold cell
      rw [if_neg (by omega), if_neg (by omega), if_neg (by omega), if_neg (by omega), if_neg (by omega),
        if_neg (by omega), if_neg (by omega), show 7 + j - 7 = j by omega]
    · rw [r4, r2, (u (8 * r + 7)).1, (u (8 * r + 6)).1, (u (8 * r + 5)).1, (u (8 * r + 4)).1, (u (8 * r + 3)).1,
        (u (8 * r + 2)).1, (u (8 * r + 1)).1, (u (8 * r)).1]
      simp only [add_zero]
      ring
    · rw [r5, r3, (u (8 * r + 7)).2.1, (u (8 * r + 6)).2.1, (u (8 * r + 5)).2.1, (u (8 * r + 4)).2.1, (u (8 * r + 3)).2.1,
        (u (8 * r + 2)).2.1, (u (8 * r + 1)).2.1, (u (8 * r)).2.1]
      simp only [add_zero]
      ring
    · rw [r1, r0, (u (8 * r + 7)).2.2, (u (8 * r + 6)).2.2, (u (8 * r + 5)).2.2, (u (8 * r + 4)).2.2, (u (8 * r + 3)).2.2,
        (u (8 * r + 2)).2.2, (u (8 * r + 1)).2.2, (u (8 * r)).2.2]
      simp only [add_zero]
      ring
  · intro r hr
    have q := rd (r + 1) 0 (by omega) (by omega) (by omega)
    have q' := rd r 1 (by omega) (by omega) (by omega)
    push_cast at q q'
    rw [q, q']; rfl
  · intro r hr
    have q := rd (r + 1) 2 (by omega) (by omega) (by omega)
    have q' := rd r 4 (by omega) (by omega) (by omega)
    push_cast at q q'
    rw [q, q']; rfl
  · intro r hr
    have q := rd (r + 1) 3 (by omega) (by omega) (by omega)
    have q' := rd r 5 (by omega) (by omega) (by omega)
    push_cast at q q'
    rw [q, q']; rfl
  · have q := rd 7 1 (by omega) (by omega) (by omega)
    push_cast at q
    rw [q, hfr.outside hs]
    show (st 128 x 64).n = _
    rw [s3, hxd, ZMod.natCast_zmod_val]
  · have q := rd 7 4 (by omega) (by omega) (by omega)
    have q' := rd 7 5 (by omega) (by omega) (by omega)
    push_cast at q q'
    rw [q, q', rd6]
    show _ = endoR * (st 128 x 64).a + (st 128 x 64).b
    ring
  · show t' .witness (c.w 6) (srow + 7) = _
    rw [rd6, s1, s2, spec]; ring

theorem sumA_bound (f : ℕ → ℤ) (hf : ∀ d, -1 ≤ f d ∧ f d ≤ 1) (m x : ℕ) : -(2 ^ m - 1) ≤ sumA f m x ∧ sumA f m x ≤ 2 ^ m - 1 := by
  induction m with
  | zero => simp [sumA]
  | succ m ih =>
    have e : sumA f (m + 1) x = sumA f m x + 2 ^ m * f (x / 4 ^ m % 4) := by
      unfold sumA; rw [Finset.sum_range_succ]
    have h2 : (0 : ℤ) < 2 ^ m := by positivity
    obtain ⟨l, u⟩ := hf (x / 4 ^ m % 4)
    have hp : (2 : ℤ) ^ (m + 1) = 2 * 2 ^ m := by ring
    have h3 : -(2 ^ m) ≤ 2 ^ m * f (x / 4 ^ m % 4) := by nlinarith
    have h4 : 2 ^ m * f (x / 4 ^ m % 4) ≤ 2 ^ m := by nlinarith
    rw [e, hp]
    omega

/-- **C68**: for scalar sizes below 128 the code is not complete. It fills fewer rows than the eight the circuit
constrains, and on a table whose next row is empty the result is rejected. -/
theorem endo_short_rejected {m : ℕ} (hm0 : 0 < m) (hm : m < 8) (hp : 2 ^ 60 ≤ p) (endoR : ZMod p) (c : Cols)
    (hc : c.OK 15) (scalar : Var) (srow : ℤ) (t : Table (ZMod p)) (ht : t .witness (c.w 2) (srow + m) = 0) :
    ¬ Sat (assign endoR (16 * m) c scalar srow (writeConsts (circuit endoR c scalar srow) t))
      (circuit endoR c scalar srow) := by
  have hw : writeConsts (circuit endoR c scalar srow) t = t := by
    apply writeConsts_noConst
    intro o ho col row v
    simp only [circuit, copies, List.mem_cons, List.mem_append, List.mem_flatMap, List.not_mem_nil, or_false] at ho
    rcases ho with rfl | rfl | ⟨_, _, rfl | rfl | rfl⟩ | rfl <;> simp
  rw [hw, assign_eq]
  intro h
  set x := (scalar.value t).val
  have hfr : Frame c srow m t (writeAll (ws endoR (16 * m) c srow x) t) :=
    ((ws_grid endoR hm0 c srow x).own hc).frame t
  have hcp : (Op.copy (c.wa 2 (srow + (((m - 1 : ℕ) : ℤ) + 1))) (c.wa 4 (srow + ((m - 1 : ℕ) : ℤ))) : Op (ZMod p)).Holds
      (writeAll (ws endoR (16 * m) c srow x) t) := by
    apply h
    simp only [circuit, copies, List.mem_cons, List.mem_append, List.mem_flatMap, List.mem_range]
    exact Or.inr (Or.inr (Or.inl ⟨m - 1, by omega, by simp⟩))
  rw [holds_copy, Cols.value_wa, Cols.value_wa] at hcp
  have e4 := ws_read endoR hm0 hc srow x t (r := m - 1) (j := 4) (by omega) (by omega) (by omega)
  push_cast at e4
  rw [e4, show ((m - 1 : ℕ) : ℤ) + 1 = m by omega, hfr.row (by omega), ht] at hcp
  have e5 : cell endoR (16 * m) x (m - 1) 4 = (st (16 * m) x (8 * m)).a := by
    show (st (16 * m) x (8 * (m - 1) + 8)).a = _
    rw [show 8 * (m - 1) + 8 = 8 * m by omega]
  rw [e5, (st_eq (16 * m) x (8 * m)).1] at hcp
  obtain ⟨b1, b2⟩ := sumA_bound cc (fun d => by
    unfold cc; split <;> simp) (8 * m) (H (crumb (16 * m) x) (8 * m))
  set S := sumA cc (8 * m) (H (crumb (16 * m) x) (8 * m))
  have hdv := (ZMod.intCast_zmod_eq_zero_iff_dvd _ p).1 hcp.symm
  have hpow : (2 : ℤ) ^ (8 * m) ≤ 2 ^ 56 := by
    apply pow_le_pow_right₀ (by norm_num) (by omega)
  have h0 : (0 : ℤ) < 2 ^ (8 * m) := by positivity
  have hs : (2 : ℤ) ^ (8 * m + 1) = 2 * 2 ^ (8 * m) := by ring
  rw [hs] at hdv
  have hle := Int.le_of_dvd (by omega) hdv
  have hp' : (2 : ℤ) ^ 60 ≤ p := by exact_mod_cast hp
  norm_num at hp' hpow
  omega

end complete

/-! ### Instances -/

section examples

/-- Fifteen columns. -/
def exCols : Cols := ⟨List.range 15, [], []⟩

theorem exCols_ok : exCols.OK 15 := ⟨List.nodup_range, by simp [exCols]⟩

instance : Fact (Nat.Prime 28948022309329048855892746252171976963363056481941560715954676764349967630337) :=
  ⟨pallas_prime⟩

/-- Over the Pallas base field: the hypotheses of the completeness theorem and of the soundness theorem are met by the
table generated for the challenge 12345. -/
example (endoR : ZMod 28948022309329048855892746252171976963363056481941560715954676764349967630337) :
    ∃ t : Table (ZMod 28948022309329048855892746252171976963363056481941560715954676764349967630337),
      Sat t (circuit endoR exCols ⟨20, 0, false, .witness⟩ 3) ∧ t .witness (exCols.w 0) 3 = 0 ∧
      t .witness (exCols.w 2) 3 = 2 ∧ t .witness (exCols.w 3) 3 = 2 ∧
      (result exCols 3).value t = spec endoR 12345 := by
  have hv : ((⟨20, 0, false, .witness⟩ : Var).value (fun _ _ _ =>
      (12345 : ZMod 28948022309329048855892746252171976963363056481941560715954676764349967630337))).val = 12345 := by
    show (12345 : ZMod 28948022309329048855892746252171976963363056481941560715954676764349967630337).val = 12345
    exact ZMod.val_natCast_of_lt (a := 12345) (by norm_num)
  have hc := endo_complete (by norm_num) endoR exCols exCols_ok ⟨20, 0, false, .witness⟩ 3 (by intro _; left; norm_num)
    (fun _ _ _ => 12345) (by rw [hv]; norm_num)
  rw [hv] at hc
  obtain ⟨h1, h2, h3⟩ := hc
  refine ⟨_, h1, ?_, ?_, ?_, h3⟩
  · rw [writeConsts_noConst _ _ (by
      intro o ho col row v
      simp only [circuit, copies, List.mem_cons, List.mem_append, List.mem_flatMap, List.not_mem_nil, or_false] at ho
      rcases ho with rfl | rfl | ⟨_, _, rfl | rfl | rfl⟩ | rfl <;> simp), assign_eq]
    have := ws_read endoR (m := 8) (by omega) exCols_ok 3 12345 (fun _ _ _ => 12345) (r := 0) (j := 0) (by omega)
      (by omega) (by omega)
    rw [hv]; simpa [cell, st] using this
  · rw [writeConsts_noConst _ _ (by
      intro o ho col row v
      simp only [circuit, copies, List.mem_cons, List.mem_append, List.mem_flatMap, List.not_mem_nil, or_false] at ho
      rcases ho with rfl | rfl | ⟨_, _, rfl | rfl | rfl⟩ | rfl <;> simp), assign_eq]
    have := ws_read endoR (m := 8) (by omega) exCols_ok 3 12345 (fun _ _ _ => 12345) (r := 0) (j := 2) (by omega)
      (by omega) (by omega)
    rw [hv]; simpa [cell, st] using this
  · rw [writeConsts_noConst _ _ (by
      intro o ho col row v
      simp only [circuit, copies, List.mem_cons, List.mem_append, List.mem_flatMap, List.not_mem_nil, or_false] at ho
      rcases ho with rfl | rfl | ⟨_, _, rfl | rfl | rfl⟩ | rfl <;> simp), assign_eq]
    have := ws_read endoR (m := 8) (by omega) exCols_ok 3 12345 (fun _ _ _ => 12345) (r := 0) (j := 3) (by omega)
      (by omega) (by omega)
    rw [hv]; simpa [cell, st] using this

/-- The specification on the challenge 0: all 64 digits are 0, so the second part is `2 ^ 65 - (2 ^ 64 - 1)`. -/
example : spec (5 : ZMod 28948022309329048855892746252171976963363056481941560715954676764349967630337) 0 =
    5 * 2 ^ 65 + (2 ^ 64 + 1) := by
  have h1 : sumA cc 64 0 = 0 := by decide
  have h2 : sumA dd 64 0 = 1 - 2 ^ 64 := by decide
  rw [spec, h1, h2]; push_cast; norm_num

end examples
end EndoScalar
end Verif
