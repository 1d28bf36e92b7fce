import Verif.Model.Ed25519
import Mathlib.Tactic.IntervalCases
import Mathlib.Tactic.NormNum.Prime
import Mathlib.Tactic.Linarith
import Mathlib.Data.Int.ModEq
import Mathlib.Data.Int.GCD
import Mathlib.Algebra.CharP.Basic
import Mathlib.RingTheory.Coprime.Lemmas

/-!
# C49: arithmetic modulo `2^255 - 19`

Specification: four variables hold a natural number below `2^255` in limbs of 66, 66, 66 and 57 bits (`Limbs`). The
field operations are stated on these numbers.
-/

set_option linter.unusedSimpArgs false
set_option linter.unusedVariables false
set_option linter.unusedSectionVars false
set_option exponentiation.threshold 600

namespace Verif
namespace Ed25519

/-- The number with the given limbs. -/
def num (l0 l1 l2 l3 : ℕ) : ℕ := l0 + 2 ^ 66 * l1 + 2 ^ 132 * l2 + 2 ^ 198 * l3

/-- A field element which is a natural number of at most `k` bits. -/
def Bits {F : Type*} [Field F] (k : ℕ) (x : F) : Prop := ∃ m : ℕ, m < 2 ^ k ∧ x = m

/-- Four variables hold `x` in limbs of 66, 66, 66 and 57 bits. -/
def Limbs {F : Type*} [Field F] (t : Table F) (v : ℕ → Var) (x : ℕ) : Prop :=
  ∃ l0 l1 l2 l3 : ℕ, l0 < 2 ^ 66 ∧ l1 < 2 ^ 66 ∧ l2 < 2 ^ 66 ∧ l3 < 2 ^ 57 ∧
    (v 0).value t = l0 ∧ (v 1).value t = l1 ∧ (v 2).value t = l2 ∧ (v 3).value t = l3 ∧ x = num l0 l1 l2 l3

/-! ### Integers -/

theorem modulus_val : modulus = 57896044618658097711785492504343953926634992332820282019728792003956564819949 := by
  unfold modulus; norm_num

theorem negP_val : negP 0 = 19 ∧ negP 1 = 0 ∧ negP 2 = 0 ∧ negP 3 = 3 * 2 ^ 57 := by
  unfold negP limb
  rw [modulus_val]
  refine ⟨?_, ?_, ?_, ?_⟩ <;> simp only [Nat.shiftRight_eq_div_pow] <;> norm_num

theorem limb_modulus : limb modulus 0 = 2 ^ 66 - 19 := by
  unfold limb; rw [modulus_val]; simp only [Nat.shiftRight_eq_div_pow]; norm_num

/-- A multiple of an odd `n` which is a multiple of `2^k` and less than `2^k n` is zero. -/
theorem crt_zero {n : ℕ} (hodd : n % 2 = 1) (k : ℕ) {X : ℤ} (h1 : (n : ℤ) ∣ X) (h2 : (2 : ℤ) ^ k ∣ X)
    (hlt : |X| < 2 ^ k * n) : X = 0 := by
  have hc : IsCoprime ((2 : ℤ) ^ k) (n : ℤ) := by
    apply IsCoprime.pow_left
    have : Nat.Coprime 2 n := by
      rw [Nat.coprime_two_left]; exact Nat.odd_iff.2 hodd
    exact Nat.isCoprime_iff_coprime.2 this
  exact Int.eq_zero_of_abs_lt_dvd (hc.mul_dvd h2 h1) hlt

theorem small_zero {n : ℕ} {X : ℤ} (h1 : (n : ℤ) ∣ X) (hlt : |X| < n) : X = 0 := Int.eq_zero_of_abs_lt_dvd h1 hlt

/-- Addition and subtraction over the integers: `s` is the sum of the operands (or difference plus the modulus) of the
low limbs, `S` the whole. -/
theorem lin_core {n : ℕ} (hodd : n % 2 = 1) (hn : 2 ^ 254 < n) {s S q r R u H : ℤ}
    (hs : |s| < 2 ^ 68) (hS : |S| < 2 ^ 258) (hq : q = 0 ∨ q = 1) (hr : 0 ≤ r ∧ r < 2 ^ 66) (hR : 0 ≤ R ∧ R < 2 ^ 255)
    (hu : 0 ≤ u ∧ u < 2 ^ 68) (hsS : S = s + 2 ^ 66 * H) {K : ℤ} (hrR : R = r + 2 ^ 66 * K)
    (h1 : (n : ℤ) ∣ u * 2 ^ 66 - (s + 19 * q - r))
    (h4 : (n : ℤ) ∣ S - (q * (2 ^ 255 - 19) + R)) : S = q * (2 ^ 255 - 19) + R ∧ u * 2 ^ 66 = s + 19 * q - r := by
  have hn' : (2 : ℤ) ^ 254 < n := by exact_mod_cast hn
  have e1 : u * 2 ^ 66 - (s + 19 * q - r) = 0 := by
    apply small_zero h1
    rw [abs_lt] at hs ⊢
    constructor <;> rcases hq with rfl | rfl <;> norm_num at * <;> linarith [hs.1, hs.2, hr.1, hr.2, hu.1, hu.2]
  have : S - (q * (2 ^ 255 - 19) + R) = 0 := by
    apply crt_zero hodd 66 h4
    · refine ⟨u + H - q * 2 ^ 189 - K, ?_⟩
      rw [hsS, hrR]
      linear_combination -e1
    · rw [abs_lt] at hS ⊢
      constructor <;> rcases hq with rfl | rfl <;> norm_num at * <;> linarith [hS.1, hS.2, hR.1, hR.2]
  exact ⟨by linarith, by linarith⟩

/-- Multiplication over the integers. -/
theorem mul_core {n : ℕ} (hodd : n % 2 = 1) (hn : 2 ^ 254 < n) {a0 a1 a2 a3 b0 b1 b2 b3 q0 q1 q2 q3 r0 r1 r2 r3 u v : ℤ}
    (ha0 : 0 ≤ a0 ∧ a0 < 2 ^ 66) (ha1 : 0 ≤ a1 ∧ a1 < 2 ^ 66) (ha2 : 0 ≤ a2 ∧ a2 < 2 ^ 66) (ha3 : 0 ≤ a3 ∧ a3 < 2 ^ 57)
    (hb0 : 0 ≤ b0 ∧ b0 < 2 ^ 66) (hb1 : 0 ≤ b1 ∧ b1 < 2 ^ 66) (hb2 : 0 ≤ b2 ∧ b2 < 2 ^ 66) (hb3 : 0 ≤ b3 ∧ b3 < 2 ^ 57)
    (hq0 : 0 ≤ q0 ∧ q0 < 2 ^ 66) (hq1 : 0 ≤ q1 ∧ q1 < 2 ^ 66) (hq2 : 0 ≤ q2 ∧ q2 < 2 ^ 66) (hq3 : 0 ≤ q3 ∧ q3 < 2 ^ 57)
    (hr0 : 0 ≤ r0 ∧ r0 < 2 ^ 66) (hr1 : 0 ≤ r1 ∧ r1 < 2 ^ 66) (hr2 : 0 ≤ r2 ∧ r2 < 2 ^ 66) (hr3 : 0 ≤ r3 ∧ r3 < 2 ^ 57)
    (hu : 0 ≤ u ∧ u < 2 ^ 70) (hv : 0 ≤ v ∧ v < 2 ^ 75)
    (h1 : (n : ℤ) ∣ u * 2 ^ 132 - (a0 * b0 + 19 * q0 - r0 + (a1 * b0 + a0 * b1 + 19 * q1) * 2 ^ 66 - r1 * 2 ^ 66))
    (h2 : (n : ℤ) ∣ v * 2 ^ 125 - (a2 * b0 + a0 * b2 + a1 * b1 + 19 * q2 - r2
      + (a3 * b0 + b3 * a0 + a1 * b2 + b1 * a2 + 3 * 2 ^ 57 * q0 + 19 * q3) * 2 ^ 66 - r3 * 2 ^ 66 + u))
    (h5 : (n : ℤ) ∣ (a0 + a1 * 2 ^ 66 + a2 * 2 ^ 132 + a3 * 2 ^ 198) * (b0 + b1 * 2 ^ 66 + b2 * 2 ^ 132 + b3 * 2 ^ 198)
      - ((q0 + q1 * 2 ^ 66 + q2 * 2 ^ 132 + q3 * 2 ^ 198) * (2 ^ 255 - 19)
        + (r0 + r1 * 2 ^ 66 + r2 * 2 ^ 132 + r3 * 2 ^ 198))) :
    (a0 + a1 * 2 ^ 66 + a2 * 2 ^ 132 + a3 * 2 ^ 198) * (b0 + b1 * 2 ^ 66 + b2 * 2 ^ 132 + b3 * 2 ^ 198)
      = (q0 + q1 * 2 ^ 66 + q2 * 2 ^ 132 + q3 * 2 ^ 198) * (2 ^ 255 - 19)
        + (r0 + r1 * 2 ^ 66 + r2 * 2 ^ 132 + r3 * 2 ^ 198) := by
  have hn' : (2 : ℤ) ^ 254 < n := by exact_mod_cast hn
  have pb : ∀ {x y X Y : ℤ}, (0 ≤ x ∧ x < X) → (0 ≤ y ∧ y < Y) → 0 ≤ x * y ∧ x * y ≤ X * Y := by
    rintro x y X Y ⟨h1, h2⟩ ⟨h3, h4⟩
    exact ⟨mul_nonneg h1 h3, mul_le_mul h2.le h4.le h3 (by linarith)⟩
  have e1 : u * 2 ^ 132 - (a0 * b0 + 19 * q0 - r0 + (a1 * b0 + a0 * b1 + 19 * q1) * 2 ^ 66 - r1 * 2 ^ 66) = 0 := by
    apply small_zero h1
    have m1 := pb ha0 hb0
    have m2 := pb ha1 hb0
    have m3 := pb ha0 hb1
    generalize a0 * b0 = x1 at *
    generalize a1 * b0 = x2 at *
    generalize a0 * b1 = x3 at *
    rw [abs_lt]
    norm_num at *
    constructor <;> linarith [m1.1, m1.2, m2.1, m2.2, m3.1, m3.2, hu.1, hu.2, hq0.1, hq0.2, hq1.1, hq1.2, hr0.1, hr0.2, hr1.1, hr1.2]
  have e2 : v * 2 ^ 125 - (a2 * b0 + a0 * b2 + a1 * b1 + 19 * q2 - r2
      + (a3 * b0 + b3 * a0 + a1 * b2 + b1 * a2 + 3 * 2 ^ 57 * q0 + 19 * q3) * 2 ^ 66 - r3 * 2 ^ 66 + u) = 0 := by
    apply small_zero h2
    have m1 := pb ha2 hb0
    have m2 := pb ha0 hb2
    have m3 := pb ha1 hb1
    have m4 := pb ha3 hb0
    have m5 := pb hb3 ha0
    have m6 := pb ha1 hb2
    have m7 := pb hb1 ha2
    generalize a2 * b0 = x1 at *
    generalize a0 * b2 = x2 at *
    generalize a1 * b1 = x3 at *
    generalize a3 * b0 = x4 at *
    generalize b3 * a0 = x5 at *
    generalize a1 * b2 = x6 at *
    generalize b1 * a2 = x7 at *
    rw [abs_lt]
    norm_num at *
    constructor <;> linarith [m1.1, m1.2, m2.1, m2.2, m3.1, m3.2, m4.1, m4.2, m5.1, m5.2, m6.1, m6.2, m7.1, m7.2,
      hu.1, hu.2, hv.1, hv.2, hq0.1, hq0.2, hq2.1, hq2.2, hq3.1, hq3.2, hr2.1, hr2.2, hr3.1, hr3.2]
  have bd : ∀ {x0 x1 x2 x3 : ℤ}, (0 ≤ x0 ∧ x0 < 2 ^ 66) → (0 ≤ x1 ∧ x1 < 2 ^ 66) → (0 ≤ x2 ∧ x2 < 2 ^ 66) →
      (0 ≤ x3 ∧ x3 < 2 ^ 57) → 0 ≤ x0 + x1 * 2 ^ 66 + x2 * 2 ^ 132 + x3 * 2 ^ 198 ∧
      x0 + x1 * 2 ^ 66 + x2 * 2 ^ 132 + x3 * 2 ^ 198 < 2 ^ 255 := by
    rintro x0 x1 x2 x3 h0 h1 h2 h3
    norm_num at *
    constructor <;> omega
  have hz := crt_zero hodd 257 h5 ⟨v - (q0 + q1 * 2 ^ 66 + q2 * 2 ^ 132 + q3 * 2 ^ 198) + 3 * 2 ^ 64 * (q1 + q2 * 2 ^ 66 + q3 * 2 ^ 132)
      + 2 ^ 7 * (a1 * b3 + a2 * b2 + a3 * b1) + 2 ^ 73 * (a2 * b3 + a3 * b2) + 2 ^ 139 * (a3 * b3), ?_⟩ ?_
  · linarith
  · linear_combination (-1) * e1 - 2 ^ 132 * e2
  · have hA := bd ha0 ha1 ha2 ha3
    have hB := bd hb0 hb1 hb2 hb3
    have hQ := bd hq0 hq1 hq2 hq3
    have hR := bd hr0 hr1 hr2 hr3
    have hAB := pb hA hB
    generalize (a0 + a1 * 2 ^ 66 + a2 * 2 ^ 132 + a3 * 2 ^ 198) * (b0 + b1 * 2 ^ 66 + b2 * 2 ^ 132 + b3 * 2 ^ 198) = x at *
    generalize (q0 + q1 * 2 ^ 66 + q2 * 2 ^ 132 + q3 * 2 ^ 198) = y at *
    generalize (r0 + r1 * 2 ^ 66 + r2 * 2 ^ 132 + r3 * 2 ^ 198) = z at *
    clear e1 e2 h1 h2 h5 hA hB ha0 ha1 ha2 ha3 hb0 hb1 hb2 hb3
    rw [abs_lt]
    norm_num at *
    constructor <;> linarith [hAB.1, hAB.2, hQ.1, hQ.2, hR.1, hR.2]

theorem num_lt {l0 l1 l2 l3 : ℕ} (h0 : l0 < 2 ^ 66) (h1 : l1 < 2 ^ 66) (h2 : l2 < 2 ^ 66) (h3 : l3 < 2 ^ 57) :
    num l0 l1 l2 l3 < 2 ^ 255 := by
  unfold num; omega

/-! ### Soundness -/

/-- The twelve chunk cells of a range component are within their declared widths. -/
def RangeCells {F : Type*} [Field F] (t : Table F) (c : Cols) (row : ℤ) : Prop :=
  (Bits 22 (t .witness (c.w 4) row) ∧ Bits 22 (t .witness (c.w 5) row) ∧ Bits 22 (t .witness (c.w 6) row)) ∧
  (Bits 22 (t .witness (c.w 7) row) ∧ Bits 22 (t .witness (c.w 0) (row + 1)) ∧ Bits 22 (t .witness (c.w 1) (row + 1))) ∧
  (Bits 22 (t .witness (c.w 2) (row + 1)) ∧ Bits 22 (t .witness (c.w 3) (row + 1)) ∧
    Bits 22 (t .witness (c.w 4) (row + 1))) ∧
  (Bits 21 (t .witness (c.w 5) (row + 1)) ∧ Bits 21 (t .witness (c.w 6) (row + 1)) ∧
    Bits 15 (t .witness (c.w 7) (row + 1)))

/-- The four chunk cells of a carry, from column `k`, the last of `w` bits. -/
def CarryCells {F : Type*} [Field F] (t : Table F) (c : Cols) (row : ℤ) (k : ℤ) (w : ℕ) : Prop :=
  Bits 22 (t .witness (c.w k) row) ∧ Bits 22 (t .witness (c.w (k + 1)) row) ∧ Bits 22 (t .witness (c.w (k + 2)) row) ∧
  Bits w (t .witness (c.w (k + 3)) row)

section sound
variable {F : Type*} [Field F] {t : Table F} {c : Cols}

theorem range_copies {inp : ℕ → Var} {srow : ℤ} (h : Sat t (rangeCircuit c inp srow)) (i : ℕ) (hi : i < 4) :
    t .witness (c.w i) srow = (inp i).value t := by
  by_cases he : c.wa i srow = inp i
  · rw [← he]; rfl
  · have := h (.copy (c.wa i srow) (inp i)) (by
      simp only [rangeCircuit, List.mem_cons, List.mem_flatMap, List.mem_range]
      exact Or.inr ⟨i, hi, by simp [he]⟩)
    exact this

theorem range_sound {inp : ℕ → Var} {srow : ℤ} (h : Sat t (rangeCircuit c inp srow)) (hr : RangeCells t c srow) :
    ∃ z, Limbs t inp z := by
  have hg : (Op.gate (rangeGate c) [srow] : Op F).Holds t := h _ (by simp [rangeCircuit])
  simp only [rangeGate, holds_gate, List.mem_singleton, forall_eq, List.forall_mem_cons, Expr.eval_sub, Expr.eval_add,
    Expr.eval_mul, Cols.eval_wv, sh, Expr.eval_const, add_zero] at hg
  obtain ⟨g1, g2, g3, g4, -⟩ := hg
  obtain ⟨⟨⟨x0, b0, y0⟩, ⟨x1, b1, y1⟩, ⟨x2, b2, y2⟩⟩, ⟨⟨x3, b3, y3⟩, ⟨x4, b4, y4⟩, ⟨x5, b5, y5⟩⟩,
    ⟨⟨x6, b6, y6⟩, ⟨x7, b7, y7⟩, ⟨x8, b8, y8⟩⟩, ⟨⟨x9, b9, y9⟩, ⟨x10, b10, y10⟩, ⟨x11, b11, y11⟩⟩⟩ := hr
  have k0 := range_copies h 0 (by omega)
  have k1 := range_copies h 1 (by omega)
  have k2 := range_copies h 2 (by omega)
  have k3 := range_copies h 3 (by omega)
  push_cast at k0 k1 k2 k3
  rw [y0, y1, y2] at g1
  rw [y3, y4, y5] at g2
  rw [y6, y7, y8] at g3
  rw [y9, y10, y11] at g4
  refine ⟨_, x0 + x1 * 2 ^ 22 + x2 * 2 ^ 44, x3 + x4 * 2 ^ 22 + x5 * 2 ^ 44, x6 + x7 * 2 ^ 22 + x8 * 2 ^ 44,
    x9 + x10 * 2 ^ 21 + x11 * 2 ^ 42, by omega, by omega, by omega, by omega, ?_, ?_, ?_, ?_, rfl⟩
  · rw [← k0]; push_cast; linear_combination g1
  · rw [← k1]; push_cast; linear_combination g2
  · rw [← k2]; push_cast; linear_combination g3
  · rw [← k3]; push_cast; linear_combination g4

theorem carry_num {row k : ℤ} {w : ℕ} (h : CarryCells t c row k w) :
    ∃ u : ℕ, u < 2 ^ (66 + w) ∧ t .witness (c.w k) row + t .witness (c.w (k + 1)) row * 2 ^ 22
      + t .witness (c.w (k + 2)) row * 2 ^ 44 + t .witness (c.w (k + 3)) row * 2 ^ 66 = u := by
  obtain ⟨⟨x0, b0, y0⟩, ⟨x1, b1, y1⟩, ⟨x2, b2, y2⟩, ⟨x3, b3, y3⟩⟩ := h
  refine ⟨x0 + x1 * 2 ^ 22 + x2 * 2 ^ 44 + x3 * 2 ^ 66, ?_, ?_⟩
  · rw [pow_add]
    have : (x3 + 1) * 2 ^ 66 ≤ 2 ^ w * 2 ^ 66 := Nat.mul_le_mul_right _ (by omega)
    omega
  · rw [y0, y1, y2, y3]; push_cast; ring

theorem dvd_of_cast {n : ℕ} [CharP F n] {X : ℤ} (h : (X : F) = 0) : (n : ℤ) ∣ X :=
  (CharP.intCast_eq_zero_iff F n X).1 h

/-- Addition: with the chunks within their widths, the output is the sum or the sum minus the modulus. -/
theorem add_sound {n : ℕ} [CharP F n] (hodd : n % 2 = 1) (hn : 2 ^ 254 < n) {inp : In} {srow : ℤ} {x y : ℕ}
    (h : Sat t (addCircuit c inp srow)) (hx : Limbs t inp.a x) (hy : Limbs t inp.b y)
    (hr : RangeCells t c (srow + 2)) (hu : CarryCells t c srow 3 1) :
    ∃ z, Limbs t (addResult c srow) z ∧ (z = x + y ∨ z + (2 ^ 255 - 19) = x + y) := by
  simp only [addCircuit, sat_cons, sat_append] at h
  obtain ⟨hg, hcp, hrg⟩ := h
  obtain ⟨z, hz⟩ := range_sound hrg hr
  refine ⟨z, hz, ?_⟩
  simp only [addGate, holds_gate, List.mem_singleton, forall_eq, List.forall_mem_cons, Expr.eval_sub, Expr.eval_add,
    Expr.eval_mul, Cols.eval_wv, sh, Expr.eval_const, add_zero, composeE, Expr.eval_one, add_assoc,
    show (1 : ℤ) + 1 = 2 by norm_num, show (1 : ℤ) + -1 = 0 by norm_num] at hg
  obtain ⟨g1, g2, g3, g4⟩ := hg
  simp only [addCopies, sat_cons, holds_copy, Cols.value_wa, sat_nil, and_true] at hcp
  obtain ⟨ca0, cb0, ca1, ca2, ca3, cb1, cb2, cb3⟩ := hcp
  obtain ⟨a0, a1, a2, a3, ha0, ha1, ha2, ha3, va0, va1, va2, va3, rfl⟩ := hx
  obtain ⟨b0, b1, b2, b3, hb0, hb1, hb2, hb3, vb0, vb1, vb2, vb3, rfl⟩ := hy
  obtain ⟨r0, r1, r2, r3, hr0, hr1, hr2, hr3, vr0, vr1, vr2, vr3, rfl⟩ := hz
  obtain ⟨u, hu1, hu2⟩ := carry_num hu
  norm_num at hu2
  simp only [Cols.value_wa] at vr0 vr1 vr2 vr3
  push_cast at vr0 vr1 vr2 vr3
  rw [va0] at ca0; rw [va1] at ca1; rw [va2] at ca2; rw [va3] at ca3
  rw [vb0] at cb0; rw [vb1] at cb1; rw [vb2] at cb2; rw [vb3] at cb3
  have hq : ∃ q : ℤ, (q = 0 ∨ q = 1) ∧ t .witness (c.w 2) (srow + 1) = (q : F) := by
    rcases mul_eq_zero.1 g2 with h | h
    · exact ⟨0, .inl rfl, by simpa using h⟩
    · exact ⟨1, .inr rfl, by simpa using sub_eq_zero.1 h⟩
  obtain ⟨q, hq01, hq⟩ := hq
  have hcore0 := lin_core hodd hn (s := a0 + b0) (S := (num a0 a1 a2 a3 : ℤ) + num b0 b1 b2 b3) (q := q) (r := r0)
    (R := num r0 r1 r2 r3) (u := u) (H := (a1 + b1) + 2 ^ 66 * (a2 + b2) + 2 ^ 132 * (a3 + b3))
    (K := r1 + 2 ^ 66 * r2 + 2 ^ 132 * r3) ?_ ?_ hq01 ?_ ?_ ?_ ?_ ?_ ?_ ?_
  · have hcore := hcore0.1
    rcases hq01 with rfl | rfl
    · left; omega
    · right; omega
  · rw [abs_lt]; constructor <;> omega
  · have := num_lt ha0 ha1 ha2 ha3
    have := num_lt hb0 hb1 hb2 hb3
    rw [abs_lt]; constructor <;> omega
  · omega
  · have := num_lt hr0 hr1 hr2 hr3
    omega
  · omega
  · unfold num; push_cast; ring
  · unfold num; push_cast; ring
  · apply dvd_of_cast (F := F)
    rw [negP_val.1, ca0, cb0, hq, vr0] at g1
    push_cast at g1 ⊢
    rw [← hu2]
    linear_combination g1 - 2 ^ 66 * g3
  · apply dvd_of_cast (F := F)
    rw [ca0, cb0, ca1, cb1, ca2, cb2, ca3, cb3, hq, vr0, vr1, vr2, vr3, modulus_val] at g4
    unfold num
    push_cast at g4 ⊢
    linear_combination g4

/-- Subtraction over the integers, with the carry. -/
theorem sub_carry {n : ℕ} [CharP F n] (hodd : n % 2 = 1) (hn : 2 ^ 254 < n) {inp : In} {srow : ℤ} {x y : ℕ}
    (h : Sat t (subCircuit c inp srow)) (hx : Limbs t inp.a x) (hy : Limbs t inp.b y)
    (hr : RangeCells t c (srow + 2)) (hu : CarryCells t c srow 3 2) :
    ∃ z u q : ℕ, Limbs t (addResult c srow) z ∧ (q = 0 ∨ q = 1) ∧ z + y + q * (2 ^ 255 - 19) = x + (2 ^ 255 - 19) ∧
      u * 2 ^ 66 + y % 2 ^ 66 + z % 2 ^ 66 = x % 2 ^ 66 + (2 ^ 66 - 19) + 19 * q := by
  simp only [subCircuit, sat_cons, sat_append] at h
  obtain ⟨hg, hcp, hrg⟩ := h
  obtain ⟨z, hz⟩ := range_sound hrg hr
  have hz' := hz
  simp only [subGate, holds_gate, List.mem_singleton, forall_eq, List.forall_mem_cons, Expr.eval_sub, Expr.eval_add,
    Expr.eval_mul, Cols.eval_wv, sh, Expr.eval_const, add_zero, composeE, Expr.eval_one, add_assoc,
    show (1 : ℤ) + 1 = 2 by norm_num, show (1 : ℤ) + -1 = 0 by norm_num] at hg
  obtain ⟨g1, g2, g3, g4⟩ := hg
  simp only [addCopies, sat_cons, holds_copy, Cols.value_wa, sat_nil, and_true] at hcp
  obtain ⟨ca0, cb0, ca1, ca2, ca3, cb1, cb2, cb3⟩ := hcp
  obtain ⟨a0, a1, a2, a3, ha0, ha1, ha2, ha3, va0, va1, va2, va3, rfl⟩ := hx
  obtain ⟨b0, b1, b2, b3, hb0, hb1, hb2, hb3, vb0, vb1, vb2, vb3, rfl⟩ := hy
  obtain ⟨r0, r1, r2, r3, hr0, hr1, hr2, hr3, vr0, vr1, vr2, vr3, rfl⟩ := hz
  obtain ⟨u, hu1, hu2⟩ := carry_num hu
  norm_num at hu2
  simp only [Cols.value_wa] at vr0 vr1 vr2 vr3
  push_cast at vr0 vr1 vr2 vr3
  rw [va0] at ca0; rw [va1] at ca1; rw [va2] at ca2; rw [va3] at ca3
  rw [vb0] at cb0; rw [vb1] at cb1; rw [vb2] at cb2; rw [vb3] at cb3
  have hq : ∃ q : ℤ, (q = 0 ∨ q = 1) ∧ t .witness (c.w 2) (srow + 1) = (q : F) := by
    rcases mul_eq_zero.1 g2 with h | h
    · exact ⟨0, .inl rfl, by simpa using h⟩
    · exact ⟨1, .inr rfl, by simpa using sub_eq_zero.1 h⟩
  obtain ⟨q, hq01, hq⟩ := hq
  have hcore0 := lin_core hodd hn (s := a0 - b0 + (2 ^ 66 - 19))
    (S := (num a0 a1 a2 a3 : ℤ) - num b0 b1 b2 b3 + (2 ^ 255 - 19)) (q := q) (r := r0)
    (R := num r0 r1 r2 r3) (u := u) (H := (a1 - b1) + 2 ^ 66 * (a2 - b2) + 2 ^ 132 * (a3 - b3) + 2 ^ 189 - 1)
    (K := r1 + 2 ^ 66 * r2 + 2 ^ 132 * r3) ?_ ?_ hq01 ?_ ?_ ?_ ?_ ?_ ?_ ?_
  · obtain ⟨hcore, hcar⟩ := hcore0
    have m : ∀ l0 l1 l2 l3 : ℕ, l0 < 2 ^ 66 → num l0 l1 l2 l3 % 2 ^ 66 = l0 := fun l0 l1 l2 l3 h => by
      unfold num; omega
    refine ⟨_, u, q.toNat, hz', ?_, ?_, ?_⟩
    · omega
    · rcases hq01 with rfl | rfl <;> norm_num <;> omega
    · rw [m _ _ _ _ ha0, m _ _ _ _ hb0, m _ _ _ _ hr0]
      rcases hq01 with rfl | rfl <;> norm_num <;> omega
  · rw [abs_lt]; constructor <;> omega
  · have := num_lt ha0 ha1 ha2 ha3
    have := num_lt hb0 hb1 hb2 hb3
    rw [abs_lt]; constructor <;> omega
  · omega
  · have := num_lt hr0 hr1 hr2 hr3
    omega
  · omega
  · unfold num; push_cast; ring
  · unfold num; push_cast; ring
  · apply dvd_of_cast (F := F)
    rw [negP_val.1, limb_modulus, ca0, cb0, hq, vr0] at g1
    push_cast [show (19 : ℕ) ≤ 2 ^ 66 by norm_num] at g1 ⊢
    rw [← hu2]
    linear_combination g1 - 2 ^ 66 * g3
  · apply dvd_of_cast (F := F)
    rw [ca0, cb0, ca1, cb1, ca2, cb2, ca3, cb3, hq, vr0, vr1, vr2, vr3, modulus_val] at g4
    unfold num
    push_cast at g4 ⊢
    linear_combination g4

/-- Subtraction: with the chunks within their widths, the output is the difference or the difference plus the
modulus. -/
theorem sub_sound {n : ℕ} [CharP F n] (hodd : n % 2 = 1) (hn : 2 ^ 254 < n) {inp : In} {srow : ℤ} {x y : ℕ}
    (h : Sat t (subCircuit c inp srow)) (hx : Limbs t inp.a x) (hy : Limbs t inp.b y)
    (hr : RangeCells t c (srow + 2)) (hu : CarryCells t c srow 3 2) :
    ∃ z, Limbs t (addResult c srow) z ∧ (z + y = x ∨ z + y = x + (2 ^ 255 - 19)) := by
  obtain ⟨z, u, q, hz, hq, he, -⟩ := sub_carry hodd hn h hx hy hr hu
  refine ⟨z, hz, ?_⟩
  rcases hq with rfl | rfl <;> omega

/-- Subtraction cannot be assigned when the low limbs borrow more than the constant added to them. -/
theorem sub_blocked {n : ℕ} [CharP F n] (hodd : n % 2 = 1) (hn : 2 ^ 254 < n) {inp : In} {srow : ℤ} {x y : ℕ}
    (hx : Limbs t inp.a x) (hy : Limbs t inp.b y) (hr : RangeCells t c (srow + 2)) (hu : CarryCells t c srow 3 2)
    (hlt : x < y) (hlow : x % 2 ^ 66 + (2 ^ 66 - 19) < y % 2 ^ 66) : ¬ Sat t (subCircuit c inp srow) := by
  intro h
  obtain ⟨z, u, q, hz, hq, he, hc⟩ := sub_carry hodd hn h hx hy hr hu
  rcases hq with rfl | rfl <;> omega

/-- Multiplication: with the chunks within their widths, the output is congruent to the product. -/
theorem mul_sound {n : ℕ} [CharP F n] (hodd : n % 2 = 1) (hn : 2 ^ 254 < n) {inp : In} {srow : ℤ} {x y : ℕ}
    (h : Sat t (mulCircuit c inp srow)) (hx : Limbs t inp.a x) (hy : Limbs t inp.b y)
    (hrq : RangeCells t c srow) (hr : RangeCells t c (srow + 2)) (hu : CarryCells t c (srow + 6) 0 4)
    (hv : CarryCells t c (srow + 6) 4 9) :
    ∃ z, Limbs t (mulResult c srow) z ∧ z ≡ x * y [MOD 2 ^ 255 - 19] := by
  simp only [mulCircuit, sat_cons, sat_append] at h
  obtain ⟨hg, ⟨hcp, hqg⟩, hrg⟩ := h
  obtain ⟨z, hz⟩ := range_sound hrg hr
  obtain ⟨Q, hQ⟩ := range_sound hqg hrq
  refine ⟨z, hz, ?_⟩
  simp only [mulGate, mulT, holds_gate, List.mem_singleton, forall_eq, List.forall_mem_cons, Expr.eval_sub,
    Expr.eval_add, Expr.eval_mul, Cols.eval_wv, sh, Expr.eval_const, add_zero, composeE, Expr.eval_one, add_assoc,
    show (5 : ℤ) + 1 = 6 by norm_num, show (5 : ℤ) + -1 = 4 by norm_num, negP_val] at hg
  obtain ⟨g1, g2, g3, g4, g5⟩ := hg
  simp only [mulCopies, List.range, List.range.loop, List.map_cons, List.map_nil, List.cons_append, List.nil_append,
    sat_cons, holds_copy, Cols.value_wa, sat_nil, and_true] at hcp
  obtain ⟨ca0, ca1, ca2, ca3, cb0, cb1, cb2, cb3⟩ := hcp
  norm_num at ca0 ca1 ca2 ca3 cb0 cb1 cb2 cb3
  obtain ⟨a0, a1, a2, a3, ha0, ha1, ha2, ha3, va0, va1, va2, va3, rfl⟩ := hx
  obtain ⟨b0, b1, b2, b3, hb0, hb1, hb2, hb3, vb0, vb1, vb2, vb3, rfl⟩ := hy
  obtain ⟨r0, r1, r2, r3, hr0, hr1, hr2, hr3, vr0, vr1, vr2, vr3, rfl⟩ := hz
  obtain ⟨q0, q1, q2, q3, hq0, hq1, hq2, hq3, vq0, vq1, vq2, vq3, rfl⟩ := hQ
  obtain ⟨u, hu1, hu2⟩ := carry_num hu
  obtain ⟨v, hv1, hv2⟩ := carry_num hv
  norm_num at hu2 hv2
  simp only [mulResult, Cols.value_wa] at vr0 vr1 vr2 vr3
  simp [mulQ, Cols.value_wa] at vq0 vq1 vq2 vq3
  norm_num at vr0 vr1 vr2 vr3 vq0 vq1 vq2 vq3
  rw [va0] at ca0; rw [va1] at ca1; rw [va2] at ca2; rw [va3] at ca3
  rw [vb0] at cb0; rw [vb1] at cb1; rw [vb2] at cb2; rw [vb3] at cb3
  have hcore := mul_core hodd hn (a0 := a0) (a1 := a1) (a2 := a2) (a3 := a3) (b0 := b0) (b1 := b1) (b2 := b2) (b3 := b3)
    (q0 := q0) (q1 := q1) (q2 := q2) (q3 := q3) (r0 := r0) (r1 := r1) (r2 := r2) (r3 := r3) (u := u) (v := v)
    (by omega) (by omega) (by omega) (by omega) (by omega) (by omega) (by omega) (by omega) (by omega) (by omega)
    (by omega) (by omega) (by omega) (by omega) (by omega) (by omega) (by omega) (by omega) ?_ ?_ ?_
  · have : num a0 a1 a2 a3 * num b0 b1 b2 b3 = (2 ^ 255 - 19) * num q0 q1 q2 q3 + num r0 r1 r2 r3 := by
      zify [show (19 : ℕ) ≤ 2 ^ 255 by norm_num]
      unfold num
      push_cast
      linear_combination hcore
    rw [this]
    exact (by simp [Nat.ModEq] : num r0 r1 r2 r3 ≡ (2 ^ 255 - 19) * num q0 q1 q2 q3 + num r0 r1 r2 r3 [MOD 2 ^ 255 - 19])
  · apply dvd_of_cast (F := F)
    rw [ca0, cb0, ca1, cb1, vq0, vq1, vr0, vr1] at g1
    push_cast at g1 ⊢
    rw [← hu2]
    linear_combination g1 - 2 ^ 132 * g3
  · apply dvd_of_cast (F := F)
    rw [ca0, cb0, ca1, cb1, ca2, cb2, ca3, cb3, vq0, vq1, vq2, vq3, vr2, vr3] at g2
    push_cast at g2 ⊢
    rw [← hu2, ← hv2]
    linear_combination g2 - 2 ^ 125 * g4 + g3
  · apply dvd_of_cast (F := F)
    rw [ca0, cb0, ca1, cb1, ca2, cb2, ca3, cb3, vq0, vq1, vq2, vq3, vr0, vr1, vr2, vr3, modulus_val] at g5
    push_cast at g5 ⊢
    linear_combination g5
end sound

end Ed25519
end Verif
