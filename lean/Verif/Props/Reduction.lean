import Verif.Model.Reduction
import Verif.Core.Paint
import Verif.Core.Primality
import Mathlib.FieldTheory.Finite.Basic
import Mathlib.Data.Nat.ModEq
import Mathlib.Tactic.LinearCombination

/-!
# C82: `reduction` outputs a 512-bit number modulo the group order
-/

set_option linter.unusedSimpArgs false
set_option linter.unusedSectionVars false

namespace Verif
namespace Reduction

/-- Specification: the number whose 64-bit words, least significant first, are `d 0, …, d 7`. -/
def number (d : ℕ → ℕ) : ℕ :=
  d 0 + d 1 * 2 ^ 64 + d 2 * 2 ^ 128 + d 3 * 2 ^ 192 + d 4 * 2 ^ 256 + d 5 * 2 ^ 320 + d 6 * 2 ^ 384 + d 7 * 2 ^ 448

/-- The order is the one of the standard (RFC 8032). -/
theorem L_eq : L = 2 ^ 252 + 27742317777372353535851937790883648493 := by norm_num [L]

theorem w0 : weight 0 = 1 := by norm_num [weight, L]
theorem w1 : weight 1 = 0x10000000000000000 := by norm_num [weight, L]
theorem w2 : weight 2 = 0x100000000000000000000000000000000 := by norm_num [weight, L]
theorem w3 : weight 3 = 0x1000000000000000000000000000000000000000000000000 := by norm_num [weight, L]
theorem w4 : weight 4 = 0xffffffffffffffffffffffffffffffec6ef5bf4737dcf70d6ec31748d98951d := by norm_num [weight, L]
theorem w5 : weight 5 = 0xffffffffffffffeb2106215d086329a93b8c838d39a5e065812631a5cf5d3ed := by
  rw [weight, show 64 * 5 = 256 + 64 from rfl, pow_add]; norm_num [L]
theorem w6 : weight 6 = 0x2106215d086329a7ed9ce5a30a2c131b64a7f435e4fdd9539822129a02a6271 := by
  rw [weight, show 64 * 6 = 256 + 128 from rfl, pow_add]; norm_num [L]
theorem w7 : weight 7 = 0xed9ce5a30a2c131b399411b7c309a3de24babbe38d1d7a979daf520a00acb65 := by
  rw [weight, show 64 * 7 = 256 + 192 from rfl, pow_add]; norm_num [L]

theorem acc_eq (d : ℕ → ℕ) : acc d = d 0 * 1 + d 1 * 0x10000000000000000 + d 2 * 0x100000000000000000000000000000000 +
      d 3 * 0x1000000000000000000000000000000000000000000000000 +
      d 4 * 0xffffffffffffffffffffffffffffffec6ef5bf4737dcf70d6ec31748d98951d +
      d 5 * 0xffffffffffffffeb2106215d086329a93b8c838d39a5e065812631a5cf5d3ed +
      d 6 * 0x2106215d086329a7ed9ce5a30a2c131b64a7f435e4fdd9539822129a02a6271 +
      d 7 * 0xed9ce5a30a2c131b399411b7c309a3de24babbe38d1d7a979daf520a00acb65 := by
  unfold acc
  rw [w0, w1, w2, w3, w4, w5, w6, w7]

theorem acc_mod (d : ℕ → ℕ) : acc d ≡ number d [MOD L] := by
  have h : ∀ i n, 64 * i = n → d i * weight i ≡ d i * 2 ^ n [MOD L] := fun i n e => by
    subst e; exact Nat.ModEq.mul_left _ (Nat.mod_modEq _ _)
  have h0 : d 0 * weight 0 ≡ d 0 [MOD L] := by rw [w0, mul_one]
  exact ((((((h0.add (h 1 64 rfl)).add (h 2 128 rfl)).add (h 3 192 rfl)).add (h 4 256 rfl)).add (h 5 320 rfl)).add (h 6 384 rfl)).add (h 7 448 rfl)

theorem dMask_eq (r : ℕ) : dMask r = r % 2 ^ 73 := by
  unfold dMask
  have e : (2 ^ 13 - 1) + r / 2 ^ 13 % 2 ^ 20 * 2 ^ 13 + r / 2 ^ 33 % 2 ^ 20 * 2 ^ 33 + r / 2 ^ 53 % 2 ^ 20 * 2 ^ 53 =
      2 ^ 13 * (r / 2 ^ 13 % 2 ^ 60) + (2 ^ 13 - 1) := by
    norm_num; omega
  rw [e]
  apply Nat.eq_of_testBit_eq
  intro i
  rw [Nat.testBit_and, Nat.testBit_two_pow_mul_add _ (by norm_num)]
  by_cases h : i < 13
  · rw [if_pos h, Nat.testBit_two_pow_sub_one, Nat.testBit_mod_two_pow]
    rw [decide_eq_true h, decide_eq_true (show i < 73 by omega), Bool.and_true, Bool.true_and]
  · rw [if_neg h, Nat.testBit_mod_two_pow, Nat.testBit_mod_two_pow, Nat.testBit_div_two_pow, show i - 13 + 13 = i by omega]
    by_cases h2 : i < 73
    · simp only [h2, show i - 13 < 60 by omega, decide_true, Bool.true_and, Bool.and_self]
    · simp only [h2, show ¬ (i - 13 < 60) by omega, decide_false, Bool.false_and, Bool.and_false]

/-- The high parts of the weights. -/
def hi (i : ℕ) : ℕ := weight i / 2 ^ 73

theorem cSum_eq (d : ℕ → ℕ) (q : ℕ) : cSum d q + 2 ^ 73 * (d 2 * hi 2 + d 3 * hi 3 + d 4 * hi 4 + d 5 * hi 5 + d 6 * hi 6 + d 7 * hi 7) + q * L =
    acc d + 2 ^ 73 * (q * (1 + L / 2 ^ 73)) := by
  rw [acc_eq]
  unfold cSum hi
  rw [w2, w3, w4, w5, w6, w7]
  norm_num [L]
  ring

/-- The two ways to write the remainder modulo `2^73`. -/
theorem cSum_mod {d : ℕ → ℕ} {q r : ℕ} (h : acc d = r + q * L) : ∃ X Y, cSum d q + 2 ^ 73 * X = r + 2 ^ 73 * Y := by
  have := cSum_eq d q
  refine ⟨d 2 * hi 2 + d 3 * hi 3 + d 4 * hi 4 + d 5 * hi 5 + d 6 * hi 6 + d 7 * hi 7, q * (1 + L / 2 ^ 73), ?_⟩
  rw [h] at this
  generalize d 2 * hi 2 + d 3 * hi 3 + d 4 * hi 4 + d 5 * hi 5 + d 6 * hi 6 + d 7 * hi 7 = X at *
  generalize q * (1 + L / 2 ^ 73) = Y at *
  generalize q * L = Z at *
  omega

theorem vQuot_eq {d : ℕ → ℕ} {q r : ℕ} (h : acc d = r + q * L) : cSum d q = r % 2 ^ 73 + vQuot d q r * 2 ^ 69 := by
  obtain ⟨X, Y, hXY⟩ := cSum_mod h
  unfold vQuot
  rw [dMask_eq]
  generalize cSum d q = C at *
  norm_num at *
  omega

theorem chunks_eq (r : ℕ) : r = r % 2 ^ 13 + chunk r 11 * 2 ^ 13 + chunk r 10 * 2 ^ 33 + chunk r 9 * 2 ^ 53 + chunk r 8 * 2 ^ 73 + chunk r 7 * 2 ^ 93 +
    chunk r 6 * 2 ^ 113 + chunk r 5 * 2 ^ 133 + chunk r 4 * 2 ^ 153 + chunk r 3 * 2 ^ 173 + chunk r 2 * 2 ^ 193 + chunk r 1 * 2 ^ 213 + chunk r 0 * 2 ^ 233 := by
  have step : ∀ a, r / 2 ^ a = r / 2 ^ a % 2 ^ 20 + 2 ^ 20 * (r / 2 ^ (a + 20)) := fun a => by
    rw [pow_add, ← Nat.div_div_eq_div_mul, Nat.mod_add_div]
  have h0 : r = r % 2 ^ 13 + 2 ^ 13 * (r / 2 ^ 13) := (Nat.mod_add_div _ _).symm
  have e : ∀ j, j ≠ 0 → chunk r j = r / 2 ^ (233 - 20 * j) % 2 ^ 20 := fun j hj => by unfold chunk; rw [if_neg hj]
  have e0 : chunk r 0 = r / 2 ^ 233 := rfl
  rw [e 1 (by omega), e 2 (by omega), e 3 (by omega), e 4 (by omega), e 5 (by omega), e 6 (by omega), e 7 (by omega), e 8 (by omega), e 9 (by omega),
    e 10 (by omega), e 11 (by omega), e0]
  have s13 := step 13; have s33 := step 33; have s53 := step 53; have s73 := step 73; have s93 := step 93; have s113 := step 113
  have s133 := step 133; have s153 := step 153; have s173 := step 173; have s193 := step 193; have s213 := step 213
  clear e e0 step
  simp only [Nat.reduceAdd, Nat.reduceMul, Nat.reduceSub] at *
  generalize r / 2 ^ 13 = x13 at *
  generalize r / 2 ^ 33 = x33 at *
  generalize r / 2 ^ 53 = x53 at *
  generalize r / 2 ^ 73 = x73 at *
  generalize r / 2 ^ 93 = x93 at *
  generalize r / 2 ^ 113 = x113 at *
  generalize r / 2 ^ 133 = x133 at *
  generalize r / 2 ^ 153 = x153 at *
  generalize r / 2 ^ 173 = x173 at *
  generalize r / 2 ^ 193 = x193 at *
  generalize r / 2 ^ 213 = x213 at *
  generalize r / 2 ^ 233 = x233 at *
  generalize r % 2 ^ 13 = y at *
  generalize x13 % 2 ^ 20 = y13 at *
  generalize x33 % 2 ^ 20 = y33 at *
  generalize x53 % 2 ^ 20 = y53 at *
  generalize x73 % 2 ^ 20 = y73 at *
  generalize x93 % 2 ^ 20 = y93 at *
  generalize x113 % 2 ^ 20 = y113 at *
  generalize x133 % 2 ^ 20 = y133 at *
  generalize x153 % 2 ^ 20 = y153 at *
  generalize x173 % 2 ^ 20 = y173 at *
  generalize x193 % 2 ^ 20 = y193 at *
  generalize x213 % 2 ^ 20 = y213 at *
  linear_combination h0 + 2 ^ 13 * s13 + 2 ^ 33 * s33 + 2 ^ 53 * s53 + 2 ^ 73 * s73 + 2 ^ 93 * s93 + 2 ^ 113 * s113 + 2 ^ 133 * s133 + 2 ^ 153 * s153 +
    2 ^ 173 * s173 + 2 ^ 193 * s193 + 2 ^ 213 * s213

theorem low_eq (r : ℕ) : r % 2 ^ 73 = r % 2 ^ 13 + chunk r 11 * 2 ^ 13 + chunk r 10 * 2 ^ 33 + chunk r 9 * 2 ^ 53 := by
  unfold chunk
  norm_num
  omega

theorem q_eq {q : ℕ} (h : q < 2 ^ 67) : q = q / 2 ^ 47 % 2 ^ 20 * 2 ^ 47 + q / 2 ^ 27 % 2 ^ 20 * 2 ^ 27 + q / 2 ^ 7 % 2 ^ 20 * 2 ^ 7 + q % 2 ^ 7 := by
  norm_num at *
  omega

theorem v_eq (v : ℕ) : v = v / 2 ^ 56 * 2 ^ 56 + v / 2 ^ 34 % 2 ^ 22 * 2 ^ 34 + v / 2 ^ 12 % 2 ^ 22 * 2 ^ 12 + v % 2 ^ 12 := by
  norm_num
  omega

theorem acc_lt {d : ℕ → ℕ} (h : ∀ i < 8, d i < 2 ^ 64) : acc d < 2 ^ 67 * L := by
  have h0 := h 0 (by omega); have h1 := h 1 (by omega); have h2 := h 2 (by omega); have h3 := h 3 (by omega)
  have h4 := h 4 (by omega); have h5 := h 5 (by omega); have h6 := h 6 (by omega); have h7 := h 7 (by omega)
  rw [acc_eq]
  norm_num [L] at *
  omega

theorem cSum_lt {d : ℕ → ℕ} {q : ℕ} (h : ∀ i < 8, d i < 2 ^ 64) (hq : q < 2 ^ 67) : cSum d q < 2 ^ 141 := by
  have h0 := h 0 (by omega); have h1 := h 1 (by omega); have h2 := h 2 (by omega); have h3 := h 3 (by omega)
  have h4 := h 4 (by omega); have h5 := h 5 (by omega); have h6 := h 6 (by omega); have h7 := h 7 (by omega)
  unfold cSum
  rw [w3, w4, w5, w6, w7]
  norm_num [L] at *
  omega

/-! ### The circuit -/

section
variable {F : Type*} [Field F]

/-- The sum of the chunks of the remainder minus its maximal value. -/
def srOf (W : ℤ → ℤ → F) : F :=
  W 0 0 + W 0 1 + W 0 2 + W 0 3 + W 0 4 + W 0 5 + W 0 6 + W 0 7 + W 0 8 + W 1 0 + W 1 1 + W 1 2 - ((12 * (2 ^ 20 - 1) : ℕ) : F)

/-- The quotient cells put together. -/
def qOf (W : ℤ → ℤ → F) : F := W 2 0 * ((2 ^ 47 : ℕ) : F) + W 2 1 * ((2 ^ 27 : ℕ) : F) + W 2 2 * ((2 ^ 7 : ℕ) : F) + W 2 3

/-- The constraints on the cells `W row column` with inputs `x`. -/
structure Eqs (W : ℤ → ℤ → F) (x : ℕ → F) : Prop where
  r : W 1 4 = W 1 3 + W 1 2 * ((2 ^ 13 : ℕ) : F) + W 1 1 * ((2 ^ 33 : ℕ) : F) + W 1 0 * ((2 ^ 53 : ℕ) : F) + W 0 8 * ((2 ^ 73 : ℕ) : F) +
    W 0 7 * ((2 ^ 93 : ℕ) : F) + W 0 6 * ((2 ^ 113 : ℕ) : F) + W 0 5 * ((2 ^ 133 : ℕ) : F) + W 0 4 * ((2 ^ 153 : ℕ) : F) +
    W 0 3 * ((2 ^ 173 : ℕ) : F) + W 0 2 * ((2 ^ 193 : ℕ) : F) + W 0 1 * ((2 ^ 213 : ℕ) : F) + W 0 0 * ((2 ^ 233 : ℕ) : F)
  s1 : srOf W * (srOf W * W 1 5 - 1) = 0
  s2 : srOf W * W 1 5 + (1 - srOf W * W 1 5) * W 1 6 = 1
  sum : W 3 0 * ((weight 0 : ℕ) : F) + W 3 1 * ((weight 1 : ℕ) : F) + W 3 2 * ((weight 2 : ℕ) : F) + W 3 3 * ((weight 3 : ℕ) : F) +
    W 3 4 * ((weight 4 : ℕ) : F) + W 3 5 * ((weight 5 : ℕ) : F) + W 3 6 * ((weight 6 : ℕ) : F) + W 3 7 * ((weight 7 : ℕ) : F) =
    W 1 4 + qOf W * (L : F)
  low : W 3 0 + W 3 1 * ((2 ^ 64 : ℕ) : F) + W 3 3 * ((weight 3 % 2 ^ 73 : ℕ) : F) + W 3 4 * ((weight 4 % 2 ^ 73 : ℕ) : F) +
    W 3 5 * ((weight 5 % 2 ^ 73 : ℕ) : F) + W 3 6 * ((weight 6 % 2 ^ 73 : ℕ) : F) + W 3 7 * ((weight 7 % 2 ^ 73 : ℕ) : F) +
    qOf W * ((2 ^ 73 - L % 2 ^ 73 : ℕ) : F) =
    W 1 3 + W 1 2 * ((2 ^ 13 : ℕ) : F) + W 1 1 * ((2 ^ 33 : ℕ) : F) + W 1 0 * ((2 ^ 53 : ℕ) : F) + W 3 8 * ((2 ^ 69 : ℕ) : F)
  v : W 3 8 = W 2 4 * ((2 ^ 56 : ℕ) : F) + W 2 5 * ((2 ^ 34 : ℕ) : F) + W 2 6 * ((2 ^ 12 : ℕ) : F) + W 2 7
  inp : ∀ i < 8, W 3 (i : ℕ) = x i

theorem sat_iff (c : Cols) (inp : In) (srow : ℤ) (t : Table F) :
    Sat t (circuit c inp srow) ↔ Eqs (fun r j => t .witness (c.w j) (srow + r)) (fun i => (inp.k i).value t) := by
  have e1 : srow + 1 + -1 = srow := by ring
  have e2 : srow + 2 + -1 = srow + 1 := by ring
  have e3 : srow + 2 + 1 = srow + 3 := by ring
  have hcopy : Sat t ((List.range 8).map fun i => (Op.copy (c.wa ((i : ℕ) : ℤ) (srow + 3)) (inp.k i) : Op F)) ↔
      ∀ i < 8, t .witness (c.w ((i : ℕ) : ℤ)) (srow + 3) = (inp.k i).value t := by
    simp only [Sat, List.forall_mem_map, List.mem_range, holds_copy, Cols.value_wa]
  have a1 : (0x2000 : ℕ) = 2 ^ 13 := by norm_num
  have a2 : (0x200000000 : ℕ) = 2 ^ 33 := by norm_num
  have a3 : (0x20000000000000 : ℕ) = 2 ^ 53 := by norm_num
  have a4 : (0x2000000000000000000 : ℕ) = 2 ^ 73 := by norm_num
  have a5 : (0x200000000000000000000000 : ℕ) = 2 ^ 93 := by norm_num
  have a6 : (0x20000000000000000000000000000 : ℕ) = 2 ^ 113 := by norm_num
  have a7 : (0x2000000000000000000000000000000000 : ℕ) = 2 ^ 133 := by norm_num
  have a8 : (0x200000000000000000000000000000000000000 : ℕ) = 2 ^ 153 := by norm_num
  have a9 : (0x20000000000000000000000000000000000000000000 : ℕ) = 2 ^ 173 := by norm_num
  have a10 : (0x2000000000000000000000000000000000000000000000000 : ℕ) = 2 ^ 193 := by norm_num
  have a11 : (0x200000000000000000000000000000000000000000000000000000 : ℕ) = 2 ^ 213 := by norm_num
  have a12 : (0x20000000000000000000000000000000000000000000000000000000000 : ℕ) = 2 ^ 233 := by norm_num
  have b1 : (0x800000000000 : ℕ) = 2 ^ 47 := by norm_num
  have b2 : (0x8000000 : ℕ) = 2 ^ 27 := by norm_num
  have b3 : (0x80 : ℕ) = 2 ^ 7 := by norm_num
  rw [circuit, sat_append, hcopy]
  simp only [gate1, gate2, srExpr, sat_cons, sat_nil, holds_gate, List.mem_cons, List.not_mem_nil, or_false,
    forall_eq_or_imp, forall_eq, Expr.eval_sub, Expr.eval_add, Expr.eval_mul, Cols.eval_wv, Expr.eval_const,
    add_zero, e1, e2, e3, and_true, sub_eq_zero (b := (1 : F)), Nat.cast_one]
  rw [a1, a2, a3, a4, a5, a6, a7, a8, a9, a10, a11, a12, b1, b2, b3, ← w3, ← w4, ← w5, ← w6, ← w7, ← w2, ← w1]
  constructor
  · rintro ⟨⟨⟨h1, h2, h3⟩, h4, h5, h6⟩, h7⟩
    refine ⟨?_, ?_, ?_, ?_, ?_, ?_, ?_⟩ <;> try simp only [srOf, qOf, add_zero, w0, Nat.cast_one]
    · linear_combination h1
    · linear_combination h2
    · linear_combination h3
    · linear_combination h4
    · linear_combination h5
    · linear_combination h6
    · exact h7
  · rintro ⟨h1, h2, h3, h4, h5, h6, h7⟩
    simp only [srOf, qOf, add_zero, w0, Nat.cast_one] at h1 h2 h3 h4 h5 h6
    refine ⟨⟨⟨?_, ?_, ?_⟩, ?_, ?_, ?_⟩, h7⟩
    · linear_combination h1
    · linear_combination h2
    · linear_combination h3
    · linear_combination h4
    · linear_combination h5
    · linear_combination h6
end

/-- Any quotient and remainder that add up give values that satisfy the constraints. -/
theorem cell_eqs {p : ℕ} [Fact p.Prime] {d : ℕ → ℕ} {q r : ℕ} (h : acc d = r + q * L) (hq : q < 2 ^ 67) {W : ℤ → ℤ → ZMod p}
    (hW : ∀ m j : ℕ, (m, j) ∈ positions → W m j = cell d q r m j) : Eqs W (fun i => (d i : ZMod p)) := by
  have g : ∀ (m j : ℤ) (m' j' : ℕ), m = m' → j = j' → (m', j') ∈ positions → W m j = cell d q r m' j' := by
    rintro m j m' j' rfl rfl h; exact hW m' j' h
  have c00 : W 0 0 = (chunk r 0 : ZMod p) := g 0 0 0 0 rfl rfl (by decide)
  have c01 : W 0 1 = (chunk r 1 : ZMod p) := g 0 1 0 1 rfl rfl (by decide)
  have c02 : W 0 2 = (chunk r 2 : ZMod p) := g 0 2 0 2 rfl rfl (by decide)
  have c03 : W 0 3 = (chunk r 3 : ZMod p) := g 0 3 0 3 rfl rfl (by decide)
  have c04 : W 0 4 = (chunk r 4 : ZMod p) := g 0 4 0 4 rfl rfl (by decide)
  have c05 : W 0 5 = (chunk r 5 : ZMod p) := g 0 5 0 5 rfl rfl (by decide)
  have c06 : W 0 6 = (chunk r 6 : ZMod p) := g 0 6 0 6 rfl rfl (by decide)
  have c07 : W 0 7 = (chunk r 7 : ZMod p) := g 0 7 0 7 rfl rfl (by decide)
  have c08 : W 0 8 = (chunk r 8 : ZMod p) := g 0 8 0 8 rfl rfl (by decide)
  have c10 : W 1 0 = (chunk r 9 : ZMod p) := g 1 0 1 0 rfl rfl (by decide)
  have c11 : W 1 1 = (chunk r 10 : ZMod p) := g 1 1 1 1 rfl rfl (by decide)
  have c12 : W 1 2 = (chunk r 11 : ZMod p) := g 1 2 1 2 rfl rfl (by decide)
  have c13 : W 1 3 = ((r % 2 ^ 13 : ℕ) : ZMod p) := g 1 3 1 3 rfl rfl (by decide)
  have c14 : W 1 4 = (r : ZMod p) := g 1 4 1 4 rfl rfl (by decide)
  have c15 : W 1 5 = (sr r : ZMod p)⁻¹ := g 1 5 1 5 rfl rfl (by decide)
  have c16 : W 1 6 = 1 := g 1 6 1 6 rfl rfl (by decide)
  have c20 : W 2 0 = ((q / 2 ^ 47 % 2 ^ 20 : ℕ) : ZMod p) := g 2 0 2 0 rfl rfl (by decide)
  have c21 : W 2 1 = ((q / 2 ^ 27 % 2 ^ 20 : ℕ) : ZMod p) := g 2 1 2 1 rfl rfl (by decide)
  have c22 : W 2 2 = ((q / 2 ^ 7 % 2 ^ 20 : ℕ) : ZMod p) := g 2 2 2 2 rfl rfl (by decide)
  have c23 : W 2 3 = ((q % 2 ^ 7 : ℕ) : ZMod p) := g 2 3 2 3 rfl rfl (by decide)
  have c24 : W 2 4 = ((vQuot d q r / 2 ^ 56 : ℕ) : ZMod p) := g 2 4 2 4 rfl rfl (by decide)
  have c25 : W 2 5 = ((vQuot d q r / 2 ^ 34 % 2 ^ 22 : ℕ) : ZMod p) := g 2 5 2 5 rfl rfl (by decide)
  have c26 : W 2 6 = ((vQuot d q r / 2 ^ 12 % 2 ^ 22 : ℕ) : ZMod p) := g 2 6 2 6 rfl rfl (by decide)
  have c27 : W 2 7 = ((vQuot d q r % 2 ^ 12 : ℕ) : ZMod p) := g 2 7 2 7 rfl rfl (by decide)
  have c30 : W 3 0 = (d 0 : ZMod p) := g 3 0 3 0 rfl rfl (by decide)
  have c31 : W 3 1 = (d 1 : ZMod p) := g 3 1 3 1 rfl rfl (by decide)
  have c32 : W 3 2 = (d 2 : ZMod p) := g 3 2 3 2 rfl rfl (by decide)
  have c33 : W 3 3 = (d 3 : ZMod p) := g 3 3 3 3 rfl rfl (by decide)
  have c34 : W 3 4 = (d 4 : ZMod p) := g 3 4 3 4 rfl rfl (by decide)
  have c35 : W 3 5 = (d 5 : ZMod p) := g 3 5 3 5 rfl rfl (by decide)
  have c36 : W 3 6 = (d 6 : ZMod p) := g 3 6 3 6 rfl rfl (by decide)
  have c37 : W 3 7 = (d 7 : ZMod p) := g 3 7 3 7 rfl rfl (by decide)
  have c38 : W 3 8 = (vQuot d q r : ZMod p) := g 3 8 3 8 rfl rfl (by decide)
  have hqq : qOf W = (q : ZMod p) := by
    rw [qOf, c20, c21, c22, c23]
    simp only [← Nat.cast_mul, ← Nat.cast_add]
    rw [← q_eq hq]
  have hs : srOf W = (sr r : ZMod p) := by
    rw [srOf, sr, c00, c01, c02, c03, c04, c05, c06, c07, c08, c10, c11, c12]
    simp only [List.range_succ, List.range_zero, List.nil_append, List.cons_append, List.map_cons, List.map_nil, List.sum_cons, List.sum_nil]
    ring
  refine ⟨?_, ?_, ?_, ?_, ?_, ?_, ?_⟩
  · rw [c00, c01, c02, c03, c04, c05, c06, c07, c08, c10, c11, c12, c13, c14]
    simp only [← Nat.cast_mul, ← Nat.cast_add]
    rw [← chunks_eq]
  · rw [hs, c15]
    by_cases h0 : (sr r : ZMod p) = 0
    · rw [h0, zero_mul]
    · rw [mul_inv_cancel₀ h0, sub_self, mul_zero]
  · rw [c16]; ring
  · rw [hqq, c30, c31, c32, c33, c34, c35, c36, c37, c14]
    simp only [← Nat.cast_mul, ← Nat.cast_add]
    rw [← h, acc]
  · rw [hqq, c30, c31, c33, c34, c35, c36, c37, c38, c10, c11, c12, c13]
    simp only [← Nat.cast_mul, ← Nat.cast_add]
    rw [← low_eq, ← vQuot_eq h, cSum]
  · rw [c38, c24, c25, c26, c27]
    simp only [← Nat.cast_mul, ← Nat.cast_add]
    rw [← v_eq]
  · intro i hi
    interval_cases i
    · exact c30
    · exact c31
    · exact c32
    · exact c33
    · exact c34
    · exact c35
    · exact c36
    · exact c37

section
variable {p : ℕ} [Fact p.Prime] {c : Cols} {inp : In} {srow : ℤ} {t : Table (ZMod p)}

theorem pos_lt : ∀ q ∈ positions, q.1 < 4 ∧ q.2 < 9 := by decide

theorem grid (c : Cols) (srow : ℤ) (f : ℕ → ℕ → ZMod p) : GridWrites c srow 9 4 f
    (positions.map fun q => ⟨.witness, c.w (q.2 : ℤ), srow + (q.1 : ℤ), f q.1 q.2⟩) := by
  intro x hx
  obtain ⟨⟨r, j⟩, hq, rfl⟩ := List.mem_map.1 hx
  have : r < 4 ∧ j < 9 := pos_lt _ hq
  exact ⟨r, this.1, j, this.2, rfl⟩

/-- The words given as inputs. -/
def wordsOf (inp : In) (t : Table (ZMod p)) (i : ℕ) : ℕ := ((inp.k i).value t).val

theorem assign_frame (hc : c.OK 9) (t : Table (ZMod p)) : Frame c srow 4 t (assign c inp srow t) :=
  ((grid c srow _).own hc).frame t

theorem assign_read (hc : c.OK 9) (t : Table (ZMod p)) {m j : ℕ} (h : (m, j) ∈ positions) :
    assign c inp srow t .witness (c.w (j : ℤ)) (srow + (m : ℤ)) =
      cell (wordsOf inp t) (acc (wordsOf inp t) / L) (acc (wordsOf inp t) % L) m j :=
  (grid c srow _).read hc t (pos_lt _ h).2 (List.mem_map.2 ⟨(m, j), h, rfl⟩)

/-- The output of `generate_assignments` is the number modulo the group order, whatever the input cells hold. -/
theorem assign_result (hc : c.OK 9) (t : Table (ZMod p)) :
    (result c srow).value (assign c inp srow t) = ((number (wordsOf inp t) % L : ℕ) : ZMod p) := by
  have h := assign_read (inp := inp) (srow := srow) hc t (m := 1) (j := 4) (by decide)
  rw [result, Cols.value_wa, show srow + 4 - 3 = srow + ((1 : ℕ) : ℤ) by push_cast; ring]
  refine h.trans ?_
  show ((acc (wordsOf inp t) % L : ℕ) : ZMod p) = _
  rw [acc_mod (wordsOf inp t)]

/-- Completeness: for eight 64-bit words the honest assignment satisfies the circuit. -/
theorem reduction_complete (hc : c.OK 9) (hout : ∀ i < 8, (inp.k i).Outside srow 4) (t : Table (ZMod p))
    (h64 : ∀ i < 8, wordsOf inp t i < 2 ^ 64) : Sat (assign c inp srow t) (circuit c inp srow) := by
  rw [sat_iff]
  have hL : 0 < L := by norm_num [L]
  have hq : acc (wordsOf inp t) / L < 2 ^ 67 := by
    rw [Nat.div_lt_iff_lt_mul hL]; exact acc_lt h64
  have h : acc (wordsOf inp t) = acc (wordsOf inp t) % L + acc (wordsOf inp t) / L * L := by
    rw [mul_comm, Nat.mod_add_div]
  have := cell_eqs (p := p) h hq (W := fun r j => assign c inp srow t .witness (c.w j) (srow + r))
    (fun m j hm => assign_read hc t hm)
  refine { this with inp := fun i hi => ?_ }
  rw [this.inp i hi, (assign_frame hc t).outside (hout i hi)]
  exact ZMod.natCast_zmod_val _

/-- The widths that the comments of the code give for the cells: the limbs of the remainder, of the quotient and of `v`. -/
structure Widths (c : Cols) (srow : ℤ) (t : Table (ZMod p)) : Prop where
  r0 : ∀ j : ℕ, j < 9 → (t .witness (c.w j) srow).val < 2 ^ 20
  r1 : ∀ j : ℕ, j < 3 → (t .witness (c.w j) (srow + 1)).val < 2 ^ 20
  r2 : (t .witness (c.w 3) (srow + 1)).val < 2 ^ 13
  q : ∀ j : ℕ, j < 3 → (t .witness (c.w j) (srow + 2)).val < 2 ^ 20
  q3 : (t .witness (c.w 3) (srow + 2)).val < 2 ^ 7
  v0 : (t .witness (c.w 4) (srow + 2)).val < 2 ^ 16
  v1 : (t .witness (c.w 5) (srow + 2)).val < 2 ^ 22
  v2 : (t .witness (c.w 6) (srow + 2)).val < 2 ^ 22
  v3 : (t .witness (c.w 7) (srow + 2)).val < 2 ^ 12

/-- Every cell that a prover fills in with a quotient and a remainder that add up is accepted and has the intended width. -/
theorem fill (hp : 2 ^ 22 ≤ p) (hc : c.OK 9) (hout : ∀ i < 8, (inp.k i).Outside srow 4) (t : Table (ZMod p))
    (h64 : ∀ i < 8, wordsOf inp t i < 2 ^ 64) {q r : ℕ} (h : acc (wordsOf inp t) = r + q * L) (hq : q < 2 ^ 67) (hr : r < 2 ^ 253) :
    ∃ t', Frame c srow 4 t t' ∧ Sat t' (circuit c inp srow) ∧ Widths c srow t' ∧ (result c srow).value t' = (r : ZMod p) := by
  obtain ⟨t', hf, hg⟩ := paint hc srow 4 (cell (p := p) (wordsOf inp t) q r) t
  have hW : ∀ m j : ℕ, (m, j) ∈ positions → t' .witness (c.w j) (srow + (m : ℤ)) = cell (wordsOf inp t) q r m j :=
    fun m j hm => hg m j (pos_lt _ hm).1 (pos_lt _ hm).2
  have hv : ∀ n : ℕ, n < 2 ^ 22 → ((n : ℕ) : ZMod p).val = n := fun n hn => ZMod.val_natCast_of_lt (by omega)
  have hlt : ∀ j, chunk r j < 2 ^ 20 := fun j => by
    unfold chunk
    split_ifs
    · rw [Nat.div_lt_iff_lt_mul (by positivity), ← pow_add]; exact hr
    · exact Nat.mod_lt _ (by positivity)
  have hvq : vQuot (wordsOf inp t) q r / 2 ^ 56 < 2 ^ 16 := by
    have h1 := vQuot_eq h
    have h2 := cSum_lt h64 hq
    clear h hq hr hg hW hv hlt
    generalize cSum (wordsOf inp t) q = C at *
    norm_num at *
    omega
  refine ⟨t', hf, ?_, ?_, ?_⟩
  · rw [sat_iff]
    have := cell_eqs (p := p) h hq (W := fun r j => t' .witness (c.w j) (srow + r)) hW
    refine { this with inp := fun i hi => ?_ }
    rw [this.inp i hi, hf.outside (hout i hi)]
    exact ZMod.natCast_zmod_val _
  · have g : ∀ (m : ℤ) (j : ℤ) (m' j' n k : ℕ), m = srow + m' → j = j' → (m', j') ∈ positions → cell (p := p) (wordsOf inp t) q r m' j' = (n : ZMod p) →
        n < k → k ≤ 2 ^ 22 → (t' .witness (c.w j) m).val < k := by
      rintro m j m' j' n k rfl rfl hm e hn hk
      rw [hW m' j' hm, e, hv n (by omega)]
      exact hn
    constructor
    · intro j hj
      exact g _ _ 0 j _ _ (by simp) rfl (by interval_cases j <;> decide) rfl (hlt j) (by norm_num)
    · intro j hj
      refine g _ _ 1 j (chunk r (9 + j)) _ (by simp) rfl (by interval_cases j <;> decide) ?_ (hlt _) (by norm_num)
      interval_cases j <;> rfl
    · exact g _ _ 1 3 _ _ (by simp) rfl (by decide) rfl (Nat.mod_lt _ (by norm_num)) (by norm_num)
    · intro j hj
      refine g _ _ 2 j (q / 2 ^ (47 - 20 * j) % 2 ^ 20) _ (by simp) rfl (by interval_cases j <;> decide) ?_ (Nat.mod_lt _ (by norm_num)) (by norm_num)
      interval_cases j <;> rfl
    · exact g _ _ 2 3 _ _ (by simp) rfl (by decide) rfl (Nat.mod_lt _ (by norm_num)) (by norm_num)
    · exact g _ _ 2 4 _ _ (by simp) rfl (by decide) rfl hvq (by norm_num)
    · exact g _ _ 2 5 _ _ (by simp) rfl (by decide) rfl (Nat.mod_lt _ (by norm_num)) (by norm_num)
    · exact g _ _ 2 6 _ _ (by simp) rfl (by decide) rfl (Nat.mod_lt _ (by norm_num)) (by norm_num)
    · exact g _ _ 2 7 _ _ (by simp) rfl (by decide) rfl (Nat.mod_lt _ (by norm_num)) (by norm_num)
  · rw [result, Cols.value_wa, show srow + 4 - 3 = srow + ((1 : ℕ) : ℤ) by push_cast; ring]
    exact hW 1 4 (by decide)

/-- A remainder that is not reduced is accepted as well, with every cell of the intended width: whenever the reduced one plus the
order still has 253 bits. -/
theorem reduction_noncanonical (hp : 2 ^ 253 ≤ p) (hc : c.OK 9) (hout : ∀ i < 8, (inp.k i).Outside srow 4) (t : Table (ZMod p))
    (h64 : ∀ i < 8, wordsOf inp t i < 2 ^ 64) (hL : L ≤ acc (wordsOf inp t)) (hr : number (wordsOf inp t) % L + L < 2 ^ 253) :
    ∃ t', Frame c srow 4 t t' ∧ Sat t' (circuit c inp srow) ∧ Widths c srow t' ∧
      ((result c srow).value t').val = number (wordsOf inp t) % L + L := by
  have hL0 : 0 < L := by norm_num [L]
  have e : number (wordsOf inp t) % L = acc (wordsOf inp t) % L := (acc_mod _).symm
  have hlt : acc (wordsOf inp t) / L < 2 ^ 67 := by rw [Nat.div_lt_iff_lt_mul hL0]; exact acc_lt h64
  have hpos : 1 ≤ acc (wordsOf inp t) / L := by rw [Nat.le_div_iff_mul_le hL0]; omega
  have h : acc (wordsOf inp t) = (acc (wordsOf inp t) % L + L) + (acc (wordsOf inp t) / L - 1) * L := by
    obtain ⟨k, hk⟩ : ∃ k, acc (wordsOf inp t) / L = k + 1 := ⟨acc (wordsOf inp t) / L - 1, by omega⟩
    have := Nat.mod_add_div (acc (wordsOf inp t)) L
    rw [hk] at this ⊢
    rw [Nat.add_sub_cancel]
    calc _ = acc (wordsOf inp t) % L + L * (k + 1) := this.symm
      _ = _ := by ring
  rw [e] at hr ⊢
  obtain ⟨t', hf, hs, hw, hv⟩ := fill (inp := inp) (le_trans (by norm_num) hp) hc hout t h64 h (by omega) hr
  exact ⟨t', hf, hs, hw, by rw [hv, ZMod.val_natCast_of_lt (by omega)]⟩

/-- As the code is, nothing checks the widths, and every output is accepted for every input. -/
theorem reduction_any_output (hp : L < p) (hc : c.OK 9) (hout : ∀ i < 8, (inp.k i).Outside srow 4) (t : Table (ZMod p)) (o : ZMod p) :
    ∃ t', Frame c srow 4 t t' ∧ Sat t' (circuit c inp srow) ∧ (result c srow).value t' = o := by
  have hLp : L < p := hp
  have hL : (L : ZMod p) ≠ 0 := by
    rw [Ne, ZMod.natCast_eq_zero_iff]
    exact fun hd => absurd (Nat.le_of_dvd (by norm_num [L]) hd) (by omega)
  have h2 : ((2 ^ 69 : ℕ) : ZMod p) ≠ 0 := by
    rw [Ne, ZMod.natCast_eq_zero_iff]
    exact fun hd => absurd (Nat.le_of_dvd (by norm_num) hd) (by unfold L at hLp; omega)
  let x : ℕ → ZMod p := fun i => (inp.k i).value t
  let S : ZMod p := -((12 * (2 ^ 20 - 1) : ℕ) : ZMod p)
  let q : ZMod p := (x 0 * ((weight 0 : ℕ) : ZMod p) + x 1 * ((weight 1 : ℕ) : ZMod p) + x 2 * ((weight 2 : ℕ) : ZMod p) +
    x 3 * ((weight 3 : ℕ) : ZMod p) + x 4 * ((weight 4 : ℕ) : ZMod p) + x 5 * ((weight 5 : ℕ) : ZMod p) + x 6 * ((weight 6 : ℕ) : ZMod p) +
    x 7 * ((weight 7 : ℕ) : ZMod p) - o) / (L : ZMod p)
  let v : ZMod p := (x 0 + x 1 * ((2 ^ 64 : ℕ) : ZMod p) + x 3 * ((weight 3 % 2 ^ 73 : ℕ) : ZMod p) + x 4 * ((weight 4 % 2 ^ 73 : ℕ) : ZMod p) +
    x 5 * ((weight 5 % 2 ^ 73 : ℕ) : ZMod p) + x 6 * ((weight 6 % 2 ^ 73 : ℕ) : ZMod p) + x 7 * ((weight 7 % 2 ^ 73 : ℕ) : ZMod p) +
    q * ((2 ^ 73 - L % 2 ^ 73 : ℕ) : ZMod p) - o) / ((2 ^ 69 : ℕ) : ZMod p)
  let g : ℕ → ℕ → ZMod p := fun m j => match m, j with
    | 1, 3 => o
    | 1, 4 => o
    | 1, 5 => S⁻¹
    | 1, 6 => 1
    | 2, 3 => q
    | 2, 7 => v
    | 3, 8 => v
    | 3, j => x j
    | _, _ => 0
  obtain ⟨t', hf, hg⟩ := paint hc srow 4 g t
  have G : ∀ (m j : ℤ) (m' j' : ℕ), m = m' → j = j' → m' < 4 → j' < 9 → t' .witness (c.w j) (srow + m) = g m' j' := by
    rintro m j m' j' rfl rfl h1 h2; exact hg m' j' h1 h2
  refine ⟨t', hf, ?_, ?_⟩
  · rw [sat_iff]
    have hin : (fun i => (inp.k i).value t') = fun i => if i < 8 then x i else (inp.k i).value t' := by
      funext i
      split_ifs with hi
      · exact hf.outside (hout i hi)
      · rfl
    rw [hin]
    generalize hWd : (fun r j => t' .witness (c.w j) (srow + r)) = W
    have G' : ∀ (m j : ℤ) (m' j' : ℕ), m = m' → j = j' → m' < 4 → j' < 9 → W m j = g m' j' := by
      intro m j m' j' e1 e2 e3 e4; rw [← hWd]; exact G m j m' j' e1 e2 e3 e4
    have c00 : W 0 0 = 0 := G' 0 0 0 0 rfl rfl (by decide) (by decide)
    have c01 : W 0 1 = 0 := G' 0 1 0 1 rfl rfl (by decide) (by decide)
    have c02 : W 0 2 = 0 := G' 0 2 0 2 rfl rfl (by decide) (by decide)
    have c03 : W 0 3 = 0 := G' 0 3 0 3 rfl rfl (by decide) (by decide)
    have c04 : W 0 4 = 0 := G' 0 4 0 4 rfl rfl (by decide) (by decide)
    have c05 : W 0 5 = 0 := G' 0 5 0 5 rfl rfl (by decide) (by decide)
    have c06 : W 0 6 = 0 := G' 0 6 0 6 rfl rfl (by decide) (by decide)
    have c07 : W 0 7 = 0 := G' 0 7 0 7 rfl rfl (by decide) (by decide)
    have c08 : W 0 8 = 0 := G' 0 8 0 8 rfl rfl (by decide) (by decide)
    have c10 : W 1 0 = 0 := G' 1 0 1 0 rfl rfl (by decide) (by decide)
    have c11 : W 1 1 = 0 := G' 1 1 1 1 rfl rfl (by decide) (by decide)
    have c12 : W 1 2 = 0 := G' 1 2 1 2 rfl rfl (by decide) (by decide)
    have c13 : W 1 3 = o := G' 1 3 1 3 rfl rfl (by decide) (by decide)
    have c14 : W 1 4 = o := G' 1 4 1 4 rfl rfl (by decide) (by decide)
    have c15 : W 1 5 = S⁻¹ := G' 1 5 1 5 rfl rfl (by decide) (by decide)
    have c16 : W 1 6 = 1 := G' 1 6 1 6 rfl rfl (by decide) (by decide)
    have c20 : W 2 0 = 0 := G' 2 0 2 0 rfl rfl (by decide) (by decide)
    have c21 : W 2 1 = 0 := G' 2 1 2 1 rfl rfl (by decide) (by decide)
    have c22 : W 2 2 = 0 := G' 2 2 2 2 rfl rfl (by decide) (by decide)
    have c23 : W 2 3 = q := G' 2 3 2 3 rfl rfl (by decide) (by decide)
    have c24 : W 2 4 = 0 := G' 2 4 2 4 rfl rfl (by decide) (by decide)
    have c25 : W 2 5 = 0 := G' 2 5 2 5 rfl rfl (by decide) (by decide)
    have c26 : W 2 6 = 0 := G' 2 6 2 6 rfl rfl (by decide) (by decide)
    have c27 : W 2 7 = v := G' 2 7 2 7 rfl rfl (by decide) (by decide)
    have c30 : W 3 0 = x 0 := G' 3 0 3 0 rfl rfl (by decide) (by decide)
    have c31 : W 3 1 = x 1 := G' 3 1 3 1 rfl rfl (by decide) (by decide)
    have c32 : W 3 2 = x 2 := G' 3 2 3 2 rfl rfl (by decide) (by decide)
    have c33 : W 3 3 = x 3 := G' 3 3 3 3 rfl rfl (by decide) (by decide)
    have c34 : W 3 4 = x 4 := G' 3 4 3 4 rfl rfl (by decide) (by decide)
    have c35 : W 3 5 = x 5 := G' 3 5 3 5 rfl rfl (by decide) (by decide)
    have c36 : W 3 6 = x 6 := G' 3 6 3 6 rfl rfl (by decide) (by decide)
    have c37 : W 3 7 = x 7 := G' 3 7 3 7 rfl rfl (by decide) (by decide)
    have c38 : W 3 8 = v := G' 3 8 3 8 rfl rfl (by decide) (by decide)
    have hqq : qOf W = q := by rw [qOf, c20, c21, c22, c23]; ring
    have hs : srOf W = S := by
      rw [srOf, c00, c01, c02, c03, c04, c05, c06, c07, c08, c10, c11, c12]
      show _ = -_
      ring
    have hq : q * (L : ZMod p) = _ := div_mul_cancel₀ _ hL
    have hv : v * ((2 ^ 69 : ℕ) : ZMod p) = _ := div_mul_cancel₀ _ h2
    clear_value q v S x
    refine ⟨?_, ?_, ?_, ?_, ?_, ?_, ?_⟩
    · rw [c00, c01, c02, c03, c04, c05, c06, c07, c08, c10, c11, c12, c13, c14]
      simp only [zero_mul, add_zero]
    · rw [hs, c15]
      by_cases h0 : S = 0
      · rw [h0, zero_mul]
      · rw [mul_inv_cancel₀ h0, sub_self, mul_zero]
    · rw [c16]; ring
    · rw [hqq, c30, c31, c32, c33, c34, c35, c36, c37, c14, hq]
      ring
    · rw [hqq, c30, c31, c33, c34, c35, c36, c37, c38, c10, c11, c12, c13, hv]
      ring
    · rw [c38, c24, c25, c26, c27]; ring
    · intro i hi
      rw [if_pos hi]
      interval_cases i
      · exact c30
      · exact c31
      · exact c32
      · exact c33
      · exact c34
      · exact c35
      · exact c36
      · exact c37
  · rw [result, Cols.value_wa]
    rw [show srow + 4 - 3 = srow + 1 by ring]
    exact G 1 4 1 4 rfl rfl (by decide) (by decide)

theorem sound_core (hp : 2 ^ 253 ≤ p) {d : ℕ → ℕ} (h64 : ∀ i < 8, d i < 2 ^ 64) {low H Q V : ℕ} {o : ZMod p} (hlow : low < 2 ^ 73)
    (hR : low + 2 ^ 73 * H < 2 ^ 253) (hQ : Q < 2 ^ 67) (hV : V < 2 ^ 72) (ho : o = ((low + 2 ^ 73 * H : ℕ) : ZMod p))
    (h1 : ((acc d : ℕ) : ZMod p) = ((low + 2 ^ 73 * H + Q * L : ℕ) : ZMod p))
    (h2 : ((cSum d Q : ℕ) : ZMod p) = ((low + V * 2 ^ 69 : ℕ) : ZMod p)) :
    o.val < 2 ^ 253 ∧ o.val ≡ number d [MOD L] := by
  have hov : o.val = low + 2 ^ 73 * H := by rw [ho, ZMod.val_natCast_of_lt (by omega)]
  have hcs := cSum_lt h64 hQ
  have hac := acc_lt h64
  have e2 : cSum d Q = low + V * 2 ^ 69 := by
    have b1 : cSum d Q < p := lt_of_lt_of_le (lt_of_lt_of_le hcs (by norm_num)) hp
    have b2 : low + V * 2 ^ 69 < p := by
      refine lt_of_lt_of_le ?_ hp
      norm_num at *; omega
    have := congrArg ZMod.val h2
    rwa [ZMod.val_natCast_of_lt b1, ZMod.val_natCast_of_lt b2] at this
  have hQL : Q * L ≤ 2 ^ 67 * L := Nat.mul_le_mul_right _ hQ.le
  have m1 : acc d ≡ low + 2 ^ 73 * H + Q * L [MOD p] := (ZMod.natCast_eq_natCast_iff _ _ _).1 h1
  have m2 : acc d ≡ low + 2 ^ 73 * H + Q * L [MOD 2 ^ 69] := by
    have := cSum_eq d Q
    rw [e2] at this
    clear hR hQ hQL hac hcs h1 h2 m1 ho hov hp hV e2
    generalize d 2 * hi 2 + d 3 * hi 3 + d 4 * hi 4 + d 5 * hi 5 + d 6 * hi 6 + d 7 * hi 7 = X at *
    generalize Q * (1 + L / 2 ^ 73) = Y at *
    generalize Q * L = Z at *
    generalize acc d = A at *
    unfold Nat.ModEq
    norm_num at *
    omega
  have cop : Nat.Coprime p (2 ^ 69) := by
    apply Nat.Coprime.pow_right
    rw [Nat.coprime_primes Fact.out Nat.prime_two]
    intro e
    rw [e] at hp
    norm_num at hp
  have m := (Nat.modEq_and_modEq_iff_modEq_mul cop).1 ⟨m1, m2⟩
  have big : 2 ^ 67 * L + 2 ^ 253 ≤ p * 2 ^ 69 := le_trans (by norm_num [L]) (Nat.mul_le_mul_right (2 ^ 69) hp)
  have e1 : acc d = low + 2 ^ 73 * H + Q * L := by
    have := Nat.ModEq.eq_of_lt_of_lt m (by omega) (by omega)
    exact this
  refine ⟨by omega, ?_⟩
  rw [hov]
  refine Nat.ModEq.trans ?_ (acc_mod d)
  rw [e1]
  show _ % _ = _ % _
  rw [Nat.add_mul_mod_self_right]

/-- Soundness, if the cells have the intended widths: the output has 253 bits and is congruent to the number modulo the group order.
Missing: the circuit does not check the widths (see `reduction_any_output`), and the output need not be reduced (see
`reduction_noncanonical`). -/
theorem reduction_sound_partial (hp : 2 ^ 253 ≤ p) (h : Sat t (circuit c inp srow)) (hw : Widths c srow t)
    (h64 : ∀ i < 8, wordsOf inp t i < 2 ^ 64) :
    ((result c srow).value t).val < 2 ^ 253 ∧ ((result c srow).value t).val ≡ number (wordsOf inp t) [MOD L] := by
  rw [sat_iff] at h
  have hres : (result c srow).value t = t .witness (c.w 4) (srow + 1) := by
    rw [result, Cols.value_wa, show srow + 4 - 3 = srow + 1 by ring]
  rw [hres]
  obtain ⟨A, hA⟩ : ∃ A : ℤ → ℤ → ℕ, ∀ r j, A r j = (t .witness (c.w j) (srow + r)).val := ⟨_, fun _ _ => rfl⟩
  obtain ⟨W, hW⟩ : ∃ W : ℤ → ℤ → ZMod p, W = fun r j => t .witness (c.w j) (srow + r) := ⟨_, rfl⟩
  have key : ∀ r j, W r j = ((A r j : ℕ) : ZMod p) := fun r j => by rw [hA, hW]; exact (ZMod.natCast_zmod_val _).symm
  have a0 := hw.r0 0 (by norm_num); have a1 := hw.r0 1 (by norm_num); have a2 := hw.r0 2 (by norm_num); have a3 := hw.r0 3 (by norm_num)
  have a4 := hw.r0 4 (by norm_num); have a5 := hw.r0 5 (by norm_num); have a6 := hw.r0 6 (by norm_num); have a7 := hw.r0 7 (by norm_num)
  have a8 := hw.r0 8 (by norm_num)
  have b0 := hw.r1 0 (by norm_num); have b1 := hw.r1 1 (by norm_num); have b2 := hw.r1 2 (by norm_num); have b3 := hw.r2
  have q0 := hw.q 0 (by norm_num); have q1 := hw.q 1 (by norm_num); have q2 := hw.q 2 (by norm_num); have q3 := hw.q3
  have v0 := hw.v0; have v1 := hw.v1; have v2 := hw.v2; have v3 := hw.v3
  have z : ∀ j, (t .witness (c.w j) srow).val = A 0 j := fun j => by rw [hA, add_zero]
  simp only [z, ← hA, Nat.cast_ofNat, Nat.cast_zero, Nat.cast_one] at a0 a1 a2 a3 a4 a5 a6 a7 a8 b0 b1 b2 b3 q0 q1 q2 q3 v0 v1 v2 v3
  rw [← hW] at h
  have hout : t .witness (c.w 4) (srow + 1) = W 1 4 := by rw [hW]
  rw [hout]
  have hd : ∀ i < 8, W 3 (i : ℕ) = ((wordsOf inp t i : ℕ) : ZMod p) := fun i hi => by
    rw [h.inp i hi]; exact (ZMod.natCast_zmod_val _).symm
  have x0 : W 3 0 = _ := hd 0 (by norm_num)
  have x1 : W 3 1 = _ := hd 1 (by norm_num)
  have x2 : W 3 2 = _ := hd 2 (by norm_num)
  have x3 : W 3 3 = _ := hd 3 (by norm_num)
  have x4 : W 3 4 = _ := hd 4 (by norm_num)
  have x5 : W 3 5 = _ := hd 5 (by norm_num)
  have x6 : W 3 6 = _ := hd 6 (by norm_num)
  have x7 : W 3 7 = _ := hd 7 (by norm_num)
  have hq : qOf W = ((A 2 0 * 2 ^ 47 + A 2 1 * 2 ^ 27 + A 2 2 * 2 ^ 7 + A 2 3 : ℕ) : ZMod p) := by
    simp only [qOf, key, Nat.cast_add, Nat.cast_mul]
  have hr : W 1 4 = ((A 1 3 + A 1 2 * 2 ^ 13 + A 1 1 * 2 ^ 33 + A 1 0 * 2 ^ 53 + 2 ^ 73 * (A 0 8 + A 0 7 * 2 ^ 20 + A 0 6 * 2 ^ 40 +
      A 0 5 * 2 ^ 60 + A 0 4 * 2 ^ 80 + A 0 3 * 2 ^ 100 + A 0 2 * 2 ^ 120 + A 0 1 * 2 ^ 140 + A 0 0 * 2 ^ 160) : ℕ) : ZMod p) := by
    rw [h.r]
    simp only [key, Nat.cast_add, Nat.cast_mul, Nat.cast_pow, Nat.cast_ofNat]
    ring
  have hsum := h.sum
  have hlow := h.low
  rw [h.v, hq] at hlow
  rw [hq, hr] at hsum
  rw [x0, x1, x2, x3, x4, x5, x6, x7] at hsum
  rw [x0, x1, x3, x4, x5, x6, x7] at hlow
  simp only [key, ← Nat.cast_add, ← Nat.cast_mul] at hsum hlow
  refine sound_core hp h64 ?_ ?_ ?_ ?_ hr ?_ (V := A 2 4 * 2 ^ 56 + A 2 5 * 2 ^ 34 + A 2 6 * 2 ^ 12 + A 2 7)
    (Q := A 2 0 * 2 ^ 47 + A 2 1 * 2 ^ 27 + A 2 2 * 2 ^ 7 + A 2 3) ?_
  · clear hsum hlow hr; norm_num at *; omega
  · clear hsum hlow hr; norm_num at *; omega
  · clear hsum hlow hr; norm_num at *; omega
  · clear hsum hlow hr; norm_num at *; omega
  · exact hsum
  · exact hlow

end

/-! ### A concrete case -/

/-- Nine columns. -/
def c0 : Cols := { W := List.range 9 }
/-- The words in a public column. -/
def inp0 : In := ⟨fun i => ⟨0, i, false, .publicInput⟩⟩
/-- The number `2^255`: word 3 is `2^63`. -/
def t0 : Table (ZMod pallasP) := fun _ _ r => if r = 3 then ((2 ^ 63 : ℕ) : ZMod pallasP) else 0

theorem words0 (i : ℕ) : wordsOf inp0 t0 i = if i = 3 then 2 ^ 63 else 0 := by
  unfold wordsOf
  have e : (inp0.k i).value t0 = if i = 3 then ((2 ^ 63 : ℕ) : ZMod pallasP) else 0 := by
    have : ((i : ℕ) : ℤ) = 3 ↔ i = 3 := by omega
    simp [inp0, Var.value, t0, this]
  rw [e]
  split_ifs
  · exact ZMod.val_natCast_of_lt (by norm_num [pallasP])
  · exact ZMod.val_zero

theorem small0 : ∀ i < 8, wordsOf inp0 t0 i < 2 ^ 64 := fun i _ => by
  rw [words0]; split_ifs <;> norm_num

theorem out0 : ∀ i < 8, (inp0.k i).Outside 5 4 := fun i _ => by intro h; cases h

example : c0.OK 9 := ⟨by decide, rfl⟩

example : Sat (assign c0 inp0 5 t0) (circuit c0 inp0 5) := reduction_complete ⟨by decide, rfl⟩ out0 t0 small0

/-- The output `2^255 - 6 L` instead of `2^255 - 7 L`. -/
example : ∃ t', Frame c0 5 4 t0 t' ∧ Sat t' (circuit c0 inp0 5) ∧ Widths c0 5 t' ∧
    ((result c0 5).value t').val = number (wordsOf inp0 t0) % L + L :=
  reduction_noncanonical (by norm_num [pallasP]) ⟨by decide, rfl⟩ out0 t0 small0 (by norm_num [acc_eq, words0, L])
    (by norm_num [number, words0, L])

example : number (wordsOf inp0 t0) % L = 2 ^ 255 - 7 * L := by norm_num [number, words0, L]

/-- Non-vacuity of `reduction_sound_partial`. -/
example : ∃ t' : Table (ZMod pallasP), Sat t' (circuit c0 inp0 5) ∧ Widths c0 5 t' ∧ ∀ i < 8, wordsOf inp0 t' i < 2 ^ 64 := by
  obtain ⟨t', hf, hs, hw, -⟩ := fill (c := c0) (inp := inp0) (srow := 5) (q := 7) (r := 2 ^ 255 - 7 * L) (by norm_num [pallasP]) ⟨by decide, rfl⟩ out0 t0 small0
    (by norm_num [acc_eq, words0, L]) (by norm_num) (by norm_num [L])
  refine ⟨t', hs, hw, fun i hi => ?_⟩
  have : wordsOf inp0 t' i = wordsOf inp0 t0 i := congrArg ZMod.val (hf.outside (out0 i hi))
  rw [this]
  exact small0 i hi

end Reduction
end Verif
