import Verif.Props.ZkevmAdd
import Mathlib.Tactic.Linarith
import Mathlib.Tactic.NormNum

/-!
# zkEVM MUL: C39
-/

set_option linter.unusedSimpArgs false
set_option linter.unusedVariables false
set_option linter.unusedSectionVars false

namespace Verif
namespace Zkevm

/-! ### Four-digit arithmetic in an arbitrary base -/

/-- Low part of `X * Y + Q`. -/
def low (B : ℕ) (x y q : ℕ → ℕ) : ℕ := x 0 * y 0 + q 0 + B * (x 0 * y 1 + x 1 * y 0 + q 1)
/-- Middle part of `X * Y + Q`. -/
def mid (B : ℕ) (x y q : ℕ → ℕ) : ℕ := (x 0 * y 2 + x 1 * y 1 + x 2 * y 0 + q 2) +
  B * (x 0 * y 3 + x 1 * y 2 + x 2 * y 1 + x 3 * y 0 + q 3)
/-- Part of `X * Y` at or above `B^4`. -/
def high (B : ℕ) (x y : ℕ → ℕ) : ℕ := (x 1 * y 3 + x 2 * y 2 + x 3 * y 1) + B * (x 2 * y 3 + x 3 * y 2) + B ^ 2 * (x 3 * y 3)
/-- Four base-`B` digits. -/
def four (B : ℕ) (x : ℕ → ℕ) : ℕ := x 0 + B * x 1 + B ^ 2 * x 2 + B ^ 3 * x 3

theorem four_mul (B : ℕ) (x y q : ℕ → ℕ) :
    four B x * four B y + four B q = low B x y q + B ^ 2 * mid B x y q + B ^ 4 * high B x y := by
  unfold four low mid high; ring

/-- The carry equations imply the product relation modulo `B^4`. -/
theorem carries_sound (B : ℕ) (x y q z : ℕ → ℕ) (C1 C2 : ℕ) (h1 : low B x y q = z 0 + B * z 1 + B ^ 2 * C1)
    (h2 : mid B x y q + C1 = z 2 + B * z 3 + B ^ 2 * C2) :
    four B x * four B y + four B q = four B z + B ^ 4 * (C2 + high B x y) := by
  rw [four_mul]
  unfold four
  zify at *
  linear_combination h1 + (B : ℤ) ^ 2 * h2

theorem low_lt (B : ℕ) (hB : 0 < B) (x y q : ℕ → ℕ) (hx : ∀ i < 4, x i < B) (hy : ∀ i < 4, y i < B)
    (hq : ∀ i < 4, q i < B) : low B x y q + 2 * B ^ 2 ≤ 2 * B ^ 3 := by
  obtain ⟨b, rfl⟩ : ∃ b, B = b + 1 := ⟨B - 1, by omega⟩
  have m : ∀ i j, i < 4 → j < 4 → x i * y j ≤ b * b := fun i j hi hj =>
    Nat.mul_le_mul (by have := hx i hi; omega) (by have := hy j hj; omega)
  have q0 := hq 0 (by omega)
  have q1 := hq 1 (by omega)
  have e1 : x 0 * y 0 + q 0 ≤ b * b + b := by have := m 0 0 (by omega) (by omega); omega
  have e2 : x 0 * y 1 + x 1 * y 0 + q 1 ≤ 2 * (b * b) + b := by
    have := m 0 1 (by omega) (by omega); have := m 1 0 (by omega) (by omega); omega
  have e3 : (b + 1) * (x 0 * y 1 + x 1 * y 0 + q 1) ≤ (b + 1) * (2 * (b * b) + b) := Nat.mul_le_mul_left _ e2
  have e4 : (b * b + b) + (b + 1) * (2 * (b * b) + b) + 2 * (b + 1) ^ 2 = 2 * (b + 1) ^ 3 := by ring
  unfold low
  omega

theorem mid_lt (B : ℕ) (hB : 0 < B) (x y q : ℕ → ℕ) (hx : ∀ i < 4, x i < B) (hy : ∀ i < 4, y i < B)
    (hq : ∀ i < 4, q i < B) (C : ℕ) (hC : C + 2 ≤ 2 * B) : mid B x y q + C + 4 * B ^ 2 ≤ 4 * B ^ 3 := by
  obtain ⟨b, rfl⟩ : ∃ b, B = b + 1 := ⟨B - 1, by omega⟩
  have m : ∀ i j, i < 4 → j < 4 → x i * y j ≤ b * b := fun i j hi hj =>
    Nat.mul_le_mul (by have := hx i hi; omega) (by have := hy j hj; omega)
  have q0 := hq 2 (by omega)
  have q1 := hq 3 (by omega)
  have e1 : x 0 * y 2 + x 1 * y 1 + x 2 * y 0 + q 2 ≤ 3 * (b * b) + b := by
    have := m 0 2 (by omega) (by omega); have := m 1 1 (by omega) (by omega); have := m 2 0 (by omega) (by omega); omega
  have e2 : x 0 * y 3 + x 1 * y 2 + x 2 * y 1 + x 3 * y 0 + q 3 ≤ 4 * (b * b) + b := by
    have := m 0 3 (by omega) (by omega); have := m 1 2 (by omega) (by omega); have := m 2 1 (by omega) (by omega)
    have := m 3 0 (by omega) (by omega); omega
  have e3 : (b + 1) * (x 0 * y 3 + x 1 * y 2 + x 2 * y 1 + x 3 * y 0 + q 3) ≤ (b + 1) * (4 * (b * b) + b) :=
    Nat.mul_le_mul_left _ e2
  have e4 : (3 * (b * b) + b) + (b + 1) * (4 * (b * b) + b) + 2 * b + 4 * (b + 1) ^ 2 = 4 * (b + 1) ^ 3 := by ring
  unfold mid
  omega

/-- If the product relation holds modulo `B^4`, the carries exist and have the expected sizes. -/
theorem carries_complete (B : ℕ) (hB : 0 < B) (x y q z : ℕ → ℕ) (hx : ∀ i < 4, x i < B) (hy : ∀ i < 4, y i < B)
    (hq : ∀ i < 4, q i < B) (hz : ∀ i < 4, z i < B)
    (h : (four B x * four B y + four B q) % B ^ 4 = four B z) :
    ∃ C1 C2, C1 < 2 * B ∧ C2 < 4 * B ∧ low B x y q = z 0 + B * z 1 + B ^ 2 * C1 ∧
      mid B x y q + C1 = z 2 + B * z 3 + B ^ 2 * C2 := by
  have hl := low_lt B hB x y q hx hy hq
  have hzz : ∀ u v, u < B → v < B → u + B * v < B ^ 2 := by
    intro u v hu hv
    have : B * v + B ≤ B * B := by rw [← Nat.mul_succ]; exact Nat.mul_le_mul_left _ hv
    rw [pow_two]; omega
  have hz01 := hzz (z 0) (z 1) (hz 0 (by omega)) (hz 1 (by omega))
  have hz23 := hzz (z 2) (z 3) (hz 2 (by omega)) (hz 3 (by omega))
  have hB2 : 0 < B ^ 2 := by positivity
  set m := (four B x * four B y + four B q) / B ^ 4 with hm
  have he : four B x * four B y + four B q = four B z + B ^ 4 * m := by
    rw [← h, hm, Nat.mod_add_div]
  rw [four_mul] at he
  have he' : low B x y q + B ^ 2 * (mid B x y q + B ^ 2 * high B x y) =
      (z 0 + B * z 1) + B ^ 2 * ((z 2 + B * z 3) + B ^ 2 * m) := by
    have e : four B z = (z 0 + B * z 1) + B ^ 2 * (z 2 + B * z 3) := by unfold four; ring
    rw [e] at he
    calc _ = low B x y q + B ^ 2 * mid B x y q + B ^ 4 * high B x y := by ring
      _ = _ := by rw [he]; ring
  have s1 : low B x y q % B ^ 2 = z 0 + B * z 1 := by
    have := congrArg (· % B ^ 2) he'
    simp only [Nat.add_mul_mod_self_left] at this
    rwa [Nat.mod_eq_of_lt hz01] at this
  have d1 := Nat.mod_add_div (low B x y q) (B ^ 2)
  rw [s1] at d1
  set C1 := low B x y q / B ^ 2 with hC1
  have s2 : C1 + (mid B x y q + B ^ 2 * high B x y) = (z 2 + B * z 3) + B ^ 2 * m := by
    have : B ^ 2 * (C1 + (mid B x y q + B ^ 2 * high B x y)) = B ^ 2 * ((z 2 + B * z 3) + B ^ 2 * m) := by
      rw [← d1] at he'
      rw [mul_add]; omega
    exact Nat.eq_of_mul_eq_mul_left hB2 this
  have hC1lt : C1 + 2 ≤ 2 * B := by
    have : B ^ 2 * (C1 + 2) ≤ B ^ 2 * (2 * B) := by
      have e : B ^ 2 * (2 * B) = 2 * B ^ 3 := by ring
      rw [e, mul_add]; omega
    exact Nat.le_of_mul_le_mul_left this hB2
  have hmid := mid_lt B hB x y q hx hy hq C1 hC1lt
  have s3 : (mid B x y q + C1) % B ^ 2 = z 2 + B * z 3 := by
    have := congrArg (· % B ^ 2) s2
    simp only [Nat.add_mul_mod_self_left, ← add_assoc] at this
    rwa [Nat.mod_eq_of_lt hz23, add_comm C1] at this
  have d2 := Nat.mod_add_div (mid B x y q + C1) (B ^ 2)
  rw [s3] at d2
  refine ⟨C1, (mid B x y q + C1) / B ^ 2, by omega, ?_, d1.symm, d2.symm⟩
  have : B ^ 2 * ((mid B x y q + C1) / B ^ 2) < B ^ 2 * (4 * B) := by
    have e : B ^ 2 * (4 * B) = 4 * B ^ 3 := by ring
    rw [e]; omega
  exact Nat.lt_of_mul_lt_mul_left this

/-! ### 64-bit digits -/

/-- Integer version of `chunk_sum_64`. -/
def n64 (a : ℕ → ℕ) : ℕ → ℕ := sum64 (fun n => 2 ^ n) a

theorem n64_lt (a : ℕ → ℕ) (n : ℕ) (ha : ∀ i < 4 * n, a i < 2 ^ 16) (k : ℕ) (hk : k < n) : n64 a k < 2 ^ 64 := by
  have h0 := ha (4 * k) (by omega)
  have h1 := ha (4 * k + 1) (by omega)
  have h2 := ha (4 * k + 2) (by omega)
  have h3 := ha (4 * k + 3) (by omega)
  simp only [n64, sum64]
  omega

theorem n64_cast {F : Type*} [Field F] (a : ℕ → ℕ) (k : ℕ) : ((n64 a k : ℕ) : F) = sum64 two (fun i => (a i : F)) k := by
  simp only [n64, sum64, two]
  push_cast
  rfl

theorem digits16_four (a : ℕ → ℕ) : digits a 16 = four (2 ^ 64) (n64 a) := by
  simp only [digits, Finset.sum_range_succ, Finset.sum_range_zero, four, n64, sum64]
  ring

theorem digits4_n64 (a : ℕ → ℕ) : digits a 4 = n64 a 0 := by
  simp only [digits, Finset.sum_range_succ, Finset.sum_range_zero, n64, sum64]
  ring

theorem n64_digits (v : ℕ) (h : v < 2 ^ 64) : n64 (fun i => (chunkLoop 4 v).getD i 0) 0 = v := by
  rw [← digits4_n64, chunkLoop_digits, Nat.mod_eq_of_lt (by simpa using h)]

theorem two_128 {F : Type*} [Field F] : (two 128 : F) = ((2 ^ 64 : ℕ) : F) ^ 2 := by
  rw [two, ← Nat.cast_pow, ← pow_mul]

theorem two_192 {F : Type*} [Field F] : (two 192 : F) = ((2 ^ 64 : ℕ) : F) ^ 3 := by
  rw [two, ← Nat.cast_pow, ← pow_mul]

/-- The two carry equations of MUL and DIV in the field, for small digits, are the equations over the integers. -/
theorem field_carries {p : ℕ} [Fact p.Prime] (B : ℕ) (hB : 0 < B) (hp : 4 * B ^ 3 ≤ p) (x y q z : ℕ → ℕ)
    (hx : ∀ i < 4, x i < B) (hy : ∀ i < 4, y i < B) (hq : ∀ i < 4, q i < B) (hz : ∀ i < 4, z i < B)
    (c1 c2 c3 c4 : ℕ) (h1 : c1 < B) (h2 : c2 < 2) (h3 : c3 < B) (h4 : c4 < 4)
    (e1 : ((low B x y q : ℕ) : ZMod p) = ((z 0 + B * z 1 + B ^ 2 * (c1 + B * c2) : ℕ) : ZMod p))
    (e2 : ((mid B x y q + (c1 + B * c2) : ℕ) : ZMod p) = ((z 2 + B * z 3 + B ^ 2 * (c3 + B * c4) : ℕ) : ZMod p)) :
    low B x y q = z 0 + B * z 1 + B ^ 2 * (c1 + B * c2) ∧
      mid B x y q + (c1 + B * c2) = z 2 + B * z 3 + B ^ 2 * (c3 + B * c4) := by
  have hl := low_lt B hB x y q hx hy hq
  have hB2 : 0 < B ^ 2 := by positivity
  have hzz : ∀ u v, u < B → v < B → u + B * v < B ^ 2 := by
    intro u v hu hv
    have : B * v + B ≤ B * B := by rw [← Nat.mul_succ]; exact Nat.mul_le_mul_left _ hv
    rw [pow_two]; omega
  have hz01 := hzz (z 0) (z 1) (hz 0 (by omega)) (hz 1 (by omega))
  have hz23 := hzz (z 2) (z 3) (hz 2 (by omega)) (hz 3 (by omega))
  have b1 : c1 + B * c2 + 1 ≤ 2 * B := by
    have : B * c2 ≤ B * 1 := Nat.mul_le_mul_left _ (by omega)
    omega
  have b2 : c3 + B * c4 + 1 ≤ 4 * B := by
    have : B * c4 ≤ B * 3 := Nat.mul_le_mul_left _ (by omega)
    omega
  have b1' : B ^ 2 * (c1 + B * c2) + B ^ 2 ≤ 2 * B ^ 3 := by
    have := Nat.mul_le_mul_left (B ^ 2) b1
    have e : B ^ 2 * (2 * B) = 2 * B ^ 3 := by ring
    rw [e, mul_add] at this; omega
  have b2' : B ^ 2 * (c3 + B * c4) + B ^ 2 ≤ 4 * B ^ 3 := by
    have := Nat.mul_le_mul_left (B ^ 2) b2
    have e : B ^ 2 * (4 * B) = 4 * B ^ 3 := by ring
    rw [e, mul_add] at this; omega
  have f1 : low B x y q = z 0 + B * z 1 + B ^ 2 * (c1 + B * c2) :=
    natCast_inj_of_lt (p := p) (by omega) (by omega) e1
  refine ⟨f1, ?_⟩
  have hC : c1 + B * c2 + 2 ≤ 2 * B := by
    have : B ^ 2 * (c1 + B * c2 + 2) ≤ B ^ 2 * (2 * B) := by
      have e : B ^ 2 * (2 * B) = 2 * B ^ 3 := by ring
      rw [e, mul_add]; omega
    exact Nat.le_of_mul_le_mul_left this hB2
  have hm := mid_lt B hB x y q hx hy hq _ hC
  exact natCast_inj_of_lt (p := p) (by omega) (by omega) e2

theorem small_root4 {p : ℕ} [Fact p.Prime] (x : ZMod p) (h : x = 0 ∨ x = 1 ∨ x = 2 ∨ x = 3) :
    ∃ k : ℕ, k < 4 ∧ x = (k : ZMod p) := by
  rcases h with h | h | h | h
  · exact ⟨0, by omega, by simp [h]⟩
  · exact ⟨1, by omega, by simp [h]⟩
  · exact ⟨2, by omega, by simp [h]⟩
  · exact ⟨3, by omega, by simp [h]⟩

theorem small_root2 {p : ℕ} [Fact p.Prime] (x : ZMod p) (h : x = 0 ∨ x = 1) : ∃ k : ℕ, k < 2 ∧ x = (k : ZMod p) := by
  rcases h with h | h
  · exact ⟨0, by omega, by simp [h]⟩
  · exact ⟨1, by omega, by simp [h]⟩

/-- The MUL constraints as equations on the three rows. -/
theorem mul_iff {F : Type*} [Field F] (c : Cols) (pos : Expr F) (t : Table F) (row : ℤ) (hpos : pos.eval t row ≠ 0) :
    (∀ e ∈ mulGates c pos, e.eval t row = 0) ↔
      let a : ℕ → F := sum64 two fun i => t .witness (c.w (i : ℤ)) (row + -1)
      let b : ℕ → F := sum64 two fun i => t .witness (c.w (i : ℤ)) (row + 0)
      let r : ℕ → F := sum64 two fun i => t .witness (c.w (i : ℤ)) (row + 1)
      let c1 : F := sum64 two (fun i => t .witness (c.w ((16 + i : ℕ) : ℤ)) (row + -1)) 0
      let c3 : F := sum64 two (fun i => t .witness (c.w ((16 + i : ℕ) : ℤ)) (row + 0)) 0
      let c2 : F := t .witness (c.w 16) (row + 1)
      let c4 : F := t .witness (c.w 17) (row + 1)
      mulFirst two a b r - c1 * two 128 - c2 * two 192 = 0 ∧
      mulSecond two a b r + c1 + c2 * two 64 - c3 * two 128 - c4 * two 192 = 0 ∧
      (c2 = 0 ∨ c2 = 1) ∧ (c4 = 0 ∨ c4 = 1 ∨ c4 = 2 ∨ c4 = 3) := by
  simp only [mulGates, List.mem_cons, List.not_mem_nil, or_false, or_imp, forall_and, forall_eq]
  simp only [mulFirst, mulSecond, sum64, cE, Expr.eval_mul, Expr.eval_sub, Expr.eval_add, Cols.eval_wv, Expr.eval_one,
    Expr.eval_two, Expr.eval_three, Expr.eval_const, mul_eq_zero, hpos, false_or]
  refine and_congr Iff.rfl (and_congr Iff.rfl (and_congr ?_ ?_))
  · rw [sub_eq_zero]
  · rw [sub_eq_zero, sub_eq_zero, sub_eq_zero, or_assoc, or_assoc]

end Zkevm

open Zkevm

/-- C39 (soundness): on any row where MUL's guard and position are non-zero and whose word and carry chunks are
16-bit digits, the constraints imply that the third row's word is the product modulo `2^256`. -/
theorem mul_sound {p : ℕ} [Fact p.Prime] (hp : 2 ^ 194 ≤ p) (c : Cols) (opt pos : Expr (ZMod p)) (t : Table (ZMod p))
    (row : ℤ) (hopt : opt.eval t row ≠ 0) (hpos : pos.eval t row ≠ 0)
    (h : ∀ e ∈ guarded opt (mulGates c pos), e.eval t row = 0) (a b r k1 k3 : ℕ → ℕ)
    (ha : ∀ i < 16, a i < 2 ^ 16) (hb : ∀ i < 16, b i < 2 ^ 16) (hr : ∀ i < 16, r i < 2 ^ 16)
    (hk1 : ∀ i < 4, k1 i < 2 ^ 16) (hk3 : ∀ i < 4, k3 i < 2 ^ 16)
    (hA : ∀ i : ℕ, i < 16 → t .witness (c.w (i : ℤ)) (row - 1) = (a i : ZMod p))
    (hB : ∀ i : ℕ, i < 16 → t .witness (c.w (i : ℤ)) row = (b i : ZMod p))
    (hR : ∀ i : ℕ, i < 16 → t .witness (c.w (i : ℤ)) (row + 1) = (r i : ZMod p))
    (hK1 : ∀ i : ℕ, i < 4 → t .witness (c.w ((16 + i : ℕ) : ℤ)) (row - 1) = (k1 i : ZMod p))
    (hK3 : ∀ i : ℕ, i < 4 → t .witness (c.w ((16 + i : ℕ) : ℤ)) row = (k3 i : ZMod p)) :
    digits r 16 = digits a 16 * digits b 16 % 2 ^ 256 := by
  rw [guarded_iff _ _ _ _ hopt, mul_iff c pos t row hpos] at h
  obtain ⟨e1, e2, e3, e4⟩ := h
  obtain ⟨c2, hc2, v2⟩ := small_root2 _ e3
  obtain ⟨c4, hc4, v4⟩ := small_root4 _ e4
  have sA : ∀ k < 4, sum64 two (fun i : ℕ => t .witness (c.w (i : ℤ)) (row + -1)) k = ((n64 a k : ℕ) : ZMod p) := by
    intro k hk
    rw [n64_cast]
    simp only [sum64, ← sub_eq_add_neg]
    rw [hA _ (by omega), hA _ (by omega), hA _ (by omega), hA _ (by omega)]
  have sB : ∀ k < 4, sum64 two (fun i : ℕ => t .witness (c.w (i : ℤ)) (row + 0)) k = ((n64 b k : ℕ) : ZMod p) := by
    intro k hk
    rw [n64_cast]
    simp only [sum64, add_zero row]
    rw [hB _ (by omega), hB _ (by omega), hB _ (by omega), hB _ (by omega)]
  have sR : ∀ k < 4, sum64 two (fun i : ℕ => t .witness (c.w (i : ℤ)) (row + 1)) k = ((n64 r k : ℕ) : ZMod p) := by
    intro k hk
    rw [n64_cast]
    simp only [sum64]
    rw [hR _ (by omega), hR _ (by omega), hR _ (by omega), hR _ (by omega)]
  have s1 : sum64 two (fun i : ℕ => t .witness (c.w ((16 + i : ℕ) : ℤ)) (row + -1)) 0 = ((n64 k1 0 : ℕ) : ZMod p) := by
    rw [n64_cast]
    simp only [sum64, ← sub_eq_add_neg]
    rw [hK1 _ (by omega), hK1 _ (by omega), hK1 _ (by omega), hK1 _ (by omega)]
  have s3 : sum64 two (fun i : ℕ => t .witness (c.w ((16 + i : ℕ) : ℤ)) (row + 0)) 0 = ((n64 k3 0 : ℕ) : ZMod p) := by
    rw [n64_cast]
    simp only [sum64, add_zero row]
    rw [hK3 _ (by omega), hK3 _ (by omega), hK3 _ (by omega), hK3 _ (by omega)]
  simp only [v2, v4, s1, s3, mulFirst, mulSecond, sA 0 (by omega), sA 1 (by omega), sA 2 (by omega), sA 3 (by omega),
    sB 0 (by omega), sB 1 (by omega), sB 2 (by omega), sB 3 (by omega), sR 0 (by omega), sR 1 (by omega), sR 2 (by omega),
    sR 3 (by omega)] at e1 e2
  have key : ∀ (B : ℕ) (hB : 0 < B) (hp : 4 * B ^ 3 ≤ p) (x y z : ℕ → ℕ) (c1 c3 : ℕ),
      (∀ i < 4, x i < B) → (∀ i < 4, y i < B) → (∀ i < 4, z i < B) → c1 < B → c3 < B →
      ((x 0 : ZMod p) * y 0 + (B : ZMod p) * ((x 0 : ZMod p) * y 1 + (x 1 : ZMod p) * y 0) - z 0 - (B : ZMod p) * z 1 -
        (c1 : ZMod p) * (B : ZMod p) ^ 2 - (c2 : ZMod p) * (B : ZMod p) ^ 3 = 0) →
      ((x 0 : ZMod p) * y 2 + (x 1 : ZMod p) * y 1 + (x 2 : ZMod p) * y 0 - z 2 +
        (B : ZMod p) * ((x 0 : ZMod p) * y 3 + (x 1 : ZMod p) * y 2 + (x 2 : ZMod p) * y 1 + (x 3 : ZMod p) * y 0 - z 3) +
        (c1 : ZMod p) + (c2 : ZMod p) * (B : ZMod p) - (c3 : ZMod p) * (B : ZMod p) ^ 2 - (c4 : ZMod p) * (B : ZMod p) ^ 3 = 0) →
      four B z = four B x * four B y % B ^ 4 := by
    intro B hB hp x y z c1 c3 hx hy hz h1 h3 f1 f2
    obtain ⟨g1, g2⟩ := field_carries B hB hp x y (fun _ => 0) z hx hy (fun _ _ => hB) hz c1 c2 c3 c4 h1 hc2 h3 hc4
      (by simp only [low]; push_cast; linear_combination f1)
      (by simp only [mid]; push_cast; linear_combination f2)
    have := carries_sound B x y (fun _ => 0) z _ _ g1 g2
    have e0 : four B (fun _ => 0) = 0 := by simp [four]
    rw [e0, add_zero] at this
    rw [this, Nat.add_mul_mod_self_left, Nat.mod_eq_of_lt]
    have hz0 := hz 0 (by omega)
    have hz1 := hz 1 (by omega)
    have hz2 := hz 2 (by omega)
    have hz3 := hz 3 (by omega)
    unfold four
    have a1 : B * z 1 + B ≤ B ^ 2 := by rw [pow_two, ← Nat.mul_succ]; exact Nat.mul_le_mul_left _ hz1
    have a2 : B ^ 2 * z 2 + B ^ 2 ≤ B ^ 3 := by rw [pow_succ B 2, ← Nat.mul_succ]; exact Nat.mul_le_mul_left _ hz2
    have a3 : B ^ 3 * z 3 + B ^ 3 ≤ B ^ 4 := by rw [pow_succ B 3, ← Nat.mul_succ]; exact Nat.mul_le_mul_left _ hz3
    omega
  rw [two_128, two_192] at e1
  rw [two_128, two_192] at e2
  have := key (2 ^ 64) (by norm_num) (by norm_num at hp ⊢; omega) (n64 a) (n64 b) (n64 r) (n64 k1 0) (n64 k3 0)
    (n64_lt a 4 ha) (n64_lt b 4 hb) (n64_lt r 4 hr) (n64_lt k1 1 hk1 0 (by omega)) (n64_lt k3 1 hk3 0 (by omega)) e1 e2
  rw [digits16_four, digits16_four, digits16_four, this, ← pow_mul]

namespace Zkevm

/-- Extracting the carries of a field element `2^128 * C`. -/
theorem carry_split {p : ℕ} [Fact p.Prime] (hp : 2 ^ 194 ≤ p) (x : ZMod p) (C : ℕ) (hC : C < 2 ^ 66)
    (hx : x = ((2 ^ 128 * C : ℕ) : ZMod p)) :
    carryLo x = ((C % 2 ^ 64 : ℕ) : ZMod p) ∧ carryHi x = ((C / 2 ^ 64 : ℕ) : ZMod p) := by
  have hlt : 2 ^ 128 * C < p := by
    have : 2 ^ 128 * C < 2 ^ 128 * 2 ^ 66 := Nat.mul_lt_mul_of_pos_left hC (by positivity)
    rw [← pow_add] at this
    exact lt_of_lt_of_le this hp
  have hv : x.val = 2 ^ 128 * C := by rw [hx, ZMod.val_cast_of_lt hlt]
  have h64 : 2 ^ 64 - 1 < p := lt_of_lt_of_le (by norm_num) hp
  have hmask : (((2 ^ 64 : ℕ) : ZMod p) - 1).val = 2 ^ 64 - 1 := by
    have : (((2 ^ 64 : ℕ) : ZMod p) - 1) = ((2 ^ 64 - 1 : ℕ) : ZMod p) := by
      rw [Nat.cast_sub (by norm_num)]; simp
    rw [this, ZMod.val_cast_of_lt h64]
  have hsh : x.val >>> 128 = C := by
    rw [hv, Nat.shiftRight_eq_div_pow, Nat.mul_div_cancel_left _ (by positivity)]
  constructor
  · rw [carryLo, hsh, hmask, Nat.and_two_pow_sub_one_eq_mod]
  · rw [carryHi, hsh, Nat.shiftRight_eq_div_pow]

theorem val64_word {p : ℕ} [Fact p.Prime] (w : BitVec 256) (k : ℕ) :
    val64 (wordChunks w : List (ZMod p)) k = ((n64 (fun i => (chunkLoop 16 w.toNat).getD i 0) k : ℕ) : ZMod p) := by
  rw [n64_cast, val64]
  simp only [sum64, wordChunks_getD]

theorem ofNat_mul_digits (a b : BitVec 256) :
    (four (2 ^ 64) (n64 fun i => (chunkLoop 16 a.toNat).getD i 0) * four (2 ^ 64) (n64 fun i => (chunkLoop 16 b.toNat).getD i 0) +
      four (2 ^ 64) (fun _ => 0)) % (2 ^ 64) ^ 4 = four (2 ^ 64) (n64 fun i => (chunkLoop 16 (a * b).toNat).getD i 0) := by
  have e0 : four (2 ^ 64) (fun _ => 0) = 0 := by simp [four]
  rw [← digits16_four, ← digits16_four, ← digits16_four, word_digits, word_digits, word_digits, e0, add_zero, ← pow_mul]
  exact (BitVec.toNat_mul a b).symm

/-- The MUL rows. -/
def mulCell {p : ℕ} [Fact p.Prime] (a b : BitVec 256) (r j : ℕ) : ZMod p :=
  let A : List (ZMod p) := wordChunks a
  let B : List (ZMod p) := wordChunks b
  let R : List (ZMod p) := wordChunks (a * b)
  let x1 := mulFirst two (val64 A) (val64 B) (val64 R)
  let x2 := mulSecond two (val64 A) (val64 B) (val64 R) + carryLo x1 + carryHi x1 * two 64
  if j < 16 then (if r = 0 then A.getD j 0 else if r = 1 then B.getD j 0 else R.getD j 0)
  else if r = 0 then (chunk64 (carryLo x1)).getD (j - 16) 0
  else if r = 1 then (chunk64 (carryLo x2)).getD (j - 16) 0
  else if j = 16 then carryHi x1 else carryHi x2

theorem mul_grid {p : ℕ} [Fact p.Prime] (c : Cols) (a b : BitVec 256) (row : ℤ) :
    GridWrites c row 64 3 (mulCell (p := p) a b) (mulWrites c a b row) := by
  intro x hx
  simp only [mulWrites, List.mem_append, List.mem_map, List.mem_range, List.mem_cons, List.not_mem_nil, or_false] at hx
  rcases hx with ((((⟨i, hi, rfl⟩ | ⟨i, hi, rfl⟩) | ⟨i, hi, rfl⟩) | ⟨i, hi, rfl⟩) | ⟨i, hi, rfl⟩) | rfl | rfl
  · exact ⟨0, by omega, i, by omega, by simp [mulCell, hi]⟩
  · refine ⟨0, by omega, 16 + i, by omega, by simp [mulCell]⟩
  · exact ⟨1, by omega, i, by omega, by simp [mulCell, hi]⟩
  · refine ⟨1, by omega, 16 + i, by omega, by simp [mulCell]⟩
  · exact ⟨2, by omega, i, by omega, by simp [mulCell, hi]⟩
  · exact ⟨2, by omega, 16, by omega, by simp [mulCell]⟩
  · exact ⟨2, by omega, 17, by omega, by simp [mulCell]⟩

theorem low_cast {p : ℕ} [Fact p.Prime] (x y q : ℕ → ℕ) (B : ℕ) : ((low B x y q : ℕ) : ZMod p) =
    (x 0 : ZMod p) * y 0 + q 0 + (B : ZMod p) * ((x 0 : ZMod p) * y 1 + (x 1 : ZMod p) * y 0 + q 1) := by
  simp only [low]; push_cast; ring

theorem mid_cast {p : ℕ} [Fact p.Prime] (x y q : ℕ → ℕ) (B : ℕ) : ((mid B x y q : ℕ) : ZMod p) =
    (x 0 : ZMod p) * y 2 + (x 1 : ZMod p) * y 1 + (x 2 : ZMod p) * y 0 + q 2 + (B : ZMod p) * ((x 0 : ZMod p) * y 3 +
      (x 1 : ZMod p) * y 2 + (x 2 : ZMod p) * y 1 + (x 3 : ZMod p) * y 0 + q 3) := by
  simp only [mid]; push_cast; ring

end Zkevm

/-- C39 (completeness): for every pair of words the generated rows satisfy MUL's constraints and hold `a`, `b` and
`a * b`. -/
theorem mul_complete {p : ℕ} [Fact p.Prime] (hp : 2 ^ 194 ≤ p) (c : Cols) (hc : c.OK 64) (opt pos : Expr (ZMod p))
    (a b : BitVec 256) (row : ℤ) (t : Table (ZMod p)) :
    let t' := writeAll (mulWrites c a b row) t
    (∀ e ∈ guarded opt (mulGates c pos), e.eval t' (row + 1) = 0) ∧
      (∀ i : ℕ, i < 16 → t' .witness (c.w (i : ℤ)) row = (((chunkLoop 16 a.toNat).getD i 0 : ℕ) : ZMod p)) ∧
      (∀ i : ℕ, i < 16 → t' .witness (c.w (i : ℤ)) (row + 1) = (((chunkLoop 16 b.toNat).getD i 0 : ℕ) : ZMod p)) ∧
      (∀ i : ℕ, i < 16 → t' .witness (c.w (i : ℤ)) (row + 2) = (((chunkLoop 16 (a * b).toNat).getD i 0 : ℕ) : ZMod p)) ∧
      (∀ i : ℕ, i < 4 → (t' .witness (c.w ((16 + i : ℕ) : ℤ)) row).val < 2 ^ 16 ∧
        (t' .witness (c.w ((16 + i : ℕ) : ℤ)) (row + 1)).val < 2 ^ 16) := by
  intro t'
  have hread : ∀ r j : ℕ, j < 64 → ∀ v : ZMod p, mulCell (p := p) a b r j = v →
      (⟨.witness, c.w (j : ℤ), row + (r : ℤ), v⟩ : Write (ZMod p)) ∈ mulWrites c a b row →
      t' .witness (c.w (j : ℤ)) (row + (r : ℤ)) = v := by
    intro r j hj v hv hm
    rw [← hv] at hm ⊢
    exact (mul_grid (p := p) c a b row).read hc t (r := r) hj hm
  set A : List (ZMod p) := wordChunks a with hAd
  set B : List (ZMod p) := wordChunks b with hBd
  set R : List (ZMod p) := wordChunks (a * b) with hRd
  set x1 := mulFirst two (val64 A) (val64 B) (val64 R) with hx1
  set x2 := mulSecond two (val64 A) (val64 B) (val64 R) + carryLo x1 + carryHi x1 * two 64 with hx2
  let na : ℕ → ℕ := fun i => (chunkLoop 16 a.toNat).getD i 0
  let nb : ℕ → ℕ := fun i => (chunkLoop 16 b.toNat).getD i 0
  let nr : ℕ → ℕ := fun i => (chunkLoop 16 (a * b).toNat).getD i 0
  obtain ⟨C1, C2, hC1, hC2, g1, g2⟩ := carries_complete (2 ^ 64) (by norm_num) (n64 na) (n64 nb) (fun _ => 0) (n64 nr)
    (n64_lt na 4 fun i _ => chunkLoop_lt _ _ _) (n64_lt nb 4 fun i _ => chunkLoop_lt _ _ _) (fun _ _ => by norm_num)
    (n64_lt nr 4 fun i _ => chunkLoop_lt _ _ _) (ofNat_mul_digits a b)
  have p64 : (2 : ℕ) ^ 64 ≤ p := le_trans (Nat.pow_le_pow_right (by omega) (by omega)) hp
  have p16 : (2 : ℕ) ^ 16 ≤ p := le_trans (Nat.pow_le_pow_right (by omega) (by omega)) hp
  have g1' := congrArg (fun n : ℕ => (n : ZMod p)) g1
  have g2' := congrArg (fun n : ℕ => (n : ZMod p)) g2
  simp only [Nat.cast_add, Nat.cast_mul, low_cast, mid_cast, Nat.cast_zero, add_zero] at g1' g2'
  rw [Nat.cast_pow (2 ^ 64) 2] at g1' g2'
  have vx1 : x1 = ((2 ^ 128 * C1 : ℕ) : ZMod p) := by
    rw [hx1, mulFirst]
    simp only [hAd, hBd, hRd, val64_word, two]
    rw [show (2 : ℕ) ^ 128 = (2 ^ 64) ^ 2 by norm_num, Nat.cast_mul, Nat.cast_pow (2 ^ 64) 2]
    linear_combination g1'
  obtain ⟨lo1, hi1⟩ := carry_split hp x1 C1 (by omega) vx1
  have split : ∀ C : ℕ, ((C % 2 ^ 64 : ℕ) : ZMod p) + ((2 ^ 64 : ℕ) : ZMod p) * ((C / 2 ^ 64 : ℕ) : ZMod p) = (C : ZMod p) := by
    intro C
    rw [← Nat.cast_mul, ← Nat.cast_add, Nat.mod_add_div]
  have vx2 : x2 = ((2 ^ 128 * C2 : ℕ) : ZMod p) := by
    rw [hx2, lo1, hi1, mulSecond]
    simp only [hAd, hBd, hRd, val64_word, two]
    rw [show (2 : ℕ) ^ 128 = (2 ^ 64) ^ 2 by norm_num, Nat.cast_mul, Nat.cast_pow (2 ^ 64) 2]
    linear_combination g2' + split C1
  obtain ⟨lo2, hi2⟩ := carry_split hp x2 C2 (by omega) vx2
  have h0 : ∀ i : ℕ, i < 16 → t' .witness (c.w (i : ℤ)) row = (na i : ZMod p) := by
    intro i hi
    have := hread 0 i (by omega) (A.getD i 0) (by simp [mulCell, hi, ← hAd]) (by
      simp only [mulWrites, List.mem_append, List.mem_map, List.mem_range]
      exact Or.inl (Or.inl (Or.inl (Or.inl (Or.inl ⟨i, hi, by simp [← hAd]⟩)))))
    rw [hAd, wordChunks_getD] at this
    simp only [Nat.cast_zero, add_zero, Nat.cast_one, Nat.cast_ofNat] at this
    exact this
  have h1 : ∀ i : ℕ, i < 16 → t' .witness (c.w (i : ℤ)) (row + 1) = (nb i : ZMod p) := by
    intro i hi
    have := hread 1 i (by omega) (B.getD i 0) (by simp [mulCell, hi, ← hBd]) (by
      simp only [mulWrites, List.mem_append, List.mem_map, List.mem_range]
      exact Or.inl (Or.inl (Or.inl (Or.inr ⟨i, hi, by simp [← hBd]⟩))))
    rw [hBd, wordChunks_getD] at this
    simp only [Nat.cast_zero, add_zero, Nat.cast_one, Nat.cast_ofNat] at this
    exact this
  have h2 : ∀ i : ℕ, i < 16 → t' .witness (c.w (i : ℤ)) (row + 2) = (nr i : ZMod p) := by
    intro i hi
    have := hread 2 i (by omega) (R.getD i 0) (by simp [mulCell, hi, ← hRd]) (by
      simp only [mulWrites, List.mem_append, List.mem_map, List.mem_range]
      exact Or.inl (Or.inr ⟨i, hi, by simp [← hRd]⟩))
    rw [hRd, wordChunks_getD] at this
    simp only [Nat.cast_zero, add_zero, Nat.cast_one, Nat.cast_ofNat] at this
    exact this
  have hlo1 : (carryLo x1).val = C1 % 2 ^ 64 := by
    rw [lo1, ZMod.val_cast_of_lt (lt_of_lt_of_le (Nat.mod_lt _ (by norm_num)) p64)]
  have hlo2 : (carryLo x2).val = C2 % 2 ^ 64 := by
    rw [lo2, ZMod.val_cast_of_lt (lt_of_lt_of_le (Nat.mod_lt _ (by norm_num)) p64)]
  have h3 : ∀ i : ℕ, i < 4 → t' .witness (c.w ((16 + i : ℕ) : ℤ)) row = (((chunkLoop 4 (C1 % 2 ^ 64)).getD i 0 : ℕ) : ZMod p) := by
    intro i hi
    have := hread 0 (16 + i) (by omega) ((chunk64 (carryLo x1)).getD i 0)
      (by rw [mulCell, if_neg (by omega), if_pos rfl, Nat.add_sub_cancel_left]) (by
      simp only [mulWrites, List.mem_append, List.mem_map, List.mem_range]
      exact Or.inl (Or.inl (Or.inl (Or.inl (Or.inr ⟨i, hi, by simp [← hAd, ← hBd, ← hRd, ← hx1]⟩)))))
    rw [chunk64_getD, hlo1] at this
    simpa using this
  have h4 : ∀ i : ℕ, i < 4 → t' .witness (c.w ((16 + i : ℕ) : ℤ)) (row + 1) = (((chunkLoop 4 (C2 % 2 ^ 64)).getD i 0 : ℕ) : ZMod p) := by
    intro i hi
    have := hread 1 (16 + i) (by omega) ((chunk64 (carryLo x2)).getD i 0)
      (by rw [mulCell, if_neg (by omega), if_neg (by omega), if_pos rfl, Nat.add_sub_cancel_left]) (by
      simp only [mulWrites, List.mem_append, List.mem_map, List.mem_range]
      exact Or.inl (Or.inl (Or.inr ⟨i, hi, by simp [← hAd, ← hBd, ← hRd, ← hx1, ← hx2]⟩)))
    rw [chunk64_getD, hlo2] at this
    simpa using this
  have h5 : t' .witness (c.w 16) (row + 2) = ((C1 / 2 ^ 64 : ℕ) : ZMod p) := by
    have := hread 2 16 (by omega) (carryHi x1) (by
      rw [mulCell, if_neg (by omega), if_neg (by omega), if_neg (by omega), if_pos rfl]) (by
      simp only [mulWrites, List.mem_append, List.mem_cons]
      exact Or.inr (Or.inl (by simp [← hAd, ← hBd, ← hRd, ← hx1])))
    rw [hi1] at this
    simpa using this
  have h6 : t' .witness (c.w 17) (row + 2) = ((C2 / 2 ^ 64 : ℕ) : ZMod p) := by
    have := hread 2 17 (by omega) (carryHi x2) (by
      rw [mulCell, if_neg (by omega), if_neg (by omega), if_neg (by omega), if_neg (by omega)]) (by
      simp only [mulWrites, List.mem_append, List.mem_cons]
      exact Or.inr (Or.inr (Or.inl (by simp [← hAd, ← hBd, ← hRd, ← hx1, ← hx2]))))
    rw [hi2] at this
    simpa using this
  refine ⟨?_, h0, h1, h2, ?_⟩
  swap
  · intro i hi
    rw [h3 i hi, h4 i hi]
    exact ⟨by rw [ZMod.val_cast_of_lt (lt_of_lt_of_le (chunkLoop_lt _ _ _) p16)]; exact chunkLoop_lt _ _ _,
      by rw [ZMod.val_cast_of_lt (lt_of_lt_of_le (chunkLoop_lt _ _ _) p16)]; exact chunkLoop_lt _ _ _⟩
  intro e he
  simp only [guarded, List.mem_map] at he
  obtain ⟨e', he', rfl⟩ := he
  rw [Expr.eval_mul]
  have key : e'.eval t' (row + 1) = 0 := by
    by_cases hpos : pos.eval t' (row + 1) = 0
    · simp only [mulGates, List.mem_cons, List.not_mem_nil, or_false] at he'
      rcases he' with rfl | rfl | rfl | rfl <;> simp [hpos]
    · refine (mul_iff c pos t' (row + 1) hpos).2 ?_ e' he'
      have sA : ∀ k < 4, sum64 two (fun i : ℕ => t' .witness (c.w (i : ℤ)) (row + 1 + -1)) k = ((n64 na k : ℕ) : ZMod p) := by
        intro k hk
        rw [n64_cast]
        simp only [sum64, add_neg_cancel_right]
        rw [h0 _ (by omega), h0 _ (by omega), h0 _ (by omega), h0 _ (by omega)]
      have sB : ∀ k < 4, sum64 two (fun i : ℕ => t' .witness (c.w (i : ℤ)) (row + 1 + 0)) k = ((n64 nb k : ℕ) : ZMod p) := by
        intro k hk
        rw [n64_cast]
        simp only [sum64, add_zero (row + 1)]
        rw [h1 _ (by omega), h1 _ (by omega), h1 _ (by omega), h1 _ (by omega)]
      have e12 : row + 1 + 1 = row + 2 := by ring
      have sR : ∀ k < 4, sum64 two (fun i : ℕ => t' .witness (c.w (i : ℤ)) (row + 1 + 1)) k = ((n64 nr k : ℕ) : ZMod p) := by
        intro k hk
        rw [n64_cast]
        simp only [sum64, e12]
        rw [h2 _ (by omega), h2 _ (by omega), h2 _ (by omega), h2 _ (by omega)]
      have s1 : sum64 two (fun i : ℕ => t' .witness (c.w ((16 + i : ℕ) : ℤ)) (row + 1 + -1)) 0 = ((C1 % 2 ^ 64 : ℕ) : ZMod p) := by
        rw [← n64_digits (C1 % 2 ^ 64) (Nat.mod_lt _ (by norm_num)), n64_cast]
        simp only [sum64, add_neg_cancel_right]
        rw [h3 _ (by omega), h3 _ (by omega), h3 _ (by omega), h3 _ (by omega)]
      have s3 : sum64 two (fun i : ℕ => t' .witness (c.w ((16 + i : ℕ) : ℤ)) (row + 1 + 0)) 0 = ((C2 % 2 ^ 64 : ℕ) : ZMod p) := by
        rw [← n64_digits (C2 % 2 ^ 64) (Nat.mod_lt _ (by norm_num)), n64_cast]
        simp only [sum64, add_zero (row + 1)]
        rw [h4 _ (by omega), h4 _ (by omega), h4 _ (by omega), h4 _ (by omega)]
      simp only [e12] at sR ⊢
      rw [h5, h6]
      simp only [s1, s3, mulFirst, mulSecond, sA 0 (by omega), sA 1 (by omega), sA 2 (by omega), sA 3 (by omega),
        sB 0 (by omega), sB 1 (by omega), sB 2 (by omega), sB 3 (by omega), sR 0 (by omega), sR 1 (by omega),
        sR 2 (by omega), sR 3 (by omega)]
      rw [two_128, two_192, show (two 64 : ZMod p) = ((2 ^ 64 : ℕ) : ZMod p) from rfl]
      refine ⟨?_, ?_, ?_, ?_⟩
      · linear_combination g1' - ((2 ^ 64 : ℕ) : ZMod p) ^ 2 * split C1
      · linear_combination g2' + split C1 - ((2 ^ 64 : ℕ) : ZMod p) ^ 2 * split C2
      · have : C1 / 2 ^ 64 < 2 := by omega
        generalize C1 / 2 ^ 64 = n at this
        interval_cases n <;> simp
      · have : C2 / 2 ^ 64 < 4 := by omega
        generalize C2 / 2 ^ 64 = n at this
        interval_cases n <;> simp
  rw [key, mul_zero]

/-- Non-vacuity: the rows generated for `2^255` and `3` meet the hypotheses of `mul_sound`. -/
example {p : ℕ} [Fact p.Prime] (hp : 2 ^ 194 ≤ p) : ∃ (t : Table (ZMod p)) (a b r k1 k3 : ℕ → ℕ),
    (∀ e ∈ guarded (1 : Expr (ZMod p)) (mulGates ⟨List.range 64, [], []⟩ 1), e.eval t 1 = 0) ∧
    (∀ i < 16, a i < 2 ^ 16) ∧ (∀ i < 16, b i < 2 ^ 16) ∧ (∀ i < 16, r i < 2 ^ 16) ∧ (∀ i < 4, k1 i < 2 ^ 16) ∧
    (∀ i < 4, k3 i < 2 ^ 16) ∧ a 15 = 32768 ∧ b 0 = 3 ∧
    (∀ i : ℕ, i < 16 → t .witness ((⟨List.range 64, [], []⟩ : Cols).w (i : ℤ)) 0 = (a i : ZMod p)) ∧
    (∀ i : ℕ, i < 16 → t .witness ((⟨List.range 64, [], []⟩ : Cols).w (i : ℤ)) 1 = (b i : ZMod p)) ∧
    (∀ i : ℕ, i < 16 → t .witness ((⟨List.range 64, [], []⟩ : Cols).w (i : ℤ)) 2 = (r i : ZMod p)) ∧
    (∀ i : ℕ, i < 4 → t .witness ((⟨List.range 64, [], []⟩ : Cols).w ((16 + i : ℕ) : ℤ)) 0 = (k1 i : ZMod p)) ∧
    (∀ i : ℕ, i < 4 → t .witness ((⟨List.range 64, [], []⟩ : Cols).w ((16 + i : ℕ) : ℤ)) 1 = (k3 i : ZMod p)) := by
  obtain ⟨h1, h2, h3, h4, h5⟩ := mul_complete hp ⟨List.range 64, [], []⟩ ⟨List.nodup_range, by simp⟩ 1 1
    (BitVec.ofNat 256 (2 ^ 255)) 3#256 0 (fun _ _ _ => 0)
  exact ⟨_, fun i => (chunkLoop 16 (BitVec.ofNat 256 (2 ^ 255)).toNat).getD i 0, fun i => (chunkLoop 16 (3#256).toNat).getD i 0,
    fun i => (chunkLoop 16 (BitVec.ofNat 256 (2 ^ 255) * 3#256).toNat).getD i 0, _, _, h1, fun i _ => chunkLoop_lt _ _ i,
    fun i _ => chunkLoop_lt _ _ i, fun i _ => chunkLoop_lt _ _ i, fun i hi => (h5 i hi).1, fun i hi => (h5 i hi).2,
    by decide, by decide, h2, h3, h4, fun i hi => (ZMod.natCast_zmod_val _).symm, fun i hi => (ZMod.natCast_zmod_val _).symm⟩

end Verif
