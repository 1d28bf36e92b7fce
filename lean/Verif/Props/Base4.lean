import Verif.Props.RangeCheck
import Verif.Model.Chunks

/-!
# Two-bit chunk chains

Facts shared by the components that cut their inputs into two-bit chunks and accumulate them.
-/

set_option linter.unusedSimpArgs false
set_option linter.unusedVariables false
set_option linter.unusedSectionVars false

namespace Verif
open RangeCheck

section
variable {F : Type*} [Field F]

/-- A running sum that absorbs `m` chunks per step holds the Horner value of all chunks so far. -/
theorem chain4 (S : ℕ → F) (D : ℕ → ℕ → F) (m R : ℕ) (hm : 0 < m) (h0 : S 0 = 0)
    (hs : ∀ i < R, S (i + 1) = 4 ^ m * S i + horner4 (D i) m) (i : ℕ) (hi : i ≤ R) :
    S i = horner4 (fun k => D (k / m) (k % m)) (i * m) := by
  induction i with
  | zero => simpa using h0
  | succ i ih =>
    rw [hs i (by omega), ih (by omega), Nat.add_mul, Nat.one_mul, horner4_add]
    congr 1
    apply horner4_congr
    intro j hj
    rw [Nat.mul_comm, Nat.mul_add_div hm, Nat.div_eq_of_lt hj, Nat.mul_add_mod, Nat.mod_eq_of_lt hj, Nat.add_zero]

theorem chunk4_lt (pb bits x i : ℕ) : chunk4 pb bits x i < 4 := by
  unfold chunk4
  have h1 := Bool.toNat_lt (padBit pb bits x (i * 2))
  have h2 := Bool.toNat_lt (padBit pb bits x (i * 2 + 1))
  omega

theorem chunk4_pad {pb bits x i : ℕ} (hi : i * 2 + 1 < pb) : chunk4 pb bits x i = 0 := by
  have h3 : i * 2 < pb := by omega
  simp [chunk4, padBit, h3, hi]

theorem chunk4_odd {pb bits x i : ℕ} (hi : i * 2 < pb) : chunk4 pb bits x i < 2 := by
  have h4 := Bool.toNat_lt (padBit pb bits x (i * 2 + 1))
  have h5 : padBit pb bits x (i * 2) = false := by simp [padBit, hi]
  rw [chunk4, h5]; simp; omega

theorem chunk4_eq {pb bits x i P : ℕ} (hP : pb + bits = 2 * P) (hx : x < 2 ^ bits) (hi : i < P) :
    chunk4 pb bits x i = x / 4 ^ (P - 1 - i) % 4 := by
  have hbit : ∀ k < 2 * P, padBit pb bits x k = x.testBit (2 * P - 1 - k) := by
    intro k hk
    unfold padBit
    split_ifs with h
    · rw [eq_comm]
      apply Nat.testBit_lt_two_pow
      exact hx.trans_le (Nat.pow_le_pow_right (by norm_num) (by omega))
    · congr 1; omega
  unfold chunk4
  rw [hbit _ (by omega), hbit _ (by omega), Nat.toNat_testBit, Nat.toNat_testBit]
  have e1 : 2 * P - 1 - i * 2 = 2 * (P - 1 - i) + 1 := by omega
  have e2 : 2 * P - 1 - (i * 2 + 1) = 2 * (P - 1 - i) := by omega
  rw [e1, e2, pow_succ, ← Nat.div_div_eq_div_mul, pow_mul]
  have e3 : (2 ^ 2 : ℕ) = 4 := by norm_num
  rw [e3]; omega

theorem chunk4_horner {pb bits x P : ℕ} (hP : pb + bits = 2 * P) (hx : x < 2 ^ bits) (n : ℕ) (hn : n ≤ P) :
    horner4 (fun i => (chunk4 pb bits x i : F)) n = ((x / 4 ^ (P - n) : ℕ) : F) := by
  induction n with
  | zero =>
    have : x < 4 ^ P := by
      refine hx.trans_le ?_
      have : (4 : ℕ) = 2 ^ 2 := by norm_num
      rw [this, ← pow_mul]
      exact Nat.pow_le_pow_right (by norm_num) (by omega)
    simp [Nat.div_eq_of_lt this]
  | succ n ih =>
    rw [horner4_succ, ih (by omega), chunk4_eq hP hx (by omega)]
    have e1 : P - n = (P - (n + 1)) + 1 := by omega
    have e2 : P - 1 - n = P - (n + 1) := by omega
    rw [e1, e2, pow_succ, ← Nat.div_div_eq_div_mul]
    set y := x / 4 ^ (P - (n + 1))
    have : y = y / 4 * 4 + y % 4 := by omega
    conv_rhs => rw [this]
    push_cast; ring

theorem sum4_horner (pb bits x n : ℕ) : (sum4 pb bits x n : F) = horner4 (fun i => (chunk4 pb bits x i : F)) n := by
  induction n with
  | zero => rfl
  | succ n ih =>
    rw [horner4_succ, ← ih]
    simp [sum4, List.range_succ]; ring

theorem sum4_add (pb bits x n m : ℕ) : (sum4 pb bits x (n + m) : F) =
    4 ^ m * sum4 pb bits x n + horner4 (fun j => (chunk4 pb bits x (n + j) : F)) m := by
  simp only [sum4_horner]; rw [horner4_add]

end
end Verif
