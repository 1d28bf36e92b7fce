import Mathlib.Algebra.BigOperators.Intervals
import Mathlib.Algebra.BigOperators.Ring.Finset
import Mathlib.Algebra.Order.BigOperators.Group.Finset
import Mathlib.Tactic.Ring
import Mathlib.Tactic.Linarith

/-!
# Numbers from digits

`val b n f` is the number with the `n` digits `f 0, …, f (n - 1)` to the base `b`, the lowest first.
-/

namespace Verif
namespace Digits

/-- The number with digits `f`. -/
def val (b n : ℕ) (f : ℕ → ℕ) : ℕ := ∑ i ∈ Finset.range n, f i * b ^ i

theorem val_zero (b : ℕ) (f : ℕ → ℕ) : val b 0 f = 0 := rfl

theorem val_succ (b n : ℕ) (f : ℕ → ℕ) : val b (n + 1) f = val b n f + f n * b ^ n := by simp [val, Finset.sum_range_succ]

/-- The lowest digit first. -/
theorem val_succ' (b n : ℕ) (f : ℕ → ℕ) : val b (n + 1) f = f 0 + b * val b n (fun i => f (i + 1)) := by
  unfold val
  rw [Finset.sum_range_succ', Finset.mul_sum]
  simp only [pow_zero, mul_one, pow_succ]
  rw [add_comm]
  congr 1
  exact Finset.sum_congr rfl fun i _ => by ring

theorem val_congr {b n : ℕ} {f g : ℕ → ℕ} (h : ∀ i < n, f i = g i) : val b n f = val b n g :=
  Finset.sum_congr rfl fun i hi => by rw [h i (Finset.mem_range.mp hi)]

theorem val_add (b n : ℕ) (f g : ℕ → ℕ) : val b n (fun i => f i + g i) = val b n f + val b n g := by
  simp only [val, add_mul, Finset.sum_add_distrib]

theorem val_mul (b n k : ℕ) (f : ℕ → ℕ) : val b n (fun i => k * f i) = k * val b n f := by
  simp only [val, Finset.mul_sum, mul_assoc]

theorem val_lt {b n : ℕ} {f : ℕ → ℕ} (h : ∀ i < n, f i < b) : val b n f < b ^ n := by
  induction n with
  | zero => simp [val]
  | succ n ih =>
    have h1 := ih fun i hi => h i (by omega)
    have h2 := h n (by omega)
    rw [val_succ, pow_succ]
    have : f n * b ^ n + b ^ n ≤ b ^ n * b := by
      have : (f n + 1) * b ^ n ≤ b * b ^ n := Nat.mul_le_mul_right _ h2
      linarith
    omega

/-- Digits below the base are determined by the number. -/
theorem val_inj {b n : ℕ} {f g : ℕ → ℕ} (hf : ∀ i < n, f i < b) (hg : ∀ i < n, g i < b) (h : val b n f = val b n g) :
    ∀ i < n, f i = g i := by
  induction n with
  | zero => intro i hi; omega
  | succ n ih =>
    have h1 : val b n f < b ^ n := val_lt fun i hi => hf i (by omega)
    have h2 : val b n g < b ^ n := val_lt fun i hi => hg i (by omega)
    rw [val_succ, val_succ] at h
    have hb : 0 < b ^ n := by omega
    have h3 : f n = g n := by
      have e1 : (val b n f + f n * b ^ n) / b ^ n = f n := by
        rw [Nat.add_mul_div_right _ _ hb, Nat.div_eq_of_lt h1, zero_add]
      have e2 : (val b n g + g n * b ^ n) / b ^ n = g n := by
        rw [Nat.add_mul_div_right _ _ hb, Nat.div_eq_of_lt h2, zero_add]
      rw [← e1, h, e2]
    rw [h3] at h
    intro i hi
    by_cases hin : i = n
    · subst hin; exact h3
    · exact ih (fun i hi => hf i (by omega)) (fun i hi => hg i (by omega)) (by omega) i (by omega)

/-- A block of digits of a longer number. -/
theorem val_split (b m n : ℕ) (f : ℕ → ℕ) : val b (m + n) f = val b m f + b ^ m * val b n (fun i => f (m + i)) := by
  induction n with
  | zero => simp [val]
  | succ n ih => rw [← add_assoc, val_succ, ih, val_succ, pow_add]; ring

/-- The bits of a number. -/
theorem val_testBit (n x : ℕ) (hx : x < 2 ^ n) : val 2 n (fun i => (x.testBit i).toNat) = x := by
  induction n generalizing x with
  | zero => simp [val]; omega
  | succ n ih =>
    rw [val_succ']
    have h := ih (x / 2) (by rw [pow_succ] at hx; omega)
    have h2 : (fun i => (x.testBit (i + 1)).toNat) = fun i => ((x / 2).testBit i).toNat := by
      funext i; rw [Nat.testBit_succ]
    rw [h2, h, Nat.testBit_zero]
    rcases Nat.mod_two_eq_zero_or_one x with h | h <;> simp [h] <;> omega

/-- The bits of a number given by bits. -/
theorem testBit_val (n : ℕ) (f : ℕ → Bool) (i : ℕ) : (val 2 n fun j => (f j).toNat).testBit i = (decide (i < n) && f i) := by
  induction n generalizing f i with
  | zero => simp [val]
  | succ n ih =>
    rw [val_succ']
    cases i with
    | zero => rw [Nat.testBit_zero]; cases f 0 <;> simp [Nat.add_mod]
    | succ i =>
      rw [Nat.testBit_succ]
      have : ((f 0).toNat + 2 * val 2 n (fun i => (f (i + 1)).toNat)) / 2 = val 2 n fun i => (f (i + 1)).toNat := by
        cases f 0 <;> (simp; try omega)
      rw [this, ih (fun j => f (j + 1)) i]
      simp

/-- Horner's scheme, the highest digit first. -/
theorem horner (b n : ℕ) (f g : ℕ → ℕ) :
    (((List.range n).map fun j => f (n - 1 - j)).foldl (fun acc r => acc * b + g r) 0) = val b n (fun i => g (f i)) := by
  suffices h : ∀ a, (((List.range n).map fun j => f (n - 1 - j)).foldl (fun acc r => acc * b + g r) a) =
      a * b ^ n + val b n (fun i => g (f i)) by simpa using h 0
  induction n with
  | zero => intro a; simp [val]
  | succ n ih =>
    intro a
    rw [List.range_succ_eq_map]
    simp only [List.map_cons, List.map_map, List.foldl_cons]
    have : (List.map ((fun j => f (n + 1 - 1 - j)) ∘ Nat.succ) (List.range n)) = (List.range n).map fun j => f (n - 1 - j) := by
      apply List.map_congr_left
      intro j _
      simp only [Function.comp]
      congr 1
      omega
    rw [this, ih, val_succ]
    simp only [Nat.add_sub_cancel, Nat.sub_zero]
    ring

end Digits
end Verif
