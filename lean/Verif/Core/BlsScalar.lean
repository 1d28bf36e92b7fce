import Mathlib.NumberTheory.LucasPrimality
import Mathlib.Tactic.ReduceModChar
import Mathlib.Tactic.NormNum.Prime
import Mathlib.Data.Nat.Prime.Basic

/-!
# The order of the scalar field of BLS12-381 is prime

Used to show that the theorems about prime fields apply to a field that the tests of the repository use.
-/

namespace Verif

/-- The order of the groups of BLS12-381. -/
def blsR : ℕ := 52435875175126190479447740508185965837690552500527637822603658699938581184513

theorem blsR_sub : blsR - 1 = 2 ^ 32 * 3 * 11 * 19 * 10177 * 125527 * 859267 * 906349 ^ 2 * 2508409 * 2529403 * 52437899 * 254760293 ^ 2 := by
  norm_num [blsR]

theorem blsR_factor (q : ℕ) (hq : q.Prime) (h : q ∣ blsR - 1) :
    q = 2 ∨ q = 3 ∨ q = 11 ∨ q = 19 ∨ q = 10177 ∨ q = 125527 ∨ q = 859267 ∨ q = 906349 ∨ q = 2508409 ∨ q = 2529403 ∨ q = 52437899 ∨ q = 254760293 := by
  have e : ∀ r : ℕ, r.Prime → q ∣ r → q = r := fun r hr h => (Nat.prime_dvd_prime_iff_eq hq hr).1 h
  rw [blsR_sub] at h
  simp only [hq.dvd_mul, or_assoc] at h
  rcases h with h | h | h | h | h | h | h | h | h | h | h | h
  · exact Or.inl (e 2 (by norm_num) (hq.dvd_of_dvd_pow h))
  · exact Or.inr (Or.inl (e 3 (by norm_num) h))
  · have := e 11 (by norm_num) h; omega
  · have := e 19 (by norm_num) h; omega
  · have := e 10177 (by norm_num) h; omega
  · have := e 125527 (by norm_num) h; omega
  · have := e 859267 (by norm_num) h; omega
  · have := e 906349 (by norm_num) (hq.dvd_of_dvd_pow h); omega
  · have := e 2508409 (by norm_num) h; omega
  · have := e 2529403 (by norm_num) h; omega
  · have := e 52437899 (by norm_num) h; omega
  · have := e 254760293 (by norm_num) (hq.dvd_of_dvd_pow h); omega

/-- Powers modulo a number, by repeated squaring. -/
def blsPowMod (n a : ℕ) : ℕ → ℕ → ℕ
  | 0, _ => 1 % n
  | f + 1, e => if e = 0 then 1 % n else
    let r := blsPowMod n (a * a % n) f (e / 2)
    if e % 2 = 1 then a * r % n else r

theorem blsPowMod_eq (n a f e : ℕ) (h : e < 2 ^ f) : blsPowMod n a f e = a ^ e % n := by
  induction f generalizing a e with
  | zero =>
    have : e = 0 := by simpa using h
    subst this; rfl
  | succ f ih =>
    have e1 : (a * a % n) ^ (e / 2) % n = a ^ (2 * (e / 2)) % n := by rw [← Nat.pow_mod, ← pow_two, ← pow_mul]
    rw [blsPowMod, ih _ _ (by rw [pow_succ] at h; omega), e1]
    split_ifs with h0 h1
    · rw [h0, pow_zero]
    · rw [Nat.mul_mod_mod, ← pow_succ', show 2 * (e / 2) + 1 = e by omega]
    · rw [show 2 * (e / 2) = e by omega]

theorem blsR_prime : blsR.Prime := by
  have key : ∀ e, e < 2 ^ 256 → ((7 : ZMod blsR) ^ e = 1 ↔ blsPowMod blsR 7 256 e = 1) := by
    intro e he
    rw [blsPowMod_eq _ _ _ _ he, show (7 : ZMod blsR) = ((7 : ℕ) : ZMod blsR) by norm_num, ← Nat.cast_pow, show (1 : ZMod blsR) = ((1 : ℕ) : ZMod blsR) by norm_num,
      ZMod.natCast_eq_natCast_iff']
    rw [show 1 % blsR = 1 from Nat.mod_eq_of_lt (by norm_num [blsR])]
  refine lucas_primality blsR 7 ?_ ?_
  · rw [key _ (by norm_num [blsR])]; decide +kernel
  · intro q hq h
    rcases blsR_factor q hq h with rfl | rfl | rfl | rfl | rfl | rfl | rfl | rfl | rfl | rfl | rfl | rfl <;>
      rw [Ne, key _ (by norm_num [blsR])] <;> decide +kernel

instance : Fact blsR.Prime := ⟨blsR_prime⟩

end Verif
