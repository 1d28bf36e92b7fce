import Verif.Core.Montgomery
import Verif.Core.BlsScalar
import Verif.Core.Primality
import Mathlib.NumberTheory.LegendreSymbol.Basic

/-!
# Parameters of Jubjub

The Montgomery and the twisted Edwards form of Jubjub, the curve that the tests of the r1cs curve components use.
-/

namespace Verif
namespace Jubjub

/-- A number that is not a square, by Euler's criterion. -/
theorem nonsquare_of_pow (p : ℕ) [Fact p.Prime] (h256 : p < 2 ^ 256) (a : ℕ) (h0 : a % p ≠ 0) (h : powMod p 256 a (p / 2) ≠ 1) (h1 : 1 < p) : ¬ IsSquare (a : ZMod p) := by
  have ha : (a : ZMod p) ≠ 0 := by
    rw [Ne, ZMod.natCast_eq_zero_iff]; exact fun hd => h0 (Nat.mod_eq_zero_of_dvd hd)
  rw [ZMod.euler_criterion p ha]
  intro he
  apply h
  rw [powMod_eq _ _ _ _ (lt_of_le_of_lt (Nat.div_le_self _ _) h256)]
  rw [← Nat.cast_pow, ← Nat.cast_one, ZMod.natCast_eq_natCast_iff', Nat.mod_eq_of_lt h1] at he
  exact he

/-- The coefficient `d = -10240 / 10241`. -/
def d : ℕ := 19257038036680949359750312669786877991949435402254120286184196891950884077233
/-- A square root of -1. -/
def im : ℕ := 3465144826073652318776269530687742778270252468765361963008
/-- A square root of `4 / (-1 - d)`. -/
def scale : ℕ := 17814886934372412843466061268024708274627479829237077604635722030778476050649

theorem cast_eq {p a b : ℕ} (h : a % p = b % p) : (a : ZMod p) = (b : ZMod p) := (ZMod.natCast_eq_natCast_iff' a b p).2 h

theorem complete : TEd.Complete (-1 : ZMod blsR) (d : ZMod blsR) := by
  refine ⟨?_, ⟨(im : ZMod blsR), ?_, ?_⟩, ?_⟩
  · have : ((2 : ℕ) : ZMod blsR) ≠ 0 := by rw [Ne, ZMod.natCast_eq_zero_iff]; decide +kernel
    simpa using this
  · rw [Ne, ZMod.natCast_eq_zero_iff]; decide +kernel
  · have : ((im ^ 2 + 1 : ℕ) : ZMod blsR) = (0 : ℕ) := cast_eq (by decide +kernel)
    push_cast at this
    linear_combination this
  · exact nonsquare_of_pow blsR (by decide +kernel) d (by decide +kernel) (by decide +kernel) (by decide +kernel)

/-- The parameters are those of one curve. -/
theorem params : Montgomery.Params (40962 : ZMod blsR) (scale : ZMod blsR) (-1) (d : ZMod blsR) := by
  have hA : ((40962 + 40962 * d + 2 * d : ℕ) : ZMod blsR) = (2 : ℕ) := cast_eq (by decide +kernel)
  have hs : ((scale ^ 2 * (d + 1) + 4 : ℕ) : ZMod blsR) = (0 : ℕ) := cast_eq (by decide +kernel)
  push_cast at hA hs
  refine Montgomery.params_of complete (by linear_combination -hA) ?_
  have hne : (-1 - (d : ZMod blsR)) ≠ 0 := by
    intro h
    have : ((d + 1 : ℕ) : ZMod blsR) = 0 := by push_cast; linear_combination -h
    rw [ZMod.natCast_eq_zero_iff] at this
    exact absurd this (by decide +kernel)
  rw [eq_div_iff hne]
  linear_combination -hs

end Jubjub
end Verif
