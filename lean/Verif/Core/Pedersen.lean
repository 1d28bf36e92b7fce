import Mathlib.Algebra.BigOperators.Group.Finset.Basic
import Mathlib.Algebra.BigOperators.Intervals
import Mathlib.GroupTheory.OrderOfElement
import Mathlib.Tactic.Ring
import Mathlib.Tactic.Linarith

/-!
# Specification of the Pedersen hash to a point

`https://zips.z.cash/protocol/protocol.pdf#concretepedersenhash`: chunks of three bits are encoded as numbers from -4 to 4 without 0; the chunks of a segment
are the digits to base 16 of the multiplier of the segment's base point.
-/

namespace Verif
namespace Pedersen

/-- `enc`: `(1 - 2 s_2) (1 + s_0 + 2 s_1)` for chunk `i` of the message. -/
def enc (m : ℕ → Bool) (i : ℕ) : ℤ := (if m (3 * i + 2) then -1 else 1) * (1 + (m (3 * i)).toNat + 2 * (m (3 * i + 1)).toNat)

/-- The hash of the message of `n` chunks with `c` chunks in a segment and base points `P`. -/
def toPoint {G : Type*} [AddCommGroup G] (c : ℕ) (P : ℕ → G) (m : ℕ → Bool) (n : ℕ) : G :=
  ∑ i ∈ Finset.range n, (enc m i * 16 ^ (i % c)) • P (i / c)

theorem enc_abs (m : ℕ → Bool) (i : ℕ) : 1 ≤ |enc m i| ∧ |enc m i| ≤ 4 := by
  unfold enc
  cases m (3 * i) <;> cases m (3 * i + 1) <;> cases m (3 * i + 2) <;> decide

/-- The multiplier of the segment of chunk `i`, up to that chunk. -/
def seg (c : ℕ) (m : ℕ → Bool) : ℕ → ℤ
  | 0 => enc m 0
  | i + 1 => if (i + 1) % c = 0 then enc m (i + 1) else seg c m i + enc m (i + 1) * 16 ^ ((i + 1) % c)

theorem step_bound {z w t : ℤ} (hz : 15 * |z| ≤ 4 * (t - 1)) (h1 : t ≤ |w|) (h4 : |w| ≤ 4 * t) :
    1 ≤ |z + w| ∧ 1 ≤ |z - w| ∧ 15 * |z + w| ≤ 4 * (16 * t - 1) ∧ 15 * |z - w| ≤ 4 * (16 * t - 1) := by
  rcases abs_cases z with ⟨a, _⟩ | ⟨a, _⟩ <;> rcases abs_cases w with ⟨b, _⟩ | ⟨b, _⟩ <;> rcases abs_cases (z + w) with ⟨e, _⟩ | ⟨e, _⟩ <;>
    rcases abs_cases (z - w) with ⟨f, _⟩ | ⟨f, _⟩ <;> rw [a] at hz <;> rw [b] at h1 h4 <;> rw [e, f] <;> omega

theorem seg_mod {c i : ℕ} (h : (i + 1) % c ≠ 0) : i % c + 1 = (i + 1) % c ∧ i / c = (i + 1) / c := by
  rcases Nat.eq_zero_or_pos c with rfl | hc
  · simp
  · have h1 := Nat.div_add_mod i c
    have h2 := Nat.mod_lt i hc
    by_cases hk : i % c + 1 = c
    · exfalso; apply h
      have : i + 1 = c * (i / c + 1) := by rw [Nat.mul_add]; omega
      rw [this]; exact Nat.mul_mod_right _ _
    · have e : i + 1 = c * (i / c) + (i % c + 1) := by omega
      constructor
      · have : (c * (i / c) + (i % c + 1)) % c = i % c + 1 := by rw [Nat.mul_add_mod]; exact Nat.mod_eq_of_lt (by omega)
        rw [← e] at this; exact this.symm
      · conv_rhs => rw [e]
        rw [Nat.mul_add_div hc, Nat.div_eq_of_lt (a := i % c + 1) (by omega), Nat.add_zero]

/-- The digit with its weight. -/
theorem digit_bound (m : ℕ → Bool) (i k : ℕ) : (16 : ℤ) ^ k ≤ |enc m i * 16 ^ k| ∧ |enc m i * 16 ^ k| ≤ 4 * 16 ^ k := by
  have hp : (0 : ℤ) < 16 ^ k := by positivity
  rw [abs_mul, abs_of_pos hp]
  have := enc_abs m i
  constructor <;> nlinarith

/-- A multiplier is not zero and not too large. -/
theorem seg_bound (c : ℕ) (m : ℕ → Bool) (i : ℕ) : 1 ≤ |seg c m i| ∧ 15 * |seg c m i| ≤ 4 * (16 ^ (i % c + 1) - 1) := by
  have first : ∀ j, j % c = 0 → 1 ≤ |enc m j| ∧ 15 * |enc m j| ≤ 4 * (16 ^ (j % c + 1) - 1) := by
    intro j hj
    have := enc_abs m j
    rw [hj]
    constructor
    · exact this.1
    · norm_num; omega
  induction i with
  | zero => exact first 0 (Nat.zero_mod c)
  | succ i ih =>
    rw [seg]
    split_ifs with h
    · exact first (i + 1) h
    · obtain ⟨e, -⟩ := seg_mod h
      rw [e] at ih
      obtain ⟨d1, d2⟩ := digit_bound m (i + 1) ((i + 1) % c)
      obtain ⟨a, _, b, _⟩ := step_bound ih.2 d1 d2
      exact ⟨a, by rw [pow_succ']; exact b⟩

/-- The partial sums of the hash: the complete segments and the current one. -/
theorem toPoint_succ {G : Type*} [AddCommGroup G] {c : ℕ} (hc : 0 < c) (P : ℕ → G) (m : ℕ → Bool) (i : ℕ) :
    toPoint c P m (i + 1) = (∑ t ∈ Finset.range (i / c), seg c m (c * t + (c - 1)) • P t) + seg c m i • P (i / c) := by
  induction i with
  | zero => simp [toPoint, seg]
  | succ i ih =>
    have hs : toPoint c P m (i + 1 + 1) = toPoint c P m (i + 1) + (enc m (i + 1) * 16 ^ ((i + 1) % c)) • P ((i + 1) / c) := by
      unfold toPoint; rw [Finset.sum_range_succ]
    rw [hs, ih, seg]
    split_ifs with h
    · have hd : c ∣ i + 1 := Nat.dvd_of_mod_eq_zero h
      obtain ⟨q, hq⟩ := hd
      obtain ⟨q, rfl⟩ : ∃ q', q = q' + 1 := ⟨q - 1, by cases q with | zero => simp at hq | succ q => rfl⟩
      have hi : i = c * q + (c - 1) := by rw [Nat.mul_add] at hq; omega
      have e1 : i / c = q := by rw [hi, Nat.mul_add_div hc, Nat.div_eq_of_lt (by omega), Nat.add_zero]
      have e2 : (i + 1) / c = q + 1 := by rw [hq, Nat.mul_div_cancel_left _ hc]
      rw [e1, e2, h, Finset.sum_range_succ, ← hi, pow_zero, mul_one]
    · obtain ⟨-, e⟩ := seg_mod h
      rw [e, add_smul, add_assoc]

/-- Small multiples of a point of order `r` are not zero. -/
theorem smul_ne {G : Type*} [AddCommGroup G] {P : G} {r : ℕ} (hr : addOrderOf P = r) {z : ℤ} (h1 : 1 ≤ |z|) (h2 : |z| < r) : z • P ≠ 0 := by
  intro h
  rw [← addOrderOf_dvd_iff_zsmul_eq_zero, hr] at h
  obtain ⟨q, rfl⟩ := h
  rw [abs_mul, Nat.abs_cast] at h1 h2
  have hq : 1 ≤ |q| := by
    by_contra hc
    have : |q| = 0 := by have := abs_nonneg q; omega
    rw [this, mul_zero] at h1
    omega
  nlinarith [Int.natCast_nonneg r]

theorem enc_inj {m m' : ℕ → Bool} {i : ℕ} (h : enc m i = enc m' i) : ∀ j < 3, m (3 * i + j) = m' (3 * i + j) := by
  have key : m (3 * i) = m' (3 * i) ∧ m (3 * i + 1) = m' (3 * i + 1) ∧ m (3 * i + 2) = m' (3 * i + 2) := by
    unfold enc at h
    revert h
    generalize m (3 * i) = a0; generalize m (3 * i + 1) = a1; generalize m (3 * i + 2) = a2
    generalize m' (3 * i) = b0; generalize m' (3 * i + 1) = b1; generalize m' (3 * i + 2) = b2
    cases a0 <;> cases a1 <;> cases a2 <;> cases b0 <;> cases b1 <;> cases b2 <;> simp
  intro j hj
  match j, hj with
  | 0, _ => exact key.1
  | 1, _ => exact key.2.1
  | 2, _ => exact key.2.2

/-- The multiplier of a segment determines its digits. -/
theorem seg_inj {c : ℕ} {m m' : ℕ → Bool} {i : ℕ} (hi : i < c) (h : seg c m i = seg c m' i) : ∀ j ≤ i, enc m j = enc m' j := by
  induction i with
  | zero => intro j hj; rw [Nat.le_zero.1 hj]; exact h
  | succ i ih =>
    have h0 : (i + 1) % c ≠ 0 := by rw [Nat.mod_eq_of_lt hi]; omega
    rw [seg, seg, if_neg h0, if_neg h0, Nat.mod_eq_of_lt hi] at h
    have b := (seg_bound c m i).2
    have b' := (seg_bound c m' i).2
    rw [Nat.mod_eq_of_lt (show i < c by omega)] at b b'
    have hp : (0 : ℤ) < 16 ^ (i + 1) := by positivity
    generalize (16 : ℤ) ^ (i + 1) = t at *
    have he : enc m (i + 1) = enc m' (i + 1) := by
      by_contra hne
      have h1 : (enc m (i + 1) - enc m' (i + 1)) * t = seg c m' i - seg c m i := by linarith
      rcases lt_or_gt_of_ne hne with hlt | hgt
      · have : (enc m (i + 1) - enc m' (i + 1)) * t ≤ -t := by nlinarith
        have h3 := neg_abs_le (seg c m' i)
        have h4 := le_abs_self (seg c m i)
        omega
      · have : t ≤ (enc m (i + 1) - enc m' (i + 1)) * t := by nlinarith
        have h3 := neg_abs_le (seg c m i)
        have h4 := le_abs_self (seg c m' i)
        omega
    have hs : seg c m i = seg c m' i := by rw [he] at h; linarith
    intro j hj
    rcases Nat.lt_or_ge j (i + 1) with hl | hl
    · exact ih (by omega) hs j (by omega)
    · rw [show j = i + 1 by omega]; exact he

/-- Messages of the same length that fit into one segment have different hashes. -/
theorem toPoint_inj {G : Type*} [AddCommGroup G] {c n r : ℕ} (hn : 1 ≤ n) (hnc : n ≤ c) {P : ℕ → G} (hr : addOrderOf (P 0) = r)
    (hb : 8 * (16 ^ n - 1) < 15 * r) {m m' : ℕ → Bool} (h : toPoint c P m n = toPoint c P m' n) : ∀ i < 3 * n, m i = m' i := by
  have hc : 0 < c := by omega
  have e : ∀ m, toPoint c P m n = seg c m (n - 1) • P 0 := fun m => by
    have := toPoint_succ hc P m (n - 1)
    rw [Nat.sub_add_cancel hn, Nat.div_eq_of_lt (by omega)] at this
    simpa using this
  rw [e, e, ← sub_eq_zero, ← sub_smul] at h
  have hb' : 8 * ((16 : ℤ) ^ n - 1) < 15 * r := by
    have h1 : 1 ≤ 16 ^ n := Nat.one_le_pow _ _ (by norm_num)
    zify [h1] at hb
    exact hb
  have b := (seg_bound c m (n - 1)).2
  have b' := (seg_bound c m' (n - 1)).2
  rw [Nat.mod_eq_of_lt (show n - 1 < c by omega), Nat.sub_add_cancel hn] at b b'
  have hz : seg c m (n - 1) = seg c m' (n - 1) := by
    by_contra hne
    refine smul_ne hr (Int.one_le_abs (sub_ne_zero.2 hne)) ?_ h
    have := abs_sub (seg c m (n - 1)) (seg c m' (n - 1))
    omega
  intro i hi
  have := enc_inj (seg_inj (show n - 1 < c by omega) hz (i / 3) (by omega)) (i % 3) (Nat.mod_lt _ (by norm_num))
  rwa [Nat.div_add_mod] at this

end Pedersen
end Verif
