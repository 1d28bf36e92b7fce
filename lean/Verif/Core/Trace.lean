import Verif.Core.Grid
import Mathlib.Data.List.GetD

/-!
# Traces laid out row by row

Several components of the Placeholder verifier put a sequence of values into the table, `n` per row, starting at
column `off`, and check each value against the few before it with a gate that may look one row back.
-/

namespace Verif

/-- The loop `for (j = s; j < e; j += k)`. -/
def forStep (s e k : ℕ) : List ℕ := (List.range ((e - s + k - 1) / k)).map fun i => s + k * i

theorem mem_forStep {s e k j : ℕ} (hk : 0 < k) : j ∈ forStep s e k ↔ j < e ∧ s ≤ j ∧ (j - s) % k = 0 := by
  simp only [forStep, List.mem_map, List.mem_range]
  constructor
  · rintro ⟨i, hi, rfl⟩
    have h1 := (Nat.le_div_iff_mul_le hk).1 (Nat.succ_le_of_lt hi)
    have h2 : (i + 1) * k = k * i + k := by ring
    rw [Nat.succ_eq_add_one, h2] at h1
    refine ⟨by omega, by omega, ?_⟩
    rw [Nat.add_sub_cancel_left]; exact Nat.mul_mod_right k i
  · rintro ⟨h1, h2, h3⟩
    have h4 := Nat.div_add_mod (j - s) k
    refine ⟨(j - s) / k, ?_, by omega⟩
    apply Nat.lt_of_succ_le
    rw [Nat.le_div_iff_mul_le hk]
    have h5 : ((j - s) / k + 1) * k = k * ((j - s) / k) + k := by ring
    rw [Nat.succ_eq_add_one, h5]; omega

theorem forStep_length (s e k : ℕ) : (forStep s e k).length = (e - s + k - 1) / k := by simp [forStep]

/-- Rows and columns visited by a loop over all rows in which the last row is cut off: the positions below `N`. -/
theorem grid_pos {w N R L : ℕ} (hR : (R - 1) * w + L = N) (h1 : 1 ≤ R) (hL : L ≤ w) (r j : ℕ) :
    (r < R ∧ j < (if r = R - 1 then L else w)) ↔ (j < w ∧ r * w + j < N) := by
  obtain ⟨q, rfl⟩ : ∃ q, R = q + 1 := ⟨R - 1, by omega⟩
  simp only [Nat.add_sub_cancel] at hR ⊢
  constructor
  · rintro ⟨a, b⟩
    split_ifs at b with h
    · subst h; omega
    · have : (r + 1) * w ≤ q * w := Nat.mul_le_mul_right _ (by omega)
      rw [Nat.add_mul, one_mul] at this
      exact ⟨b, by omega⟩
  · rintro ⟨a, b⟩
    rcases Nat.lt_trichotomy r q with h | h | h
    · exact ⟨by omega, by rw [if_neg (by omega)]; exact a⟩
    · subst h; exact ⟨by omega, by rw [if_pos rfl]; omega⟩
    · have : (q + 1) * w ≤ r * w := Nat.mul_le_mul_right _ (by omega)
      rw [Nat.add_mul, one_mul] at this
      omega

/-- Rounding up: all rows but the last are full. -/
theorem ceil_last {N w : ℕ} (hw : 0 < w) (hN : 0 < N) :
    ((N + w - 1) / w - 1) * w + (if N % w = 0 then w else N % w) = N ∧ 1 ≤ (N + w - 1) / w := by
  have e := Nat.div_add_mod N w
  have l := Nat.mod_lt N hw
  have e' : w * (N / w) = (N / w) * w := mul_comm _ _
  refine ⟨?_, by rw [Nat.le_div_iff_mul_le hw]; omega⟩
  by_cases h : N % w = 0
  · rw [if_pos h]
    have h1 : (N + w - 1) / w = N / w := by
      rw [show N + w - 1 = w * (N / w) + (w - 1) by omega, Nat.mul_add_div hw,
        Nat.div_eq_of_lt (a := w - 1) (by omega), add_zero]
    rw [h1]
    have h2 : 1 ≤ N / w := by
      rcases Nat.eq_zero_or_pos (N / w) with h0 | h0
      · rw [h0] at e; omega
      · exact h0
    obtain ⟨q, hq⟩ : ∃ q, N / w = q + 1 := ⟨N / w - 1, by omega⟩
    rw [hq] at e e' ⊢
    rw [Nat.add_sub_cancel]
    rw [Nat.add_mul, one_mul] at e'
    omega
  · rw [if_neg h]
    have h1 : (N + w - 1) / w = N / w + 1 := by
      rw [show N + w - 1 = w * (N / w) + w + (N % w - 1) by omega, Nat.add_assoc, Nat.mul_add_div hw,
        Nat.add_div_left _ hw, Nat.div_eq_of_lt (a := N % w - 1) (by omega)]
    rw [h1, Nat.add_sub_cancel]; omega

/-- Item `i` of a mapped loop. -/
theorem getD_map_forStep {α : Type*} (f : ℕ → α) (s e k i : ℕ) (d : α) (hk : 0 < k) (h : s + k * i < e) :
    ((forStep s e k).map f).getD i d = f (s + k * i) := by
  have hl : i < ((forStep s e k).map f).length := by
    rw [List.length_map, forStep_length]
    apply Nat.lt_of_succ_le
    rw [Nat.le_div_iff_mul_le hk]
    have h5 : (i + 1) * k = k * i + k := by ring
    rw [Nat.succ_eq_add_one, h5]; omega
  rw [List.getD_eq_getElem _ _ hl]
  simp [forStep]

/-- Item `k` of a trace with `n` items per row starting at column `off`. -/
def tcell {F : Type*} (c : Cols) (off n : ℕ) (srow : ℤ) (t : Table F) (k : ℕ) : F :=
  t .witness (c.w (((k % n : ℕ) : ℤ) + (off : ℤ))) (srow + ((k / n : ℕ) : ℤ))

/-- The item `k` places earlier, on the same row. -/
theorem tcell_back {F : Type*} (c : Cols) (off n : ℕ) (hn : 0 < n) (srow : ℤ) (t : Table F) {p k : ℕ} (hk : k ≤ p % n)
    {i r : ℤ} (hi : i = ((p % n : ℕ) : ℤ) + (off : ℤ) - (k : ℤ)) (hr : r = srow + ((p / n : ℕ) : ℤ)) :
    t .witness (c.w i) r = tcell c off n srow t (p - k) := by
  have e := Nat.div_add_mod p n
  have l := Nat.mod_lt p hn
  have e1 : p - k = n * (p / n) + (p % n - k) := by omega
  have e2 : (p - k) % n = p % n - k := by
    rw [e1, Nat.mul_add_mod, Nat.mod_eq_of_lt (by omega)]
  have e3 : (p - k) / n = p / n := by
    rw [e1, Nat.mul_add_div hn, Nat.div_eq_of_lt (a := p % n - k) (by omega), add_zero]
  rw [tcell, e2, e3, hi, hr]
  congr 2
  omega

/-- The item `k` places earlier, one row back. -/
theorem tcell_wrap {F : Type*} (c : Cols) (off n : ℕ) (hn : 0 < n) (srow : ℤ) (t : Table F) {p k : ℕ} (hk : p % n < k)
    (hk' : k ≤ n) (hp : n ≤ p)
    {i r : ℤ} (hi : i = (n : ℤ) + ((p % n : ℕ) : ℤ) + (off : ℤ) - (k : ℤ)) (hr : r = srow + ((p / n : ℕ) : ℤ) + -1) :
    t .witness (c.w i) r = tcell c off n srow t (p - k) := by
  have e := Nat.div_add_mod p n
  have l := Nat.mod_lt p hn
  have g : 1 ≤ p / n := (Nat.one_le_div_iff hn).2 hp
  obtain ⟨q, hq⟩ : ∃ q, p / n = q + 1 := ⟨p / n - 1, by omega⟩
  have e1 : p - k = n * q + (n + p % n - k) := by
    rw [hq, Nat.mul_add, mul_one] at e; omega
  have e2 : (p - k) % n = n + p % n - k := by
    rw [e1, Nat.mul_add_mod, Nat.mod_eq_of_lt (by omega)]
  have e3 : (p - k) / n = q := by
    rw [e1, Nat.mul_add_div hn, Nat.div_eq_of_lt (a := n + p % n - k) (by omega), add_zero]
  have e4 : srow + ((q + 1 : ℕ) : ℤ) + -1 = srow + (q : ℤ) := by push_cast; ring
  rw [tcell, e2, e3, hi, hr, hq, e4]
  congr 2
  omega

end Verif
