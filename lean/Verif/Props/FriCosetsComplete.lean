import Verif.Props.FriCosets
import Mathlib.Tactic.NormNum.Prime

/-!
# C67: the assignment of the coset generator
-/

set_option linter.unusedSimpArgs false
set_option linter.unusedVariables false
set_option linter.unusedSectionVars false

namespace Verif
namespace FriCosets

section
variable {F : Type*} [Field F]

theorem sgn_shift (X Y q : ℕ) : (sgn (X / 2 ^ q) (Y / 2 ^ q) : F) =
    (((Y / 2 ^ q % 2 : ℕ) : F) - ((X / 2 ^ q % 2 : ℕ) : F)) * (1 - sgn (X / 2 ^ (q + 1)) (Y / 2 ^ (q + 1))) *
      (1 + sgn (X / 2 ^ (q + 1)) (Y / 2 ^ (q + 1))) + sgn (X / 2 ^ (q + 1)) (Y / 2 ^ (q + 1)) := by
  have hb : ∀ N : ℕ, (decide (N % 2 = 1)).toNat = N % 2 := by
    intro N
    rcases Nat.mod_two_eq_zero_or_one N with h | h <;> simp [h]
  have hd : ∀ N : ℕ, (decide (N % 2 = 1)).toNat + 2 * (N / 2) = N := by
    intro N; rw [hb]; omega
  have := sgn_step (F := F) (decide (X / 2 ^ q % 2 = 1)) (decide (Y / 2 ^ q % 2 = 1)) (X / 2 ^ q / 2) (Y / 2 ^ q / 2)
  rw [hd, hd] at this
  simp only [bitF, hb] at this
  rw [pow_succ, ← Nat.div_div_eq_div_mul, ← Nat.div_div_eq_div_mul]
  exact this

theorem fold_shift (X P M : ℕ) :
    (List.range M).foldr (fun i z => z * 2 + ((X / 2 ^ (P + i) % 2 : ℕ) : F)) ((X / 2 ^ (P + M) : ℕ) : F) = ((X / 2 ^ P : ℕ) : F) := by
  induction M with
  | zero => simp
  | succ M ih =>
    rw [List.range_succ, List.foldr_append]
    simp only [List.foldr_cons, List.foldr_nil]
    rw [← ih]
    congr 1
    have e : X / 2 ^ (P + (M + 1)) * 2 + X / 2 ^ (P + M) % 2 = X / 2 ^ (P + M) := by
      rw [← Nat.add_assoc, pow_succ, ← Nat.div_div_eq_div_mul]; omega
    conv_rhs => rw [← e]
    push_cast; ring

/-- The values of block `q`. -/
def blockv (omega : F) (n X Y q k : ℕ) : F :=
  if k = 0 then ((X / 2 ^ q : ℕ) : F) else if k = 1 then ((Y / 2 ^ q : ℕ) : F) else if k = 2 then sgn (X / 2 ^ q) (Y / 2 ^ q)
  else if k = 3 then omega ^ 2 ^ q else if k = 4 then omega ^ (X % 2 ^ (q + 1))
  else if k = 5 then (omega ^ (X % 2 ^ n)) ^ 2 ^ (n - 1 - q) else if k = 6 then - (omega ^ (X % 2 ^ n)) ^ 2 ^ (n - 1 - q)
  else if k = 7 then ((X / 2 ^ q % 2 : ℕ) : F) else ((Y / 2 ^ q % 2 : ℕ) : F)

/-- The first bit of bit row `r`. -/
def q0 (l n r : ℕ) : ℕ := n + if r ≤ n / l then 0 else 3 * (l - n % l) - 1 + (r - n / l - 1) * (3 * l - 1)

theorem q0_succ (l n r : ℕ) (h : n / l ≤ r) : q0 l n (r + 1) = q0 l n r + m l n r := by
  unfold q0 m
  rw [if_neg (by omega)]
  by_cases hr : r = n / l
  · rw [if_pos (by omega), if_pos hr]
    have : r + 1 - n / l - 1 = 0 := by omega
    rw [this]; omega
  · rw [if_neg (by omega), if_neg hr]
    have : r + 1 - n / l - 1 = r - n / l - 1 + 1 := by omega
    rw [this, Nat.add_mul]; omega

/-- The values of bit row `r` at distance `d` from its first column. -/
def bitv (l n X Y r d : ℕ) : F :=
  if d < 3 then blockv 0 n X Y (q0 l n r) d
  else if d % 3 = 0 then ((X / 2 ^ (q0 l n r + d / 3 - 1) % 2 : ℕ) : F)
  else if d % 3 = 1 then ((Y / 2 ^ (q0 l n r + d / 3 - 1) % 2 : ℕ) : F)
  else sgn (X / 2 ^ (q0 l n r + d / 3 - 1)) (Y / 2 ^ (q0 l n r + d / 3 - 1))

/-- The value of cell `j` in row `r`. -/
def cv (l n : ℕ) (omega : F) (X Y r j : ℕ) : F :=
  if l * r + j / 9 < n then blockv omega n X Y (l * r + j / 9) (j % 9) else bitv l n X Y r (j - a l n r)

variable {l n tb : ℕ}

theorem cv_block (hl : 0 < l) (omega : F) (X Y q k : ℕ) (hq : q < n) (hk : k < 9) :
    cv l n omega X Y (q / l) (9 * (q % l) + k) = blockv omega n X Y q k := by
  have e1 : (9 * (q % l) + k) / 9 = q % l := by omega
  have e2 : (9 * (q % l) + k) % 9 = k := by omega
  rw [cv, e1, e2, Nat.div_add_mod, if_pos hq]

theorem cv_bit (hl : 0 < l) (omega : F) (X Y r d : ℕ) (hr : n / l ≤ r) :
    cv l n omega X Y r (a l n r + d) = bitv l n X Y r d := by
  have hd := Nat.div_add_mod n l
  have hm := Nat.mod_lt n hl
  have : ¬ l * r + (a l n r + d) / 9 < n := by
    unfold a
    by_cases h : r = n / l
    · rw [if_pos h, h]
      omega
    · have : l * (n / l + 1) ≤ l * r := Nat.mul_le_mul_left l (by omega)
      rw [Nat.mul_add] at this
      omega
  rw [cv, if_neg this, Nat.add_sub_cancel_left]

/-! ### The loops write these values -/

theorem downLoop_eq (c : Cols) (l : ℕ) (srow : ℤ) (omega : F) (n X Y : ℕ) (k b : ℕ) :
    downLoop c l srow k b (X / 2 ^ b) (Y / 2 ^ b) (omega ^ 2 ^ b) (omega ^ (X % 2 ^ b)) =
      ((List.range' b k).flatMap fun q => [0, 1, 2, 3, 4, 7, 8].map fun i => wr c srow (9 * (q % l) + i) (q / l) (blockv omega n X Y q i),
        X / 2 ^ (b + k), Y / 2 ^ (b + k), omega ^ (X % 2 ^ (b + k))) := by
  induction k generalizing b with
  | zero => simp [downLoop]
  | succ k ih =>
    have e1 : X / 2 ^ b / 2 = X / 2 ^ (b + 1) := by rw [pow_succ, Nat.div_div_eq_div_mul]
    have e2 : Y / 2 ^ b / 2 = Y / 2 ^ (b + 1) := by rw [pow_succ, Nat.div_div_eq_div_mul]
    have e3 : omega ^ 2 ^ b * omega ^ 2 ^ b = omega ^ 2 ^ (b + 1) := by rw [← pow_add, pow_succ]; congr 1; ring
    have e4 : omega ^ (X % 2 ^ b) * (if X / 2 ^ b % 2 = 1 then omega ^ 2 ^ b else 1) = omega ^ (X % 2 ^ (b + 1)) := by
      rw [pow_mod_succ]
      rcases Nat.mod_two_eq_zero_or_one (X / 2 ^ b) with h | h <;> simp [h]
    have e5 : b + 1 + k = b + (k + 1) := by ring
    simp only [downLoop, e1, e2, e3, e4, ih (b + 1), e5, List.range'_succ, List.flatMap_cons]
    simp [blockv]

theorem upLoop_mem (c : Cols) (l : ℕ) (srow : ℤ) (omega : F) (n X Y : ℕ) (b : ℕ) (hb : b ≤ n) (w : Write F) :
    w ∈ upLoop c l srow b ((omega ^ (X % 2 ^ n)) ^ 2 ^ (n - b)) ↔
      ∃ q < b, w = wr c srow (9 * (q % l) + 5) (q / l) (blockv omega n X Y q 5) ∨
        w = wr c srow (9 * (q % l) + 6) (q / l) (blockv omega n X Y q 6) := by
  induction b with
  | zero => simp [upLoop]
  | succ b ih =>
    have e : (omega ^ (X % 2 ^ n)) ^ 2 ^ (n - (b + 1)) * (omega ^ (X % 2 ^ n)) ^ 2 ^ (n - (b + 1)) = (omega ^ (X % 2 ^ n)) ^ 2 ^ (n - b) := by
      rw [← pow_add]
      have : n - b = n - (b + 1) + 1 := by omega
      rw [this, pow_succ]; congr 1; ring
    have e2 : n - (b + 1) = n - 1 - b := by omega
    simp only [upLoop, e, List.mem_append, ih (by omega), List.mem_cons, List.not_mem_nil, or_false]
    have h5 : blockv omega n X Y b 5 = (omega ^ (X % 2 ^ n)) ^ 2 ^ (n - (b + 1)) := by rw [e2]; simp [blockv]
    have h6 : blockv omega n X Y b 6 = -1 * (omega ^ (X % 2 ^ n)) ^ 2 ^ (n - (b + 1)) := by rw [e2]; simp [blockv]
    constructor
    · rintro (h | ⟨q, hq, h⟩)
      · exact ⟨b, by omega, by rw [h5, h6]; exact h⟩
      · exact ⟨q, by omega, h⟩
    · rintro ⟨q, hq, h⟩
      rcases Nat.lt_succ_iff_lt_or_eq.1 hq with hq' | rfl
      · exact Or.inr ⟨q, hq', h⟩
      · rw [h5, h6] at h; exact Or.inl h

theorem w_cyclic (c : Cols) (hc : c.OK (9 * l)) (hl : 0 < l) (j : ℕ) (hj : j = 9 * l) : c.w ((j + 2 : ℕ) : ℤ) = c.w ((2 : ℕ) : ℤ) := by
  unfold Cols.w colAt
  rw [hc.len, hj]
  have : ((9 * l : ℕ) : ℤ) + ((9 * l + 2 : ℕ) : ℤ) = ((9 * l : ℕ) : ℤ) + ((2 : ℕ) : ℤ) + ((9 * l : ℕ) : ℤ) := by push_cast; ring
  rw [this, Int.add_emod_right]

/-- The position in the number of the bit at column `j` of row `i`. -/
def pos (l n i j : ℕ) : ℕ := q0 l n i + (j - a l n i) / 3 - 1

theorem bitLoop_grid (c : Cols) (hl : 0 < l) (hc : c.OK (9 * l)) (srow : ℤ) (omega : F) (X Y R : ℕ) (i j : ℕ) (hi : n / l ≤ i)
    (hj : a l n i + 3 ≤ j) (hj3 : j % 3 = 0) :
    GridWrites c srow (9 * l) R (cv l n omega X Y) (bitLoop c l R srow i j (X / 2 ^ pos l n i j) (Y / 2 ^ pos l n i j)) := by
  generalize hx : X / 2 ^ pos l n i j = x
  generalize hy : Y / 2 ^ pos l n i j = y
  induction i, j, x, y using bitLoop.induct (l := l) (rows := R) with
  | case1 i j x y h ih1 ih2 =>
    by_cases hlast : j + 3 = 9 * l
    · have ih := ih1
      rw [bitLoop, dif_pos h, if_pos hlast]
      obtain ⟨ham, hm, ha3⟩ := a_m (n := n) hl i
      have ha : a l n (i + 1) = 0 := by rw [a, if_neg (by omega)]
      obtain ⟨d, hd⟩ : ∃ d, j = a l n i + d := ⟨j - a l n i, by omega⟩
      have hp : pos l n (i + 1) 3 = pos l n i j + 1 := by
        rw [pos, pos, ha, q0_succ _ _ _ hi, hd, Nat.add_sub_cancel_left]
        omega
      have ex : X / 2 ^ pos l n (i + 1) 3 = x / 2 := by rw [hp, pow_succ, ← Nat.div_div_eq_div_mul, hx]
      have ey : Y / 2 ^ pos l n (i + 1) 3 = y / 2 := by rw [hp, pow_succ, ← Nat.div_div_eq_div_mul, hy]
      have hq : q0 l n (i + 1) = pos l n (i + 1) 3 := by rw [pos, ha]; simp
      have ih' := ih (by omega) (by rw [ha]) (by omega) ex ey
      refine GridWrites.append ?_ (GridWrites.append ?_ ih')
      · intro w hw
        simp only [List.mem_cons, List.not_mem_nil, or_false] at hw
        have e0 := cv_bit hl omega X Y i d hi
        have e1 := cv_bit hl omega X Y i (d + 1) hi
        have e2 := cv_bit hl omega X Y i (d + 2) hi
        rw [← Nat.add_assoc, ← hd] at e1 e2
        rw [← hd] at e0
        have hpd : pos l n i j = q0 l n i + d / 3 - 1 := by rw [pos, hd, Nat.add_sub_cancel_left]
        rw [hpd] at hx hy
        have hdm : d % 3 = 0 := by omega
        have hd1 : (d + 1) / 3 = d / 3 := by omega
        have hd2 : (d + 2) / 3 = d / 3 := by omega
        have hm1 : (d + 1) % 3 = 1 := by omega
        have hm2 : (d + 2) % 3 = 2 := by omega
        rw [bitv, if_neg (by omega), if_pos hdm, hx] at e0
        rw [bitv, if_neg (by omega), hm1, if_neg (by omega), if_pos rfl, hd1, hy] at e1
        rw [bitv, if_neg (by omega), hm2, if_neg (by omega), if_neg (by omega), hd2, hx, hy] at e2
        rcases hw with rfl | rfl | rfl
        · exact ⟨i, by omega, j, by omega, by rw [e0]; rfl⟩
        · exact ⟨i, by omega, j + 1, by omega, by rw [e1]; rfl⟩
        · exact ⟨i, by omega, j + 2, by omega, by rw [e2]; rfl⟩
      · intro w hw
        simp only [List.mem_cons, List.not_mem_nil, or_false] at hw
        have e0 := cv_bit (n := n) hl omega X Y (i + 1) 0 (by omega)
        have e1 := cv_bit (n := n) hl omega X Y (i + 1) 1 (by omega)
        have e2 := cv_bit (n := n) hl omega X Y (i + 1) 2 (by omega)
        simp only [ha, Nat.zero_add] at e0 e1 e2
        rw [bitv, if_pos (by omega), hq] at e0 e1 e2
        simp only [blockv, if_true, OfNat.ofNat_ne_zero, OfNat.ofNat_ne_one, one_ne_zero, if_false, ex, ey] at e0 e1 e2
        rcases hw with rfl | rfl | rfl
        · exact ⟨i + 1, by omega, 0, by omega, by rw [e0]; rfl⟩
        · exact ⟨i + 1, by omega, 1, by omega, by rw [e1]; rfl⟩
        · refine ⟨i + 1, by omega, 2, by omega, ?_⟩
          rw [e2, wr, w_cyclic c hc hl _ hlast]
    · have ih := ih2
      rw [bitLoop, dif_pos h, if_neg hlast]
      obtain ⟨ham, hm, ha3⟩ := a_m (n := n) hl i
      obtain ⟨d, hd⟩ : ∃ d, j = a l n i + d := ⟨j - a l n i, by omega⟩
      have hp : pos l n i (j + 3) = pos l n i j + 1 := by
        have e : j + 3 - a l n i = d + 3 := by omega
        rw [pos, pos, e, hd, Nat.add_sub_cancel_left]
        omega
      have ex : X / 2 ^ pos l n i (j + 3) = x / 2 := by rw [hp, pow_succ, ← Nat.div_div_eq_div_mul, hx]
      have ey : Y / 2 ^ pos l n i (j + 3) = y / 2 := by rw [hp, pow_succ, ← Nat.div_div_eq_div_mul, hy]
      have ih' := ih hi (by omega) (by omega) ex ey
      refine GridWrites.append ?_ ih'
      intro w hw
      simp only [List.mem_cons, List.not_mem_nil, or_false] at hw
      have e0 := cv_bit hl omega X Y i d hi
      have e1 := cv_bit hl omega X Y i (d + 1) hi
      have e2 := cv_bit hl omega X Y i (d + 2) hi
      rw [← Nat.add_assoc, ← hd] at e1 e2
      rw [← hd] at e0
      have hpd : pos l n i j = q0 l n i + d / 3 - 1 := by rw [pos, hd, Nat.add_sub_cancel_left]
      rw [hpd] at hx hy
      have hdm : d % 3 = 0 := by omega
      have hd1 : (d + 1) / 3 = d / 3 := by omega
      have hd2 : (d + 2) / 3 = d / 3 := by omega
      have hm1 : (d + 1) % 3 = 1 := by omega
      have hm2 : (d + 2) % 3 = 2 := by omega
      rw [bitv, if_neg (by omega), if_pos hdm, hx] at e0
      rw [bitv, if_neg (by omega), hm1, if_neg (by omega), if_pos rfl, hd1, hy] at e1
      rw [bitv, if_neg (by omega), hm2, if_neg (by omega), if_neg (by omega), hd2, hx, hy] at e2
      rcases hw with rfl | rfl | rfl
      · exact ⟨i, by omega, j, by omega, by rw [e0]; rfl⟩
      · exact ⟨i, by omega, j + 1, by omega, by rw [e1]; rfl⟩
      · exact ⟨i, by omega, j + 2, by omega, by rw [e2]; rfl⟩
  | case2 i j x y h =>
    rw [bitLoop, dif_neg h]
    intro w hw; simp at hw

/-- Which cells the loop writes. -/
theorem bitLoop_cells (c : Cols) (hl : 0 < l) (hc : c.OK (9 * l)) (srow : ℤ) (R i j x y : ℕ) (hj3 : j % 3 = 0) (hjl : j < 9 * l) (r jj : ℕ)
    (hcell : (r = i ∧ j ≤ jj ∧ jj < 9 * l ∧ r < R - 1) ∨ (i < r ∧ r < R - 1 ∧ jj < 9 * l) ∨ (i < r ∧ r = R - 1 ∧ jj < 3)) (hj0 : 3 ≤ j) :
    ∃ v : F, wr c srow jj r v ∈ bitLoop c l R srow i j x y := by
  induction i, j, x, y using bitLoop.induct (l := l) (rows := R) with
  | case1 i j x y h ih1 ih2 =>
    by_cases hlast : j + 3 = 9 * l
    · have ih := ih1
      rw [bitLoop, dif_pos h, if_pos hlast]
      simp only [List.mem_append, List.mem_cons, List.not_mem_nil, or_false]
      by_cases h1 : r = i
      · have : jj = j ∨ jj = j + 1 ∨ jj = j + 2 := by omega
        subst h1
        rcases this with rfl | rfl | rfl
        · exact ⟨_, Or.inl (Or.inl rfl)⟩
        · exact ⟨_, Or.inl (Or.inr (Or.inl rfl))⟩
        · exact ⟨_, Or.inl (Or.inr (Or.inr rfl))⟩
      · by_cases h2 : r = i + 1 ∧ jj < 3
        · obtain ⟨rfl, h2⟩ := h2
          have : jj = 0 ∨ jj = 1 ∨ jj = 2 := by omega
          rcases this with rfl | rfl | rfl
          · exact ⟨_, Or.inr (Or.inl (Or.inl rfl))⟩
          · exact ⟨_, Or.inr (Or.inl (Or.inr (Or.inl rfl)))⟩
          · refine ⟨sgn (x / 2) (y / 2), Or.inr (Or.inl (Or.inr (Or.inr ?_)))⟩
            rw [wr, wr, w_cyclic c hc hl _ hlast]
        · obtain ⟨v, hv⟩ := ih (by omega) (by omega) (by omega) (by omega)
          exact ⟨v, Or.inr (Or.inr hv)⟩
    · have ih := ih2
      rw [bitLoop, dif_pos h, if_neg hlast]
      simp only [List.mem_append, List.mem_cons, List.not_mem_nil, or_false]
      by_cases h1 : r = i ∧ jj < j + 3
      · have : jj = j ∨ jj = j + 1 ∨ jj = j + 2 := by omega
        obtain ⟨rfl, -⟩ := h1
        rcases this with rfl | rfl | rfl
        · exact ⟨_, Or.inl (Or.inl rfl)⟩
        · exact ⟨_, Or.inl (Or.inr (Or.inl rfl))⟩
        · exact ⟨_, Or.inl (Or.inr (Or.inr rfl))⟩
      · obtain ⟨v, hv⟩ := ih (by omega) (by omega) (by omega) (by omega)
        exact ⟨v, Or.inr hv⟩
  | case2 i j x y h => omega

theorem writes_grid (c : Cols) (hl : 0 < l) (hn : 0 < n) (hc : c.OK (9 * l)) (srow : ℤ) (omega : F) (X Y : ℕ) :
    GridWrites c srow (9 * l) (rows l n tb) (cv l n omega X Y) (writes c l n tb omega srow X Y) := by
  have hK := K_le (n := n) hl
  have hKr := K_rows (n := n) (tb := tb) hl
  have hdown := downLoop_eq c l srow omega n X Y n 0
  simp only [pow_zero, Nat.div_one, Nat.mod_one, pow_one, Nat.zero_add] at hdown
  have e1 : 9 * n / (9 * l) = n / l := Nat.mul_div_mul_left n l (by norm_num)
  have e2 : 9 * n % (9 * l) = 9 * (n % l) := Nat.mul_mod_mul_left 9 n l
  have hm := Nat.mod_lt n hl
  have ha : a l n (n / l) = 9 * (n % l) := by rw [a, if_pos rfl]
  have hrow : ∀ q < n, q / l < rows l n tb := by
    intro q hq
    have : q / l ≤ n / l := Nat.div_le_div_right hq.le
    omega
  simp only [writes, hdown, e1, e2]
  refine GridWrites.append (GridWrites.append (GridWrites.append ?_ ?_) ?_) ?_
  · intro w hw
    simp only [List.mem_flatMap, List.mem_range'_1, List.mem_map] at hw
    obtain ⟨q, hq, k, hk, rfl⟩ := hw
    have hk9 : k < 9 := by
      simp only [List.mem_cons, List.not_mem_nil, or_false] at hk; omega
    have hql := Nat.mod_lt q hl
    exact ⟨q / l, hrow q (by omega), 9 * (q % l) + k, by omega, by rw [cv_block hl omega X Y q k (by omega) hk9]; rfl⟩
  · intro w hw
    have hup := upLoop_mem c l srow omega n X Y n le_rfl w
    rw [Nat.sub_self, pow_zero, pow_one] at hup
    obtain ⟨q, hq, h⟩ := hup.1 hw
    have hql := Nat.mod_lt q hl
    rcases h with rfl | rfl
    · exact ⟨q / l, hrow q (by omega), 9 * (q % l) + 5, by omega, by rw [cv_block hl omega X Y q 5 (by omega) (by omega)]; rfl⟩
    · exact ⟨q / l, hrow q (by omega), 9 * (q % l) + 6, by omega, by rw [cv_block hl omega X Y q 6 (by omega) (by omega)]; rfl⟩
  · intro w hw
    simp only [List.mem_cons, List.not_mem_nil, or_false] at hw
    have c0 := cv_bit hl omega X Y (n / l) 0 le_rfl
    have c1 := cv_bit hl omega X Y (n / l) 1 le_rfl
    have c2 := cv_bit hl omega X Y (n / l) 2 le_rfl
    have hq : q0 l n (n / l) = n := by rw [q0, if_pos le_rfl, Nat.add_zero]
    rw [ha, bitv, if_pos (by omega), hq] at c0 c1 c2
    simp only [blockv, if_true, OfNat.ofNat_ne_zero, OfNat.ofNat_ne_one, one_ne_zero, if_false, Nat.add_zero] at c0 c1 c2
    rcases hw with rfl | rfl | rfl
    · exact ⟨n / l, by omega, 9 * (n % l), by omega, by rw [c0]; rfl⟩
    · exact ⟨n / l, by omega, 9 * (n % l) + 1, by omega, by rw [c1]; rfl⟩
    · exact ⟨n / l, by omega, 9 * (n % l) + 2, by omega, by rw [c2]; rfl⟩
  · have := bitLoop_grid (n := n) c hl hc srow omega X Y (rows l n tb) (n / l) (9 * (n % l) + 3) le_rfl (by rw [ha]) (by omega)
    have hp : pos l n (n / l) (9 * (n % l) + 3) = n := by
      rw [pos, ha, q0, if_pos le_rfl]; omega
    rw [hp] at this
    exact this

/-- The written cells read back. -/
theorem writes_read (c : Cols) (hl : 0 < l) (hn : 0 < n) (hc : c.OK (9 * l)) (srow : ℤ) (omega : F) (X Y : ℕ) (t : Table F) (r j : ℕ)
    (hj : j < 9 * l) (hw : (r < rows l n tb - 1) ∨ (r = rows l n tb - 1 ∧ j < 3)) :
    cell c (writeAll (writes c l n tb omega srow X Y) t) srow r j = cv l n omega X Y r j := by
  have hg := writes_grid (tb := tb) c hl hn hc srow omega X Y
  refine hg.read hc t hj ?_
  have key : ∀ v, wr c srow j r v ∈ writes c l n tb omega srow X Y →
      (⟨.witness, c.w (j : ℤ), srow + (r : ℤ), cv l n omega X Y r j⟩ : Write F) ∈ writes c l n tb omega srow X Y := by
    intro v hv
    obtain ⟨r', hr', j', hj', he⟩ := hg _ hv
    simp only [wr, Write.mk.injEq, true_and] at he
    obtain ⟨h1, h2, h3⟩ := he
    have e1 : (j : ℤ) = j' := (hc.inj ⟨by omega, by omega⟩ ⟨by omega, by omega⟩).1 h1
    have e2 : j = j' := by omega
    have e3 : r = r' := by omega
    subst e2 e3
    rw [← h3]; exact hv
  have hK := K_le (n := n) hl
  have hKr := K_rows (n := n) (tb := tb) hl
  have hdown := downLoop_eq c l srow omega n X Y n 0
  simp only [pow_zero, Nat.div_one, Nat.mod_one, pow_one, Nat.zero_add] at hdown
  have e1 : 9 * n / (9 * l) = n / l := Nat.mul_div_mul_left n l (by norm_num)
  have e2 : 9 * n % (9 * l) = 9 * (n % l) := Nat.mul_mod_mul_left 9 n l
  have hm := Nat.mod_lt n hl
  have hd := Nat.div_add_mod n l
  by_cases hb : l * r + j / 9 < n
  · -- a block
    set q := l * r + j / 9 with hq
    have hjl : j / 9 < l := by omega
    have hqd : q / l = r := by rw [hq, Nat.mul_add_div hl, Nat.div_eq_of_lt hjl, Nat.add_zero]
    have hqm : q % l = j / 9 := by rw [hq, Nat.mul_add_mod, Nat.mod_eq_of_lt hjl]
    have hj9 : 9 * (q % l) + j % 9 = j := by rw [hqm]; omega
    by_cases h56 : j % 9 = 5 ∨ j % 9 = 6
    · have hup := upLoop_mem c l srow omega n X Y n le_rfl (wr c srow j r (blockv omega n X Y q (j % 9)))
      rw [Nat.sub_self, pow_zero, pow_one] at hup
      refine key (blockv omega n X Y q (j % 9)) ?_
      simp only [writes, hdown, List.mem_append]
      refine Or.inl (Or.inl (Or.inr (hup.2 ⟨q, hb, ?_⟩)))
      rcases h56 with h | h
      · left; rw [h] at hj9 ⊢; rw [hj9, hqd]
      · right; rw [h] at hj9 ⊢; rw [hj9, hqd]
    · refine key (blockv omega n X Y q (j % 9)) ?_
      simp only [writes, hdown, List.mem_append]
      refine Or.inl (Or.inl (Or.inl ?_))
      simp only [List.mem_flatMap, List.mem_range'_1]
      refine ⟨q, ⟨by omega, by omega⟩, List.mem_map.2 ⟨j % 9, ?_, by rw [hj9, hqd]⟩⟩
      simp only [List.mem_cons, List.not_mem_nil, or_false]
      omega
  · have hr : n / l ≤ r ∧ (r = n / l → 9 * (n % l) ≤ j) := by
      constructor
      · by_contra hlt
        have : l * (r + 1) ≤ l * (n / l) := Nat.mul_le_mul_left l (by omega)
        rw [Nat.mul_add] at this
        omega
      · intro h; rw [h] at hb; omega
    by_cases hh : r = n / l ∧ j < 9 * (n % l) + 3
    · obtain ⟨h1, h2⟩ := hh
      have hj' := hr.2 h1
      have : j = 9 * (n % l) ∨ j = 9 * (n % l) + 1 ∨ j = 9 * (n % l) + 2 := by omega
      have hmem : ∃ v : F, wr c srow j r v ∈ [wr c srow (9 * (n % l)) (n / l) ((X / 2 ^ n : ℕ) : F), wr c srow (9 * (n % l) + 1) (n / l) ((Y / 2 ^ n : ℕ) : F),
          wr c srow (9 * (n % l) + 2) (n / l) (sgn (X / 2 ^ n) (Y / 2 ^ n))] := by
        rw [h1]
        rcases this with rfl | rfl | rfl
        · exact ⟨_, by simp only [List.mem_cons]; exact Or.inl rfl⟩
        · exact ⟨_, by simp only [List.mem_cons]; exact Or.inr (Or.inl rfl)⟩
        · exact ⟨_, by simp only [List.mem_cons]; exact Or.inr (Or.inr (Or.inl rfl))⟩
      obtain ⟨v, hv⟩ := hmem
      refine key v ?_
      simp only [writes, hdown, e1, e2]
      exact List.mem_append_left _ (List.mem_append_right _ hv)
    · obtain ⟨v, hv⟩ := bitLoop_cells (F := F) c hl hc srow (rows l n tb) (n / l) (9 * (n % l) + 3) (X / 2 ^ n) (Y / 2 ^ n)
        (by omega) (by omega) r j (by omega) (by omega)
      refine key v ?_
      simp only [writes, hdown, e1, e2]
      exact List.mem_append_right _ hv
end

section
variable {l n tb : ℕ}

theorem q0_sum (l n d : ℕ) : q0 l n (n / l + d) = n + ((List.range d).map fun i => m l n (n / l + i)).sum := by
  induction d with
  | zero => simp [q0]
  | succ d ih =>
    rw [← Nat.add_assoc, q0_succ _ _ _ (by omega), ih, List.range_succ, List.map_append, List.sum_append]
    simp [Nat.add_assoc]

theorem a_fin (hl : 0 < l) : a l n (rows l n tb - 1) = 0 := by
  have hK := K_le (n := n) hl
  have hr := rows_eq (n := n) (tb := tb) hl
  unfold a
  split_ifs with h
  · by_cases h0 : 0 < n % l
    · have := hK.2.1 h0; omega
    · omega
  · rfl

theorem q0_fin (hl : 0 < l) (hfit : n + cap l n ≤ tb) : q0 l n (rows l n tb - 1) =
    tb + if 0 < remaining l n tb % (3 * l - 1) then 3 * l - 1 - remaining l n tb % (3 * l - 1) else 0 := by
  have hKr := K_rows (n := n) (tb := tb) hl
  have h := bits_layout (n := n) (tb := tb) hl hfit
  have e : rows l n tb - 1 = n / l + (rows l n tb - 1 - n / l) := by omega
  rw [e, q0_sum, ← h]; omega

/-- The last full bit row, when it has padding. -/
theorem q0_pad (hl : 0 < l) (hfit : n + cap l n ≤ tb) (hp : 0 < remaining l n tb % (3 * l - 1)) :
    n / l ≤ rows l n tb - 2 ∧ rows l n tb - 2 < rows l n tb - 1 ∧ a l n (rows l n tb - 2) = 0 ∧ m l n (rows l n tb - 2) = 3 * l - 1 ∧
      q0 l n (rows l n tb - 2) + remaining l n tb % (3 * l - 1) = tb := by
  have hK := K_le (n := n) hl
  have hr := rows_eq (n := n) (tb := tb) hl
  have hml := Nat.mod_lt (remaining l n tb) (show 0 < 3 * l - 1 by omega)
  have hR : 0 < lfit (remaining l n tb) (3 * l - 1) := by rw [lfit, if_pos hp]; exact Nat.succ_pos _
  have h1 : n / l ≤ rows l n tb - 2 := by omega
  have ham : a l n (rows l n tb - 2) = 0 ∧ m l n (rows l n tb - 2) = 3 * l - 1 := by
    unfold a m
    by_cases h0 : rows l n tb - 2 = n / l
    · have : n % l = 0 := by
        by_contra hne
        have := hK.2.1 (by omega); omega
      rw [if_pos h0, if_pos h0, this]; omega
    · rw [if_neg h0, if_neg h0]; exact ⟨rfl, rfl⟩
  refine ⟨h1, by omega, ham.1, ham.2, ?_⟩
  have hs := q0_succ l n _ h1
  have e : rows l n tb - 2 + 1 = rows l n tb - 1 := by omega
  rw [e, q0_fin hl hfit, if_pos hp, ham.2] at hs
  omega
end

section
variable {p : ℕ} [Fact p.Prime] {l n tb : ℕ}

/-- Cells with these values satisfy the component. -/
theorem cells_sat (h2 : p < 2 ^ tb) (hl : 0 < l) (hn : 0 < n) (hfit : n + cap l n ≤ tb) (c : Cols) (omega : ZMod p) (x : Var) (srow : ℤ)
    (t : Table (ZMod p)) (hω : (omegaVar srow).value t = omega) (hz : (zeroVar srow).value t = 0)
    (hk0 : t .constant (c.k 0) srow = omega) (hk1 : t .constant (c.k 0) (srow + 1) = 0)
    (hcell : ∀ r j, j < 9 * l → ((r < rows l n tb - 1) ∨ (r = rows l n tb - 1 ∧ j < 3)) →
      cell c t srow r j = cv l n omega (x.value t).val (p - 1) r j) :
    Sat t (circuit c l n tb omega x srow) := by
  have hKr := K_rows (n := n) (tb := tb) hl
  have hK := K_le (n := n) hl
  have hrw := rows_eq (n := n) (tb := tb) hl
  have hm := Nat.mod_lt n hl
  have hpp : 1 < p := (Fact.out : p.Prime).one_lt
  set X := (x.value t).val with hX
  have hXp : X < p := ZMod.val_lt _
  have hY : ((p - 1 : ℕ) : ZMod p) = -1 := by
    rw [Nat.cast_sub hpp.le]; simp
  generalize hYd : p - 1 = Y at hcell hY
  have hXY : X ≤ Y := by omega
  have hX0 : ∀ q, tb ≤ q → X / 2 ^ q = 0 := fun q hq => Nat.div_eq_of_lt
    ((hXp.trans h2).trans_le (Nat.pow_le_pow_right (by norm_num) hq))
  have hY0 : ∀ q, tb ≤ q → Y / 2 ^ q = 0 := fun q hq => Nat.div_eq_of_lt
    (lt_of_le_of_lt (by omega : Y ≤ p) (h2.trans_le (Nat.pow_le_pow_right (by norm_num) hq)))
  have hUlt : ∀ q < n, ∀ k < 9, U c l t srow q k = blockv omega n X Y q k := by
    intro q hq k hk
    have hql := Nat.mod_lt q hl
    have hqr : q / l < rows l n tb - 1 := by
      obtain ⟨kk, last, hkk, hnl, h0, h1, -⟩ := blocks_layout hl hn
      have : q / l < kk + 1 := by
        rw [Nat.div_lt_iff_lt_mul hl, Nat.mul_comm, Nat.mul_add]; omega
      omega
    rw [U, hcell _ _ (by omega) (Or.inl hqr), cv_block hl omega X Y q k hq hk]
  have hbits : ∀ r, n / l ≤ r → r < rows l n tb - 1 → ∀ d, a l n r + d < 9 * l → cell c t srow r (a l n r + d) = bitv l n X Y r d := by
    intro r h1 h2 d hd
    rw [hcell _ _ hd (Or.inl h2), cv_bit hl omega X Y r d h1]
  have hhdr : ∀ r, n / l ≤ r → r ≤ rows l n tb - 1 → ∀ d < 3, cell c t srow r (a l n r + d) = blockv 0 n X Y (q0 l n r) d := by
    intro r h1 h2 d hd
    obtain ⟨ham, hmm, -⟩ := a_m (n := n) hl r
    have hb : cell c t srow r (a l n r + d) = bitv l n X Y r d := by
      rw [hcell _ _ (by omega), cv_bit hl omega X Y r d h1]
      rcases Nat.lt_or_eq_of_le h2 with h | h
      · exact Or.inl h
      · refine Or.inr ⟨h, ?_⟩
        rw [h, a_fin hl]; omega
    rw [hb, bitv, if_pos hd]
  have hU3 : ∀ q ≤ n, ∀ k < 3, U c l t srow q k = blockv omega n X Y q k := by
    intro q hq k hk
    rcases Nat.lt_or_eq_of_le hq with h | h
    · exact hUlt q h k (by omega)
    · have h1 := hhdr (n / l) le_rfl hKr.1 k hk
      have ha : a l n (n / l) = 9 * (n % l) := by rw [a, if_pos rfl]
      have hq0 : q0 l n (n / l) = n := by rw [q0, if_pos le_rfl, Nat.add_zero]
      rw [ha, hq0] at h1
      rw [h, U, h1]
      interval_cases k <;> simp [blockv]
  have hsel : ∀ (w : ZMod p) (q : ℕ), w * ((X / 2 ^ q % 2 : ℕ) : ZMod p) + 1 - ((X / 2 ^ q % 2 : ℕ) : ZMod p) = w ^ (X / 2 ^ q % 2) := by
    intro w q
    rcases Nat.mod_two_eq_zero_or_one (X / 2 ^ q) with h | h <;> rw [h] <;> simp
  have hbool : ∀ N : ℕ, ((N % 2 : ℕ) : ZMod p) * (((N % 2 : ℕ) : ZMod p) - 1) = 0 := by
    intro N
    rcases Nat.mod_two_eq_zero_or_one N with h | h <;> rw [h] <;> simp
  have hhalf : ∀ N q : ℕ, ((N / 2 ^ q : ℕ) : ZMod p) = ((N / 2 ^ q % 2 : ℕ) : ZMod p) + 2 * ((N / 2 ^ (q + 1) : ℕ) : ZMod p) := by
    intro N q
    have : N / 2 ^ q = N / 2 ^ q % 2 + 2 * (N / 2 ^ (q + 1)) := by
      rw [pow_succ, ← Nat.div_div_eq_div_mul]; omega
    conv_lhs => rw [this]
    push_cast; ring
  have hU0 : ∀ k : ℕ, t .witness (c.w (k : ℤ)) srow = U c l t srow 0 k := by intro k; simp [U, cell]
  refine (circuit_unpack c t srow hl hn x omega).2 ⟨⟨?_, ?_, ?_, ?_, ?_, ?_⟩, ?_, ?_, ?_, ?_, hk0, hk1⟩
  · intro q hq k hk hq0 hq1
    obtain ⟨z0, z1, z2, z5, z6, z7, z8, -⟩ := Z_eval c t srow hl q
    interval_cases k
    · rw [z0, hUlt q hq 0 (by omega), hUlt q hq 7 (by omega), hU3 (q + 1) hq 0 (by omega)]
      simp only [blockv, if_true, OfNat.ofNat_ne_zero, OfNat.ofNat_ne_one, one_ne_zero, if_false, Nat.reduceEqDiff]
      exact hhalf X q
    · rw [z1, hUlt q hq 1 (by omega), hUlt q hq 8 (by omega), hU3 (q + 1) hq 1 (by omega)]
      simp only [blockv, if_true, OfNat.ofNat_ne_zero, OfNat.ofNat_ne_one, one_ne_zero, if_false, Nat.reduceEqDiff]
      exact hhalf Y q
    · rw [z2, hUlt q hq 2 (by omega), hUlt q hq 8 (by omega), hUlt q hq 7 (by omega), hU3 (q + 1) hq 2 (by omega)]
      simp only [blockv, if_true, OfNat.ofNat_ne_zero, OfNat.ofNat_ne_one, one_ne_zero, if_false, Nat.reduceEqDiff]
      exact sgn_shift X Y q
    · obtain ⟨q, rfl⟩ : ∃ e, q = e + 1 := ⟨q - 1, by omega⟩
      rw [(Z_eval c t srow hl q).2.2.2.2.2.2.2.1, hUlt _ hq 3 (by omega), hUlt q (by omega) 3 (by omega)]
      simp only [blockv, if_true, OfNat.ofNat_ne_zero, OfNat.ofNat_ne_one, one_ne_zero, if_false, Nat.reduceEqDiff]
      rw [← pow_add, pow_succ]; congr 1; ring
    · obtain ⟨q, rfl⟩ : ∃ e, q = e + 1 := ⟨q - 1, by omega⟩
      rw [(Z_eval c t srow hl q).2.2.2.2.2.2.2.2, hUlt _ hq 4 (by omega), hUlt q (by omega) 4 (by omega), hUlt _ hq 3 (by omega),
        hUlt _ hq 7 (by omega)]
      simp only [blockv, if_true, OfNat.ofNat_ne_zero, OfNat.ofNat_ne_one, one_ne_zero, if_false, Nat.reduceEqDiff]
      rw [hsel, pow_mod_succ]
    · have hq2 : q + 1 < n := by
        by_contra h; exact hq1 (by omega) rfl
      rw [z5, hUlt q hq 5 (by omega), hUlt _ hq2 5 (by omega)]
      simp only [blockv, if_true, OfNat.ofNat_ne_zero, OfNat.ofNat_ne_one, one_ne_zero, if_false, Nat.reduceEqDiff]
      rw [← pow_add]
      have : n - 1 - q = n - 1 - (q + 1) + 1 := by omega
      rw [this, pow_succ]; congr 1; ring
    · rw [z6, hUlt q hq 5 (by omega), hUlt q hq 6 (by omega)]
      simp only [blockv, if_true, OfNat.ofNat_ne_zero, OfNat.ofNat_ne_one, one_ne_zero, if_false, Nat.reduceEqDiff]
    · rw [z7, hUlt q hq 7 (by omega)]
      simp only [blockv, if_true, OfNat.ofNat_ne_zero, OfNat.ofNat_ne_one, one_ne_zero, if_false, Nat.reduceEqDiff]
      exact hbool _
    · rw [z8, hUlt q hq 8 (by omega)]
      simp only [blockv, if_true, OfNat.ofNat_ne_zero, OfNat.ofNat_ne_one, one_ne_zero, if_false, Nat.reduceEqDiff]
      exact hbool _
  · have e1 := hU0 1
    have e2 := hU0 2
    have e3 := hU0 3
    have e4 := hU0 4
    have e7 := hU0 7
    rw [hUlt 0 hn _ (by omega)] at e1 e2 e3 e4 e7
    simp only [blockv, if_true, OfNat.ofNat_ne_zero, OfNat.ofNat_ne_one, one_ne_zero, if_false, Nat.reduceEqDiff, pow_zero, Nat.div_one,
      Nat.cast_one, Nat.cast_ofNat, pow_one, Nat.zero_add] at e1 e2 e3 e4 e7
    simp only [First, first, List.forall_mem_cons, List.not_mem_nil, false_imp_iff, implies_true, and_true, Expr.eval_add, Expr.eval_mul,
      Expr.eval_sub, Expr.eval_one, Cols.eval_wv, add_zero, e1, e2, e3, e4, e7, hY]
    refine ⟨by ring, ?_, ?_⟩
    · have : ¬ Y < X := by omega
      by_cases h : X < Y <;> simp [sgn, h, this]
    · have := hsel omega 0
      rw [pow_zero, Nat.div_one] at this
      rw [this, sub_self]
  · rw [hUlt _ (by omega) 5 (by omega), hUlt _ (by omega) 4 (by omega)]
    simp only [blockv, if_true, OfNat.ofNat_ne_zero, OfNat.ofNat_ne_one, one_ne_zero, if_false, Nat.reduceEqDiff]
    have e : n - 1 + 1 = n := by omega
    rw [Nat.sub_self, pow_zero, pow_one, e]
  · intro r h1 h2 k hk
    obtain ⟨ham, hmm, -⟩ := a_m (n := n) hl r
    have ha : a l n (r + 1) = 0 := by rw [a, if_neg (by omega)]
    have hnx := hhdr (r + 1) (by omega) (by omega) k (by omega)
    rw [ha, Nat.zero_add, q0_succ _ _ _ h1] at hnx
    rw [sumAt_eval, hhdr r h1 h2.le k (by omega), hnx]
    have hfold : ∀ (f g : ℕ → ZMod p) (M : ℕ) (z : ZMod p), (∀ i < M, f i = g i) →
        (List.range M).foldr (fun i z => z * 2 + f i) z = (List.range M).foldr (fun i z => z * 2 + g i) z := by
      intro f g M z hfg
      apply List.foldr_ext
      intro i hi z
      rw [hfg i (List.mem_range.1 hi)]
    interval_cases k
    · rw [hfold _ (fun i => ((X / 2 ^ (q0 l n r + i) % 2 : ℕ) : ZMod p))]
      · simp only [blockv, if_true]
        rw [fold_shift]
      · intro i hi
        have e : a l n r + 3 + 3 * i + 0 = a l n r + (3 + 3 * i) := by omega
        rw [e, hbits r h1 h2 _ (by omega), bitv, if_neg (by omega), if_pos (by omega)]
        congr 4; omega
    · rw [hfold _ (fun i => ((Y / 2 ^ (q0 l n r + i) % 2 : ℕ) : ZMod p))]
      · simp only [blockv, if_true, one_ne_zero, if_false]
        rw [fold_shift]
      · intro i hi
        have e : a l n r + 3 + 3 * i + 1 = a l n r + (3 + 3 * i + 1) := by omega
        rw [e, hbits r h1 h2 _ (by omega), bitv, if_neg (by omega), if_neg (by omega), if_pos (by omega)]
        congr 4; omega
  · intro r h1 h2
    obtain ⟨ham, hmm, -⟩ := a_m (n := n) hl r
    rw [hhdr r h1 h2.le 2 (by omega), hbits r h1 h2 5 (by omega)]
    simp [blockv, bitv]
  · intro r h1 h2 i hi
    obtain ⟨ham, hmm, -⟩ := a_m (n := n) hl r
    have ha : a l n (r + 1) = 0 := by rw [a, if_neg (by omega)]
    refine (bitAt_eval c t srow hl r i hi).2 ?_
    have b0 : cell c t srow r (a l n r + 3 + 3 * i) = ((X / 2 ^ (q0 l n r + i) % 2 : ℕ) : ZMod p) := by
      have e : a l n r + 3 + 3 * i = a l n r + (3 + 3 * i) := by omega
      rw [e, hbits r h1 h2 _ (by omega), bitv, if_neg (by omega), if_pos (by omega)]
      congr 4; omega
    have b1 : cell c t srow r (a l n r + 3 + 3 * i + 1) = ((Y / 2 ^ (q0 l n r + i) % 2 : ℕ) : ZMod p) := by
      have e : a l n r + 3 + 3 * i + 1 = a l n r + (3 + 3 * i + 1) := by omega
      rw [e, hbits r h1 h2 _ (by omega), bitv, if_neg (by omega), if_neg (by omega), if_pos (by omega)]
      congr 4; omega
    have bs : ∀ i ≤ m l n r, signAt c t srow l n r i = sgn (X / 2 ^ (q0 l n r + i)) (Y / 2 ^ (q0 l n r + i)) := by
      intro i hi
      rw [signAt]
      split_ifs with hlt
      · have e : a l n r + 3 + 3 * i + 2 = a l n r + (3 + 3 * i + 2) := by omega
        have e2 : q0 l n r + (3 + 3 * i + 2) / 3 - 1 = q0 l n r + i := by omega
        rw [e, hbits r h1 h2 _ (by omega), bitv, if_neg (by omega), if_neg (by omega), if_neg (by omega), e2]
      · have hi' : i = m l n r := by omega
        have := hhdr (r + 1) (by omega) (by omega) 2 (by omega)
        rw [ha, Nat.zero_add, q0_succ _ _ _ h1, ← hi'] at this
        rw [this]; simp [blockv]
    constructor
    · intro k hk
      interval_cases k
      · rw [Nat.add_zero, b0]; exact hbool _
      · rw [b1]; exact hbool _
    · rw [bs i hi.le, bs (i + 1) (by omega), b0, b1]
      exact sgn_shift X Y (q0 l n r + i)
  · have h0 := hUlt 0 hn 0 (by omega)
    have e : U c l t srow 0 0 = cell c t srow 0 0 := by simp [U]
    rw [← e, h0]
    simp only [blockv, if_true, pow_zero, Nat.div_one]
    rw [hX, ZMod.natCast_zmod_val]
  · have h0 := hUlt 0 hn 3 (by omega)
    have e : U c l t srow 0 3 = cell c t srow 0 3 := by simp [U]
    rw [← e, h0, hω]
    simp [blockv]
  · intro hp j hj1 hj2
    obtain ⟨g1, g2, g3, g4, g5⟩ := q0_pad hl hfit hp
    have := hbits _ g1 g2 j (by rw [g3]; omega)
    rw [g3, Nat.zero_add] at this
    have hq : tb ≤ q0 l n (rows l n tb - 2) + j / 3 - 1 := by omega
    rw [hz, this, bitv, if_neg (by omega), hX0 _ hq, hY0 _ hq]
    split_ifs <;> simp [sgn]
  · intro j hj
    have := hhdr (rows l n tb - 1) hKr.1 le_rfl j hj
    rw [a_fin hl, Nat.zero_add] at this
    have hq : tb ≤ q0 l n (rows l n tb - 1) := by rw [q0_fin hl hfit]; omega
    rw [hz, this]
    interval_cases j <;> simp [blockv, hX0 _ hq, hY0 _ hq, sgn]

theorem writeConsts_eq (hl : 0 < l) (c : Cols) (omega : ZMod p) (x : Var) (srow : ℤ) (t : Table (ZMod p)) :
    writeConsts (circuit c l n tb omega x srow) t = (t.set .constant (c.k 0) srow omega).set .constant (c.k 0) (srow + 1) 0 := by
  have e : ∃ l', (circuit c l n tb omega x srow : List (Op (ZMod p))) = l' ++
      [.constant (c.k 0) srow omega, .constant (c.k 0) (srow + 1) 0] ∧ ∀ o ∈ l', ∀ col row v, o ≠ .constant col row v := by
    refine ⟨(if 1 < nineRows l n then [.gate (cs1 c l) [srow]] else []) ++
      (if 2 < nineRows l n then [.gate (nineBlock c l) (rowsFrom (srow + 1) (nineRows l n - 2))] else []) ++
      [.gate (cs3 c l n) [srow + nineRows l n - 1]] ++
      (if 0 < remaining l n tb then
        [.gate (bitLine c l) (rowsFrom (srow + nineRows l n) (lfit (remaining l n tb) (9 * l / 3 - 1)))] else []) ++
      [.copy x (c.wa 0 srow), .copy (omegaVar srow) (c.wa 3 srow)] ++
      (if 0 < remaining l n tb % (9 * l / 3 - 1) then
        (List.range (9 * l - 3 * (remaining l n tb % (9 * l / 3 - 1) + 1))).map fun i =>
          .copy (zeroVar srow) (c.wa ((3 * (remaining l n tb % (9 * l / 3 - 1) + 1) + i : ℕ) : ℤ) (srow + rows l n tb - 2))
        else []) ++
      [.copy (zeroVar srow) (c.wa 0 (srow + rows l n tb - 1)), .copy (zeroVar srow) (c.wa 1 (srow + rows l n tb - 1)),
        .copy (zeroVar srow) (c.wa 2 (srow + rows l n tb - 1))], by simp only [circuit, List.append_assoc, List.cons_append, List.nil_append], ?_⟩
    intro o ho col row v
    simp only [List.mem_append, List.mem_cons, List.not_mem_nil, or_false] at ho
    rcases ho with (((((ho | ho) | rfl) | ho) | (rfl | rfl)) | ho) | (rfl | rfl | rfl)
    · split_ifs at ho <;> simp at ho
      subst ho; simp
    · split_ifs at ho <;> simp at ho
      subst ho; simp
    · simp
    · split_ifs at ho <;> simp at ho
      subst ho; simp
    · simp
    · simp
    · split_ifs at ho
      · obtain ⟨i, -, rfl⟩ := List.mem_map.1 ho
        simp
      · simp at ho
    · simp
    · simp
    · simp
  obtain ⟨l', he, hno⟩ := e
  rw [he, writeConsts_append, writeConsts_noConst l' t hno]
  simp

/-- C67, completeness: for every field element `x` the generated table is accepted, and its outputs are the cosets of `x`. -/
theorem cosets_complete (hp : 2 < p) (h1 : 2 ^ (tb - 1) < p) (h2 : p < 2 ^ tb) (hl : 0 < l) (hn : 0 < n) (hfit : n + cap l n ≤ tb)
    (c : Cols) (hc : c.OK (9 * l)) (hk0 : c.k 0 = 0) (omega : ZMod p) (x : Var) (srow : ℤ) (t : Table (ZMod p))
    (hx : x.Outside srow (rows l n tb)) :
    let tc := writeConsts (circuit c l n tb omega x srow) t
    let t' := assign c l n tb omega x srow tc
    Sat t' (circuit c l n tb omega x srow) ∧ Frame c srow (rows l n tb) tc t' ∧
      ∀ k < n, IsCoset omega n (x.value tc).val k (outValue c l n k srow t') := by
  intro tc t'
  have hfr : Frame c srow (rows l n tb) tc t' := ((writes_grid c hl hn hc srow omega _ _).own hc).frame tc
  have hxv : x.value t' = x.value tc := hfr.outside hx
  have htc : ∀ r, t' .constant 0 r = tc .constant 0 r := fun r => hfr _ _ _ (by simp)
  have hc0 : t' .constant 0 srow = omega := by
    rw [htc]; simp only [tc]
    rw [writeConsts_eq hl, hk0, Table.set_ne _ _ (by simp), Table.set_same]
  have hc1 : t' .constant 0 (srow + 1) = 0 := by
    rw [htc]; simp only [tc]
    rw [writeConsts_eq hl, hk0, Table.set_same]
  have hsat : Sat t' (circuit c l n tb omega x srow) := by
    refine cells_sat h2 hl hn hfit c omega x srow t' hc0 hc1 (by rw [hk0, hc0]) (by rw [hk0, hc1]) ?_
    intro r j hj hr
    rw [hxv]
    exact writes_read c hl hn hc srow omega _ _ tc r j hj hr
  refine ⟨hsat, hfr, fun k hk => ?_⟩
  have := cosets_sound hp h1 h2 hl hn hfit c hk0 omega x srow t' hsat k hk
  rwa [hxv] at this

/-- The copy constraints name constant column 0 (325, 336, 342-347) while `omega` and 0 are written to `C(0)` (515-516). With any
other constant column the component does not fix `omega`: for every `omega'` there is an accepted table with the cosets of
`omega'`. -/
theorem cosets_any_omega (hp : 2 < p) (h1 : 2 ^ (tb - 1) < p) (h2 : p < 2 ^ tb) (hl : 0 < l) (hn : 0 < n) (hfit : n + cap l n ≤ tb)
    (c : Cols) (hc : c.OK (9 * l)) (hk0 : c.k 0 ≠ 0) (omega omega' : ZMod p) (x : Var) (srow : ℤ) (hx : x.Outside srow (rows l n tb))
    (hxk : x.type ≠ .constant) (v : ZMod p) :
    ∃ t, Sat t (circuit c l n tb omega x srow) ∧ x.value t = v ∧ ∀ k < n, IsCoset omega' n v.val k (outValue c l n k srow t) := by
  set c' : Cols := ⟨c.W, [0], c.PI⟩ with hc'
  have hk' : c'.k 0 = 0 := by simp [Cols.k, colAt, hc']
  have hOK : c'.OK (9 * l) := ⟨hc.nodup, hc.len⟩
  obtain ⟨hsat, hfr, hout⟩ := cosets_complete hp h1 h2 hl hn hfit c' hOK hk' omega' x srow (fun _ _ _ => v) hx
  set tc := writeConsts (circuit c' l n tb omega' x srow) (fun _ _ _ => v) with htc
  set t' := assign c' l n tb omega' x srow tc
  have hxv : x.value tc = v := by
    rw [htc, writeConsts_eq hl]
    show Table.set _ _ _ _ _ _ _ _ = v
    rw [Table.set_ne _ _ (by rintro ⟨h, -⟩; exact hxk h), Table.set_ne _ _ (by rintro ⟨h, -⟩; exact hxk h)]
  set t := (t'.set .constant (c.k 0) srow omega).set .constant (c.k 0) (srow + 1) 0 with ht
  have hw : ∀ i r, t .witness i r = t' .witness i r := by
    intro i r; rw [ht, Table.set_ne _ _ (by simp), Table.set_ne _ _ (by simp)]
  have hcol : ∀ r, t .constant 0 r = t' .constant 0 r := by
    intro r
    rw [ht, Table.set_ne _ _ (by rintro ⟨-, h, -⟩; exact hk0 h.symm), Table.set_ne _ _ (by rintro ⟨-, h, -⟩; exact hk0 h.symm)]
  have hxt : x.value t = v := by
    have : x.value t = x.value t' := by
      show t _ _ _ = t' _ _ _
      rw [ht, Table.set_ne _ _ (by rintro ⟨h, -⟩; exact hxk h), Table.set_ne _ _ (by rintro ⟨h, -⟩; exact hxk h)]
    rw [this, hfr.outside hx, hxv]
  have hcc : ∀ r j, cell c t srow r j = cell c' t' srow r j := fun r j => hw _ _
  obtain ⟨hE, g1, g2, g3, g4, g5, g6⟩ := (circuit_unpack c' t' srow hl hn x omega').1 hsat
  rw [hk'] at g5 g6
  refine ⟨t, ?_, hxt, ?_⟩
  · have h' : Sat t (circuit c' l n tb omega' x srow) := by
      refine cells_sat h2 hl hn hfit c' omega' x srow t ?_ ?_ ?_ ?_ ?_
      · show t .constant 0 srow = _
        rw [hcol, g5]
      · show t .constant 0 (srow + 1) = _
        rw [hcol, g6]
      · rw [hk', hcol, g5]
      · rw [hk', hcol, g6]
      · intro r j hj hr
        rw [hxt, ← hxv]
        show cell c t srow r j = _
        rw [hcc]
        exact writes_read c' hl hn hOK srow omega' _ _ tc r j hj hr
    obtain ⟨hE', f1, f2, f3, f4, -, -⟩ := (circuit_unpack c' t srow hl hn x omega').1 h'
    refine (circuit_unpack c t srow hl hn x omega).2 ⟨⟨hE'.blk, hE'.fst, hE'.lst, hE'.sum, hE'.hdr, hE'.bit⟩, f1, f2, f3, f4, ?_, ?_⟩
    · rw [ht, Table.set_ne _ _ (by simp), Table.set_same]
    · rw [ht, Table.set_same]
  · intro k hk
    have := hout k hk
    rw [hxv] at this
    rw [outValue_eq c t srow k hk]
    rw [outValue_eq c' t' srow k hk] at this
    exact this
end

/-- The hypotheses are met: 18 columns, three cosets, a 9-bit prime, so that the second row holds one block and two bits and the
bit row is padded. -/
example : Nat.Prime 257 ∧ 2 < 257 ∧ 2 ^ (9 - 1) < 257 ∧ 257 < 2 ^ 9 ∧ 3 + cap 2 3 ≤ 9 ∧ nineRows 2 3 = 2 ∧ rows 2 3 9 = 4 ∧
    remaining 2 3 9 = 4 ∧ (⟨List.range 18, [0], []⟩ : Cols).OK (9 * 2) ∧ (⟨List.range 18, [0], []⟩ : Cols).k 0 = 0 ∧
    (⟨0, 0, false, .publicInput⟩ : Var).Outside 5 (rows 2 3 9) :=
  ⟨by norm_num, by norm_num, by norm_num, by norm_num, by decide, by decide, by decide, by decide, ⟨by decide, rfl⟩, rfl,
    by simp [Var.Outside]⟩

/-- Outputs for `omega = 4` (order 8 in the field of 257 elements), `x = 6`: `s = 4^6 = 241, 241^2 = 256, 1`, bits `1, 1, 0`. -/
example [Fact (Nat.Prime 257)] : IsCoset (4 : ZMod 257) 3 6 0 (241, 16, 1) ∧ IsCoset (4 : ZMod 257) 3 6 1 (256, 1, 1) ∧ IsCoset (4 : ZMod 257) 3 6 2 (1, 256, 0) := by
  have h : (257 : ZMod 257) = 0 := rfl
  refine ⟨⟨?_, ?_, ?_⟩, ⟨?_, ?_, ?_⟩, ⟨?_, ?_, ?_⟩⟩
  · norm_num; linear_combination (-15) * h
  · norm_num; linear_combination h
  · norm_num
  · norm_num; linear_combination (-65280) * h
  · norm_num; linear_combination h
  · norm_num
  · norm_num; linear_combination (-1095233372415) * h
  · norm_num; linear_combination h
  · norm_num

end FriCosets
end Verif
