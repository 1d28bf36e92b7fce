import Verif.Model.XIndex
import Mathlib.Algebra.BigOperators.Intervals
import Mathlib.Algebra.Field.ZMod
import Mathlib.Tactic.NormNum.Prime

/-!
# C72: the sign bit of a coset point
-/

set_option linter.unusedSimpArgs false
set_option linter.unusedVariables false
set_option linter.unusedSectionVars false

namespace Verif
namespace XIndex

variable {F : Type*} [Field F]

/-! ### Specification -/

/-- The exponent whose binary digits are the complements of the bits `b 0, b 1, ...`. -/
def index (b : ℕ → Bool) (n : ℕ) : ℕ := ∑ i ∈ Finset.range n, if b i then 0 else 2 ^ i

/-- `1` or `omega`. -/
def pick (omega b : F) : F := b + omega - omega * b

theorem pick_bool (omega : F) (b : Bool) : pick omega (if b then 1 else 0) = if b then 1 else omega := by
  cases b <;> simp [pick]

theorem chain_succ (omega v0 : F) (bit : ℕ → F) (q : ℕ) :
    chain omega v0 bit (q + 1) = chain omega v0 bit q ^ 2 * pick omega (bit q) := by
  simp only [chain, pick]; ring

theorem chain_prod (omega v0 : F) (bit : ℕ → F) (q : ℕ) :
    chain omega v0 bit q = v0 ^ 2 ^ q * ∏ k ∈ Finset.range q, pick omega (bit k) ^ 2 ^ (q - 1 - k) := by
  induction q with
  | zero => simp [chain]
  | succ q ih =>
    rw [chain_succ, ih, Finset.prod_range_succ, mul_pow, ← pow_mul, ← pow_succ, ← Finset.prod_pow]
    have : ∀ k ∈ Finset.range q, (pick omega (bit k) ^ 2 ^ (q - 1 - k)) ^ 2 = pick omega (bit k) ^ 2 ^ (q + 1 - 1 - k) := by
      intro k hk
      rw [← pow_mul, ← pow_succ]
      have := Finset.mem_range.1 hk
      congr 2; omega
    rw [Finset.prod_congr rfl this]
    simp [mul_assoc]

/-- After all the bits. -/
theorem chain_bits (omega v0 b0 : F) (b : ℕ → F) (n : ℕ) (bb : ℕ → Bool) (hb : ∀ i < n, b i = if bb i then 1 else 0) :
    chain omega v0 (bitAt b0 b n) (n + 1) = (v0 ^ 2 * pick omega b0) ^ 2 ^ n * omega ^ index bb n := by
  rw [chain_prod, Finset.prod_range_succ']
  have h0 : bitAt b0 b n 0 = b0 := by simp [bitAt]
  have hs : ∀ k ∈ Finset.range n, pick omega (bitAt b0 b n (k + 1)) ^ 2 ^ (n + 1 - 1 - (k + 1)) =
      (fun i => omega ^ (if bb i then 0 else 2 ^ i)) (n - 1 - k) := by
    intro k hk
    have hk' := Finset.mem_range.1 hk
    have e : bitAt b0 b n (k + 1) = b (n - 1 - k) := by
      unfold bitAt
      rw [if_neg (by omega), if_pos (by omega)]; rfl
    rw [e, hb _ (by omega), pick_bool]
    have e2 : n + 1 - 1 - (k + 1) = n - 1 - k := by omega
    rw [e2]
    cases hbb : bb (n - 1 - k) <;> simp [hbb]
  rw [Finset.prod_congr rfl hs, Finset.prod_range_reflect (fun i => omega ^ (if bb i then 0 else 2 ^ i)) n, Finset.prod_pow_eq_pow_sum, h0]
  simp only [Nat.add_sub_cancel, Nat.sub_zero]
  rw [mul_pow, ← pow_mul, pow_succ, mul_comm (2 ^ n) 2]
  unfold index
  ring

theorem point_eq (omega : F) (b : ℕ → F) (n : ℕ) (bb : ℕ → Bool) (hb : ∀ i < n, b i = if bb i then 1 else 0) :
    point omega b n = omega ^ index bb n := by
  have key : ∀ k ≤ n, (List.range k).foldl (fun tmp i => tmp * tmp * (b (n - 1 - i) + omega * (1 - b (n - 1 - i)))) (1 : F) =
      chain omega 1 (bitAt 1 b n) (k + 1) := by
    intro k hk
    induction k with
    | zero => simp [chain, bitAt]
    | succ k ih =>
      rw [List.range_succ, List.foldl_append, ih (by omega), chain_succ _ _ _ (k + 1)]
      have e : bitAt 1 b n (k + 1) = b (n - 1 - k) := by
        unfold bitAt
        rw [if_neg (by omega), if_pos (by omega)]; rfl
      rw [e]
      simp only [List.foldl_cons, List.foldl_nil, pick]; ring
  unfold point
  rw [key n le_rfl, chain_bits omega 1 1 b n bb hb]
  simp [pick]

/-! ### Layout -/

theorem per_pos {w : ℕ} (hw : 3 ≤ w) : 0 < per w := by unfold per; omega

theorem rows_eq (w n : ℕ) : rows w n = if n % per w = 0 then n / per w else n / per w + 1 := by
  unfold rows per
  simp only []
  rw [mul_comm 2 n, Nat.mul_mod_mul_right, Nat.mul_div_mul_right _ _ (by norm_num)]
  simp only [Nat.mul_eq_zero, OfNat.ofNat_ne_zero, or_false]

/-- Every block index below `rows * per` is in some row. -/
theorem rows_lt {w n q : ℕ} (hp : 0 < per w) (hq : q / per w < rows w n) : q < rows w n * per w := (Nat.div_lt_iff_lt_mul hp).1 hq

/-- All `n + 1` blocks fit exactly when `per` does not divide `n`. -/
theorem fits_iff (w n : ℕ) (hp : 0 < per w) : n < rows w n * per w ↔ ¬ per w ∣ n := by
  rw [rows_eq, Nat.dvd_iff_mod_eq_zero]
  have hd := Nat.div_add_mod n (per w)
  by_cases h : n % per w = 0
  · rw [if_pos h]
    rw [h, Nat.mul_comm] at hd
    constructor
    · intro h1; omega
    · intro h1; exact absurd h h1
  · rw [if_neg h]
    have := Nat.mod_lt n hp
    rw [Nat.add_mul, one_mul, Nat.mul_comm]
    constructor
    · intro _; exact h
    · intro _; omega

/-- The constraints, cell by cell. -/
theorem circuit_iff (c : Cols) (w n : ℕ) (hw : 3 ≤ w) (omega : F) (x : Var) (b : ℕ → Var) (srow : ℤ) (t : Table F) :
    Sat t (circuit c w n omega x b srow) ↔
      (∀ r < rows w n, t .constant (c.k 0) (srow + (r : ℤ)) = omega) ∧
      (∀ r < rows w n, ∀ k < per w, t .witness (c.w ((k * 2 + 2 : ℕ) : ℤ)) (srow + (r : ℤ)) =
        t .witness (c.w ((k * 2 : ℕ) : ℤ)) (srow + (r : ℤ)) ^ 2 * pick omega (t .witness (c.w ((k * 2 + 1 : ℕ) : ℤ)) (srow + (r : ℤ)))) ∧
      (∀ r, r + 1 < rows w n → t .witness (c.w ((per w * 2 : ℕ) : ℤ)) (srow + (r : ℤ)) = t .witness (c.w 0) (srow + ((r + 1 : ℕ) : ℤ))) ∧
      (∀ q, 0 < q → q ≤ n → q < rows w n * per w →
        (b (n - q)).value t = t .witness (c.w ((q % per w * 2 + 1 : ℕ) : ℤ)) (srow + ((q / per w : ℕ) : ℤ))) ∧
      (n < rows w n * per w → x.value t = t .witness (c.w ((n % per w * 2 + 2 : ℕ) : ℤ)) (srow + ((n / per w : ℕ) : ℤ))) := by
  have hp := per_pos hw
  have hdm : ∀ r k, k < per w → (r * per w + k) / per w = r ∧ (r * per w + k) % per w = k := by
    intro r k hk
    rw [Nat.mul_comm]
    exact ⟨by rw [Nat.mul_add_div hp, Nat.div_eq_of_lt hk]; rfl, by rw [Nat.mul_add_mod, Nat.mod_eq_of_lt hk]⟩
  have hdm' : ∀ q, q / per w * per w + q % per w = q := fun q => by
    rw [Nat.mul_comm]; exact Nat.div_add_mod q (per w)
  have hcop : ∀ o : Op F, o ∈ (blocks (rows w n) (per w) (n + 1) fun r k => copies c n x b srow r k (r * per w + k)).flatten ↔
      ∃ q, q < n + 1 ∧ q < rows w n * per w ∧ o ∈ copies c n x b srow (q / per w) (q % per w) q := by
    intro o
    rw [List.mem_flatten]
    constructor
    · rintro ⟨l, hl, ho⟩
      obtain ⟨r, hr, k, hk, hq, rfl⟩ := mem_blocks.1 hl
      obtain ⟨e1, e2⟩ := hdm r k hk
      exact ⟨r * per w + k, hq, rows_lt hp (by rw [e1]; exact hr), by rw [e1, e2]; exact ho⟩
    · rintro ⟨q, h1, h2, h3⟩
      refine ⟨_, mem_blocks.2 ⟨q / per w, (Nat.div_lt_iff_lt_mul hp).2 h2, q % per w, Nat.mod_lt _ hp, by rw [hdm']; exact h1, rfl⟩, ?_⟩
      rw [hdm']; exact h3
  have hcs : Sat t (blocks (rows w n) (per w) (n + 1) fun r k => copies c n x b srow r k (r * per w + k)).flatten ↔
      (∀ q, 0 < q → q ≤ n → q < rows w n * per w →
        (b (n - q)).value t = t .witness (c.w ((q % per w * 2 + 1 : ℕ) : ℤ)) (srow + ((q / per w : ℕ) : ℤ))) ∧
      (n < rows w n * per w → x.value t = t .witness (c.w ((n % per w * 2 + 2 : ℕ) : ℤ)) (srow + ((n / per w : ℕ) : ℤ))) := by
    unfold Sat
    simp only [hcop]
    constructor
    · intro h
      constructor
      · intro q h0 h1 h2
        exact h (.copy (b (n - q)) (c.wa ((q % per w * 2 + 1 : ℕ) : ℤ) (srow + ((q / per w : ℕ) : ℤ))))
          ⟨q, by omega, h2, List.mem_append_left _ (by rw [if_pos (by omega)]; simp)⟩
      · intro h2
        exact h (.copy x (c.wa ((n % per w * 2 + 2 : ℕ) : ℤ) (srow + ((n / per w : ℕ) : ℤ))))
          ⟨n, by omega, h2, List.mem_append_right _ (by rw [if_pos rfl]; simp)⟩
    · rintro ⟨ha, hb⟩ o ⟨q, h1, h2, h3⟩
      rcases List.mem_append.1 h3 with h | h
      · split_ifs at h with h4
        · rw [List.mem_singleton] at h; subst h
          exact ha q (by omega) (by omega) h2
        · simp at h
      · split_ifs at h with h4
        · rw [List.mem_singleton] at h; subst h
          have : q = n := by omega
          subst this
          exact hb h2
        · simp at h
  unfold circuit
  rw [sat_append, sat_append, hcs, sat_cons]
  have h1 : (Op.gate ((List.range (per w)).map (blockExpr c)) (rowsFrom srow (rows w n)) : Op F).Holds t ↔
      ∀ r < rows w n, ∀ k < per w, t .witness (c.w ((k * 2 + 2 : ℕ) : ℤ)) (srow + (r : ℤ)) -
        t .witness (c.w ((k * 2 : ℕ) : ℤ)) (srow + (r : ℤ)) * t .witness (c.w ((k * 2 : ℕ) : ℤ)) (srow + (r : ℤ)) *
          (t .witness (c.w ((k * 2 + 1 : ℕ) : ℤ)) (srow + (r : ℤ)) + t .constant (c.k 0) (srow + (r : ℤ)) -
            t .constant (c.k 0) (srow + (r : ℤ)) * t .witness (c.w ((k * 2 + 1 : ℕ) : ℤ)) (srow + (r : ℤ))) = 0 := by
    rw [holds_gate]
    constructor
    · intro h r hr k hk
      have := h _ (mem_rowsFrom.2 ⟨r, hr, rfl⟩) _ (List.mem_map.2 ⟨k, List.mem_range.2 hk, rfl⟩)
      simpa only [blockExpr, omegaExpr, Expr.eval_sub, Expr.eval_mul, Expr.eval_add, Cols.eval_wv, Expr.eval_var, Var.evalAt, if_true, add_zero] using this
    · intro h r hr e he
      obtain ⟨r', hr', rfl⟩ := mem_rowsFrom.1 hr
      obtain ⟨k, hk, rfl⟩ := List.mem_map.1 he
      have := h r' hr' k (List.mem_range.1 hk)
      simpa only [blockExpr, omegaExpr, Expr.eval_sub, Expr.eval_mul, Expr.eval_add, Cols.eval_wv, Expr.eval_var, Var.evalAt, if_true, add_zero] using this
  have h2 : Sat t ((List.range (rows w n)).map fun (r : ℕ) => Op.constant (c.k 0) (srow + (r : ℤ)) omega) ↔
      ∀ r < rows w n, t .constant (c.k 0) (srow + (r : ℤ)) = omega := by
    simp [Sat]
  have h3 : Sat t ((List.range (rows w n - 1)).map fun (r : ℕ) =>
      (Op.copy (c.wa (((w - 1) / 2 * 2 : ℕ) : ℤ) (srow + (r : ℤ))) (c.wa 0 (srow + ((r + 1 : ℕ) : ℤ))) : Op F)) ↔
      ∀ r, r + 1 < rows w n → t .witness (c.w ((per w * 2 : ℕ) : ℤ)) (srow + (r : ℤ)) = t .witness (c.w 0) (srow + ((r + 1 : ℕ) : ℤ)) := by
    unfold Sat
    constructor
    · intro h r hr
      exact h _ (List.mem_map.2 ⟨r, List.mem_range.2 (by omega), rfl⟩)
    · intro h o ho
      obtain ⟨r, hr, rfl⟩ := List.mem_map.1 ho
      exact h r (by have := List.mem_range.1 hr; omega)
  rw [h1, h2, h3]
  constructor
  · rintro ⟨⟨⟨a, a'⟩, a''⟩, d⟩
    refine ⟨a', fun r hr k hk => ?_, a'', d⟩
    have := a r hr k hk
    rw [a' r hr] at this
    unfold pick
    linear_combination this
  · rintro ⟨a', a, a'', d⟩
    refine ⟨⟨⟨fun r hr k hk => ?_, a'⟩, a''⟩, d⟩
    have := a r hr k hk
    rw [a' r hr]
    unfold pick at this
    linear_combination this

theorem succ_same {p q : ℕ} (hp : 0 < p) (h : q % p + 1 < p) : (q + 1) % p = q % p + 1 ∧ (q + 1) / p = q / p := by
  have e : q + 1 = p * (q / p) + (q % p + 1) := by have := Nat.div_add_mod q p; omega
  constructor
  · conv_lhs => rw [e]
    rw [Nat.mul_add_mod, Nat.mod_eq_of_lt h]
  · conv_lhs => rw [e]
    rw [Nat.mul_add_div hp, Nat.div_eq_of_lt h]; rfl

theorem succ_next {p q : ℕ} (hp : 0 < p) (h : ¬ q % p + 1 < p) : (q + 1) % p = 0 ∧ (q + 1) / p = q / p + 1 ∧ q % p + 1 = p := by
  have h0 : q % p + 1 = p := by have := Nat.mod_lt q hp; omega
  have e : q + 1 = p * (q / p + 1) := by have := Nat.div_add_mod q p; rw [Nat.mul_add]; omega
  refine ⟨?_, ?_, h0⟩
  · rw [e, Nat.mul_mod_right]
  · rw [e, Nat.mul_div_cancel_left _ hp]

/-! ### Soundness -/

/-- What the constraints say when they cover all the bits (`per` does not divide `n`): `v0` is the cell before the first block. -/
theorem chain_sound (c : Cols) (w n : ℕ) (hw : 3 ≤ w) (hd : ¬ per w ∣ n) (omega : F) (x : Var) (b : ℕ → Var) (srow : ℤ) (t : Table F)
    (h : Sat t (circuit c w n omega x b srow)) :
    x.value t = chain omega (t .witness (c.w 0) srow) (bitAt ((result c srow).value t) (fun i => (b i).value t) n) (n + 1) := by
  have hp := per_pos hw
  obtain ⟨-, hg, hc, hb, hx⟩ := (circuit_iff c w n hw omega x b srow t).1 h
  have hf := (fits_iff w n hp).2 hd
  have key : ∀ q ≤ n, t .witness (c.w ((q % per w * 2 + 2 : ℕ) : ℤ)) (srow + ((q / per w : ℕ) : ℤ)) =
      chain omega (t .witness (c.w 0) srow) (bitAt ((result c srow).value t) (fun i => (b i).value t) n) (q + 1) := by
    intro q
    induction q with
    | zero =>
      intro _
      have := hg 0 (by have := (Nat.pos_iff_ne_zero (n := rows w n * per w)).1 (by omega); rw [Nat.mul_ne_zero_iff] at this; omega) 0 hp
      simp only [Nat.zero_mod, Nat.zero_div, Nat.zero_mul, Nat.zero_add, Nat.cast_zero, add_zero] at this ⊢
      rw [this, chain_succ]
      simp [chain, bitAt, result]
    | succ q ih =>
      intro hq
      have hr : (q + 1) / per w < rows w n := (Nat.div_lt_iff_lt_mul hp).2 (by omega)
      have hk := Nat.mod_lt (q + 1) hp
      rw [hg _ hr _ hk, chain_succ, ← ih (by omega), ← hb (q + 1) (by omega) hq (by omega)]
      have e1 : bitAt ((result c srow).value t) (fun i => (b i).value t) n (q + 1) = (b (n - (q + 1))).value t := by
        unfold bitAt
        rw [if_neg (by omega), if_pos (by omega)]
        show (b (n - 1 - (q + 1 - 1))).value t = _
        rw [show n - 1 - (q + 1 - 1) = n - (q + 1) by omega]
      rw [e1]
      congr 2
      by_cases h1 : q % per w + 1 < per w
      · obtain ⟨e2, e3⟩ := succ_same hp h1
        rw [e2, e3, Nat.add_mul]
      · obtain ⟨e2, e3, e4⟩ := succ_next hp h1
        rw [e2, e3]
        have := hc (q / per w) (by omega)
        have e5 : q % per w * 2 + 2 = per w * 2 := by omega
        rw [e5, this]; simp
  rw [hx hf, key n le_rfl]

/-- **C72 (soundness, partial).** With bits `b`, the accepted `x` is `omega ^ index` times the `2 ^ n`-th power of a factor that the
constraints leave free: the cell `v0` before the first block is not set to 1 and `b0` is not forced to be a bit. -/
theorem xIndex_sound_partial (c : Cols) (w n : ℕ) (hw : 3 ≤ w) (hd : ¬ (w - 1) / 2 ∣ n) (omega : F) (x : Var) (b : ℕ → Var) (srow : ℤ)
    (t : Table F) (bb : ℕ → Bool) (hb : ∀ i < n, (b i).value t = if bb i then 1 else 0)
    (h : Sat t (circuit c w n omega x b srow)) :
    x.value t = (t .witness (c.w 0) srow ^ 2 * pick omega ((result c srow).value t)) ^ 2 ^ n * omega ^ index bb n := by
  rw [chain_sound c w n hw hd omega x b srow t h, chain_bits _ _ _ _ n bb hb]

/-- If the two free cells have the values they should have, the output is the sign. -/
theorem xIndex_sign_partial (c : Cols) (w n : ℕ) (hw : 3 ≤ w) (hd : ¬ (w - 1) / 2 ∣ n) (omega : F) (ho : omega ^ 2 ^ n = -1) (x : Var)
    (b : ℕ → Var) (srow : ℤ) (t : Table F) (bb : ℕ → Bool) (hb : ∀ i < n, (b i).value t = if bb i then 1 else 0)
    (h : Sat t (circuit c w n omega x b srow)) (h0 : t .witness (c.w 0) srow = 1) (s : Bool)
    (hs : (result c srow).value t = if s then 1 else 0) :
    x.value t = (if s then 1 else -1) * omega ^ index bb n := by
  rw [xIndex_sound_partial c w n hw hd omega x b srow t bb hb h, h0, hs, pick_bool]
  cases s <;> simp [ho]

/-! ### Completeness -/

/-- The value of column `j` in row `r`. -/
def cell (w : ℕ) (omega v0 : F) (bit : ℕ → F) (r j : ℕ) : F :=
  if j % 2 = 0 then chain omega v0 bit (r * per w + j / 2) else bit (r * per w + j / 2)

theorem writes_grid (c : Cols) (w n : ℕ) (hw : 3 ≤ w) (omega v0 : F) (bit : ℕ → F) (srow : ℤ) :
    GridWrites c srow w (rows w n) (cell w omega v0 bit) (writes c w n omega v0 bit srow) := by
  have hpw : per w * 2 + 1 ≤ w := by unfold per; omega
  intro x hx
  simp only [writes, List.mem_flatMap, List.mem_range, List.mem_cons] at hx
  obtain ⟨r, hr, rfl | ⟨k, hk, rfl | rfl | h⟩⟩ := hx
  · exact ⟨r, hr, 0, by omega, by simp [cell]⟩
  · refine ⟨r, hr, k * 2 + 1, by omega, ?_⟩
    have e : (k * 2 + 1) / 2 = k := by omega
    unfold cell
    rw [if_neg (by omega), e]
  · refine ⟨r, hr, k * 2 + 2, by omega, ?_⟩
    have e : (k * 2 + 2) / 2 = k + 1 := by omega
    unfold cell
    rw [if_pos (by omega), e, ← Nat.add_assoc]
  · simp at h

theorem writes_read (c : Cols) (w n : ℕ) (hw : 3 ≤ w) (hc : c.OK w) (omega v0 : F) (bit : ℕ → F) (srow : ℤ) (t : Table F) (r j : ℕ)
    (hr : r < rows w n) (hj : j < per w * 2 + 1) :
    writeAll (writes c w n omega v0 bit srow) t .witness (c.w (j : ℤ)) (srow + (r : ℤ)) = cell w omega v0 bit r j := by
  have hpw : per w * 2 + 1 ≤ w := by unfold per; omega
  refine (writes_grid c w n hw omega v0 bit srow).read hc t (by omega) ?_
  simp only [writes, List.mem_flatMap, List.mem_range, List.mem_cons]
  refine ⟨r, hr, ?_⟩
  rcases Nat.eq_zero_or_pos j with rfl | h0
  · left; simp [cell]
  · right
    rcases Nat.mod_two_eq_zero_or_one j with h1 | h1
    · refine ⟨j / 2 - 1, by omega, Or.inr (Or.inl ?_)⟩
      have e : (j / 2 - 1) * 2 + 2 = j := by omega
      have e2 : r * per w + (j / 2 - 1) + 1 = r * per w + j / 2 := by omega
      rw [e, e2]; unfold cell; rw [if_pos h1]
    · refine ⟨j / 2, by omega, Or.inl ?_⟩
      have e : j / 2 * 2 + 1 = j := by omega
      rw [e]; unfold cell; rw [if_neg (by omega)]

/-- Filling the rows with any start value `v0` and any `b0` satisfies the constraints as soon as the end of the chain is `x` - and
without any condition on `x` when `per` divides `n`. -/
theorem with_sat (c : Cols) (w n : ℕ) (hw : 3 ≤ w) (hc : c.OK w) (omega v0 b0 : F) (x : Var) (b : ℕ → Var) (srow : ℤ) (t : Table F)
    (hk : ∀ r < rows w n, t .constant (c.k 0) (srow + (r : ℤ)) = omega)
    (hox : x.Outside srow (rows w n)) (hob : ∀ i < n, (b i).Outside srow (rows w n))
    (hx : ¬ (w - 1) / 2 ∣ n → x.value t = chain omega v0 (bitAt b0 (fun i => (b i).value t) n) (n + 1)) :
    let t' := writeAll (writes c w n omega v0 (bitAt b0 (fun i => (b i).value t) n) srow) t
    Sat t' (circuit c w n omega x b srow) ∧ Frame c srow (rows w n) t t' ∧
      (0 < n → t' .witness (c.w 0) srow = v0 ∧ (result c srow).value t' = b0) := by
  intro t'
  have hp := per_pos hw
  have hfr : Frame c srow (rows w n) t t' := ((writes_grid c w n hw omega v0 _ srow).own hc).frame t
  have hrd : ∀ r < rows w n, ∀ j < per w * 2 + 1, t' .witness (c.w (j : ℤ)) (srow + (r : ℤ)) =
      cell w omega v0 (bitAt b0 (fun i => (b i).value t) n) r j :=
    fun r hr j hj => writes_read c w n hw hc omega v0 _ srow t r j hr hj
  have hdm' : ∀ q, q / per w * per w + q % per w = q := fun q => by
    rw [Nat.mul_comm]; exact Nat.div_add_mod q (per w)
  refine ⟨(circuit_iff c w n hw omega x b srow t').2 ⟨?_, ?_, ?_, ?_, ?_⟩, hfr, ?_⟩
  · intro r hr
    rw [hfr _ _ _ (by rintro ⟨h, -⟩; cases h)]; exact hk r hr
  · intro r hr k hk'
    rw [hrd r hr _ (by omega), hrd r hr _ (by omega), hrd r hr _ (by omega)]
    unfold cell
    rw [if_pos (by omega), if_pos (by omega), if_neg (by omega), show (k * 2 + 2) / 2 = k + 1 by omega, show k * 2 / 2 = k by omega,
      show (k * 2 + 1) / 2 = k by omega, ← Nat.add_assoc, chain_succ]
  · intro r hr
    have h0 := hrd (r + 1) hr 0 (by omega)
    rw [Nat.cast_zero] at h0
    rw [hrd r (by omega) _ (by omega), h0]
    unfold cell
    rw [if_pos (by omega), if_pos (by omega), Nat.mul_div_cancel _ (by norm_num), Nat.add_mul]; simp
  · intro q h0 h1 h2
    rw [hfr.outside (hob _ (by omega)), hrd _ ((Nat.div_lt_iff_lt_mul hp).2 h2) _ (by have := Nat.mod_lt q hp; omega)]
    unfold cell
    rw [if_neg (by omega), show (q % per w * 2 + 1) / 2 = q % per w by omega, hdm']
    unfold bitAt
    rw [if_neg (by omega), if_pos (by omega)]
    show _ = (b (n - 1 - (q - 1))).value t
    rw [show n - 1 - (q - 1) = n - q by omega]
  · intro h2
    rw [hfr.outside hox, hx ((fits_iff w n hp).1 h2), hrd _ ((Nat.div_lt_iff_lt_mul hp).2 h2) _ (by have := Nat.mod_lt n hp; omega)]
    unfold cell
    rw [if_pos (by omega), show (n % per w * 2 + 2) / 2 = n % per w + 1 by omega, ← Nat.add_assoc, hdm']
  · intro hn
    have hr : 0 < rows w n := by
      rw [rows_eq]
      have := Nat.div_add_mod n (per w)
      split_ifs with h
      · rw [h] at this
        exact Nat.pos_of_ne_zero fun h' => by rw [h'] at this; omega
      · exact Nat.succ_pos _
    have h0 := hrd 0 hr 0 (by omega)
    have h1 := hrd 0 hr 1 (by omega)
    simp only [Nat.cast_zero, add_zero, Nat.cast_one] at h0 h1
    refine ⟨?_, ?_⟩
    · rw [h0]; simp [cell, chain]
    · rw [result, Cols.value_wa, h1]; simp [cell, bitAt]

/-- **C72 (completeness).** When `omega` has order `2 ^ (n + 1)` and `x` is `omega ^ index` or its opposite, the generated rows satisfy the
constraints and the output is the sign of `x`. -/
theorem xIndex_complete [DecidableEq F] (c : Cols) (w n : ℕ) (hw : 3 ≤ w) (hn : 0 < n) (hc : c.OK w) (omega : F) (h2 : (2 : F) ≠ 0)
    (ho : omega ^ 2 ^ n = -1) (x : Var) (b : ℕ → Var) (srow : ℤ) (t : Table F)
    (hk : ∀ r < rows w n, t .constant (c.k 0) (srow + (r : ℤ)) = omega)
    (hox : x.Outside srow (rows w n)) (hob : ∀ i < n, (b i).Outside srow (rows w n)) (bb : ℕ → Bool)
    (hb : ∀ i < n, (b i).value t = if bb i then 1 else 0) (s : Bool) (hx : x.value t = (if s then 1 else -1) * omega ^ index bb n) :
    Sat (assign c w n omega x b srow t) (circuit c w n omega x b srow) ∧
      (result c srow).value (assign c w n omega x b srow t) = (if s then 1 else 0) ∧
      Frame c srow (rows w n) t (assign c w n omega x b srow t) := by
  have hne : omega ^ index bb n ≠ 0 := by
    apply pow_ne_zero
    rintro rfl
    rw [zero_pow (by positivity)] at ho
    exact one_ne_zero (neg_eq_zero.1 ho.symm)
  have hs : sign omega (x.value t) (fun i => (b i).value t) n = if s then 1 else 0 := by
    unfold sign
    rw [point_eq omega _ n bb hb, hx]
    cases s
    · simp only [Bool.false_eq_true, if_false, neg_one_mul]
      rw [if_neg]
      intro h
      exact mul_ne_zero h2 hne (by linear_combination h)
    · simp
  have := with_sat c w n hw hc omega 1 (sign omega (x.value t) (fun i => (b i).value t) n) x b srow t hk hox hob (by
    intro _
    rw [chain_bits _ _ _ _ n bb hb, hs, pick_bool, hx]
    cases s <;> simp [ho])
  exact ⟨this.1, by rw [assign, (this.2.2 hn).2, hs], this.2.1⟩

/-! ### What is not enforced -/

/-- **C72 (refuted): the sign bit need not be a bit.** For every honest `x = omega ^ index`, an accepted table has the output `-omega`. -/
theorem xIndex_not_bit (c : Cols) (w n : ℕ) (hw : 3 ≤ w) (hn : 0 < n) (hc : c.OK w) (omega : F) (ho : omega ^ 2 ^ n = -1)
    (x : Var) (b : ℕ → Var) (srow : ℤ) (t : Table F) (hk : ∀ r < rows w n, t .constant (c.k 0) (srow + (r : ℤ)) = omega)
    (hox : x.Outside srow (rows w n)) (hob : ∀ i < n, (b i).Outside srow (rows w n)) (bb : ℕ → Bool)
    (hb : ∀ i < n, (b i).value t = if bb i then 1 else 0) (hx : x.value t = omega ^ index bb n) :
    ∃ t', Sat t' (circuit c w n omega x b srow) ∧ Frame c srow (rows w n) t t' ∧ t' .witness (c.w 0) srow = 1 ∧
      (result c srow).value t' = -omega := by
  have := with_sat c w n hw hc omega 1 (-omega) x b srow t hk hox hob (by
    intro _
    rw [chain_bits _ _ _ _ n bb hb, hx]
    have : pick omega (-omega) = omega * omega := by unfold pick; ring
    rw [this, one_pow, one_mul, mul_pow, ho]; ring)
  exact ⟨_, this.1, this.2.1, (this.2.2 hn).1, (this.2.2 hn).2⟩

/-- **C72 (refuted): the wrong sign is accepted** because the first cell is not set to 1. `zeta` is a root of unity of twice the order
of `omega`. -/
theorem xIndex_wrong_sign (c : Cols) (w n : ℕ) (hw : 3 ≤ w) (hn : 0 < n) (hc : c.OK w) (omega zeta : F) (ho : omega ^ 2 ^ n = -1)
    (hz : zeta ^ 2 ^ (n + 1) = -1) (x : Var) (b : ℕ → Var) (srow : ℤ) (t : Table F)
    (hk : ∀ r < rows w n, t .constant (c.k 0) (srow + (r : ℤ)) = omega)
    (hox : x.Outside srow (rows w n)) (hob : ∀ i < n, (b i).Outside srow (rows w n)) (bb : ℕ → Bool)
    (hb : ∀ i < n, (b i).value t = if bb i then 1 else 0) (s : Bool) (hx : x.value t = (if s then 1 else -1) * omega ^ index bb n) :
    ∃ t', Sat t' (circuit c w n omega x b srow) ∧ Frame c srow (rows w n) t t' ∧ (result c srow).value t' = if s then 0 else 1 := by
  have := with_sat c w n hw hc omega zeta (if s then 0 else 1) x b srow t hk hox hob (by
    intro _
    rw [chain_bits _ _ _ _ n bb hb, hx, mul_pow, ← pow_mul, show 2 * 2 ^ n = 2 ^ (n + 1) by rw [pow_succ]; ring, hz]
    cases s
    · simp [pick]
    · simp [pick, ho])
  exact ⟨_, this.1, this.2.1, (this.2.2 hn).2⟩

/-- **C72 (refuted): `x` is not connected at all** when the number of blocks in a row divides `n`: any `x`, any bits and any `b0` are
accepted. -/
theorem xIndex_free (c : Cols) (w n : ℕ) (hw : 3 ≤ w) (hn : 0 < n) (hd : (w - 1) / 2 ∣ n) (hc : c.OK w) (omega b0 : F)
    (x : Var) (b : ℕ → Var) (srow : ℤ) (t : Table F) (hk : ∀ r < rows w n, t .constant (c.k 0) (srow + (r : ℤ)) = omega)
    (hox : x.Outside srow (rows w n)) (hob : ∀ i < n, (b i).Outside srow (rows w n)) :
    ∃ t', Sat t' (circuit c w n omega x b srow) ∧ Frame c srow (rows w n) t t' ∧ t' .witness (c.w 0) srow = 1 ∧
      (result c srow).value t' = b0 := by
  have := with_sat c w n hw hc omega 1 b0 x b srow t hk hox hob (fun h => absurd hd h)
  exact ⟨_, this.1, this.2.1, (this.2.2 hn).1, (this.2.2 hn).2⟩

/-! ### Instances -/

instance : Fact (Nat.Prime 97) := ⟨by norm_num⟩

def ix : Var := ⟨0, 0, false, .publicInput⟩
def ib (i : ℕ) : Var := ⟨0, 1 + i, false, .publicInput⟩
def cx : Cols := ⟨[0, 1, 2, 3, 4], [0], [0]⟩
def bx (i : ℕ) : Bool := i ≠ 1

/-- Modulo 97, `8` has order 16 and `19` has order 32. The bits are 1, 0, 1, so the index is 2 and `x = 64`. -/
def tx : Table (ZMod 97) := fun ty _ r =>
  match ty with
  | .constant => 8
  | .publicInput => if r = 0 then 64 else if r = 2 then 0 else 1
  | _ => 0

theorem tx_bits : ∀ i < 3, (ib i).value tx = if bx i then 1 else 0 := by decide
theorem tx_x : ix.value tx = (if true then 1 else -1) * 8 ^ index bx 3 := by decide
theorem cx_ok : cx.OK 5 := ⟨by decide, rfl⟩

/-- The honest rows, the output `-8` and the wrong sign. -/
example : (Sat (assign cx 5 3 8 ix ib 10 tx) (circuit cx 5 3 8 ix ib 10) ∧ (result cx 10).value (assign cx 5 3 8 ix ib 10 tx) = 1) ∧
    (∃ t' : Table (ZMod 97), Sat t' (circuit cx 5 3 8 ix ib 10) ∧ (result cx 10).value t' = -8) ∧
    ∃ t' : Table (ZMod 97), Sat t' (circuit cx 5 3 8 ix ib 10) ∧ (result cx 10).value t' = 0 := by
  have h1 : ∀ n, ix.Outside 10 n := fun n h => by cases h
  have h2 : ∀ n i, (ib i).Outside 10 n := fun n i h => by cases h
  refine ⟨?_, ?_, ?_⟩
  · have := xIndex_complete cx 5 3 (by norm_num) (by norm_num) cx_ok 8 (by decide) (by decide) ix ib 10 tx (fun _ _ => rfl) (h1 _)
      (fun i _ => h2 _ i) bx tx_bits true tx_x
    exact ⟨this.1, this.2.1⟩
  · obtain ⟨t', a, -, -, d⟩ := xIndex_not_bit cx 5 3 (by norm_num) (by norm_num) cx_ok 8 (by decide) ix ib 10 tx (fun _ _ => rfl) (h1 _)
      (fun i _ => h2 _ i) bx tx_bits (by decide)
    exact ⟨t', a, d⟩
  · obtain ⟨t', a, -, d⟩ := xIndex_wrong_sign cx 5 3 (by norm_num) (by norm_num) cx_ok 8 19 (by decide) (by decide) ix ib 10 tx
      (fun _ _ => rfl) (h1 _) (fun i _ => h2 _ i) bx tx_bits true tx_x
    exact ⟨t', a, d⟩

/-- Two bits: `x = 64` is no power of `8 ^ 2` with such an index, and is accepted with any `b0`. -/
example (b0 : ZMod 97) : ∃ t', Sat t' (circuit cx 5 2 8 ix ib 10) ∧ (result cx 10).value t' = b0 := by
  obtain ⟨t', a, -, -, d⟩ := xIndex_free cx 5 2 (by norm_num) (by norm_num) (by decide) cx_ok 8 b0 ix ib 10 tx (fun _ _ => rfl)
    (fun h => by cases h) (fun i _ h => by cases h)
  exact ⟨t', a, d⟩

end XIndex
end Verif
