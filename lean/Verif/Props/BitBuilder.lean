import Verif.Model.BitBuilder
import Verif.Props.RangeCheck
import Mathlib.Data.Nat.Size

/-!
# C18-C20: bit decomposition and composition
-/

set_option linter.unusedSimpArgs false
set_option linter.unusedVariables false
set_option linter.unusedSectionVars false

namespace Verif

section
variable {F : Type*} [Field F]

/-- Base-2 Horner value, most significant first. -/
def horner2 (v : ℕ → F) (n : ℕ) : F := (List.range n).foldl (fun s i => 2 * s + v i) 0

@[simp] theorem horner2_zero (v : ℕ → F) : horner2 v 0 = 0 := rfl
theorem horner2_succ (v : ℕ → F) (n : ℕ) : horner2 v (n + 1) = 2 * horner2 v n + v n := by
  simp [horner2, List.range_succ]
theorem horner2_congr {v v' : ℕ → F} {n : ℕ} (h : ∀ i < n, v i = v' i) : horner2 v n = horner2 v' n := by
  induction n with
  | zero => rfl
  | succ n ih => rw [horner2_succ, horner2_succ, ih fun i hi => h i (by omega), h n (by omega)]
theorem horner2_add (v : ℕ → F) (a n : ℕ) :
    horner2 v (a + n) = 2 ^ n * horner2 v a + horner2 (fun i => v (a + i)) n := by
  induction n with
  | zero => simp
  | succ n ih => rw [← add_assoc, horner2_succ, ih, horner2_succ, pow_succ]; ring
theorem horner2_eq_zero {v : ℕ → F} {n : ℕ} (h : ∀ i < n, v i = 0) : horner2 v n = 0 := by
  induction n with
  | zero => rfl
  | succ n ih => rw [horner2_succ, ih fun i hi => h i (by omega), h n (by omega)]; ring

/-- Horner's rule computes the weighted sum. -/
theorem horner2_eq_sum (v : ℕ → F) (n : ℕ) : horner2 v n = ∑ i ∈ Finset.range n, v i * 2 ^ (n - 1 - i) := by
  induction n with
  | zero => simp
  | succ n ih =>
    rw [horner2_succ, ih, Finset.sum_range_succ, Finset.mul_sum]
    have e : n + 1 - 1 - n = 0 := by omega
    rw [e, pow_zero, mul_one]
    congr 1
    apply Finset.sum_congr rfl
    intro i hi
    have hi := Finset.mem_range.1 hi
    have e : n + 1 - 1 - i = (n - 1 - i) + 1 := by omega
    rw [e, pow_succ]; ring

/-- The number with bits `b 0, ..., b (n-1)`, most significant first. -/
def bitsNat (b : ℕ → Bool) (n : ℕ) : ℕ := (List.range n).foldl (fun s i => 2 * s + (b i).toNat) 0

theorem bitsNat_succ (b : ℕ → Bool) (n : ℕ) : bitsNat b (n + 1) = 2 * bitsNat b n + (b n).toNat := by
  simp [bitsNat, List.range_succ]

theorem bitsNat_lt (b : ℕ → Bool) (n : ℕ) : bitsNat b n < 2 ^ n := by
  induction n with
  | zero => simp [bitsNat]
  | succ n ih =>
    have := Bool.toNat_lt (b n)
    rw [bitsNat_succ, pow_succ]; omega

theorem bitsNat_testBit (b : ℕ → Bool) (n i : ℕ) (hi : i < n) : (bitsNat b n).testBit i = b (n - 1 - i) := by
  induction n generalizing i with
  | zero => omega
  | succ n ih =>
    rw [bitsNat_succ]
    have h2 := Bool.toNat_lt (b n)
    rcases i with _ | i
    · rw [Nat.testBit_zero]
      have e : n + 1 - 1 - 0 = n := by omega
      rw [e]
      cases b n <;> simp [Nat.add_mod]
    · rw [Nat.testBit_succ]
      have e : (2 * bitsNat b n + (b n).toNat) / 2 = bitsNat b n := by omega
      rw [e, ih i (by omega)]
      congr 1; omega

/-- A number below `2^n` is determined by its `n` low bits. -/
theorem bitsNat_of_testBit (x n : ℕ) (hx : x < 2 ^ n) : bitsNat (fun i => x.testBit (n - 1 - i)) n = x := by
  apply Nat.eq_of_testBit_eq
  intro i
  by_cases hi : i < n
  · rw [bitsNat_testBit _ _ _ hi]
    congr 1; omega
  · rw [Nat.testBit_lt_two_pow ((bitsNat_lt _ n).trans_le (Nat.pow_le_pow_right (by norm_num) (by omega))),
      Nat.testBit_lt_two_pow (hx.trans_le (Nat.pow_le_pow_right (by norm_num) (by omega)))]

theorem horner2_bits (b : ℕ → Bool) (n : ℕ) : horner2 (fun i => ((b i).toNat : F)) n = (bitsNat b n : F) := by
  induction n with
  | zero => simp [bitsNat]
  | succ n ih => rw [horner2_succ, bitsNat_succ, ih]; push_cast; ring

namespace BitBuilder

/-- Value of straight cell `k`. -/
abbrev val (c : Cols) (w : ℕ) (srow : ℤ) (t : Table F) (k : ℕ) : F := (cellVar c w srow k).value t

theorem val_eq (c : Cols) (w : ℕ) (srow : ℤ) (t : Table F) (k : ℕ) :
    val c w srow t k = t .witness (c.w ((k % w : ℕ) : ℤ)) (srow + ((k / w : ℕ) : ℤ)) := by
  simp [val, cellVar]

/-- Layout: with `G` gate blocks there are `bpg * G + 1` padded bits, `2G - 1` sums, `3G` rows. -/
theorem layout (w bits : ℕ) (check : Bool) (hw : 3 ≤ w) (hb : 0 < bits) :
    ∃ G, 0 < G ∧ sumBits w bits check = 2 * G - 1 ∧ padding w bits check + bits = bpg w * G + 1 ∧
      rows w bits check = 3 * G ∧ padding w bits check ≤ bpg w ∧ (check = true → 0 < padding w bits check) := by
  have hB : 0 < bpg w := by unfold bpg; omega
  have hB3 : bpg w + 2 = 3 * w := by unfold bpg; omega
  set B := bpg w with hBdef
  set e := check.toNat with he
  have he1 : e ≤ 1 := by have := Bool.toNat_lt check; omega
  -- number of blocks
  set q := (if bits + e ≥ 2 then bits + e - 2 else 0) / B with hq
  have hdm := Nat.div_add_mod (if bits + e ≥ 2 then bits + e - 2 else 0) B
  have hlt := Nat.mod_lt (if bits + e ≥ 2 then bits + e - 2 else 0) hB
  rw [← hq] at hdm
  set r := (if bits + e ≥ 2 then bits + e - 2 else 0) % B with hr
  have hsum : sumBits w bits check = 1 + q * 2 := rfl
  have hBq : B * (q + 1) = B * q + B := by ring
  have hpad : padding w bits check + bits = B * (q + 1) + 1 ∧ padding w bits check ≤ B ∧
      (check = true → 0 < padding w bits check) := by
    unfold padding bpfg
    cases check
    · simp only [Bool.false_eq_true, if_false, ← hBdef]
      have he0 : e = 0 := rfl
      simp only [he0, add_zero] at *
      by_cases h2 : bits ≥ 2
      · rw [if_pos h2] at hdm hr
        by_cases h : bits > B + 1
        · rw [if_pos h]
          -- bits - (B+1) = (bits - 2) - (B - 1)
          by_cases h0 : r + 1 = B
          · have hm : (bits - (B + 1)) % B = 0 := by
              have : bits - (B + 1) = B * q := by omega
              rw [this]; exact Nat.mul_mod_right _ _
            rw [hm]; simp [Nat.mod_self]; omega
          · have hq1 : 1 ≤ q := by
              rcases Nat.eq_zero_or_pos q with h1 | h1
              · rw [h1] at hdm; omega
              · exact h1
            have hm : (bits - (B + 1)) % B = r + 1 := by
              have e1 : B * q = B * (q - 1) + B := by
                obtain ⟨k, hk⟩ : ∃ k, q = k + 1 := ⟨q - 1, by omega⟩
                rw [hk]; simp [Nat.mul_add]
              have : bits - (B + 1) = B * (q - 1) + (r + 1) := by omega
              rw [this, Nat.mul_add_mod, Nat.mod_eq_of_lt (by omega)]
            rw [hm, Nat.mod_eq_of_lt (by omega)]; simp; omega
        · rw [if_neg h]
          have hq0 : q = 0 := by rw [hq, if_pos h2]; exact Nat.div_eq_of_lt (by omega)
          rw [hq0]; simp; omega
      · rw [if_neg h2] at hdm
        have hq0 : q = 0 := by rw [hq, if_neg h2]; simp
        rw [if_neg (by omega), hq0]; simp; omega
    · simp only [if_true, ← hBdef]
      have he0 : e = 1 := rfl
      simp only [he0] at *
      rw [if_pos (by omega)] at hdm hr
      by_cases h : bits > B
      · rw [if_pos h]
        by_cases h0 : r + 1 = B
        · have hm : bits % B = 0 := by
            have : bits = B * (q + 1) := by omega
            rw [this]; exact Nat.mul_mod_right _ _
          rw [hm]; simp [Nat.mod_self]; omega
        · have hm : bits % B = r + 1 := by
            have : bits = B * q + (r + 1) := by omega
            rw [this, Nat.mul_add_mod, Nat.mod_eq_of_lt (by omega)]
          rw [hm, Nat.mod_eq_of_lt (by omega)]; simp; omega
      · rw [if_neg h]
        have hq0 : q = 0 := by rw [hq, if_pos (by omega)]; exact Nat.div_eq_of_lt (by omega)
        rw [hq0]; simp; omega
  refine ⟨q + 1, by omega, by omega, hpad.1, ?_, hpad.2.1, hpad.2.2⟩
  unfold rows
  have : bits + sumBits w bits check + padding w bits check = w * (3 * (q + 1)) := by
    have e1 : w * (3 * (q + 1)) = (B + 2) * (q + 1) := by rw [hB3]; ring
    rw [e1, hsum]
    have e2 : (B + 2) * (q + 1) = B * (q + 1) + 2 * (q + 1) := by ring
    omega
  rw [this, Nat.mul_div_cancel_left _ (by omega)]

theorem bitCell_first (w i : ℕ) (h : i < bpg w + 1) (hw : 3 ≤ w) : bitCell w i = i := by
  unfold bitCell; rw [if_neg (by unfold lastPos; unfold bpg at h; omega)]; rfl

theorem bitCell_block (w g i : ℕ) (h : i < bpg w) (hw : 3 ≤ w) :
    bitCell w (bpg w * g + 1 + i) = 3 * w * g + 1 + i := by
  have hB3 : bpg w + 2 = 3 * w := by unfold bpg; omega
  have hL : lastPos w = bpg w + 1 := by unfold lastPos bpg; omega
  rcases g with _ | g
  · simpa using bitCell_first w (1 + i) (by omega) hw
  · unfold bitCell
    have e1 : bpg w * (g + 1) = bpg w * g + bpg w := by ring
    rw [if_pos (by rw [hL]; omega), hL]
    have e2 : bpg w * (g + 1) + 1 + i - (bpg w + 1) = bpg w * g + i := by omega
    rw [e2, Nat.mul_add_div (by unfold bpg; omega), Nat.div_eq_of_lt h, ← hB3]
    ring

theorem sumCell_even (w g : ℕ) (hw : 3 ≤ w) : sumCell w (2 * g) = 3 * w * g + (3 * w - 1) := by
  unfold sumCell lastPos
  have e1 : 2 * g / 2 = g := by omega
  have e2 : 2 * g % 2 = 0 := by omega
  rw [e1, e2]; ring

theorem sumCell_odd (w g : ℕ) (hw : 3 ≤ w) : sumCell w (2 * g + 1) = 3 * w * (g + 1) := by
  unfold sumCell lastPos
  have e1 : (2 * g + 1) / 2 = g := by omega
  have e2 : (2 * g + 1) % 2 = 1 := by omega
  rw [e1, e2, Nat.mul_add, Nat.mul_comm g]; omega

theorem gv_eval (c : Cols) (w : ℕ) (hw : 3 ≤ w) (srow : ℤ) (t : Table F) (g n : ℕ) :
    (gv c w n : Expr F).eval t (srow + 1 + (3 : ℕ) * (g : ℤ)) = val c w srow t (3 * w * g + n) := by
  rw [gv, Cols.eval_wv, val_eq]
  have e : 3 * w * g = w * (3 * g) := by ring
  have e1 : (3 * w * g + n) % w = n % w := by rw [e, Nat.mul_add_mod]
  have e2 : (3 * w * g + n) / w = 3 * g + n / w := by rw [e, Nat.mul_add_div (by omega)]
  rw [e1, e2]
  congr 1; push_cast; ring

theorem gateFold_eval (c : Cols) (w : ℕ) (hw : 3 ≤ w) (srow : ℤ) (t : Table F) (g m : ℕ) :
    ((List.range m).foldl (fun (e : Expr F) (i : ℕ) => 2 * e + gv c w (i + 1)) (c.wv 0 (-1))).eval t
      (srow + 1 + (3 : ℕ) * (g : ℤ)) = horner2 (fun i => val c w srow t (3 * w * g + i)) (m + 1) := by
  induction m with
  | zero =>
    have := gv_eval c w hw srow t g 0
    rw [gv] at this
    simp only [Nat.zero_mod, Nat.zero_div, Nat.cast_zero, zero_sub] at this
    simp only [List.range_zero, List.foldl_nil, horner2_succ, horner2_zero, mul_zero, zero_add]
    exact this
  | succ m ih =>
    rw [List.range_succ, List.foldl_append, List.foldl_cons, List.foldl_nil, horner2_succ, ← ih,
      Expr.eval_add, Expr.eval_mul, gv_eval c w hw, Expr.eval_two]

/-- One gate block in plain terms. -/
theorem gate_iff (c : Cols) (w : ℕ) (hw : 3 ≤ w) (check : Bool) (srow : ℤ) (t : Table F) (g : ℕ) :
    (∀ e ∈ (gate c w check : List (Expr F)), e.eval t (srow + 1 + (3 : ℕ) * (g : ℤ)) = 0) ↔
      horner2 (fun i => val c w srow t (3 * w * g + i)) (bpg w + 1) = val c w srow t (3 * w * g + (3 * w - 1)) ∧
      (check = true → ∀ i < bpg w, val c w srow t (3 * w * g + 1 + i) = 0 ∨ val c w srow t (3 * w * g + 1 + i) = 1) := by
  have hL : lastPos w - 1 = bpg w := by unfold lastPos bpg; omega
  have hb : ∀ x : F, x * (1 - x) = 0 ↔ x = 0 ∨ x = 1 := by
    intro x; rw [mul_eq_zero, sub_eq_zero, eq_comm (a := (1 : F))]
  unfold gate
  simp only [List.mem_append, List.mem_singleton, or_imp, forall_and, forall_eq]
  rw [Expr.eval_sub, gateFold_eval c w hw, gv_eval c w hw, sub_eq_zero, hL]
  refine and_congr (by rfl) ?_
  cases check
  · simp
  · simp only [if_true, List.mem_map, List.mem_range, forall_exists_index, and_imp, true_implies]
    constructor
    · intro h i hi
      have := h _ i hi rfl
      rw [Expr.eval_mul, Expr.eval_sub, Expr.eval_one, gv_eval c w hw, hb] at this
      rw [add_assoc, add_comm 1 i]; exact this
    · rintro h e i hi rfl
      rw [Expr.eval_mul, Expr.eval_sub, Expr.eval_one, gv_eval c w hw, hb]
      have := h i hi
      rw [add_assoc, add_comm 1 i] at this; exact this

theorem base_iff (c : Cols) (w bits : ℕ) (hw : 3 ≤ w) (check : Bool) (srow : ℤ) (t : Table F) (G : ℕ)
    (hG : rows w bits check = 3 * G) :
    Sat t (base c w bits check srow) ↔ t .constant (c.k 0) srow = 0 ∧ ∀ g < G,
      horner2 (fun i => val c w srow t (3 * w * g + i)) (bpg w + 1) = val c w srow t (3 * w * g + (3 * w - 1)) ∧
      (check = true → ∀ i < bpg w, val c w srow t (3 * w * g + 1 + i) = 0 ∨ val c w srow t (3 * w * g + 1 + i) = 1) := by
  simp only [base, sat_cons, sat_nil, and_true, holds_gate, holds_constant, hG]
  rw [and_comm]
  refine and_congr Iff.rfl ?_
  constructor
  · intro h g hg
    exact (gate_iff c w hw check srow t g).1 (h _ ((mem_rowsBetween (by omega)).2 ⟨g, rfl, by push_cast; omega⟩))
  · intro h r hr
    obtain ⟨g, rfl, hg⟩ := (mem_rowsBetween (by omega)).1 hr
    exact (gate_iff c w hw check srow t g).2 (h g (by push_cast at hg; omega))

/-- The chain of block sums adds up all padded bits. -/
theorem chain (c : Cols) (w : ℕ) (hw : 3 ≤ w) (srow : ℤ) (t : Table F) (G : ℕ)
    (hgate : ∀ g < G, horner2 (fun i => val c w srow t (3 * w * g + i)) (bpg w + 1) =
      val c w srow t (3 * w * g + (3 * w - 1)))
    (hcopy : ∀ g, g + 1 < G → val c w srow t (3 * w * g + (3 * w - 1)) = val c w srow t (3 * w * (g + 1)))
    (g : ℕ) (hg : g < G) :
    val c w srow t (3 * w * g + (3 * w - 1)) =
      horner2 (fun i => val c w srow t (bitCell w i)) (bpg w * (g + 1) + 1) := by
  induction g with
  | zero =>
    rw [← hgate 0 hg]
    simp only [zero_add, mul_one, mul_zero]
    apply horner2_congr
    intro i hi
    rw [bitCell_first w i (by omega) hw]
  | succ g ih =>
    rw [← hgate (g + 1) hg, add_comm (bpg w) 1, horner2_add]
    have e1 : horner2 (fun i => val c w srow t (3 * w * (g + 1) + i)) 1 = val c w srow t (3 * w * (g + 1)) := by
      simp [horner2_succ]
    rw [e1, ← hcopy g hg, ih (by omega)]
    have e2 : bpg w * (g + 1 + 1) + 1 = (bpg w * (g + 1) + 1) + bpg w := by ring
    rw [e2, horner2_add (fun i => val c w srow t (bitCell w i)) (bpg w * (g + 1) + 1) (bpg w)]
    congr 1
    apply horner2_congr
    intro i hi
    rw [bitCell_block w (g + 1) i hi hw]
    congr 1; ring

theorem zero_of_pad {c : Cols} {w bits : ℕ} {check : Bool} {srow : ℤ} {t : Table F}
    (hz : (zeroVar srow).value t = 0) (h : Sat t (padCopies c w bits check srow)) (i : ℕ)
    (hi : i < padding w bits check) : val c w srow t (bitCell w i) = 0 := by
  have := h (.copy (zeroVar srow) (cellVar c w srow (bitCell w i)))
    (List.mem_map.2 ⟨i, List.mem_range.2 hi, rfl⟩)
  rw [holds_copy, hz] at this
  exact this.symm

theorem sum_copy {c : Cols} {w bits : ℕ} {check : Bool} {srow : ℤ} {t : Table F} (hw : 3 ≤ w) {G : ℕ}
    (hG : sumBits w bits check = 2 * G - 1) (h : Sat t (sumCopies c w bits check srow)) (g : ℕ) (hg : g + 1 < G) :
    val c w srow t (3 * w * g + (3 * w - 1)) = val c w srow t (3 * w * (g + 1)) := by
  have := h (.copy (cellVar c w srow (sumCell w (2 * g))) (cellVar c w srow (sumCell w (2 * g + 1))))
    (List.mem_map.2 ⟨g, List.mem_range.2 (by omega), rfl⟩)
  rw [holds_copy, sumCell_even w g hw, sumCell_odd w g hw] at this
  exact this

/-- Core of C18 and C19: the final sum cell is the number spelled by the bit cells; with bit checking each
of them is 0 or 1. Any field. -/
theorem core (c : Cols) (w bits : ℕ) (hw : 3 ≤ w) (hb : 0 < bits) (check : Bool) (srow : ℤ) (t : Table F)
    (hz : (zeroVar srow).value t = 0) (h1 : Sat t (base c w bits check srow))
    (h2 : Sat t (padCopies c w bits check srow)) (h3 : Sat t (sumCopies c w bits check srow)) :
    val c w srow t (sumCell w (sumBits w bits check - 1)) =
      horner2 (fun i => val c w srow t (bitCell w (padding w bits check + i))) bits ∧
    (check = true → ∀ i < bits, val c w srow t (bitCell w (padding w bits check + i)) = 0 ∨
      val c w srow t (bitCell w (padding w bits check + i)) = 1) := by
  obtain ⟨G, hG0, hs, hT, hR, hp, hp0⟩ := layout w bits check hw hb
  obtain ⟨-, hg⟩ := (base_iff c w bits hw check srow t G hR).1 h1
  have hch := chain c w hw srow t G (fun g h => (hg g h).1) (fun g h => sum_copy hw hs h3 g h) (G - 1) (by omega)
  constructor
  · have e1 : sumBits w bits check - 1 = 2 * (G - 1) := by omega
    have e2 : G - 1 + 1 = G := by omega
    rw [e1, sumCell_even w _ hw, hch, e2, ← hT, horner2_add, horner2_eq_zero (fun i hi => zero_of_pad hz h2 i hi)]
    simp
  · intro hc i hi
    have hp0 := hp0 hc
    have hBpos : 0 < bpg w := by unfold bpg; omega
    set b := padding w bits check + i - 1 with hb'
    have hbT : b < bpg w * G := by omega
    have hbe : padding w bits check + i = bpg w * (b / bpg w) + 1 + b % bpg w := by
      have := Nat.div_add_mod b (bpg w); omega
    rw [hbe, bitCell_block w _ _ (Nat.mod_lt _ hBpos) hw]
    exact (hg (b / bpg w) (Nat.div_lt_of_lt_mul hbT)).2 hc (b % bpg w) (Nat.mod_lt _ hBpos)

/-! ### Completeness -/

theorem sumAfter_eq (b : ℕ → Bool) (n : ℕ) : (sumAfter b n : F) = horner2 (fun i => ((b i).toNat : F)) n := rfl

/-- Table content produced by the assignment satisfies the shared constraints. -/
theorem cells_sat (c : Cols) (w bits : ℕ) (hw : 3 ≤ w) (hb : 0 < bits) (check : Bool) (srow : ℤ) (t : Table F)
    (b : ℕ → Bool) (hz : (zeroVar srow).value t = 0) (hk : t .constant (c.k 0) srow = 0)
    (hpad : ∀ i < padding w bits check, val c w srow t (bitCell w i) = 0)
    (hbit : ∀ i < bits, val c w srow t (bitCell w (padding w bits check + i)) = ((b i).toNat : F))
    (hs0 : ∀ g, 2 * g < sumBits w bits check → val c w srow t (sumCell w (2 * g)) =
      sumAfter b (lastPos w - padding w bits check + g * bpg w))
    (hs1 : ∀ g, 2 * g + 1 < sumBits w bits check → val c w srow t (sumCell w (2 * g + 1)) =
      sumAfter b (lastPos w - padding w bits check + g * bpg w)) :
    Sat t (base c w bits check srow) ∧ Sat t (padCopies c w bits check srow) ∧
    Sat t (sumCopies c w bits check srow) ∧
    val c w srow t (sumCell w (sumBits w bits check - 1)) = (bitsNat b bits : F) := by
  obtain ⟨G, hG0, hs, hT, hR, hp, hp0⟩ := layout w bits check hw hb
  have hL : lastPos w = bpg w + 1 := by unfold lastPos bpg; omega
  set pad := padding w bits check with hpaddef
  -- prefix sums over padded bits
  have hpre : ∀ g < G, (sumAfter b (lastPos w - pad + g * bpg w) : F) =
      horner2 (fun i => val c w srow t (bitCell w i)) (bpg w * (g + 1) + 1) := by
    intro g hg
    have hle : bpg w * (g + 1) ≤ bpg w * G := Nat.mul_le_mul_left _ (by omega)
    have e1 : bpg w * (g + 1) + 1 = pad + (lastPos w - pad + g * bpg w) := by
      have : bpg w * (g + 1) = g * bpg w + bpg w := by ring
      omega
    rw [e1, horner2_add, horner2_eq_zero hpad, mul_zero, zero_add, sumAfter_eq]
    apply horner2_congr
    intro i hi
    rw [hbit i (by omega)]
  have hS0 : ∀ g < G, val c w srow t (3 * w * g + (3 * w - 1)) =
      horner2 (fun i => val c w srow t (bitCell w i)) (bpg w * (g + 1) + 1) := by
    intro g hg
    rw [← hpre g hg, ← hs0 g (by omega), sumCell_even w g hw]
  have hS1 : ∀ g, g + 1 < G → val c w srow t (3 * w * (g + 1)) =
      horner2 (fun i => val c w srow t (bitCell w i)) (bpg w * (g + 1) + 1) := by
    intro g hg
    rw [← hpre g (by omega), ← hs1 g (by omega), sumCell_odd w g hw]
  refine ⟨?_, ?_, ?_, ?_⟩
  · rw [base_iff c w bits hw check srow t G hR]
    refine ⟨hk, fun g hg => ⟨?_, ?_⟩⟩
    · rw [hS0 g hg]
      rcases g with _ | g
      · simp only [zero_add, mul_one, mul_zero]
        apply horner2_congr
        intro i hi
        rw [bitCell_first w i (by omega) hw]
      · rw [add_comm (bpg w) 1, horner2_add]
        have e1 : horner2 (fun i => val c w srow t (3 * w * (g + 1) + i)) 1 = val c w srow t (3 * w * (g + 1)) := by
          simp [horner2_succ]
        rw [e1, hS1 g hg]
        have e2 : bpg w * (g + 1 + 1) + 1 = (bpg w * (g + 1) + 1) + bpg w := by ring
        rw [e2, horner2_add (fun i => val c w srow t (bitCell w i)) (bpg w * (g + 1) + 1) (bpg w)]
        congr 1
        apply horner2_congr
        intro i hi
        rw [bitCell_block w (g + 1) i hi hw]
        congr 1; ring
    · intro _ i hi
      rw [← bitCell_block w g i hi hw]
      have hle : bpg w * (g + 1) ≤ bpg w * G := Nat.mul_le_mul_left _ (by omega)
      have e1 : bpg w * (g + 1) = bpg w * g + bpg w := by ring
      by_cases hlt : bpg w * g + 1 + i < pad
      · left; exact hpad _ hlt
      · obtain ⟨k, hk⟩ : ∃ k, bpg w * g + 1 + i = pad + k := ⟨bpg w * g + 1 + i - pad, by omega⟩
        rw [hk, hbit k (by omega)]
        cases b k <;> simp
  · intro o ho
    obtain ⟨i, hi, rfl⟩ := List.mem_map.1 ho
    rw [holds_copy, hz]; exact (hpad i (List.mem_range.1 hi)).symm
  · intro o ho
    obtain ⟨i, hi, rfl⟩ := List.mem_map.1 ho
    have hi := List.mem_range.1 hi
    rw [holds_copy]
    exact (hs0 i (by omega)).trans (hs1 i (by omega)).symm
  · have e1 : sumBits w bits check - 1 = 2 * (G - 1) := by omega
    have e2 : lastPos w - pad + (G - 1) * bpg w = bits := by
      have : bpg w * G = (G - 1) * bpg w + bpg w := by
        obtain ⟨k, rfl⟩ : ∃ k, G = k + 1 := ⟨G - 1, by omega⟩
        simp; ring
      omega
    rw [e1, hs0 (G - 1) (by omega), e2, sumAfter_eq, horner2_bits]

/-- Value of straight cell `k` after the assignment. -/
def kval (w pad : ℕ) (b : ℕ → Bool) (k : ℕ) : F :=
  let g := k / (3 * w)
  let n := k % (3 * w)
  if n = 3 * w - 1 then sumAfter b (lastPos w - pad + g * bpg w)
  else if n = 0 ∧ g ≠ 0 then sumAfter b (lastPos w - pad + (g - 1) * bpg w)
  else if bpg w * g + n < pad then 0 else ((b (bpg w * g + n - pad)).toNat : F)

theorem kval_first (w pad : ℕ) (hw : 3 ≤ w) (b : ℕ → Bool) :
    (kval w pad b 0 : F) = if 0 < pad then 0 else ((b 0).toNat : F) := by
  have : ¬ (0 = 3 * w - 1) := by omega
  by_cases h : 0 < pad
  · simp [kval, h, this]
  · have h0 : pad = 0 := by omega
    simp [kval, h0, this]

theorem kval_block (w pad : ℕ) (hw : 3 ≤ w) (b : ℕ → Bool) (g i : ℕ) (hi : i < bpg w) :
    (kval w pad b (3 * w * g + 1 + i) : F) =
      if bpg w * g + 1 + i < pad then 0 else ((b (bpg w * g + 1 + i - pad)).toNat : F) := by
  have hB3 : bpg w + 2 = 3 * w := by unfold bpg; omega
  have e1 : (3 * w * g + 1 + i) / (3 * w) = g := by
    rw [add_assoc, Nat.mul_add_div (by omega), Nat.div_eq_of_lt (by omega), add_zero]
  have e2 : (3 * w * g + 1 + i) % (3 * w) = 1 + i := by
    rw [add_assoc, Nat.mul_add_mod, Nat.mod_eq_of_lt (by omega)]
  unfold kval
  simp only [e1, e2]
  rw [if_neg (by omega), if_neg (by omega), add_assoc]

theorem kval_bit (w pad : ℕ) (hw : 3 ≤ w) (b : ℕ → Bool) (i : ℕ) :
    (kval w pad b (bitCell w i) : F) = if i < pad then 0 else ((b (i - pad)).toNat : F) := by
  have hBpos : 0 < bpg w := by unfold bpg; omega
  rcases i with _ | i
  · rw [bitCell_first w 0 (by omega) hw, kval_first w pad hw]; simp
  · have e : i + 1 = bpg w * (i / bpg w) + 1 + i % bpg w := by
      have := Nat.div_add_mod i (bpg w); omega
    rw [e, bitCell_block w _ _ (Nat.mod_lt _ hBpos) hw, kval_block w pad hw _ _ _ (Nat.mod_lt _ hBpos)]

theorem kval_sum0 (w pad : ℕ) (hw : 3 ≤ w) (b : ℕ → Bool) (g : ℕ) :
    (kval w pad b (sumCell w (2 * g)) : F) = sumAfter b (lastPos w - pad + g * bpg w) := by
  rw [sumCell_even w g hw]
  have e1 : (3 * w * g + (3 * w - 1)) / (3 * w) = g := by
    rw [Nat.mul_add_div (by omega), Nat.div_eq_of_lt (by omega), add_zero]
  have e2 : (3 * w * g + (3 * w - 1)) % (3 * w) = 3 * w - 1 := by
    rw [Nat.mul_add_mod, Nat.mod_eq_of_lt (by omega)]
  unfold kval
  simp only [e1, e2, if_true]

theorem kval_sum1 (w pad : ℕ) (hw : 3 ≤ w) (b : ℕ → Bool) (g : ℕ) :
    (kval w pad b (sumCell w (2 * g + 1)) : F) = sumAfter b (lastPos w - pad + g * bpg w) := by
  rw [sumCell_odd w g hw]
  have e1 : 3 * w * (g + 1) / (3 * w) = g + 1 := Nat.mul_div_cancel_left _ (by omega)
  have e2 : 3 * w * (g + 1) % (3 * w) = 0 := Nat.mul_mod_right _ _
  unfold kval
  simp only [e1, e2]
  rw [if_neg (by omega), if_pos (by simp)]
  rfl

theorem wr_mem_grid (c : Cols) (w R : ℕ) (hw : 3 ≤ w) (srow : ℤ) (v : ℕ → F) (k : ℕ) (hk : k < w * R) :
    ∃ r < R, ∃ j < w, wr c w srow k (v k) =
      ⟨.witness, c.w (j : ℤ), srow + (r : ℤ), (fun r j => v (r * w + j)) r j⟩ := by
  refine ⟨k / w, Nat.div_lt_of_lt_mul hk, k % w, Nat.mod_lt _ (by omega), ?_⟩
  have : k / w * w + k % w = k := by rw [mul_comm]; exact Nat.div_add_mod k w
  simp [wr, this]

theorem bitCell_lt (w i G : ℕ) (hw : 3 ≤ w) (hG : 0 < G) (hi : i < bpg w * G + 1) : bitCell w i < 3 * w * G := by
  have hBpos : 0 < bpg w := by unfold bpg; omega
  have hB3 : bpg w + 2 = 3 * w := by unfold bpg; omega
  rcases i with _ | i
  · rw [bitCell_first w 0 (by omega) hw]; positivity
  · have e : i + 1 = bpg w * (i / bpg w) + 1 + i % bpg w := by
      have := Nat.div_add_mod i (bpg w); omega
    have hm := Nat.mod_lt i hBpos
    rw [e, bitCell_block w _ _ hm hw]
    have hd : i / bpg w < G := Nat.div_lt_of_lt_mul (by omega)
    have : 3 * w * (i / bpg w + 1) ≤ 3 * w * G := Nat.mul_le_mul_left _ hd
    have e2 : 3 * w * (i / bpg w + 1) = 3 * w * (i / bpg w) + 3 * w := by ring
    omega

theorem grid (c : Cols) (w bits : ℕ) (hw : 3 ≤ w) (hb : 0 < bits) (check : Bool) (b : ℕ → Bool) (srow : ℤ) :
    GridWrites c srow w (rows w bits check)
      (fun r j => (kval w (padding w bits check) b (r * w + j) : F)) (writes c w bits check b srow) := by
  obtain ⟨G, hG0, hs, hT, hR, hp, hp0⟩ := layout w bits check hw hb
  have key : ∀ k (v : F), k < 3 * w * G → kval w (padding w bits check) b k = v →
      ∃ r < rows w bits check, ∃ j < w, wr c w srow k v =
        ⟨.witness, c.w (j : ℤ), srow + (r : ℤ), (kval w (padding w bits check) b (r * w + j) : F)⟩ := by
    rintro k v hk rfl
    exact wr_mem_grid c w _ hw srow (kval w (padding w bits check) b) k (by rw [hR]; linarith)
  have hsum : ∀ g, g < G → 3 * w * g + (3 * w - 1) < 3 * w * G := by
    intro g hg
    have : 3 * w * (g + 1) ≤ 3 * w * G := Nat.mul_le_mul_left _ hg
    have e2 : 3 * w * (g + 1) = 3 * w * g + 3 * w := by ring
    omega
  intro x hx
  simp only [writes, List.mem_append, List.mem_map, List.mem_flatMap, List.mem_range, List.mem_cons] at hx
  rcases hx with (⟨i, hi, rfl⟩ | ⟨i, hi, rfl⟩) | ⟨g, hg, rfl | hx⟩
  · exact key _ _ (bitCell_lt w i G hw hG0 (by omega)) (by rw [kval_bit w _ hw, if_pos hi])
  · refine key _ _ (bitCell_lt w _ G hw hG0 (by omega)) ?_
    rw [kval_bit w _ hw, if_neg (by omega), Nat.add_sub_cancel_left]
  · refine key _ _ ?_ (kval_sum0 w _ hw b g)
    rw [sumCell_even w g hw]; exact hsum g (by omega)
  · split_ifs at hx with hne
    · rw [List.mem_singleton] at hx
      subst hx
      refine key _ _ ?_ (kval_sum1 w _ hw b g)
      rw [sumCell_odd w g hw]
      exact Nat.mul_lt_mul_of_pos_left (by omega) (by omega)
    · simp at hx

theorem readCell (c : Cols) (w bits : ℕ) (hw : 3 ≤ w) (hb : 0 < bits) (hc : c.OK w) (check : Bool) (b : ℕ → Bool)
    (srow : ℤ) (t : Table F) (k : ℕ) (v : F) (hv : kval w (padding w bits check) b k = v)
    (hm : wr c w srow k v ∈ writes c w bits check b srow) :
    val c w srow (writeAll (writes c w bits check b srow) t) k = v := by
  have hg := grid (F := F) c w bits hw hb check b srow
  have e : k / w * w + k % w = k := by rw [mul_comm]; exact Nat.div_add_mod k w
  have := hg.read hc t (r := k / w) (j := k % w) (Nat.mod_lt _ (by omega)) (by
    rw [e, hv]; exact hm)
  rw [val_eq, this, e, hv]

/-- What the table contains after the assignment. -/
theorem read (c : Cols) (w bits : ℕ) (hw : 3 ≤ w) (hb : 0 < bits) (hc : c.OK w) (check : Bool) (b : ℕ → Bool)
    (srow : ℤ) (t : Table F) :
    let t' := writeAll (writes c w bits check b srow) t
    (∀ i < padding w bits check, val c w srow t' (bitCell w i) = 0) ∧
    (∀ i < bits, val c w srow t' (bitCell w (padding w bits check + i)) = ((b i).toNat : F)) ∧
    (∀ g, 2 * g < sumBits w bits check → val c w srow t' (sumCell w (2 * g)) =
      sumAfter b (lastPos w - padding w bits check + g * bpg w)) ∧
    (∀ g, 2 * g + 1 < sumBits w bits check → val c w srow t' (sumCell w (2 * g + 1)) =
      sumAfter b (lastPos w - padding w bits check + g * bpg w)) := by
  intro t'
  obtain ⟨G, hG0, hs, hT, hR, hp, hp0⟩ := layout w bits check hw hb
  refine ⟨fun i hi => ?_, fun i hi => ?_, fun g hg => ?_, fun g hg => ?_⟩
  · apply readCell c w bits hw hb hc
    · rw [kval_bit w _ hw, if_pos hi]
    · simp only [writes, List.mem_append, List.mem_map, List.mem_range]
      exact Or.inl (Or.inl ⟨i, hi, rfl⟩)
  · apply readCell c w bits hw hb hc
    · rw [kval_bit w _ hw, if_neg (by omega), Nat.add_sub_cancel_left]
    · simp only [writes, List.mem_append, List.mem_map, List.mem_range]
      exact Or.inl (Or.inr ⟨i, hi, rfl⟩)
  · apply readCell c w bits hw hb hc
    · exact kval_sum0 w _ hw b g
    · simp only [writes, List.mem_append, List.mem_map, List.mem_range, List.mem_flatMap, List.mem_cons]
      exact Or.inr ⟨g, by omega, Or.inl rfl⟩
  · apply readCell c w bits hw hb hc
    · exact kval_sum1 w _ hw b g
    · simp only [writes, List.mem_append, List.mem_map, List.mem_range, List.mem_flatMap, List.mem_cons]
      refine Or.inr ⟨g, by omega, Or.inr ?_⟩
      rw [if_pos (by omega)]; simp

theorem zeroVar_of_k0 {c : Cols} {w bits : ℕ} {check : Bool} {srow : ℤ} {t : Table F} (hk : c.k 0 = 0)
    (h : Sat t (base c w bits check srow)) : (zeroVar srow).value t = 0 := by
  have := h (.constant (c.k 0) srow 0) (by simp [base])
  rw [holds_constant, hk] at this
  exact this

theorem noConst_copies (l : List (Op F)) (h : ∀ o ∈ l, ∃ a b, o = .copy a b) (t : Table F) : writeConsts l t = t := by
  apply writeConsts_noConst
  intro o ho col row v
  obtain ⟨a, b, rfl⟩ := h o ho
  simp

theorem padCopies_copy (c : Cols) (w bits : ℕ) (check : Bool) (srow : ℤ) :
    ∀ o ∈ (padCopies c w bits check srow : List (Op F)), ∃ a b, o = .copy a b := by
  intro o ho; obtain ⟨i, _, rfl⟩ := List.mem_map.1 ho; exact ⟨_, _, rfl⟩

theorem sumCopies_copy (c : Cols) (w bits : ℕ) (check : Bool) (srow : ℤ) :
    ∀ o ∈ (sumCopies c w bits check srow : List (Op F)), ∃ a b, o = .copy a b := by
  intro o ho; obtain ⟨i, _, rfl⟩ := List.mem_map.1 ho; exact ⟨_, _, rfl⟩

end BitBuilder

/-! ## C18 -/

namespace BitDecomp
open BitBuilder

theorem writeConsts_eq (c : Cols) (w bits : ℕ) (x : Var) (srow : ℤ) (t : Table F) :
    writeConsts (circuit c w bits x srow) t = t.set .constant (c.k 0) srow 0 := by
  rw [circuit, writeConsts_append, writeConsts_append, writeConsts_append,
    noConst_copies _ (padCopies_copy c w bits true srow), noConst_copies _ (sumCopies_copy c w bits true srow)]
  rfl

/-- Any field: the outputs are 0 or 1 and spell the input. -/
theorem sound_field (c : Cols) (w bits : ℕ) (hw : 3 ≤ w) (hb : 0 < bits) (x : Var) (srow : ℤ) (t : Table F)
    (hz : (zeroVar srow).value t = 0) (h : Sat t (circuit c w bits x srow)) :
    ∃ b : ℕ → Bool, x.value t = (bitsNat b bits : F) ∧
      ∀ i < bits, val c w srow t (bitCell w (padding w bits true + i)) = ((b i).toNat : F) := by
  simp only [circuit, sat_append, sat_cons, sat_nil, and_true, holds_copy] at h
  obtain ⟨⟨⟨h1, h2⟩, h3⟩, h4⟩ := h
  obtain ⟨hs, hbool⟩ := core c w bits hw hb true srow t hz h1 h2 h3
  have hbool := hbool rfl
  classical
  refine ⟨fun i => decide (val c w srow t (bitCell w (padding w bits true + i)) = 1), ?_, ?_⟩
  · rw [h4]
    refine hs.trans ?_
    rw [← horner2_bits]
    apply horner2_congr
    intro i hi
    rcases hbool i hi with h | h <;> simp [h]
  · intro i hi
    rcases hbool i hi with h | h <;> simp [h]

end BitDecomp

/-! ## C19 -/

namespace BitComp
open BitBuilder

theorem writeConsts_eq (c : Cols) (w : ℕ) (check msb : Bool) (bs : List Var) (srow : ℤ) (t : Table F) :
    writeConsts (circuit c w check msb bs srow) t = t.set .constant (c.k 0) srow 0 := by
  rw [circuit, writeConsts_append, writeConsts_append, writeConsts_append,
    noConst_copies _ (padCopies_copy c w _ check srow), noConst_copies _ (sumCopies_copy c w _ check srow),
    noConst_copies]
  · rfl
  · intro o ho; obtain ⟨i, _, rfl⟩ := List.mem_map.1 ho; exact ⟨_, _, rfl⟩

end BitComp

/-- Weight of input number `i` among `n`. -/
def bitWeight (msb : Bool) (n i : ℕ) : ℕ := if msb then n - 1 - i else i

theorem sum_idx (msb : Bool) (v : ℕ → F) (n : ℕ) :
    horner2 (fun i => v (BitBuilder.idx msb n i)) n = ∑ i ∈ Finset.range n, v i * 2 ^ bitWeight msb n i := by
  rw [horner2_eq_sum]
  cases msb
  · rw [← Finset.sum_range_reflect]
    apply Finset.sum_congr rfl
    intro i hi
    have hi := Finset.mem_range.1 hi
    simp only [BitBuilder.idx, bitWeight, Bool.false_eq_true, if_false]
    have e1 : n - (n - 1 - i) - 1 = i := by omega
    have e2 : n - 1 - (n - 1 - i) = i := by omega
    rw [e1, e2]
  · rfl

/-- C19, soundness, any field: the output is the sum of the inputs weighted by powers of two, most or
least significant first as requested, and with bit checking on every input is 0 or 1. -/
theorem bitComp_sound (c : Cols) (w : ℕ) (hw : 3 ≤ w) (hk : c.k 0 = 0) (check msb : Bool) (bs : List Var)
    (hb : bs ≠ []) (srow : ℤ) (t : Table F) (h : Sat t (BitComp.circuit c w check msb bs srow)) :
    (BitComp.out c w bs.length check srow).value t =
      ∑ i ∈ Finset.range bs.length, (bs.getD i default).value t * 2 ^ bitWeight msb bs.length i ∧
    (check = true → ∀ v ∈ bs, v.value t = 0 ∨ v.value t = 1) := by
  have hb' : 0 < bs.length := List.length_pos_iff.2 hb
  simp only [BitComp.circuit, sat_append] at h
  obtain ⟨⟨⟨h1, h2⟩, h4⟩, h3⟩ := h
  have hz := BitBuilder.zeroVar_of_k0 hk h1
  obtain ⟨hs, hbool⟩ := BitBuilder.core c w bs.length hw hb' check srow t hz h1 h2 h3
  have h4' : ∀ i < bs.length, BitBuilder.val c w srow t
      (BitBuilder.bitCell w (BitBuilder.padding w bs.length check + i)) =
      (bs.getD (BitBuilder.idx msb bs.length i) default).value t := by
    intro i hi
    have := h4 _ (List.mem_map.2 ⟨i, List.mem_range.2 hi, rfl⟩)
    rw [holds_copy] at this
    exact this.symm
  constructor
  · rw [← sum_idx msb (fun i => (bs.getD i default).value t)]
    exact hs.trans (horner2_congr h4')
  · intro hc v hv
    obtain ⟨i, hi, rfl⟩ := List.getElem_of_mem hv
    have hidx : BitBuilder.idx msb bs.length (BitBuilder.idx msb bs.length i) = i := by
      cases msb
      · simp [BitBuilder.idx]; omega
      · simp [BitBuilder.idx]
    have hlt : BitBuilder.idx msb bs.length i < bs.length := by
      cases msb
      · simp [BitBuilder.idx]; omega
      · simpa [BitBuilder.idx] using hi
    have := hbool hc _ hlt
    rw [h4' _ hlt, hidx] at this
    simpa [List.getD, hi] using this

/-- C19, completeness: for boolean inputs the generated table is accepted. -/
theorem bitComp_complete [DecidableEq F] (c : Cols) (w : ℕ) (hw : 3 ≤ w) (hc : c.OK w) (hk : c.k 0 = 0)
    (check msb : Bool) (bs : List Var) (hb : bs ≠ []) (srow : ℤ) (t : Table F)
    (hx : ∀ v ∈ bs, v.Outside srow (BitBuilder.rows w bs.length check))
    (hbool : ∀ v ∈ bs, v.value (t.set .constant 0 srow 0) = 0 ∨ v.value (t.set .constant 0 srow 0) = 1) :
    let tc := writeConsts (BitComp.circuit c w check msb bs srow) t
    let t' := BitComp.assign c w check msb bs srow tc
    Sat t' (BitComp.circuit c w check msb bs srow) ∧ Frame c srow (BitBuilder.rows w bs.length check) tc t' := by
  intro tc t'
  have hb' : 0 < bs.length := List.length_pos_iff.2 hb
  have htc : tc = t.set .constant 0 srow 0 := by rw [← hk]; exact BitComp.writeConsts_eq ..
  rw [← htc] at hbool
  have hfr : Frame c srow (BitBuilder.rows w bs.length check) tc t' :=
    ((BitBuilder.grid c w bs.length hw hb' check _ srow).own hc).frame tc
  refine ⟨?_, hfr⟩
  have hk0 : t' .constant 0 srow = 0 := by rw [hfr _ _ _ (by simp), htc, Table.set_same]
  obtain ⟨r1, r2, r3, r4⟩ := BitBuilder.read (F := F) c w bs.length hw hb' hc check
    (fun i => decide ((bs.getD (BitBuilder.idx msb bs.length i) default).value tc ≠ 0)) srow tc
  obtain ⟨s1, s2, s3, -⟩ := BitBuilder.cells_sat c w bs.length hw hb' check srow t' _ hk0 (by rw [hk]; exact hk0)
    r1 r2 r3 r4
  simp only [BitComp.circuit, sat_append]
  refine ⟨⟨⟨s1, s2⟩, ?_⟩, s3⟩
  intro o ho
  obtain ⟨i, hi, rfl⟩ := List.mem_map.1 ho
  have hi := List.mem_range.1 hi
  rw [holds_copy]
  have hlt : BitBuilder.idx msb bs.length i < bs.length := by
    cases msb
    · simp [BitBuilder.idx]; omega
    · simpa [BitBuilder.idx] using hi
  have hmem : bs.getD (BitBuilder.idx msb bs.length i) default ∈ bs := by
    simp [List.getD, hlt]
  refine Eq.trans ?_ (r2 i hi).symm
  rw [hfr.outside (hx _ hmem)]
  generalize bs.getD (BitBuilder.idx msb bs.length i) default = v at *
  rcases hbool _ hmem with h | h <;> rw [h] <;> simp

end

section
variable {p : ℕ} [Fact p.Prime]

/-- C18, soundness. For a width `bits` below the modulus bit length (the constructor's check), every
accepted table has an input below `2^bits`, and output `i` is bit `bits-1-i` (most significant first) or
bit `i` (least significant first) of that input. -/
theorem bitDecomp_sound (c : Cols) (w bits : ℕ) (hw : 3 ≤ w) (hb : 0 < bits) (hp : bits < Nat.size p)
    (hk : c.k 0 = 0) (msb : Bool) (x : Var) (srow : ℤ) (t : Table (ZMod p))
    (h : Sat t (BitDecomp.circuit c w bits x srow)) :
    (x.value t).val < 2 ^ bits ∧
    ∀ i < bits, (BitDecomp.out c w bits msb srow i).value t =
      if (x.value t).val.testBit (bitWeight msb bits i) then 1 else 0 := by
  have h1 : Sat t (BitBuilder.base c w bits true srow) := by
    simp only [BitDecomp.circuit, sat_append] at h; exact h.1.1.1
  obtain ⟨b, hx, ho⟩ := BitDecomp.sound_field c w bits hw hb x srow t (BitBuilder.zeroVar_of_k0 hk h1) h
  have hle : 2 ^ bits ≤ p := Nat.lt_size.1 hp
  have hv : (x.value t).val = bitsNat b bits := by
    rw [hx, ZMod.val_natCast, Nat.mod_eq_of_lt ((bitsNat_lt b bits).trans_le hle)]
  refine ⟨hv ▸ bitsNat_lt b bits, fun i hi => ?_⟩
  rw [hv]
  cases msb
  · have := ho (bits - i - 1) (by omega)
    have e : bits - 1 - i = bits - i - 1 := by omega
    rw [show bitWeight false bits i = i from rfl, bitsNat_testBit b bits i hi, e]
    refine Eq.trans this ?_
    cases b (bits - i - 1) <;> simp
  · have := ho i hi
    have e : bits - 1 - (bits - 1 - i) = i := by omega
    rw [show bitWeight true bits i = bits - 1 - i from rfl, bitsNat_testBit b bits _ (by omega), e]
    refine Eq.trans this ?_
    cases b i <;> simp

/-- C18, completeness: for every input below `2^bits` the generated table is accepted. -/
theorem bitDecomp_complete (c : Cols) (w bits : ℕ) (hw : 3 ≤ w) (hb : 0 < bits) (hc : c.OK w)
    (hk : c.k 0 = 0) (x : Var) (srow : ℤ) (t : Table (ZMod p)) (hx : x.Outside srow (BitBuilder.rows w bits true))
    (hlt : (x.value (t.set .constant 0 srow 0)).val < 2 ^ bits) :
    let tc := writeConsts (BitDecomp.circuit c w bits x srow) t
    let t' := BitDecomp.assign c w bits x srow tc
    Sat t' (BitDecomp.circuit c w bits x srow) ∧ Frame c srow (BitBuilder.rows w bits true) tc t' := by
  intro tc t'
  have htc : tc = t.set .constant 0 srow 0 := by rw [← hk]; exact BitDecomp.writeConsts_eq ..
  rw [← htc] at hlt
  have hfr : Frame c srow (BitBuilder.rows w bits true) tc t' :=
    ((BitBuilder.grid c w bits hw hb true _ srow).own hc).frame tc
  refine ⟨?_, hfr⟩
  have hk0 : t' .constant 0 srow = 0 := by rw [hfr _ _ _ (by simp), htc, Table.set_same]
  obtain ⟨r1, r2, r3, r4⟩ := BitBuilder.read (F := ZMod p) c w bits hw hb hc true
    (BitDecomp.inBits bits (x.value tc).val) srow tc
  obtain ⟨s1, s2, s3, s4⟩ := BitBuilder.cells_sat c w bits hw hb true srow t' _ hk0 (by rw [hk]; exact hk0)
    r1 r2 r3 r4
  simp only [BitDecomp.circuit, sat_append, sat_cons, sat_nil, and_true, holds_copy]
  refine ⟨⟨⟨s1, s2⟩, s3⟩, ?_⟩
  refine Eq.trans ?_ s4.symm
  have : bitsNat (BitDecomp.inBits bits (x.value tc).val) bits = (x.value tc).val :=
    bitsNat_of_testBit _ _ hlt
  rw [hfr.outside hx, this, ZMod.natCast_zmod_val]

/-- The skipped generator writes `calculate` into nine columns; with at least nine columns its outputs are
those the constrained component would have. -/
theorem bitDecomp_empty (c : Cols) (w bits : ℕ) (hw : 9 ≤ w) (hc : c.OK w) (msb : Bool) (x : ℕ) (srow : ℤ)
    (t : Table (ZMod p)) (i : ℕ) (hi : i < bits) :
    (BitDecomp.emptyOut c srow i).value (writeAll (BitDecomp.emptyWrites c bits x msb srow) t) =
      if x.testBit (bitWeight msb bits i) then 1 else 0 := by
  have hcalc : (BitDecomp.calculate x bits msb).getD i false = x.testBit (bitWeight msb bits i) := by
    have e : bits - 1 - (bits - i - 1) = i := by omega
    cases msb <;> simp [BitDecomp.calculate, List.getD, hi, BitDecomp.inBits, BitBuilder.idx, bitWeight, e]
  rw [← hcalc]
  simp only [BitDecomp.emptyOut, Cols.value_wa]
  refine writeAll_of_mem _ t ⟨.witness, c.w ((i % 9 : ℕ) : ℤ), srow + ((i / 9 : ℕ) : ℤ),
    if (BitDecomp.calculate x bits msb).getD i false then 1 else 0⟩
    (List.mem_map.2 ⟨i, List.mem_range.2 hi, rfl⟩) ?_
  intro w' hw' e1 e2 e3
  obtain ⟨j, hj, rfl⟩ := List.mem_map.1 hw'
  simp only at e2 e3 ⊢
  have e4 := (hc.inj ⟨by omega, by omega⟩ ⟨by omega, by omega⟩).1 e2
  have : j = i := by omega
  rw [this]

/-- The manifest admits three columns, but `generate_empty_assignments` always spreads the bits over nine:
with three columns bits 0 and 3 share a cell and the outputs of a skipped component are wrong. -/
theorem bitDecomp_empty_wrong_narrow :
    ∃ (c : Cols) (x : ℕ), c.OK 3 ∧ x < 2 ^ 4 ∧
      (BitDecomp.emptyOut c 0 0).value
        (writeAll (BitDecomp.emptyWrites c 4 x true 0) (fun _ _ _ => (0 : ZMod 7))) ≠
      if x.testBit (bitWeight true 4 0) then 1 else 0 := by
  refine ⟨⟨[0, 1, 2], [0], []⟩, 8, ⟨by decide, rfl⟩, by decide, ?_⟩
  decide

/-! ## C20 -/

/-- C20: composing the decomposition of any number below `2^bits` gives the number back. -/
theorem bit_roundtrip (x bits : ℕ) (hx : x < 2 ^ bits) (msb : Bool) :
    (BitComp.calculate (BitDecomp.calculate x bits msb) msb : ZMod p) = x := by
  have hlen : (BitDecomp.calculate x bits msb).length = bits := by simp [BitDecomp.calculate]
  have hget : ∀ i < bits, (BitDecomp.calculate x bits msb).getD (BitBuilder.idx msb bits i) false =
      x.testBit (bits - 1 - i) := by
    intro i hi
    have hlt : BitBuilder.idx msb bits i < bits := by cases msb <;> simp [BitBuilder.idx] <;> omega
    have hidx : BitBuilder.idx msb bits (BitBuilder.idx msb bits i) = i := by
      cases msb <;> simp [BitBuilder.idx] <;> omega
    simp [BitDecomp.calculate, List.getD, hlt, BitDecomp.inBits, hidx]
  unfold BitComp.calculate
  rw [hlen, List.foldl_map]
  have : (List.range bits).foldl (fun (s : ZMod p) (i : ℕ) =>
      2 * s + (((BitDecomp.calculate x bits msb).getD (BitBuilder.idx msb bits i) false).toNat : ZMod p)) 0 =
      horner2 (fun i => ((x.testBit (bits - 1 - i)).toNat : ZMod p)) bits := by
    apply horner2_congr (v := fun i => _)
    intro i hi
    rw [hget i hi]
  rw [this, horner2_bits, bitsNat_of_testBit x bits hx]

/-- C20: decomposing the composition of any bit vector narrower than the modulus gives the bits back. -/
theorem bit_roundtrip' (bs : List Bool) (hp : bs.length < Nat.size p) (msb : Bool) :
    BitDecomp.calculate (BitComp.calculate bs msb : ZMod p).val bs.length msb = bs := by
  set n := bs.length with hn
  have hcomp : (BitComp.calculate bs msb : ZMod p) =
      ((bitsNat (fun i => bs.getD (BitBuilder.idx msb n i) false) n : ℕ) : ZMod p) := by
    rw [← horner2_bits]
    unfold BitComp.calculate
    rw [List.foldl_map]; rfl
  have hle : 2 ^ n ≤ p := Nat.lt_size.1 hp
  rw [hcomp, ZMod.val_natCast, Nat.mod_eq_of_lt ((bitsNat_lt _ _).trans_le hle)]
  apply List.ext_getElem
  · simp [BitDecomp.calculate, hn]
  · intro i h1 h2
    have hi : i < n := h2
    have hlt : BitBuilder.idx msb n i < n := by cases msb <;> simp [BitBuilder.idx] <;> omega
    have hidx : BitBuilder.idx msb n (BitBuilder.idx msb n i) = i := by
      cases msb <;> simp [BitBuilder.idx] <;> omega
    have e : n - 1 - (n - 1 - BitBuilder.idx msb n i) = BitBuilder.idx msb n i := by omega
    simp only [BitDecomp.calculate, List.getElem_map, List.getElem_range, BitDecomp.inBits]
    rw [bitsNat_testBit _ _ _ (by omega), e, hidx]
    simp [List.getD, h2]

/-- The hypotheses are met: 9 bits in 3 columns take two gate blocks, with 6 padding bits; ten in a
checked composition. -/
example : (⟨[2, 0, 1], [0], []⟩ : Cols).OK 3 ∧ (⟨[2, 0, 1], [0], []⟩ : Cols).k 0 = 0 ∧
    BitBuilder.rows 3 9 true = 6 ∧ BitBuilder.padding 3 9 true = 6 ∧ BitBuilder.sumBits 3 9 true = 3 ∧
    BitBuilder.bitCell 3 8 = 10 ∧ BitDecomp.inBits 9 0b100000001 8 = true ∧ (2 : ℕ) < Nat.size 7 ∧
    (⟨0, 0, false, .publicInput⟩ : Var).Outside 7 (BitBuilder.rows 3 9 true) :=
  ⟨⟨by decide, rfl⟩, rfl, by decide, by decide, by decide, by decide, by decide, by decide, by simp [Var.Outside]⟩
end
end Verif
