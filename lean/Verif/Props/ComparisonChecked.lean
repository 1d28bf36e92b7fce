import Verif.Model.ComparisonChecked
import Verif.Props.Base4
import Verif.Props.Comparison

/-!
# Checked comparison: C22
-/

set_option linter.unusedSimpArgs false
set_option linter.unusedVariables false
set_option linter.unusedSectionVars false

namespace Verif
namespace CompChecked
open RangeCheck (horner4 horner4_succ horner4_congr row_bound zeroVar)

/-- Layout arithmetic. -/
theorem layout (w bits : ℕ) (m : CmpMode) (hw : 3 ≤ w) (hb : 0 < bits) :
    ∃ K, 0 < K ∧ paddedChunks w bits = K * (w - 1) ∧ rows w bits m = 1 + 2 * K + bonus w m ∧
      (rows w bits m - 1) / 2 = K ∧ paddingSize w bits ≤ w - 2 ∧
      paddingSize w bits + (bits + 1) / 2 = K * (w - 1) ∧ paddingBits w bits + bits = 2 * (K * (w - 1)) ∧
      paddingBits w bits = 2 * paddingSize w bits + bits % 2 := by
  obtain ⟨n, hn⟩ : ∃ n, w - 1 = n ∧ 2 ≤ n := ⟨w - 1, rfl, by omega⟩
  have hca : chunkAmount bits = (bits + 1) / 2 := by simp [chunkAmount]
  set A := (bits + 1) / 2 with hA
  have hA0 : 0 < A := by omega
  set K := (A + (n - 1)) / n with hK
  have hP : paddedChunks w bits = K * n := by
    unfold paddedChunks
    rw [hca, hn.1, hK]
    congr 2; omega
  have h1 : n * K ≤ A + (n - 1) := Nat.mul_div_le _ _
  have h2 : A + (n - 1) < n * K + n := Nat.lt_mul_div_succ _ (by omega)
  have hK0 : 0 < K := Nat.div_pos (by omega) (by omega)
  have hb1 : bonus w m ≤ 1 := by unfold bonus; split_ifs <;> omega
  rw [Nat.mul_comm] at h1 h2
  have hrow : rows w bits m = 1 + 2 * K + bonus w m := by
    unfold rows
    rw [hP, hn.1, ← Nat.mul_assoc, Nat.mul_div_cancel _ (by omega)]
  have hps : paddingSize w bits = K * n - A := by unfold paddingSize; rw [hP, hca]
  have hpb : paddingBits w bits = K * n * 2 - bits := by unfold paddingBits; rw [hP]
  refine ⟨K, hK0, by rw [hn.1, hP], hrow, ?_, ?_, ?_, ?_, ?_⟩
  · rw [hrow]; omega
  · rw [hps]; omega
  · rw [hps, hn.1]; omega
  · rw [hpb, hn.1]; omega
  · rw [hpb, hps]; omega

section
variable {F : Type*} [Field F]

/-- Horner fold over consecutive columns. -/
theorem fold_eval (c : Cols) (t : Table F) (row : ℤ) (a : ℕ) (rot : ℤ) (n : ℕ) :
    ((List.range n).foldl (fun (e : Expr F) (i : ℕ) => .const (2 ^ 2) * e + c.wv ((a + 1 + i : ℕ) : ℤ) rot)
      (c.wv (a : ℤ) rot)).eval t row = horner4 (fun j => t .witness (c.w ((a + j : ℕ) : ℤ)) (row + rot)) (n + 1) := by
  induction n with
  | zero => simp [horner4_succ]
  | succ n ih =>
    rw [List.range_succ, List.foldl_append, List.foldl_cons, List.foldl_nil, horner4_succ, ← ih, Expr.eval_add,
      Expr.eval_mul, Expr.eval_const, Cols.eval_wv]
    have e : a + 1 + n = a + (n + 1) := by omega
    rw [e]; norm_num

/-- Chunk `j` of block `i` of the first operand. -/
def cellX (c : Cols) (t : Table F) (srow : ℤ) (i j : ℕ) : F :=
  t .witness (c.w ((1 + j : ℕ) : ℤ)) (srow + ((2 * i + 1 : ℕ) : ℤ))
/-- Chunk `j` of block `i` of the difference. -/
def cellD (c : Cols) (w : ℕ) (t : Table F) (srow : ℤ) (i j : ℕ) : F :=
  if j < w - 2 then t .witness (c.w ((2 + j : ℕ) : ℤ)) (srow + ((2 * i : ℕ) : ℤ))
  else t .witness (c.w 0) (srow + ((2 * i + 1 : ℕ) : ℤ))

theorem sumX_eval (c : Cols) (w : ℕ) (hw : 3 ≤ w) (t : Table F) (srow : ℤ) (i : ℕ) :
    (sumX c w : Expr F).eval t (srow + ((2 * i + 1 : ℕ) : ℤ)) = 0 ↔
      t .witness (c.w 0) (srow + ((2 * (i + 1) : ℕ) : ℤ)) =
        4 ^ (w - 1) * t .witness (c.w 0) (srow + ((2 * i : ℕ) : ℤ)) + horner4 (cellX c t srow i) (w - 1) := by
  have hf := fold_eval c t (srow + ((2 * i + 1 : ℕ) : ℤ)) 1 0 (w - 2)
  have e : w - 2 + 1 = w - 1 := by omega
  rw [e, add_zero] at hf
  have h4 : (2 : F) ^ (2 * (w - 1)) = 4 ^ (w - 1) := by rw [pow_mul]; norm_num
  unfold sumX
  rw [Expr.eval_sub, Expr.eval_add, Expr.eval_mul, Expr.eval_const, Cols.eval_wv, Cols.eval_wv, h4]
  have e1 : srow + ((2 * i + 1 : ℕ) : ℤ) + 1 = srow + ((2 * (i + 1) : ℕ) : ℤ) := by push_cast; ring
  have e2 : srow + ((2 * i + 1 : ℕ) : ℤ) + -1 = srow + ((2 * i : ℕ) : ℤ) := by push_cast; ring
  rw [e1, e2]
  have hf' : ((List.range (w - 2)).foldl (fun (e : Expr F) (i : ℕ) => .const (2 ^ 2) * e + c.wv ((2 + i : ℕ) : ℤ))
      (c.wv 1)).eval t (srow + ((2 * i + 1 : ℕ) : ℤ)) = horner4 (cellX c t srow i) (w - 1) := hf
  rw [hf', sub_eq_zero]
  constructor <;> intro h <;> linear_combination -h

theorem sumD_eval (c : Cols) (w : ℕ) (hw : 3 ≤ w) (t : Table F) (srow : ℤ) (i : ℕ) :
    (sumD c w : Expr F).eval t (srow + ((2 * i + 1 : ℕ) : ℤ)) = 0 ↔
      t .witness (c.w 1) (srow + ((2 * (i + 1) : ℕ) : ℤ)) =
        4 ^ (w - 1) * t .witness (c.w 1) (srow + ((2 * i : ℕ) : ℤ)) + horner4 (cellD c w t srow i) (w - 1) := by
  have hf := fold_eval c t (srow + ((2 * i + 1 : ℕ) : ℤ)) 2 (-1) (w - 3)
  have e : w - 3 + 1 = w - 2 := by omega
  rw [e] at hf
  have h4 : (2 : F) ^ (2 * (w - 1)) = 4 ^ (w - 1) := by rw [pow_mul]; norm_num
  have h22 : (2 : F) ^ 2 = 4 := by norm_num
  unfold sumD
  rw [Expr.eval_sub, Expr.eval_add, Expr.eval_add, Expr.eval_mul, Expr.eval_mul, Expr.eval_const, Expr.eval_const,
    Cols.eval_wv, Cols.eval_wv, Cols.eval_wv, h4]
  have e1 : srow + ((2 * i + 1 : ℕ) : ℤ) + 1 = srow + ((2 * (i + 1) : ℕ) : ℤ) := by push_cast; ring
  have e2 : srow + ((2 * i + 1 : ℕ) : ℤ) + -1 = srow + ((2 * i : ℕ) : ℤ) := by push_cast; ring
  rw [e2] at hf
  rw [e1, e2, add_zero]
  have hf' : ((List.range (w - 3)).foldl (fun (e : Expr F) (i : ℕ) => .const (2 ^ 2) * e + c.wv ((3 + i : ℕ) : ℤ) (-1))
      (c.wv 2 (-1))).eval t (srow + ((2 * i + 1 : ℕ) : ℤ)) = horner4 (cellD c w t srow i) (w - 2) := by
    refine hf.trans (horner4_congr fun j hj => ?_)
    rw [cellD, if_pos hj]
  have hlast : horner4 (cellD c w t srow i) (w - 1) = 4 * horner4 (cellD c w t srow i) (w - 2) +
      t .witness (c.w 0) (srow + ((2 * i + 1 : ℕ) : ℤ)) := by
    have e : w - 1 = (w - 2) + 1 := by omega
    rw [e, horner4_succ, cellD, if_neg (by omega)]
  rw [hf', hlast, h22, sub_eq_zero]
  constructor <;> intro h <;> linear_combination -h

/-- The second gate in terms of the cells. -/
theorem gate2_holds (c : Cols) (w : ℕ) (m : CmpMode) (row : ℤ) (t : Table F) :
    (∀ e ∈ (gate2 c w m : List (Expr F)), e.eval t row = 0) ↔
      t .witness (c.w 2) row = t .witness (c.w 0) row + t .witness (c.w 1) row ∧
      (m.strict → t .witness (c.w 1) row *
        (if bonus w m = 0 then t .witness (c.w 3) row else t .witness (c.w 0) (row + 1)) = 1) := by
  have e : ∀ a b d : F, a - b - d = 0 ↔ a = b + d := fun a b d =>
    ⟨fun h => by linear_combination h, fun h => by linear_combination h⟩
  unfold gate2
  cases hs : m.strict with
  | false => simp [e]
  | true =>
    by_cases hb : bonus w m = 0 <;> simp [hb, e, sub_eq_zero]

/-- The circuit in terms of the cells. -/
theorem circuit_iff (mb : ℕ) (c : Cols) (w bits : ℕ) (m : CmpMode) (hw : 3 ≤ w) (hb : 0 < bits) (x y : Var)
    (srow : ℤ) (t : Table F) (K : ℕ) (hK : rows w bits m = 1 + 2 * K + bonus w m) (hK0 : 0 < K)
    (hps : paddingSize w bits ≤ w - 2) :
    Sat t (circuit mb c w bits m x y srow) ↔
      ((∀ i < K,
        (∀ j < w - 1, ∃ n : ℕ, n < 4 ∧ cellX c t srow i j = n) ∧
        (∀ j < w - 1, ∃ n : ℕ, n < 4 ∧ cellD c w t srow i j = n) ∧
        t .witness (c.w 0) (srow + ((2 * (i + 1) : ℕ) : ℤ)) =
          4 ^ (w - 1) * t .witness (c.w 0) (srow + ((2 * i : ℕ) : ℤ)) + horner4 (cellX c t srow i) (w - 1) ∧
        t .witness (c.w 1) (srow + ((2 * (i + 1) : ℕ) : ℤ)) =
          4 ^ (w - 1) * t .witness (c.w 1) (srow + ((2 * i : ℕ) : ℤ)) + horner4 (cellD c w t srow i) (w - 1)) ∧
      (t .witness (c.w 2) (srow + ((2 * K : ℕ) : ℤ)) =
        t .witness (c.w 0) (srow + ((2 * K : ℕ) : ℤ)) + t .witness (c.w 1) (srow + ((2 * K : ℕ) : ℤ)) ∧
       (m.strict → t .witness (c.w 1) (srow + ((2 * K : ℕ) : ℤ)) *
        (if bonus w m = 0 then t .witness (c.w 3) (srow + ((2 * K : ℕ) : ℤ))
         else t .witness (c.w 0) (srow + ((2 * K + 1 : ℕ) : ℤ))) = 1)) ∧
      (needsFirst mb bits → (∃ n : ℕ, n < 2 ^ (bits % 2) ∧ cellD c w t srow 0 (paddingSize w bits) = n) ∧
        (∃ n : ℕ, n < 2 ^ (bits % 2) ∧ cellX c t srow 0 (paddingSize w bits) = n)) ∧
      (zeroVar srow).value t = t .witness (c.w 0) srow ∧ (zeroVar srow).value t = t .witness (c.w 1) srow ∧
      (∀ i < paddingSize w bits, (zeroVar srow).value t = cellX c t srow 0 i) ∧
      (∀ i < paddingSize w bits, (zeroVar srow).value t = cellD c w t srow 0 i) ∧
      x.value t = t .witness (c.w (if m.swaps then 2 else 0)) (srow + ((2 * K : ℕ) : ℤ)) ∧
      y.value t = t .witness (c.w (if m.swaps then 0 else 2)) (srow + ((2 * K : ℕ) : ℤ)) ∧
      t .constant (c.k 0) srow = 0) := by
  have emid : srow + rows w bits m - 2 - bonus w m = srow + ((2 * K : ℕ) : ℤ) - 1 := by rw [hK]; push_cast; ring
  have erow : srow + rows w bits m - 1 - bonus w m = srow + ((2 * K : ℕ) : ℤ) := by rw [hK]; push_cast; ring
  have e1 : srow + ((2 * K : ℕ) : ℤ) - 1 + 1 = srow + ((2 * K : ℕ) : ℤ) := by ring
  have e2 : srow + ((2 * K : ℕ) : ℤ) + 1 = srow + ((2 * K + 1 : ℕ) : ℤ) := by push_cast; ring
  -- first gate
  have hg1 : (∀ r ∈ rowsBetween (srow + 1) (srow + ((2 * K : ℕ) : ℤ) - 1) 2,
      ∀ e ∈ (gate1 c w : List (Expr F)), e.eval t r = 0) ↔ ∀ i < K,
        (∀ j < w - 1, ∃ n : ℕ, n < 4 ∧ cellX c t srow i j = n) ∧
        (∀ j < w - 1, ∃ n : ℕ, n < 4 ∧ cellD c w t srow i j = n) ∧
        t .witness (c.w 0) (srow + ((2 * (i + 1) : ℕ) : ℤ)) =
          4 ^ (w - 1) * t .witness (c.w 0) (srow + ((2 * i : ℕ) : ℤ)) + horner4 (cellX c t srow i) (w - 1) ∧
        t .witness (c.w 1) (srow + ((2 * (i + 1) : ℕ) : ℤ)) =
          4 ^ (w - 1) * t .witness (c.w 1) (srow + ((2 * i : ℕ) : ℤ)) + horner4 (cellD c w t srow i) (w - 1) := by
    have hrow : ∀ i : ℕ, (∀ e ∈ (gate1 c w : List (Expr F)), e.eval t (srow + ((2 * i + 1 : ℕ) : ℤ)) = 0) ↔
        (∀ j < w - 1, ∃ n : ℕ, n < 4 ∧ cellX c t srow i j = n) ∧
        (∀ j < w - 1, ∃ n : ℕ, n < 4 ∧ cellD c w t srow i j = n) ∧
        t .witness (c.w 0) (srow + ((2 * (i + 1) : ℕ) : ℤ)) =
          4 ^ (w - 1) * t .witness (c.w 0) (srow + ((2 * i : ℕ) : ℤ)) + horner4 (cellX c t srow i) (w - 1) ∧
        t .witness (c.w 1) (srow + ((2 * (i + 1) : ℕ) : ℤ)) =
          4 ^ (w - 1) * t .witness (c.w 1) (srow + ((2 * i : ℕ) : ℤ)) + horner4 (cellD c w t srow i) (w - 1) := by
      intro i
      have em : srow + ((2 * i + 1 : ℕ) : ℤ) + -1 = srow + ((2 * i : ℕ) : ℤ) := by push_cast; ring
      rw [← sumX_eval c w hw, ← sumD_eval c w hw]
      simp only [gate1, List.mem_append, List.mem_map, List.mem_range, List.mem_cons, List.not_mem_nil, or_false]
      constructor
      · intro h
        refine ⟨fun j hj => ?_, fun j hj => ?_, h _ (Or.inr (Or.inl rfl)), h _ (Or.inr (Or.inr rfl))⟩
        · have := h _ (Or.inl (Or.inr ⟨1 + j, by omega, rfl⟩))
          rw [chunkSizeExpr_eval, Cols.eval_wv, add_zero] at this
          exact this
        · unfold cellD
          by_cases hj2 : j < w - 2
          · have := h _ (Or.inl (Or.inl ⟨j, hj2, rfl⟩))
            rw [chunkSizeExpr_eval, Cols.eval_wv, em] at this
            rw [if_pos hj2]; exact this
          · have := h _ (Or.inl (Or.inr ⟨0, by omega, rfl⟩))
            rw [chunkSizeExpr_eval, Cols.eval_wv, add_zero] at this
            rw [if_neg hj2]; exact this
      · rintro ⟨hX, hD, h1, h2⟩ e ((⟨j, hj, rfl⟩ | ⟨j, hj, rfl⟩) | rfl | rfl)
        · rw [chunkSizeExpr_eval, Cols.eval_wv, em]
          have := hD j (by omega)
          rw [cellD, if_pos hj] at this; exact this
        · rw [chunkSizeExpr_eval, Cols.eval_wv, add_zero]
          rcases Nat.eq_zero_or_pos j with rfl | hj0
          · have := hD (w - 2) (by omega)
            rw [cellD, if_neg (by omega)] at this; exact this
          · have := hX (j - 1) (by omega)
            rw [cellX, show 1 + (j - 1) = j by omega] at this; exact this
        · exact h1
        · exact h2
    constructor
    · intro h i hi
      rw [← hrow]
      refine h _ ((mem_rowsBetween (by norm_num)).2 ⟨i, ?_, ?_⟩)
      · push_cast; ring
      · push_cast; omega
    · intro h r hr
      obtain ⟨i, rfl, hle⟩ := (mem_rowsBetween (by norm_num)).1 hr
      have e : srow + 1 + ((2 : ℕ) : ℤ) * (i : ℤ) = srow + ((2 * i + 1 : ℕ) : ℤ) := by push_cast; ring
      rw [e, hrow]
      exact h i (by push_cast at hle; omega)
  -- third gate
  have hg3 : Sat t (if needsFirst mb bits then [.gate (gate3 c w bits) [srow]] else [] : List (Op F)) ↔
      (needsFirst mb bits → (∃ n : ℕ, n < 2 ^ (bits % 2) ∧ cellD c w t srow 0 (paddingSize w bits) = n) ∧
        (∃ n : ℕ, n < 2 ^ (bits % 2) ∧ cellX c t srow 0 (paddingSize w bits) = n)) := by
    cases needsFirst mb bits with
    | false => simp
    | true =>
      simp only [if_true, sat_cons, sat_nil, and_true, holds_gate, gate3, List.mem_singleton, forall_eq, List.mem_cons,
        List.not_mem_nil, or_false, forall_eq_or_imp, chunkSizeExpr_eval, forall_const]
      have ed : (if paddingSize w bits ≠ w - 2 then c.wv ((2 + paddingSize w bits : ℕ) : ℤ) else c.wv 0 1 : Expr F).eval t srow
          = cellD c w t srow 0 (paddingSize w bits) := by
        unfold cellD
        by_cases h : paddingSize w bits = w - 2
        · rw [if_neg (by simpa using h), if_neg (by omega), Cols.eval_wv]; simp
        · rw [if_pos h, if_pos (by omega), Cols.eval_wv]; simp
      have ex : (c.wv ((1 + paddingSize w bits : ℕ) : ℤ) 1 : Expr F).eval t srow
          = cellX c t srow 0 (paddingSize w bits) := by
        rw [Cols.eval_wv, cellX]; simp
      rw [ed, ex]
  have hpX : Sat t ((List.range (paddingSize w bits)).map fun (i : ℕ) =>
      (.copy (zeroVar srow) (c.wa ((i + 1 : ℕ) : ℤ) (srow + 1)) : Op F)) ↔
      ∀ i < paddingSize w bits, (zeroVar srow).value t = cellX c t srow 0 i := by
    constructor
    · intro h i hi
      have := h _ (List.mem_map.2 ⟨i, List.mem_range.2 hi, rfl⟩)
      rw [holds_copy, Cols.value_wa] at this
      rw [this, cellX, Nat.add_comm]; simp
    · intro h o ho
      obtain ⟨i, hi, rfl⟩ := List.mem_map.1 ho
      rw [holds_copy, Cols.value_wa, h i (List.mem_range.1 hi), cellX, Nat.add_comm]; simp
  have hpD : Sat t ((List.range (paddingSize w bits)).map fun (i : ℕ) =>
      (.copy (zeroVar srow) (c.wa ((i + 2 : ℕ) : ℤ) srow) : Op F)) ↔
      ∀ i < paddingSize w bits, (zeroVar srow).value t = cellD c w t srow 0 i := by
    constructor
    · intro h i hi
      have := h _ (List.mem_map.2 ⟨i, List.mem_range.2 hi, rfl⟩)
      rw [holds_copy, Cols.value_wa] at this
      rw [this, cellD, if_pos (by omega), Nat.add_comm]; simp
    · intro h o ho
      obtain ⟨i, hi, rfl⟩ := List.mem_map.1 ho
      have hi' := List.mem_range.1 hi
      rw [holds_copy, Cols.value_wa, h i hi', cellD, if_pos (by omega), Nat.add_comm]; simp
  simp only [circuit, emid, erow, sat_append, sat_cons, sat_nil, and_true, e1, hg3, hpX, hpD]
  rw [holds_gate, holds_gate, hg1]
  simp only [List.mem_singleton, forall_eq, gate2_holds, e2, holds_copy, holds_constant, Cols.value_wa, and_assoc]
  cases hsw : m.swaps <;> simp [Cols.value_wa]


/-- The number of bits that the chunk constraints actually allow. -/
def effBits (mb bits : ℕ) : ℕ := 2 * ((bits + 1) / 2) - (needsFirst mb bits).toNat

theorem needsFirst_odd {mb bits : ℕ} (h : needsFirst mb bits = true) : bits % 2 = 1 := by
  simp only [needsFirst, decide_eq_true_eq] at h; omega

theorem flat_bound (D : ℕ → ℕ → F) (n K pad odd : ℕ) (hn : 0 < n) (ho : odd ≤ 1) (hpn : pad < n) (hK : 0 < K)
    (h4 : ∀ i < K, ∀ j < n, ∃ a : ℕ, a < 4 ∧ D i j = a) (hpad : ∀ i < pad, D 0 i = 0)
    (hodd : odd = 1 → ∃ a : ℕ, a < 2 ∧ D 0 pad = a) :
    ∃ N : ℕ, horner4 (fun k => D (k / n) (k % n)) (K * n) = N ∧ N < 2 ^ (2 * (K * n - pad) - odd) := by
  have hKn : n ≤ K * n := Nat.le_mul_of_pos_left _ hK
  obtain ⟨N, hN, -, hlt⟩ := row_bound (fun k => D (k / n) (k % n)) (K * n) pad odd ho
    (fun k hk => h4 _ (Nat.div_lt_of_lt_mul (by rwa [Nat.mul_comm] at hk)) _ (Nat.mod_lt _ hn))
    (fun i hi => by
      rw [Nat.div_eq_of_lt (by omega), Nat.mod_eq_of_lt (by omega)]; exact hpad i hi)
    (fun h => by
      rw [Nat.div_eq_of_lt hpn, Nat.mod_eq_of_lt hpn]; exact hodd h) (K * n) le_rfl
  exact ⟨N, hN, hlt (by omega)⟩

/-- Soundness over any field: the smaller operand and the difference are small numbers. -/
theorem sound (mb : ℕ) (c : Cols) (w bits : ℕ) (m : CmpMode) (hw : 3 ≤ w) (hb : 0 < bits) (hk : c.k 0 = 0)
    (x y : Var) (srow : ℤ) (t : Table F) (h : Sat t (circuit mb c w bits m x y srow)) :
    ∃ X D : ℕ, X < 2 ^ effBits mb bits ∧ D < 2 ^ effBits mb bits ∧
      (if m.swaps then y else x).value t = X ∧ (if m.swaps then x else y).value t = X + D ∧
      (m.strict → (D : F) ≠ 0) := by
  obtain ⟨K, hK0, -, hrow, -, hps, hsum, -, -⟩ := layout w bits m hw hb
  rw [circuit_iff mb c w bits m hw hb x y srow t K hrow hK0 hps] at h
  obtain ⟨hg, ⟨hy, hs⟩, h3, hz0, hz1, hpX, hpD, hxv, hyv, hc0⟩ := h
  have hz : (zeroVar srow).value t = 0 := by rw [hk] at hc0; exact hc0
  rw [hz] at hz0 hz1 hpX hpD
  have hB : 2 * (K * (w - 1) - paddingSize w bits) - (needsFirst mb bits).toNat = effBits mb bits := by
    unfold effBits; omega
  have hodd1 : (needsFirst mb bits).toNat ≤ 1 := by cases needsFirst mb bits <;> simp
  have two : (needsFirst mb bits).toNat = 1 → needsFirst mb bits = true := by cases needsFirst mb bits <;> simp
  have hX := chain4 (fun i => t .witness (c.w 0) (srow + ((2 * i : ℕ) : ℤ))) (cellX c t srow) (w - 1) K (by omega)
    (by simpa using hz0.symm) (fun i hi => (hg i hi).2.2.1) K le_rfl
  have hD := chain4 (fun i => t .witness (c.w 1) (srow + ((2 * i : ℕ) : ℤ))) (cellD c w t srow) (w - 1) K (by omega)
    (by simpa using hz1.symm) (fun i hi => (hg i hi).2.2.2) K le_rfl
  obtain ⟨X, hX1, hX2⟩ := flat_bound (cellX c t srow) (w - 1) K (paddingSize w bits) (needsFirst mb bits).toNat
    (by omega) hodd1 (by omega) hK0 (fun i hi => (hg i hi).1) (fun i hi => (hpX i hi).symm) (fun h => by
      have := (h3 (two h)).2; rwa [needsFirst_odd (two h)] at this)
  obtain ⟨D, hD1, hD2⟩ := flat_bound (cellD c w t srow) (w - 1) K (paddingSize w bits) (needsFirst mb bits).toNat
    (by omega) hodd1 (by omega) hK0 (fun i hi => (hg i hi).2.1) (fun i hi => (hpD i hi).symm) (fun h => by
      have := (h3 (two h)).1; rwa [needsFirst_odd (two h)] at this)
  rw [hB] at hX2 hD2
  rw [hX1] at hX
  rw [hD1] at hD
  refine ⟨X, D, hX2, hD2, ?_, ?_, ?_⟩
  · cases hsw : m.swaps <;> simp [hsw] at hxv hyv ⊢
    · rw [hxv]; simpa using hX
    · rw [hyv]; simpa using hX
  · rw [hX, hD] at hy
    cases hsw : m.swaps <;> simp [hsw] at hxv hyv ⊢
    · rw [hyv]; simpa using hy
    · rw [hxv]; simpa using hy
  · intro hst h0
    have := hs hst
    rw [hD, h0, zero_mul] at this
    exact zero_ne_one this

/-- Value written to row `r`, column `j`. -/
def cell (w pb bits K x d : ℕ) (b inv : F) (r j : ℕ) : F :=
  if r % 2 = 0 then
    if j = 0 then sum4 pb bits x (r / 2 * (w - 1)) else if j = 1 then sum4 pb bits d (r / 2 * (w - 1))
    else if r / 2 < K then (chunk4 pb bits d (r / 2 * (w - 1) + (j - 2)) : F)
    else if j = 2 then b else inv
  else if r / 2 < K then
    if j = 0 then (chunk4 pb bits d (r / 2 * (w - 1) + (w - 1) - 1) : F)
    else (chunk4 pb bits x (r / 2 * (w - 1) + (j - 1)) : F)
  else inv

theorem grid (c : Cols) (w bits : ℕ) (m : CmpMode) (hw : 3 ≤ w) (x d : ℕ) (b inv : F) (srow : ℤ) (K : ℕ)
    (hrow : rows w bits m = 1 + 2 * K + bonus w m) (hK : (rows w bits m - 1) / 2 = K) :
    GridWrites c srow w (rows w bits m) (cell w (paddingBits w bits) bits K x d b inv)
      (writes c w bits m x d b inv srow) := by
  intro z hz
  simp only [writes, hK, List.mem_append, List.mem_cons, List.mem_flatMap, List.mem_range, List.mem_map,
    List.not_mem_nil, or_false] at hz
  rcases hz with (((rfl | rfl) | ⟨i, hi, ((⟨j, hj, rfl⟩ | rfl) | ⟨j, hj, rfl⟩) | rfl | rfl⟩) | rfl) | hz
  · exact ⟨0, by omega, 1, by omega, by simp [cell, sum4]⟩
  · exact ⟨0, by omega, 0, by omega, by simp [cell, sum4]⟩
  · refine ⟨2 * i, by omega, j + 2, by omega, ?_⟩
    have h1 : 2 * i / 2 = i := by omega
    simp [cell, h1, hi]
  · refine ⟨2 * i + 1, by omega, 0, by omega, ?_⟩
    have h1 : (2 * i + 1) / 2 = i := by omega
    have h2 : (2 * i + 1) % 2 = 1 := by omega
    simp [cell, h1, h2, hi]
  · refine ⟨2 * i + 1, by omega, j + 1, by omega, ?_⟩
    have h1 : (2 * i + 1) / 2 = i := by omega
    have h2 : (2 * i + 1) % 2 = 1 := by omega
    simp [cell, h1, h2, hi]
  · refine ⟨2 * i + 2, by omega, 0, by omega, ?_⟩
    have h1 : (2 * i + 2) / 2 = i + 1 := by omega
    have h2 : (2 * i + 2) % 2 = 0 := by omega
    simp [cell, h1, h2, Nat.add_mul]
  · refine ⟨2 * i + 2, by omega, 1, by omega, ?_⟩
    have h1 : (2 * i + 2) / 2 = i + 1 := by omega
    have h2 : (2 * i + 2) % 2 = 0 := by omega
    simp [cell, h1, h2, Nat.add_mul]
  · refine ⟨2 * K, by omega, 2, by omega, ?_⟩
    have h1 : 2 * K / 2 = K := by omega
    simp [cell, h1]
  · cases hs : m.strict with
    | false => simp [hs] at hz
    | true =>
      by_cases hb0 : bonus w m = 0
      · simp [hs, hb0] at hz
        subst hz
        have hw4 : 4 ≤ w := by
          by_contra hlt; simp [bonus, hs] at hb0; omega
        have h1 : 2 * K / 2 = K := by omega
        exact ⟨2 * K, by omega, 3, by omega, by simp [cell, h1]⟩
      · simp [hs, hb0] at hz
        subst hz
        have h1 : (2 * K + 1) / 2 = K := by omega
        have h2 : (2 * K + 1) % 2 = 1 := by omega
        exact ⟨2 * K + 1, by omega, 0, by omega, by simp [cell, h1, h2]⟩

theorem writeConsts_eq (mb : ℕ) (c : Cols) (w bits : ℕ) (m : CmpMode) (x y : Var) (srow : ℤ) (t : Table F) :
    writeConsts (circuit mb c w bits m x y srow) t = t.set .constant (c.k 0) srow 0 := by
  unfold circuit
  rw [writeConsts_append]
  simp only [writeConsts_copy, writeConsts_constant, writeConsts_nil]
  rw [writeConsts_noConst]
  intro o ho col row v
  simp only [List.mem_append, List.mem_cons, List.mem_map, List.not_mem_nil, or_false] at ho
  rcases ho with ((((rfl | rfl) | ho) | rfl | rfl) | ⟨i, -, rfl⟩) | ⟨i, -, rfl⟩ <;> try simp
  split_ifs at ho
  · simp at ho; rw [ho]; simp
  · simp at ho

end

section
variable {p : ℕ} [hp : Fact p.Prime]

/-- Completeness core on the ordered operands `a` (smaller) and `b`: both `a` and `b - a` below `2^bits`. -/
theorem core (mb : ℕ) (c : Cols) (w bits : ℕ) (hw : 3 ≤ w) (hb : 0 < bits) (hc : c.OK w) (hk : c.k 0 = 0)
    (m : CmpMode) (x y : Var) (srow : ℤ) (t : Table (ZMod p)) (hz : t .constant 0 srow = 0)
    (hxo : x.Outside srow (rows w bits m)) (hyo : y.Outside srow (rows w bits m))
    (a b : ZMod p) (ha : a = if m.swaps then y.value t else x.value t)
    (hbv : b = if m.swaps then x.value t else y.value t)
    (hal : a.val < 2 ^ bits) (hd : (b - a).val < 2 ^ bits) (hs : m.strict → b - a ≠ 0) :
    let t' := assign c w bits m x y srow t
    Sat t' (circuit mb c w bits m x y srow) ∧ Frame c srow (rows w bits m) t t' := by
  intro t'
  obtain ⟨K, hK0, -, hrow, hKd, hps, hsum, hpbs, hpb⟩ := layout w bits m hw hb
  have hg := grid (F := ZMod p) c w bits m hw a.val (b - a).val b (b - a)⁻¹ srow K hrow hKd
  have et : t' = writeAll (writes c w bits m a.val (b - a).val b (b - a)⁻¹ srow) t := by
    simp only [t', assign]; rw [← ha, ← hbv]
  have hfr : Frame c srow (rows w bits m) t t' := by rw [et]; exact (hg.own hc).frame t
  refine ⟨?_, hfr⟩
  set pb := paddingBits w bits with hpbd
  have hread : ∀ r j : ℕ, j < w → (⟨.witness, c.w (j : ℤ), srow + (r : ℤ),
      cell w pb bits K a.val (b - a).val b (b - a)⁻¹ r j⟩ : Write (ZMod p)) ∈
        writes c w bits m a.val (b - a).val b (b - a)⁻¹ srow →
      t' .witness (c.w (j : ℤ)) (srow + (r : ℤ)) = cell w pb bits K a.val (b - a).val b (b - a)⁻¹ r j := by
    intro r j hj hm
    rw [et]; exact hg.read hc t hj hm
  -- contents
  have hW0 : ∀ i ≤ K, t' .witness (c.w 0) (srow + ((2 * i : ℕ) : ℤ)) = sum4 pb bits a.val (i * (w - 1)) := by
    intro i hi
    have h1 : 2 * i / 2 = i := by omega
    have hv : cell w pb bits K a.val (b - a).val b (b - a)⁻¹ (2 * i) 0 = (sum4 pb bits a.val (i * (w - 1)) : ZMod p) := by
      simp [cell, h1]
    rw [← hv]
    refine hread (2 * i) 0 (by omega) ?_
    rw [hv]
    simp only [writes, hKd, List.mem_append, List.mem_cons, List.mem_flatMap, List.mem_range, List.mem_map]
    rcases Nat.eq_zero_or_pos i with rfl | h0
    · left; left; left; right; left; simp [sum4]
    · left; left; right
      refine ⟨i - 1, by omega, Or.inr (Or.inl ?_)⟩
      have h2 : 2 * (i - 1) + 2 = 2 * i := by omega
      have h3 : (i - 1) * (w - 1) + (w - 1) = i * (w - 1) := by
        obtain ⟨k, rfl⟩ : ∃ k, i = k + 1 := ⟨i - 1, by omega⟩
        simp [Nat.add_mul]
      rw [h2, h3]; rfl
  have hW1 : ∀ i ≤ K, t' .witness (c.w 1) (srow + ((2 * i : ℕ) : ℤ)) = sum4 pb bits (b - a).val (i * (w - 1)) := by
    intro i hi
    have h1 : 2 * i / 2 = i := by omega
    have hv : cell w pb bits K a.val (b - a).val b (b - a)⁻¹ (2 * i) 1 =
        (sum4 pb bits (b - a).val (i * (w - 1)) : ZMod p) := by
      simp [cell, h1]
    rw [← hv]
    refine hread (2 * i) 1 (by omega) ?_
    rw [hv]
    simp only [writes, hKd, List.mem_append, List.mem_cons, List.mem_flatMap, List.mem_range, List.mem_map]
    rcases Nat.eq_zero_or_pos i with rfl | h0
    · left; left; left; left; simp [sum4]
    · left; left; right
      refine ⟨i - 1, by omega, Or.inr (Or.inr (Or.inl ?_))⟩
      have h2 : 2 * (i - 1) + 2 = 2 * i := by omega
      have h3 : (i - 1) * (w - 1) + (w - 1) = i * (w - 1) := by
        obtain ⟨k, rfl⟩ : ∃ k, i = k + 1 := ⟨i - 1, by omega⟩
        simp [Nat.add_mul]
      rw [h2, h3]; rfl
  have hX : ∀ i < K, ∀ j < w - 1, cellX c t' srow i j = (chunk4 pb bits a.val (i * (w - 1) + j) : ZMod p) := by
    intro i hi j hj
    have h1 : (2 * i + 1) / 2 = i := by omega
    have h2 : (2 * i + 1) % 2 = 1 := by omega
    have hv : cell w pb bits K a.val (b - a).val b (b - a)⁻¹ (2 * i + 1) (1 + j) =
        (chunk4 pb bits a.val (i * (w - 1) + j) : ZMod p) := by
      simp [cell, h1, h2, hi]
    rw [← hv]
    refine hread (2 * i + 1) (1 + j) (by omega) ?_
    rw [hv]
    simp only [writes, hKd, List.mem_append, List.mem_cons, List.mem_flatMap, List.mem_range, List.mem_map]
    left; left; right
    exact ⟨i, hi, Or.inl (Or.inr ⟨j, hj, by rw [Nat.add_comm 1 j]⟩)⟩
  have hD : ∀ i < K, ∀ j < w - 1, cellD c w t' srow i j = (chunk4 pb bits (b - a).val (i * (w - 1) + j) : ZMod p) := by
    intro i hi j hj
    unfold cellD
    by_cases hj2 : j < w - 2
    · rw [if_pos hj2]
      have h1 : 2 * i / 2 = i := by omega
      have hv : cell w pb bits K a.val (b - a).val b (b - a)⁻¹ (2 * i) (2 + j) =
          (chunk4 pb bits (b - a).val (i * (w - 1) + j) : ZMod p) := by
        simp only [cell, h1]
        rw [if_pos (by omega), if_neg (by omega), if_neg (by omega), if_pos hi]
        congr 3; omega
      rw [← hv]
      refine hread (2 * i) (2 + j) (by omega) ?_
      rw [hv]
      simp only [writes, hKd, List.mem_append, List.mem_cons, List.mem_flatMap, List.mem_range, List.mem_map]
      left; left; right
      exact ⟨i, hi, Or.inl (Or.inl (Or.inl ⟨j, by omega, by rw [Nat.add_comm 2 j]⟩))⟩
    · rw [if_neg hj2]
      have hj' : j = w - 2 := by omega
      have h1 : (2 * i + 1) / 2 = i := by omega
      have h2 : (2 * i + 1) % 2 = 1 := by omega
      have h3 : i * (w - 1) + (w - 1) - 1 = i * (w - 1) + j := by omega
      have hv : cell w pb bits K a.val (b - a).val b (b - a)⁻¹ (2 * i + 1) 0 =
          (chunk4 pb bits (b - a).val (i * (w - 1) + j) : ZMod p) := by
        simp [cell, h1, h2, hi, h3]
      rw [← hv]
      refine hread (2 * i + 1) 0 (by omega) ?_
      rw [hv]
      simp only [writes, hKd, List.mem_append, List.mem_cons, List.mem_flatMap, List.mem_range, List.mem_map]
      left; left; right
      exact ⟨i, hi, Or.inl (Or.inl (Or.inr (Or.inl (by rw [h3]; rfl))))⟩
  have hW2 : t' .witness (c.w 2) (srow + ((2 * K : ℕ) : ℤ)) = b := by
    have h1 : 2 * K / 2 = K := by omega
    have hv : cell w pb bits K a.val (b - a).val b (b - a)⁻¹ (2 * K) 2 = b := by simp [cell, h1]
    conv_rhs => rw [← hv]
    refine hread (2 * K) 2 (by omega) ?_
    rw [hv]
    simp [writes, hKd]
  have hinv : m.strict = true → (if bonus w m = 0 then t' .witness (c.w 3) (srow + ((2 * K : ℕ) : ℤ))
         else t' .witness (c.w 0) (srow + ((2 * K + 1 : ℕ) : ℤ))) = (b - a)⁻¹ := by
    intro hst
    by_cases hb0 : bonus w m = 0
    · rw [if_pos hb0]
      have hw4 : 4 ≤ w := by
        by_contra hlt; simp [bonus, hst] at hb0; omega
      have h1 : 2 * K / 2 = K := by omega
      have hv : cell w pb bits K a.val (b - a).val b (b - a)⁻¹ (2 * K) 3 = (b - a)⁻¹ := by simp [cell, h1]
      conv_rhs => rw [← hv]
      refine hread (2 * K) 3 (by omega) ?_
      rw [hv]
      simp only [writes, hKd, List.mem_append, hst, hb0, if_true]
      right; simp
    · rw [if_neg hb0]
      have h1 : (2 * K + 1) / 2 = K := by omega
      have h2 : (2 * K + 1) % 2 = 1 := by omega
      have hv : cell w pb bits K a.val (b - a).val b (b - a)⁻¹ (2 * K + 1) 0 = (b - a)⁻¹ := by simp [cell, h1, h2]
      conv_rhs => rw [← hv]
      refine hread (2 * K + 1) 0 (by omega) ?_
      rw [hv]
      simp only [writes, hKd, List.mem_append, hst, if_true, if_neg hb0]
      right; simp
  have hz' : (zeroVar srow).value t' = 0 := by
    show t' .constant 0 srow = 0
    rw [hfr.const, hz]
  have hfull : ∀ v : ZMod p, v.val < 2 ^ bits → (sum4 pb bits v.val (K * (w - 1)) : ZMod p) = v := by
    intro v hv
    rw [sum4_horner, chunk4_horner hpbs hv _ le_rfl, Nat.sub_self, pow_zero, Nat.div_one, ZMod.natCast_zmod_val]
  have hchain : ∀ v i, (sum4 pb bits v ((i + 1) * (w - 1)) : ZMod p) =
      4 ^ (w - 1) * sum4 pb bits v (i * (w - 1)) +
        horner4 (fun j => (chunk4 pb bits v (i * (w - 1) + j) : ZMod p)) (w - 1) := by
    intro v i; rw [Nat.add_mul, Nat.one_mul, sum4_add]
  rw [circuit_iff mb c w bits m hw hb x y srow t' K hrow hK0 hps]
  refine ⟨fun i hi => ⟨fun j hj => ⟨_, chunk4_lt _ _ _ _, hX i hi j hj⟩, fun j hj => ⟨_, chunk4_lt _ _ _ _, hD i hi j hj⟩,
    ?_, ?_⟩, ⟨?_, ?_⟩, ?_, ?_, ?_, ?_, ?_, ?_, ?_, ?_⟩
  · rw [hW0 _ (by omega), hW0 _ (by omega), hchain]
    congr 1
    exact horner4_congr fun j hj => (hX i hi j hj).symm
  · rw [hW1 _ (by omega), hW1 _ (by omega), hchain]
    congr 1
    exact horner4_congr fun j hj => (hD i hi j hj).symm
  · rw [hW0 _ le_rfl, hW1 _ le_rfl, hW2, hfull _ hal, hfull _ hd]; ring
  · intro hst
    rw [hinv hst, hW1 _ le_rfl, hfull _ hd, mul_inv_cancel₀ (hs hst)]
  · intro hf
    have ho := needsFirst_odd hf
    have h2 : paddingSize w bits * 2 < pb := by omega
    rw [hX 0 hK0 _ (by omega), hD 0 hK0 _ (by omega), ho]
    simp only [Nat.zero_mul, Nat.zero_add, pow_one]
    exact ⟨⟨_, chunk4_odd h2, rfl⟩, ⟨_, chunk4_odd h2, rfl⟩⟩
  · have := hW0 0 (by omega)
    rw [hz']; simpa [sum4] using this.symm
  · have := hW1 0 (by omega)
    rw [hz']; simpa [sum4] using this.symm
  · intro i hi
    rw [hz', hX 0 hK0 i (by omega), chunk4_pad (by omega)]; simp
  · intro i hi
    rw [hz', hD 0 hK0 i (by omega), chunk4_pad (by omega)]; simp
  · rw [hfr.outside hxo]
    cases hsw : m.swaps <;> simp only [hsw, if_true, if_false, Bool.false_eq_true] at ha hbv ⊢
    · rw [hW0 _ le_rfl, hfull _ hal, ← ha]
    · rw [hW2, ← hbv]
  · rw [hfr.outside hyo]
    cases hsw : m.swaps <;> simp only [hsw, if_true, if_false, Bool.false_eq_true] at ha hbv ⊢
    · rw [hW2, ← hbv]
    · rw [hW0 _ le_rfl, hfull _ hal, ← ha]
  · rw [hk]; exact hz'


/-- With an odd number of bits and no first-chunk gate the circuit is literally the one for `bits + 1`. -/
theorem circuit_odd_eq {F : Type*} [Field F] (mb : ℕ) (c : Cols) (w bits : ℕ) (m : CmpMode) (x y : Var) (srow : ℤ)
    (ho : bits % 2 = 1) (hf : needsFirst mb bits = false) :
    (circuit mb c w bits m x y srow : List (Op F)) = circuit mb c w (bits + 1) m x y srow := by
  have h1 : chunkAmount (bits + 1) = chunkAmount bits := by unfold chunkAmount; omega
  have h2 : paddedChunks w (bits + 1) = paddedChunks w bits := by unfold paddedChunks; rw [h1]
  have h3 : paddingSize w (bits + 1) = paddingSize w bits := by unfold paddingSize; rw [h1, h2]
  have h4 : rows w (bits + 1) m = rows w bits m := by unfold rows; rw [h2]
  have h5 : needsFirst mb (bits + 1) = false := by
    simp only [needsFirst, decide_eq_false_iff_not]; omega
  simp only [circuit, h3, h4, h5, hf]
  rfl

theorem effBits_le {mb bits : ℕ} (hb : bits < mb - 1) : effBits mb bits + 1 < mb := by
  unfold effBits
  cases hf : needsFirst mb bits with
  | true => have := needsFirst_odd hf; simp; omega
  | false =>
    simp only [needsFirst, decide_eq_false_iff_not] at hf
    simp; omega

theorem effBits_cases (mb bits : ℕ) :
    effBits mb bits = bits ∨ (effBits mb bits = bits + 1 ∧ bits % 2 = 1 ∧ needsFirst mb bits = false) := by
  unfold effBits
  cases hf : needsFirst mb bits with
  | true => have := needsFirst_odd hf; simp; omega
  | false => simp; omega

end
end CompChecked

section
variable {p : ℕ} [hp : Fact p.Prime]
open CompChecked

/-- C22, exactly what the component enforces. With `B` bits (`B = bits` for even `bits` and in the one case
where the code adds a first-chunk gate, `B = bits + 1` for every other odd `bits`): two operands can be proved
iff the smaller one is below `2^B`, the *difference* is below `2^B` and, in strict modes, not zero. -/
theorem comparisonChecked_accepts_iff (c : Cols) (w bits : ℕ) (hw : 3 ≤ w) (hb : 0 < bits) (hc : c.OK w)
    (hk : c.k 0 = 0) (m : CmpMode) (srow : ℤ) (a b : ZMod p) :
    (∃ t, Sat t (circuit (Nat.size p) c w bits m ⟨0, 0, false, .publicInput⟩ ⟨0, 1, false, .publicInput⟩ srow) ∧
      t .publicInput 0 0 = (if m.swaps then b else a) ∧ t .publicInput 0 1 = (if m.swaps then a else b)) ↔
    a.val < 2 ^ effBits (Nat.size p) bits ∧ (b - a).val < 2 ^ effBits (Nat.size p) bits ∧ (m.strict → a ≠ b) := by
  constructor
  · rintro ⟨t, h, hx, hy⟩
    obtain ⟨X, D, hX, hD, h1, h2, h3⟩ := sound _ c w bits m hw hb hk _ _ srow t h
    have hx' : (⟨0, 0, false, .publicInput⟩ : Var).value t = if m.swaps then b else a := hx
    have hy' : (⟨0, 1, false, .publicInput⟩ : Var).value t = if m.swaps then a else b := hy
    have ea : a = X := by cases hsw : m.swaps <;> simp [hsw, hx', hy'] at h1 <;> exact h1
    have eb : b = X + D := by cases hsw : m.swaps <;> simp [hsw, hx', hy'] at h2 <;> exact h2
    have ed : b - a = D := by rw [ea, eb]; ring
    refine ⟨?_, ?_, fun hs he => ?_⟩
    · rw [ea, ZMod.val_natCast]; exact (Nat.mod_le _ _).trans_lt hX
    · rw [ed, ZMod.val_natCast]; exact (Nat.mod_le _ _).trans_lt hD
    · apply h3 hs; rw [← ed, he, sub_self]
  · rintro ⟨h1, h2, h3⟩
    set t : Table (ZMod p) := fun ty _ i => if ty = .publicInput then
      (if i = 0 then (if m.swaps then b else a) else (if m.swaps then a else b)) else 0
    have hx : (⟨0, 0, false, .publicInput⟩ : Var).value t = if m.swaps then b else a := rfl
    have hy : (⟨0, 1, false, .publicInput⟩ : Var).value t = if m.swaps then a else b := rfl
    have key : ∀ bits', 0 < bits' → effBits (Nat.size p) bits = bits' →
        ∃ t, Sat t (circuit (Nat.size p) c w bits' m ⟨0, 0, false, .publicInput⟩ ⟨0, 1, false, .publicInput⟩ srow) ∧
          t .publicInput 0 0 = (if m.swaps then b else a) ∧ t .publicInput 0 1 = (if m.swaps then a else b) := by
      intro bits' hb' he
      rw [he] at h1 h2
      obtain ⟨hs, hf⟩ := core (Nat.size p) c w bits' hw hb' hc hk m ⟨0, 0, false, .publicInput⟩
        ⟨0, 1, false, .publicInput⟩ srow t rfl (by simp [Var.Outside]) (by simp [Var.Outside]) a b
        (by rw [hx, hy]; cases m.swaps <;> rfl) (by rw [hx, hy]; cases m.swaps <;> rfl) h1 h2
        (fun hs => sub_ne_zero.2 (Ne.symm (h3 hs)))
      exact ⟨_, hs, (hf.outside (v := ⟨0, 0, false, .publicInput⟩) (by simp [Var.Outside])).trans hx,
        (hf.outside (v := ⟨0, 1, false, .publicInput⟩) (by simp [Var.Outside])).trans hy⟩
    rcases effBits_cases (Nat.size p) bits with he | ⟨he, ho, hnf⟩
    · exact key bits hb he
    · rw [circuit_odd_eq _ c w bits m _ _ srow ho hnf]
      exact key (bits + 1) (by omega) he

/-- C22, the order part of soundness: an accepted table implies the relation, for operands of any size; the
smaller operand is below `2^bits` up to one spare bit for odd sizes, the larger one below twice that. Missing
compared with the documented claim: both operands below `2^bits` (refuted below). -/
theorem comparisonChecked_sound_partial (c : Cols) (w bits : ℕ) (hw : 3 ≤ w) (hb : 0 < bits)
    (hbp : bits < Nat.size p - 1) (hk : c.k 0 = 0) (m : CmpMode) (hm : m ≠ .flag) (x y : Var) (srow : ℤ)
    (t : Table (ZMod p)) (h : Sat t (circuit (Nat.size p) c w bits m x y srow)) :
    m.rel (x.value t).val (y.value t).val ∧
    ((if m.swaps then y else x).value t).val < 2 ^ (bits + bits % 2) ∧
    ((if m.swaps then x else y).value t).val < 2 ^ (bits + bits % 2 + 1) := by
  obtain ⟨X, D, hX, hD, h1, h2, h3⟩ := sound _ c w bits m hw hb hk _ _ srow t h
  have hp2 : 2 ^ (effBits (Nat.size p) bits + 1) ≤ p := Nat.lt_size.1 (effBits_le hbp)
  rw [pow_succ] at hp2
  have v1 : ((if m.swaps then y else x).value t).val = X := by rw [h1, ZMod.val_cast_of_lt (by omega)]
  have v2 : ((if m.swaps then x else y).value t).val = X + D := by
    rw [h2, ← Nat.cast_add, ZMod.val_cast_of_lt (by omega)]
  have heff : effBits (Nat.size p) bits ≤ bits + bits % 2 := by
    rcases effBits_cases (Nat.size p) bits with he | ⟨he, ho, -⟩ <;> omega
  have hpow : 2 ^ effBits (Nat.size p) bits ≤ 2 ^ (bits + bits % 2) := Nat.pow_le_pow_right (by norm_num) heff
  refine ⟨?_, by rw [v1]; omega, by rw [v2, pow_succ]; omega⟩
  have hD0 : m.strict → 0 < D := fun hs => Nat.pos_of_ne_zero fun h => h3 hs (by rw [h]; simp)
  cases m <;> simp only [CmpMode.swaps, CmpMode.strict, CmpMode.rel] at v1 v2 hD0 ⊢ <;> simp at v1 v2 hD0
  · exact absurd rfl hm
  all_goals omega

/-- C22, completeness: for operands below `2^bits` in the relation the generated table is accepted. -/
theorem comparisonChecked_complete (c : Cols) (w bits : ℕ) (hw : 3 ≤ w) (hb : 0 < bits)
    (hbp : bits < Nat.size p - 1) (hc : c.OK w) (hk : c.k 0 = 0) (m : CmpMode) (x y : Var) (srow : ℤ)
    (t : Table (ZMod p)) (hxo : x.Outside srow (rows w bits m)) (hyo : y.Outside srow (rows w bits m)) :
    let tc := writeConsts (circuit (Nat.size p) c w bits m x y srow) t
    let t' := assign c w bits m x y srow tc
    (x.value tc).val < 2 ^ bits → (y.value tc).val < 2 ^ bits → m.rel (x.value tc).val (y.value tc).val →
    Sat t' (circuit (Nat.size p) c w bits m x y srow) ∧ Frame c srow (rows w bits m) tc t' := by
  intro tc t' hx hy hr
  have h2 : 2 ^ (bits + 1) ≤ p := Nat.lt_size.1 (by omega)
  have hz : tc .constant 0 srow = 0 := by
    simp only [tc]; rw [writeConsts_eq, hk, Table.set_same]
  refine core _ c w bits hw hb hc hk m x y srow tc hz hxo hyo _ _ rfl rfl ?_ ?_ ?_
  · cases m.swaps <;> simp [hx, hy]
  · cases m <;> simp only [CmpMode.swaps, CmpMode.rel] at hr ⊢ <;> simp
    · exact (zmod_sub_small h2 hx hy).2 hr.le
    · exact (zmod_sub_small h2 hx hy).2 hr
    · exact (zmod_sub_small h2 hy hx).2 (le_of_lt hr)
    · exact (zmod_sub_small h2 hy hx).2 hr
  · intro hs h0
    cases m <;> simp only [CmpMode.swaps, CmpMode.strict, CmpMode.rel] at hr hs h0 <;> simp at hs h0
    · rw [sub_eq_zero] at h0; rw [h0] at hr; exact lt_irrefl _ hr
    · rw [sub_eq_zero] at h0; rw [h0] at hr; exact lt_irrefl _ hr

/-- C22 fails as stated, first reason: only the smaller operand and the difference are decomposed. For every
admissible size and width, `2^bits - 1 < 2^bits` is accepted although the right operand does not fit. -/
theorem comparisonChecked_refuted_upper (c : Cols) (w bits : ℕ) (hw : 3 ≤ w) (hb : 0 < bits)
    (hbp : bits < Nat.size p - 1) (hc : c.OK w) (hk : c.k 0 = 0) (srow : ℤ) :
    ∃ t : Table (ZMod p),
      Sat t (circuit (Nat.size p) c w bits .lt ⟨0, 0, false, .publicInput⟩ ⟨0, 1, false, .publicInput⟩ srow) ∧
      (t .publicInput 0 0).val = 2 ^ bits - 1 ∧ (t .publicInput 0 1).val = 2 ^ bits := by
  have h2 : 2 ^ (bits + 1) ≤ p := Nat.lt_size.1 (by omega)
  have hpos := Nat.one_le_two_pow (n := bits)
  have hone : 1 < 2 ^ bits := Nat.one_lt_two_pow (by omega)
  rw [pow_succ] at h2
  have hle : 2 ^ bits ≤ 2 ^ effBits (Nat.size p) bits := by
    apply Nat.pow_le_pow_right (by norm_num)
    rcases effBits_cases (Nat.size p) bits with he | ⟨he, -, -⟩ <;> omega
  have e1 : (((2 ^ bits - 1 : ℕ) : ZMod p)).val = 2 ^ bits - 1 := ZMod.val_cast_of_lt (by omega)
  have e2 : (((2 ^ bits : ℕ) : ZMod p)).val = 2 ^ bits := ZMod.val_cast_of_lt (by omega)
  have e3 : ((2 ^ bits : ℕ) : ZMod p) - ((2 ^ bits - 1 : ℕ) : ZMod p) = 1 := by
    rw [Nat.cast_sub hpos]; push_cast; ring
  haveI : Fact (1 < p) := ⟨hp.out.one_lt⟩
  obtain ⟨t, hs, hx, hy⟩ := (comparisonChecked_accepts_iff c w bits hw hb hc hk .lt srow
    ((2 ^ bits - 1 : ℕ) : ZMod p) ((2 ^ bits : ℕ) : ZMod p)).2
    ⟨by rw [e1]; omega, by rw [e3, ZMod.val_one]; omega, fun _ he => by
      rw [he, sub_self] at e3; exact zero_ne_one e3⟩
  refine ⟨t, hs, ?_, ?_⟩
  · rw [hx]; exact e1
  · rw [hy]; exact e2

/-- C22 fails as stated, second reason: for odd sizes the first chunk keeps two bits unless the field is almost
exhausted, so even `2^bits ≤ 2^bits` is accepted. -/
theorem comparisonChecked_refuted_odd (c : Cols) (w bits : ℕ) (hw : 3 ≤ w) (ho : bits % 2 = 1)
    (hbp : bits + 1 < Nat.size p - 1) (hc : c.OK w) (hk : c.k 0 = 0) (srow : ℤ) :
    ∃ t : Table (ZMod p),
      Sat t (circuit (Nat.size p) c w bits .le ⟨0, 0, false, .publicInput⟩ ⟨0, 1, false, .publicInput⟩ srow) ∧
      (t .publicInput 0 0).val = 2 ^ bits ∧ (t .publicInput 0 1).val = 2 ^ bits := by
  have h2 : 2 ^ (bits + 1) ≤ p := Nat.lt_size.1 (by omega)
  have hpos := Nat.one_le_two_pow (n := bits)
  rw [pow_succ] at h2
  have hnf : needsFirst (Nat.size p) bits = false := by
    simp only [needsFirst, decide_eq_false_iff_not]; omega
  have he : effBits (Nat.size p) bits = bits + 1 := by
    unfold effBits; rw [hnf]; simp; omega
  have e2 : (((2 ^ bits : ℕ) : ZMod p)).val = 2 ^ bits := ZMod.val_cast_of_lt (by omega)
  obtain ⟨t, hs, hx, hy⟩ := (comparisonChecked_accepts_iff c w bits hw (by omega) hc hk .le srow
    ((2 ^ bits : ℕ) : ZMod p) ((2 ^ bits : ℕ) : ZMod p)).2
    ⟨by rw [e2, he, pow_succ]; omega, by rw [sub_self, ZMod.val_zero]; positivity, by simp [CmpMode.strict]⟩
  refine ⟨t, hs, ?_, ?_⟩
  · rw [hx]; exact e2
  · rw [hy]; exact e2

example : (⟨[5, 1, 2, 3], [0], []⟩ : Cols).OK 4 ∧ CompChecked.rows 4 10 .lt = 5 ∧ CompChecked.rows 3 10 .lt = 8 ∧
    CompChecked.paddingSize 4 10 = 1 ∧ CompChecked.needsFirst 12 9 = false ∧ CompChecked.needsFirst 11 9 = true ∧
    CmpMode.rel .ge 9 4 :=
  ⟨⟨by decide, rfl⟩, by decide, by decide, by decide, by decide, by decide, by simp [CmpMode.rel]⟩

end
end Verif
