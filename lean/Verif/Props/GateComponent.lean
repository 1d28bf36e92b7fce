import Verif.Model.GateComponent
import Mathlib.Algebra.BigOperators.Intervals
import Mathlib.Algebra.BigOperators.Ring.Finset
import Mathlib.Algebra.Field.ZMod
import Mathlib.Tactic.NormNum.Prime

/-!
# C62: constraints of a gate combined with powers of theta
-/

set_option linter.unusedSimpArgs false
set_option linter.unusedSectionVars false
set_option linter.unusedVariables false

namespace Verif
namespace GateComponent
variable {F : Type*} [Field F]

/-! ### Specification -/

/-- `q (C_0 + θ C_1 + ... + θ^d C_d)`. -/
def spec (d : ℕ) (th q : F) (C : ℕ → F) : F := q * ∑ k ∈ Finset.range (d + 1), th ^ k * C k

/-- The specified value of the inputs. -/
def In.spec (x : In) (d : ℕ) (t : Table F) : F :=
  GateComponent.spec d (x.theta.value t) (x.sel.value t) (fun i => (x.cs i).value t)

/-! ### Arithmetic of the layout -/

/-- Rows holding part of the trace. -/
def rows0 (w d : ℕ) : ℕ := (2 * d + (w - 1) - 1) / (w - 1)

theorem rows0_last {w d : ℕ} (hw : 3 ≤ w) (hd : 0 < d) :
    (rows0 w d - 1) * (w - 1) + lastGate w d = 2 * d ∧ 1 ≤ rows0 w d ∧ 1 ≤ lastGate w d ∧ lastGate w d ≤ w - 1 := by
  have hn : 0 < w - 1 := by omega
  have h := ceil_last (N := 2 * d) (w := w - 1) (by omega) (by omega)
  have hl := Nat.mod_lt (2 * d - 1) hn
  have e : lastGate w d = if 2 * d % (w - 1) = 0 then w - 1 else 2 * d % (w - 1) := by
    unfold lastGate
    have e1 := Nat.div_add_mod (2 * d - 1) (w - 1)
    by_cases hh : (2 * d - 1) % (w - 1) + 1 = w - 1
    · have : 2 * d = (w - 1) * ((2 * d - 1) / (w - 1) + 1) := by rw [Nat.mul_add, mul_one]; omega
      rw [hh, if_pos]
      rw [this]; exact Nat.mul_mod_right _ _
    · have : 2 * d = (w - 1) * ((2 * d - 1) / (w - 1)) + ((2 * d - 1) % (w - 1) + 1) := by omega
      have e2 : 2 * d % (w - 1) = (2 * d - 1) % (w - 1) + 1 := by
        conv_lhs => rw [this]
        rw [Nat.mul_add_mod, Nat.mod_eq_of_lt (by omega)]
      rw [e2, if_neg (by omega)]
  rw [← e] at h
  refine ⟨h.1, h.2, ?_, ?_⟩ <;> unfold lastGate <;> omega

theorem extra_iff {w d : ℕ} : extra w d = true ↔ w - 3 ≤ lastGate w d := by simp [extra]

theorem rows_extra {w d : ℕ} (h : extra w d = true) : rows w d = rows0 w d + 1 := by simp [rows, h, rows0]
theorem rows_same {w d : ℕ} (h : extra w d = false) : rows w d = rows0 w d := by simp [rows, h, rows0]

theorem lastR_eq {w d : ℕ} (hw : 3 ≤ w) (hd : 0 < d) : lastR w d + 1 = rows0 w d := by
  obtain ⟨q1, q2, q3, q4⟩ := rows0_last hw hd
  have hw0 : 0 < w - 1 := by omega
  unfold lastR
  rw [show 2 * d - 1 = (w - 1) * (rows0 w d - 1) + (lastGate w d - 1) by rw [Nat.mul_comm (w - 1)]; omega,
    Nat.mul_add_div hw0, Nat.div_eq_of_lt (a := lastGate w d - 1) (by omega)]
  omega

theorem outRow_eq {w d : ℕ} (hw : 3 ≤ w) (hd : 0 < d) : outRow w d + 1 = rows w d := by
  have := lastR_eq hw hd
  unfold outRow
  cases h : extra w d
  · rw [rows_same h]; simp; omega
  · rw [rows_extra h]; simp; omega

theorem colC0_same {w d : ℕ} (hw : 3 ≤ w) (hd : 0 < d) (h : extra w d = false) :
    colC0 w d = lastGate w d + 1 ∧ lastGate w d + 4 ≤ w := by
  obtain ⟨q1, q2, q3, q4⟩ := rows0_last hw hd
  have h' : ¬ w - 3 ≤ lastGate w d := by rw [← extra_iff, h]; simp
  refine ⟨?_, by omega⟩
  unfold colC0
  rw [if_neg (by rw [h]; simp), ← q1, Nat.mul_comm, Nat.mul_add_mod, Nat.mod_eq_of_lt (by omega)]

theorem colC0_extra {w d : ℕ} (h : extra w d = true) : colC0 w d = 0 := by simp [colC0, h]

/-- Columns counted from one: the positions up to `2 d`. -/
theorem pos_iff {w d : ℕ} (hw : 3 ≤ w) (hd : 0 < d) (r j : ℕ) :
    (r < rows0 w d ∧ 1 ≤ j ∧ j ≤ (if r = rows0 w d - 1 then lastGate w d else w - 1)) ↔
      (1 ≤ j ∧ j < w ∧ r * (w - 1) + j ≤ 2 * d) := by
  obtain ⟨h1, h2, h3, h4⟩ := rows0_last hw hd
  have := grid_pos h1 h2 h4 r (j - 1)
  constructor
  · rintro ⟨a, b, e⟩
    have := this.1 ⟨a, by omega⟩
    exact ⟨b, by omega, by omega⟩
  · rintro ⟨a, b, e⟩
    have := this.2 ⟨by omega, by omega⟩
    exact ⟨this.1, a, by omega⟩

/-! ### Enabled selectors -/

theorem row_mem {w : ℕ} (hw : 3 ≤ w) (r e k r' : ℕ) :
    (k, r') ∈ (forStep (tmp w r) e 2).map (fun i => (i, r)) ↔ r' = r ∧ k < e ∧ 1 ≤ k ∧ (r' * (w - 1) + k) % 2 = 0 := by
  simp only [List.mem_map, mem_forStep (show 0 < 2 by omega), Prod.mk.injEq]
  have key : (tmp w r ≤ k ∧ (k - tmp w r) % 2 = 0) ↔ (1 ≤ k ∧ (r * (w - 1) + k) % 2 = 0) := by
    rw [Nat.add_mod, Nat.mul_mod]
    unfold tmp
    have h1 := Nat.mod_lt (w - 1) (show 0 < 2 by omega)
    have h2 := Nat.mod_lt r (show 0 < 2 by omega)
    generalize (w - 1) % 2 = a at *
    generalize r % 2 = b at *
    interval_cases a <;> interval_cases b <;> simp <;> omega
  constructor
  · rintro ⟨i, ⟨h1, h2, h3⟩, rfl, rfl⟩
    exact ⟨rfl, h1, (key.1 ⟨h2, h3⟩).1, (key.1 ⟨h2, h3⟩).2⟩
  · rintro ⟨rfl, h1, h2⟩
    have := key.2 h2
    exact ⟨k, ⟨h1, this.1, this.2⟩, rfl, rfl⟩

theorem mids_mem {w : ℕ} (hw : 3 ≤ w) (E k r' : ℕ) :
    (k, r') ∈ ((forStep 1 E 1).flatMap fun r => (forStep (tmp w r) w 2).map fun i => (i, r)) ↔
      1 ≤ r' ∧ r' < E ∧ k < w ∧ 1 ≤ k ∧ (r' * (w - 1) + k) % 2 = 0 := by
  simp only [List.mem_flatMap, row_mem hw, mem_forStep (show 0 < 1 by omega)]
  constructor
  · rintro ⟨r, ⟨h1, h2, -⟩, rfl, h3⟩
    exact ⟨h2, h1, h3⟩
  · rintro ⟨h1, h2, h3⟩
    exact ⟨r', ⟨h2, h1, Nat.mod_one _⟩, rfl, h3⟩

theorem zero_mem (e k r' : ℕ) :
    (k, r') ∈ (forStep 4 e 2).map (fun i => (i, 0)) ↔ r' = 0 ∧ k < e ∧ 4 ≤ k ∧ k % 2 = 0 := by
  simp only [List.mem_map, mem_forStep (show 0 < 2 by omega), Prod.mk.injEq]
  constructor
  · rintro ⟨i, ⟨h1, h2, h3⟩, rfl, rfl⟩
    omega
  · rintro ⟨rfl, h1, h2, h3⟩
    exact ⟨k, ⟨h1, h2, by omega⟩, rfl, rfl⟩

/-- Index of the selector of the output gate. -/
def outIdx (w d : ℕ) : ℕ := if extra w d then lastGate w d + 3 else w + lastGate w d + 3

/-- Which selectors are enabled where. -/
theorem mem_enabled {w d : ℕ} (hw : 3 ≤ w) (hd : 0 < d) (k r : ℕ) :
    (k, r) ∈ enabled w d ↔ (k = 0 ∧ r = 0) ∨
      (1 ≤ k ∧ k < w ∧ 4 ≤ r * (w - 1) + k ∧ r * (w - 1) + k ≤ 2 * d ∧ (r * (w - 1) + k) % 2 = 0) ∨
      (k = outIdx w d ∧ r = rows w d - 1) := by
  unfold enabled
  rw [List.mem_cons, List.mem_append, zero_mem]
  refine or_congr (by simp) ?_
  have P := pos_iff (w := w) (d := d) hw hd r k
  obtain ⟨q1, q2, q3, q4⟩ := rows0_last hw hd
  have hz : r = 0 → r * (w - 1) = 0 := by rintro rfl; simp
  have hp : 1 ≤ r → 2 ≤ r * (w - 1) := by
    intro h
    have := Nat.mul_le_mul h (show 2 ≤ w - 1 by omega)
    omega
  have key : (1 ≤ k ∧ k < w ∧ 4 ≤ r * (w - 1) + k ∧ r * (w - 1) + k ≤ 2 * d ∧ (r * (w - 1) + k) % 2 = 0) ↔
      ((r < rows0 w d ∧ 1 ≤ k ∧ k ≤ (if r = rows0 w d - 1 then lastGate w d else w - 1)) ∧ 4 ≤ r * (w - 1) + k ∧
        (r * (w - 1) + k) % 2 = 0) := by
    rw [P]; tauto
  rw [key]
  clear key P q1
  cases h : extra w d
  · have hr := rows_same h
    have ho : outIdx w d = w + lastGate w d + 3 := by simp [outIdx, h]
    rw [ho, hr]
    by_cases h1 : rows0 w d = 1
    · simp only [firstLast, hr, h1, h, List.mem_singleton, Prod.mk.injEq, true_or, if_true, gt_iff_lt, lt_self_iff_false,
        if_false]
      split_ifs <;> omega
    · by_cases h2 : rows0 w d = 2
      · have e0 : r0 w d = 1 := by unfold r0; omega
        have e1 : r1 w d = 1 := by unfold r1; rw [if_neg (by rw [h]; simp), e0]
        have e2 : r2 w d = 1 := by unfold r2; rw [if_neg (by omega), e1]
        simp only [hr, h, e0, e1, e2, firstLast, h1, h2, Bool.false_eq_true, false_and, and_false, if_false, or_false,
          List.mem_append, List.not_mem_nil, false_or, List.mem_singleton, Prod.mk.injEq, row_mem hw, mids_mem hw]
        simp only [show (2:ℕ) > 1 by omega, if_true, show ¬ (1:ℕ) = 2 - 2 by omega, and_false, if_false, List.mem_append,
          List.not_mem_nil, false_or, List.mem_singleton, Prod.mk.injEq, row_mem hw, mids_mem hw]
        split_ifs <;> omega
      · have e0 : r0 w d = rows0 w d - 2 := by unfold r0; omega
        have e1 : r1 w d = rows0 w d - 2 := by unfold r1; rw [if_neg (by rw [h]; simp), e0]
        have e2 : r2 w d = rows0 w d - 1 := by unfold r2; rw [if_pos ⟨h, by omega⟩, e1]; omega
        simp only [hr, h, e0, e1, e2, firstLast, h1, h2, Bool.false_eq_true, false_and, and_false, if_false, or_false,
          show rows0 w d > 1 by omega, if_true, and_self,
          List.mem_append, List.not_mem_nil, false_or, List.mem_singleton, Prod.mk.injEq, row_mem hw, mids_mem hw]
        split_ifs <;> omega
  · have hr := rows_extra h
    have ho : outIdx w d = lastGate w d + 3 := by simp [outIdx, h]
    rw [ho, hr]
    by_cases h1 : rows0 w d = 1
    · have e0 : r0 w d = 1 := by unfold r0; omega
      have e1 : r1 w d = 1 := by unfold r1; rw [if_neg (by omega), e0]
      have e2 : r2 w d = 1 := by unfold r2; rw [if_neg (by rw [h]; simp), e1]
      simp only [hr, h, h1, e0, e1, e2, firstLast, and_self, or_true, Nat.reduceAdd, gt_iff_lt, Nat.one_lt_ofNat, if_true,
        List.mem_append, List.not_mem_nil, false_or, List.mem_singleton, Prod.mk.injEq, row_mem hw, mids_mem hw,
        Nat.sub_self, one_ne_zero, and_false, if_false, Bool.true_eq_false, false_and]
      split_ifs <;> omega
    · have e0 : r0 w d = rows0 w d - 1 := by unfold r0; omega
      have e1 : r1 w d = rows0 w d := by unfold r1; rw [if_pos ⟨h, by omega⟩, e0]; omega
      have e2 : r2 w d = rows0 w d := by unfold r2; rw [if_neg (by rw [h]; simp), e1]
      have f : firstLast w d = w - 1 := by unfold firstLast; rw [if_neg (by omega)]
      simp only [hr, h, e0, e1, e2, f, Bool.true_eq_false, false_and, true_and, if_false,
          show rows0 w d + 1 > 1 by omega, show rows0 w d - 1 = rows0 w d + 1 - 2 by omega, if_true,
          List.mem_append, List.not_mem_nil, false_or, List.mem_singleton, Prod.mk.injEq, row_mem hw, mids_mem hw]
      split_ifs <;> omega

/-! ### The gates -/

theorem app_left {α : Type*} {A B : List α} {d x : α} {i : ℕ} (h : i < A.length) (e : A.getD i d = x) : (A ++ B).getD i d = x := by
  rw [List.getD_append _ _ _ _ h, e]

theorem app_right {α : Type*} {A B : List α} {d x : α} {i : ℕ} (k : ℕ) (h : i = A.length + k) (e : B.getD k d = x) :
    (A ++ B).getD i d = x := by
  rw [List.getD_append_right _ _ _ _ (by omega), show i - A.length = k by omega, e]

theorem len1 {w : ℕ} (hw : 3 ≤ w) (c : Cols) :
    (first c :: step c w 1 :: step c w 2 :: (forStep 3 w 1).map (step c w) : List (Expr F)).length = w := by
  simp only [List.length_cons, List.length_map, forStep_length, Nat.div_one]; omega

/-- The number of gates is the one declared in the manifest (lines 65-67). -/
theorem gates_length {w : ℕ} (hw : 3 ≤ w) (c : Cols) : (gates c w : List (Expr F)).length = 2 * w := by
  unfold gates
  rw [List.length_append, len1 hw]
  simp only [List.length_cons, List.length_map, forStep_length, Nat.div_one]; omega

theorem gate_first (c : Cols) (w : ℕ) (e : Expr F) : (gates c w).getD 0 e = first c := rfl

theorem gate_step {w : ℕ} (hw : 3 ≤ w) (c : Cols) (j : ℕ) (h1 : 1 ≤ j) (h2 : j < w) (e : Expr F) :
    (gates c w).getD j e = step c w j := by
  unfold gates
  refine app_left (by rw [len1 hw]; exact h2) ?_
  match j, h1 with
  | 1, _ => rfl
  | 2, _ => rfl
  | j + 3, _ =>
    rw [List.getD_cons_succ, List.getD_cons_succ, List.getD_cons_succ, getD_map_forStep _ _ _ _ _ _ (by omega) (by omega)]
    congr 1; omega

/-- The output gate, spelled out. -/
def outGate (c : Cols) (w d : ℕ) : Expr F :=
  if extra w d then outExtra c w (lastGate w d : ℤ) else outSame c w (lastGate w d + 2)

theorem gate_out {w d : ℕ} (hw : 3 ≤ w) (hd : 0 < d) (c : Cols) (e : Expr F) : (gates c w).getD (outIdx w d) e = outGate c w d := by
  obtain ⟨q1, q2, q3, q4⟩ := rows0_last hw hd
  unfold gates outIdx outGate
  cases h : extra w d
  · obtain ⟨-, h4⟩ := colC0_same hw hd h
    simp only [Bool.false_eq_true, if_false]
    refine app_right (lastGate w d + 3) (by rw [len1 hw]; omega) ?_
    rw [List.getD_cons_succ, List.getD_cons_succ, List.getD_cons_succ, getD_map_forStep _ _ _ _ _ _ (by omega) (by omega)]
    congr 1; omega
  · have h' := extra_iff.1 h
    simp only [if_true]
    have : lastGate w d + 3 = w ∨ lastGate w d + 2 = w ∨ lastGate w d + 1 = w := by omega
    rcases this with h3 | h3 | h3
    · refine app_right 0 (by rw [len1 hw]; omega) ?_
      rw [List.getD_cons_zero]; congr 1; omega
    · refine app_right 1 (by rw [len1 hw]; omega) ?_
      rw [List.getD_cons_succ, List.getD_cons_zero]; congr 1; omega
    · refine app_right 2 (by rw [len1 hw]; omega) ?_
      rw [List.getD_cons_succ, List.getD_cons_succ, List.getD_cons_zero]; congr 1; omega

/-- The step gate is the recurrence at its position. -/
theorem step_iff {w : ℕ} (hw : 3 ≤ w) (c : Cols) (srow : ℤ) (t : Table F) (r j : ℕ) (h1 : 1 ≤ j) (hj : j < w)
    (hp : 4 ≤ r * (w - 1) + j) (th : F) (hth : t .witness (c.w 0) (srow + (r : ℤ)) = th) :
    (step c w j : Expr F).eval t (srow + (r : ℤ)) = 0 ↔
      tcell c 1 (w - 1) srow t (r * (w - 1) + j - 1) =
        th * (tcell c 1 (w - 1) srow t (r * (w - 1) + j - 1 - 1) + tcell c 1 (w - 1) srow t (r * (w - 1) + j - 1 - 2)) := by
  have hw0 : 0 < w - 1 := by omega
  have em : (r * (w - 1) + j - 1) % (w - 1) = j - 1 := by
    rw [show r * (w - 1) + j - 1 = (w - 1) * r + (j - 1) by rw [Nat.mul_comm]; omega, Nat.mul_add_mod,
      Nat.mod_eq_of_lt (by omega)]
  have ed : (r * (w - 1) + j - 1) / (w - 1) = r := by
    rw [show r * (w - 1) + j - 1 = (w - 1) * r + (j - 1) by rw [Nat.mul_comm]; omega, Nat.mul_add_div hw0,
      Nat.div_eq_of_lt (a := j - 1) (by omega), add_zero]
  have wr : j ≤ 2 → w - 1 ≤ r * (w - 1) + j - 1 := by
    intro h
    have hr : 0 < r := by
      rcases Nat.eq_zero_or_pos r with h0 | h0
      · subst h0; omega
      · exact h0
    have := Nat.mul_le_mul_right (w - 1) hr
    rw [Nat.succ_eq_add_one, zero_add, one_mul] at this; omega
  generalize hP : r * (w - 1) + j - 1 = p at *
  have bk : ∀ (k : ℕ) (i : ℤ), k ≤ j - 1 → i = (j : ℤ) - k →
      t .witness (c.w i) (srow + (r : ℤ)) = tcell c 1 (w - 1) srow t (p - k) := by
    intro k i hk hi
    refine tcell_back c 1 (w - 1) hw0 srow t (by omega) ?_ (by rw [ed])
    rw [em, hi]; omega
  have wp : ∀ (k : ℕ) (i : ℤ), j - 1 < k → k ≤ 2 → j ≤ 2 → i = (w : ℤ) - 1 + j - k →
      t .witness (c.w i) (srow + (r : ℤ) + -1) = tcell c 1 (w - 1) srow t (p - k) := by
    intro k i hk hk' hj3 hi
    refine tcell_wrap c 1 (w - 1) hw0 srow t (by omega) (by omega) (wr hj3) ?_ (by rw [ed])
    rw [em, hi]; omega
  unfold step
  have : j = 1 ∨ j = 2 ∨ 3 ≤ j := by omega
  rcases this with rfl | rfl | h3
  · simp only [if_true, Expr.eval_sub, Expr.eval_add, Expr.eval_mul, Cols.eval_wv, add_zero, hth]
    rw [bk 0 1 (by omega) (by omega), wp 1 _ (by omega) (by omega) (by omega) (by omega),
      wp 2 _ (by omega) (by omega) (by omega) (by omega), Nat.sub_zero, sub_eq_zero]
  · simp only [OfNat.ofNat_ne_one, if_false, if_true, Expr.eval_sub, Expr.eval_add, Expr.eval_mul, Cols.eval_wv, add_zero, hth]
    rw [bk 0 2 (by omega) (by omega), bk 1 1 (by omega) (by omega),
      wp 2 _ (by omega) (by omega) (by omega) (by omega), Nat.sub_zero, sub_eq_zero]
  · rw [if_neg (by omega), if_neg (by omega)]
    simp only [Expr.eval_sub, Expr.eval_add, Expr.eval_mul, Cols.eval_wv, add_zero, hth]
    rw [bk 0 _ (by omega) (by simp), bk 1 _ (by omega) (by simp), bk 2 _ (by omega) (by simp), Nat.sub_zero, sub_eq_zero]

theorem first_iff {w : ℕ} (hw : 3 ≤ w) (c : Cols) (srow : ℤ) (t : Table F) (th : F)
    (hth : t .witness (c.w 0) (srow + (0 : ℕ)) = th) :
    (first c : Expr F).eval t (srow + (0 : ℕ)) = 0 ↔
      tcell c 1 (w - 1) srow t 1 = th * tcell c 1 (w - 1) srow t 0 := by
  have e : ∀ k < 2, tcell c 1 (w - 1) srow t k = t .witness (c.w ((k : ℤ) + 1)) srow := by
    intro k hk
    rw [tcell, Nat.mod_eq_of_lt (by omega), Nat.div_eq_of_lt (by omega)]; simp
  rw [e 0 (by omega), e 1 (by omega)]
  simp only [Nat.cast_zero, add_zero] at hth
  simp only [first, Expr.eval_sub, Expr.eval_mul, Cols.eval_wv, sub_eq_zero, Nat.cast_zero, add_zero, hth, Nat.cast_one]
  rw [mul_comm]; rfl

/-- The last item of the trace, by column and row. -/
theorem last_cell {w d : ℕ} (hw : 3 ≤ w) (hd : 0 < d) (c : Cols) (srow : ℤ) (t : Table F) :
    t .witness (c.w (lastGate w d : ℤ)) (srow + ((rows0 w d - 1 : ℕ) : ℤ)) = tcell c 1 (w - 1) srow t (2 * d - 1) := by
  obtain ⟨q1, q2, q3, q4⟩ := rows0_last hw hd
  have hw0 : 0 < w - 1 := by omega
  have e : 2 * d - 1 = (w - 1) * (rows0 w d - 1) + (lastGate w d - 1) := by rw [Nat.mul_comm (w - 1)]; omega
  rw [tcell, e, Nat.mul_add_mod, Nat.mod_eq_of_lt (by omega), Nat.mul_add_div hw0,
    Nat.div_eq_of_lt (a := lastGate w d - 1) (by omega), add_zero,
    show (lastGate w d : ℤ) = ((lastGate w d - 1 : ℕ) : ℤ) + ((1 : ℕ) : ℤ) by omega]

theorem out_iff {w d : ℕ} (hw : 3 ≤ w) (hd : 0 < d) (c : Cols) (srow : ℤ) (t : Table F) (c0 q : F)
    (h0 : t .witness (c.w (colC0 w d : ℤ)) (srow + rows w d - 1) = c0)
    (hq : t .witness (c.w ((colC0 w d : ℤ) + 1)) (srow + rows w d - 1) = q) :
    (outGate c w d : Expr F).eval t (srow + ((rows w d - 1 : ℕ) : ℤ)) = 0 ↔
      (result c w d srow).value t = q * (tcell c 1 (w - 1) srow t (2 * d - 1) + c0) := by
  obtain ⟨q1, q2, q3, q4⟩ := rows0_last hw hd
  have lc := last_cell hw hd c srow t
  unfold outGate result
  rw [Cols.value_wa]
  cases h : extra w d
  · obtain ⟨e, -⟩ := colC0_same hw hd h
    have er := rows_same h
    rw [show srow + ((rows w d - 1 : ℕ) : ℤ) = srow + rows w d - 1 by omega]
    simp only [Bool.false_eq_true, if_false, outSame, Expr.eval_sub, Expr.eval_add, Expr.eval_mul, Cols.eval_wv, add_zero, sub_eq_zero]
    rw [e] at h0 hq
    rw [show ((lastGate w d + 2 : ℕ) : ℤ) = ((lastGate w d + 1 : ℕ) : ℤ) + 1 by omega, hq,
      show ((lastGate w d + 1 : ℕ) : ℤ) + 1 - 1 = ((lastGate w d + 1 : ℕ) : ℤ) by omega, h0,
      show ((lastGate w d + 1 : ℕ) : ℤ) + 1 - 2 = (lastGate w d : ℤ) by omega,
      ← lc, show srow + ((rows0 w d - 1 : ℕ) : ℤ) = srow + rows w d - 1 by omega, add_comm c0]
  · have e := colC0_extra h
    have er := rows_extra h
    rw [e] at h0 hq
    simp only [Nat.cast_zero, zero_add] at h0 hq
    rw [show srow + ((rows w d - 1 : ℕ) : ℤ) = srow + rows w d - 1 by omega]
    simp only [if_true, outExtra, Expr.eval_sub, Expr.eval_add, Expr.eval_mul, Cols.eval_wv, add_zero, sub_eq_zero, h0, hq]
    rw [← lc, show srow + (rows w d : ℤ) - 1 + -1 = srow + ((rows0 w d - 1 : ℕ) : ℤ) by omega, add_comm c0]

theorem copies_iff {w d : ℕ} (hw : 3 ≤ w) (hd : 0 < d) (c : Cols) (x : In) (srow : ℤ) (t : Table F) :
    Sat t (copies c w d x srow : List (Op F)) ↔
      (∀ r < rows0 w d, t .witness (c.w 0) (srow + (r : ℤ)) = x.theta.value t) ∧
      (∀ i < d, tcell c 1 (w - 1) srow t (2 * i) = (x.cs (d - i)).value t) ∧
      t .witness (c.w (colC0 w d : ℤ)) (srow + rows w d - 1) = (x.cs 0).value t ∧
      t .witness (c.w ((colC0 w d : ℤ) + 1)) (srow + rows w d - 1) = x.sel.value t := by
  obtain ⟨q1, q2, q3, q4⟩ := rows0_last hw hd
  have A : (Sat t ((List.range (rows w d - 1)).map fun (i : ℕ) => (.copy (c.wa 0 (srow + (i : ℤ))) x.theta : Op F)) ∧
      Sat t (if extra w d then [] else [(.copy (c.wa 0 (srow + rows w d - 1)) x.theta : Op F)])) ↔
      ∀ r < rows0 w d, t .witness (c.w 0) (srow + (r : ℤ)) = x.theta.value t := by
    have B : Sat t ((List.range (rows w d - 1)).map fun (i : ℕ) => (.copy (c.wa 0 (srow + (i : ℤ))) x.theta : Op F)) ↔
        ∀ r < rows w d - 1, t .witness (c.w 0) (srow + (r : ℤ)) = x.theta.value t := by
      simp [Sat]
    rw [B]
    cases h : extra w d
    · have er := rows_same h
      simp only [Bool.false_eq_true, if_false, sat_cons, sat_nil, and_true, holds_copy, Cols.value_wa]
      rw [show srow + (rows w d : ℤ) - 1 = srow + ((rows w d - 1 : ℕ) : ℤ) by omega]
      constructor
      · rintro ⟨a, b⟩ r hr
        rcases Nat.lt_or_ge r (rows w d - 1) with h1 | h1
        · exact a r h1
        · rw [show r = rows w d - 1 by omega]; exact b
      · intro a
        exact ⟨fun r hr => a r (by omega), a _ (by omega)⟩
    · rw [rows_extra h]
      simp
  have C : Sat t ((List.range d).map fun (i : ℕ) =>
      (.copy (c.wa (((2 * i) % (w - 1) + 1 : ℕ) : ℤ) (srow + ((2 * i / (w - 1) : ℕ) : ℤ))) (x.cs (d - i)) : Op F)) ↔
      ∀ i < d, tcell c 1 (w - 1) srow t (2 * i) = (x.cs (d - i)).value t := by
    simp [Sat, tcell]
  unfold copies
  rw [sat_append, sat_append, sat_append, C, ← and_assoc, A]
  simp only [sat_cons, sat_nil, and_true, holds_copy, Cols.value_wa]

/-- Everything the circuit says. -/
theorem sat_iff {w d : ℕ} (hw : 3 ≤ w) (hd : 0 < d) (c : Cols) (x : In) (srow : ℤ) (t : Table F) :
    Sat t (circuit c w d x srow) ↔
      (tcell c 1 (w - 1) srow t 1 = x.theta.value t * tcell c 1 (w - 1) srow t 0 ∧
       (∀ i, i + 1 < d → tcell c 1 (w - 1) srow t (2 * (i + 1) + 1) =
          x.theta.value t * (tcell c 1 (w - 1) srow t (2 * (i + 1)) + tcell c 1 (w - 1) srow t (2 * i + 1))) ∧
       (result c w d srow).value t = x.sel.value t * (tcell c 1 (w - 1) srow t (2 * d - 1) + (x.cs 0).value t)) ∧
      (∀ r < rows0 w d, t .witness (c.w 0) (srow + (r : ℤ)) = x.theta.value t) ∧
      (∀ i < d, tcell c 1 (w - 1) srow t (2 * i) = (x.cs (d - i)).value t) ∧
      t .witness (c.w (colC0 w d : ℤ)) (srow + rows w d - 1) = (x.cs 0).value t ∧
      t .witness (c.w ((colC0 w d : ℤ) + 1)) (srow + rows w d - 1) = x.sel.value t := by
  obtain ⟨q1, q2, q3, q4⟩ := rows0_last hw hd
  have hw0 : 0 < w - 1 := by omega
  unfold circuit
  rw [sat_append, copies_iff hw hd]
  refine and_congr_left ?_
  rintro ⟨hth, -, h0, hq⟩
  have key : Sat t ((enabled w d).map fun e => (.gate [(gates c w).getD e.1 (.const 0)] [srow + (e.2 : ℤ)] : Op F)) ↔
      ∀ k r, (k, r) ∈ enabled w d → ((gates c w).getD k (.const 0) : Expr F).eval t (srow + (r : ℤ)) = 0 := by
    simp only [Sat, List.mem_map, forall_exists_index, and_imp, Prod.forall]
    constructor
    · intro h k r hk
      have := h _ k r hk rfl
      simpa using this
    · rintro h o k r hk rfl
      simpa using h k r hk
  rw [key]
  have F0 := first_iff hw c srow t _ (hth 0 (by omega))
  have O := out_iff hw hd c srow t _ _ h0 hq
  have S : ∀ r j, 1 ≤ j → j < w → 4 ≤ r * (w - 1) + j → r * (w - 1) + j ≤ 2 * d → _ := fun r j h1 h2 h3 h4 =>
    step_iff hw c srow t r j h1 h2 h3 _ (hth r ((pos_iff hw hd r j).2 ⟨h1, h2, h4⟩).1)
  constructor
  · intro h
    refine ⟨?_, ?_, ?_⟩
    · have := h 0 0 ((mem_enabled hw hd 0 0).2 (Or.inl ⟨rfl, rfl⟩))
      rw [gate_first] at this
      exact F0.1 this
    · intro i hi
      have e : (2 * i + 3) / (w - 1) * (w - 1) + ((2 * i + 3) % (w - 1) + 1) = 2 * i + 4 := by
        have := Nat.div_add_mod (2 * i + 3) (w - 1)
        rw [Nat.mul_comm] at this; omega
      have hlt := Nat.mod_lt (2 * i + 3) hw0
      have hp := h _ _ ((mem_enabled hw hd ((2 * i + 3) % (w - 1) + 1) ((2 * i + 3) / (w - 1))).2
        (Or.inr (Or.inl ⟨by omega, by omega, by omega, by omega, by omega⟩)))
      rw [gate_step hw c _ (by omega) (by omega), S _ _ (by omega) (by omega) (by omega) (by omega), e] at hp
      exact hp
    · have := h _ _ ((mem_enabled hw hd _ _).2 (Or.inr (Or.inr ⟨rfl, rfl⟩)))
      rw [gate_out hw hd] at this
      exact O.1 this
  · rintro ⟨h1, h2, h3⟩ k r hk
    rcases (mem_enabled hw hd k r).1 hk with ⟨rfl, rfl⟩ | ⟨a1, a2, a3, a4, a5⟩ | ⟨rfl, rfl⟩
    · rw [gate_first]; exact F0.2 h1
    · rw [gate_step hw c _ a1 a2, S r k a1 a2 a3 a4]
      have := h2 ((r * (w - 1) + k) / 2 - 2) (by omega)
      rwa [show 2 * ((r * (w - 1) + k) / 2 - 2 + 1) + 1 = r * (w - 1) + k - 1 by omega,
        show 2 * ((r * (w - 1) + k) / 2 - 2 + 1) = r * (w - 1) + k - 1 - 1 by omega,
        show 2 * ((r * (w - 1) + k) / 2 - 2) + 1 = r * (w - 1) + k - 1 - 2 by omega] at this
    · rw [gate_out hw hd]; exact O.2 h3

/-! ### Soundness -/

/-- The accumulator of the assignment is Horner's scheme. -/
theorem acc_eq (d : ℕ) (x : In) (t : Table F) (i : ℕ) :
    acc d x t i = ∑ k ∈ Finset.range i, x.theta.value t ^ (i - k) * (x.cs (d - k)).value t := by
  induction i with
  | zero => simp [acc]
  | succ i ih =>
    rw [acc, ih, Finset.sum_range_succ, mul_add, Finset.mul_sum, show i + 1 - i = 1 by omega, pow_one]
    congr 1
    refine Finset.sum_congr rfl fun k hk => ?_
    rw [show i + 1 - k = (i - k) + 1 by have := Finset.mem_range.1 hk; omega, pow_succ]; ring

theorem out_eq (d : ℕ) (x : In) (t : Table F) : x.sel.value t * (acc d x t d + (x.cs 0).value t) = x.spec d t := by
  rw [In.spec, spec, acc_eq, ← Finset.sum_range_reflect (fun k => x.theta.value t ^ k * (x.cs k).value t) (d + 1)]
  congr 1
  rw [Finset.sum_range_succ]
  simp only [Nat.add_sub_cancel, Nat.sub_self, pow_zero, one_mul]

/-- **C62** (soundness). For every width from three up and every degree from one up: any table satisfying the circuit has
the combination of the constraints in the result cell. -/
theorem gate_sound {w d : ℕ} (hw : 3 ≤ w) (hd : 0 < d) (c : Cols) (x : In) (srow : ℤ) (t : Table F)
    (h : Sat t (circuit c w d x srow)) : (result c w d srow).value t = x.spec d t := by
  obtain ⟨⟨h1, h2, h3⟩, -, hc, -, -⟩ := (sat_iff hw hd c x srow t).1 h
  have key : ∀ i < d, tcell c 1 (w - 1) srow t (2 * i + 1) = acc d x t (i + 1) := by
    intro i
    induction i with
    | zero =>
      intro hi
      have := hc 0 hi
      rw [mul_zero] at this
      rw [mul_zero, zero_add, h1, this]
      simp [acc]
    | succ i ih =>
      intro hi
      rw [h2 i hi, ih (by omega), hc (i + 1) hi]
      change _ = x.theta.value t * (acc d x t (i + 1) + (x.cs (d - (i + 1))).value t)
      ring
  have := key (d - 1) (by omega)
  rw [show 2 * (d - 1) + 1 = 2 * d - 1 by omega, show d - 1 + 1 = d by omega] at this
  rw [h3, this, out_eq]

/-! ### Completeness -/

theorem trace_length (d : ℕ) (x : In) (t : Table F) : (trace d x t).length = 2 * d := by
  simp [trace, List.length_flatMap]; ring

theorem trace_get (d : ℕ) (x : In) (t : Table F) (i k : ℕ) (hi : i < d) (hk : k < 2) :
    (trace d x t).getD (2 * i + k) 0 = [(x.cs (d - i)).value t, acc d x t (i + 1)].getD k 0 := by
  have key : ∀ n, ∀ i < n, ((List.range n).flatMap fun i => [(x.cs (d - i)).value t, acc d x t (i + 1)]).getD (2 * i + k) 0 =
      [(x.cs (d - i)).value t, acc d x t (i + 1)].getD k 0 := by
    intro n
    induction n with
    | zero => intro i hi; omega
    | succ n ih =>
      intro i hi
      have l : ((List.range n).flatMap fun i => [(x.cs (d - i)).value t, acc d x t (i + 1)]).length = 2 * n := by
        simp [List.length_flatMap]; ring
      rw [List.range_succ (n := n), List.flatMap_append, List.flatMap_singleton]
      rcases Nat.lt_succ_iff_lt_or_eq.1 hi with h | rfl
      · rw [List.getD_append _ _ _ _ (by omega)]
        exact ih i h
      · rw [List.getD_append_right _ _ _ _ (by omega), l]
        congr 1; omega
  exact key d i hi

/-- All inputs are outside the component's rows. -/
def In.Outside (x : In) (w d : ℕ) (srow : ℤ) : Prop :=
  x.theta.Outside srow (rows w d) ∧ x.sel.Outside srow (rows w d) ∧ ∀ i ≤ d, (x.cs i).Outside srow (rows w d)

/-- Contents of the component's cells. -/
def gridVal (w d : ℕ) (x : In) (t : Table F) (r j : ℕ) : F :=
  if r = rows w d - 1 ∧ j = colC0 w d then (x.cs 0).value t
  else if r = rows w d - 1 ∧ j = colC0 w d + 1 then x.sel.value t
  else if r = rows w d - 1 ∧ j = w - 1 then x.sel.value t * (acc d x t d + (x.cs 0).value t)
  else if j = 0 then x.theta.value t
  else (trace d x t).getD (r * (w - 1) + j - 1) 0

theorem grid_item {w d : ℕ} (hw : 3 ≤ w) (hd : 0 < d) (x : In) (t : Table F) (i : ℕ) (hi : i < 2 * d) :
    gridVal w d x t (i / (w - 1)) (i % (w - 1) + 1) = (trace d x t).getD i 0 ∧ i / (w - 1) < rows w d := by
  have hw0 : 0 < w - 1 := by omega
  obtain ⟨q1, q2, q3, q4⟩ := rows0_last hw hd
  have hlt := Nat.mod_lt i hw0
  have e := Nat.div_add_mod i (w - 1)
  rw [Nat.mul_comm] at e
  have P := (pos_iff hw hd (i / (w - 1)) (i % (w - 1) + 1)).2 ⟨by omega, by omega, by omega⟩
  have key : (¬ (i / (w - 1) = rows w d - 1 ∧ i % (w - 1) + 1 = colC0 w d)) ∧
      (¬ (i / (w - 1) = rows w d - 1 ∧ i % (w - 1) + 1 = colC0 w d + 1)) ∧
      (¬ (i / (w - 1) = rows w d - 1 ∧ i % (w - 1) + 1 = w - 1)) ∧ i / (w - 1) < rows w d := by
    cases h : extra w d
    · obtain ⟨e1, e2⟩ := colC0_same hw hd h
      have er := rows_same h
      have P1 := P.1
      have P2 := P.2.2
      clear P e
      split_ifs at P2 with h5 <;> omega
    · have e1 := colC0_extra h
      have er := rows_extra h
      omega
  refine ⟨?_, key.2.2.2⟩
  rw [gridVal, if_neg key.1, if_neg key.2.1, if_neg key.2.2.1, if_neg (by omega),
    show i / (w - 1) * (w - 1) + (i % (w - 1) + 1) - 1 = i by omega]

theorem grid_theta {w d : ℕ} (hw : 3 ≤ w) (hd : 0 < d) (x : In) (t : Table F) (r : ℕ) (hr : r < rows0 w d) :
    gridVal w d x t r 0 = x.theta.value t ∧ r < rows w d := by
  have key : (¬ (r = rows w d - 1 ∧ 0 = colC0 w d)) ∧
      (¬ (r = rows w d - 1 ∧ 0 = colC0 w d + 1)) ∧
      (¬ (r = rows w d - 1 ∧ 0 = w - 1)) ∧ r < rows w d := by
    cases h : extra w d
    · obtain ⟨e1, e2⟩ := colC0_same hw hd h
      have er := rows_same h
      omega
    · have e1 := colC0_extra h
      have er := rows_extra h
      omega
  refine ⟨?_, key.2.2.2⟩
  rw [gridVal, if_neg key.1, if_neg key.2.1, if_neg key.2.2.1, if_pos rfl]

theorem grid_out {w d : ℕ} (hw : 3 ≤ w) (hd : 0 < d) (x : In) (t : Table F) :
    gridVal w d x t (outRow w d) (colC0 w d) = (x.cs 0).value t ∧
    gridVal w d x t (outRow w d) (colC0 w d + 1) = x.sel.value t ∧
    gridVal w d x t (outRow w d) (w - 1) = x.sel.value t * (acc d x t d + (x.cs 0).value t) ∧
    colC0 w d + 2 < w := by
  have ho := outRow_eq hw hd
  have hc : colC0 w d + 2 < w := by
    cases h : extra w d
    · obtain ⟨e1, e2⟩ := colC0_same hw hd h
      omega
    · have e1 := colC0_extra h
      omega
  refine ⟨?_, ?_, ?_, hc⟩
  · rw [gridVal, if_pos ⟨by omega, rfl⟩]
  · rw [gridVal, if_neg (by omega), if_pos ⟨by omega, rfl⟩]
  · rw [gridVal, if_neg (by omega), if_neg (by omega), if_pos ⟨by omega, rfl⟩]

theorem writes_grid {w d : ℕ} (hw : 3 ≤ w) (hd : 0 < d) (c : Cols) (x : In) (srow : ℤ) (t : Table F) :
    GridWrites c srow w (rows w d) (gridVal w d x t) (writes c w d x srow t) := by
  have hw0 : 0 < w - 1 := by omega
  have ho := outRow_eq hw hd
  obtain ⟨g1, g2, g3, g4⟩ := grid_out hw hd x t
  intro y hy
  simp only [writes, List.mem_append, List.mem_map, List.mem_range, trace_length, lastR_eq hw hd, List.mem_cons,
    List.not_mem_nil, or_false] at hy
  rcases hy with ⟨i, hi, rfl⟩ | ⟨r, hr, rfl⟩ | rfl | rfl | rfl
  · have hlt := Nat.mod_lt i hw0
    obtain ⟨a1, a2⟩ := grid_item hw hd x t i hi
    exact ⟨_, a2, i % (w - 1) + 1, by omega, by rw [a1]⟩
  · obtain ⟨a1, a2⟩ := grid_theta hw hd x t r hr
    exact ⟨r, a2, 0, by omega, by rw [a1]; rfl⟩
  · exact ⟨outRow w d, by omega, colC0 w d, by omega, by rw [g1]⟩
  · exact ⟨outRow w d, by omega, colC0 w d + 1, by omega, by rw [g2]⟩
  · exact ⟨outRow w d, by omega, w - 1, by omega, by rw [g3]⟩

/-- **C62** (completeness). The assigned table satisfies the circuit; only the component's rows change. -/
theorem gate_complete {w d : ℕ} (hw : 3 ≤ w) (hd : 0 < d) (c : Cols) (hc : c.OK w) (x : In) (srow : ℤ) (t : Table F)
    (hx : x.Outside w d srow) :
    Sat (assign c w d x srow t) (circuit c w d x srow) ∧ Frame c srow (rows w d) t (assign c w d x srow t) := by
  have G := writes_grid hw hd c x srow t
  have hf : Frame c srow (rows w d) t (assign c w d x srow t) := (G.own hc).frame t
  refine ⟨?_, hf⟩
  have hw0 : 0 < w - 1 := by omega
  have ho := outRow_eq hw hd
  obtain ⟨g1, g2, g3, g4⟩ := grid_out hw hd x t
  have A : ∀ p < 2 * d, tcell c 1 (w - 1) srow (assign c w d x srow t) p = (trace d x t).getD p 0 := by
    intro p hp
    have hlt := Nat.mod_lt p hw0
    obtain ⟨a1, a2⟩ := grid_item hw hd x t p hp
    have := G.read (r := p / (w - 1)) (j := p % (w - 1) + 1) hc t (by omega) (by
      rw [a1]
      simp only [writes, List.mem_append, List.mem_map, List.mem_range, trace_length]
      exact Or.inl ⟨p, hp, rfl⟩)
    rw [a1] at this
    rw [← this, tcell, assign]
    simp
  have A0 : ∀ i < d, tcell c 1 (w - 1) srow (assign c w d x srow t) (2 * i) = (x.cs (d - i)).value t := by
    intro i hi
    rw [A _ (by omega), show 2 * i = 2 * i + 0 from rfl, trace_get d x t i 0 hi (by omega)]; rfl
  have A1 : ∀ i < d, tcell c 1 (w - 1) srow (assign c w d x srow t) (2 * i + 1) = acc d x t (i + 1) := by
    intro i hi
    rw [A _ (by omega), trace_get d x t i 1 hi (by omega)]; rfl
  have B : ∀ r < rows0 w d, assign c w d x srow t .witness (c.w 0) (srow + (r : ℤ)) = x.theta.value t := by
    intro r hr
    obtain ⟨a1, a2⟩ := grid_theta hw hd x t r hr
    have := G.read (r := r) (j := 0) hc t (by omega) (by
      rw [a1]
      simp only [writes, List.mem_append, List.mem_map, List.mem_range, lastR_eq hw hd]
      exact Or.inr (Or.inl ⟨r, hr, rfl⟩))
    rw [a1] at this
    exact this
  have eo : srow + (rows w d : ℤ) - 1 = srow + (outRow w d : ℤ) := by omega
  have C0 := G.read (r := outRow w d) (j := colC0 w d) hc t (by omega) (by rw [g1]; simp [writes])
  have C1 := G.read (r := outRow w d) (j := colC0 w d + 1) hc t (by omega) (by rw [g2]; simp [writes])
  have C2 := G.read (r := outRow w d) (j := w - 1) hc t (by omega) (by rw [g3]; simp [writes])
  rw [g1] at C0; rw [g2] at C1; rw [g3] at C2
  obtain ⟨o1, o2, o3⟩ := hx
  rw [sat_iff hw hd, hf.outside o1, hf.outside o2, hf.outside (o3 0 (by omega))]
  refine ⟨⟨?_, ?_, ?_⟩, B, ?_, ?_, ?_⟩
  · have a0 := A0 0 hd
    have a1 := A1 0 hd
    simp only [mul_zero, zero_add, Nat.sub_zero] at a0 a1
    rw [a0, a1]; simp [acc]
  · intro i hi
    rw [A1 (i + 1) hi, A1 i (by omega), A0 (i + 1) hi]
    change x.theta.value t * (acc d x t (i + 1) + (x.cs (d - (i + 1))).value t) = _
    ring
  · have := A1 (d - 1) (by omega)
    rw [show 2 * (d - 1) + 1 = 2 * d - 1 by omega, show d - 1 + 1 = d by omega] at this
    rw [this, result, Cols.value_wa, eo, show (w : ℤ) - 1 = ((w - 1 : ℕ) : ℤ) by omega]
    exact C2
  · intro i hi
    rw [A0 i hi, hf.outside (o3 (d - i) (by omega))]
  · rw [eo]; exact C0
  · rw [eo]
    have : ((colC0 w d : ℤ) + 1) = ((colC0 w d + 1 : ℕ) : ℤ) := by omega
    rw [this]; exact C1

/-! ### Instances -/

/-- Inputs taken from a public input column: theta, the selector, then the constraints. -/
def pubIn : In where
  theta := ⟨0, 0, false, .publicInput⟩
  cs i := ⟨0, i + 2, false, .publicInput⟩
  sel := ⟨0, 1, false, .publicInput⟩

theorem pubIn_outside (w d : ℕ) (srow : ℤ) : pubIn.Outside w d srow := by
  simp [In.Outside, pubIn, Var.Outside]

/-- `w` columns. -/
def cols (w : ℕ) : Cols := ⟨List.range w, [], [0]⟩

theorem cols_ok (w : ℕ) : (cols w).OK w := ⟨by simpa [cols] using List.nodup_range, by simp [cols]⟩

instance : Fact (Nat.Prime 101) := ⟨by norm_num⟩

/-- Honest tables exist, here for 15 columns and degree 40. -/
example : Sat (assign (cols 15) 15 40 pubIn 3 (fun _ _ r => (r : ZMod 101))) (circuit (cols 15) 15 40 pubIn 3) :=
  (gate_complete (by omega) (by omega) _ (cols_ok 15) _ 3 _ (pubIn_outside _ _ _)).1

/-- Four columns, degree 2, with theta 5, selector 6 and constraints 7, 8, 9: `6 (7 + 5·8 + 25·9)`. -/
example : (result (cols 4) 4 2 3).value (assign (cols 4) 4 2 pubIn 3 (fun _ _ r => (r + 5 : ZMod 101))) =
    6 * (7 + 5 * 8 + 25 * 9) := by
  have hc := gate_complete (w := 4) (d := 2) (by omega) (by omega) _ (cols_ok 4) pubIn 3 (fun _ _ r => (r + 5 : ZMod 101))
    (pubIn_outside _ _ _)
  rw [gate_sound (by omega) (by omega) _ _ _ _ hc.1]
  obtain ⟨o1, o2, o3⟩ := pubIn_outside 4 2 3
  simp only [In.spec, spec, Finset.sum_range_succ, Finset.sum_range_zero, hc.2.outside o1, hc.2.outside o2,
    hc.2.outside (o3 0 (by omega)), hc.2.outside (o3 1 (by omega)), hc.2.outside (o3 2 (by omega))]
  simp only [pubIn, Var.value]
  decide

end GateComponent
end Verif
