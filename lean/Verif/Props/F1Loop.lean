import Verif.Model.F1Loop
import Mathlib.Algebra.BigOperators.Fin
import Mathlib.Algebra.Field.ZMod
import Mathlib.Tactic.NormNum.Prime

/-!
# C61: the product of the lookup argument
-/

set_option linter.unusedSimpArgs false
set_option linter.unusedSectionVars false
set_option linter.unusedVariables false

namespace Verif
namespace F1Loop
variable {F : Type*} [Field F]

/-! ### Specification -/

/-- `∏ ((1 + β) γ + s_i + β t_i)`. -/
def spec (m : ℕ) (b g : F) (s t : ℕ → F) : F := ∏ i ∈ Finset.range m, ((1 + b) * g + s i + b * t i)

/-- The specified value of the inputs. -/
def In.spec (x : In) (m : ℕ) (t : Table F) : F :=
  F1Loop.spec m (x.beta.value t) (x.gamma.value t) (fun i => (x.s i).value t) (fun i => (x.t i).value t)

/-! ### Arithmetic of the layout -/

/-- Rows holding part of the trace. -/
def rows0 (w m : ℕ) : ℕ := (3 * m + (w - 1) - 1) / (w - 1)

theorem rows0_last {w m : ℕ} (hw : 4 ≤ w) (hm : 0 < m) :
    (rows0 w m - 1) * (w - 1) + lastJ w m = 3 * m ∧ 1 ≤ rows0 w m ∧ 1 ≤ lastJ w m ∧ lastJ w m ≤ w - 1 := by
  have h := ceil_last (N := 3 * m) (w := w - 1) (by omega) (by omega)
  refine ⟨h.1, h.2, ?_, ?_⟩ <;> unfold lastJ <;> have := Nat.mod_lt (3 * m) (show 0 < w - 1 by omega) <;> split_ifs <;> omega

theorem rows_many {w m : ℕ} (hw : 4 ≤ w) (hm : 0 < m) (h : 3 * m + 1 > w) : rows w m = rows0 w m ∧ 2 ≤ rows0 w m := by
  have h2 : 2 ≤ rows0 w m := by
    unfold rows0
    rw [Nat.le_div_iff_mul_le (by omega)]; omega
  refine ⟨?_, h2⟩
  unfold rows
  simp only
  rw [if_neg]; · rfl
  · unfold rows0 at h2; omega

theorem rows_one {w m : ℕ} (hw : 4 ≤ w) (hm : 0 < m) (h : ¬ 3 * m + 1 > w) :
    rows w m = 2 ∧ rows0 w m = 1 ∧ lastJ w m = 3 * m := by
  have h2 : rows0 w m = 1 := by
    unfold rows0
    rw [Nat.div_eq_iff (by omega)]; omega
  have := (rows0_last hw hm).1
  rw [h2] at this
  refine ⟨?_, h2, by omega⟩
  unfold rows
  simp only
  rw [if_pos]
  unfold rows0 at h2; omega

theorem two_le_rows (w m : ℕ) : 2 ≤ rows w m := by
  unfold rows; simp only; split_ifs <;> omega

theorem rows0_le {w m : ℕ} (hw : 4 ≤ w) (hm : 0 < m) : rows0 w m ≤ rows w m := by
  by_cases h : 3 * m + 1 > w
  · rw [(rows_many hw hm h).1]
  · rw [(rows_one hw hm h).1, (rows_one hw hm h).2.1]; omega

/-- Columns counted from one: the loop over rows visits exactly the positions up to `3 m`. -/
theorem pos_iff {w m : ℕ} (hw : 4 ≤ w) (hm : 0 < m) (r j : ℕ) :
    (r < rows0 w m ∧ 1 ≤ j ∧ j ≤ (if r = rows0 w m - 1 then lastJ w m else w - 1)) ↔
      (1 ≤ j ∧ j < w ∧ r * (w - 1) + j ≤ 3 * m) := by
  obtain ⟨h1, h2, h3, h4⟩ := rows0_last hw hm
  have := grid_pos h1 h2 h4 r (j - 1)
  constructor
  · rintro ⟨a, b, d⟩
    have := this.1 ⟨a, by omega⟩
    exact ⟨b, by omega, by omega⟩
  · rintro ⟨a, b, d⟩
    have := this.2 ⟨by omega, by omega⟩
    exact ⟨this.1, a, by omega⟩

theorem mod_three (r w j : ℕ) (hw : 4 ≤ w) : (r * (w - 1) + j) % 3 = ((r % 3) * ((w - 1) % 3) + j) % 3 := by
  rw [Nat.add_mod, Nat.mul_mod, ← Nat.add_mod]

theorem startJ_spec (w r j : ℕ) (hw : 4 ≤ w) (hj : 1 ≤ j) :
    (startJ w r ≤ j ∧ (j - startJ w r) % 3 = 0) ↔ (r * (w - 1) + j) % 3 = 0 := by
  rw [mod_three r w j hw, show (w - 1) % 3 = (w % 3 + 2) % 3 by omega]
  unfold startJ
  have hw := Nat.mod_lt w (show 0 < 3 by omega)
  have hr := Nat.mod_lt r (show 0 < 3 by omega)
  generalize w % 3 = a at *
  generalize r % 3 = b at *
  interval_cases a <;> interval_cases b <;> simp <;> omega

/-- The last row of a trace of more than one row, where other selectors are used. -/
def IsLast (w m r : ℕ) : Prop := 3 * m + 1 > w ∧ r = rows0 w m - 1

instance (w m r : ℕ) : Decidable (IsLast w m r) := by unfold IsLast; infer_instance

/-- Which selectors are enabled where. -/
theorem mem_enabled {w m : ℕ} (hw : 4 ≤ w) (hm : 0 < m) (k r' : ℕ) :
    (k, r') ∈ enabled w m ↔ (k = 0 ∧ r' = 0) ∨
      ∃ r j, 1 ≤ j ∧ j < w ∧ r * (w - 1) + j ≤ 3 * m ∧ (r * (w - 1) + j) % 3 = 0 ∧ ¬ (r = 0 ∧ j = 3) ∧
        k = (if IsLast w m r then posLast w r j else pos w r j) ∧ r' = (if IsLast w m r then rowLast w r else r) := by
  unfold enabled
  rw [List.mem_cons]
  refine or_congr (by simp) ?_
  have P := pos_iff (w := w) (m := m) hw hm
  obtain ⟨q1, q2, q3, q4⟩ := rows0_last hw hm
  have sj : ∀ r j, startJ w r ≤ j → 1 ≤ j := by
    intro r j h
    have : 1 ≤ startJ w r := by unfold startJ; split_ifs <;> omega
    omega
  by_cases h : 3 * m + 1 > w
  · obtain ⟨e1, e2⟩ := rows_many hw hm h
    rw [if_pos h]
    simp only [List.mem_append, List.mem_flatMap, List.mem_map, List.mem_range,
      List.mem_filter, mem_forStep (show 0 < 3 by omega), Prod.mk.injEq, decide_eq_true_eq, e1, IsLast, h, true_and]
    constructor
    · rintro (⟨r, hr, j, ⟨⟨hj, hs, hp⟩, hn⟩, rfl, rfl⟩ | ⟨j, ⟨hj, hs, hp⟩, rfl, rfl⟩)
      · have := (P r j).1 ⟨by omega, sj _ _ hs, by rw [if_neg (by omega)]; omega⟩
        exact ⟨r, j, this.1, this.2.1, this.2.2, (startJ_spec w r j hw this.1).1 ⟨hs, hp⟩, hn, by rw [if_neg (by omega)],
          by rw [if_neg (by omega)]⟩
      · have := (P (rows0 w m - 1) j).1 ⟨by omega, sj _ _ hs, by rw [if_pos rfl]; omega⟩
        exact ⟨rows0 w m - 1, j, this.1, this.2.1, this.2.2, (startJ_spec w _ j hw this.1).1 ⟨hs, hp⟩, by omega, by rw [if_pos rfl],
          by rw [if_pos rfl]⟩
    · rintro ⟨r, j, h1, h2, h3, h4, hn, rfl, rfl⟩
      have hP := (P r j).2 ⟨h1, h2, h3⟩
      have hS := (startJ_spec w r j hw h1).2 h4
      by_cases hr : r = rows0 w m - 1
      · right
        rw [if_pos hr, if_pos hr]
        rw [if_pos hr] at hP
        subst hr
        exact ⟨j, ⟨by omega, hS.1, hS.2⟩, rfl, rfl⟩
      · left
        rw [if_neg hr, if_neg hr]
        exact ⟨r, by omega, j, ⟨⟨h2, hS.1, hS.2⟩, hn⟩, rfl, rfl⟩
  · obtain ⟨e1, e2, e3⟩ := rows_one hw hm h
    rw [if_neg h]
    have nl : ∀ r, ¬ IsLast w m r := fun r hh => h hh.1
    simp only [List.mem_map, mem_forStep (show 0 < 3 by omega), Prod.mk.injEq, nl, if_false, e3]
    constructor
    · rintro ⟨j, ⟨hj, hs, hp⟩, rfl, rfl⟩
      refine ⟨0, j, by omega, by omega, by omega, by omega, by omega, ?_, rfl⟩
      unfold pos; split_ifs <;> simp_all
    · rintro ⟨r, j, h1, h2, h3, h4, hn, rfl, hr'⟩
      have hr : r = 0 := by
        rcases Nat.eq_zero_or_pos r with h0 | h0
        · exact h0
        · have := Nat.mul_le_mul_right (w - 1) h0
          rw [Nat.succ_eq_add_one, zero_add, one_mul] at this; omega
      subst hr
      refine ⟨j, ⟨by omega, by omega, by omega⟩, ?_, hr'.symm⟩
      unfold pos; split_ifs <;> simp_all

/-! ### The gates -/

/-- The gate for column `j`. -/
def gen (c : Cols) (w j : ℕ) (b g ro : ℤ) : Expr F := if j ≤ 3 then head c w j b g ro else same c j b g ro

theorem grp_length (c : Cols) (w start : ℕ) (b g ro : ℤ) (h1 : start ≤ 3) (hw : 4 ≤ w) :
    (grp c w start b g ro : List (Expr F)).length = (w - start + 2) / 3 := by
  simp only [grp, List.length_cons, List.length_map, forStep_length]
  omega

theorem grp_get (c : Cols) (w start i : ℕ) (b g ro : ℤ) (d : Expr F) (h0 : 1 ≤ start) (h1 : start ≤ 3) (h : start + 3 * i < w) :
    (grp c w start b g ro).getD i d = gen c w (start + 3 * i) b g ro := by
  unfold gen
  match i with
  | 0 => rw [if_pos (by omega)]; simp [grp]
  | i + 1 =>
    rw [if_neg (by omega), grp, List.getD_cons_succ, getD_map_forStep _ _ _ _ _ _ (by omega) (by omega)]
    congr 1; omega

/-- Rotations of the two challenges and of the row in the gates used on row `r`. -/
def rot (w r : ℕ) (last : Bool) : ℤ × ℤ × ℤ :=
  if w % 3 = 1 then (if r % 2 = 1 then (-1, 0, 0) else if last then (0, -1, 0) else (0, 1, 0))
  else (if r % 3 = 1 then (-1, 0, 0) else if r % 3 = 2 then (0, -1, 0) else if last then (0, -1, 1) else (0, 1, 0))

theorem app_left {α : Type*} {A B : List α} {d x : α} {i : ℕ} (h : i < A.length) (e : A.getD i d = x) : (A ++ B).getD i d = x := by
  rw [List.getD_append _ _ _ _ h, e]

theorem app_right {α : Type*} {A B : List α} {d x : α} {i : ℕ} (k : ℕ) (h : i = A.length + k) (e : B.getD k d = x) :
    (A ++ B).getD i d = x := by
  rw [List.getD_append_right _ _ _ _ (by omega), show i - A.length = k by omega, e]

theorem grp_at (c : Cols) (w start i j : ℕ) (b g ro : ℤ) (d : Expr F) (h0 : 1 ≤ start) (h1 : start ≤ 3) (h : j < w)
    (e : j = start + 3 * i) : (grp c w start b g ro).getD i d = gen c w j b g ro := by
  subst e; exact grp_get c w start i b g ro d h0 h1 h

theorem sel_gate {w : ℕ} (hw : 4 ≤ w) (c : Cols) (r j : ℕ) (last : Bool) (h1 : 1 ≤ j) (hj : j < w)
    (h3 : (r * (w - 1) + j) % 3 = 0) (d : Expr F) :
    (gates c w : List (Expr F)).getD (if last then posLast w r j else pos w r j) d =
      gen c w j (rot w r last).1 (rot w r last).2.1 (rot w r last).2.2 := by
  rw [mod_three r w j hw] at h3
  have hr := Nat.mod_lt r (show 0 < 3 by omega)
  have L := fun (start : ℕ) (b g ro : ℤ) (a : start ≤ 3) => grp_length (F := F) c w start b g ro a hw
  by_cases w1 : w % 3 = 1
  · obtain ⟨k, rfl⟩ : ∃ k, w = 3 * k + 1 := ⟨w / 3, by omega⟩
    rw [show (3 * k + 1 - 1) % 3 = 0 by omega] at h3
    obtain ⟨i, rfl⟩ : ∃ i, j = 3 + 3 * i := ⟨j / 3 - 1, by omega⟩
    have kd : (3 * k + 1) / 3 = k := by omega
    have jd : (3 + 3 * i) / 3 = i + 1 := by omega
    simp only [gates, posLast, pos, rot, w1, if_true, kd, jd]
    have L1 := L 3 0 1 0 (by omega)
    have L2 := L 3 (-1) 0 0 (by omega)
    have q : (3 * k + 1 - 3 + 2) / 3 = k := by omega
    rw [q] at L1 L2
    rcases Nat.mod_two_eq_zero_or_one r with r2 | r2 <;> cases last <;>
      simp only [r2, if_true, if_false, Bool.false_eq_true, zero_ne_one, one_ne_zero, zero_mul, one_mul, zero_add,
        Nat.reduceSub]
    · rw [List.getD_cons_succ]
      exact app_left (by omega) (grp_at c _ 3 i _ _ _ _ d (by omega) (by omega) hj rfl)
    · rw [show 2 * k + (i + 1) = (2 * k + i) + 1 by omega, List.getD_cons_succ]
      exact app_right (k + i) (by omega) (app_right i (by omega) (grp_at c _ 3 i _ _ _ _ d (by omega) (by omega) hj rfl))
    · rw [show k + (i + 1) = (k + i) + 1 by omega, List.getD_cons_succ]
      exact app_right i (by omega) (app_left (by omega) (grp_at c _ 3 i _ _ _ _ d (by omega) (by omega) hj rfl))
    · rw [show k + (i + 1) = (k + i) + 1 by omega, List.getD_cons_succ]
      exact app_right i (by omega) (app_left (by omega) (grp_at c _ 3 i _ _ _ _ d (by omega) (by omega) hj rfl))
  by_cases w2 : w % 3 = 2
  · obtain ⟨k, rfl⟩ : ∃ k, w = 3 * k + 2 := ⟨w / 3, by omega⟩
    rw [show (3 * k + 2 - 1) % 3 = 1 by omega] at h3
    have kd : (3 * k + 2) / 3 = k := by omega
    simp only [gates, posLast, pos, rot, w2, if_true, if_false, kd, OfNat.ofNat_ne_one]
    have L1 := L 3 0 1 0 (by omega)
    have L2 := L 2 (-1) 0 0 (by omega)
    have L3 := L 1 0 (-1) 0 (by omega)
    rw [show (3 * k + 2 - 3 + 2) / 3 = k by omega] at L1
    rw [show (3 * k + 2 - 2 + 2) / 3 = k by omega] at L2
    rw [show (3 * k + 2 - 1 + 2) / 3 = k + 1 by omega] at L3
    have r3 : r % 3 = 0 ∨ r % 3 = 1 ∨ r % 3 = 2 := by omega
    rcases r3 with r3 | r3 | r3
    · rw [r3] at h3
      obtain ⟨i, rfl⟩ : ∃ i, j = 3 + 3 * i := ⟨j / 3 - 1, by omega⟩
      have jd : (3 + 3 * i) / 3 = i + 1 := by omega
      cases last <;> simp only [r3, if_true, if_false, Bool.false_eq_true, zero_ne_one, one_ne_zero, zero_mul, one_mul, zero_add,
        add_zero, OfNat.zero_ne_ofNat, jd]
      · rw [List.getD_cons_succ]
        exact app_left (by omega) (grp_at c _ 3 i _ _ _ _ d (by omega) (by omega) hj rfl)
      · rw [show i + 1 + (3 * k + 2 - 1) = (3 * k + 1 + i) + 1 by omega, List.getD_cons_succ]
        exact app_right (2 * k + 1 + i) (by omega) (app_right (k + 1 + i) (by omega) (app_right i (by omega)
          (grp_at c _ 3 i _ _ _ _ d (by omega) (by omega) hj rfl)))
    · rw [r3] at h3
      obtain ⟨i, rfl⟩ : ∃ i, j = 2 + 3 * i := ⟨j / 3, by omega⟩
      have jd : (2 + 3 * i + 1) / 3 = i + 1 := by omega
      cases last <;> simp only [r3, if_true, if_false, Bool.false_eq_true, zero_ne_one, one_ne_zero, zero_mul, one_mul, zero_add,
        add_zero, OfNat.one_ne_ofNat, jd]
      all_goals
        rw [show k + (i + 1) = (k + i) + 1 by omega, List.getD_cons_succ]
        exact app_right i (by omega) (app_left (by omega) (grp_at c _ 2 i _ _ _ _ d (by omega) (by omega) hj rfl))
    · rw [r3] at h3
      obtain ⟨i, rfl⟩ : ∃ i, j = 1 + 3 * i := ⟨j / 3, by omega⟩
      have jd : (1 + 3 * i + 2) / 3 = i + 1 := by omega
      cases last <;> simp only [r3, if_true, if_false, Bool.false_eq_true, zero_ne_one, one_ne_zero, zero_mul, one_mul, zero_add,
        add_zero, OfNat.ofNat_ne_one, OfNat.ofNat_ne_zero, jd]
      all_goals
        rw [show 2 * k + (i + 1) = (2 * k + i) + 1 by omega, List.getD_cons_succ]
        exact app_right (k + i) (by omega) (app_right i (by omega) (app_left (by omega)
          (grp_at c _ 1 i _ _ _ _ d (by omega) (by omega) hj rfl)))
  · have w0 : w % 3 = 0 := by omega
    obtain ⟨k, rfl⟩ : ∃ k, w = 3 * k := ⟨w / 3, by omega⟩
    rw [show (3 * k - 1) % 3 = 2 by omega] at h3
    have kd : (3 * k) / 3 = k := by omega
    simp only [gates, posLast, pos, rot, w0, if_true, if_false, kd, zero_ne_one, OfNat.zero_ne_ofNat]
    have L1 := L 3 0 1 0 (by omega)
    have L2 := L 1 (-1) 0 0 (by omega)
    have L3 := L 2 0 (-1) 0 (by omega)
    rw [show (3 * k - 3 + 2) / 3 = k - 1 by omega] at L1
    rw [show (3 * k - 1 + 2) / 3 = k by omega] at L2
    rw [show (3 * k - 2 + 2) / 3 = k by omega] at L3
    have r3 : r % 3 = 0 ∨ r % 3 = 1 ∨ r % 3 = 2 := by omega
    rcases r3 with r3 | r3 | r3
    · rw [r3] at h3
      obtain ⟨i, rfl⟩ : ∃ i, j = 3 + 3 * i := ⟨j / 3 - 1, by omega⟩
      have jd : (3 + 3 * i) / 3 = i + 1 := by omega
      cases last <;> simp only [r3, if_true, if_false, Bool.false_eq_true, zero_ne_one, one_ne_zero, zero_mul, one_mul, zero_add,
        add_zero, OfNat.zero_ne_ofNat, jd, Nat.sub_zero]
      · rw [List.getD_cons_succ]
        exact app_left (by omega) (grp_at c _ 3 i _ _ _ _ d (by omega) (by omega) hj rfl)
      · rw [show i + 1 + (3 * k - 1) = (3 * k - 1 + i) + 1 by omega, List.getD_cons_succ]
        exact app_right (2 * k + i) (by omega) (app_right (k + i) (by omega) (app_right i (by omega)
          (grp_at c _ 3 i _ _ _ _ d (by omega) (by omega) hj rfl)))
    · rw [r3] at h3
      obtain ⟨i, rfl⟩ : ∃ i, j = 1 + 3 * i := ⟨j / 3, by omega⟩
      have jd : (1 + 3 * i + 1) / 3 = i := by omega
      cases last <;> simp only [r3, if_true, if_false, Bool.false_eq_true, zero_ne_one, one_ne_zero, zero_mul, one_mul, zero_add,
        add_zero, OfNat.one_ne_ofNat, jd, Nat.sub_zero]
      all_goals
        rw [show k + i = (k - 1 + i) + 1 by omega, List.getD_cons_succ]
        exact app_right i (by omega) (app_left (by omega) (grp_at c _ 1 i _ _ _ _ d (by omega) (by omega) hj rfl))
    · rw [r3] at h3
      obtain ⟨i, rfl⟩ : ∃ i, j = 2 + 3 * i := ⟨j / 3, by omega⟩
      have jd : (2 + 3 * i + 2) / 3 = i + 1 := by omega
      cases last <;> simp only [r3, if_true, if_false, Bool.false_eq_true, zero_ne_one, one_ne_zero, zero_mul, one_mul, zero_add,
        add_zero, OfNat.ofNat_ne_one, OfNat.ofNat_ne_zero, jd]
      all_goals
        rw [show 2 * k + (i + 1) - 1 = (2 * k - 1 + i) + 1 by omega, List.getD_cons_succ]
        exact app_right (k + i) (by omega) (app_right i (by omega) (app_left (by omega)
          (grp_at c _ 2 i _ _ _ _ d (by omega) (by omega) hj rfl)))

/-- The number of gates is the one declared in the manifest (lines 56-62). -/
theorem gates_length {w : ℕ} (hw : 4 ≤ w) (c : Cols) :
    (gates c w : List (Expr F)).length = if w % 3 ≠ 1 then w + (w - 1) / 3 else w := by
  unfold gates
  split_ifs <;> simp only [List.length_cons, List.length_append, grp_length (F := F) c w _ _ _ _ (show 1 ≤ 3 by omega) hw,
    grp_length (F := F) c w _ _ _ _ (show 2 ≤ 3 by omega) hw, grp_length (F := F) c w _ _ _ _ (show 3 ≤ 3 by omega) hw] <;>
    omega

/-! ### What the circuit says -/

/-- The recurrence at item `p`. -/
def Step (b g : F) (T : ℕ → F) (p : ℕ) : Prop := T p = T (p - 3) * ((1 + b) * g + T (p - 2) + b * T (p - 1))

/-- The gate for the item in column `j` of row `r`, evaluated `ro` rows above it. -/
theorem gen_iff {w : ℕ} (hw : 4 ≤ w) (c : Cols) (srow : ℤ) (t : Table F) (r j : ℕ) (h1 : 1 ≤ j) (hj : j < w)
    (hp : 3 < r * (w - 1) + j) (h3 : (r * (w - 1) + j) % 3 = 0) (b g ro : ℤ) (R : ℤ) (hR : R + ro = srow + r) (vb vg : F)
    (hb : t .witness (c.w 0) (R + b) = vb) (hg : t .witness (c.w 0) (R + g) = vg) :
    (gen c w j b g ro : Expr F).eval t R = 0 ↔ Step vb vg (tcell c 1 (w - 1) srow t) (r * (w - 1) + j - 1) := by
  have hw0 : 0 < w - 1 := by omega
  have em : (r * (w - 1) + j - 1) % (w - 1) = j - 1 := by
    rw [show r * (w - 1) + j - 1 = (w - 1) * r + (j - 1) by rw [Nat.mul_comm]; omega, Nat.mul_add_mod,
      Nat.mod_eq_of_lt (by omega)]
  have ed : (r * (w - 1) + j - 1) / (w - 1) = r := by
    rw [show r * (w - 1) + j - 1 = (w - 1) * r + (j - 1) by rw [Nat.mul_comm]; omega, Nat.mul_add_div hw0,
      Nat.div_eq_of_lt (a := j - 1) (by omega), add_zero]
  have wr : j ≤ 3 → w - 1 ≤ r * (w - 1) + j - 1 := by
    intro h
    have hr : 0 < r := by
      rcases Nat.eq_zero_or_pos r with h0 | h0
      · subst h0; omega
      · exact h0
    have := Nat.mul_le_mul_right (w - 1) hr
    rw [Nat.succ_eq_add_one, zero_add, one_mul] at this; omega
  generalize hP : r * (w - 1) + j - 1 = p at *
  have bk : ∀ (k : ℕ) (i : ℤ) (q : ℤ), k ≤ j - 1 → i = (j : ℤ) - k → q = ro →
      t .witness (c.w i) (R + q) = tcell c 1 (w - 1) srow t (p - k) := by
    intro k i q hk hi hq
    refine tcell_back c 1 (w - 1) hw0 srow t (by omega) ?_ (by rw [ed, hq]; exact hR)
    rw [em, hi]; omega
  have wp : ∀ (k : ℕ) (i : ℤ) (q : ℤ), j - 1 < k → k ≤ 3 → j ≤ 3 → i = (w : ℤ) - 1 + j - k → q = ro - 1 →
      t .witness (c.w i) (R + q) = tcell c 1 (w - 1) srow t (p - k) := by
    intro k i q hk hk' hj3 hi hq
    refine tcell_wrap c 1 (w - 1) hw0 srow t (by omega) (by omega) (wr hj3) ?_ (by rw [ed, hq]; omega)
    rw [em, hi]; omega
  unfold Step gen
  by_cases j3 : j ≤ 3
  · rw [if_pos j3]
    unfold head
    have : j = 1 ∨ j = 2 ∨ j = 3 := by omega
    rcases this with rfl | rfl | rfl
    · simp only [if_true, shape, Expr.eval_sub, Expr.eval_add, Expr.eval_mul, Expr.eval_const, Cols.eval_wv, hb, hg]
      rw [bk 0 1 ro (by omega) (by omega) rfl, wp 3 _ _ (by omega) (by omega) (by omega) (by omega) rfl,
        wp 2 _ _ (by omega) (by omega) (by omega) (by omega) rfl, wp 1 _ _ (by omega) (by omega) (by omega) (by omega) rfl,
        Nat.sub_zero, sub_eq_zero]
    · simp only [OfNat.ofNat_ne_one, if_false, if_true, shape, Expr.eval_sub, Expr.eval_add, Expr.eval_mul, Expr.eval_const,
        Cols.eval_wv, hb, hg]
      rw [bk 0 2 ro (by omega) (by omega) rfl, wp 3 _ _ (by omega) (by omega) (by omega) (by omega) rfl,
        wp 2 _ _ (by omega) (by omega) (by omega) (by omega) rfl, bk 1 1 ro (by omega) (by omega) rfl,
        Nat.sub_zero, sub_eq_zero]
    · simp only [OfNat.ofNat_ne_one, if_false, Nat.reduceEqDiff, shape, Expr.eval_sub, Expr.eval_add, Expr.eval_mul, Expr.eval_const,
        Cols.eval_wv, hb, hg]
      rw [bk 0 3 ro (by omega) (by omega) rfl, wp 3 _ _ (by omega) (by omega) (by omega) (by omega) rfl,
        bk 2 1 ro (by omega) (by omega) rfl, bk 1 2 ro (by omega) (by omega) rfl,
        Nat.sub_zero, sub_eq_zero]
  · rw [if_neg j3]
    simp only [same, shape, Expr.eval_sub, Expr.eval_add, Expr.eval_mul, Expr.eval_const, Cols.eval_wv, hb, hg]
    rw [bk 0 _ ro (by omega) (by simp) rfl, bk 3 _ ro (by omega) (by simp) rfl, bk 2 _ ro (by omega) (by simp) rfl,
      bk 1 _ ro (by omega) (by simp) rfl, Nat.sub_zero, sub_eq_zero]

/-- The copies pin the inputs. -/
theorem copies_iff {w m : ℕ} (hw : 4 ≤ w) (hm : 0 < m) (c : Cols) (x : In) (srow : ℤ) (t : Table F) :
    Sat t (copies c w m x srow : List (Op F)) ↔
      (∀ r < rows w m, t .witness (c.w 0) (srow + (r : ℤ)) = if isBeta w r then x.beta.value t else x.gamma.value t) ∧
      ∀ i < m, tcell c 1 (w - 1) srow t (3 * i) = (x.s i).value t ∧ tcell c 1 (w - 1) srow t (3 * i + 1) = (x.t i).value t := by
  have hw0 : 0 < w - 1 := by omega
  have cl : ∀ r j : ℕ, 1 ≤ j → j < w → t .witness (c.w (j : ℤ)) (srow + (r : ℤ)) =
      tcell c 1 (w - 1) srow t (r * (w - 1) + j - 1) := by
    intro r j h1 hj
    rw [tcell, show r * (w - 1) + j - 1 = (w - 1) * r + (j - 1) by rw [Nat.mul_comm]; omega, Nat.mul_add_mod,
      Nat.mod_eq_of_lt (by omega), Nat.mul_add_div hw0, Nat.div_eq_of_lt (a := j - 1) (by omega)]
    congr 2
    push_cast [Nat.cast_sub h1]; ring
  have key : Sat t (copies c w m x srow : List (Op F)) ↔
      (∀ r < rows w m, t .witness (c.w 0) (srow + (r : ℤ)) = if isBeta w r then x.beta.value t else x.gamma.value t) ∧
      ∀ p, 1 ≤ p → p < 3 * m → (p % 3 = 1 → tcell c 1 (w - 1) srow t (p - 1) = (x.s (p / 3)).value t) ∧
        (p % 3 = 2 → tcell c 1 (w - 1) srow t (p - 1) = (x.t (p / 3)).value t) := by
    simp only [Sat, copies, List.mem_flatMap, List.mem_range, List.mem_cons, mem_forStep (show 0 < 1 by omega)]
    constructor
    · intro h
      constructor
      · intro r hr
        have := h _ ⟨r, hr, Or.inl rfl⟩
        simp only [holds_copy, Cols.value_wa] at this
        rw [this]; split_ifs <;> rfl
      · intro p hp1 hp
        have e : (p - 1) / (w - 1) * (w - 1) + ((p - 1) % (w - 1) + 1) = p := by
          have := Nat.div_add_mod (p - 1) (w - 1)
          rw [Nat.mul_comm] at this; omega
        have hlt := Nat.mod_lt (p - 1) hw0
        have hP := (pos_iff hw hm ((p - 1) / (w - 1)) ((p - 1) % (w - 1) + 1)).2 ⟨by omega, by omega, by omega⟩
        have hr := rows0_le (w := w) (m := m) hw hm
        have hcol : (p - 1) % (w - 1) + 1 < (if (p - 1) / (w - 1) = rows w m - 1 then
            (if 3 * m % (w - 1) = 0 then w else 3 * m % (w - 1)) else w) := by
          split_ifs with a1 a2
          · omega
          · by_cases hmny : 3 * m + 1 > w
            · have e1 := (rows_many hw hm hmny).1
              rw [e1] at a1
              obtain ⟨q1, q2, q3, q4⟩ := rows0_last hw hm
              have : lastJ w m = 3 * m % (w - 1) := by unfold lastJ; rw [if_neg a2]
              rw [a1] at e
              omega
            · obtain ⟨e1, e2, e3⟩ := rows_one hw hm hmny
              rw [e1] at a1
              rw [e2] at hP
              omega
          · omega
        have hh := fun o ho => h o ⟨(p - 1) / (w - 1), by omega, Or.inr ⟨(p - 1) % (w - 1) + 1, ⟨hcol, by omega, by omega⟩, ho⟩⟩
        simp only [e] at hh
        have cle : t .witness (c.w (((p - 1) % (w - 1) + 1 : ℕ) : ℤ)) (srow + (((p - 1) / (w - 1) : ℕ) : ℤ)) =
            tcell c 1 (w - 1) srow t (p - 1) := by
          rw [cl _ _ (by omega) (by omega), e]
        refine ⟨fun h4 => ?_, fun h4 => ?_⟩
        · rw [← cle]; exact hh _ (by rw [if_neg (by omega), if_pos h4]; exact List.mem_singleton_self _)
        · rw [← cle]; exact hh _ (by rw [if_neg (by omega), if_neg (by omega), if_pos h4]; exact List.mem_singleton_self _)
    · rintro ⟨hA, hB⟩ o ⟨r, hr, ho⟩
      rcases ho with rfl | ⟨j, ⟨hj, h1, -⟩, ho⟩
      · simp only [holds_copy, Cols.value_wa]
        rw [hA r hr]; split_ifs <;> rfl
      · have hjw : j < w := by
          have := Nat.mod_lt (3 * m) hw0
          split_ifs at hj <;> omega
        split_ifs at ho with b1 b2 b3
        · simp at ho
        · rw [List.mem_singleton.1 ho]
          exact (cl r j h1 hjw).trans ((hB _ (by omega) (by omega)).1 b2)
        · rw [List.mem_singleton.1 ho]
          exact (cl r j h1 hjw).trans ((hB _ (by omega) (by omega)).2 b3)
        · simp at ho
  rw [key]
  refine and_congr Iff.rfl ?_
  constructor
  · intro h i hi
    refine ⟨?_, ?_⟩
    · have := (h (3 * i + 1) (by omega) (by omega)).1 (by omega)
      rwa [show (3 * i + 1) / 3 = i by omega, Nat.add_sub_cancel] at this
    · have := (h (3 * i + 2) (by omega) (by omega)).2 (by omega)
      rwa [show (3 * i + 2) / 3 = i by omega, show 3 * i + 2 - 1 = 3 * i + 1 by omega] at this
  · intro h p hp1 hp
    obtain ⟨a1, a2⟩ := h (p / 3) (by omega)
    refine ⟨fun e => ?_, fun e => ?_⟩
    · rwa [show 3 * (p / 3) = p - 1 by omega] at a1
    · rwa [show 3 * (p / 3) + 1 = p - 1 by omega] at a2

/-- The challenges sit where the gate of row `r` looks for them. -/
theorem rot_ok {w m : ℕ} (hw : 4 ≤ w) (hm : 0 < m) (r : ℕ) (hr : r < rows0 w m) :
    ∃ rb < rows w m, ∃ rg < rows w m, isBeta w rb = true ∧ isBeta w rg = false ∧
      ((if IsLast w m r then rowLast w r else r : ℕ) : ℤ) + (rot w r (IsLast w m r)).1 = rb ∧
      ((if IsLast w m r then rowLast w r else r : ℕ) : ℤ) + (rot w r (IsLast w m r)).2.1 = rg ∧
      ((if IsLast w m r then rowLast w r else r : ℕ) : ℤ) + (rot w r (IsLast w m r)).2.2 = r := by
  have hle := rows0_le (w := w) (m := m) hw hm
  have h2 := two_le_rows w m
  by_cases hl : IsLast w m r
  · have hrows := rows_many hw hm hl.1
    have hr0 : 0 < r := by have := hl.2; omega
    simp only [hl, if_true, decide_true]
    unfold rot rowLast isBeta
    by_cases w1 : w % 3 = 1
    · simp only [w1, if_true]
      rcases Nat.mod_two_eq_zero_or_one r with h | h
      · refine ⟨r, by omega, r - 1, by omega, ?_, ?_, ?_, ?_, ?_⟩ <;> simp [h] <;> omega
      · refine ⟨r - 1, by omega, r, by omega, ?_, ?_, ?_, ?_, ?_⟩ <;> simp [h] <;> omega
    · simp only [w1, if_false]
      have r3 : r % 3 = 0 ∨ r % 3 = 1 ∨ r % 3 = 2 := by omega
      rcases r3 with h | h | h
      · refine ⟨r - 1, by omega, r - 2, by omega, ?_, ?_, ?_, ?_, ?_⟩ <;> simp [h] <;> omega
      · refine ⟨r - 1, by omega, r, by omega, ?_, ?_, ?_, ?_, ?_⟩ <;> simp [h] <;> omega
      · refine ⟨r, by omega, r - 1, by omega, ?_, ?_, ?_, ?_, ?_⟩ <;> simp [h] <;> omega
  · have hnext : r + 1 < rows w m := by
      by_cases hmny : 3 * m + 1 > w
      · have := rows_many hw hm hmny
        have : r ≠ rows0 w m - 1 := fun h => hl ⟨hmny, h⟩
        omega
      · have := rows_one hw hm hmny
        omega
    simp only [hl, if_false, decide_false, Bool.false_eq_true]
    unfold rot isBeta
    by_cases w1 : w % 3 = 1
    · simp only [w1, if_true, Bool.false_eq_true, if_false]
      rcases Nat.mod_two_eq_zero_or_one r with h | h
      · refine ⟨r, by omega, r + 1, by omega, ?_, ?_, ?_, ?_, ?_⟩ <;> simp [h] <;> omega
      · refine ⟨r - 1, by omega, r, by omega, ?_, ?_, ?_, ?_, ?_⟩ <;> simp [h] <;> omega
    · simp only [w1, if_false, Bool.false_eq_true]
      have r3 : r % 3 = 0 ∨ r % 3 = 1 ∨ r % 3 = 2 := by omega
      rcases r3 with h | h | h
      · refine ⟨r, by omega, r + 1, by omega, ?_, ?_, ?_, ?_, ?_⟩ <;> simp [h] <;> omega
      · refine ⟨r - 1, by omega, r, by omega, ?_, ?_, ?_, ?_, ?_⟩ <;> simp [h] <;> omega
      · refine ⟨r, by omega, r - 1, by omega, ?_, ?_, ?_, ?_, ?_⟩ <;> simp [h] <;> omega

theorem first_iff {w : ℕ} (hw : 4 ≤ w) (c : Cols) (srow : ℤ) (t : Table F) (b g : F)
    (hb : t .witness (c.w 0) (srow + (0 : ℕ)) = b) (hg : t .witness (c.w 0) (srow + (1 : ℕ)) = g) :
    (first c : Expr F).eval t (srow + (0 : ℕ)) = 0 ↔
      tcell c 1 (w - 1) srow t 2 = (1 + b) * g + tcell c 1 (w - 1) srow t 0 + b * tcell c 1 (w - 1) srow t 1 := by
  have e : ∀ k < 3, tcell c 1 (w - 1) srow t k = t .witness (c.w ((k : ℤ) + 1)) srow := by
    intro k hk
    rw [tcell, Nat.mod_eq_of_lt (by omega), Nat.div_eq_of_lt (by omega)]; simp
  rw [e 0 (by omega), e 1 (by omega), e 2 (by omega)]
  simp only [Nat.cast_zero, add_zero, Nat.cast_one] at hb hg
  simp only [first, Expr.eval_sub, Expr.eval_add, Expr.eval_mul, Expr.eval_const, Cols.eval_wv, sub_eq_zero, Nat.cast_zero,
    add_zero, hb, hg]
  rfl

/-- Everything the circuit says. -/
theorem sat_iff {w m : ℕ} (hw : 4 ≤ w) (hm : 0 < m) (c : Cols) (x : In) (srow : ℤ) (t : Table F) :
    Sat t (circuit c w m x srow) ↔
      ((tcell c 1 (w - 1) srow t 2 = (1 + x.beta.value t) * x.gamma.value t + tcell c 1 (w - 1) srow t 0 +
          x.beta.value t * tcell c 1 (w - 1) srow t 1) ∧
        (∀ i < m, 0 < i → Step (x.beta.value t) (x.gamma.value t) (tcell c 1 (w - 1) srow t) (3 * i + 2))) ∧
      (∀ r < rows w m, t .witness (c.w 0) (srow + (r : ℤ)) = if isBeta w r then x.beta.value t else x.gamma.value t) ∧
      ∀ i < m, tcell c 1 (w - 1) srow t (3 * i) = (x.s i).value t ∧ tcell c 1 (w - 1) srow t (3 * i + 1) = (x.t i).value t := by
  have hw0 : 0 < w - 1 := by omega
  unfold circuit
  rw [sat_append, copies_iff hw hm]
  refine and_congr_left ?_
  rintro ⟨hch, -⟩
  have key : Sat t ((enabled w m).map fun e => (.gate [(gates c w).getD e.1 (.const 0)] [srow + (e.2 : ℤ)] : Op F)) ↔
      ∀ k r, (k, r) ∈ enabled w m → ((gates c w).getD k (.const 0) : Expr F).eval t (srow + (r : ℤ)) = 0 := by
    simp only [Sat, List.mem_map, forall_exists_index, and_imp, Prod.forall]
    constructor
    · intro h k r hk
      have := h _ k r hk rfl
      simpa using this
    · rintro h o k r hk rfl
      simpa using h k r hk
  rw [key]
  have F0 := first_iff hw c srow t (x.beta.value t) (x.gamma.value t)
    (by rw [hch 0 (by have := two_le_rows w m; omega)]; simp [isBeta])
    (by rw [hch 1 (by have := two_le_rows w m; omega)]; simp [isBeta])
  have g0 : ((gates c w : List (Expr F)).getD 0 (.const 0)) = first c := rfl
  -- one enabled selector
  have one : ∀ r j, 1 ≤ j → j < w → r * (w - 1) + j ≤ 3 * m → (r * (w - 1) + j) % 3 = 0 → ¬ (r = 0 ∧ j = 3) →
      (((gates c w).getD (if IsLast w m r then posLast w r j else pos w r j) (.const 0) : Expr F).eval t
        (srow + ((if IsLast w m r then rowLast w r else r : ℕ) : ℤ)) = 0 ↔
      Step (x.beta.value t) (x.gamma.value t) (tcell c 1 (w - 1) srow t) (r * (w - 1) + j - 1)) := by
    intro r j h1 h2 h3 h4 hn
    have hr := ((pos_iff hw hm r j).2 ⟨h1, h2, h3⟩).1
    obtain ⟨rb, hrb, rg, hrg, eb, eg, e1, e2, e3⟩ := rot_ok hw hm r hr
    have sg := sel_gate (F := F) hw c r j (IsLast w m r) h1 h2 h4 (.const 0)
    simp only [decide_eq_true_eq] at sg
    rw [sg]
    have h4' : 3 < r * (w - 1) + j := by
      rcases Nat.eq_zero_or_pos r with h0 | h0
      · subst h0; omega
      · have := Nat.mul_le_mul_right (w - 1) h0
        rw [Nat.succ_eq_add_one, zero_add, one_mul] at this
        omega
    refine gen_iff hw c srow t r j h1 h2 h4' h4 _ _ _ _ (by rw [add_assoc, e3]) _ _ ?_ ?_
    · rw [add_assoc, e1, hch rb hrb, eb]; rfl
    · rw [add_assoc, e2, hch rg hrg, eg]; rfl
  constructor
  · intro h
    refine ⟨?_, ?_⟩
    · have := h 0 0 ((mem_enabled hw hm 0 0).2 (Or.inl ⟨rfl, rfl⟩))
      rw [g0] at this
      exact F0.1 this
    · intro i hi h0
      have e : (3 * i + 2) / (w - 1) * (w - 1) + ((3 * i + 2) % (w - 1) + 1) = 3 * i + 3 := by
        have := Nat.div_add_mod (3 * i + 2) (w - 1)
        rw [Nat.mul_comm] at this; omega
      have hlt := Nat.mod_lt (3 * i + 2) hw0
      have hn : ¬ ((3 * i + 2) / (w - 1) = 0 ∧ (3 * i + 2) % (w - 1) + 1 = 3) := by
        rintro ⟨a, b⟩
        rw [a, b] at e; omega
      have hp := h _ _ ((mem_enabled hw hm _ _).2 (Or.inr ⟨(3 * i + 2) / (w - 1), (3 * i + 2) % (w - 1) + 1, by omega, by omega,
        by omega, by omega, hn, rfl, rfl⟩))
      have := (one _ _ (by omega) (by omega) (by omega) (by omega) hn).1 hp
      rwa [e, show 3 * i + 3 - 1 = 3 * i + 2 by omega] at this
  · rintro ⟨h0, hs⟩ k r' hk
    rcases (mem_enabled hw hm k r').1 hk with ⟨rfl, rfl⟩ | ⟨r, j, h1, h2, h3, h4, hn, rfl, rfl⟩
    · rw [g0]; exact F0.2 h0
    · rw [one r j h1 h2 h3 h4 hn]
      have h4' : 3 < r * (w - 1) + j := by
        rcases Nat.eq_zero_or_pos r with h0 | h0
        · subst h0; omega
        · have := Nat.mul_le_mul_right (w - 1) h0
          rw [Nat.succ_eq_add_one, zero_add, one_mul] at this
          omega
      have := hs ((r * (w - 1) + j) / 3 - 1) (by omega) (by omega)
      rwa [show 3 * ((r * (w - 1) + j) / 3 - 1) + 2 = r * (w - 1) + j - 1 by omega] at this

/-- The result cell is the last item. -/
theorem result_cell {w m : ℕ} (hw : 4 ≤ w) (hm : 0 < m) (c : Cols) (srow : ℤ) (t : Table F) :
    (result c w m srow).value t = tcell c 1 (w - 1) srow t (3 * m - 1) := by
  obtain ⟨q1, q2, q3, q4⟩ := rows0_last hw hm
  have hw0 : 0 < w - 1 := by omega
  have e : 3 * m - 1 = (w - 1) * (rows0 w m - 1) + (lastJ w m - 1) := by rw [Nat.mul_comm (w - 1)]; omega
  rw [tcell, e, Nat.mul_add_mod, Nat.mod_eq_of_lt (by omega), Nat.mul_add_div hw0,
    Nat.div_eq_of_lt (a := lastJ w m - 1) (by omega), add_zero]
  unfold result
  split_ifs with h
  · obtain ⟨e1, e2, e3⟩ := rows_one hw hm (by omega)
    rw [Cols.value_wa, e2]
    congr 2
    · push_cast [Nat.cast_sub q3]; ring
    · simp
  · obtain ⟨e1, e2⟩ := rows_many hw hm (by omega)
    rw [Cols.value_wa, e1]
    congr 2
    · push_cast [Nat.cast_sub q3]; ring
    · push_cast [Nat.cast_sub q2]; ring

/-- **C61** (soundness). For every width from four up and every number of factors: any table satisfying the circuit has
the product in the result cell. -/
theorem f1_sound {w m : ℕ} (hw : 4 ≤ w) (hm : 0 < m) (c : Cols) (x : In) (srow : ℤ)
    (t : Table F) (h : Sat t (circuit c w m x srow)) : (result c w m srow).value t = x.spec m t := by
  obtain ⟨⟨h0, hs⟩, -, hc⟩ := (sat_iff hw hm c x srow t).1 h
  rw [result_cell hw hm]
  have key : ∀ i < m, tcell c 1 (w - 1) srow t (3 * i + 2) = x.spec (i + 1) t := by
    intro i
    induction i with
    | zero =>
      intro hi
      obtain ⟨a1, a2⟩ := hc 0 hi
      rw [mul_zero, zero_add] at *
      rw [h0, a1, a2]
      simp [In.spec, spec]
    | succ i ih =>
      intro hi
      obtain ⟨a1, a2⟩ := hc (i + 1) hi
      have st := hs (i + 1) hi (by omega)
      unfold Step at st
      rw [show 3 * (i + 1) + 2 - 3 = 3 * i + 2 by omega, show 3 * (i + 1) + 2 - 2 = 3 * (i + 1) by omega,
        show 3 * (i + 1) + 2 - 1 = 3 * (i + 1) + 1 by omega, ih (by omega), a1, a2] at st
      rw [st]
      simp only [In.spec, spec, Finset.prod_range_succ (n := i + 1)]
  have := key (m - 1) (by omega)
  rwa [show 3 * (m - 1) + 2 = 3 * m - 1 by omega, show m - 1 + 1 = m by omega] at this

/-! ### Completeness -/

theorem acc_eq (x : In) (t : Table F) (i : ℕ) : acc x t i = x.spec i t := by
  induction i with
  | zero => simp [acc, In.spec, spec]
  | succ i ih => rw [acc, ih, In.spec, In.spec, spec, spec, Finset.prod_range_succ]

theorem trace_length (m : ℕ) (x : In) (t : Table F) : (trace m x t).length = 3 * m := by
  simp [trace, List.length_flatMap]; ring

theorem trace_get (m : ℕ) (x : In) (t : Table F) (i k : ℕ) (hi : i < m) (hk : k < 3) :
    (trace m x t).getD (3 * i + k) 0 = [(x.s i).value t, (x.t i).value t, x.spec (i + 1) t].getD k 0 := by
  induction m with
  | zero => omega
  | succ m ih =>
    have e : trace (m + 1) x t = trace m x t ++ [(x.s m).value t, (x.t m).value t, x.spec (m + 1) t] := by
      simp [trace, List.range_succ, List.flatMap_append, acc_eq]
    rw [e]
    rcases Nat.lt_succ_iff_lt_or_eq.1 hi with h | rfl
    · rw [List.getD_append _ _ _ _ (by rw [trace_length]; omega)]
      exact ih h
    · rw [List.getD_append_right _ _ _ _ (by rw [trace_length]; omega), trace_length]
      congr 1; omega

/-- All inputs are outside the component's rows. -/
def In.Outside (x : In) (w m : ℕ) (srow : ℤ) : Prop :=
  x.beta.Outside srow (rows w m) ∧ x.gamma.Outside srow (rows w m) ∧
  ∀ i < m, (x.s i).Outside srow (rows w m) ∧ (x.t i).Outside srow (rows w m)

theorem lastR_eq {w m : ℕ} (hw : 4 ≤ w) (hm : 0 < m) : (if lastR w m < 1 then 1 else lastR w m) + 1 = rows w m := by
  obtain ⟨q1, q2, q3, q4⟩ := rows0_last hw hm
  have hw0 : 0 < w - 1 := by omega
  have e : lastR w m = rows0 w m - 1 := by
    unfold lastR
    rw [show 3 * m - 1 = (w - 1) * (rows0 w m - 1) + (lastJ w m - 1) by rw [Nat.mul_comm (w - 1)]; omega,
      Nat.mul_add_div hw0, Nat.div_eq_of_lt (a := lastJ w m - 1) (by omega), add_zero]
  rw [e]
  by_cases h : 3 * m + 1 > w
  · obtain ⟨e1, e2⟩ := rows_many hw hm h
    rw [if_neg (by omega)]; omega
  · obtain ⟨e1, e2, e3⟩ := rows_one hw hm h
    rw [if_pos (by omega)]; omega

/-- Contents of the component's cells. -/
def gridVal (w m : ℕ) (x : In) (t : Table F) (r j : ℕ) : F :=
  if j = 0 then (if isBeta w r then x.beta.value t else x.gamma.value t)
  else (trace m x t).getD (r * (w - 1) + j - 1) 0

theorem writes_grid {w m : ℕ} (hw : 4 ≤ w) (hm : 0 < m) (c : Cols) (x : In) (srow : ℤ) (t : Table F) :
    GridWrites c srow w (rows w m) (gridVal w m x t) (writes c w m x srow t) := by
  have hw0 : 0 < w - 1 := by omega
  intro y hy
  simp only [writes, List.mem_append, List.mem_map, List.mem_range, trace_length, lastR_eq hw hm] at hy
  rcases hy with ⟨i, hi, rfl⟩ | ⟨r, hr, rfl⟩
  · have hlt := Nat.mod_lt i hw0
    have e := Nat.div_add_mod i (w - 1)
    rw [Nat.mul_comm] at e
    refine ⟨i / (w - 1), ?_, i % (w - 1) + 1, by omega, ?_⟩
    · have := (pos_iff hw hm (i / (w - 1)) (i % (w - 1) + 1)).2 ⟨by omega, by omega, by omega⟩
      have := rows0_le (w := w) (m := m) hw hm
      omega
    · rw [gridVal, if_neg (by omega), show i / (w - 1) * (w - 1) + (i % (w - 1) + 1) - 1 = i by omega]
  · exact ⟨r, hr, 0, by omega, by simp [gridVal]⟩

theorem assign_cell {w m : ℕ} (hw : 4 ≤ w) (hm : 0 < m) (c : Cols) (hc : c.OK w) (x : In) (srow : ℤ) (t : Table F) (p : ℕ)
    (hp : p < 3 * m) : tcell c 1 (w - 1) srow (assign c w m x srow t) p = (trace m x t).getD p 0 := by
  have G := writes_grid hw hm c x srow t
  have hw0 : 0 < w - 1 := by omega
  have hlt := Nat.mod_lt p hw0
  have e := Nat.div_add_mod p (w - 1)
  rw [Nat.mul_comm] at e
  have hv : gridVal w m x t (p / (w - 1)) (p % (w - 1) + 1) = (trace m x t).getD p 0 := by
    rw [gridVal, if_neg (by omega), show p / (w - 1) * (w - 1) + (p % (w - 1) + 1) - 1 = p by omega]
  have := G.read (r := p / (w - 1)) (j := p % (w - 1) + 1) hc t (by omega) (by
    rw [hv]
    simp only [writes, List.mem_append, List.mem_map, List.mem_range, trace_length]
    exact Or.inl ⟨p, hp, rfl⟩)
  rw [hv] at this
  rw [← this, tcell, assign]
  simp

theorem assign_head {w m : ℕ} (hw : 4 ≤ w) (hm : 0 < m) (c : Cols) (hc : c.OK w) (x : In) (srow : ℤ) (t : Table F) (r : ℕ)
    (hr : r < rows w m) : assign c w m x srow t .witness (c.w 0) (srow + (r : ℤ)) =
      if isBeta w r then x.beta.value t else x.gamma.value t := by
  have G := writes_grid hw hm c x srow t
  have := G.read (r := r) (j := 0) hc t (by omega) (by
    simp only [writes, List.mem_append, List.mem_map, List.mem_range, lastR_eq hw hm]
    exact Or.inr ⟨r, hr, by simp [gridVal]⟩)
  simpa [gridVal, assign] using this

/-- **C61** (completeness). The assigned table satisfies the circuit; only the component's rows change. -/
theorem f1_complete {w m : ℕ} (hw : 4 ≤ w) (hm : 0 < m) (c : Cols) (hc : c.OK w) (x : In) (srow : ℤ) (t : Table F)
    (hx : x.Outside w m srow) :
    Sat (assign c w m x srow t) (circuit c w m x srow) ∧ Frame c srow (rows w m) t (assign c w m x srow t) := by
  have G := writes_grid hw hm c x srow t
  have hf : Frame c srow (rows w m) t (assign c w m x srow t) := (G.own hc).frame t
  refine ⟨?_, hf⟩
  have A : ∀ i < m, ∀ k < 3, tcell c 1 (w - 1) srow (assign c w m x srow t) (3 * i + k) =
      [(x.s i).value t, (x.t i).value t, x.spec (i + 1) t].getD k 0 := by
    intro i hi k hk
    rw [assign_cell hw hm c hc x srow t _ (by omega), trace_get m x t i k hi hk]
  obtain ⟨o1, o2, o3⟩ := hx
  rw [sat_iff hw hm, hf.outside o1, hf.outside o2]
  refine ⟨⟨?_, ?_⟩, ?_, fun i hi => ⟨?_, ?_⟩⟩
  · have a0 := A 0 hm 0 (by omega)
    have a1 := A 0 hm 1 (by omega)
    have a2 := A 0 hm 2 (by omega)
    simp only [mul_zero, zero_add, List.getD_cons_zero, List.getD_cons_succ] at a0 a1 a2
    rw [a0, a1, a2]
    simp [In.spec, spec]
  · intro i hi h0
    obtain ⟨i, rfl⟩ : ∃ k, i = k + 1 := ⟨i - 1, by omega⟩
    unfold Step
    rw [show 3 * (i + 1) + 2 - 3 = 3 * i + 2 by omega, show 3 * (i + 1) + 2 - 2 = 3 * (i + 1) + 0 by omega,
        show 3 * (i + 1) + 2 - 1 = 3 * (i + 1) + 1 by omega,
        A i (by omega) 2 (by omega), A (i + 1) hi 2 (by omega), A (i + 1) hi 1 (by omega), A (i + 1) hi 0 (by omega)]
    simp only [List.getD_cons_zero, List.getD_cons_succ, In.spec, spec, Finset.prod_range_succ (n := i + 1)]
  · intro r hr; exact assign_head hw hm c hc x srow t r hr
  · rw [hf.outside (o3 i hi).1]; exact A i hi 0 (by omega)
  · rw [hf.outside (o3 i hi).2]; exact A i hi 1 (by omega)

/-! ### Instances -/

/-- Inputs taken from a public input column. -/
def pubIn : In where
  beta := ⟨0, 0, false, .publicInput⟩
  gamma := ⟨0, 1, false, .publicInput⟩
  s i := ⟨0, 2 * i + 2, false, .publicInput⟩
  t i := ⟨0, 2 * i + 3, false, .publicInput⟩

theorem pubIn_outside (w m : ℕ) (srow : ℤ) : pubIn.Outside w m srow := by
  simp [In.Outside, pubIn, Var.Outside]

/-- `w` columns. -/
def cols (w : ℕ) : Cols := ⟨List.range w, [], [0]⟩

theorem cols_ok (w : ℕ) : (cols w).OK w := ⟨by simpa [cols] using List.nodup_range, by simp [cols]⟩

instance : Fact (Nat.Prime 101) := ⟨by norm_num⟩

/-- Honest tables exist for every width, here 15 columns and 20 factors starting at row 3. -/
example : Sat (assign (cols 15) 15 20 pubIn 3 (fun _ _ r => (r : ZMod 101))) (circuit (cols 15) 15 20 pubIn 3) :=
  (f1_complete (by omega) (by omega) _ (cols_ok 15) _ 3 _ (pubIn_outside _ _ _)).1

/-- Eight columns, three factors: with `β = 0`, `γ = 1`, `s_i = 2i + 2` the result is `3 · 5 · 7`. -/
example : (result (cols 8) 8 3 3).value (assign (cols 8) 8 3 pubIn 3 (fun _ _ r => (r : ZMod 101))) = 105 := by
  have hc := f1_complete (w := 8) (m := 3) (by omega) (by omega) _ (cols_ok 8) pubIn 3 (fun _ _ r => (r : ZMod 101))
    (pubIn_outside _ _ _)
  rw [f1_sound (by omega) (by omega) _ _ _ _ hc.1]
  obtain ⟨o1, o2, o3⟩ := pubIn_outside 8 3 3
  simp only [In.spec, spec, Finset.prod_range_succ, Finset.prod_range_zero, hc.2.outside o1, hc.2.outside o2,
    hc.2.outside (o3 0 (by omega)).1, hc.2.outside (o3 1 (by omega)).1, hc.2.outside (o3 2 (by omega)).1,
    hc.2.outside (o3 0 (by omega)).2, hc.2.outside (o3 1 (by omega)).2, hc.2.outside (o3 2 (by omega)).2]
  simp only [pubIn, Var.value]
  decide

end F1Loop
end Verif
