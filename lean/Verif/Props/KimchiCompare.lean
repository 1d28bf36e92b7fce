import Verif.Model.KimchiCompare
import Verif.Core.Primality
import Mathlib.Algebra.BigOperators.Ring.Finset

/-!
# C147: `compare_with_const`, C148: the digest of the transcript
-/

set_option linter.unusedSimpArgs false
set_option linter.unusedVariables false
set_option linter.unusedSectionVars false

namespace Verif
namespace KimchiCompare
open Kimchi (c2 c3)
variable {p : ℕ} [Fact p.Prime]

/-! ### One call -/

/-- What an accepted call says. -/
def Step.Eq (st : Step p) (row : ℤ) (T : Table (ZMod p)) : Prop :=
  match st.kind with
  | .add => T .witness 2 row = st.x.value T + st.y.value T
  | .sub => T .witness 2 row = st.x.value T - st.y.value T
  | .mul => T .witness 2 row = st.x.value T * st.y.value T
  | .mulc k => T .witness 1 row = k * st.x.value T

/-- What a call leaves behind. -/
def Step.Filled (st : Step p) (row : ℤ) (T : Table (ZMod p)) : Prop :=
  T .witness 0 row = st.x.value T ∧
  (match st.kind with
   | .mulc _ => True
   | _ => T .witness 1 row = st.y.value T) ∧ st.Eq row T

@[simp] theorem w30 : c3.w 0 = 0 := by decide
@[simp] theorem w31 : c3.w 1 = 1 := by decide
@[simp] theorem w32 : c3.w 2 = 2 := by decide
@[simp] theorem w20 : c2.w 0 = 0 := by decide
@[simp] theorem w21 : c2.w 1 = 1 := by decide
@[simp] theorem k20 : c2.k 0 = 0 := by decide

theorem value_of_eq_wa {v : Var} {i row : ℤ} (T : Table (ZMod p)) (h : v = c3.wa i row) : v.value T = T .witness (c3.w i) row := by
  rw [h, Cols.value_wa]

theorem mul_sat (x y : Var) (row : ℤ) (T : Table (ZMod p)) : Sat T (Multiplication.circuit c3 ⟨x, y⟩ row) ↔
    T .witness 0 row * T .witness 1 row = T .witness 2 row ∧ x.value T = T .witness 0 row ∧ T .witness 1 row = y.value T := by
  unfold Multiplication.circuit
  rw [sat_cons, sat_append]
  have hx : Sat T (if x ≠ c3.wa 0 row then [Op.copy x (c3.wa 0 row)] else []) ↔ x.value T = T .witness 0 row := by
    split_ifs with h
    · simp
    · have := value_of_eq_wa T (not_not.1 h); simpa using this
  have hy : Sat T (if y ≠ c3.wa 1 row then [Op.copy (c3.wa 1 row) y] else []) ↔ T .witness 1 row = y.value T := by
    split_ifs with h
    · simp
    · have := value_of_eq_wa T (not_not.1 h); simpa using this.symm
  rw [hx, hy]
  simp [sub_eq_zero]

theorem Step.eq_of_sat (st : Step p) (row : ℤ) (T : Table (ZMod p)) (h : Sat T (st.ops row)) : st.Eq row T := by
  obtain ⟨kind, x, y, hint⟩ := st
  cases kind with
  | add =>
    simp only [Step.ops, Addition.circuit, sat_cons, sat_nil, holds_gate, holds_copy, List.mem_singleton, forall_eq, and_true, Expr.eval_sub,
      Expr.eval_add, Cols.eval_wv, add_zero, Cols.value_wa, w30, w31, w32] at h
    simp only [Step.Eq]; rw [h.2.1, ← h.2.2]; linear_combination -h.1
  | sub =>
    simp only [Step.ops, Subtraction.circuit, sat_cons, sat_nil, holds_gate, holds_copy, List.mem_singleton, forall_eq, and_true, Expr.eval_sub,
      Cols.eval_wv, add_zero, Cols.value_wa, w30, w31, w32] at h
    simp only [Step.Eq]; rw [h.2.1, ← h.2.2]; linear_combination -h.1
  | mul =>
    simp only [Step.ops, mul_sat] at h
    simp only [Step.Eq]; rw [h.2.1, ← h.2.2]; exact h.1.symm
  | mulc k =>
    simp only [Step.ops, MulByConstant.circuit, sat_cons, sat_nil, holds_gate, holds_copy, holds_constant, List.mem_singleton, forall_eq, and_true,
      Expr.eval_sub, Expr.eval_mul, Expr.eval_var, Var.evalAt, if_true, Cols.eval_wv, add_zero, Cols.value_wa, w20, w21, k20] at h
    simp only [Step.Eq]; rw [h.2.1, ← h.2.2]; linear_combination -h.1

/-- The constant of a call. -/
def Step.ConstOk (st : Step p) (row : ℤ) (T : Table (ZMod p)) : Prop :=
  match st.kind with
  | .mulc k => T .constant 0 row = k
  | _ => True

theorem Step.sat_of_filled (st : Step p) (row : ℤ) (T : Table (ZMod p)) (h : st.Filled row T) (hk : st.ConstOk row T) :
    Sat T (st.ops row) := by
  obtain ⟨kind, x, y, hint⟩ := st
  obtain ⟨h0, h1, h2⟩ := h
  cases kind with
  | add =>
    simp only [Step.Eq] at h0 h1 h2
    simp only [Step.ops, Addition.circuit, sat_cons, sat_nil, holds_gate, holds_copy, List.mem_singleton, forall_eq, and_true, Expr.eval_sub,
      Expr.eval_add, Cols.eval_wv, add_zero, Cols.value_wa, w30, w31, w32]
    exact ⟨by rw [h0, h1, h2]; ring, h0.symm, h1⟩
  | sub =>
    simp only [Step.Eq] at h0 h1 h2
    simp only [Step.ops, Subtraction.circuit, sat_cons, sat_nil, holds_gate, holds_copy, List.mem_singleton, forall_eq, and_true, Expr.eval_sub,
      Cols.eval_wv, add_zero, Cols.value_wa, w30, w31, w32]
    exact ⟨by rw [h0, h1, h2]; ring, h0.symm, h1⟩
  | mul =>
    simp only [Step.Eq] at h0 h1 h2
    simp only [Step.ops, mul_sat]
    exact ⟨by rw [h0, h1, h2], h0.symm, h1⟩
  | mulc k =>
    simp only [Step.Eq, Step.ConstOk] at h0 h2 hk
    simp only [Step.ops, MulByConstant.circuit, sat_cons, sat_nil, holds_gate, holds_copy, holds_constant, List.mem_singleton, forall_eq, and_true,
      Expr.eval_sub, Expr.eval_mul, Expr.eval_var, Var.evalAt, if_true, Cols.eval_wv, add_zero, Cols.value_wa, w20, w21, k20]
    exact ⟨by rw [h0, h2, hk]; ring, h0.symm, hk⟩

/-- The variable is not a witness cell of row `row` or later. -/
def Early (v : Var) (row : ℤ) : Prop := v.type = .witness → v.rotation < row

/-- The operands of a call on `row` are settled. -/
def Step.Good (st : Step p) (row : ℤ) : Prop :=
  Early st.x row ∧
  match st.hint with
  | none => Early st.y row
  | some (v, _) => st.y = c3.wa 1 row ∧ Early v row ∧ match st.kind with | .mulc _ => False | _ => True

theorem Step.assign_frame (st : Step p) (row : ℤ) (t : Table (ZMod p)) (ty : ColType) (i : ℕ) (r : ℤ) (h : ¬ (ty = .witness ∧ r = row)) :
    st.assign row t ty i r = t ty i r := by
  have hs : ∀ (t : Table (ZMod p)) (j : ℕ) (a : ZMod p), t.set .witness j row a ty i r = t ty i r := by
    intro t j a
    exact Table.set_ne _ _ (by rintro ⟨h1, -, h3⟩; exact h ⟨h1, h3⟩)
  obtain ⟨kind, x, y, hint⟩ := st
  have hp : (Step.pre ⟨kind, x, y, hint⟩ row t) ty i r = t ty i r := by
    rcases hint with _ | ⟨v, f⟩
    · rfl
    · exact hs _ _ _
  cases kind <;>
    simp only [Step.assign, Addition.assign, Subtraction.assign, Multiplication.assign, MulByConstant.assign, hs, hp]

theorem early_value {v : Var} {row : ℤ} (h : Early v row) (t t' : Table (ZMod p))
    (hag : ∀ ty i r, ¬ (ty = .witness ∧ row ≤ r) → t' ty i r = t ty i r) : v.value t' = v.value t := by
  unfold Var.value
  exact hag _ _ _ (by rintro ⟨h1, h2⟩; have := h h1; omega)

theorem early_set {v : Var} {row : ℤ} (h : Early v row) (t : Table (ZMod p)) (i : ℕ) (a : ZMod p) :
    v.value (t.set .witness i row a) = v.value t := by
  unfold Var.value
  exact Table.set_ne _ _ (by rintro ⟨h1, -, h3⟩; have := h h1; omega)

/-- After a call with settled operands its row is filled, and the hint is where it belongs. -/
theorem Step.assign_filled (st : Step p) (row : ℤ) (t : Table (ZMod p)) (hg : st.Good row) :
    st.Filled row (st.assign row t) ∧ ∀ v f, st.hint = some (v, f) → st.assign row t .witness 1 row = f (v.value (st.assign row t)) := by
  have hfr := fun v (hv : Early v row) => early_value hv t (st.assign row t) (fun ty i r h =>
    st.assign_frame row t ty i r (by rintro ⟨h1, h2⟩; exact h ⟨h1, by omega⟩))
  obtain ⟨kind, x, y, hint⟩ := st
  obtain ⟨hx, hy⟩ := hg
  rcases hint with _ | ⟨v, f⟩
  · simp only at hx hy
    refine ⟨?_, by simp⟩
    have ex := hfr x hx
    have ey := hfr y hy
    cases kind <;>
      simp only [Step.Filled, Step.Eq, ex, ey, Step.assign, Step.pre, Addition.assign, Subtraction.assign, Multiplication.assign,
        MulByConstant.assign, early_set hx, early_set hy, w30, w31, w32, w20, w21] <;> simp [Table.set_apply]
  · obtain ⟨hy1, hv, hk⟩ := hy
    simp only at hx hy1 hv
    subst hy1
    have ex := hfr x hx
    have ev := hfr v hv
    cases kind with
    | mulc k => exact hk.elim
    | add =>
      have hval : ∀ (t : Table (ZMod p)), (c3.wa 1 row).value t = t .witness 1 row := fun t => by rw [Cols.value_wa, w31]
      refine ⟨?_, fun v' f' h => ?_⟩
      · simp only [Step.Filled, Step.Eq, ex]
        simp only [Step.assign, Step.pre, Addition.assign, early_set hx, hval, w30, w31, w32]
        simp [Table.set_apply]
      · simp only [Option.some.injEq, Prod.mk.injEq] at h
        obtain ⟨rfl, rfl⟩ := h
        rw [ev]
        simp only [Step.assign, Step.pre, Addition.assign, hval, w30, w31, w32]
        simp [Table.set_apply]
    | sub =>
      have hval : ∀ (t : Table (ZMod p)), (c3.wa 1 row).value t = t .witness 1 row := fun t => by rw [Cols.value_wa, w31]
      refine ⟨?_, fun v' f' h => ?_⟩
      · simp only [Step.Filled, Step.Eq, ex]
        simp only [Step.assign, Step.pre, Subtraction.assign, early_set hx, hval, w30, w31, w32]
        simp [Table.set_apply]
      · simp only [Option.some.injEq, Prod.mk.injEq] at h
        obtain ⟨rfl, rfl⟩ := h
        rw [ev]
        simp only [Step.assign, Step.pre, Subtraction.assign, hval, w30, w31, w32]
        simp [Table.set_apply]
    | mul =>
      have hval : ∀ (t : Table (ZMod p)), (c3.wa 1 row).value t = t .witness 1 row := fun t => by rw [Cols.value_wa, w31]
      refine ⟨?_, fun v' f' h => ?_⟩
      · simp only [Step.Filled, Step.Eq, ex]
        simp only [Step.assign, Step.pre, Multiplication.assign, early_set hx, hval, w30, w31, w32]
        simp [Table.set_apply]
      · simp only [Option.some.injEq, Prod.mk.injEq] at h
        obtain ⟨rfl, rfl⟩ := h
        rw [ev]
        simp only [Step.assign, Step.pre, Multiplication.assign, hval, w30, w31, w32]
        simp [Table.set_apply]

/-! ### The list of calls -/

theorem stepAt_head (H : Hints p) (P : Par p) (j : ℕ) (hj : j < 4) : stepAt H P j = headStep P j := by
  rw [stepAt, if_pos hj]

theorem stepAt_loop (H : Hints p) (P : Par p) (i j : ℕ) (hi : i < P.N) (hj : j < 8) : stepAt H P (4 + 8 * i + j) = loopStep H P i j := by
  rw [stepAt, if_neg (by omega), if_pos (by unfold Par.tail; omega)]
  congr 1 <;> omega

theorem stepAt_tail (H : Hints p) (P : Par p) (j : ℕ) : stepAt H P (P.tail + j) = tailStep H P j := by
  rw [stepAt, if_neg (by unfold Par.tail; omega), if_neg (by omega)]
  congr 1; omega

/-- Every offset is in one of the three parts. -/
theorem offset_cases (P : Par p) (n : ℕ) (hn : n < rows P.N) :
    n < 4 ∨ (∃ i < P.N, ∃ j < 8, n = 4 + 8 * i + j) ∨ ∃ j < 11, n = P.tail + j := by
  unfold rows at hn
  by_cases h1 : n < 4
  · exact Or.inl h1
  by_cases h2 : n < P.tail
  · unfold Par.tail at h2
    exact Or.inr (Or.inl ⟨(n - 4) / 8, by omega, (n - 4) % 8, by omega, by omega⟩)
  · unfold Par.tail at h2 ⊢
    exact Or.inr (Or.inr ⟨n - (4 + 8 * P.N), by omega, by omega⟩)

theorem early_const (P : Par p) (row : ℤ) : Early P.zeroVar row ∧ Early P.oneVar row ∧ Early P.kVar row ∧ Early P.powVar row := by
  simp [Early, Par.zeroVar, Par.oneVar, Par.kVar, Par.powVar]

theorem early_out (P : Par p) {m n : ℕ} (h : m < n) : Early (P.out m) (P.row + (n : ℤ)) := by
  intro _
  show P.row + (m : ℤ) < _
  omega

theorem early_mid (P : Par p) {m n : ℕ} (h : m < n) : Early (P.mid m) (P.row + (n : ℤ)) := by
  intro _
  show P.row + (m : ℤ) < _
  omega

theorem early_accC (P : Par p) {i n : ℕ} (h : 4 + 8 * i ≤ n) : Early (P.accC i) (P.row + (n : ℤ)) := by
  unfold Par.accC
  split_ifs with h0
  · exact (early_const P _).1
  · exact early_out P (by omega)

theorem early_accB (P : Par p) {i n : ℕ} (h : 4 + 8 * i ≤ n) : Early (P.accB i) (P.row + (n : ℤ)) := by
  unfold Par.accB
  split_ifs with h0
  · exact (early_const P _).1
  · exact early_out P (by omega)

theorem good (H : Hints p) (P : Par p) (hv : Early P.value P.row) (n : ℕ) (hn : n < rows P.N) :
    (stepAt H P n).Good (P.row + (n : ℤ)) := by
  have hc := early_const P (P.row + (n : ℤ))
  rcases offset_cases P n hn with h | ⟨i, hi, j, hj, rfl⟩ | ⟨j, hj, rfl⟩
  · rw [stepAt_head H P n h]
    have hv' : Early P.value (P.row + (n : ℤ)) := fun ht => by have := hv ht; omega
    interval_cases n
    · exact ⟨hc.1, hv'⟩
    · exact ⟨hc.2.2.2, hc.2.2.1⟩
    · exact ⟨early_out P (by omega), hc.2.1⟩
    · exact ⟨early_out P (by omega), early_out P (by omega)⟩
  · rw [stepAt_loop H P i j hi hj]
    interval_cases j
    · exact ⟨hc.2.1, rfl, early_out P (by omega), trivial⟩
    · exact ⟨early_mid P (by omega), early_out P (by omega)⟩
    · exact ⟨early_mid P (by omega), early_mid P (by omega)⟩
    · exact ⟨early_mid P (by omega), early_accC P (by omega)⟩
    · exact ⟨hc.2.1, rfl, early_out P (by omega), trivial⟩
    · exact ⟨early_mid P (by omega), early_out P (by omega)⟩
    · exact ⟨early_mid P (by omega), early_mid P (by omega)⟩
    · exact ⟨early_mid P (by omega), early_accB P (by omega)⟩
  · rw [stepAt_tail H P j]
    have ht : P.tail = 4 + 8 * P.N := rfl
    interval_cases j
    · exact ⟨early_out P (by omega), early_accB P (by omega)⟩
    · exact ⟨early_out P (by omega), rfl, early_out P (by omega), trivial⟩
    · exact ⟨hc.2.1, early_out P (by omega)⟩
    · exact ⟨early_out P (by omega), early_out P (by omega)⟩
    · exact ⟨early_out P (by omega), early_accC P (by omega)⟩
    · exact ⟨early_out P (by omega), rfl, early_out P (by omega), trivial⟩
    · exact ⟨hc.2.1, early_out P (by omega)⟩
    · exact ⟨early_out P (by omega), early_out P (by omega)⟩
    · exact ⟨early_out P (by omega), early_out P (by omega)⟩
    · exact ⟨early_out P (by omega), early_out P (by omega)⟩
    · exact ⟨early_out P (by omega), early_out P (by omega)⟩

theorem runTo_frame (H : Hints p) (P : Par p) (t : Table (ZMod p)) (n m : ℕ) (h : n ≤ m) (ty : ColType) (i : ℕ) (r : ℤ)
    (hr : ¬ (ty = .witness ∧ P.row + (n : ℤ) ≤ r)) : runTo H P t m ty i r = runTo H P t n ty i r := by
  induction m, h using Nat.le_induction with
  | base => rfl
  | succ m hm ih =>
    rw [runTo, Step.assign_frame, ih]
    rintro ⟨h1, h2⟩
    exact hr ⟨h1, by omega⟩

/-- All rows of the generated table are filled, hints included. -/
theorem run_filled (H : Hints p) (P : Par p) (hv : Early P.value P.row) (t : Table (ZMod p)) (n : ℕ) (hn : n < rows P.N) :
    (stepAt H P n).Filled (P.row + (n : ℤ)) (assign H P t) ∧
    ∀ v f, (stepAt H P n).hint = some (v, f) → assign H P t .witness 1 (P.row + (n : ℤ)) = f (v.value (assign H P t)) := by
  obtain ⟨⟨f0, f1, f2⟩, fh⟩ := (stepAt H P n).assign_filled (P.row + (n : ℤ)) (runTo H P t n) (good H P hv n hn)
  have ag : ∀ ty i r, ¬ (ty = .witness ∧ P.row + ((n + 1 : ℕ) : ℤ) ≤ r) → assign H P t ty i r = runTo H P t (n + 1) ty i r :=
    fun ty i r h => runTo_frame H P t (n + 1) (rows P.N) (by omega) ty i r h
  have er : runTo H P t (n + 1) = (stepAt H P n).assign (P.row + (n : ℤ)) (runTo H P t n) := rfl
  rw [← er] at f0 f1 f2 fh
  have cell : ∀ i, assign H P t .witness i (P.row + (n : ℤ)) = runTo H P t (n + 1) .witness i (P.row + (n : ℤ)) :=
    fun i => ag _ _ _ (by rintro ⟨-, h⟩; omega)
  have eV : ∀ v, Early v (P.row + (n : ℤ)) ∨ v = c3.wa 1 (P.row + (n : ℤ)) → v.value (assign H P t) = v.value (runTo H P t (n + 1)) := by
    rintro v (h | rfl)
    · exact ag _ _ _ (by rintro ⟨h1, h2⟩; have := h h1; omega)
    · exact cell _
  have hg := good H P hv n hn
  generalize stepAt H P n = st at *
  obtain ⟨kind, x, y, hint⟩ := st
  have ex := eV x (Or.inl hg.1)
  have ey : y.value (assign H P t) = y.value (runTo H P t (n + 1)) := by
    rcases hint with _ | ⟨v, f⟩
    · exact eV y (Or.inl hg.2)
    · exact eV y (Or.inr hg.2.1)
  refine ⟨?_, ?_⟩
  · cases kind <;> simp only [Step.Filled, Step.Eq, cell, ex, ey] at f0 f1 f2 ⊢ <;> exact ⟨f0, f1, f2⟩
  · rintro v f h
    simp only at h
    subst h
    rw [cell, fh v f rfl, eV v (Or.inl hg.2.2.1)]

/-! ### What the rows say together -/

theorem sat_steps (H : Hints p) (P : Par p) (T : Table (ZMod p)) :
    Sat T (circuit H P) ↔ Sat T (consts P) ∧ ∀ n < rows P.N, Sat T ((stepAt H P n).ops (P.row + (n : ℤ))) := by
  rw [circuit, sat_append]
  refine and_congr_right fun _ => ⟨fun h n hn o ho => h o ?_, fun h o ho => ?_⟩
  · exact List.mem_flatMap.2 ⟨n, List.mem_range.2 hn, ho⟩
  · obtain ⟨n, hn, ho⟩ := List.mem_flatMap.1 ho
    exact h n (List.mem_range.1 hn) o ho

/-- `sum of 2^i * b i` for `i < n`. -/
def wsum (b : ℕ → ZMod p) (n : ℕ) : ZMod p := ∑ i ∈ Finset.range n, 2 ^ i * b i

/-- The bits a table holds. -/
def bc (P : Par p) (T : Table (ZMod p)) (i : ℕ) : ZMod p := (P.mid (4 + 8 * i)).value T
def bb (P : Par p) (T : Table (ZMod p)) (i : ℕ) : ZMod p := (P.mid (4 + 8 * i + 4)).value T
/-- `-value`. -/
def cV (P : Par p) (T : Table (ZMod p)) : ZMod p := - P.value.value T
/-- `2^N - k - 1 - value`. -/
def bV (P : Par p) (T : Table (ZMod p)) : ZMod p := 2 ^ P.N - P.k - 1 - P.value.value T
/-- `delta_c`, `delta_b`. -/
def dC (P : Par p) (T : Table (ZMod p)) : ZMod p := cV P T - wsum (bc P T) P.N
def dB (P : Par p) (T : Table (ZMod p)) : ZMod p := bV P T - wsum (bb P T) P.N
/-- `inv_check_c1`, `inv_check_b1`. -/
def fC (P : Par p) (T : Table (ZMod p)) : ZMod p := dC P T * (P.mid (P.tail + 5)).value T
def fB (P : Par p) (T : Table (ZMod p)) : ZMod p := dB P T * (P.mid (P.tail + 1)).value T

theorem out_value (P : Par p) (T : Table (ZMod p)) (n : ℕ) : (P.out n).value T = T .witness 2 (P.row + (n : ℤ)) := by
  rw [Par.out, Cols.value_wa, w32]
theorem mid_value (P : Par p) (T : Table (ZMod p)) (n : ℕ) : (P.mid n).value T = T .witness 1 (P.row + (n : ℤ)) := by
  rw [Par.mid, Cols.value_wa, w31]

/-- All cells of interest, in terms of the free ones. -/
structure Cells (P : Par p) (T : Table (ZMod p)) : Prop where
  c : (P.out 0).value T = cV P T
  b : (P.out 3).value T = bV P T
  chkC : ∀ i < P.N, (P.out (4 + 8 * i + 1)).value T = bc P T i * (1 - bc P T i)
  chkB : ∀ i < P.N, (P.out (4 + 8 * i + 5)).value T = bb P T i * (1 - bb P T i)
  dB : (P.out P.tail).value T = dB P T
  dC : (P.out (P.tail + 4)).value T = dC P T
  invB : (P.out (P.tail + 3)).value T = (1 - fB P T) * KimchiCompare.dB P T
  invC : (P.out (P.tail + 7)).value T = (1 - fC P T) * KimchiCompare.dC P T
  res : P.result.value T = fC P T + fB P T - fC P T * fB P T

theorem cells_of (H : Hints p) (P : Par p) (T : Table (ZMod p)) (hc : Sat T (consts P))
    (h : ∀ n < rows P.N, (stepAt H P n).Eq (P.row + (n : ℤ)) T) : Cells P T := by
  simp only [consts, sat_cons, sat_nil, holds_constant, and_true] at hc
  obtain ⟨k1, k2, k3, k4⟩ := hc
  have vk : P.kVar.value T = P.k := k1
  have vp : P.powVar.value T = 2 ^ P.N := k2
  have vz : P.zeroVar.value T = 0 := k3
  have vo : P.oneVar.value T = 1 := k4
  have hr : rows P.N = P.tail + 11 := by unfold rows Par.tail; omega
  have hd : ∀ j, j < 4 → (headStep P j).Eq (P.row + (j : ℤ)) T := fun j hj => by
    rw [← stepAt_head H P j hj]; exact h j (by unfold rows; omega)
  have hl : ∀ i < P.N, ∀ j < 8, (loopStep H P i j).Eq (P.row + ((4 + 8 * i + j : ℕ) : ℤ)) T := fun i hi j hj => by
    rw [← stepAt_loop H P i j hi hj]; exact h _ (by unfold rows; omega)
  have ht : ∀ j < 11, (tailStep H P j).Eq (P.row + ((P.tail + j : ℕ) : ℤ)) T := fun j hj => by
    rw [← stepAt_tail H P j]; exact h _ (by omega)
  have h0 : (P.out 0).value T = P.zeroVar.value T - P.value.value T := by rw [out_value]; exact hd 0 (by omega)
  have h1 : (P.out 1).value T = P.powVar.value T - P.kVar.value T := by rw [out_value]; exact hd 1 (by omega)
  have h2 : (P.out 2).value T = (P.out 1).value T - P.oneVar.value T := by rw [out_value]; exact hd 2 (by omega)
  have h3 : (P.out 3).value T = (P.out 2).value T + (P.out 0).value T := by rw [out_value P T 3]; exact hd 3 (by omega)
  have ec : (P.out 0).value T = cV P T := by rw [h0, vz, cV]; ring
  have eb : (P.out 3).value T = bV P T := by rw [h3, h2, h1, ec, vp, vk, vo, cV, bV]; ring
  have l0 : ∀ i < P.N, (P.out (4 + 8 * i)).value T = 1 - bc P T i := fun i hi => by
    rw [out_value]; have := hl i hi 0 (by omega); simp only [loopStep, Step.Eq, vo] at this; exact this
  have l1 : ∀ i < P.N, (P.out (4 + 8 * i + 1)).value T = bc P T i * (1 - bc P T i) := fun i hi => by
    rw [out_value]; have := hl i hi 1 (by omega); simp only [loopStep, Step.Eq, l0 i hi] at this; exact this
  have l2 : ∀ i < P.N, (P.mid (4 + 8 * i + 2)).value T = 2 ^ i * bc P T i := fun i hi => by
    rw [mid_value]; exact hl i hi 2 (by omega)
  have l3 : ∀ i < P.N, (P.out (4 + 8 * i + 3)).value T = 2 ^ i * bc P T i + (P.accC i).value T := fun i hi => by
    rw [out_value]; have := hl i hi 3 (by omega); simp only [loopStep, Step.Eq, l2 i hi] at this; exact this
  have l4 : ∀ i < P.N, (P.out (4 + 8 * i + 4)).value T = 1 - bb P T i := fun i hi => by
    rw [out_value]; have := hl i hi 4 (by omega); simp only [loopStep, Step.Eq, vo] at this; exact this
  have l5 : ∀ i < P.N, (P.out (4 + 8 * i + 5)).value T = bb P T i * (1 - bb P T i) := fun i hi => by
    rw [out_value]; have := hl i hi 5 (by omega); simp only [loopStep, Step.Eq, l4 i hi] at this; exact this
  have l6 : ∀ i < P.N, (P.mid (4 + 8 * i + 6)).value T = 2 ^ i * bb P T i := fun i hi => by
    rw [mid_value]; exact hl i hi 6 (by omega)
  have l7 : ∀ i < P.N, (P.out (4 + 8 * i + 7)).value T = 2 ^ i * bb P T i + (P.accB i).value T := fun i hi => by
    rw [out_value]; have := hl i hi 7 (by omega); simp only [loopStep, Step.Eq, l6 i hi] at this; exact this
  have aC : ∀ n ≤ P.N, (P.accC n).value T = wsum (bc P T) n := by
    intro n
    induction n with
    | zero => intro _; simpa [Par.accC, wsum] using vz
    | succ n ih =>
      intro hn
      rw [Par.accC, if_neg (by omega), Nat.add_sub_cancel, l3 n (by omega), ih (by omega), wsum, wsum, Finset.sum_range_succ]
      ring
  have aB : ∀ n ≤ P.N, (P.accB n).value T = wsum (bb P T) n := by
    intro n
    induction n with
    | zero => intro _; simpa [Par.accB, wsum] using vz
    | succ n ih =>
      intro hn
      rw [Par.accB, if_neg (by omega), Nat.add_sub_cancel, l7 n (by omega), ih (by omega), wsum, wsum, Finset.sum_range_succ]
      ring
  have t0 : (P.out P.tail).value T = KimchiCompare.dB P T := by
    rw [out_value]; have := ht 0 (by omega); simp only [tailStep, Step.Eq, eb, aB P.N le_rfl] at this; exact this
  have t1 : (P.out (P.tail + 1)).value T = fB P T := by
    rw [out_value]; have := ht 1 (by omega); simp only [tailStep, Step.Eq, t0] at this; exact this
  have t2 : (P.out (P.tail + 2)).value T = 1 - fB P T := by
    rw [out_value]; have := ht 2 (by omega); simp only [tailStep, Step.Eq, t1, vo] at this; exact this
  have t3 : (P.out (P.tail + 3)).value T = (1 - fB P T) * KimchiCompare.dB P T := by
    rw [out_value]; have := ht 3 (by omega); simp only [tailStep, Step.Eq, t2, t0] at this; exact this
  have t4 : (P.out (P.tail + 4)).value T = KimchiCompare.dC P T := by
    rw [out_value]; have := ht 4 (by omega); simp only [tailStep, Step.Eq, ec, aC P.N le_rfl] at this; exact this
  have t5 : (P.out (P.tail + 5)).value T = fC P T := by
    rw [out_value]; have := ht 5 (by omega); simp only [tailStep, Step.Eq, t4] at this; exact this
  have t6 : (P.out (P.tail + 6)).value T = 1 - fC P T := by
    rw [out_value]; have := ht 6 (by omega); simp only [tailStep, Step.Eq, t5, vo] at this; exact this
  have t7 : (P.out (P.tail + 7)).value T = (1 - fC P T) * KimchiCompare.dC P T := by
    rw [out_value]; have := ht 7 (by omega); simp only [tailStep, Step.Eq, t6, t4] at this; exact this
  have t8 : (P.out (P.tail + 8)).value T = fC P T * fB P T := by
    rw [out_value]; have := ht 8 (by omega); simp only [tailStep, Step.Eq, t5, t1] at this; exact this
  have t9 : (P.out (P.tail + 9)).value T = fC P T + fB P T := by
    rw [out_value]; have := ht 9 (by omega); simp only [tailStep, Step.Eq, t5, t1] at this; exact this
  have t10 : P.result.value T = fC P T + fB P T - fC P T * fB P T := by
    rw [Par.result, out_value]; have := ht 10 (by omega); simp only [tailStep, Step.Eq, t9, t8] at this; exact this
  exact ⟨ec, eb, l1, l5, t0, t4, t3, t7, t10⟩

/-- The zero of the constants. -/
theorem zero_of_consts (P : Par p) (T : Table (ZMod p)) (hc : Sat T (consts P)) : P.zeroVar.value T = 0 := by
  simp only [consts, sat_cons, sat_nil, holds_constant, and_true] at hc
  exact hc.2.2.1

/-- The copy constraints that are never generated. -/
theorem copies_iff (P : Par p) (T : Table (ZMod p)) (hc : Sat T (consts P)) (h : Cells P T) :
    Sat T (copies P) ↔ (∀ i < P.N, bc P T i * (1 - bc P T i) = 0 ∧ bb P T i * (1 - bb P T i) = 0) ∧
      (1 - fB P T) * dB P T = 0 ∧ (1 - fC P T) * dC P T = 0 := by
  have vz := zero_of_consts P T hc
  have e1 : 5 + 8 * P.N + 2 = P.tail + 3 := by unfold Par.tail; omega
  have e2 : 5 + 8 * P.N + 6 = P.tail + 7 := by unfold Par.tail; omega
  rw [copies, sat_append]
  refine and_congr ⟨fun H i hi => ?_, fun H o ho => ?_⟩ ?_
  · have a1 := H (.copy (P.out (5 + 8 * i)) P.zeroVar) (List.mem_flatMap.2 ⟨i, List.mem_range.2 hi, by simp⟩)
    have a2 := H (.copy (P.out (5 + 8 * i + 4)) P.zeroVar) (List.mem_flatMap.2 ⟨i, List.mem_range.2 hi, by simp⟩)
    rw [holds_copy, vz] at a1 a2
    have f1 : 5 + 8 * i = 4 + 8 * i + 1 := by omega
    have f2 : 4 + 8 * i + 1 + 4 = 4 + 8 * i + 5 := by omega
    rw [f1, h.chkC i hi] at a1
    rw [f1, f2, h.chkB i hi] at a2
    exact ⟨a1, a2⟩
  · obtain ⟨i, hi, ho⟩ := List.mem_flatMap.1 ho
    have hi := List.mem_range.1 hi
    have f1 : 5 + 8 * i = 4 + 8 * i + 1 := by omega
    have f2 : 4 + 8 * i + 1 + 4 = 4 + 8 * i + 5 := by omega
    simp only [List.mem_cons, List.not_mem_nil, or_false] at ho
    rcases ho with rfl | rfl
    · rw [holds_copy, vz, f1, h.chkC i hi]; exact (H i hi).1
    · rw [holds_copy, vz, f1, f2, h.chkB i hi]; exact (H i hi).2
  · simp only [sat_cons, sat_nil, holds_copy, and_true, e1, e2, vz, h.invB, h.invC]

/-- Accepted tables. -/
theorem cells_of_sat (H : Hints p) (P : Par p) (T : Table (ZMod p)) (h : Sat T (circuit H P)) : Sat T (consts P) ∧ Cells P T := by
  rw [sat_steps] at h
  exact ⟨h.1, cells_of H P T h.1 fun n hn => Step.eq_of_sat _ _ _ (h.2 n hn)⟩

/-! ### The generated table -/

/-- The constants a table must hold before the assignment: those of the component and the weights of `mul_by_constant`. -/
def ConstsOk (P : Par p) (t : Table (ZMod p)) : Prop :=
  Sat t (consts P) ∧ ∀ i < P.N, t .constant 0 (P.row + ((4 + 8 * i + 2 : ℕ) : ℤ)) = 2 ^ i ∧
    t .constant 0 (P.row + ((4 + 8 * i + 6 : ℕ) : ℤ)) = 2 ^ i

theorem assign_const (H : Hints p) (P : Par p) (t : Table (ZMod p)) (ty : ColType) (i : ℕ) (r : ℤ)
    (h : ¬ (ty = .witness ∧ P.row ≤ r)) : assign H P t ty i r = t ty i r :=
  runTo_frame H P t 0 _ (by omega) ty i r (by simpa using h)

theorem consts_assign (H : Hints p) (P : Par p) (t : Table (ZMod p)) (h : Sat t (consts P)) : Sat (assign H P t) (consts P) := by
  simp only [consts, sat_cons, sat_nil, holds_constant, and_true] at h ⊢
  simp only [assign_const H P t .constant _ _ (by simp)]
  exact h

/-- The bits and inverses of the generated table are the hints. -/
structure Free (H : Hints p) (P : Par p) (T : Table (ZMod p)) : Prop where
  bitC : ∀ i < P.N, bc P T i = H.bitC i (cV P T)
  bitB : ∀ i < P.N, bb P T i = H.bitB i (bV P T)
  invC : fC P T = dC P T * H.invC (dC P T)
  invB : fB P T = dB P T * H.invB (dB P T)

/-- With any hints the generated table is accepted, and its free cells are the hints. -/
theorem run_ok (H : Hints p) (P : Par p) (hv : Early P.value P.row) (t : Table (ZMod p)) (ht : ConstsOk P t) :
    Sat (assign H P t) (circuit H P) ∧ Cells P (assign H P t) ∧ Free H P (assign H P t) ∧ P.value.value (assign H P t) = P.value.value t := by
  have hf := run_filled H P hv t
  have hcs := consts_assign H P t ht.1
  have hcell : Cells P (assign H P t) := cells_of H P _ hcs fun n hn => (hf n hn).1.2.2
  have hval : P.value.value (assign H P t) = P.value.value t :=
    assign_const H P t _ _ _ (by rintro ⟨h1, h2⟩; have := hv h1; omega)
  refine ⟨?_, hcell, ?_, hval⟩
  · rw [sat_steps]
    refine ⟨hcs, fun n hn => Step.sat_of_filled _ _ _ (hf n hn).1 ?_⟩
    rcases offset_cases P n hn with h | ⟨i, hi, j, hj, rfl⟩ | ⟨j, hj, rfl⟩
    · rw [stepAt_head H P n h]
      interval_cases n <;> trivial
    · rw [stepAt_loop H P i j hi hj]
      have h2 := ht.2 i hi
      interval_cases j
      · trivial
      · trivial
      · show assign H P t .constant 0 _ = _
        rw [assign_const H P t _ _ _ (by simp)]; exact h2.1
      · trivial
      · trivial
      · trivial
      · show assign H P t .constant 0 _ = _
        rw [assign_const H P t _ _ _ (by simp)]; exact h2.2
      · trivial
    · rw [stepAt_tail H P j]
      interval_cases j <;> trivial
  · have hr : rows P.N = P.tail + 11 := by unfold rows Par.tail; omega
    refine ⟨fun i hi => ?_, fun i hi => ?_, ?_, ?_⟩
    · have := (hf (4 + 8 * i + 0) (by unfold rows; omega)).2
      rw [stepAt_loop H P i 0 hi (by omega)] at this
      have := this _ _ rfl
      rw [hcell.c] at this
      rw [bc, mid_value]; exact this
    · have := (hf (4 + 8 * i + 4) (by unfold rows; omega)).2
      rw [stepAt_loop H P i 4 hi (by omega)] at this
      have := this _ _ rfl
      rw [hcell.b] at this
      rw [bb, mid_value]; exact this
    · have := (hf (P.tail + 5) (by omega)).2
      rw [stepAt_tail H P 5] at this
      have := this _ _ rfl
      rw [hcell.dC] at this
      rw [fC, mid_value, this]
    · have := (hf (P.tail + 1) (by omega)).2
      rw [stepAt_tail H P 1] at this
      have := this _ _ rfl
      rw [hcell.dB] at this
      rw [fB, mid_value, this]

/-! ### Values of weighted sums -/

theorem wsum_congr (b b' : ℕ → ZMod p) (n : ℕ) (h : ∀ i < n, b i = b' i) : wsum b n = wsum b' n :=
  Finset.sum_congr rfl fun i hi => by rw [h i (Finset.mem_range.1 hi)]

theorem wsum_bool (b : ℕ → ZMod p) : ∀ n, (∀ i < n, b i * (1 - b i) = 0) → ∃ w : ℕ, w < 2 ^ n ∧ wsum b n = (w : ZMod p) := by
  intro n
  induction n with
  | zero => intro _; exact ⟨0, by norm_num, by simp [wsum]⟩
  | succ n ih =>
    intro h
    obtain ⟨w, hw, e⟩ := ih fun i hi => h i (by omega)
    have e' : wsum b (n + 1) = wsum b n + 2 ^ n * b n := Finset.sum_range_succ _ _
    rcases mul_eq_zero.1 (h n (by omega)) with h0 | h1
    · exact ⟨w, by rw [pow_succ]; omega, by rw [e', e, h0]; ring⟩
    · exact ⟨w + 2 ^ n, by rw [pow_succ]; omega, by rw [e', e, show b n = 1 from (sub_eq_zero.1 h1).symm]; push_cast; ring⟩

theorem wsum_first (x : ZMod p) (n : ℕ) (hn : 1 ≤ n) : wsum (fun i => if i = 0 then x else 0) n = x := by
  obtain ⟨m, rfl⟩ := Nat.exists_eq_add_of_le' hn
  rw [wsum, Finset.sum_range_succ', Finset.sum_eq_zero fun i _ => by simp]
  simp

theorem bitOf_eq (i : ℕ) (z : ZMod p) : bitOf i z = ((z.val / 2 ^ i % 2 : ℕ) : ZMod p) := by
  unfold bitOf
  congr 1
  rw [Nat.shiftRight_eq_div_pow, Nat.shiftRight_eq_div_pow, Nat.shiftLeft_eq, pow_one]
  omega

theorem wsum_bits (z : ZMod p) (n : ℕ) : wsum (fun i => bitOf i z) n = ((z.val % 2 ^ n : ℕ) : ZMod p) := by
  induction n with
  | zero => simp [wsum, Nat.mod_one]
  | succ n ih =>
    have e' : wsum (fun i => bitOf i z) (n + 1) = wsum (fun i => bitOf i z) n + 2 ^ n * bitOf n z := Finset.sum_range_succ _ _
    rw [e', ih, bitOf_eq, Nat.mod_pow_succ]
    push_cast
    ring

theorem bitOf_bool (i : ℕ) (z : ZMod p) : bitOf i z * (1 - bitOf i z) = 0 := by
  rw [bitOf_eq]
  rcases Nat.mod_two_eq_zero_or_one (z.val / 2 ^ i) with h | h <;> rw [h] <;> simp

theorem sub_bits_eq_zero (z : ZMod p) (n : ℕ) : z - wsum (fun i => bitOf i z) n = 0 ↔ z.val < 2 ^ n := by
  rw [wsum_bits, sub_eq_zero]
  constructor
  · intro h
    have h1 : z.val = z.val % 2 ^ n := by
      have := congrArg ZMod.val h
      rw [ZMod.val_natCast, Nat.mod_eq_of_lt (lt_of_le_of_lt (Nat.mod_le _ _) (ZMod.val_lt z))] at this
      exact this
    rw [h1]; exact Nat.mod_lt _ (by positivity)
  · intro h
    rw [Nat.mod_eq_of_lt h, ZMod.natCast_zmod_val]

/-! ### The comparison on numbers -/

/-- When both differences are numbers of `N` bits. -/
theorem both_small (N : ℕ) (k v : ZMod p) (hp : 2 ^ (N + 1) ≤ p) (hk : k.val < 2 ^ N) (w w' : ℕ) (hw : w < 2 ^ N) (hw' : w' < 2 ^ N)
    (hc : -v = (w : ZMod p)) (hb : 2 ^ N - k - 1 - v = (w' : ZMod p)) : v = 0 ∨ p - k.val ≤ v.val := by
  by_cases h0 : v = 0
  · exact Or.inl h0
  right
  have hP : 2 ^ (N + 1) = 2 ^ N + 2 ^ N := by rw [pow_succ]; ring
  have hkc : ((k.val : ℕ) : ZMod p) = k := ZMod.natCast_zmod_val k
  have h1 : (-v).val = p - v.val := by rw [ZMod.neg_val, if_neg h0]
  have h2 : (-v).val = w := by rw [hc, ZMod.val_natCast, Nat.mod_eq_of_lt (by omega)]
  have h3 : ((2 ^ N - k.val - 1 + w : ℕ) : ZMod p) = (w' : ZMod p) := by
    rw [← hb, Nat.cast_add, Nat.sub_sub, Nat.cast_sub (by omega)]
    push_cast
    rw [hkc, ← hc]; ring
  have h4 : 2 ^ N - k.val - 1 + w = w' := by
    have := congrArg ZMod.val h3
    rwa [ZMod.val_natCast, ZMod.val_natCast, Nat.mod_eq_of_lt (by omega), Nat.mod_eq_of_lt (by omega)] at this
  omega

theorem small_iff (N : ℕ) (k v : ZMod p) (hp : 2 ^ (N + 1) ≤ p) (hk : k.val < 2 ^ N) :
    ((-v).val < 2 ^ N ∧ (2 ^ N - k - 1 - v).val < 2 ^ N) ↔ (v = 0 ∨ p - k.val ≤ v.val) := by
  constructor
  · rintro ⟨h1, h2⟩
    exact both_small N k v hp hk _ _ h1 h2 (ZMod.natCast_zmod_val _).symm (ZMod.natCast_zmod_val _).symm
  · intro h
    have hP : 2 ^ (N + 1) = 2 ^ N + 2 ^ N := by rw [pow_succ]; ring
    have hlt := ZMod.val_lt v
    have hkc : ((k.val : ℕ) : ZMod p) = k := ZMod.natCast_zmod_val k
    have h1 : (-v).val ≤ k.val := by
      by_cases h0 : v = 0
      · simp [h0]
      · rw [ZMod.neg_val, if_neg h0]
        rcases h with h | h
        · exact absurd h h0
        · omega
    refine ⟨by omega, ?_⟩
    have h2 : (2 ^ N - k - 1 - v : ZMod p) = ((2 ^ N - k.val - 1 + (-v).val : ℕ) : ZMod p) := by
      rw [Nat.cast_add, Nat.sub_sub, Nat.cast_sub (by omega), ZMod.natCast_zmod_val]
      push_cast
      rw [hkc]; ring
    rw [h2, ZMod.val_natCast, Nat.mod_eq_of_lt (by omega)]
    omega

/-- A checked inverse flags whether the number is 0. -/
theorem flag (d m : ZMod p) (h : (1 - d * m) * d = 0) : (d = 0 ∧ d * m = 0) ∨ (d ≠ 0 ∧ d * m = 1) := by
  rcases mul_eq_zero.1 h with h1 | h1
  · right
    have : d * m = 1 := (sub_eq_zero.1 h1).symm
    exact ⟨fun h0 => by simp [h0] at this, this⟩
  · left; exact ⟨h1, by rw [h1, zero_mul]⟩

/-- The constraints do not depend on the hints. -/
theorem circuit_hints (H H' : Hints p) (P : Par p) : circuit H P = circuit H' P := by
  unfold circuit
  congr 1
  refine List.flatMap_congr fun n hn => ?_
  rcases offset_cases P n (List.mem_range.1 hn) with h | ⟨i, hi, j, hj, rfl⟩ | ⟨j, hj, rfl⟩
  · rw [stepAt_head H P n h, stepAt_head H' P n h]
  · rw [stepAt_loop H P i j hi hj, stepAt_loop H' P i j hi hj]
    interval_cases j <;> rfl
  · rw [stepAt_tail H P j, stepAt_tail H' P j]
    interval_cases j <;> rfl

end KimchiCompare

open KimchiCompare

variable {p : ℕ} [Fact p.Prime]

/-- **C147** (negation). As generated, the output is free: over any table that holds the constants, with any input and for every `y`, an accepted table has output `y`. -/
theorem compare_any_output (P : Par p) (hN : 1 ≤ P.N) (hv : Early P.value P.row) (t : Table (ZMod p)) (ht : ConstsOk P t) (y : ZMod p) :
    ∃ T, Sat T (circuit honest P) ∧ P.value.value T = P.value.value t ∧ P.result.value T = y := by
  set H : Hints p := ⟨fun i z => if i = 0 then z + 1 else 0, fun _ _ => 0, fun _ => 0, fun _ => -y⟩ with hH
  obtain ⟨h1, h2, h3, h4⟩ := run_ok H P hv t ht
  refine ⟨assign H P t, by rw [circuit_hints honest H]; exact h1, h4, ?_⟩
  have e : dC P (assign H P t) = -1 := by
    have : wsum (bc P (assign H P t)) P.N = cV P (assign H P t) + 1 := by
      rw [wsum_congr _ _ _ h3.bitC]; exact wsum_first _ _ hN
    rw [dC, this]; ring
  rw [h2.res, h3.invC, h3.invB, e]
  show -1 * (-y) + _ * 0 - _ * (_ * 0) = y
  ring

/-- Cells that give output 1 for every input. -/
theorem compare_one_hints (P : Par p) (hN : 1 ≤ P.N) (hv : Early P.value P.row) (t : Table (ZMod p)) (ht : ConstsOk P t) :
    ∃ H : Hints p, Sat (assign H P t) (copies P) ∧ P.result.value (assign H P t) = 1 := by
  set H : Hints p := ⟨fun i z => if i = 0 then (if z = 0 then 1 else 0) else 0, fun _ _ => 0, fun z => z⁻¹, fun z => z⁻¹⟩ with hH
  obtain ⟨h1, h2, h3, h4⟩ := run_ok H P hv t ht
  set T := assign H P t with hT
  have e : wsum (bc P T) P.N = if cV P T = 0 then 1 else 0 := by
    rw [wsum_congr _ _ _ h3.bitC]; exact wsum_first _ _ hN
  have hd : dC P T ≠ 0 := by
    rw [dC, e]
    split
    · rename_i h; rw [h]; simp
    · rename_i h; simpa using h
  have hfC : fC P T = 1 := by rw [h3.invC]; exact mul_inv_cancel₀ hd
  refine ⟨H, ?_, ?_⟩
  · have hc := ((sat_steps H P T).1 h1).1
    refine (copies_iff P T hc h2).2 ⟨fun i hi => ?_, ?_, ?_⟩
    · rw [h3.bitC i hi, h3.bitB i hi]
      refine ⟨?_, by simp [hH]⟩
      simp only [hH]
      split <;> [split; skip] <;> simp
    · rw [h3.invB]
      by_cases h0 : dB P T = 0
      · rw [h0, mul_zero]
      · rw [show H.invB (dB P T) = (dB P T)⁻¹ from rfl, mul_inv_cancel₀ h0]; ring
    · rw [hfC]; ring
  · rw [h2.res, hfC]; ring

/-- **C147** (negation). Even with the copy constraints that the code forgets to generate, output 1 is accepted for every input. -/
theorem compare_one_always (P : Par p) (hN : 1 ≤ P.N) (hv : Early P.value P.row) (t : Table (ZMod p)) (ht : ConstsOk P t) :
    ∃ T, Sat T (circuit honest P ++ copies P) ∧ P.value.value T = P.value.value t ∧ P.result.value T = 1 := by
  obtain ⟨H, h1, h2⟩ := compare_one_hints P hN hv t ht
  obtain ⟨g1, -, -, g4⟩ := run_ok H P hv t ht
  exact ⟨assign H P t, by rw [sat_append, circuit_hints honest H]; exact ⟨g1, h1⟩, g4, h2⟩

/-- **C147** (partial). With the copy constraints added, the output is 0 or 1, and output 0 means that the input is 0 or at least `p - k`. The full statement also
has that output 1 means less than `p - k`; `compare_one_always` shows that it fails. -/
theorem compare_sound_partial (P : Par p) (hp : 2 ^ (P.N + 1) ≤ p) (hk : P.k.val < 2 ^ P.N) (T : Table (ZMod p))
    (h : Sat T (circuit honest P ++ copies P)) : (P.result.value T = 0 ∨ P.result.value T = 1) ∧
      (P.result.value T = 0 → P.value.value T = 0 ∨ p - P.k.val ≤ (P.value.value T).val) := by
  rw [sat_append] at h
  obtain ⟨hc, h2⟩ := cells_of_sat honest P T h.1
  obtain ⟨hb, iB, iC⟩ := (copies_iff P T hc h2).1 h.2
  rw [h2.res]
  rcases flag _ _ iB with ⟨b0, b1⟩ | ⟨b0, b1⟩ <;> rcases flag _ _ iC with ⟨c0, c1⟩ | ⟨c0, c1⟩ <;>
    rw [show fB P T = _ from b1, show fC P T = _ from c1]
  · refine ⟨Or.inl (by ring), fun _ => ?_⟩
    obtain ⟨w, hw, e⟩ := wsum_bool (bc P T) P.N fun i hi => (hb i hi).1
    obtain ⟨w', hw', e'⟩ := wsum_bool (bb P T) P.N fun i hi => (hb i hi).2
    exact both_small P.N P.k _ hp hk w w' hw hw' ((sub_eq_zero.1 c0).trans e) ((sub_eq_zero.1 b0).trans e')
  · exact ⟨Or.inr (by ring), fun h => by norm_num at h⟩
  · exact ⟨Or.inr (by ring), fun h => by norm_num at h⟩
  · exact ⟨Or.inr (by ring), fun h => by norm_num at h⟩

/-- **C147** The generated table is accepted, with and without the copy constraints, and its output is 0 exactly when the input is 0 or at least `p - k`, and otherwise 1. -/
theorem compare_honest (P : Par p) (hp : 2 ^ (P.N + 1) ≤ p) (hk : P.k.val < 2 ^ P.N) (hv : Early P.value P.row) (t : Table (ZMod p)) (ht : ConstsOk P t) :
    Sat (assign honest P t) (circuit honest P ++ copies P) ∧ P.value.value (assign honest P t) = P.value.value t ∧
      P.result.value (assign honest P t) = if P.value.value t = 0 ∨ p - P.k.val ≤ (P.value.value t).val then 0 else 1 := by
  obtain ⟨h1, h2, h3, h4⟩ := run_ok honest P hv t ht
  set T := assign honest P t with hT
  have eC : dC P T = 0 ↔ (-(P.value.value t)).val < 2 ^ P.N := by
    rw [dC, wsum_congr _ _ _ h3.bitC, ← h4]; exact sub_bits_eq_zero _ _
  have eB : dB P T = 0 ↔ (2 ^ P.N - P.k - 1 - P.value.value t).val < 2 ^ P.N := by
    rw [dB, wsum_congr _ _ _ h3.bitB, ← h4]; exact sub_bits_eq_zero _ _
  have fl : ∀ d : ZMod p, d * (if d ≠ 0 then d⁻¹ else 0) = if d = 0 then 0 else 1 := fun d => by
    by_cases h : d = 0
    · simp [h]
    · simp [h]
  have hfC : fC P T = if dC P T = 0 then 0 else 1 := by rw [h3.invC]; exact fl _
  have hfB : fB P T = if dB P T = 0 then 0 else 1 := by rw [h3.invB]; exact fl _
  refine ⟨?_, h4, ?_⟩
  · rw [sat_append]
    refine ⟨h1, (copies_iff P T ((sat_steps honest P T).1 h1).1 h2).2 ⟨fun i hi => ?_, ?_, ?_⟩⟩
    · rw [h3.bitC i hi, h3.bitB i hi]; exact ⟨bitOf_bool _ _, bitOf_bool _ _⟩
    · rw [hfB]; split
      · rename_i h; rw [h, mul_zero]
      · ring
    · rw [hfC]; split
      · rename_i h; rw [h, mul_zero]
      · ring
  · rw [h2.res, hfC, hfB]
    have key := small_iff P.N P.k (P.value.value t) hp hk
    rw [← eC, ← eB] at key
    by_cases hc : dC P T = 0 <;> by_cases hb : dB P T = 0
    · rw [if_pos hc, if_pos hb, if_pos (key.1 ⟨hc, hb⟩)]; ring
    · rw [if_pos hc, if_neg hb, if_neg fun h => hb (key.2 h).2]; ring
    · rw [if_neg hc, if_pos hb, if_neg fun h => hc (key.2 h).1]; ring
    · rw [if_neg hc, if_neg hb, if_neg fun h => hb (key.2 h).2]; ring

/-- **C147** (negation). The comment of the component asks for 1 when the input is less than the constant `p - k`; for input 0 the generated output is 0. -/
theorem compare_zero_wrong (P : Par p) (hp : 2 ^ (P.N + 1) ≤ p) (hk : P.k.val < 2 ^ P.N) (hv : Early P.value P.row) (t : Table (ZMod p)) (ht : ConstsOk P t)
    (h0 : P.value.value t = 0) : (P.value.value t).val < p - P.k.val ∧ P.result.value (assign honest P t) = 0 := by
  have hP : 2 ^ (P.N + 1) = 2 ^ P.N + 2 ^ P.N := by rw [pow_succ]; ring
  refine ⟨?_, by rw [(compare_honest P hp hk hv t ht).2.2, if_pos (Or.inl h0)]⟩
  rw [h0, ZMod.val_zero]; omega

/-- The digest is the squeezed element times the result of the comparison. -/
theorem digest_value (P : Par p) (T : Table (ZMod p)) (h : Sat T (digestCircuit honest P)) :
    (digestOut P).value T = P.result.value T * P.value.value T := by
  rw [digestCircuit, sat_append] at h
  rw [digestOut, out_value]
  exact Step.eq_of_sat ⟨.mul, P.result, P.value, none⟩ _ _ h.2

/-- The constant of an accepted call. -/
theorem KimchiCompare.Step.constOk_of_sat (st : Step p) (row : ℤ) (T : Table (ZMod p)) (h : Sat T (st.ops row)) : st.ConstOk row T := by
  obtain ⟨kind, x, y, hint⟩ := st
  cases kind <;> try trivial
  simp only [Step.ops, MulByConstant.circuit, sat_cons, sat_nil, holds_gate, holds_copy, holds_constant, and_true, k20] at h
  exact h.2.2

/-- Later rows do not disturb a filled one. -/
theorem KimchiCompare.Step.filled_keep (st : Step p) (row : ℤ) (hg : st.Good row) (T T' : Table (ZMod p))
    (hag : ∀ ty i r, ¬ (ty = .witness ∧ row + 1 ≤ r) → T' ty i r = T ty i r) (h : st.Filled row T) : st.Filled row T' := by
  have hw : ∀ i, T' .witness i row = T .witness i row := fun i => hag _ _ _ (by rintro ⟨-, h⟩; omega)
  have hx : st.x.value T' = st.x.value T := early_value hg.1 T T' fun ty i r h => hag ty i r (by rintro ⟨h1, h2⟩; exact h ⟨h1, by omega⟩)
  have hy : st.y.value T' = st.y.value T := by
    have hy := hg.2
    cases hh : st.hint with
    | none =>
      rw [hh] at hy
      exact early_value hy T T' fun ty i r h => hag ty i r (by rintro ⟨h1, h2⟩; exact h ⟨h1, by omega⟩)
    | some vf =>
      rw [hh] at hy
      rw [hy.1, Cols.value_wa, Cols.value_wa, hw]
  obtain ⟨kind, x, y, hint⟩ := st
  simp only at hx hy
  cases kind <;> simp only [Step.Filled, Step.Eq, hw, hx, hy] at h ⊢ <;> exact h

/-- The digest over any hints: accepted, and the product of the two. -/
theorem digest_run (H : Hints p) (P : Par p) (hv : Early P.value P.row) (t : Table (ZMod p)) (ht : ConstsOk P t) :
    Sat (digestAssign H P t) (digestCircuit honest P) ∧ P.value.value (digestAssign H P t) = P.value.value t ∧
      (digestOut P).value (digestAssign H P t) = P.result.value (assign H P t) * P.value.value t := by
  set R := P.row + (rows P.N : ℤ) with hR
  set st : Step p := ⟨.mul, P.result, P.value, none⟩ with hst
  have e : digestAssign H P t = st.assign R (assign H P t) := rfl
  have hr : rows P.N = P.tail + 11 := by unfold rows Par.tail; omega
  have hvR : Early P.value R := fun h => by have := hv h; omega
  have hg : st.Good R := ⟨early_out P (by omega), hvR⟩
  have hfr : ∀ ty i r, ¬ (ty = .witness ∧ r = R) → digestAssign H P t ty i r = assign H P t ty i r := fun ty i r h => by
    rw [e]; exact st.assign_frame R _ ty i r h
  have hfilled := (st.assign_filled R (assign H P t) hg).1
  rw [← e] at hfilled
  have hag : ∀ n < rows P.N, ∀ ty i r, ¬ (ty = .witness ∧ P.row + (n : ℤ) + 1 ≤ r) → digestAssign H P t ty i r = assign H P t ty i r :=
    fun n hn ty i r h => hfr ty i r (by rintro ⟨h1, h2⟩; exact h ⟨h1, by omega⟩)
  have hval : P.value.value (digestAssign H P t) = P.value.value t := by
    rw [early_value hg.2 (assign H P t) _ fun ty i r h => hfr ty i r (by rintro ⟨h1, h2⟩; exact h ⟨h1, by omega⟩)]
    exact (run_ok H P hv t ht).2.2.2
  have hres : P.result.value (digestAssign H P t) = P.result.value (assign H P t) :=
    early_value hg.1 (assign H P t) _ fun ty i r h => hfr ty i r (by rintro ⟨h1, h2⟩; exact h ⟨h1, by omega⟩)
  have hcirc := (run_ok H P hv t ht).1
  rw [sat_steps] at hcirc
  refine ⟨?_, hval, ?_⟩
  · rw [digestCircuit, sat_append, circuit_hints honest H, sat_steps]
    refine ⟨⟨?_, fun n hn => ?_⟩, Step.sat_of_filled st R _ hfilled trivial⟩
    · have h := hcirc.1
      simp only [consts, sat_cons, sat_nil, holds_constant, and_true] at h ⊢
      simp only [hfr .constant _ _ (by simp)]
      exact h
    · refine Step.sat_of_filled _ _ _ (Step.filled_keep _ _ (good H P hv n hn) _ _ (hag n hn) (run_filled H P hv t n hn).1) ?_
      have hk : (stepAt H P n).ConstOk (P.row + (n : ℤ)) (assign H P t) := Step.constOk_of_sat _ _ _ (hcirc.2 n hn)
      unfold Step.ConstOk at hk ⊢
      cases hkd : (stepAt H P n).kind <;> rw [hkd] at hk <;> trivial
  · have := hfilled.2.2
    rw [digestOut, out_value]
    have h3 : digestAssign H P t .witness 2 R = P.result.value (digestAssign H P t) * P.value.value (digestAssign H P t) := this
    rw [← hR, h3, hres, hval]

/-- **C148** (negation). Every multiple of the squeezed element is accepted as the digest; when it is not 0 every field element is. -/
theorem digest_any (P : Par p) (hN : 1 ≤ P.N) (hv : Early P.value P.row) (t : Table (ZMod p)) (ht : ConstsOk P t) (h0 : P.value.value t ≠ 0) (d : ZMod p) :
    ∃ T, Sat T (digestCircuit honest P) ∧ P.value.value T = P.value.value t ∧ (digestOut P).value T = d := by
  set H : Hints p := ⟨fun i z => if i = 0 then z + 1 else 0, fun _ _ => 0, fun _ => 0, fun _ => -(d / P.value.value t)⟩ with hH
  obtain ⟨h1, h2, h3, h4⟩ := run_ok H P hv t ht
  obtain ⟨g1, g2, g3⟩ := digest_run H P hv t ht
  refine ⟨digestAssign H P t, g1, g2, ?_⟩
  have e : dC P (assign H P t) = -1 := by
    have : wsum (bc P (assign H P t)) P.N = cV P (assign H P t) + 1 := by
      rw [wsum_congr _ _ _ h3.bitC]; exact wsum_first _ _ hN
    rw [dC, this]; ring
  have r : P.result.value (assign H P t) = d / P.value.value t := by
    rw [h2.res, h3.invC, h3.invB, e]
    show -1 * (-(d / P.value.value t)) + _ * 0 - _ * (_ * 0) = d / P.value.value t
    ring
  rw [g3, r, div_mul_cancel₀ _ h0]

/-- **C148** The generated table is accepted and its digest is the squeezed element if that is less than the modulus of the other curve, and otherwise 0. -/
theorem digest_honest (P : Par p) (hp : 2 ^ (P.N + 1) ≤ p) (hk : P.k.val < 2 ^ P.N) (hv : Early P.value P.row) (t : Table (ZMod p)) (ht : ConstsOk P t) :
    Sat (digestAssign honest P t) (digestCircuit honest P) ∧
      (digestOut P).value (digestAssign honest P t) = if (P.value.value t).val < p - P.k.val then P.value.value t else 0 := by
  obtain ⟨g1, g2, g3⟩ := digest_run honest P hv t ht
  refine ⟨g1, ?_⟩
  rw [g3, (compare_honest P hp hk hv t ht).2.2]
  by_cases h0 : P.value.value t = 0
  · simp [h0]
  · by_cases h1 : p - P.k.val ≤ (P.value.value t).val
    · rw [if_pos (Or.inr h1), if_neg (by omega), zero_mul]
    · rw [if_neg (by simp only [h0, false_or]; exact h1), if_pos (by omega), one_mul]

/-- **C148** (partial). With the copy constraints that the code forgets, the digest is the squeezed element or 0, and 0 only if the squeezed element is 0 or not less
than the modulus of the other curve. The full statement also has that the digest of a larger element is 0; `digest_large_wrong` shows that it fails. -/
theorem digest_sound_partial (P : Par p) (hp : 2 ^ (P.N + 1) ≤ p) (hk : P.k.val < 2 ^ P.N) (T : Table (ZMod p))
    (h : Sat T (digestCircuit honest P ++ copies P)) :
    ((digestOut P).value T = P.value.value T ∨ (digestOut P).value T = 0) ∧
      ((P.value.value T).val < p - P.k.val → (digestOut P).value T = P.value.value T) := by
  rw [sat_append] at h
  have h1 : Sat T (circuit honest P ++ copies P) := by
    rw [sat_append]
    have := h.1
    rw [digestCircuit, sat_append] at this
    exact ⟨this.1, h.2⟩
  obtain ⟨hb, hz⟩ := compare_sound_partial P hp hk T h1
  rw [digest_value P T h.1]
  rcases hb with hb | hb
  · rw [hb, zero_mul]
    refine ⟨Or.inr rfl, fun hlt => ?_⟩
    rcases hz hb with h | h
    · exact h.symm
    · omega
  · rw [hb, one_mul]; exact ⟨Or.inl rfl, fun _ => rfl⟩

/-- The copy constraints of the comparison survive the last row. -/
theorem digest_copies (H : Hints p) (P : Par p) (t : Table (ZMod p)) (h : Sat (assign H P t) (copies P)) : Sat (digestAssign H P t) (copies P) := by
  have hfr : ∀ v : Var, Early v (P.row + (rows P.N : ℤ)) → v.value (digestAssign H P t) = v.value (assign H P t) := fun v hv =>
    early_value hv _ _ fun ty i r h => by
      show Step.assign ⟨.mul, P.result, P.value, none⟩ (P.row + (rows P.N : ℤ)) (assign H P t) ty i r = _
      exact Step.assign_frame _ _ _ ty i r (by rintro ⟨h1, h2⟩; exact h ⟨h1, by omega⟩)
  have hz := hfr _ (early_const P _).1
  have ho : ∀ n < rows P.N, (P.out n).value (digestAssign H P t) = (P.out n).value (assign H P t) := fun n hn => hfr _ (early_out P hn)
  intro o hm
  have hO := h o hm
  rw [copies, List.mem_append] at hm
  rcases hm with hm | hm
  · obtain ⟨i, hi, hm⟩ := List.mem_flatMap.1 hm
    have hi := List.mem_range.1 hi
    simp only [List.mem_cons, List.not_mem_nil, or_false] at hm
    rcases hm with rfl | rfl <;> rw [holds_copy] at hO ⊢ <;> rw [hz, ho _ (by unfold rows; omega)] <;> exact hO
  · simp only [List.mem_cons, List.not_mem_nil, or_false] at hm
    rcases hm with rfl | rfl <;> rw [holds_copy] at hO ⊢ <;> rw [hz, ho _ (by unfold rows; omega)] <;> exact hO

/-- **C148** (negation). Even with the copy constraints, the digest of every element may be the element itself, also when it is not less than the other modulus. -/
theorem digest_large_wrong (P : Par p) (hN : 1 ≤ P.N) (hv : Early P.value P.row) (t : Table (ZMod p)) (ht : ConstsOk P t) :
    ∃ T, Sat T (digestCircuit honest P ++ copies P) ∧ P.value.value T = P.value.value t ∧ (digestOut P).value T = P.value.value t := by
  obtain ⟨H, h1, h2⟩ := compare_one_hints P hN hv t ht
  obtain ⟨g1, g2, g3⟩ := digest_run H P hv t ht
  refine ⟨digestAssign H P t, by rw [sat_append]; exact ⟨g1, digest_copies H P t h1⟩, g2, by rw [g3, h2, one_mul]⟩

/-! ### The hypotheses can be met -/

namespace KimchiCompare

/-- A table with the constants in place, `v` in all other cells. -/
def baseTable (P : Par p) (v : ZMod p) : Table (ZMod p) := fun ty _ r =>
  if ty = .constant then
    (if r = P.row then P.k else if r = P.row + 1 then 2 ^ P.N else if r = P.row + 2 then 0 else if r = P.row + 3 then 1
     else 2 ^ ((r - P.row - 4).toNat / 8))
  else v

theorem base_ok (P : Par p) (v : ZMod p) : ConstsOk P (baseTable P v) := by
  refine ⟨?_, fun i hi => ⟨?_, ?_⟩⟩
  · simp only [consts, sat_cons, sat_nil, holds_constant, and_true, baseTable, if_true]
    refine ⟨trivial, ?_, ?_, ?_⟩
    · rw [if_neg (by omega)]
    · rw [if_neg (by omega), if_neg (by omega)]
    · rw [if_neg (by omega), if_neg (by omega), if_neg (by omega)]
  · simp only [baseTable, if_true]
    rw [if_neg (by omega), if_neg (by omega), if_neg (by omega), if_neg (by omega)]
    congr 1; omega
  · simp only [baseTable, if_true]
    rw [if_neg (by omega), if_neg (by omega), if_neg (by omega), if_neg (by omega)]
    congr 1; omega

/-- The component of the code: 87 bits, the difference of the moduli, the input in a witness cell of the row before. -/
def codePar : Par vestaP := ⟨87, ((vestaP - pallasP : ℕ) : ZMod vestaP), Kimchi.c3.wa 0 0, 1⟩

theorem codePar_val : codePar.k.val = vestaP - pallasP := by
  show (((vestaP - pallasP : ℕ) : ZMod vestaP)).val = _
  rw [ZMod.val_natCast]
  decide +kernel

theorem codePar_k : codePar.k.val < 2 ^ codePar.N := by
  rw [codePar_val]; decide +kernel

theorem codePar_p : 2 ^ (codePar.N + 1) ≤ vestaP := by decide +kernel

theorem codePar_const : vestaP - codePar.k.val = pallasP := by rw [codePar_val]; decide +kernel

theorem codePar_early : Early codePar.value codePar.row := fun _ => by decide

/-- With the parameters of the code, the modulus of the Pallas base field itself and everything above gives 0, 5 gives 1. -/
example : codePar.result.value (assign honest codePar (baseTable codePar 5)) = 1 := by
  rw [(compare_honest codePar codePar_p codePar_k codePar_early _ (base_ok _ 5)).2.2, codePar_const]
  rw [show codePar.value.value (baseTable codePar 5) = 5 from rfl, if_neg]
  decide +kernel

example : codePar.result.value (assign honest codePar (baseTable codePar (pallasP : ZMod vestaP))) = 0 := by
  rw [(compare_honest codePar codePar_p codePar_k codePar_early _ (base_ok _ _)).2.2, codePar_const]
  rw [show codePar.value.value (baseTable codePar (pallasP : ZMod vestaP)) = (pallasP : ZMod vestaP) from rfl, if_pos]
  right
  rw [ZMod.val_natCast]
  decide +kernel

/-- Input 0 is wrong. -/
example : codePar.result.value (assign honest codePar (baseTable codePar 0)) = 0 :=
  (compare_zero_wrong codePar codePar_p codePar_k codePar_early _ (base_ok _ 0) rfl).2

/-- The digest of 5 may be 7. -/
example : ∃ T, Sat T (digestCircuit honest codePar) ∧ codePar.value.value T = 5 ∧ (digestOut codePar).value T = 7 :=
  digest_any codePar (by decide) codePar_early _ (base_ok _ 5) (by
    rw [show codePar.value.value (baseTable codePar 5) = 5 from rfl]; decide +kernel) 7

/-- Accepted tables with the copies. -/
example : ∃ T, Sat T (circuit honest codePar ++ copies codePar) ∧ codePar.value.value T = 5 :=
  ⟨_, (compare_honest codePar codePar_p codePar_k codePar_early _ (base_ok _ 5)).1, (compare_honest codePar codePar_p codePar_k codePar_early _ (base_ok _ 5)).2.1⟩

end KimchiCompare
end Verif
