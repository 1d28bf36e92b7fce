import Verif.Model.CombinedInnerProduct
import Mathlib.Algebra.BigOperators.Group.Finset.Basic
import Mathlib.Algebra.BigOperators.Ring.Finset

/-!
# Combined inner product: C129, C130
-/

set_option linter.unusedSimpArgs false
set_option linter.unusedVariables false

namespace Verif
namespace Cip
variable {F : Type*} [Field F]

/-- Specification: `Σ_{i<n} xi^i (a_i + r b_i)`. -/
def spec (xi r : F) (a b : ℕ → F) (n : ℕ) : F := ∑ i ∈ Finset.range n, xi ^ i * (a i + r * b i)

theorem accAt_eq (xi : F) (n : ℕ) : accAt xi n = xi ^ n := by
  induction n with
  | zero => simp [accAt]
  | succ n ih => rw [accAt, ih, pow_succ]

theorem sAt_eq (xi r : F) (a b : ℕ → F) (n : ℕ) : sAt xi r a b n = spec xi r a b n := by
  induction n with
  | zero => simp [sAt, spec]
  | succ n ih => rw [sAt, ih, accAt_eq, spec, spec, Finset.sum_range_succ]

theorem rows_bounds (k : ℕ) : k ≤ mainRows k * 5 ∧ mainRows k * 5 < k + 5 ∧ (k % 5 = 0 → mainRows k * 5 = k) := by
  unfold mainRows perRow
  omega

theorem gate_iff (c : Cols) (t : Table F) (row : ℤ) :
    (∀ e ∈ (gate c : List (Expr F)), e.eval t row = 0) ↔
      t .witness (c.w 0) (row + 1) = t .witness (c.w 0) row ∧
      t .witness (c.w 13) (row + 1) = t .witness (c.w 13) row ∧
      t .witness (c.w 1) (row + 1) = t .witness (c.w 1) row * t .witness (c.w 13) (row + 1) ^ 5 ∧
      t .witness (c.w 2) (row + 1) = t .witness (c.w 2) row + t .witness (c.w 1) row *
        spec (t .witness (c.w 13) row) (t .witness (c.w 0) row) (fun j => t .witness (3 + j * 2) row)
          (fun j => t .witness (4 + j * 2) row) 5 := by
  simp only [gate, sumE, perRow, List.range_succ, List.range_zero, List.nil_append, List.cons_append, List.foldl_cons,
    List.foldl_nil, List.forall_mem_cons, List.not_mem_nil, IsEmpty.forall_iff, implies_true, and_true,
    Expr.eval_sub, Expr.eval_mul, Expr.eval_add, Cols.eval_wv, raw, Expr.eval_var, Var.evalAt, if_true,
    add_zero, spec, Finset.sum_range_succ, Finset.sum_range_zero, zero_add, Nat.reduceSub]
  simp only [sub_eq_zero]
  constructor
  · rintro ⟨h1, h2, h3, h4⟩
    exact ⟨h1.symm, h2.symm, by rw [h3]; ring, by rw [h4]; ring⟩
  · rintro ⟨h1, h2, h3, h4⟩
    exact ⟨h1.symm, h2.symm, by rw [h3]; ring, by rw [h4]; ring⟩

theorem circuit_iff (c : Cols) (k : ℕ) (p : Params) (srow : ℤ) (t : Table F) :
    Sat t (circuit c k p srow) ↔
      (∀ i < mainRows k, ∀ e ∈ (gate c : List (Expr F)), e.eval t (srow + (i : ℤ)) = 0) ∧
      t .witness (c.w 0) srow = p.r.value t ∧ t .witness (c.w 13) srow = p.xi.value t ∧
      t .witness (c.w 1) srow = 1 ∧ t .witness (c.w 2) srow = 0 ∧
      (∀ i < k, t .witness (3 + (i % 5) * 2) (srow + ((i / 5 : ℕ) : ℤ)) = (p.f1 i).value t ∧
        t .witness (4 + (i % 5) * 2) (srow + ((i / 5 : ℕ) : ℤ)) = (p.f2 i).value t) ∧
      t .constant 0 srow = 0 ∧ t .constant 0 (srow + 1) = 1 := by
  have hg : (Op.gate (gate c : List (Expr F)) (rowsFrom srow (mainRows k))).Holds t ↔
      ∀ r < mainRows k, ∀ e ∈ (gate c : List (Expr F)), e.eval t (srow + (r : ℤ)) = 0 := by
    rw [holds_gate]
    constructor
    · intro h r hr; exact h _ (mem_rowsFrom.2 ⟨r, hr, rfl⟩)
    · intro h r hr
      obtain ⟨i, hi, rfl⟩ := mem_rowsFrom.1 hr
      exact h i hi
  have hm : ∀ i, (2 * i) % 10 = (i % 5) * 2 := by omega
  have hf : Sat t ((List.range k).flatMap fun (i : ℕ) =>
      [(.copy ⟨3 + (2 * i) % 10, srow + ((i / 5 : ℕ) : ℤ), false, .witness⟩ (p.f1 i) : Op F),
       .copy ⟨4 + (2 * i) % 10, srow + ((i / 5 : ℕ) : ℤ), false, .witness⟩ (p.f2 i)]) ↔
      ∀ i < k, t .witness (3 + (i % 5) * 2) (srow + ((i / 5 : ℕ) : ℤ)) = (p.f1 i).value t ∧
        t .witness (4 + (i % 5) * 2) (srow + ((i / 5 : ℕ) : ℤ)) = (p.f2 i).value t := by
    unfold Sat
    simp only [List.mem_flatMap, List.mem_range, List.mem_cons, List.not_mem_nil, or_false]
    constructor
    · intro h i hi
      have h1 := h _ ⟨i, hi, Or.inl rfl⟩
      have h2 := h _ ⟨i, hi, Or.inr rfl⟩
      rw [holds_copy] at h1 h2
      rw [← h1, ← h2, hm]
      exact ⟨rfl, rfl⟩
    · rintro h o ⟨i, hi, rfl | rfl⟩
      · rw [holds_copy, ← (h i hi).1, ← hm]; rfl
      · rw [holds_copy, ← (h i hi).2, ← hm]; rfl
  simp only [circuit, sat_append, sat_cons, sat_nil, and_true, hg, hf, holds_copy, holds_constant, Cols.value_wa]
  simp only [Var.value]
  constructor
  · rintro ⟨⟨⟨h1, h2, h3, h4, h5⟩, h6⟩, h7, h8⟩
    exact ⟨h1, h2, h3, h4.trans h8, h5.trans h7, h6, h7, h8⟩
  · rintro ⟨h1, h2, h3, h4, h5, h6, h7, h8⟩
    exact ⟨⟨⟨h1, h2, h3, h4.trans h8.symm, h5.trans h7.symm⟩, h6⟩, h7, h8⟩

/-- What the constraints enforce: the sum over all `5 * main_rows` pairs of cells. -/
theorem sound_cells (c : Cols) (k : ℕ) (p : Params) (srow : ℤ) (t : Table F) (h : Sat t (circuit c k p srow)) :
    (out c k srow).value t = spec (p.xi.value t) (p.r.value t)
      (fun i => t .witness (3 + (i % 5) * 2) (srow + ((i / 5 : ℕ) : ℤ)))
      (fun i => t .witness (4 + (i % 5) * 2) (srow + ((i / 5 : ℕ) : ℤ))) (mainRows k * 5) := by
  obtain ⟨hg, h0, h13, h1, h2, -⟩ := (circuit_iff c k p srow t).1 h
  have key : ∀ i ≤ mainRows k, t .witness (c.w 0) (srow + (i : ℤ)) = p.r.value t ∧
      t .witness (c.w 13) (srow + (i : ℤ)) = p.xi.value t ∧
      t .witness (c.w 1) (srow + (i : ℤ)) = p.xi.value t ^ (i * 5) ∧
      t .witness (c.w 2) (srow + (i : ℤ)) = spec (p.xi.value t) (p.r.value t)
        (fun i => t .witness (3 + (i % 5) * 2) (srow + ((i / 5 : ℕ) : ℤ)))
        (fun i => t .witness (4 + (i % 5) * 2) (srow + ((i / 5 : ℕ) : ℤ))) (i * 5) := by
    intro i
    induction i with
    | zero => intro _; simpa [spec] using ⟨h0, h13, h1, h2⟩
    | succ i ih =>
      intro hi
      obtain ⟨a0, a13, a1, a2⟩ := ih (by omega)
      obtain ⟨g0, g13, g1, g2⟩ := (gate_iff c t _).1 (hg i (by omega))
      have e : srow + ((i + 1 : ℕ) : ℤ) = srow + (i : ℤ) + 1 := by push_cast; ring
      rw [e]
      refine ⟨g0.trans a0, g13.trans a13, ?_, ?_⟩
      · rw [g1, g13, a1, a13, ← pow_add]; congr 1; ring
      · rw [g2, a2, a1, a13, a0, Nat.add_mul, Nat.one_mul, spec, spec, spec, Finset.sum_range_add, Finset.mul_sum]
        congr 1
        apply Finset.sum_congr rfl
        intro j hj
        have hj' : j < 5 := Finset.mem_range.1 hj
        have e1 : (i * 5 + j) % 5 = j := by omega
        have e2 : (i * 5 + j) / 5 = i := by omega
        simp only [e1, e2, pow_add]
        ring
  have hr : srow + ((rows k : ℕ) : ℤ) - 1 = srow + (mainRows k : ℤ) := by unfold rows; push_cast; ring
  rw [out, Cols.value_wa, hr]
  exact (key _ le_rfl).2.2.2

theorem spec_congr {xi r : F} {a b a' b' : ℕ → F} {n : ℕ} (h : ∀ i < n, a i = a' i ∧ b i = b' i) :
    spec xi r a b n = spec xi r a' b' n := by
  apply Finset.sum_congr rfl
  intro i hi
  obtain ⟨h1, h2⟩ := h i (Finset.mem_range.1 hi)
  rw [h1, h2]

/-- C129, soundness when the number of pairs fills the rows: the output is the combined inner product of the inputs,
in every table that satisfies the constraints. -/
theorem cip_sound_partial (c : Cols) (k : ℕ) (hk : k % 5 = 0) (p : Params) (srow : ℤ) (t : Table F)
    (h : Sat t (circuit c k p srow)) :
    (out c k srow).value t =
      spec (p.xi.value t) (p.r.value t) (fun i => (p.f1 i).value t) (fun i => (p.f2 i).value t) k := by
  rw [sound_cells c k p srow t h, (rows_bounds k).2.2 hk]
  exact spec_congr ((circuit_iff c k p srow t).1 h).2.2.2.2.2.1

/-- C129, any number of pairs: the output differs from the combined inner product by terms of degree `k` and more, so
it is right when the evaluation point `xi` is zero. -/
theorem cip_sound_zero (c : Cols) (k : ℕ) (hk : 0 < k) (p : Params) (srow : ℤ) (t : Table F)
    (h : Sat t (circuit c k p srow)) (hx : p.xi.value t = 0) :
    (out c k srow).value t =
      spec (p.xi.value t) (p.r.value t) (fun i => (p.f1 i).value t) (fun i => (p.f2 i).value t) k := by
  obtain ⟨d, hd⟩ := Nat.exists_eq_add_of_le (rows_bounds k).1
  rw [sound_cells c k p srow t h, hd, spec, Finset.sum_range_add, hx]
  have : ∑ x ∈ Finset.range d, (0 : F) ^ (k + x) * (t .witness (3 + ((k + x) % 5) * 2) (srow + (((k + x) / 5 : ℕ) : ℤ)) +
      p.r.value t * t .witness (4 + ((k + x) % 5) * 2) (srow + (((k + x) / 5 : ℕ) : ℤ))) = 0 := by
    apply Finset.sum_eq_zero
    intro i _
    rw [zero_pow (by omega), zero_mul]
  rw [this, add_zero]
  exact spec_congr ((circuit_iff c k p srow t).1 h).2.2.2.2.2.1

/-- The layout of the tests: witness columns 0 .. 14. -/
def cols : Cols := ⟨List.range 15, [0], []⟩
theorem cols_ok : cols.OK 15 := ⟨by decide, rfl⟩
theorem cols_w {i : ℕ} (h : i < 15) : cols.w (i : ℤ) = i := by
  interval_cases i <;> decide

/-- Value of the cell in row `i`, column `j`. -/
def cell (xi r : F) (f1 f2 : ℕ → F) (i j : ℕ) : F :=
  if j = 0 then r else if j = 1 then accAt xi (i * 5) else if j = 2 then sAt xi r f1 f2 (i * 5) else
  if j = 13 then xi else if j % 2 = 1 then f1 (i * 5 + (j - 3) / 2) else f2 (i * 5 + (j - 4) / 2)

theorem mem_writes {k : ℕ} {xi r : F} {f1 f2 : ℕ → F} {srow : ℤ} {z : Write F} :
    z ∈ writes cols k xi r f1 f2 srow ↔
      ∃ i ≤ mainRows k, ∃ j : ℕ, (j = 0 ∨ j = 1 ∨ j = 2 ∨ j = 13 ∨ (i < mainRows k ∧ 3 ≤ j ∧ j < 13)) ∧
        z = ⟨.witness, cols.w (j : ℤ), srow + (i : ℤ), cell xi r f1 f2 i j⟩ := by
  have hr : srow + ((rows k : ℕ) : ℤ) - 1 = srow + (mainRows k : ℤ) := by unfold rows; push_cast; ring
  have h3 : ∀ j < 5, cols.w ((3 + j * 2 : ℕ) : ℤ) = 3 + j * 2 := fun j hj => cols_w (by omega)
  have h4 : ∀ j < 5, cols.w ((4 + j * 2 : ℕ) : ℤ) = 4 + j * 2 := fun j hj => cols_w (by omega)
  have c3 : ∀ i j, j < 5 → cell xi r f1 f2 i (3 + j * 2) = f1 (i * 5 + j) := by
    intro i j hj
    rw [cell, if_neg (by omega), if_neg (by omega), if_neg (by omega), if_neg (by omega), if_pos (by omega)]
    congr 2; omega
  have c4 : ∀ i j, j < 5 → cell xi r f1 f2 i (4 + j * 2) = f2 (i * 5 + j) := by
    intro i j hj
    rw [cell, if_neg (by omega), if_neg (by omega), if_neg (by omega), if_neg (by omega), if_neg (by omega)]
    congr 2; omega
  simp only [writes, hr, perRow, List.mem_append, List.mem_flatMap, List.mem_cons, List.mem_range, List.not_mem_nil,
    or_false]
  constructor
  · rintro (⟨i, hi, ((h | h | h) | ⟨j, hj, h | h⟩) | h⟩ | h | h | h | h)
    · exact ⟨i, by omega, 0, by omega, h⟩
    · exact ⟨i, by omega, 1, by omega, h⟩
    · exact ⟨i, by omega, 2, by omega, h⟩
    · exact ⟨i, by omega, 3 + j * 2, by omega, by rw [h3 j hj, c3 i j hj]; exact h⟩
    · exact ⟨i, by omega, 4 + j * 2, by omega, by rw [h4 j hj, c4 i j hj]; exact h⟩
    · exact ⟨i, by omega, 13, by omega, h⟩
    · exact ⟨_, le_rfl, 0, by omega, h⟩
    · exact ⟨_, le_rfl, 1, by omega, h⟩
    · exact ⟨_, le_rfl, 2, by omega, h⟩
    · exact ⟨_, le_rfl, 13, by omega, h⟩
  · rintro ⟨i, hi, j, hj, h⟩
    by_cases hlt : i < mainRows k
    · left
      refine ⟨i, hlt, ?_⟩
      rcases hj with rfl | rfl | rfl | rfl | ⟨-, h3', h13⟩
      · exact Or.inl (Or.inl (Or.inl h))
      · exact Or.inl (Or.inl (Or.inr (Or.inl h)))
      · exact Or.inl (Or.inl (Or.inr (Or.inr h)))
      · exact Or.inr h
      · left; right
        by_cases ho : j % 2 = 1
        · obtain ⟨m, rfl⟩ : ∃ m, j = 3 + m * 2 := ⟨(j - 3) / 2, by omega⟩
          refine ⟨m, by omega, Or.inl ?_⟩
          rw [h, h3 m (by omega), c3 i m (by omega)]
        · obtain ⟨m, rfl⟩ : ∃ m, j = 4 + m * 2 := ⟨(j - 4) / 2, by omega⟩
          refine ⟨m, by omega, Or.inr ?_⟩
          rw [h, h4 m (by omega), c4 i m (by omega)]
    · obtain rfl : i = mainRows k := by omega
      right
      rcases hj with rfl | rfl | rfl | rfl | ⟨h', -⟩
      · exact Or.inl h
      · exact Or.inr (Or.inl h)
      · exact Or.inr (Or.inr (Or.inl h))
      · exact Or.inr (Or.inr (Or.inr h))
      · omega

/-- Whatever values pad the pairs, the table built from them satisfies the constraints. -/
theorem core (k : ℕ) (p : Params) (srow : ℤ) (t : Table F) (f1 f2 : ℕ → F)
    (hz : t .constant 0 srow = 0) (ho : t .constant 0 (srow + 1) = 1)
    (hr : p.r.Outside srow (rows k)) (hx : p.xi.Outside srow (rows k))
    (hf : ∀ i < k, (p.f1 i).Outside srow (rows k) ∧ (p.f2 i).Outside srow (rows k))
    (e1 : ∀ i < k, f1 i = (p.f1 i).value t) (e2 : ∀ i < k, f2 i = (p.f2 i).value t) :
    let t' := writeAll (writes cols k (p.xi.value t) (p.r.value t) f1 f2 srow) t
    Sat t' (circuit cols k p srow) ∧ Frame cols srow (rows k) t t' ∧
      (out cols k srow).value t' = spec (p.xi.value t) (p.r.value t) f1 f2 (mainRows k * 5) := by
  intro t'
  have hG : GridWrites cols srow 15 (rows k) (cell (p.xi.value t) (p.r.value t) f1 f2)
      (writes cols k (p.xi.value t) (p.r.value t) f1 f2 srow) := by
    intro z hz
    obtain ⟨i, hi, j, hj, rfl⟩ := mem_writes.1 hz
    exact ⟨i, by unfold rows; omega, j, by omega, rfl⟩
  have hfr : Frame cols srow (rows k) t t' := (hG.own cols_ok).frame t
  have hread : ∀ i j : ℕ, i ≤ mainRows k → (j = 0 ∨ j = 1 ∨ j = 2 ∨ j = 13 ∨ (i < mainRows k ∧ 3 ≤ j ∧ j < 13)) →
      t' .witness (cols.w (j : ℤ)) (srow + (i : ℤ)) = cell (p.xi.value t) (p.r.value t) f1 f2 i j := by
    intro i j hi hj
    exact hG.read cols_ok t (by omega) (mem_writes.2 ⟨i, hi, j, hj, rfl⟩)
  have R0 : ∀ i ≤ mainRows k, t' .witness (cols.w 0) (srow + (i : ℤ)) = p.r.value t :=
    fun i hi => hread i 0 hi (by omega)
  have R1 : ∀ i ≤ mainRows k, t' .witness (cols.w 1) (srow + (i : ℤ)) = p.xi.value t ^ (i * 5) :=
    fun i hi => (hread i 1 hi (by omega)).trans (accAt_eq _ _)
  have R2 : ∀ i ≤ mainRows k, t' .witness (cols.w 2) (srow + (i : ℤ)) =
      spec (p.xi.value t) (p.r.value t) f1 f2 (i * 5) :=
    fun i hi => (hread i 2 hi (by omega)).trans (sAt_eq _ _ _ _ _)
  have R13 : ∀ i ≤ mainRows k, t' .witness (cols.w 13) (srow + (i : ℤ)) = p.xi.value t :=
    fun i hi => hread i 13 hi (by omega)
  have RF1 : ∀ i < mainRows k, ∀ j < 5, t' .witness (3 + j * 2) (srow + (i : ℤ)) = f1 (i * 5 + j) := by
    intro i hi j hj
    have := hread i (3 + j * 2) (by omega) (by omega)
    rw [cols_w (by omega)] at this
    rw [this, cell, if_neg (by omega), if_neg (by omega), if_neg (by omega), if_neg (by omega), if_pos (by omega)]
    congr 2; omega
  have RF2 : ∀ i < mainRows k, ∀ j < 5, t' .witness (4 + j * 2) (srow + (i : ℤ)) = f2 (i * 5 + j) := by
    intro i hi j hj
    have := hread i (4 + j * 2) (by omega) (by omega)
    rw [cols_w (by omega)] at this
    rw [this, cell, if_neg (by omega), if_neg (by omega), if_neg (by omega), if_neg (by omega), if_neg (by omega)]
    congr 2; omega
  refine ⟨?_, hfr, ?_⟩
  · rw [circuit_iff]
    refine ⟨fun i hi => (gate_iff cols t' _).2 ?_, ?_, ?_, ?_, ?_, ?_, ?_, ?_⟩
    · have e : srow + (i : ℤ) + 1 = srow + ((i + 1 : ℕ) : ℤ) := by push_cast; ring
      rw [e, R0 _ (by omega), R0 _ (by omega), R13 _ (by omega), R13 _ (by omega), R1 _ (by omega), R1 _ (by omega),
        R2 _ (by omega), R2 _ (by omega)]
      refine ⟨rfl, rfl, by rw [← pow_add]; congr 1; ring, ?_⟩
      rw [Nat.add_mul, Nat.one_mul, spec, spec, spec, Finset.sum_range_add, Finset.mul_sum]
      congr 1
      apply Finset.sum_congr rfl
      intro j hj
      have hj' : j < 5 := Finset.mem_range.1 hj
      rw [RF1 i hi j hj', RF2 i hi j hj', pow_add]
      ring
    · have := R0 0 (by omega)
      rw [hfr.outside hr]; simpa using this
    · have := R13 0 (by omega)
      rw [hfr.outside hx]; simpa using this
    · have := R1 0 (by omega); simpa using this
    · have := R2 0 (by omega); simpa [spec] using this
    · intro i hi
      have hb := rows_bounds k
      rw [hfr.outside (hf i hi).1, hfr.outside (hf i hi).2, RF1 _ (by omega) _ (by omega),
        RF2 _ (by omega) _ (by omega), ← e1 i hi, ← e2 i hi]
      have : i / 5 * 5 + i % 5 = i := by omega
      rw [this]; exact ⟨rfl, rfl⟩
    · rw [hfr.const, hz]
    · rw [hfr.const, ho]
  · have er : srow + ((rows k : ℕ) : ℤ) - 1 = srow + (mainRows k : ℤ) := by unfold rows; push_cast; ring
    rw [out, Cols.value_wa, er]
    exact R2 _ le_rfl

theorem writeConsts_eq (c : Cols) (k : ℕ) (p : Params) (srow : ℤ) (t : Table F) :
    writeConsts (circuit c k p srow) t = (t.set .constant 0 srow 0).set .constant 0 (srow + 1) 1 := by
  unfold circuit
  rw [writeConsts_append]
  simp only [writeConsts_constant, writeConsts_nil]
  rw [writeConsts_noConst]
  intro o ho col row v
  simp only [List.mem_append, List.mem_cons, List.mem_flatMap, List.not_mem_nil, or_false] at ho
  rcases ho with (rfl | rfl | rfl | rfl | rfl) | ⟨i, -, rfl | rfl⟩ <;> simp

/-- C129, completeness for any number of pairs: the generated table satisfies the constraints, changes nothing outside
the component's rows, and its output is the combined inner product. -/
theorem cip_complete (k : ℕ) (p : Params) (srow : ℤ) (t : Table F)
    (hr : p.r.Outside srow (rows k)) (hx : p.xi.Outside srow (rows k))
    (hf : ∀ i < k, (p.f1 i).Outside srow (rows k) ∧ (p.f2 i).Outside srow (rows k)) :
    let tc := writeConsts (circuit cols k p srow) t
    let t' := assign cols k p srow tc
    Sat t' (circuit cols k p srow) ∧ Frame cols srow (rows k) tc t' ∧
      (out cols k srow).value t' =
        spec (p.xi.value tc) (p.r.value tc) (fun i => (p.f1 i).value tc) (fun i => (p.f2 i).value tc) k := by
  intro tc t'
  have htc : tc = _ := writeConsts_eq cols k p srow t
  obtain ⟨h1, h2, h3⟩ := core k p srow tc (fun i => if i < k then (p.f1 i).value tc else 0)
    (fun i => if i < k then (p.f2 i).value tc else 0) (by rw [htc]; simp [Table.set_apply])
    (by rw [htc]; simp [Table.set_apply]) hr hx hf (fun i hi => by simp [hi]) (fun i hi => by simp [hi])
  refine ⟨h1, h2, h3.trans ?_⟩
  obtain ⟨d, hd⟩ := Nat.exists_eq_add_of_le (rows_bounds k).1
  rw [hd, spec, Finset.sum_range_add, spec]
  have : ∑ x ∈ Finset.range d, p.xi.value tc ^ (k + x) * ((if k + x < k then (p.f1 (k + x)).value tc else 0) +
      p.r.value tc * (if k + x < k then (p.f2 (k + x)).value tc else 0)) = 0 := by
    apply Finset.sum_eq_zero
    intro i _
    simp
  rw [this, add_zero]
  apply Finset.sum_congr rfl
  intro i hi
  simp [Finset.mem_range.1 hi]

/-- Inputs in public input column 0: `xi`, `r`, then the pairs. -/
def pubParams : Params :=
  ⟨fun i => ⟨0, 2 + 2 * (i : ℤ), false, .publicInput⟩, fun i => ⟨0, 3 + 2 * (i : ℤ), false, .publicInput⟩,
    ⟨0, 0, false, .publicInput⟩, ⟨0, 1, false, .publicInput⟩⟩

/-- C130, exactly what can be proved: an output `o` for the inputs `xi, r, a, b` is provable iff it is the combined
inner product, or the last row is not full and `xi ≠ 0` - in which case every `o` is. -/
theorem cip_accepts_iff (k : ℕ) (hk : 0 < k) (srow : ℤ) (xi r : F) (a b : ℕ → F) (o : F) :
    (∃ t : Table F, Sat t (circuit cols k pubParams srow) ∧ pubParams.xi.value t = xi ∧ pubParams.r.value t = r ∧
      (∀ i < k, (pubParams.f1 i).value t = a i ∧ (pubParams.f2 i).value t = b i) ∧
      (out cols k srow).value t = o) ↔ o = spec xi r a b k ∨ (k % 5 ≠ 0 ∧ xi ≠ 0) := by
  constructor
  · rintro ⟨t, h, rfl, rfl, hab, rfl⟩
    by_cases h5 : k % 5 = 0
    · exact Or.inl ((cip_sound_partial cols k h5 pubParams srow t h).trans (spec_congr hab))
    · by_cases hx : pubParams.xi.value t = 0
      · exact Or.inl ((cip_sound_zero cols k hk pubParams srow t h hx).trans (spec_congr hab))
      · exact Or.inr ⟨h5, hx⟩
  · intro h
    set t : Table F := fun ty _ i => if ty = .publicInput then
      (if i = 0 then xi else if i = 1 then r else if i % 2 = 0 then a ((i - 2) / 2).toNat else b ((i - 3) / 2).toNat)
      else if i = srow then 0 else 1 with ht
    have va : ∀ i : ℕ, (pubParams.f1 i).value t = a i := by
      intro i
      have e1 : ¬ (2 + 2 * (i : ℤ) = 0) := by omega
      have e2 : ¬ (2 + 2 * (i : ℤ) = 1) := by omega
      have e3 : (2 + 2 * (i : ℤ)) % 2 = 0 := by omega
      have e4 : ((2 + 2 * (i : ℤ) - 2) / 2).toNat = i := by omega
      simp only [pubParams, Var.value, ht, if_true, e1, e2, e3, e4, if_false]
    have vb : ∀ i : ℕ, (pubParams.f2 i).value t = b i := by
      intro i
      have e1 : ¬ (3 + 2 * (i : ℤ) = 0) := by omega
      have e2 : ¬ (3 + 2 * (i : ℤ) = 1) := by omega
      have e3 : ¬ ((3 + 2 * (i : ℤ)) % 2 = 0) := by omega
      have e4 : ((3 + 2 * (i : ℤ) - 3) / 2).toNat = i := by omega
      simp only [pubParams, Var.value, ht, if_true, e1, e2, e3, e4, if_false]
    have vx : pubParams.xi.value t = xi := by simp [pubParams, Var.value, ht]
    have vr : pubParams.r.value t = r := by simp [pubParams, Var.value, ht]
    obtain ⟨d, hd⟩ := Nat.exists_eq_add_of_le (rows_bounds k).1
    have hod : ∀ v : Var, v.type = .publicInput → v.Outside srow (rows k) := by
      intro v hv h'; rw [hv] at h'; cases h'
    have go : ∀ f1 : ℕ → F, (∀ i < k, f1 i = a i) → spec xi r f1 (fun i => if i < k then b i else 0)
        (mainRows k * 5) = o → ∃ t : Table F, Sat t (circuit cols k pubParams srow) ∧ pubParams.xi.value t = xi ∧
        pubParams.r.value t = r ∧ (∀ i < k, (pubParams.f1 i).value t = a i ∧ (pubParams.f2 i).value t = b i) ∧
        (out cols k srow).value t = o := by
      intro f1 hf1 hs
      obtain ⟨h1, h2, h3⟩ := core k pubParams srow t f1 (fun i => if i < k then b i else 0) (by simp [ht])
        (by simp [ht]) (hod _ rfl) (hod _ rfl) (fun i _ => ⟨hod _ rfl, hod _ rfl⟩)
        (fun i hi => by rw [va, hf1 i hi]) (fun i hi => by simp [vb, hi])
      refine ⟨_, h1, (h2.outside (hod _ rfl)).trans vx, (h2.outside (hod _ rfl)).trans vr,
        fun i _ => ⟨(h2.outside (hod _ rfl)).trans (va i), (h2.outside (hod _ rfl)).trans (vb i)⟩, h3.trans ?_⟩
      rw [vx, vr]; exact hs
    have base : ∀ f1 : ℕ → F, (∀ i < k, f1 i = a i) → ∑ i ∈ Finset.range k, xi ^ i *
        (f1 i + r * (if i < k then b i else 0)) = spec xi r a b k := by
      intro f1 hf1
      apply Finset.sum_congr rfl
      intro i hi
      simp [Finset.mem_range.1 hi, hf1 i (Finset.mem_range.1 hi)]
    rcases h with rfl | ⟨h5, hx⟩
    · refine go (fun i => if i < k then a i else 0) (fun i hi => by simp [hi]) ?_
      rw [hd, spec, Finset.sum_range_add, base _ (fun i hi => by simp [hi])]
      rw [Finset.sum_eq_zero (fun i _ => by simp), add_zero]
    · have hd0 : 0 < d := by
        rcases Nat.eq_zero_or_pos d with rfl | h'
        · exfalso; apply h5; omega
        · exact h'
      refine go (fun i => if i < k then a i else if i = k then (o - spec xi r a b k) / xi ^ k else 0)
        (fun i hi => by simp [hi]) ?_
      rw [hd, spec, Finset.sum_range_add, base _ (fun i hi => by simp [hi])]
      obtain ⟨e, rfl⟩ : ∃ e, d = e + 1 := ⟨d - 1, by omega⟩
      rw [Finset.sum_range_succ']
      rw [Finset.sum_eq_zero (fun i _ => by simp)]
      have : xi ^ k ≠ 0 := pow_ne_zero _ hx
      simp
      field_simp
      ring

/-- C130, refutation: with, say, 17 pairs every output is accepted, whatever the inputs with `xi ≠ 0`. -/
theorem cip_refuted (srow : ℤ) (xi r : F) (hx : xi ≠ 0) (a b : ℕ → F) (o : F) :
    ∃ t : Table F, Sat t (circuit cols 17 pubParams srow) ∧ pubParams.xi.value t = xi ∧ pubParams.r.value t = r ∧
      (∀ i < 17, (pubParams.f1 i).value t = a i ∧ (pubParams.f2 i).value t = b i) ∧
      (out cols 17 srow).value t = o :=
  (cip_accepts_iff 17 (by omega) srow xi r a b o).2 (Or.inr ⟨by decide, hx⟩)

/-- The hypotheses are met: ten pairs fill two rows, and the sum is not constant. -/
example : 10 % 5 = 0 ∧ mainRows 10 = 2 ∧ rows 17 = 5 ∧
    spec (3 : ℚ) 2 (fun i => i) (fun _ => 1) 2 = 2 + 3 * 3 := by
  refine ⟨by decide, by decide, by decide, ?_⟩
  simp [spec, Finset.sum_range_succ]; norm_num

example (k : ℕ) : (pubParams.xi.Outside 0 (rows k)) ∧ ∀ i < k, (pubParams.f1 i).Outside 0 (rows k) := by
  simp [pubParams, Var.Outside]

end Cip
end Verif
