import Verif.Model.PermVerifier
import Mathlib.Algebra.BigOperators.Fin
import Mathlib.Algebra.Field.ZMod
import Mathlib.Tactic.NormNum.Prime

/-!
# C59: the permutation argument verifier
-/

set_option linter.unusedSimpArgs false
set_option linter.unusedSectionVars false
set_option linter.unusedVariables false

namespace Verif
namespace PermVerifier
variable {F : Type*} [Field F]

/-! ### Specification: the three terms of the permutation argument -/

/-- `∏ (f_i + θ₁ s_i + θ₂)`. -/
def product (m : ℕ) (f s : ℕ → F) (t1 t2 : F) : F := ∏ i ∈ Finset.range m, (f i + t1 * s i + t2)

/-- The values the component stands for. -/
structure Vals (F : Type*) where
  f : ℕ → F
  se : ℕ → F
  ss : ℕ → F
  l0 : F
  v : F
  vz : F
  qlast : F
  qpad : F
  theta1 : F
  theta2 : F

/-- The three terms. -/
def spec (m : ℕ) (x : Vals F) : ℕ → F
  | 0 => x.l0 * (1 - x.v)
  | 1 => (1 - (x.qlast + x.qpad)) *
      (x.vz * product m x.f x.ss x.theta1 x.theta2 - x.v * product m x.f x.se x.theta1 x.theta2)
  | _ => x.qlast * (x.v ^ 2 - x.v)

/-- Values of the input variables. -/
def In.vals (x : In) (t : Table F) : Vals F :=
  ⟨fun i => (x.f i).value t, fun i => (x.se i).value t, fun i => (x.ss i).value t, x.l0.value t, x.v.value t,
   x.vz.value t, x.qlast.value t, x.qpad.value t, (x.theta 0).value t, (x.theta 1).value t⟩

theorem acc_eq (f s : ℕ → F) (t1 t2 : F) (i : ℕ) : acc f s t1 t2 i = product i f s t1 t2 := by
  induction i with
  | zero => rfl
  | succ i ih => rw [acc, ih, product, product, Finset.prod_range_succ]

/-! ### Soundness -/

/-- A cell of the component. -/
abbrev cell (c : Cols) (srow : ℤ) (t : Table F) (j : ℤ) (r : ℕ) : F := t .witness (c.w j) (srow + (r : ℤ))

theorem copies_iff (c : Cols) (m : ℕ) (x : In) (srow : ℤ) (t : Table F) :
    Sat t (copies c m x srow : List (Op F)) ↔
      (∀ i < m, cell c srow t 1 i = (x.f i).value t ∧ cell c srow t 2 i = (x.se i).value t ∧
        cell c srow t 3 i = (x.theta (i % 2)).value t ∧ cell c srow t 4 i = (x.ss i).value t) ∧
      cell c srow t 1 m = x.qlast.value t ∧ cell c srow t 2 m = x.qpad.value t ∧ cell c srow t 3 m = x.l0.value t ∧
      cell c srow t 1 (m + 1) = x.v.value t ∧ cell c srow t 3 (m + 1) = x.vz.value t := by
  unfold copies
  rw [sat_append]
  apply and_congr
  · simp only [Sat, List.mem_flatMap, List.mem_range, forall_exists_index, and_imp]
    constructor
    · intro h i hi
      have h1 := fun o ho => h o i hi ho
      simp only [List.forall_mem_cons, holds_copy, Cols.value_wa] at h1
      exact ⟨h1.1, h1.2.1, h1.2.2.1, h1.2.2.2.1⟩
    · intro h o i hi ho
      obtain ⟨h1, h2, h3, h4⟩ := h i hi
      simp only [List.mem_cons, List.not_mem_nil, or_false] at ho
      rcases ho with rfl | rfl | rfl | rfl
      · exact h1
      · exact h2
      · exact h3
      · exact h4
  · simp only [sat_cons, sat_nil, and_true, holds_copy, Cols.value_wa, cell, Nat.cast_add, Nat.cast_one, add_assoc]

theorem mem_midRows (m : ℕ) (srow r : ℤ) :
    r ∈ midRows m srow ↔ ∃ k : ℕ, 0 < k ∧ 2 * k + 1 < m ∧ r = srow + ((2 * k : ℕ) : ℤ) := by
  simp only [midRows, List.mem_map, List.mem_filter, List.mem_range, decide_eq_true_eq]
  constructor
  · rintro ⟨i, ⟨h1, h2, h3, h4⟩, rfl⟩
    obtain ⟨k, rfl⟩ : ∃ k, i = 2 * k := ⟨i / 2, by omega⟩
    exact ⟨k, by omega, by omega, rfl⟩
  · rintro ⟨k, h1, h2, rfl⟩
    exact ⟨2 * k, ⟨by omega, by omega, by omega, by omega⟩, rfl⟩

/-- The factor of row `i`. -/
def fac (c : Cols) (srow : ℤ) (t : Table F) (x : In) (col : ℤ) (i : ℕ) : F :=
  cell c srow t 1 i + (x.theta 0).value t * cell c srow t col i + (x.theta 1).value t

/-- What the gates say, in terms of cells (at least two rows of factors). -/
structure Cells (c : Cols) (m : ℕ) (x : In) (srow : ℤ) (t : Table F) : Prop where
  e0 : cell c srow t 0 0 = fac c srow t x 2 0
  s0 : cell c srow t 5 0 = fac c srow t x 4 0
  e : ∀ i, i + 1 < m → cell c srow t 0 (i + 1) = cell c srow t 0 i * fac c srow t x 2 (i + 1)
  s : ∀ i, i + 1 < m → cell c srow t 5 (i + 1) = cell c srow t 5 i * fac c srow t x 4 (i + 1)
  o0 : cell c srow t 0 m = cell c srow t 3 m * (1 - cell c srow t 1 (m + 1))
  o1 : cell c srow t 4 m = (1 - cell c srow t 1 m - cell c srow t 2 m) *
    (cell c srow t 3 (m + 1) * cell c srow t 5 (m - 1) - cell c srow t 1 (m + 1) * cell c srow t 0 (m - 1))
  sq : cell c srow t 2 (m + 1) = cell c srow t 1 (m + 1) * cell c srow t 1 (m + 1)
  o2 : cell c srow t 0 (m + 1) = cell c srow t 1 m * (cell c srow t 2 (m + 1) - cell c srow t 1 (m + 1))

theorem gates_iff (c : Cols) (m : ℕ) (hm : 2 ≤ m) (x : In) (srow : ℤ) (t : Table F)
    (h3 : ∀ i < m, cell c srow t 3 i = (x.theta (i % 2)).value t) :
    Sat t ([.gate [c1 c, c2 c, c3 c, c4 c] [srow], .gate [c3 c, c4 c, c5 c, c6 c] (midRows m srow),
      .gate [c7 c, c8 c] (if m % 2 = 1 then [srow + m - 1] else []),
      .gate [c9 c, c10 c, c11 c, c12 c] [srow + m]] : List (Op F)) ↔ Cells c m x srow t := by
  have up : ∀ (j : ℤ) (i : ℕ), t .witness (c.w j) (srow + (i : ℤ) + 1) = cell c srow t j (i + 1) := by
    intro j i; simp only [cell, Nat.cast_add, Nat.cast_one, add_assoc]
  have dn : ∀ (j : ℤ) (i : ℕ), 0 < i → t .witness (c.w j) (srow + (i : ℤ) + -1) = cell c srow t j (i - 1) := by
    intro j i hi
    obtain ⟨k, rfl⟩ : ∃ k, i = k + 1 := ⟨i - 1, by omega⟩
    simp only [cell, Nat.cast_add, Nat.cast_one, Nat.add_sub_cancel]
    congr 1; ring
  have st0 : ∀ (j : ℤ), t .witness (c.w j) (srow + 0) = cell c srow t j 0 := by intro j; simp [cell]
  have st1 : ∀ (j : ℤ), t .witness (c.w j) (srow + 1) = cell c srow t j 1 := by intro j; simp [cell]
  have ev : ∀ k, 2 * k < m → cell c srow t 3 (2 * k) = (x.theta 0).value t := by
    intro k hk; rw [h3 _ hk]; congr 2; omega
  have od : ∀ k, 2 * k + 1 < m → cell c srow t 3 (2 * k + 1) = (x.theta 1).value t := by
    intro k hk; rw [h3 _ hk]; congr 2; omega
  -- first gate
  have g1 : (Op.gate [c1 c, c2 c, c3 c, c4 c] [srow] : Op F).Holds t ↔
      cell c srow t 0 0 = fac c srow t x 2 0 ∧ cell c srow t 5 0 = fac c srow t x 4 0 ∧
      cell c srow t 0 1 = cell c srow t 0 0 * fac c srow t x 2 1 ∧
      cell c srow t 5 1 = cell c srow t 5 0 * fac c srow t x 4 1 := by
    have e0 := ev 0 (by omega)
    have e1 := od 0 (by omega)
    simp only [mul_zero, zero_add] at e0 e1
    simp only [holds_gate, List.mem_singleton, forall_eq, List.forall_mem_cons, List.not_mem_nil, false_imp_iff,
      implies_true, and_true, c1, c2, c3, c4, Expr.eval_sub, Expr.eval_add, Expr.eval_mul, Cols.eval_wv, st0, st1, e0, e1, fac]
    refine and_congr ?_ (and_congr ?_ (and_congr ?_ ?_))
    all_goals
      constructor
      · intro h; linear_combination h
      · intro h; linear_combination h
  have g2 : (Op.gate [c3 c, c4 c, c5 c, c6 c] (midRows m srow) : Op F).Holds t ↔
      ∀ k : ℕ, 0 < k → 2 * k + 1 < m →
      cell c srow t 0 (2 * k + 1) = cell c srow t 0 (2 * k) * fac c srow t x 2 (2 * k + 1) ∧
      cell c srow t 5 (2 * k + 1) = cell c srow t 5 (2 * k) * fac c srow t x 4 (2 * k + 1) ∧
      cell c srow t 0 (2 * k) = cell c srow t 0 (2 * k - 1) * fac c srow t x 2 (2 * k) ∧
      cell c srow t 5 (2 * k) = cell c srow t 5 (2 * k - 1) * fac c srow t x 4 (2 * k) := by
    have key : ∀ k : ℕ, 0 < k → 2 * k + 1 < m → ((∀ e ∈ ([c3 c, c4 c, c5 c, c6 c] : List (Expr F)),
        e.eval t (srow + ((2 * k : ℕ) : ℤ)) = 0) ↔
        cell c srow t 0 (2 * k + 1) = cell c srow t 0 (2 * k) * fac c srow t x 2 (2 * k + 1) ∧
        cell c srow t 5 (2 * k + 1) = cell c srow t 5 (2 * k) * fac c srow t x 4 (2 * k + 1) ∧
        cell c srow t 0 (2 * k) = cell c srow t 0 (2 * k - 1) * fac c srow t x 2 (2 * k) ∧
        cell c srow t 5 (2 * k) = cell c srow t 5 (2 * k - 1) * fac c srow t x 4 (2 * k)) := by
      intro k hk hm
      have e0 := ev k (by omega)
      have e1 := od k hm
      simp only [List.forall_mem_cons, List.not_mem_nil, false_imp_iff,
        implies_true, and_true, c3, c4, c5, c6, Expr.eval_sub, Expr.eval_add, Expr.eval_mul, Cols.eval_wv, up,
        dn _ (2 * k) (by omega), add_zero, e1, fac]
      rw [show t .witness (c.w 3) (srow + ((2 * k : ℕ) : ℤ)) = _ from e0]
      refine and_congr ?_ (and_congr ?_ (and_congr ?_ ?_))
      all_goals
        constructor
        · intro h; linear_combination h
        · intro h; linear_combination h
    rw [holds_gate]
    constructor
    · intro h k h1 h2
      exact (key k h1 h2).1 (h _ ((mem_midRows m srow _).2 ⟨k, h1, h2, rfl⟩))
    · intro h r hr
      obtain ⟨k, h1, h2, rfl⟩ := (mem_midRows m srow r).1 hr
      exact (key k h1 h2).2 (h k h1 h2)
  have g3 : (Op.gate [c7 c, c8 c] (if m % 2 = 1 then [srow + m - 1] else []) : Op F).Holds t ↔
      (m % 2 = 1 → cell c srow t 0 (m - 1) = cell c srow t 0 (m - 2) * fac c srow t x 2 (m - 1) ∧
        cell c srow t 5 (m - 1) = cell c srow t 5 (m - 2) * fac c srow t x 4 (m - 1)) := by
    by_cases hp : m % 2 = 1
    · obtain ⟨k, rfl⟩ : ∃ k, m = 2 * k + 1 := ⟨m / 2, by omega⟩
      have e0 := ev k (by omega)
      have e1 := od (k - 1) (by omega)
      rw [if_pos hp]
      have er : srow + ((2 * k + 1 : ℕ) : ℤ) - 1 = srow + ((2 * k : ℕ) : ℤ) := by push_cast; ring
      rw [er]
      have e2 : 2 * (k - 1) + 1 = 2 * k - 1 := by omega
      rw [e2] at e1
      have e3 : 2 * k + 1 - 2 = 2 * k - 1 := by omega
      simp only [holds_gate, List.mem_singleton, forall_eq, List.forall_mem_cons, List.not_mem_nil, false_imp_iff,
        implies_true, and_true, c7, c8, Expr.eval_sub, Expr.eval_add, Expr.eval_mul, Cols.eval_wv,
        dn _ (2 * k) (by omega), add_zero, e1, fac, Nat.add_sub_cancel, hp, true_imp_iff, e3]
      rw [show t .witness (c.w 3) (srow + ((2 * k : ℕ) : ℤ)) = _ from e0]
      refine and_congr ?_ ?_
      all_goals
        constructor
        · intro h; linear_combination h
        · intro h; linear_combination h
    · rw [if_neg hp]
      simp [hp]
  have g4 : (Op.gate [c9 c, c10 c, c11 c, c12 c] [srow + m] : Op F).Holds t ↔
      cell c srow t 0 m = cell c srow t 3 m * (1 - cell c srow t 1 (m + 1)) ∧
      cell c srow t 4 m = (1 - cell c srow t 1 m - cell c srow t 2 m) *
        (cell c srow t 3 (m + 1) * cell c srow t 5 (m - 1) - cell c srow t 1 (m + 1) * cell c srow t 0 (m - 1)) ∧
      cell c srow t 2 (m + 1) = cell c srow t 1 (m + 1) * cell c srow t 1 (m + 1) ∧
      cell c srow t 0 (m + 1) = cell c srow t 1 m * (cell c srow t 2 (m + 1) - cell c srow t 1 (m + 1)) := by
    simp only [holds_gate, List.mem_singleton, forall_eq, List.forall_mem_cons, List.not_mem_nil, false_imp_iff,
      implies_true, and_true, c9, c10, c11, c12, Expr.eval_sub, Expr.eval_add, Expr.eval_mul, Expr.eval_const, Cols.eval_wv, up,
      dn _ m (by omega), add_zero, sub_eq_zero]
  simp only [sat_cons, sat_nil, and_true, g1, g2, g3, g4]
  constructor
  · rintro ⟨⟨a1, a2, a3, a4⟩, h2, h3', b1, b2, b3, b4⟩
    have step : ∀ i, i + 1 < m → cell c srow t 0 (i + 1) = cell c srow t 0 i * fac c srow t x 2 (i + 1) ∧
        cell c srow t 5 (i + 1) = cell c srow t 5 i * fac c srow t x 4 (i + 1) := by
      intro i hi
      rcases Nat.eq_zero_or_pos i with rfl | hpos
      · exact ⟨a3, a4⟩
      · by_cases hi2 : i % 2 = 0
        · obtain ⟨k, rfl⟩ : ∃ k, i = 2 * k := ⟨i / 2, by omega⟩
          have := h2 k (by omega) hi
          exact ⟨this.1, this.2.1⟩
        · obtain ⟨k, rfl⟩ : ∃ k, i = 2 * k + 1 := ⟨i / 2, by omega⟩
          by_cases hlast : 2 * (k + 1) + 1 < m
          · have := h2 (k + 1) (by omega) hlast
            exact ⟨this.2.2.1, this.2.2.2⟩
          · obtain rfl : m = 2 * k + 3 := by omega
            exact h3' (by omega)
    exact ⟨a1, a2, fun i hi => (step i hi).1, fun i hi => (step i hi).2, b1, b2, b3, b4⟩
  · intro h
    refine ⟨⟨h.e0, h.s0, h.e 0 (by omega), h.s 0 (by omega)⟩, fun k hk hkm => ⟨h.e _ hkm, h.s _ hkm, ?_, ?_⟩, fun hp => ⟨?_, ?_⟩,
      h.o0, h.o1, h.sq, h.o2⟩
    · have := h.e (2 * k - 1) (by omega)
      rwa [show 2 * k - 1 + 1 = 2 * k by omega] at this
    · have := h.s (2 * k - 1) (by omega)
      rwa [show 2 * k - 1 + 1 = 2 * k by omega] at this
    · have := h.e (m - 2) (by omega)
      rwa [show m - 2 + 1 = m - 1 by omega] at this
    · have := h.s (m - 2) (by omega)
      rwa [show m - 2 + 1 = m - 1 by omega] at this

/-- The accumulators hold the partial products. -/
theorem Cells.prods {c : Cols} {m : ℕ} {x : In} {srow : ℤ} {t : Table F} (h : Cells c m x srow t) (i : ℕ) (hi : i < m) :
    cell c srow t 0 i = ∏ k ∈ Finset.range (i + 1), fac c srow t x 2 k ∧
    cell c srow t 5 i = ∏ k ∈ Finset.range (i + 1), fac c srow t x 4 k := by
  induction i with
  | zero => simp [h.e0, h.s0]
  | succ i ih =>
    obtain ⟨h1, h2⟩ := ih (by omega)
    rw [h.e i hi, h.s i hi, h1, h2, Finset.prod_range_succ (n := i + 1), Finset.prod_range_succ (n := i + 1)]
    exact ⟨rfl, rfl⟩

/-- **C59** (soundness). Two or more columns in the permutation: any table satisfying the circuit carries the
three terms of the permutation argument in the result cells. -/
theorem perm_sound_partial (c : Cols) (m : ℕ) (hm : 2 ≤ m) (x : In) (srow : ℤ) (t : Table F)
    (h : Sat t (circuit c m x srow)) (j : ℕ) (hj : j < 3) :
    (result c m srow j).value t = spec m (x.vals t) j := by
  unfold circuit at h
  rw [sat_append] at h
  obtain ⟨hg, hcp⟩ := h
  obtain ⟨hcp, k1, k2, k3, k4, k5⟩ := (copies_iff c m x srow t).1 hcp
  have H := (gates_iff c m hm x srow t (fun i hi => (hcp i hi).2.2.1)).1 hg
  obtain ⟨p1, p2⟩ := H.prods (m - 1) (by omega)
  rw [show m - 1 + 1 = m by omega] at p1 p2
  have q1 : cell c srow t 0 (m - 1) = product m (x.vals t).f (x.vals t).se (x.vals t).theta1 (x.vals t).theta2 := by
    rw [p1]
    refine Finset.prod_congr rfl fun i hi => ?_
    obtain ⟨a1, a2, -, a4⟩ := hcp i (Finset.mem_range.1 hi)
    rw [fac, a1, a2]; rfl
  have q2 : cell c srow t 5 (m - 1) = product m (x.vals t).f (x.vals t).ss (x.vals t).theta1 (x.vals t).theta2 := by
    rw [p2]
    refine Finset.prod_congr rfl fun i hi => ?_
    obtain ⟨a1, a2, -, a4⟩ := hcp i (Finset.mem_range.1 hi)
    rw [fac, a1, a4]; rfl
  have r0 : srow + ((m + 2 : ℕ) : ℤ) - 2 = srow + (m : ℤ) := by push_cast; ring
  have r1 : srow + ((m + 2 : ℕ) : ℤ) - 1 = srow + ((m + 1 : ℕ) : ℤ) := by push_cast; ring
  interval_cases j
  · show (c.wa 0 _).value t = _
    rw [Cols.value_wa, rows, r0]
    refine H.o0.trans ?_
    rw [k3, k4]; rfl
  · show (c.wa 4 _).value t = _
    rw [Cols.value_wa, rows, r0]
    refine H.o1.trans ?_
    rw [k1, k2, k4, k5, q1, q2]
    simp only [spec, In.vals]; ring
  · show (c.wa 0 _).value t = _
    rw [Cols.value_wa, rows, r1]
    refine H.o2.trans ?_
    rw [H.sq, k1, k4]
    simp only [spec, In.vals]; ring

/-! ### Completeness -/

/-- Contents of the component's cells after `generate_assignments`. -/
def gridVal (m : ℕ) (x : In) (t : Table F) (r j : ℕ) : F :=
  if r < m then
    if j = 0 then product (r + 1) (x.vals t).f (x.vals t).se (x.vals t).theta1 (x.vals t).theta2
    else if j = 1 then (x.f r).value t
    else if j = 2 then (x.se r).value t
    else if j = 3 then (if r % 2 = 1 then (x.theta 1).value t else (x.theta 0).value t)
    else if j = 4 then (x.ss r).value t
    else product (r + 1) (x.vals t).f (x.vals t).ss (x.vals t).theta1 (x.vals t).theta2
  else if r = m then
    if j = 0 then spec m (x.vals t) 0
    else if j = 1 then x.qlast.value t
    else if j = 2 then x.qpad.value t
    else if j = 3 then x.l0.value t
    else spec m (x.vals t) 1
  else
    if j = 0 then spec m (x.vals t) 2
    else if j = 1 then x.v.value t
    else if j = 2 then x.v.value t * x.v.value t
    else x.vz.value t

theorem writes_grid (c : Cols) (m : ℕ) (x : In) (srow : ℤ) (t : Table F) :
    GridWrites c srow 6 (rows m) (gridVal m x t) (writes c m x srow t) := by
  intro y hy
  unfold writes at hy
  simp only [List.mem_append, List.mem_flatMap, List.mem_range, acc_eq] at hy
  rcases hy with ⟨i, hi, hy⟩ | hy
  · refine ⟨i, by simp [rows]; omega, ?_⟩
    simp only [List.mem_cons, List.not_mem_nil, or_false] at hy
    rcases hy with rfl | rfl | rfl | rfl | rfl | rfl
    · exact ⟨0, by omega, by simp [gridVal, hi, In.vals]⟩
    · exact ⟨1, by omega, by simp [gridVal, hi, In.vals]⟩
    · exact ⟨2, by omega, by simp [gridVal, hi, In.vals]⟩
    · exact ⟨4, by omega, by simp [gridVal, hi, In.vals]⟩
    · exact ⟨5, by omega, by simp [gridVal, hi, In.vals]⟩
    · exact ⟨3, by omega, by simp [gridVal, hi, In.vals]⟩
  · simp only [List.mem_cons, List.not_mem_nil, or_false] at hy
    rcases hy with rfl | rfl | rfl | rfl | rfl | rfl | rfl | rfl | rfl
    · exact ⟨m, by simp [rows], 0, by omega, by simp [gridVal, spec, In.vals]⟩
    · exact ⟨m, by simp [rows], 1, by omega, by simp [gridVal, spec, In.vals]⟩
    · exact ⟨m, by simp [rows], 2, by omega, by simp [gridVal, spec, In.vals]⟩
    · exact ⟨m, by simp [rows], 3, by omega, by simp [gridVal, spec, In.vals]⟩
    · exact ⟨m, by simp [rows], 4, by omega, by simp [gridVal, spec, In.vals]⟩
    · exact ⟨m + 1, by simp [rows], 0, by omega, by simp [gridVal, spec, In.vals, add_assoc, pow_two]⟩
    · exact ⟨m + 1, by simp [rows], 1, by omega, by simp [gridVal, spec, In.vals, add_assoc]⟩
    · exact ⟨m + 1, by simp [rows], 2, by omega, by simp [gridVal, spec, In.vals, add_assoc]⟩
    · exact ⟨m + 1, by simp [rows], 3, by omega, by simp [gridVal, spec, In.vals, add_assoc]⟩

/-- All inputs are outside the component's cells. -/
def In.Outside (x : In) (m : ℕ) (srow : ℤ) : Prop :=
  (∀ i < m, (x.f i).Outside srow (rows m) ∧ (x.se i).Outside srow (rows m) ∧ (x.ss i).Outside srow (rows m)) ∧
  (∀ i < 2, (x.theta i).Outside srow (rows m)) ∧ x.l0.Outside srow (rows m) ∧ x.v.Outside srow (rows m) ∧
  x.vz.Outside srow (rows m) ∧ x.qlast.Outside srow (rows m) ∧ x.qpad.Outside srow (rows m)

/-- **C59** (completeness). With two or more columns the assigned table satisfies the circuit, and only the
component's rows change. -/
theorem perm_complete_partial (c : Cols) (hc : c.OK 6) (m : ℕ) (hm : 2 ≤ m) (x : In) (srow : ℤ) (t : Table F)
    (hx : x.Outside m srow) :
    Sat (assign c m x srow t) (circuit c m x srow) ∧ Frame c srow (rows m) t (assign c m x srow t) := by
  have G := writes_grid c m x srow t
  have hf : Frame c srow (rows m) t (assign c m x srow t) := (G.own hc).frame t
  refine ⟨?_, hf⟩
  obtain ⟨hx1, hx2, hx3, hx4, hx5, hx6, hx7⟩ := hx
  have rd : ∀ (r j : ℕ), j < 6 → (⟨.witness, c.w (j : ℤ), srow + (r : ℤ), gridVal m x t r j⟩ : Write F) ∈ writes c m x srow t →
      cell c srow (assign c m x srow t) (j : ℤ) r = gridVal m x t r j := fun r j hj h => G.read hc t hj h
  have main : ∀ i < m, ∀ j : ℕ, j < 6 → cell c srow (assign c m x srow t) (j : ℤ) i = gridVal m x t i j := by
    intro i hi j hj
    apply rd i j hj
    unfold writes
    simp only [List.mem_append, List.mem_flatMap, List.mem_range, acc_eq]
    refine Or.inl ⟨i, hi, ?_⟩
    interval_cases j <;> simp [gridVal, hi, In.vals]
  have mid : ∀ j : ℕ, j < 5 → cell c srow (assign c m x srow t) (j : ℤ) m = gridVal m x t m j := by
    intro j hj
    apply rd m j (by omega)
    unfold writes
    simp only [List.mem_append, acc_eq]
    refine Or.inr ?_
    interval_cases j <;> simp [gridVal, In.vals, spec]
  have lst : ∀ j : ℕ, j < 4 → cell c srow (assign c m x srow t) (j : ℤ) (m + 1) = gridVal m x t (m + 1) j := by
    intro j hj
    apply rd (m + 1) j (by omega)
    unfold writes
    simp only [List.mem_append, acc_eq]
    refine Or.inr ?_
    interval_cases j <;> simp [gridVal, In.vals, spec, add_assoc, pow_two]
  have hcp : Sat (assign c m x srow t) (copies c m x srow : List (Op F)) := by
    rw [copies_iff]
    refine ⟨fun i hi => ⟨?_, ?_, ?_, ?_⟩, ?_, ?_, ?_, ?_, ?_⟩
    · rw [hf.outside (hx1 i hi).1]; exact (main i hi 1 (by omega)).trans (by simp [gridVal, hi])
    · rw [hf.outside (hx1 i hi).2.1]; exact (main i hi 2 (by omega)).trans (by simp [gridVal, hi])
    · rw [hf.outside (hx2 (i % 2) (by omega))]
      refine (main i hi 3 (by omega)).trans ?_
      rcases Nat.mod_two_eq_zero_or_one i with h | h <;> simp [gridVal, hi, h]
    · rw [hf.outside (hx1 i hi).2.2]; exact (main i hi 4 (by omega)).trans (by simp [gridVal, hi])
    · rw [hf.outside hx6]; exact (mid 1 (by omega)).trans (by simp [gridVal])
    · rw [hf.outside hx7]; exact (mid 2 (by omega)).trans (by simp [gridVal])
    · rw [hf.outside hx3]; exact (mid 3 (by omega)).trans (by simp [gridVal])
    · rw [hf.outside hx4]; exact (lst 1 (by omega)).trans (by simp [gridVal])
    · rw [hf.outside hx5]; exact (lst 3 (by omega)).trans (by simp [gridVal])
  unfold circuit
  rw [sat_append]
  refine ⟨?_, hcp⟩
  rw [gates_iff c m hm x srow _ (fun i hi => (((copies_iff c m x srow _).1 hcp).1 i hi).2.2.1)]
  have facE : ∀ i < m, fac c srow (assign c m x srow t) x 2 i =
      (x.vals t).f i + (x.vals t).theta1 * (x.vals t).se i + (x.vals t).theta2 := by
    intro i hi
    rw [fac, hf.outside (hx2 0 (by omega)), hf.outside (hx2 1 (by omega)),
      show cell c srow (assign c m x srow t) 1 i = _ from main i hi 1 (by omega),
      show cell c srow (assign c m x srow t) 2 i = _ from main i hi 2 (by omega)]
    simp [gridVal, hi, In.vals]
  have facS : ∀ i < m, fac c srow (assign c m x srow t) x 4 i =
      (x.vals t).f i + (x.vals t).theta1 * (x.vals t).ss i + (x.vals t).theta2 := by
    intro i hi
    rw [fac, hf.outside (hx2 0 (by omega)), hf.outside (hx2 1 (by omega)),
      show cell c srow (assign c m x srow t) 1 i = _ from main i hi 1 (by omega),
      show cell c srow (assign c m x srow t) 4 i = _ from main i hi 4 (by omega)]
    simp [gridVal, hi, In.vals]
  have m0 : ∀ i < m, cell c srow (assign c m x srow t) 0 i = gridVal m x t i 0 := fun i hi => main i hi 0 (by omega)
  have m5 : ∀ i < m, cell c srow (assign c m x srow t) 5 i = gridVal m x t i 5 := fun i hi => main i hi 5 (by omega)
  have d0 := mid 0 (by omega)
  have d1 := mid 1 (by omega)
  have d2 := mid 2 (by omega)
  have d3 := mid 3 (by omega)
  have d4 := mid 4 (by omega)
  have l0 := lst 0 (by omega)
  have l1 := lst 1 (by omega)
  have l2 := lst 2 (by omega)
  have l3 := lst 3 (by omega)
  simp only [Nat.cast_ofNat, Nat.cast_zero, Nat.cast_one] at d0 d1 d2 d3 d4 l0 l1 l2 l3
  constructor
  · rw [m0 0 (by omega), facE 0 (by omega)]
    simp [gridVal, show 0 < m by omega, product]
  · rw [m5 0 (by omega), facS 0 (by omega)]
    simp [gridVal, show 0 < m by omega, product]
  · intro i hi
    rw [m0 (i + 1) hi, m0 i (by omega), facE (i + 1) hi]
    simp only [gridVal, hi, show i < m by omega, if_true, OfNat.ofNat_ne_zero, OfNat.ofNat_ne_one, Nat.reduceEqDiff, if_false]
    rw [product, product, Finset.prod_range_succ (n := i + 1)]
  · intro i hi
    rw [m5 (i + 1) hi, m5 i (by omega), facS (i + 1) hi]
    simp only [gridVal, hi, show i < m by omega, if_true, OfNat.ofNat_ne_zero, OfNat.ofNat_ne_one, Nat.reduceEqDiff, if_false]
    rw [product, product, Finset.prod_range_succ (n := i + 1)]
  · rw [d0, d3, l1]; simp [gridVal, spec, In.vals]
  · rw [d4, d1, d2, l3, l1, m5 (m - 1) (by omega), m0 (m - 1) (by omega)]
    simp only [gridVal, show m - 1 < m by omega, if_true, show m - 1 + 1 = m by omega, lt_irrefl, if_false, spec,
      show ¬ m + 1 < m by omega, show m + 1 ≠ m by omega, In.vals, OfNat.ofNat_ne_zero, OfNat.ofNat_ne_one,
      Nat.reduceEqDiff, one_ne_zero]
    ring
  · rw [l2, l1]; simp [gridVal]
  · rw [l0, d1, l2, l1]; simp [gridVal, spec, In.vals, pow_two]

/-! ### A single permuted column -/

/-- Inputs taken from a public input column: row `k` of column 0. -/
def pubIn : In where
  f _ := ⟨0, 0, false, .publicInput⟩
  se _ := ⟨0, 1, false, .publicInput⟩
  ss _ := ⟨0, 2, false, .publicInput⟩
  l0 := ⟨0, 3, false, .publicInput⟩
  v := ⟨0, 4, false, .publicInput⟩
  vz := ⟨0, 5, false, .publicInput⟩
  qlast := ⟨0, 6, false, .publicInput⟩
  qpad := ⟨0, 7, false, .publicInput⟩
  theta i := ⟨0, 8 + i, false, .publicInput⟩

theorem pubIn_outside (m : ℕ) (srow : ℤ) : pubIn.Outside m srow := by
  simp [In.Outside, pubIn, Var.Outside]

/-- **C59** (negated for one column, soundness). The second challenge is never copied into the table when only
one column is permuted: a table satisfying the circuit has 0 where the argument's second term is 1. -/
theorem perm_one_unsound (c : Cols) (hc : c.OK 6) (srow : ℤ) :
    ∃ t : Table F, Sat t (circuit c 1 pubIn srow) ∧
      (result c 1 srow 1).value t = 0 ∧ spec 1 (pubIn.vals t) 1 = 1 := by
  have h31 : c.w 3 ≠ c.w 1 := fun h => by have := (hc.inj (by omega) (by omega)).1 h; omega
  have h30 : c.w 3 ≠ c.w 0 := fun h => by have := (hc.inj (by omega) (by omega)).1 h; omega
  have h32 : c.w 3 ≠ c.w 2 := fun h => by have := (hc.inj (by omega) (by omega)).1 h; omega
  have h34 : c.w 3 ≠ c.w 4 := fun h => by have := (hc.inj (by omega) (by omega)).1 h; omega
  have h35 : c.w 3 ≠ c.w 5 := fun h => by have := (hc.inj (by omega) (by omega)).1 h; omega
  refine ⟨fun ty i r => match ty with
    | .publicInput => if r = 5 ∨ r = 9 then 1 else 0
    | .witness => if i = c.w 3 ∧ r = srow + 2 then 1 else 0
    | _ => 0, ?_, ?_, ?_⟩
  · simp only [circuit, copies, List.cons_append, List.nil_append, List.range_one, List.flatMap_cons, List.flatMap_nil,
      sat_cons, sat_nil, and_true, holds_copy, Cols.value_wa]
    refine ⟨?_, ?_, ?_, ?_, ?_⟩
    · simp [holds_gate, c1, c2, c3, c4, Expr.eval_sub, Expr.eval_add, Expr.eval_mul, Cols.eval_wv, h31.symm, h30.symm, h32.symm,
        h34.symm, h35.symm]
    · simp [holds_gate, midRows]
    · simp [holds_gate, c7, c8, Expr.eval_sub, Expr.eval_add, Expr.eval_mul, Cols.eval_wv, h31.symm, h30.symm, h32.symm,
        h34.symm, h35.symm]
    · simp [holds_gate, c9, c10, c11, c12, Expr.eval_sub, Expr.eval_add, Expr.eval_mul, Cols.eval_wv, h31.symm, h30.symm, h32.symm,
        h34.symm, h35.symm]
    · simp [pubIn, Var.value, h31.symm, h30.symm, h32.symm, h34.symm, h35.symm, add_assoc]
  · simp [result, rows, Cols.value_wa, h34.symm]
  · simp [spec, In.vals, pubIn, Var.value, product]

/-- **C59** (negated for one column, completeness). With `L0 = 1` and all other inputs 0 the assigned table does not
satisfy the circuit. -/
theorem perm_one_incomplete (c : Cols) (hc : c.OK 6) (srow : ℤ) (t : Table F)
    (h3 : pubIn.l0.value t = 1) (h : ∀ v ∈ [pubIn.f 0, pubIn.se 0, pubIn.ss 0, pubIn.v, pubIn.vz, pubIn.qlast, pubIn.qpad,
      pubIn.theta 0, pubIn.theta 1], v.value t = 0) :
    ¬ Sat (assign c 1 pubIn srow t) (circuit c 1 pubIn srow) := by
  intro hs
  have G := writes_grid c 1 pubIn srow t
  have rd : ∀ (r j : ℕ), j < 6 → (⟨.witness, c.w (j : ℤ), srow + (r : ℤ), gridVal 1 pubIn t r j⟩ : Write F) ∈ writes c 1 pubIn srow t →
      cell c srow (assign c 1 pubIn srow t) (j : ℤ) r = gridVal 1 pubIn t r j := fun r j hj h => G.read hc t hj h
  have main : ∀ j : ℕ, j < 6 → cell c srow (assign c 1 pubIn srow t) (j : ℤ) 0 = gridVal 1 pubIn t 0 j := by
    intro j hj
    apply rd 0 j hj
    unfold writes
    simp only [List.mem_append, List.mem_flatMap, List.mem_range, acc_eq]
    refine Or.inl ⟨0, by omega, ?_⟩
    interval_cases j <;> simp [gridVal, In.vals]
  have mid : cell c srow (assign c 1 pubIn srow t) 3 1 = pubIn.l0.value t := by
    refine (rd 1 3 (by omega) ?_).trans (by simp [gridVal])
    unfold writes
    simp only [List.mem_append, acc_eq]
    refine Or.inr ?_
    simp [gridVal, In.vals, spec]
  simp only [List.forall_mem_cons] at h
  obtain ⟨a1, a2, a3, a4, a5, a6, a7, a8, a9, -⟩ := h
  simp only [circuit, List.cons_append, sat_cons] at hs
  have g := hs.1
  simp only [holds_gate, List.mem_singleton, forall_eq, List.forall_mem_cons, c1, Expr.eval_sub, Expr.eval_add, Expr.eval_mul,
    Cols.eval_wv] at g
  have e := g.1
  have b0 : cell c srow (assign c 1 pubIn srow t) 0 0 = _ := main 0 (by omega)
  have b1 : cell c srow (assign c 1 pubIn srow t) 1 0 = _ := main 1 (by omega)
  have b2 : cell c srow (assign c 1 pubIn srow t) 2 0 = _ := main 2 (by omega)
  simp only [cell, Nat.cast_zero, Nat.cast_one] at b0 b1 b2 mid
  rw [b0, b1, b2, mid, h3] at e
  simp [gridVal, product, In.vals, a1, a2, a8, a9] at e

/-! ### Instances -/

/-- Six columns. -/
def cols6 : Cols := ⟨[0, 1, 2, 3, 4, 5], [], [0]⟩

theorem cols6_ok : cols6.OK 6 := ⟨by simp [cols6], by simp [cols6]⟩

instance : Fact (Nat.Prime 101) := ⟨by norm_num⟩

/-- An honest table for five permuted columns over `F_101`, with every input equal to 2. -/
example : ∃ t : Table (ZMod 101), Sat t (circuit cols6 5 pubIn 3) ∧ pubIn.l0.value t = 2 :=
  ⟨_, (perm_complete_partial cols6 cols6_ok 5 (by omega) pubIn 3 (fun _ _ _ => 2) (pubIn_outside _ _)).1,
    ((perm_complete_partial cols6 cols6_ok 5 (by omega) pubIn 3 (fun _ _ _ => (2 : ZMod 101)) (pubIn_outside _ _)).2.outside
      (pubIn_outside 5 3).2.2.1).trans rfl⟩

/-- The three terms for two columns, all inputs 2: `2(1-2)`, `(1-4)(2·8² - 2·8²)`, `2(4-2)`. -/
example (j : ℕ) (hj : j < 3) :
    (result cols6 2 3 j).value (assign cols6 2 pubIn 3 (fun _ _ _ => (2 : ZMod 101))) =
      spec 2 (pubIn.vals (assign cols6 2 pubIn 3 (fun _ _ _ => (2 : ZMod 101)))) j :=
  perm_sound_partial cols6 2 le_rfl pubIn 3 _ (perm_complete_partial cols6 cols6_ok 2 le_rfl pubIn 3 _ (pubIn_outside _ _)).1 j hj

/-- The hypotheses of `perm_one_incomplete` hold for a table. -/
example : ¬ Sat (assign cols6 1 pubIn 0 (fun ty _ r => if ty = .publicInput ∧ r = 3 then (1 : ZMod 101) else 0))
    (circuit cols6 1 pubIn 0) :=
  perm_one_incomplete cols6 cols6_ok 0 _ (by simp [pubIn, Var.value]) (by simp [pubIn, Var.value])

end PermVerifier
end Verif
