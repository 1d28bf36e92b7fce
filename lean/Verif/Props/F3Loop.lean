import Verif.Model.F3Loop
import Mathlib.Algebra.BigOperators.Fin
import Mathlib.Algebra.Field.ZMod
import Mathlib.Data.List.GetD
import Mathlib.Tactic.NormNum.Prime

/-!
# C60: the sum of the lookup argument
-/

set_option linter.unusedSimpArgs false
set_option linter.unusedSectionVars false
set_option linter.unusedVariables false

namespace Verif
namespace F3Loop
variable {F : Type*} [Field F]

/-! ### Specification -/

/-- `Σ α_i (s_i - t_i)`. -/
def spec (m : ℕ) (a s t : ℕ → F) : F := ∑ i ∈ Finset.range m, a i * (s i - t i)

/-- The specified value of the inputs. -/
def In.spec (x : In) (m : ℕ) (t : Table F) : F :=
  F3Loop.spec m (fun i => (x.a i).value t) (fun i => (x.s i).value t) (fun i => (x.t i).value t)

/-! ### Arithmetic of the layout -/

theorem lastCol_pos {w m : ℕ} (hw : 0 < w) : 1 ≤ lastCol w m ∧ lastCol w m ≤ w := by
  unfold lastCol
  have := Nat.mod_lt (4 * m) hw
  split_ifs <;> omega

theorem rows_pos {w m : ℕ} (hw : 0 < w) (hm : 0 < m) : 1 ≤ rows w m := (ceil_last hw (by omega)).2

theorem rows_last {w m : ℕ} (hw : 0 < w) (hm : 0 < m) : (rows w m - 1) * w + lastCol w m = 4 * m :=
  (ceil_last hw (by omega)).1

theorem mod_four (r w j : ℕ) : (r * w + j) % 4 = ((r % 4) * (w % 4) + j) % 4 := by
  rw [Nat.add_mod, Nat.mul_mod, ← Nat.add_mod]

/-- On row `r` the loop starts at the first column whose position is 3 modulo 4. -/
theorem startJ_spec (w r j : ℕ) : (startJ w r ≤ j ∧ (j - startJ w r) % 4 = 0) ↔ (r * w + j) % 4 = 3 := by
  rw [mod_four]
  unfold startJ
  have h2 : r % 2 = r % 4 % 2 := by omega
  rw [h2]
  have hw := Nat.mod_lt w (show 0 < 4 by omega)
  have hr := Nat.mod_lt r (show 0 < 4 by omega)
  generalize w % 4 = a at *
  generalize r % 4 = b at *
  interval_cases a <;> interval_cases b <;> simp <;> omega

/-- Which selectors are enabled where. -/
theorem mem_enabled {w m : ℕ} (hw : 4 ≤ w) (hm : 0 < m) (k r : ℕ) :
    (k, r) ∈ enabled w m ↔ (k = 0 ∧ r = 0) ∨
      ∃ j < w, r * w + j < 4 * m ∧ (r * w + j) % 4 = 3 ∧ (r = 0 → j = 3 → rows w m = 1) ∧ k = sel w j := by
  have hR := rows_last (w := w) (m := m) (by omega) hm
  have h1 := rows_pos (w := w) (m := m) (by omega) hm
  have hL := lastCol_pos (w := w) (m := m) (by omega)
  simp only [enabled, List.cons_append, List.mem_cons, List.mem_append, List.mem_flatMap, List.mem_map, List.mem_range,
    List.mem_filter, mem_forStep (show 0 < 4 by omega), startJ_spec, Prod.mk.injEq, decide_eq_true_eq]
  refine or_congr Iff.rfl ?_
  constructor
  · rintro (⟨r', hr', j, ⟨⟨hj, hp⟩, hn⟩, rfl, rfl⟩ | ⟨j, ⟨hj, hp⟩, rfl, rfl⟩)
    · have := (grid_pos hR h1 hL.2 r' j).1 ⟨by omega, by rw [if_neg (by omega)]; exact hj⟩
      exact ⟨j, hj, this.2, hp, fun a b => absurd ⟨a, b⟩ hn, rfl⟩
    · have := (grid_pos hR h1 hL.2 (rows w m - 1) j).1 ⟨by omega, by rw [if_pos rfl]; exact hj⟩
      exact ⟨j, this.1, this.2, hp, fun a b => by omega, rfl⟩
  · rintro ⟨j, hj, hp, h3, hn, rfl⟩
    have := (grid_pos hR h1 hL.2 r j).2 ⟨hj, hp⟩
    by_cases hr : r = rows w m - 1
    · rw [if_pos hr] at this
      exact Or.inr ⟨j, ⟨this.2, by rw [← hr]; exact h3⟩, rfl, hr.symm⟩
    · rw [if_neg hr] at this
      exact Or.inl ⟨r, by omega, j, ⟨⟨hj, h3⟩, fun hh => by have := hn hh.1 hh.2; omega⟩, rfl, rfl⟩

/-! ### The gates -/

/-- The gate of column `j` is the right one unless the width is a multiple of four from eight up. -/
theorem gates_get {w : ℕ} (hw : 4 ≤ w) (hg : w % 4 ≠ 0 ∨ w = 4) (c : Cols) (j r : ℕ) (hj : j < w) (h3 : (r * w + j) % 4 = 3) :
    (gates c w : List (Expr F)).getD (sel w j) (.const 0) =
      if j = 0 then col0 c w else if j = 1 then col1 c w else if j = 2 then col2 c w else if j = 3 then col3 c w
      else same c j := by
  rw [mod_four] at h3
  unfold gates sel
  by_cases h0 : w % 4 = 0
  · obtain rfl : w = 4 := by omega
    have : j = 3 := by omega
    subst this
    simp
  · rw [if_neg h0, if_neg h0]
    by_cases h2 : w % 4 = 2
    · rw [if_pos h2, if_pos h2]
      have hodd : j % 2 = 1 := by
        rw [h2] at h3; omega
      obtain ⟨i, rfl⟩ : ∃ i, j = 2 * i + 1 := ⟨j / 2, by omega⟩
      rw [show (2 * i + 1) / 2 + 1 = i + 1 by omega]
      match i with
      | 0 => simp
      | 1 => simp
      | i + 2 =>
        rw [List.getD_append_right _ _ _ _ (by simp)]
        simp only [List.length_cons, List.length_nil, zero_add]
        rw [show i + 2 + 1 - (1 + 1 + 1) = i by omega, getD_map_forStep _ _ _ _ _ _ (by omega) (by omega)]
        rw [if_neg (by omega), if_neg (by omega), if_neg (by omega), if_neg (by omega)]
        congr 2; omega
    · rw [if_neg h2, if_neg h2]
      match j with
      | 0 => simp
      | 1 => simp
      | 2 => simp
      | 3 => simp
      | j + 4 =>
        rw [List.getD_append_right _ _ _ _ (by simp)]
        simp only [List.length_cons, List.length_nil, zero_add]
        rw [show j + 4 + 1 - (1 + 1 + 1 + 1 + 1) = j by omega, getD_map_forStep _ _ _ _ _ _ (by omega) (by omega)]
        rw [if_neg (by omega), if_neg (by omega), if_neg (by omega), if_neg (by omega)]
        congr 2; omega

/-- The recurrence at position `p`. -/
def Step (T : ℕ → F) (p : ℕ) : Prop := T p = T (p - 4) + (T (p - 2) - T (p - 1)) * T (p - 3)

/-- The right gate at position `p` (from the fifth item on) says the recurrence. -/
theorem step_iff {w : ℕ} (hw : 4 ≤ w) (c : Cols) (srow : ℤ) (t : Table F) (p : ℕ) (hp : 4 ≤ p) (h3 : p % 4 = 3) :
    ((if p % w = 0 then col0 c w else if p % w = 1 then col1 c w else if p % w = 2 then col2 c w
      else if p % w = 3 then col3 c w else same c (p % w : ℕ) : Expr F)).eval t (srow + (p / w : ℕ)) = 0 ↔
      Step (tcell c 0 w srow t) p := by
  have hw0 : 0 < w := by omega
  have wr : p % w ≤ 3 → w ≤ p := by
    intro h
    by_contra hlt
    rw [Nat.mod_eq_of_lt (by omega)] at h
    omega
  have bk : ∀ (k : ℕ) (i : ℤ), k ≤ p % w → i = ((p % w : ℕ) : ℤ) - k →
      t .witness (c.w i) (srow + ((p / w : ℕ) : ℤ) + 0) = tcell c 0 w srow t (p - k) :=
    fun k i hk hi => tcell_back c 0 w hw0 srow t hk (by rw [hi]; simp) (by ring)
  have wp : ∀ (k : ℕ) (i : ℤ), p % w < k → k ≤ 4 → w ≤ p → i = (w : ℤ) + ((p % w : ℕ) : ℤ) - k →
      t .witness (c.w i) (srow + ((p / w : ℕ) : ℤ) + -1) = tcell c 0 w srow t (p - k) :=
    fun k i hk hk' hp hi => tcell_wrap c 0 w hw0 srow t hk (by omega) hp (by rw [hi]; simp) rfl
  unfold Step
  split_ifs with h0 h1 h2 h4
  · simp only [col0, Expr.eval_sub, Expr.eval_mul, Cols.eval_wv]
    rw [bk 0 0 (by omega) (by omega), wp 4 _ (by omega) (by omega) (wr (by omega)) (by omega),
      wp 2 _ (by omega) (by omega) (wr (by omega)) (by omega), wp 1 _ (by omega) (by omega) (wr (by omega)) (by omega),
      wp 3 _ (by omega) (by omega) (wr (by omega)) (by omega), Nat.sub_zero]
    constructor <;> intro h <;> linear_combination h
  · simp only [col1, Expr.eval_sub, Expr.eval_mul, Cols.eval_wv]
    rw [bk 0 1 (by omega) (by omega), wp 4 _ (by omega) (by omega) (wr (by omega)) (by omega),
      wp 2 _ (by omega) (by omega) (wr (by omega)) (by omega), bk 1 0 (by omega) (by omega),
      wp 3 _ (by omega) (by omega) (wr (by omega)) (by omega), Nat.sub_zero]
    constructor <;> intro h <;> linear_combination h
  · simp only [col2, Expr.eval_sub, Expr.eval_mul, Cols.eval_wv]
    rw [bk 0 2 (by omega) (by omega), wp 4 _ (by omega) (by omega) (wr (by omega)) (by omega),
      bk 2 0 (by omega) (by omega), bk 1 1 (by omega) (by omega),
      wp 3 _ (by omega) (by omega) (wr (by omega)) (by omega), Nat.sub_zero]
    constructor <;> intro h <;> linear_combination h
  · simp only [col3, Expr.eval_sub, Expr.eval_mul, Cols.eval_wv]
    rw [bk 0 3 (by omega) (by omega), wp 4 _ (by omega) (by omega) (wr (by omega)) (by omega),
      bk 2 1 (by omega) (by omega), bk 1 2 (by omega) (by omega), bk 3 0 (by omega) (by omega), Nat.sub_zero]
    constructor <;> intro h <;> linear_combination h
  · simp only [same, Expr.eval_sub, Expr.eval_mul, Cols.eval_wv]
    rw [bk 0 _ (by omega) (by simp), bk 4 _ (by omega) (by omega),
      bk 2 _ (by omega) (by omega), bk 1 _ (by omega) (by omega), bk 3 _ (by omega) (by omega), Nat.sub_zero]
    constructor <;> intro h <;> linear_combination h

theorem first_iff {w : ℕ} (hw : 4 ≤ w) (c : Cols) (srow : ℤ) (t : Table F) :
    (first c : Expr F).eval t (srow + (0 : ℕ)) = 0 ↔
      tcell c 0 w srow t 3 = (tcell c 0 w srow t 1 - tcell c 0 w srow t 2) * tcell c 0 w srow t 0 := by
  have e : ∀ k < 4, tcell c 0 w srow t k = t .witness (c.w (k : ℤ)) (srow + (0 : ℕ) + 0) := by
    intro k hk
    rw [tcell, Nat.mod_eq_of_lt (by omega), Nat.div_eq_of_lt (by omega)]; simp
  rw [e 0 (by omega), e 1 (by omega), e 2 (by omega), e 3 (by omega)]
  simp only [first, Expr.eval_sub, Expr.eval_mul, Cols.eval_wv, sub_eq_zero]
  rfl

/-- The gate of column 3 on the first row compares with the cell before the component. -/
theorem col3_first {w : ℕ} (hw : 4 ≤ w) (c : Cols) (srow : ℤ) (t : Table F) :
    (col3 c w : Expr F).eval t (srow + (0 : ℕ)) = 0 ↔
      tcell c 0 w srow t 3 = t .witness (c.w ((w : ℤ) - 1)) (srow - 1) +
        (tcell c 0 w srow t 1 - tcell c 0 w srow t 2) * tcell c 0 w srow t 0 := by
  have e : ∀ k < 4, tcell c 0 w srow t k = t .witness (c.w (k : ℤ)) (srow + (0 : ℕ) + 0) := by
    intro k hk
    rw [tcell, Nat.mod_eq_of_lt (by omega), Nat.div_eq_of_lt (by omega)]; simp
  rw [e 0 (by omega), e 1 (by omega), e 2 (by omega), e 3 (by omega)]
  simp only [col3, Expr.eval_sub, Expr.eval_mul, Cols.eval_wv]
  have e2 : srow + ((0 : ℕ) : ℤ) + -1 = srow - 1 := by simp; ring
  rw [e2]
  simp only [Nat.cast_zero, Nat.cast_one, Nat.cast_ofNat]
  constructor <;> intro h <;> linear_combination h

/-- The copies pin the inputs. -/
theorem copies_iff {w m : ℕ} (hw : 4 ≤ w) (hm : 0 < m) (c : Cols) (x : In) (srow : ℤ) (t : Table F) :
    Sat t (copies c w m x srow : List (Op F)) ↔ ∀ i < m, tcell c 0 w srow t (4 * i) = (x.a i).value t ∧
      tcell c 0 w srow t (4 * i + 1) = (x.s i).value t ∧ tcell c 0 w srow t (4 * i + 2) = (x.t i).value t := by
  have hR := rows_last (w := w) (m := m) (by omega) hm
  have h1 := rows_pos (w := w) (m := m) (by omega) hm
  have hL := lastCol_pos (w := w) (m := m) (by omega)
  have hw0 : 0 < w := by omega
  have key : Sat t (copies c w m x srow : List (Op F)) ↔ ∀ p < 4 * m,
      (p % 4 = 0 → tcell c 0 w srow t p = (x.a (p / 4)).value t) ∧
      (p % 4 = 1 → tcell c 0 w srow t p = (x.s (p / 4)).value t) ∧
      (p % 4 = 2 → tcell c 0 w srow t p = (x.t (p / 4)).value t) := by
    have cl : ∀ r j : ℕ, j < w → t .witness (c.w (j : ℤ)) (srow + (r : ℤ)) = tcell c 0 w srow t (r * w + j) := by
      intro r j hj
      rw [tcell, Nat.mul_comm r w, Nat.mul_add_mod, Nat.mod_eq_of_lt hj, Nat.mul_add_div hw0, Nat.div_eq_of_lt hj]
      simp
    simp only [Sat, copies, List.mem_flatMap, List.mem_range]
    constructor
    · intro h p hp
      have hpos := (grid_pos hR h1 hL.2 (p / w) (p % w)).2 ⟨Nat.mod_lt _ hw0, by rw [Nat.mul_comm, Nat.div_add_mod]; exact hp⟩
      have e : p / w * w + p % w = p := by rw [Nat.mul_comm]; exact Nat.div_add_mod p w
      have hh := fun o ho => h o ⟨p / w, hpos.1, p % w, hpos.2, ho⟩
      simp only [e] at hh
      have cle : t .witness (c.w ((p % w : ℕ) : ℤ)) (srow + ((p / w : ℕ) : ℤ)) = tcell c 0 w srow t p := by
        rw [cl _ _ (Nat.mod_lt _ hw0), e]
      refine ⟨fun h4 => ?_, fun h4 => ?_, fun h4 => ?_⟩
      · rw [← cle]; exact hh _ (by rw [if_pos h4]; exact List.mem_singleton_self _)
      · rw [← cle]; exact hh _ (by rw [if_neg (by omega), if_pos h4]; exact List.mem_singleton_self _)
      · rw [← cle]; exact hh _ (by rw [if_neg (by omega), if_neg (by omega), if_pos h4]; exact List.mem_singleton_self _)
    · rintro h o ⟨r, hr, j, hj, ho⟩
      obtain ⟨hjw, hp⟩ := (grid_pos hR h1 hL.2 r j).1 ⟨hr, hj⟩
      obtain ⟨a1, a2, a3⟩ := h _ hp
      rw [← cl r j hjw] at a1 a2 a3
      split_ifs at ho with b1 b2 b3
      · rw [List.mem_singleton.1 ho]; exact a1 b1
      · rw [List.mem_singleton.1 ho]; exact a2 b2
      · rw [List.mem_singleton.1 ho]; exact a3 b3
      · simp at ho
  rw [key]
  constructor
  · intro h i hi
    refine ⟨?_, ?_, ?_⟩
    · have := (h (4 * i) (by omega)).1 (by omega); rwa [show 4 * i / 4 = i by omega] at this
    · have := (h (4 * i + 1) (by omega)).2.1 (by omega); rwa [show (4 * i + 1) / 4 = i by omega] at this
    · have := (h (4 * i + 2) (by omega)).2.2 (by omega); rwa [show (4 * i + 2) / 4 = i by omega] at this
  · intro h p hp
    obtain ⟨a1, a2, a3⟩ := h (p / 4) (by omega)
    refine ⟨fun e => ?_, fun e => ?_, fun e => ?_⟩
    · rwa [show 4 * (p / 4) = p by omega] at a1
    · rwa [show 4 * (p / 4) + 1 = p by omega] at a2
    · rwa [show 4 * (p / 4) + 2 = p by omega] at a3

/-- Everything the circuit says, for the widths whose gates are right. -/
theorem sat_iff {w m : ℕ} (hw : 4 ≤ w) (hg : w % 4 ≠ 0 ∨ w = 4) (hm : 0 < m) (c : Cols) (x : In) (srow : ℤ) (t : Table F) :
    Sat t (circuit c w m x srow) ↔
      ((tcell c 0 w srow t 3 = (tcell c 0 w srow t 1 - tcell c 0 w srow t 2) * tcell c 0 w srow t 0) ∧
        (∀ i < m, 0 < i → Step (tcell c 0 w srow t) (4 * i + 3)) ∧
        (rows w m = 1 → tcell c 0 w srow t 3 = t .witness (c.w ((w : ℤ) - 1)) (srow - 1) +
          (tcell c 0 w srow t 1 - tcell c 0 w srow t 2) * tcell c 0 w srow t 0)) ∧
      ∀ i < m, tcell c 0 w srow t (4 * i) = (x.a i).value t ∧
        tcell c 0 w srow t (4 * i + 1) = (x.s i).value t ∧ tcell c 0 w srow t (4 * i + 2) = (x.t i).value t := by
  have hw0 : 0 < w := by omega
  unfold circuit
  rw [sat_append, copies_iff hw hm]
  refine and_congr ?_ Iff.rfl
  have key : Sat t ((enabled w m).map fun e => (.gate [(gates c w).getD e.1 (.const 0)] [srow + (e.2 : ℤ)] : Op F)) ↔
      ∀ k r, (k, r) ∈ enabled w m → ((gates c w).getD k (.const 0) : Expr F).eval t (srow + (r : ℤ)) = 0 := by
    simp only [Sat, List.mem_map, forall_exists_index, and_imp, Prod.forall]
    constructor
    · intro h k r hk
      have := h _ k r hk rfl
      simpa using this
    · rintro h o k r hk rfl
      simpa using h k r hk
  rw [key]
  have eqp : ∀ p, p / w * w + p % w = p := fun p => by rw [Nat.mul_comm]; exact Nat.div_add_mod p w
  have g0 : ((gates c w : List (Expr F)).getD 0 (.const 0)) = first c := by
    unfold gates; split_ifs <;> rfl
  constructor
  · intro h
    refine ⟨?_, ?_, ?_⟩
    · have := h 0 0 ((mem_enabled hw hm 0 0).2 (Or.inl ⟨rfl, rfl⟩))
      rw [g0] at this
      exact (first_iff hw c srow t).1 this
    · intro i hi h0
      have hp := h (sel w ((4 * i + 3) % w)) ((4 * i + 3) / w) ((mem_enabled hw hm _ _).2 (Or.inr
        ⟨(4 * i + 3) % w, Nat.mod_lt _ hw0, by rw [eqp]; omega, by rw [eqp]; omega, ?_, rfl⟩))
      · rw [gates_get hw hg c ((4 * i + 3) % w) ((4 * i + 3) / w) (Nat.mod_lt _ hw0) (by rw [eqp]; omega)] at hp
        exact (step_iff hw c srow t (4 * i + 3) (by omega) (by omega)).1 hp
      · intro a b
        have := eqp (4 * i + 3)
        rw [a, b] at this; omega
    · intro hR
      have hp := h (sel w 3) 0 ((mem_enabled hw hm _ _).2 (Or.inr ⟨3, by omega, by omega, by omega, fun _ _ => hR, rfl⟩))
      rw [gates_get hw hg c 3 0 (by omega) (by omega)] at hp
      simp only [OfNat.ofNat_ne_zero, if_false, OfNat.ofNat_ne_one, Nat.reduceEqDiff, if_true] at hp
      exact (col3_first hw c srow t).1 hp
  · rintro ⟨h0, hs, hR⟩ k r hk
    rcases (mem_enabled hw hm k r).1 hk with ⟨rfl, rfl⟩ | ⟨j, hj, hp, h3, hn, rfl⟩
    · rw [g0]; exact (first_iff hw c srow t).2 h0
    · rw [gates_get hw hg c j r hj h3]
      have ej : (r * w + j) % w = j := by rw [Nat.mul_comm, Nat.mul_add_mod, Nat.mod_eq_of_lt hj]
      have er : (r * w + j) / w = r := by
        rw [Nat.mul_comm, Nat.mul_add_div hw0, Nat.div_eq_of_lt hj, add_zero]
      by_cases h4 : 4 ≤ r * w + j
      · have := (step_iff hw c srow t (r * w + j) h4 h3)
        rw [ej, er] at this
        rw [this]
        have e := hs ((r * w + j) / 4) (by omega) (by omega)
        rwa [show 4 * ((r * w + j) / 4) + 3 = r * w + j by omega] at e
      · have hr0 : r = 0 := by
          rcases Nat.eq_zero_or_pos r with h | h
          · exact h
          · have := Nat.mul_le_mul_right w h
            rw [Nat.succ_eq_add_one, zero_add, one_mul] at this; omega
        subst hr0
        have hj3 : j = 3 := by omega
        subst hj3
        simp only [OfNat.ofNat_ne_zero, if_false, OfNat.ofNat_ne_one, Nat.reduceEqDiff, if_true]
        exact (col3_first hw c srow t).2 (hR (hn rfl rfl))

/-- The result cell is the last item. -/
theorem result_cell {w m : ℕ} (hw : 4 ≤ w) (hm : 0 < m) (c : Cols) (srow : ℤ) (t : Table F) :
    (result c w m srow).value t = tcell c 0 w srow t (4 * m - 1) := by
  have hR := rows_last (w := w) (m := m) (by omega) hm
  have h1 := rows_pos (w := w) (m := m) (by omega) hm
  have hL := lastCol_pos (w := w) (m := m) (by omega)
  have hw0 : 0 < w := by omega
  have e : 4 * m - 1 = w * (rows w m - 1) + (lastCol w m - 1) := by rw [Nat.mul_comm w]; omega
  rw [result, Cols.value_wa, tcell, e, Nat.mul_add_mod, Nat.mod_eq_of_lt (by omega), Nat.mul_add_div hw0,
    Nat.div_eq_of_lt (a := lastCol w m - 1) (by omega), add_zero]
  congr 2
  · push_cast [Nat.cast_sub hL.1]; ring
  · push_cast [Nat.cast_sub h1]; ring

/-- **C60** (soundness). For every width from four up that is not a multiple of four, and for four: any table satisfying
the circuit has the sum in the result cell. -/
theorem f3_sound_partial {w m : ℕ} (hw : 4 ≤ w) (hg : w % 4 ≠ 0 ∨ w = 4) (hm : 0 < m) (c : Cols) (x : In) (srow : ℤ)
    (t : Table F) (h : Sat t (circuit c w m x srow)) : (result c w m srow).value t = x.spec m t := by
  obtain ⟨⟨h0, hs, -⟩, hc⟩ := (sat_iff hw hg hm c x srow t).1 h
  rw [result_cell hw hm]
  have key : ∀ i < m, tcell c 0 w srow t (4 * i + 3) = x.spec (i + 1) t := by
    intro i
    induction i with
    | zero =>
      intro hi
      obtain ⟨a1, a2, a3⟩ := hc 0 hi
      rw [mul_zero, zero_add] at *
      rw [h0, a1, a2, a3]
      simp [In.spec, spec]; ring
    | succ i ih =>
      intro hi
      obtain ⟨a1, a2, a3⟩ := hc (i + 1) hi
      have st := hs (i + 1) hi (by omega)
      unfold Step at st
      rw [show 4 * (i + 1) + 3 - 4 = 4 * i + 3 by omega, show 4 * (i + 1) + 3 - 2 = 4 * (i + 1) + 1 by omega,
        show 4 * (i + 1) + 3 - 1 = 4 * (i + 1) + 2 by omega, show 4 * (i + 1) + 3 - 3 = 4 * (i + 1) by omega,
        ih (by omega), a1, a2, a3] at st
      rw [st]
      simp only [In.spec, spec, Finset.sum_range_succ (n := i + 1)]
      ring
  have := key (m - 1) (by omega)
  rwa [show 4 * (m - 1) + 3 = 4 * m - 1 by omega, show m - 1 + 1 = m by omega] at this

/-! ### Completeness -/

theorem acc_eq (x : In) (t : Table F) (i : ℕ) : acc x t i = x.spec i t := by
  induction i with
  | zero => simp [acc, In.spec, spec]
  | succ i ih => rw [acc, ih, In.spec, In.spec, spec, spec, Finset.sum_range_succ]; ring

theorem trace_length (m : ℕ) (x : In) (t : Table F) : (trace m x t).length = 4 * m := by
  simp [trace, List.length_flatMap]; ring

theorem trace_get (m : ℕ) (x : In) (t : Table F) (i k : ℕ) (hi : i < m) (hk : k < 4) :
    (trace m x t).getD (4 * i + k) 0 =
      [(x.a i).value t, (x.s i).value t, (x.t i).value t, x.spec (i + 1) t].getD k 0 := by
  induction m with
  | zero => omega
  | succ m ih =>
    have e : trace (m + 1) x t = trace m x t ++
        [(x.a m).value t, (x.s m).value t, (x.t m).value t, x.spec (m + 1) t] := by
      simp [trace, List.range_succ, List.flatMap_append, acc_eq]
    rw [e]
    rcases Nat.lt_succ_iff_lt_or_eq.1 hi with h | rfl
    · rw [List.getD_append _ _ _ _ (by rw [trace_length]; omega)]
      exact ih h
    · rw [List.getD_append_right _ _ _ _ (by rw [trace_length]; omega), trace_length]
      congr 1; omega

/-- All inputs are outside the component's rows. -/
def In.Outside (x : In) (w m : ℕ) (srow : ℤ) : Prop :=
  ∀ i < m, (x.a i).Outside srow (rows w m) ∧ (x.s i).Outside srow (rows w m) ∧ (x.t i).Outside srow (rows w m)

theorem writes_grid {w m : ℕ} (hw : 4 ≤ w) (hm : 0 < m) (c : Cols) (x : In) (srow : ℤ) (t : Table F) :
    GridWrites c srow w (rows w m) (fun r j => (trace m x t).getD (r * w + j) 0) (writes c w m x srow t) := by
  intro y hy
  simp only [writes, List.mem_map, List.mem_range, trace_length] at hy
  obtain ⟨i, hi, rfl⟩ := hy
  have hw0 : 0 < w := by omega
  refine ⟨i / w, ?_, i % w, Nat.mod_lt _ hw0, ?_⟩
  · have := (grid_pos (rows_last hw0 hm) (rows_pos hw0 hm) (lastCol_pos hw0).2 (i / w) (i % w)).2
      ⟨Nat.mod_lt _ hw0, by rw [Nat.mul_comm, Nat.div_add_mod]; exact hi⟩
    exact this.1
  · simp only
    rw [Nat.mul_comm, Nat.div_add_mod]

theorem assign_cell {w m : ℕ} (hw : 4 ≤ w) (hm : 0 < m) (c : Cols) (hc : c.OK w) (x : In) (srow : ℤ) (t : Table F) (p : ℕ)
    (hp : p < 4 * m) : tcell c 0 w srow (assign c w m x srow t) p = (trace m x t).getD p 0 := by
  have G := writes_grid hw hm c x srow t
  have hw0 : 0 < w := by omega
  have e : p / w * w + p % w = p := by rw [Nat.mul_comm]; exact Nat.div_add_mod p w
  have := G.read (r := p / w) (j := p % w) hc t (Nat.mod_lt _ hw0) (by
    simp only [writes, List.mem_map, List.mem_range, trace_length, e]
    exact ⟨p, hp, rfl⟩)
  simp only [e] at this
  rw [← this, tcell, assign]
  simp

/-- What the honest table looks like. -/
theorem assign_facts {w m : ℕ} (hw : 4 ≤ w) (hm : 0 < m) (c : Cols) (hc : c.OK w) (x : In) (srow : ℤ) (t : Table F)
    (hx : x.Outside w m srow) :
    (∀ i < m, tcell c 0 w srow (assign c w m x srow t) (4 * i) = (x.a i).value (assign c w m x srow t) ∧
      tcell c 0 w srow (assign c w m x srow t) (4 * i + 1) = (x.s i).value (assign c w m x srow t) ∧
      tcell c 0 w srow (assign c w m x srow t) (4 * i + 2) = (x.t i).value (assign c w m x srow t)) ∧
    (tcell c 0 w srow (assign c w m x srow t) 3 = (tcell c 0 w srow (assign c w m x srow t) 1 -
      tcell c 0 w srow (assign c w m x srow t) 2) * tcell c 0 w srow (assign c w m x srow t) 0) ∧
    (∀ i < m, 0 < i → Step (tcell c 0 w srow (assign c w m x srow t)) (4 * i + 3)) ∧
    Frame c srow (rows w m) t (assign c w m x srow t) := by
  have G := writes_grid hw hm c x srow t
  have hf : Frame c srow (rows w m) t (assign c w m x srow t) := (G.own hc).frame t
  have A : ∀ i < m, ∀ k < 4, tcell c 0 w srow (assign c w m x srow t) (4 * i + k) =
      [(x.a i).value t, (x.s i).value t, (x.t i).value t, x.spec (i + 1) t].getD k 0 := by
    intro i hi k hk
    rw [assign_cell hw hm c hc x srow t _ (by omega), trace_get m x t i k hi hk]
  refine ⟨fun i hi => ⟨?_, ?_, ?_⟩, ?_, ?_, hf⟩
  · rw [hf.outside (hx i hi).1]; exact A i hi 0 (by omega)
  · rw [hf.outside (hx i hi).2.1]; exact A i hi 1 (by omega)
  · rw [hf.outside (hx i hi).2.2]; exact A i hi 2 (by omega)
  · have a0 := A 0 hm 0 (by omega)
    have a1 := A 0 hm 1 (by omega)
    have a2 := A 0 hm 2 (by omega)
    have a3 := A 0 hm 3 (by omega)
    simp only [mul_zero, zero_add, List.getD_cons_zero, List.getD_cons_succ] at a0 a1 a2 a3
    rw [a0, a1, a2, a3]
    simp [In.spec, spec]; ring
  · intro i hi h0
    obtain ⟨i, rfl⟩ : ∃ k, i = k + 1 := ⟨i - 1, by omega⟩
    unfold Step
    rw [show 4 * (i + 1) + 3 - 4 = 4 * i + 3 by omega, show 4 * (i + 1) + 3 - 2 = 4 * (i + 1) + 1 by omega,
        show 4 * (i + 1) + 3 - 1 = 4 * (i + 1) + 2 by omega, show 4 * (i + 1) + 3 - 3 = 4 * (i + 1) + 0 by omega,
        A i (by omega) 3 (by omega), A (i + 1) hi 3 (by omega), A (i + 1) hi 2 (by omega), A (i + 1) hi 1 (by omega),
        A (i + 1) hi 0 (by omega)]
    simp only [List.getD_cons_zero, List.getD_cons_succ, In.spec, spec, Finset.sum_range_succ (n := i + 1)]
    ring

/-- **C60** (completeness). For the same widths: the assigned table satisfies the circuit exactly if the component has two
rows or more, or the last column happens to be zero on the row before it. -/
theorem f3_complete_partial {w m : ℕ} (hw : 4 ≤ w) (hg : w % 4 ≠ 0 ∨ w = 4) (hm : 0 < m) (c : Cols) (hc : c.OK w) (x : In)
    (srow : ℤ) (t : Table F) (hx : x.Outside w m srow) :
    (Sat (assign c w m x srow t) (circuit c w m x srow) ↔
      (rows w m = 1 → t .witness (c.w ((w : ℤ) - 1)) (srow - 1) = 0)) ∧
    Frame c srow (rows w m) t (assign c w m x srow t) := by
  obtain ⟨h1, h2, h3, hf⟩ := assign_facts hw hm c hc x srow t hx
  refine ⟨?_, hf⟩
  rw [sat_iff hw hg hm]
  have e : assign c w m x srow t .witness (c.w ((w : ℤ) - 1)) (srow - 1) = t .witness (c.w ((w : ℤ) - 1)) (srow - 1) :=
    hf.row (Or.inl (by omega)) _ _
  rw [e]
  constructor
  · rintro ⟨⟨a1, a2, a3⟩, a4⟩ hR
    have := a3 hR
    rw [a1] at this
    linear_combination -this
  · intro h
    exact ⟨⟨h2, h3, fun hR => by rw [h hR, zero_add]; exact h2⟩, h1⟩

/-! ### Widths 8, 12, ... -/

theorem gates_bad {w : ℕ} (hw : 8 ≤ w) (h4 : w % 4 = 0) (c : Cols) (j : ℕ) (hj : j < w) (h3 : j % 4 = 3) :
    (gates c w : List (Expr F)).getD (sel w j) (.const 0) = col3 c w := by
  unfold gates sel
  rw [if_pos h4, if_pos h4]
  obtain ⟨i, rfl⟩ : ∃ i, j = 4 * i + 3 := ⟨j / 4, by omega⟩
  rw [show (4 * i + 3) / 4 + 1 = i + 1 by omega]
  match i with
  | 0 => simp
  | i + 1 =>
    rw [List.getD_append_right _ _ _ _ (by simp)]
    simp only [List.length_cons, List.length_nil, zero_add]
    rw [show i + 1 + 1 - (1 + 1) = i by omega, getD_map_forStep _ _ _ _ _ _ (by omega) (by omega)]

/-- Inputs taken from a public input column. -/
def pubIn : In where
  a i := ⟨0, 3 * i, false, .publicInput⟩
  s i := ⟨0, 3 * i + 1, false, .publicInput⟩
  t i := ⟨0, 3 * i + 2, false, .publicInput⟩

theorem pubIn_outside (w m : ℕ) (srow : ℤ) : pubIn.Outside w m srow := by
  intro i _; simp [pubIn, Var.Outside]

/-- **C60** (negated for widths 8, 12, ..., soundness). With two summands and all inputs zero, the circuit accepts any
value as the sum. -/
theorem f3_unsound {w : ℕ} (hw : 8 ≤ w) (h4 : w % 4 = 0) (c : Cols) (hc : c.OK w) (srow : ℤ) (v : F) :
    ∃ t : Table F, Sat t (circuit c w 2 pubIn srow) ∧ (result c w 2 srow).value t = v ∧ pubIn.spec 2 t = 0 := by
  have hR : rows w 2 = 1 := by
    unfold rows
    rw [Nat.div_eq_iff (by omega)]; omega
  have hw0 : 0 < w := by omega
  let t : Table F := fun ty i r => if ty = .witness ∧ i = c.w 7 ∧ r = srow then v else 0
  have tc : ∀ p < 8, tcell c 0 w srow t p = if p = 7 then v else 0 := by
    intro p hp
    rw [tcell, Nat.mod_eq_of_lt (by omega), Nat.div_eq_of_lt (by omega)]
    have : c.w ((p : ℤ) + (0 : ℕ)) = c.w 7 ↔ p = 7 := by
      rw [hc.inj ⟨by omega, by omega⟩ ⟨by omega, by omega⟩]; omega
    simp only [t, this]
    simp
  have prev : t .witness (c.w ((w : ℤ) - 1)) (srow - 1) = 0 := by
    simp only [t]; rw [if_neg]; rintro ⟨-, -, h⟩; omega
  refine ⟨t, ?_, ?_, ?_⟩
  · unfold circuit
    rw [sat_append, copies_iff (by omega) (by omega)]
    constructor
    · rintro o ho
      simp only [List.mem_map, Prod.exists] at ho
      obtain ⟨k, r, hk, rfl⟩ := ho
      simp only [holds_gate, List.mem_singleton, forall_eq]
      rcases (mem_enabled (by omega) (by omega) k r).1 hk with ⟨rfl, rfl⟩ | ⟨j, hj, hp, h3, hn, rfl⟩
      · have g0 : ((gates c w : List (Expr F)).getD 0 (.const 0)) = first c := by
          unfold gates; split_ifs <;> rfl
        rw [g0]
        refine (first_iff (w := w) (by omega) c srow t).2 ?_
        rw [tc 0 (by omega), tc 1 (by omega), tc 2 (by omega), tc 3 (by omega)]; simp
      · have hr0 : r = 0 := by
          rcases Nat.eq_zero_or_pos r with h | h
          · exact h
          · have := Nat.mul_le_mul_right w h
            rw [Nat.succ_eq_add_one, zero_add, one_mul] at this; omega
        subst hr0
        rw [gates_bad hw h4 c j hj (by omega)]
        refine (col3_first (w := w) (by omega) c srow t).2 ?_
        rw [prev, tc 0 (by omega), tc 1 (by omega), tc 2 (by omega), tc 3 (by omega)]; simp
    · intro i hi
      have hv : ∀ y : Var, y.type = .publicInput → y.value t = 0 := by
        intro y hy; simp only [Var.value, hy, t]; simp
      rw [tc _ (by omega), tc _ (by omega), tc _ (by omega), hv _ rfl, hv _ rfl, hv _ rfl]
      rw [if_neg (by omega), if_neg (by omega), if_neg (by omega)]
      exact ⟨rfl, rfl, rfl⟩
  · rw [result_cell (by omega) (by omega), tc 7 (by omega)]; simp
  · have hv : ∀ y : Var, y.type = .publicInput → y.value t = 0 := by
      intro y hy; simp only [Var.value, hy, t]; simp
    have h1 : ∀ i, (pubIn.a i).value t = 0 := fun i => hv _ rfl
    simp [In.spec, spec, h1]

/-- If the last column is zero on the row before the component, the assigned table satisfies the circuit, whatever the
width. -/
theorem f3_complete_zero {w m : ℕ} (hw : 4 ≤ w) (hm : 0 < m) (c : Cols) (hc : c.OK w) (x : In)
    (srow : ℤ) (t : Table F) (hx : x.Outside w m srow) (hz : t .witness (c.w ((w : ℤ) - 1)) (srow - 1) = 0) :
    Sat (assign c w m x srow t) (circuit c w m x srow) := by
  by_cases hg : w % 4 ≠ 0 ∨ w = 4
  · exact (f3_complete_partial hw hg hm c hc x srow t hx).1.2 fun _ => hz
  have h4 : w % 4 = 0 := by omega
  obtain ⟨h1, h2, h3, hf⟩ := assign_facts (by omega) (by omega) c hc x srow t hx
  have e : assign c w m x srow t .witness (c.w ((w : ℤ) - 1)) (srow - 1) = t .witness (c.w ((w : ℤ) - 1)) (srow - 1) :=
    hf.row (Or.inl (by omega)) _ _
  have hw0 : 0 < w := by omega
  have g0 : ((gates c w : List (Expr F)).getD 0 (.const 0)) = first c := by
    unfold gates; split_ifs <;> rfl
  unfold circuit
  rw [sat_append, copies_iff (by omega) (by omega)]
  refine ⟨?_, h1⟩
  rintro o ho
  simp only [List.mem_map, Prod.exists] at ho
  obtain ⟨k, r, hk, rfl⟩ := ho
  simp only [holds_gate, List.mem_singleton, forall_eq]
  rcases (mem_enabled (by omega) (by omega) k r).1 hk with ⟨rfl, rfl⟩ | ⟨j, hj, hp, hj3, hn, rfl⟩
  · rw [g0]; exact (first_iff (by omega) c srow _).2 h2
  · have hrw : (r * w) % 4 = 0 := by rw [Nat.mul_mod, h4, mul_zero, Nat.zero_mod]
    have hj3' : j % 4 = 3 := by omega
    rw [gates_bad (by omega) h4 c j hj hj3']
    rcases Nat.eq_zero_or_pos r with rfl | hr
    · refine (col3_first (by omega) c srow _).2 ?_
      rw [e, hz, zero_add]; exact h2
    · have hge := Nat.mul_le_mul_right w hr
      rw [Nat.succ_eq_add_one, zero_add, one_mul] at hge
      have ej : (r * w + 3) % w = 3 := by rw [Nat.mul_comm, Nat.mul_add_mod, Nat.mod_eq_of_lt (by omega)]
      have er : (r * w + 3) / w = r := by
        rw [Nat.mul_comm, Nat.mul_add_div hw0, Nat.div_eq_of_lt (a := 3) (by omega), add_zero]
      have := step_iff (w := w) (by omega) c srow (assign c w m x srow t) (r * w + 3) (by omega) (by omega)
      rw [ej, er] at this
      simp only [OfNat.ofNat_ne_zero, if_false, OfNat.ofNat_ne_one, Nat.reduceEqDiff, if_true] at this
      rw [this]
      have e := h3 ((r * w + 3) / 4) (by omega) (by omega)
      rwa [show 4 * ((r * w + 3) / 4) + 3 = r * w + 3 by omega] at e

/-- **C60** (negated for widths 8, 12, ..., completeness). The assigned table satisfies the circuit exactly if the last
column is zero on the row before the component. -/
theorem f3_bad_complete_iff {w m : ℕ} (hw : 8 ≤ w) (h4 : w % 4 = 0) (hm : 2 ≤ m) (c : Cols) (hc : c.OK w) (x : In)
    (srow : ℤ) (t : Table F) (hx : x.Outside w m srow) :
    Sat (assign c w m x srow t) (circuit c w m x srow) ↔ t .witness (c.w ((w : ℤ) - 1)) (srow - 1) = 0 := by
  refine ⟨fun h => ?_, f3_complete_zero (by omega) (by omega) c hc x srow t hx⟩
  obtain ⟨h1, h2, h3, hf⟩ := assign_facts (by omega) (by omega) c hc x srow t hx
  have e : assign c w m x srow t .witness (c.w ((w : ℤ) - 1)) (srow - 1) = t .witness (c.w ((w : ℤ) - 1)) (srow - 1) :=
    hf.row (Or.inl (by omega)) _ _
  unfold circuit at h
  rw [sat_append] at h
  have hin : (sel w 7, 0) ∈ enabled w m :=
    (mem_enabled (by omega) (by omega) _ _).2 (Or.inr ⟨7, by omega, by omega, by omega, by omega, rfl⟩)
  have := h.1 _ (List.mem_map_of_mem hin)
  simp only [holds_gate, List.mem_singleton, forall_eq] at this
  rw [gates_bad hw h4 c 7 (by omega) (by omega), col3_first (by omega), e, h2] at this
  linear_combination -this

/-- Gates read the current row and the one before. -/
theorem gates_local (c : Cols) (w k : ℕ) (t t' : Table F) (r : ℤ) (h0 : ∀ i, t' .witness i r = t .witness i r)
    (h1 : ∀ i, t' .witness i (r - 1) = t .witness i (r - 1)) :
    ((gates c w : List (Expr F)).getD k (.const 0)).eval t' r = ((gates c w : List (Expr F)).getD k (.const 0)).eval t r := by
  have key : ∀ e ∈ (.const 0 :: gates c w : List (Expr F)), e.eval t' r = e.eval t r := by
    have h0' : ∀ i, t' .witness i (r + 0) = t .witness i (r + 0) := by simpa using h0
    have h1' : ∀ i, t' .witness i (r + -1) = t .witness i (r + -1) := by simpa [← sub_eq_add_neg] using h1
    intro e he
    unfold gates at he
    rcases List.mem_cons.1 he with rfl | he
    · rfl
    split_ifs at he <;> simp only [List.mem_append, List.mem_cons, List.not_mem_nil, or_false, List.mem_map] at he
    · rcases he with (rfl | rfl) | ⟨j, -, rfl⟩ <;> simp only [first, same, col0, col1, col2, col3, Expr.eval_sub, Expr.eval_mul, Cols.eval_wv, h0', h1']
    · rcases he with (rfl | rfl | rfl) | ⟨j, -, rfl⟩ <;> simp only [first, same, col0, col1, col2, col3, Expr.eval_sub, Expr.eval_mul, Cols.eval_wv, h0', h1']
    · rcases he with (rfl | rfl | rfl | rfl | rfl) | ⟨j, -, rfl⟩ <;> simp only [first, same, col0, col1, col2, col3, Expr.eval_sub, Expr.eval_mul, Cols.eval_wv, h0', h1']
  apply key
  rcases Nat.lt_or_ge k (gates (F := F) c w).length with h | h
  · rw [List.getD_eq_getElem _ _ h]; exact List.mem_cons_of_mem _ (List.getElem_mem h)
  · rw [List.getD_eq_default _ _ h]; simp

/-! ### Instances -/

/-- `w` columns. -/
def cols (w : ℕ) : Cols := ⟨List.range w, [], [0]⟩

theorem cols_ok (w : ℕ) : (cols w).OK w := ⟨by simpa [cols] using List.nodup_range, by simp [cols]⟩

instance : Fact (Nat.Prime 101) := ⟨by norm_num⟩

/-- Fifteen columns, six summands. -/
example : Sat (assign (cols 15) 15 6 pubIn 3 (fun _ _ r => (r : ZMod 101))) (circuit (cols 15) 15 6 pubIn 3) :=
  (f3_complete_partial (by omega) (by omega) (by omega) _ (cols_ok 15) _ 3 _ (pubIn_outside _ _ _)).1.2
    (by simp [rows])

/-- Its result is the sum: `Σ_{i<6} 3i·(-1) = -45`. -/
example : (result (cols 15) 15 6 3).value (assign (cols 15) 15 6 pubIn 3 (fun _ _ r => (r : ZMod 101))) =
    pubIn.spec 6 (assign (cols 15) 15 6 pubIn 3 (fun _ _ r => (r : ZMod 101))) :=
  f3_sound_partial (by omega) (by omega) (by omega) _ _ 3 _
    ((f3_complete_partial (by omega) (by omega) (by omega) _ (cols_ok 15) _ 3 _ (pubIn_outside _ _ _)).1.2 (by simp [rows]))

example : F3Loop.spec 6 (fun i => (3 * i : ZMod 101)) (fun i => (3 * i + 1 : ZMod 101)) (fun i => (3 * i + 2 : ZMod 101)) = -45 := by
  simp only [F3Loop.spec, Finset.sum_range_succ, Finset.sum_range_zero]; decide

/-- Fifteen columns, two summands, a one on the row above: the honest table is rejected. -/
example : ¬ Sat (assign (cols 15) 15 2 pubIn 3 (fun _ _ _ => (1 : ZMod 101))) (circuit (cols 15) 15 2 pubIn 3) := by
  rw [(f3_complete_partial (by omega) (by omega) (by omega) _ (cols_ok 15) _ 3 _ (pubIn_outside _ _ _)).1]
  simp [rows]

/-- The same with eight columns. -/
example : ¬ Sat (assign (cols 8) 8 5 pubIn 3 (fun _ _ _ => (1 : ZMod 101))) (circuit (cols 8) 8 5 pubIn 3) := by
  rw [f3_bad_complete_iff (by omega) (by omega) (by omega) _ (cols_ok 8) _ 3 _ (pubIn_outside _ _ _)]
  simp

end F3Loop
end Verif
