import Verif.Model.Zkevm
import Verif.Props.Arith
import Mathlib.Algebra.BigOperators.Fin
import Mathlib.Algebra.Order.BigOperators.Group.Finset

/-!
# State selector: C35
-/

set_option linter.unusedSimpArgs false
set_option linter.unusedVariables false
set_option linter.unusedSectionVars false

namespace Verif

/-- Small naturals are determined by their residue. -/
theorem natCast_inj_of_lt {p : ℕ} {a b : ℕ} (ha : a < p) (hb : b < p) (h : (a : ZMod p) = (b : ZMod p)) : a = b := by
  have := (ZMod.natCast_eq_natCast_iff' a b p).1 h
  rwa [Nat.mod_eq_of_lt ha, Nat.mod_eq_of_lt hb] at this

/-- A sum of `0/1` numbers equal to one has exactly one non-zero term. -/
theorem exists_unique_of_sum_one (b : ℕ → ℕ) (m : ℕ) (hs : ∑ i ∈ Finset.range m, b i = 1) :
    ∃ i < m, b i = 1 ∧ ∀ j < m, j ≠ i → b j = 0 := by
  obtain ⟨i, hi, hne⟩ := Finset.exists_ne_zero_of_sum_ne_zero (by rw [hs]; exact one_ne_zero)
  have hle : ∀ j ∈ Finset.range m, b j ≤ 1 := fun j hj => by
    rw [← hs]; exact Finset.single_le_sum (fun _ _ => Nat.zero_le _) hj
  refine ⟨i, Finset.mem_range.1 hi, ?_, ?_⟩
  · have := hle i hi; omega
  · intro j hj hji
    have h2 : b j + b i ≤ ∑ i ∈ Finset.range m, b i := by
      rw [← Finset.sum_pair hji]
      exact Finset.sum_le_sum_of_subset (by
        intro x hx
        rcases Finset.mem_insert.1 hx with rfl | hx
        · exact Finset.mem_range.2 hj
        · rw [Finset.mem_singleton.1 hx]; exact hi)
    omega

namespace StateSelector

theorem eval_sumExpr {F : Type*} [Field F] (c : Cols) (t : Table F) (row : ℤ) (n : ℕ) :
    (sumExpr c n : Expr F).eval t row = ∑ i ∈ Finset.range n, t .witness (c.w ((i : ℤ) + 1)) row := by
  induction n with
  | zero => simp [sumExpr]
  | succ n ih => rw [Finset.sum_range_succ, ← ih]; simp [sumExpr]

theorem eval_idxExpr {F : Type*} [Field F] (c : Cols) (t : Table F) (row : ℤ) (n : ℕ) :
    (idxExpr c n : Expr F).eval t row =
      ∑ i ∈ Finset.range n, ((2 * i : ℕ) : F) * t .witness (c.w ((i : ℤ) + 1)) row := by
  induction n with
  | zero => simp [idxExpr]
  | succ n ih => rw [Finset.sum_range_succ, ← ih]; simp [idxExpr]

/-- The constraints as equations on the row's cells. -/
theorem constraints_iff {F : Type*} [Field F] (c : Cols) (o : ℕ) (t : Table F) (row : ℤ) :
    (∀ e ∈ constraints c o, e.eval t row = 0) ↔
      (∀ i < pairs o, t .witness (c.w ((i : ℤ) + 1)) row = 0 ∨ t .witness (c.w ((i : ℤ) + 1)) row = 1) ∧
      (∑ i ∈ Finset.range (pairs o), t .witness (c.w ((i : ℤ) + 1)) row) = 1 ∧
      (∑ i ∈ Finset.range (pairs o), ((2 * i : ℕ) : F) * t .witness (c.w ((i : ℤ) + 1)) row) +
        t .witness (c.w ((width o : ℤ) - 1)) row = t .witness (c.w 0) row ∧
      (t .witness (c.w ((width o : ℤ) - 1)) row = 0 ∨ t .witness (c.w ((width o : ℤ) - 1)) row = 1) ∧
      (o % 2 ≠ 0 → t .witness (c.w ((width o : ℤ) - 2)) row * t .witness (c.w ((width o : ℤ) - 1)) row = 0) := by
  simp only [constraints, List.mem_append, or_imp, forall_and, List.mem_map, List.mem_range,
    forall_exists_index, and_imp, List.mem_cons, List.not_mem_nil, or_false, forall_eq,
    forall_apply_eq_imp_iff₂, Expr.eval_mul, Expr.eval_sub, Expr.eval_add, Cols.eval_wv, Expr.eval_one,
    eval_sumExpr, eval_idxExpr, add_zero, mul_eq_zero, sub_eq_zero]
  by_cases h : o % 2 = 0
  · simp [h, and_assoc]
  · simp [h, and_assoc]

end StateSelector

/-- C35 (soundness): on every row satisfying the selector's constraints the index cell holds a unique option
number `k` below the number of options and the detection expression of option `j` is non-zero exactly for
`j = k`. -/
theorem stateSelector_sound {p : ℕ} [Fact p.Prime] (c : Cols) (o : ℕ) (ho : o ≤ p) (t : Table (ZMod p)) (row : ℤ)
    (h : ∀ e ∈ StateSelector.constraints c o, e.eval t row = 0) :
    ∃! k : ℕ, k < o ∧ t .witness (c.w 0) row = (k : ZMod p) ∧
      ∀ j < o, (StateSelector.option c o j).eval t row ≠ 0 ↔ j = k := by
  obtain ⟨hb, hs, hi, hp, hodd⟩ := (StateSelector.constraints_iff c o t row).1 h
  set m := StateSelector.pairs o with hm
  set w : ℕ → ZMod p := fun i => t .witness (c.w ((i : ℤ) + 1)) row with hw
  set par := t .witness (c.w ((StateSelector.width o : ℤ) - 1)) row with hpar
  have p2 : 2 ≤ p := (Fact.out : p.Prime).two_le
  have hmo : 2 * m ≤ o + 1 ∧ o ≤ 2 * m := by rw [hm, StateSelector.pairs]; omega
  have hbw : ∀ i < m, w i = ((if w i = 1 then 1 else 0 : ℕ) : ZMod p) := by
    intro i hi
    rcases hb i hi with h0 | h1
    · have : w i = 0 := h0
      simp [this]
    · have : w i = 1 := h1
      simp [this]
  have hsum : ((∑ i ∈ Finset.range m, (if w i = 1 then 1 else 0 : ℕ) : ℕ) : ZMod p) = ((1 : ℕ) : ZMod p) := by
    rw [Nat.cast_sum, Nat.cast_one]
    refine Eq.trans ?_ hs
    exact Finset.sum_congr rfl fun i hi => (hbw i (Finset.mem_range.1 hi)).symm
  have hle : (∑ i ∈ Finset.range m, (if w i = 1 then 1 else 0 : ℕ)) ≤ m := by
    calc _ ≤ ∑ i ∈ Finset.range m, 1 := Finset.sum_le_sum fun i _ => by split <;> omega
      _ = m := by simp
  have hone : (∑ i ∈ Finset.range m, (if w i = 1 then 1 else 0 : ℕ)) = 1 := by
    rcases lt_or_ge (∑ i ∈ Finset.range m, (if w i = 1 then 1 else 0 : ℕ)) p with hlt | hge
    · exact natCast_inj_of_lt hlt (by omega) hsum
    · have hmp : (∑ i ∈ Finset.range m, (if w i = 1 then 1 else 0 : ℕ)) = p := by omega
      rw [hmp] at hsum
      have := (ZMod.natCast_eq_natCast_iff' p 1 p).1 hsum
      rw [Nat.mod_self, Nat.mod_eq_of_lt (by omega)] at this
      omega
  obtain ⟨i0, hi0, hb0, hbo⟩ := exists_unique_of_sum_one _ m hone
  have hw0 : w i0 = 1 := by
    by_contra hne; simp [hne] at hb0
  have hwo : ∀ j < m, j ≠ i0 → w j = 0 := by
    intro j hj hji
    rw [hbw j hj, hbo j hj hji]; simp
  have hidx : (∑ i ∈ Finset.range m, ((2 * i : ℕ) : ZMod p) * w i) = ((2 * i0 : ℕ) : ZMod p) := by
    rw [Finset.sum_eq_single i0]
    · rw [hw0, mul_one]
    · intro j hj hji; rw [hwo j (Finset.mem_range.1 hj) hji, mul_zero]
    · intro hh; exact absurd (Finset.mem_range.2 hi0) hh
  have hidx' : t .witness (c.w 0) row = ((2 * i0 : ℕ) : ZMod p) + par := by rw [← hi, ← hidx]
  obtain ⟨q, hq, hq2⟩ : ∃ q : ℕ, q < 2 ∧ par = (q : ZMod p) := by
    rcases hp with h0 | h1
    · exact ⟨0, by omega, by rw [h0]; simp⟩
    · exact ⟨1, by omega, by rw [h1]; simp⟩
  have hko : 2 * i0 + q < o := by
    by_cases hoo : o % 2 = 0
    · omega
    · by_cases hlast : i0 = m - 1
      · have hl : w i0 = t .witness (c.w ((StateSelector.width o : ℤ) - 2)) row := by
          rw [hw]; simp only; congr 2; rw [StateSelector.width, ← hm]; push_cast; omega
        have h1 := hodd hoo
        rw [← hl, hw0, one_mul, hq2] at h1
        have : q = 0 := natCast_inj_of_lt (p := p) (by omega) (by omega) (by rw [h1]; simp)
        omega
      · omega
  have hkval : t .witness (c.w 0) row = ((2 * i0 + q : ℕ) : ZMod p) := by rw [hidx', hq2]; push_cast; ring
  refine ⟨2 * i0 + q, ⟨hko, hkval, ?_⟩, ?_⟩
  · intro j hj
    have hjm : j / 2 < m := by omega
    have hwj : t .witness (c.w (((j / 2 : ℕ) : ℤ) + 1)) row = w (j / 2) := rfl
    have hwi : t .witness (c.w ((i0 : ℤ) + 1)) row = 1 := hw0
    unfold StateSelector.option
    by_cases hji : j / 2 = i0
    · split
      · next he =>
        simp only [Expr.eval_mul, Expr.eval_sub, Cols.eval_wv, Expr.eval_one, add_zero, hji, hwi, one_mul]
        rw [← hpar, hq2]
        have hq' : q = 0 ∨ q = 1 := by omega
        rcases hq' with hq' | hq' <;> rw [hq']
        · simp; omega
        · simp; omega
      · next he =>
        simp only [Expr.eval_mul, Cols.eval_wv, add_zero, hji, hwi, one_mul]
        rw [← hpar, hq2]
        have hq' : q = 0 ∨ q = 1 := by omega
        rcases hq' with hq' | hq' <;> rw [hq']
        · simp; omega
        · simp; omega
    · have h0 := hwo (j / 2) hjm hji
      split <;> simp only [Expr.eval_mul, Cols.eval_wv, add_zero, hwj, h0, zero_mul, ne_eq, not_true_eq_false,
        false_iff] <;> omega
  · rintro k' ⟨hk', hv, -⟩
    rw [hkval] at hv
    exact (natCast_inj_of_lt (by omega) (by omega) hv).symm

namespace StateSelector

/-- What `generate_assignments` leaves in the row. -/
theorem writes_read {F : Type*} [Field F] (c : Cols) (o k : ℕ) (hc : c.OK (width o)) (hk : k < o) (srow : ℤ) (t : Table F) :
    let t' := writeAll (writes c o k srow) t
    t' .witness (c.w 0) srow = (k : F) ∧
      (∀ i < pairs o, t' .witness (c.w ((i : ℤ) + 1)) srow = if i = k / 2 then 1 else 0) ∧
      t' .witness (c.w ((width o : ℤ) - 1)) srow = ((k % 2 : ℕ) : F) := by
  intro t'
  have hm : k / 2 < pairs o := by unfold pairs; omega
  have hwid : width o = pairs o + 2 := rfl
  have inj : ∀ i j : ℤ, 0 ≤ i → i < pairs o + 2 → 0 ≤ j → j < pairs o + 2 → c.w i = c.w j → i = j := by
    intro i j h1 h2 h3 h4 h5
    exact (hc.inj ⟨h1, by rw [hwid]; push_cast; omega⟩ ⟨h3, by rw [hwid]; push_cast; omega⟩).1 h5
  have e1 : ((width o : ℤ) - 1) = (pairs o : ℤ) + 1 := by rw [hwid]; push_cast; ring
  rw [e1]
  have hlast : ∀ s : Table F, ∀ (i : ℕ) (r : ℤ), writeAll [⟨.witness, c.w (((k / 2 : ℕ) : ℤ) + 1), srow, 1⟩,
      ⟨.witness, c.w ((width o : ℤ) - 1), srow, ((k % 2 : ℕ) : F)⟩] s .witness i r =
      if i = c.w ((pairs o : ℤ) + 1) ∧ r = srow then ((k % 2 : ℕ) : F)
      else if i = c.w (((k / 2 : ℕ) : ℤ) + 1) ∧ r = srow then 1 else s .witness i r := by
    intro s i r
    rw [e1]
    simp [writeAll, Table.set_apply]
  refine ⟨?_, ?_, ?_⟩
  · show writeAll (_ ++ _ ++ _) t _ _ _ = _
    rw [writeAll_append, hlast, if_neg, if_neg, writeAll_append, writeAll_of_notMem]
    · simp [Table.set_apply]
    · intro x hx
      obtain ⟨i, hi, rfl⟩ := List.mem_map.1 hx
      have hi := List.mem_range.1 hi
      rintro ⟨-, h2, -⟩
      have := inj _ _ (by omega) (by omega) (by omega) (by omega) h2
      omega
    · rintro ⟨h2, -⟩
      have := inj _ _ (by omega) (by omega) (by omega) (by omega) h2
      omega
    · rintro ⟨h2, -⟩
      have := inj _ _ (by omega) (by omega) (by omega) (by omega) h2
      omega
  · intro i hi
    show writeAll (_ ++ _ ++ _) t _ _ _ = _
    rw [writeAll_append, hlast, if_neg]
    · by_cases hik : i = k / 2
      · rw [if_pos ⟨by rw [hik], rfl⟩, if_pos hik]
      · rw [if_neg, if_neg hik, writeAll_append]
        · refine writeAll_of_mem (F := F) _ _ ⟨.witness, c.w ((i : ℤ) + 1), srow, 0⟩ ?_ ?_
          · exact List.mem_map.2 ⟨i, List.mem_range.2 hi, rfl⟩
          · intro x hx _ _ _
            obtain ⟨i, hi, rfl⟩ := List.mem_map.1 hx
            rfl
        · rintro ⟨h2, -⟩
          have := inj _ _ (by omega) (by omega) (by omega) (by omega) h2
          omega
    · rintro ⟨h2, -⟩
      have := inj _ _ (by omega) (by omega) (by omega) (by omega) h2
      omega
  · show writeAll (_ ++ _ ++ _) t _ _ _ = _
    rw [writeAll_append, hlast, if_pos ⟨rfl, rfl⟩]

end StateSelector

/-- C35 (completeness): for every option number the generated row satisfies the selector's circuit and its
index cell holds the input. -/
theorem stateSelector_complete {p : ℕ} [Fact p.Prime] (c : Cols) (o : ℕ) (hc : c.OK (StateSelector.width o))
    (idx : Var) (srow : ℤ) (t : Table (ZMod p)) (hk : (idx.value t).val < o) :
    Sat (StateSelector.assign c o idx srow t) (StateSelector.circuit c o idx srow) ∧
      StateSelector.assign c o idx srow t .witness (c.w 0) srow = idx.value t := by
  set k := (idx.value t).val with hkd
  obtain ⟨h0, h1, h2⟩ := StateSelector.writes_read (F := ZMod p) c o k hc hk srow t
  have hm : k / 2 < StateSelector.pairs o := by unfold StateSelector.pairs; omega
  constructor
  · simp only [StateSelector.circuit, sat_cons, sat_nil, and_true, holds_gate, List.mem_singleton, forall_eq]
    rw [StateSelector.constraints_iff]
    unfold StateSelector.assign
    rw [h0, h2]
    refine ⟨?_, ?_, ?_, ?_, ?_⟩
    · intro i hi; rw [h1 i hi]; split <;> simp
    · rw [Finset.sum_congr rfl (fun i hi => h1 i (Finset.mem_range.1 hi))]
      rw [Finset.sum_ite_eq' (Finset.range _) (k / 2)]; simp [hm]
    · rw [Finset.sum_congr rfl (fun i hi => by rw [h1 i (Finset.mem_range.1 hi)])]
      simp only [mul_ite, mul_one, mul_zero]
      rw [Finset.sum_ite_eq' (Finset.range _) (k / 2), if_pos (Finset.mem_range.2 hm), ← Nat.cast_add]
      congr 1; omega
    · rcases Nat.mod_two_eq_zero_or_one k with h | h <;> simp [h]
    · intro hodd
      have e2 : ((StateSelector.width o : ℤ) - 2) = ((StateSelector.pairs o - 1 : ℕ) : ℤ) + 1 := by
        have : StateSelector.width o = StateSelector.pairs o + 2 := rfl
        rw [this]; push_cast; omega
      rw [e2, h1 _ (by omega)]
      by_cases hl : StateSelector.pairs o - 1 = k / 2
      · have : k % 2 = 0 := by unfold StateSelector.pairs at *; omega
        simp [this]
      · simp [hl]
  · show writeAll _ _ _ _ _ = _
    rw [h0, hkd, ZMod.natCast_zmod_val]

/-- C35 (disagreement): the component's circuit does not constrain its index *input*: for any two options
there is a table accepted for index cell `j` although the input variable holds `i`. -/
theorem stateSelector_input_unlinked {p : ℕ} [Fact p.Prime] (c : Cols) (o : ℕ) (ho : o ≤ p)
    (hc : c.OK (StateSelector.width o)) (idx : Var) (srow : ℤ) (hx : idx.Outside srow 1) (i j : ℕ) (hi : i < o)
    (hj : j < o) (hij : i ≠ j) :
    ∃ t : Table (ZMod p), idx.value t = (i : ZMod p) ∧ Sat t (StateSelector.circuit c o idx srow) ∧
      ∀ l < o, (StateSelector.option c o l).eval t srow ≠ 0 ↔ l = j := by
  have h2 : 2 ≤ p := (Fact.out : p.Prime).two_le
  let jv : Var := ⟨0, srow - 1, false, .selector⟩
  have hjv : (jv.value (F := ZMod p) (fun _ _ _ => (j : ZMod p))).val = j := by
    simp only [Var.value]; exact ZMod.val_cast_of_lt (by omega)
  obtain ⟨hs, hv⟩ := stateSelector_complete (p := p) c o hc jv srow (fun _ _ _ => (j : ZMod p)) (by rw [hjv]; exact hj)
  have hjv2 : jv.value (F := ZMod p) (fun _ _ _ => (j : ZMod p)) = (j : ZMod p) := rfl
  set tj := StateSelector.assign c o jv srow (fun _ _ _ => (j : ZMod p)) with htj
  refine ⟨fun ty q r => if ty = .witness ∧ r = srow then tj ty q r else (i : ZMod p), ?_, ?_, ?_⟩
  · simp only [Var.value]
    rw [if_neg]
    rintro ⟨h1, h3⟩
    rcases hx h1 with h | h <;> omega
  all_goals
    have hsat : ∀ e ∈ StateSelector.constraints c o, e.eval (F := ZMod p)
        (fun ty q r => if ty = .witness ∧ r = srow then tj ty q r else (i : ZMod p)) srow = 0 := by
      rw [StateSelector.constraints_iff]
      simp only [true_and, and_true, if_true]
      have := (StateSelector.constraints_iff c o tj srow).1 (by
        simpa [StateSelector.circuit] using hs)
      simpa using this
  · simpa [StateSelector.circuit] using hsat
  · obtain ⟨k, ⟨hk, hkv, hko⟩, -⟩ := stateSelector_sound c o ho _ srow hsat
    have : k = j := by
      simp only [true_and, and_true, if_true] at hkv
      rw [hv, hjv2] at hkv
      exact (natCast_inj_of_lt (by omega) (by omega) hkv).symm
    rw [← this]; exact hko

/-- Non-vacuity: 5 options over 5 columns, option 3. -/
example : ∃ t : Table (ZMod 7), ∀ e ∈ StateSelector.constraints ⟨[0, 1, 2, 3, 4], [], []⟩ 5, e.eval t 0 = 0 := by
  have := (stateSelector_complete (p := 7) ⟨[0, 1, 2, 3, 4], [], []⟩ 5 ⟨by decide, rfl⟩ ⟨0, 0, false, .publicInput⟩ 0
    (fun _ _ _ => 3) (by decide)).1
  exact ⟨_, by simpa [StateSelector.circuit] using this⟩

end Verif
