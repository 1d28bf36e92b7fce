import Verif.Model.EdFixed
import Verif.Props.EdMul
import Verif.Props.ScalarRange

/-!
# C170: multiplication of the base point, C171: verification of EdDSA signatures
-/

set_option linter.unusedSectionVars false

namespace Verif
namespace EdFixed

open Ed25519 EdCurve EdMul

variable {n : ℕ} [hn1 : Fact n.Prime] {t : Table (ZMod n)} {c : Cols}

/-- The sum of the first points. -/
def psum (P : ℕ → G) : ℕ → G
  | 0 => P 0
  | m + 1 => psum P m + P (m + 1)

/-! ### Soundness: what the circuit says -/

/-- After `m` additions: the sum of the points in the rows, whatever they are. -/
theorem prefix_sum (hodd : n % 2 = 1) (hn : 2 ^ 254 < n) {k : Var} {srow : ℤ} {P : ℕ → G} (h0 : Holds t (px c (firstRow srow)) (py c (firstRow srow)) (P 0))
    (m : ℕ) (hq : ∀ i < m, Holds t (px c (qRow srow i)) (py c (qRow srow i)) (P (i + 1))) (hw : ∀ i < m, AddWidths t c (addRow srow i))
    (h : Sat t (fixedPrefix c k srow m)) : Holds t (accX c srow m) (accY c srow m) (psum P m) := by
  induction m with
  | zero => exact h0
  | succ m ih =>
    rw [fixedPrefix, sat_append] at h
    exact add_holds hodd hn h.2 (hw m (by omega)) (ih (fun i hi => hq i (by omega)) (fun i hi => hw i (by omega)) h.1) (hq m (by omega))

theorem fixedX_eq (c : Cols) (srow : ℤ) : fixedX c srow = accX c srow 11 ∧ fixedY c srow = accY c srow 11 := by
  have e : srow + (fixedRows : ℤ) - 1 - (addRows : ℤ) = addRow srow 10 := by
    simp only [fixedRows, addRows, addRow, qRow]
    push_cast
    ring
  unfold fixedX fixedY
  rw [e]
  exact ⟨rfl, rfl⟩

/-- The numbers by which the base point is multiplied in the rows add up to the scalar. -/
theorem psum_digits (B : G) {k : ℕ} (hk : k < 2 ^ 256) : psum (fun i => (ScalarRange.chunk k i * 2 ^ (22 * i)) • B) 11 = k • B := by
  have e := ScalarRange.join_digit hk
  simp only [psum, ← add_nsmul, ScalarRange.chunk_eq_digit]
  congr 1
  conv_rhs => rw [← e]
  simp [ScalarRange.join]

/-- C170, what holds: the output is the sum of twelve points; it is `k B` if these are the right multiples of the base point. Missing for the full claim: that
they are, which no constraint says (`fixed_forged`), and the widths (C49). -/
theorem fixed_sound_partial (hodd : n % 2 = 1) (hn : 2 ^ 254 < n) {k : Var} {srow : ℤ} {B : G} (hk : (k.value t).val < ScalarRange.L)
    (h0 : Holds t (px c (firstRow srow)) (py c (firstRow srow)) (ScalarRange.chunk (k.value t).val 0 • B))
    (hq : ∀ i < 11, Holds t (px c (qRow srow i)) (py c (qRow srow i)) ((ScalarRange.chunk (k.value t).val (i + 1) * 2 ^ (22 * (i + 1))) • B))
    (hw : ∀ i < 11, AddWidths t c (addRow srow i)) (h : Sat t (fixedCircuit c k srow)) :
    Holds t (fixedX c srow) (fixedY c srow) ((k.value t).val • B) := by
  rw [(fixedX_eq c srow).1, (fixedX_eq c srow).2, ← psum_digits B (hk.trans (by decide +kernel))]
  refine prefix_sum hodd hn ?_ 11 hq hw h
  simpa using h0

/-! ### The assignment -/

theorem res_ok : resCols.OK 9 := cols9k_ok
theorem res_first : FirstCols resCols := cols9k_id

theorem putPoint_spec (hc : c.OK 9) (row : ℤ) {P : G} (z : ZMod n) (t : Table (ZMod n)) :
    let t' := putPoint c row (P.1.1.val, P.1.2.val) z t
    Held t' (px c row) (py c row) P ∧ Frame c row 1 t t' := by
  intro t'
  let f : ℕ → ℕ → ZMod n := fun _ j => if j < 4 then (limb P.1.1.val j : ZMod n) else if j < 8 then (limb P.1.2.val (j - 4) : ZMod n) else z
  have g : GridWrites c row 9 1 f ((List.range 9).map fun j : ℕ => ⟨.witness, c.w j, row + ((0 : ℕ) : ℤ), f 0 j⟩) := by
    intro x hx
    obtain ⟨j, hj, rfl⟩ := List.mem_map.1 hx
    exact ⟨0, by omega, j, List.mem_range.1 hj, rfl⟩
  have ht : t' = writeAll ((List.range 9).map fun j : ℕ => ⟨.witness, c.w j, row + ((0 : ℕ) : ℤ), f 0 j⟩) t := rfl
  have r : ∀ j : ℕ, j < 9 → t' .witness (c.w (j : ℤ)) row = f 0 j := by
    intro j hj
    have := g.read hc t (r := 0) hj (List.mem_map.2 ⟨j, List.mem_range.2 hj, rfl⟩)
    rw [← ht] at this
    simpa using this
  have lx := limb_num (ZMod.val_lt P.1.1 |>.trans (show modulus < 2 ^ 255 by decide +kernel))
  have ly := limb_num (ZMod.val_lt P.1.2 |>.trans (show modulus < 2 ^ 255 by decide +kernel))
  refine ⟨⟨?_, ?_⟩, ?_⟩
  · refine ⟨_, _, _, _, limb_lt _ _, limb_lt _ _, limb_lt _ _, lx.1, ?_, ?_, ?_, ?_, lx.2⟩
    · rw [px, Cols.value_wa]; exact r 0 (by omega)
    · rw [px, Cols.value_wa]; exact r 1 (by omega)
    · rw [px, Cols.value_wa]; exact r 2 (by omega)
    · rw [px, Cols.value_wa]; exact r 3 (by omega)
  · refine ⟨_, _, _, _, limb_lt _ _, limb_lt _ _, limb_lt _ _, ly.1, ?_, ?_, ?_, ?_, ly.2⟩
    · rw [py, Cols.value_wa]; exact r 4 (by omega)
    · rw [py, Cols.value_wa]; exact r 5 (by omega)
    · rw [py, Cols.value_wa]; exact r 6 (by omega)
    · rw [py, Cols.value_wa]; exact r 7 (by omega)
  · rw [ht]
    exact (g.own hc).frame t

theorem range_stable' {t' : Table (ZMod n)} {k : Var} {srow : ℤ} (h : SameRows t t' srow 3) (hk : k.value t' = k.value t)
    (hs : Sat t (ScalarRange.circuit resCols k srow)) : Sat t' (ScalarRange.circuit resCols k srow) := by
  rw [ScalarRange.sat_iff] at hs ⊢
  have e1 : ∀ i < 12, ScalarRange.kLimb resCols srow t' i = ScalarRange.kLimb resCols srow t i := by
    intro i hi
    unfold ScalarRange.kLimb ScalarRange.kPos
    split_ifs
    · exact h _ _ (by simp) (by simp)
    · exact h _ _ (by simp) (by simp)
  have e2 : ∀ i < 12, ScalarRange.dLimb resCols srow t' i = ScalarRange.dLimb resCols srow t i := by
    intro i hi
    unfold ScalarRange.dLimb ScalarRange.dPos
    split_ifs
    · exact h _ _ (by simp) (by simp)
    · exact h _ _ (by simp) (by simp)
  rw [h _ _ (by omega) (by omega), h _ _ (by omega) (by omega), hk, ScalarRange.join_congr e1, ScalarRange.join_congr e2]
  exact hs

theorem acc_row (srow : ℤ) (m i : ℕ) : (srow ≤ (accX c srow m i).rotation ∧ (accX c srow m i).rotation < qRow srow m) ∧
    (srow ≤ (accY c srow m i).rotation ∧ (accY c srow m i).rotation < qRow srow m) := by
  cases m with
  | zero =>
    have e1 : (accX c srow 0 i).rotation = srow + 3 := rfl
    have e2 : (accY c srow 0 i).rotation = srow + 3 := rfl
    rw [e1, e2, qRow]
    push_cast
    omega
  | succ m =>
    have e1 : (accX c srow (m + 1) i).rotation = addRow srow m := rfl
    have e2 : (accY c srow (m + 1) i).rotation = addRow srow m + 2 := rfl
    rw [e1, e2, addRow, qRow, qRow]
    push_cast
    omega

theorem acc_type (srow : ℤ) (m i : ℕ) : (accX c srow m i).type = .witness ∧ (accY c srow m i).type = .witness := by
  cases m <;> exact ⟨rfl, rfl⟩

/-- The circuit up to addition `m` is about its rows. -/
theorem prefix_stable {t' : Table (ZMod n)} {k : Var} {srow : ℤ} (hc : ∀ i r, t' .constant i r = t .constant i r) (hk : k.value t' = k.value t)
    (m : ℕ) (h : SameRows t t' srow (4 + 77 * m)) (hs : Sat t (fixedPrefix c k srow m)) : Sat t' (fixedPrefix c k srow m) := by
  induction m with
  | zero => exact range_stable' (h.mono (by omega) (by push_cast; omega)) hk hs
  | succ m ih =>
    rw [fixedPrefix, sat_append] at hs ⊢
    have hm : SameRows t t' srow (4 + 77 * m) := h.mono (by omega) (by push_cast; omega)
    refine ⟨ih hm hs.1, add_stable hc (h.mono (by rw [addRow, qRow]; push_cast; omega) (by rw [addRow, qRow]; push_cast; omega)) ?_ ?_ ?_ ?_ hs.2⟩
    · intro i _
      have := acc_row (c := c) srow m i
      rw [qRow] at this
      exact value_stable hm (acc_type srow m i).1 this.1.1 (show (accX c srow m i).rotation < _ by push_cast at this ⊢; omega)
    · intro i _
      have := acc_row (c := c) srow m i
      rw [qRow] at this
      exact value_stable hm (acc_type srow m i).2 this.2.1 (show (accY c srow m i).rotation < _ by push_cast at this ⊢; omega)
    · intro i _
      exact value_stable h rfl (show srow ≤ qRow srow m by rw [qRow]; omega) (show qRow srow m < _ by rw [qRow]; push_cast; omega)
    · intro i _
      exact value_stable h rfl (show srow ≤ qRow srow m by rw [qRow]; omega) (show qRow srow m < _ by rw [qRow]; push_cast; omega)

theorem consts_frame {t' : Table (ZMod n)} {row : ℤ} (hcst : ∀ i r, t' .constant i r = t .constant i r) (h : Sat t (addConsts c row)) :
    Sat t' (addConsts c row) := by
  simp only [addConsts, List.range, List.range.loop, List.map_cons, List.map_nil, sat_cons, holds_constant, sat_nil, and_true, hcst] at h ⊢
  exact h

theorem run_complete (hn : 2 ^ 254 < n) {k : Var} {srow : ℤ} (hko : k.Outside srow fixedRows) (hk : (k.value t).val < ScalarRange.L)
    (hcst : ∀ i < 11, Sat t (addConsts resCols (addRow srow i))) (P : ℕ → G) (z : ZMod n)
    (hlow : ∀ i < 11, AddLow (psum P i).1.1 (psum P i).1.2 (P (i + 1)).1.1 (P (i + 1)).1.2) (m : ℕ) (hm : m ≤ 11) :
    let t' := fixedRun resCols k srow (fun i => ((P i).1.1.val, (P i).1.2.val)) z t m
    Sat t' (fixedPrefix resCols k srow m) ∧ (∀ i < m, AddWidths t' resCols (addRow srow i)) ∧ Held t' (accX resCols srow m) (accY resCols srow m) (psum P m) ∧
      (∀ i < m, Held t' (px resCols (qRow srow i)) (py resCols (qRow srow i)) (P (i + 1))) ∧
      Held t' (px resCols (firstRow srow)) (py resCols (firstRow srow)) (P 0) ∧ Frame resCols srow (4 + 77 * m) t t' := by
  have hR : fixedRows = 852 := rfl
  rw [hR] at hko
  induction m with
  | zero =>
    intro t'
    have f1 := ScalarRange.assign_frame (k := k) (srow := srow) 253 res_ok t
    have s1 := (ScalarRange.range_complete (k := k) (srow := srow) (by omega) res_ok (hko.mono (by omega) (by push_cast; omega)) t).2 hk
    set t1 := ScalarRange.assign 253 resCols k srow t with ht1
    obtain ⟨a, f2⟩ := putPoint_spec res_ok (firstRow srow) (P := P 0) z t1
    have ht' : t' = putPoint resCols (firstRow srow) ((P 0).1.1.val, (P 0).1.2.val) z t1 := rfl
    rw [← ht'] at a f2
    refine ⟨range_stable' (frame_same f2 (.inl (by rw [firstRow]; push_cast; omega)))
      (f2.outside (hko.mono (by rw [firstRow]; omega) (by rw [firstRow]; push_cast; omega))) s1, by omega, a, by omega, a,
      (f1.mono (by omega) (by push_cast; omega)).trans (f2.mono (by rw [firstRow]; omega) (by rw [firstRow]; push_cast; omega))⟩
  | succ m ih =>
    intro t'
    obtain ⟨s0, w0, a0, q0, p0, f0⟩ := ih (by omega)
    set t0 := fixedRun resCols k srow (fun i => ((P i).1.1.val, (P i).1.2.val)) z t m with ht0
    obtain ⟨q1, f1⟩ := putPoint_spec res_ok (qRow srow m) (P := P (m + 1)) z t0
    set t1 := putPoint resCols (qRow srow m) ((P (m + 1)).1.1.val, (P (m + 1)).1.2.val) z t0 with ht1
    have a1 : Held t1 (stepIn resCols srow m).tx (stepIn resCols srow m).ty (psum P m) := by
      refine a0.congr (fun i hi => f1.outside ?_) (fun i hi => f1.outside ?_)
      · exact fun _ => .inl (acc_row (c := resCols) srow m i).1.2
      · exact fun _ => .inl (acc_row (c := resCols) srow m i).2.2
    have onP : ∀ P : G, Edwards.On (dInt : ZMod modulus) (P.1.1.val : ℕ) (P.1.2.val : ℕ) :=
      fun P => on_of (ZMod.natCast_zmod_val _) (ZMod.natCast_zmod_val _)
    have hq : ∀ r, addRow srow r = qRow srow r + 1 := fun _ => rfl
    obtain ⟨g1, g2, g3, g4, g5⟩ := add_complete_partial hn res_ok res_first (inp := stepIn resCols srow m) (srow := addRow srow m)
      (consts_frame (fun i r => (f1.const i r).trans (f0.const i r)) (hcst m (by omega))) a1.1 a1.2 q1.1 q1.2
      (ZMod.val_lt _) (ZMod.val_lt _) (ZMod.val_lt _) (ZMod.val_lt _) (onP _) (onP _)
      (fun i hi => ⟨fun _ => .inl (lt_trans (acc_row (c := resCols) srow m i).1.2 (by rw [hq]; omega)),
        fun _ => .inl (lt_trans (acc_row (c := resCols) srow m i).2.2 (by rw [hq]; omega)),
        fun _ => .inl (show qRow srow m < addRow srow m by rw [hq]; omega), fun _ => .inl (show qRow srow m < addRow srow m by rw [hq]; omega)⟩)
      (by rw [ZMod.natCast_zmod_val, ZMod.natCast_zmod_val, ZMod.natCast_zmod_val, ZMod.natCast_zmod_val]; exact hlow m (by omega))
    have ht' : t' = addAssign resCols (stepIn resCols srow m) (addRow srow m) t1 := rfl
    rw [← ht'] at g1 g2 g3 g4 g5
    have f2 : Frame resCols (addRow srow m) 76 t1 t' := g5
    have same1 : SameRows t0 t1 srow (4 + 77 * m) := frame_same f1 (.inl (by rw [qRow]; push_cast; omega))
    have same2 : SameRows t1 t' srow (5 + 77 * m) := frame_same f2 (.inl (by rw [addRow, qRow]; push_cast; omega))
    have same : SameRows t0 t' srow (4 + 77 * m) := fun i r h1 h2 => (same2 i r h1 (by push_cast at h2 ⊢; omega)).trans (same1 i r h1 h2)
    have cs : ∀ i r, t' .constant i r = t0 .constant i r := fun i r => (f2.const i r).trans (f1.const i r)
    have kk : k.value t' = k.value t0 := (f2.outside (hko.mono (by rw [addRow, qRow]; omega) (by rw [addRow, qRow]; push_cast; omega))).trans
      (f1.outside (hko.mono (by rw [qRow]; omega) (by rw [qRow]; push_cast; omega)))
    have up : ∀ v : Var, v.type = .witness → srow ≤ v.rotation → v.rotation < srow + (4 + 77 * m : ℕ) → v.value t' = v.value t0 :=
      fun v h1 h2 h3 => value_stable same h1 h2 h3
    refine ⟨?_, ?_, ?_, ?_, ?_, ?_⟩
    · rw [fixedPrefix, sat_append]
      exact ⟨prefix_stable cs kk m same s0, g1⟩
    · intro i hi
      by_cases e : i = m
      · subst e; exact g2
      · refine addWidths_stable (same.mono (by rw [addRow, qRow]; omega) (by rw [addRow, qRow]; push_cast; omega)) (w0 i (by omega))
    · have := sum_val (psum P m) (P (m + 1))
      exact ⟨by rw [psum, this]; exact g3, by rw [psum, this]; exact g4⟩
    · intro i hi
      by_cases e : i = m
      · subst e
        exact q1.congr (fun j _ => f2.outside fun _ => .inl (show qRow srow i < addRow srow i by rw [hq]; omega))
          (fun j _ => f2.outside fun _ => .inl (show qRow srow i < addRow srow i by rw [hq]; omega))
      · exact (q0 i (by omega)).congr
          (fun j _ => up _ rfl (show srow ≤ qRow srow i by rw [qRow]; omega) (show qRow srow i < _ by rw [qRow]; push_cast; omega))
          (fun j _ => up _ rfl (show srow ≤ qRow srow i by rw [qRow]; omega) (show qRow srow i < _ by rw [qRow]; push_cast; omega))
    · exact p0.congr
        (fun j _ => up _ rfl (show srow ≤ firstRow srow by rw [firstRow]; omega) (show firstRow srow < _ by rw [firstRow]; push_cast; omega))
        (fun j _ => up _ rfl (show srow ≤ firstRow srow by rw [firstRow]; omega) (show firstRow srow < _ by rw [firstRow]; push_cast; omega))
    · exact (f0.mono (by omega) (by push_cast; omega)).trans ((f1.mono (by rw [qRow]; omega) (by rw [qRow]; push_cast; omega)).trans
        (f2.mono (by rw [addRow, qRow]; omega) (by rw [addRow, qRow]; push_cast; omega)))

/-- Any twelve points are accepted, for any scalar below the order of the group; the output is their sum. -/
theorem any_points (hn : 2 ^ 254 < n) {k : Var} {srow : ℤ} (hko : k.Outside srow fixedRows) (hk : (k.value t).val < ScalarRange.L)
    (hcst : ∀ i < 11, Sat t (addConsts resCols (addRow srow i))) (P : ℕ → G) (last : G)
    (hlow : ∀ i < 11, AddLow (psum P i).1.1 (psum P i).1.2 (P (i + 1)).1.1 (P (i + 1)).1.2) :
    let t' := fixedWith resCols k srow (fun i => ((P i).1.1.val, (P i).1.2.val)) (last.1.1.val, last.1.2.val) t
    Sat t' (fixedCircuit resCols k srow) ∧ (∀ i < 11, AddWidths t' resCols (addRow srow i)) ∧ Held t' (fixedX resCols srow) (fixedY resCols srow) (psum P 11) ∧
      (∀ i < 11, Held t' (px resCols (qRow srow i)) (py resCols (qRow srow i)) (P (i + 1))) ∧ Frame resCols srow fixedRows t t' := by
  intro t'
  have hR : fixedRows = 852 := rfl
  obtain ⟨s0, w0, a0, q0, -, f0⟩ := run_complete hn hko hk hcst P (ScalarRange.chunk (k.value t).val 0 : ZMod n) hlow 11 le_rfl
  set t0 := fixedRun resCols k srow (fun i => ((P i).1.1.val, (P i).1.2.val)) (ScalarRange.chunk (k.value t).val 0 : ZMod n) t 11 with ht0
  obtain ⟨-, f1⟩ := putPoint_spec res_ok (qRow srow 11) (P := last) (ScalarRange.chunk (k.value t).val 0 : ZMod n) t0
  have ht' : t' = putPoint resCols (qRow srow 11) (last.1.1.val, last.1.2.val) (ScalarRange.chunk (k.value t).val 0 : ZMod n) t0 := rfl
  rw [← ht'] at f1
  have hq : qRow srow 11 = srow + 851 := by rw [qRow]; push_cast; ring
  have same : SameRows t0 t' srow (4 + 77 * 11) := frame_same f1 (.inl (by rw [hq]; push_cast; omega))
  rw [hR] at hko ⊢
  have up : ∀ v : Var, v.type = .witness → srow ≤ v.rotation → v.rotation < srow + (4 + 77 * 11 : ℕ) → v.value t' = v.value t0 :=
    fun v h1 h2 h3 => value_stable same h1 h2 h3
  refine ⟨prefix_stable (fun i r => f1.const i r) (f1.outside (hko.mono (by rw [hq]; omega) (by rw [hq]; push_cast; omega))) 11 same s0, ?_, ?_, ?_, ?_⟩
  · intro i hi
    exact addWidths_stable (same.mono (by rw [addRow, qRow]; omega) (by rw [addRow, qRow]; push_cast; omega)) (w0 i hi)
  · rw [(fixedX_eq _ _).1, (fixedX_eq _ _).2]
    refine a0.congr (fun i _ => ?_) (fun i _ => ?_)
    · have := acc_row (c := resCols) srow 11 i
      rw [hq] at this
      exact up _ (acc_type srow 11 i).1 this.1.1 (by push_cast; omega)
    · have := acc_row (c := resCols) srow 11 i
      rw [hq] at this
      exact up _ (acc_type srow 11 i).2 this.2.1 (by push_cast; omega)
  · intro i hi
    exact (q0 i hi).congr
      (fun j _ => up _ rfl (show srow ≤ qRow srow i by rw [qRow]; omega) (show qRow srow i < _ by rw [qRow]; push_cast; omega))
      (fun j _ => up _ rfl (show srow ≤ qRow srow i by rw [qRow]; omega) (show qRow srow i < _ by rw [qRow]; push_cast; omega))
  · exact (f0.mono (by omega) (by push_cast; omega)).trans (f1.mono (by rw [hq]; omega) (by rw [hq]; push_cast; omega))

/-- C170, completeness: with the multiples of the base point that the assignment writes, the table is accepted and holds `k B`. Missing for the full claim: sums
for which the last subtraction of an addition cannot be assigned (`AddLow`, C70), and other columns. -/
theorem fixed_complete_partial (hn : 2 ^ 254 < n) {k : Var} {srow : ℤ} (hko : k.Outside srow fixedRows) (hk : (k.value t).val < ScalarRange.L)
    (hcst : ∀ i < 11, Sat t (addConsts resCols (addRow srow i))) (B last : G)
    (hlow : ∀ i < 11, AddLow (((k.value t).val % 2 ^ (22 * (i + 1))) • B).1.1 (((k.value t).val % 2 ^ (22 * (i + 1))) • B).1.2
      ((ScalarRange.chunk (k.value t).val (i + 1) * 2 ^ (22 * (i + 1))) • B).1.1 ((ScalarRange.chunk (k.value t).val (i + 1) * 2 ^ (22 * (i + 1))) • B).1.2) :
    let t' := fixedAssign (fun m => ((m • B).1.1.val, (m • B).1.2.val)) resCols k srow (last.1.1.val, last.1.2.val) t
    Sat t' (fixedCircuit resCols k srow) ∧ Held t' (fixedX resCols srow) (fixedY resCols srow) ((k.value t).val • B) ∧ Frame resCols srow fixedRows t t' := by
  intro t'
  have hp : ∀ i, psum (fun i => (ScalarRange.chunk (k.value t).val i * 2 ^ (22 * i)) • B) i = ((k.value t).val % 2 ^ (22 * (i + 1))) • B := by
    intro i
    induction i with
    | zero => simp [psum, ScalarRange.chunk]
    | succ i ih =>
      have e : (k.value t).val % 2 ^ (22 * (i + 1)) + ScalarRange.chunk (k.value t).val (i + 1) * 2 ^ (22 * (i + 1)) =
          (k.value t).val % 2 ^ (22 * (i + 1 + 1)) := by
        rw [ScalarRange.chunk, show 22 * (i + 1 + 1) = 22 * (i + 1) + 22 by ring, pow_add, Nat.mod_mul, show (i + 1) * 22 = 22 * (i + 1) by ring]
        ring
      rw [psum, ih, ← add_nsmul, e]
  obtain ⟨a, -, b, -, f⟩ := any_points hn hko hk hcst (fun i => (ScalarRange.chunk (k.value t).val i * 2 ^ (22 * i)) • B) last
    (fun i hi => by rw [hp]; exact hlow i hi)
  rw [psum_digits B (hk.trans (by decide +kernel))] at b
  exact ⟨a, b, f⟩

/-! ### Forged outputs -/

/-- One point and eleven neutral ones. -/
def oneOf (T : G) (i : ℕ) : G := if i = 0 then T else 0

theorem psum_oneOf (T : G) (m : ℕ) : psum (oneOf T) m = T := by
  induction m with
  | zero => rfl
  | succ m ih => rw [psum, ih, oneOf, if_neg (by omega), add_zero]

theorem low_neutral (T : G) : AddLow T.1.1 T.1.2 (0 : G).1.1 (0 : G).1.2 := by
  unfold AddLow
  rw [TEd.Point.coe_zero]
  left
  simp

/-- C170 is false: for every scalar the circuit accepts every point of the curve as its multiple of the base point, with all the widths right. -/
theorem fixed_forged (hn : 2 ^ 254 < n) {k : Var} {srow : ℤ} (hko : k.Outside srow fixedRows) (hk : (k.value t).val < ScalarRange.L)
    (hcst : ∀ i < 11, Sat t (addConsts resCols (addRow srow i))) (T : G) :
    ∃ t', Frame resCols srow fixedRows t t' ∧ Sat t' (fixedCircuit resCols k srow) ∧ (∀ i < 11, AddWidths t' resCols (addRow srow i)) ∧
      Held t' (fixedX resCols srow) (fixedY resCols srow) T := by
  obtain ⟨a, b, d, -, e⟩ := any_points (t := t) hn hko hk hcst (oneOf T) 0 (fun i _ => by
    rw [psum_oneOf, oneOf, if_neg (by omega)]; exact low_neutral T)
  rw [psum_oneOf] at d
  exact ⟨_, e, a, b, d⟩

theorem limbs_unique (hn : 2 ^ 254 < n) {v : ℕ → Var} {x y : ℕ} (hx : Limbs t v x) (hy : Limbs t v y) : x = y :=
  limbs_eq hn hx hy fun _ _ => rfl

/-- C170: `generate_circuit` returns other cells than `generate_assignments`: the row of the last point written and the second one after it, and not those of the
result. -/
theorem circuit_result_wrong (hn : 2 ^ 254 < n) {k : Var} {srow : ℤ} (hko : k.Outside srow fixedRows) (hk : (k.value t).val < ScalarRange.L)
    (hcst : ∀ i < 11, Sat t (addConsts resCols (addRow srow i))) (T : G) (hT : T.1.1 ≠ 0) :
    ∃ t' : Table (ZMod n), Sat t' (fixedCircuit resCols k srow) ∧ Held t' (fixedX resCols srow) (fixedY resCols srow) T ∧
      circuitX resCols srow = px resCols (qRow srow 10) ∧ circuitY resCols srow = px resCols (qRow srow 10 + 2) ∧
      ¬ Held t' (circuitX resCols srow) (circuitY resCols srow) T := by
  obtain ⟨a, b, d, q, e⟩ := any_points (t := t) hn hko hk hcst (oneOf T) 0 (fun i _ => by
    rw [psum_oneOf, oneOf, if_neg (by omega)]; exact low_neutral T)
  rw [psum_oneOf] at d
  have hrow : qRow srow 11 - 1 - (addRows : ℤ) = qRow srow 10 := by
    simp only [qRow, addRows]
    push_cast
    ring
  refine ⟨_, a, d, by rw [← hrow]; rfl, by rw [← hrow]; rfl, fun hh => ?_⟩
  have h1 := hh.1
  unfold circuitX at h1
  rw [hrow] at h1
  have h2 := (q 10 (by omega)).1
  have := limbs_unique hn h1 h2
  rw [oneOf, if_neg (by omega), TEd.Point.coe_zero, ZMod.val_zero, ZMod.val_eq_zero] at this
  exact hT this

/-! ### Verification of signatures -/

/-- C171 is false: any table that satisfies everything but the multiplication of the base point can be changed in the rows of that multiplication only so
that it satisfies the whole circuit. The equation `s B = R + k A` says nothing about `s`: every signature is accepted for every message. -/
theorem verify_forged (hn : 2 ^ 254 < n) (v : Verify (ZMod n)) (hvc : v.c = resCols) {srow : ℤ} (t : Table (ZMod n))
    (hs : v.s.Outside (v.fixRow srow) fixedRows) (hsL : (v.s.value t).val < ScalarRange.L)
    (hcst : ∀ i < 11, Sat t (addConsts resCols (addRow (v.fixRow srow) i)))
    (hpre : ∀ t', Frame resCols (v.fixRow srow) fixedRows t t' → Sat t' v.pre)
    (hr : ∀ i < 4, (v.rx i).Outside (v.fixRow srow) fixedRows ∧ (v.ry i).Outside (v.fixRow srow) fixedRows)
    (hA : v.mulIn.Outside (v.fixRow srow) fixedRows) {T : G} (hT : Held t (resultX v.c (v.sumRow srow)) (resultY v.c (v.sumRow srow)) T)
    (h : Sat t (v.others srow)) : ∃ t', Frame resCols (srow + v.preRows) fixedRows t t' ∧ Sat t' (v.circuit srow) := by
  obtain ⟨t', f, s1, -, hT'⟩ := fixed_forged hn hs hsL hcst T
  refine ⟨t', f, ?_⟩
  have hm : v.mulRow srow = v.fixRow srow + (fixedRows : ℤ) := rfl
  have hsum : v.sumRow srow = v.mulRow srow + (mulRows 253 : ℕ) := rfl
  have hcs : ∀ i r, t' .constant i r = t .constant i r := fun i r => f.const i r
  have same : ∀ k : ℕ, SameRows t t' (v.mulRow srow) k := fun k => frame_same f (.inr (by rw [hm]))
  have hrow : ∀ r : ℤ, v.mulRow srow ≤ r → ∀ w : Var, w.type = .witness → w.rotation = r → w.value t' = w.value t := by
    intro r hr w hw he
    exact f.outside fun _ => .inr (by rw [he, ← hm]; exact hr)
  rw [Verify.others, sat_append, sat_append] at h
  have hu : usedRows 253 252 = mulRows 253 := by
    show decRows 253 + 2 + 252 * 141 = decRows 253 + 252 * 141 + 2
    omega
  have s2 : Sat t' (mulCircuit v.c 253 v.msb v.mulIn (v.mulRow srow)) :=
    EdMul.prefix_stable le_rfl hcs (fun i hi => f.outside (hA.tx i hi)) (fun i hi => f.outside (hA.ty i hi)) (f.outside hA.k) 252 le_rfl (same _) h.2.1
  have hres := mulResult_eq (c := v.c) 253 (v.mulRow srow)
  have s3 : Sat t' (addCircuit v.c (v.sumIn srow) (v.sumRow srow)) := by
    refine add_stable hcs ((same (mulRows 253 + 76)).mono (by rw [hsum]; omega) (by rw [hsum]; push_cast; omega)) ?_ ?_ ?_ ?_ h.2.2
    · intro i _
      have := EdMul.acc_row (c := v.c) 253 (v.mulRow srow) 252 i
      show (mulResultX 253 (v.mulRow srow) i).value t' = (mulResultX 253 (v.mulRow srow) i).value t
      rw [hres.1]
      exact value_stable (same _) (EdMul.acc_type 253 _ 252 i).1 this.1.1 this.1.2
    · intro i _
      have := EdMul.acc_row (c := v.c) 253 (v.mulRow srow) 252 i
      show (mulResultY 253 (v.mulRow srow) i).value t' = (mulResultY 253 (v.mulRow srow) i).value t
      rw [hres.2]
      exact value_stable (same _) (EdMul.acc_type 253 _ 252 i).2 this.2.1 this.2.2
    · exact fun i hi => f.outside (hr i hi).1
    · exact fun i hi => f.outside (hr i hi).2
  have hT2 : Held t' (resultX v.c (v.sumRow srow)) (resultY v.c (v.sumRow srow)) T :=
    hT.congr (fun i _ => hrow (v.sumRow srow) (by rw [hsum]; omega) _ rfl rfl) (fun i _ => hrow (v.sumRow srow + 2) (by rw [hsum]; omega) _ rfl rfl)
  rw [Verify.circuit, sat_append, sat_append, Verify.others, sat_append, sat_append]
  refine ⟨⟨hpre t' f, s2, s3⟩, by rw [hvc]; exact s1, ?_⟩
  have l1 := limbs_same hT'.1 hT2.1
  have l2 := limbs_same hT'.2 hT2.2
  rw [Verify.copies, sat_append]
  simp only [hvc] at l1 l2 ⊢
  simp only [List.range, List.range.loop, List.map_cons, List.map_nil, sat_cons, holds_copy, sat_nil, and_true]
  exact ⟨⟨l1 0 (by omega), l1 1 (by omega), l1 2 (by omega), l1 3 (by omega)⟩, l2 0 (by omega), l2 1 (by omega), l2 2 (by omega), l2 3 (by omega)⟩

/-! ### A forged signature -/

/-- The public key is the base point, the reduced hash is 1, `R` is the neutral element, and `s` is any number. -/
def exV : Verify (ZMod pallasP) where
  c := resCols
  s := ⟨5, 0, false, .publicInput⟩
  rx := fun i => ⟨3, i, false, .publicInput⟩
  ry := fun i => ⟨4, i, false, .publicInput⟩
  ax := exIn.tx
  ay := exIn.ty
  pre := []
  preRows := 0
  k := exIn.k
  msb := true

/-- The inputs and the constants. -/
def exT (s : ℕ) : Table (ZMod pallasP) := fun ty i r =>
  if ty = .publicInput then
    if i = 0 then (limb baseX r.toNat : ZMod pallasP) else if i = 1 then (limb baseY r.toNat : ZMod pallasP) else if i = 2 then 1
    else if i = 3 then (limb 0 r.toNat : ZMod pallasP) else if i = 4 then (limb 1 r.toNat : ZMod pallasP) else s
  else if ty = .constant then if r < 852 then (limb dInt ((r - 56) % 77).toNat : ZMod pallasP) else if r = 852 then 0
    else if r < 36419 then (limb dInt ((r - 1003) % 141).toNat : ZMod pallasP) else (limb dInt (r - 36470).toNat : ZMod pallasP)
  else 0

theorem consts_of {t : Table (ZMod pallasP)} {row : ℤ} (e : ∀ j : ℕ, j < 4 → t .constant 0 (row + 47 + (4 + j : ℕ)) = (limb dInt j : ZMod pallasP)) :
    Sat t (addConsts resCols row) := by
  simp only [addConsts, List.range, List.range.loop, List.map_cons, List.map_nil, sat_cons, holds_constant, sat_nil, and_true]
  exact ⟨e 0 (by omega), e 1 (by omega), e 2 (by omega), e 3 (by omega)⟩

theorem exT_fixed (s : ℕ) (i : ℕ) (hi : i < 11) : Sat (exT s) (addConsts resCols (addRow 0 i)) := by
  refine consts_of fun j hj => ?_
  have h1 : addRow 0 i + 47 + ((4 + j : ℕ) : ℤ) = 56 + j + 77 * i := by
    rw [addRow, qRow]; push_cast; ring
  have h2 : ((56 + (j : ℤ) + 77 * i - 56) % 77).toNat = j := by
    have : (56 + (j : ℤ) + 77 * i - 56) % 77 = j := by omega
    rw [this]; rfl
  simp only [exT, h1, h2]
  rw [if_neg (by decide), if_pos trivial, if_pos (by omega)]

theorem exT_mul (s : ℕ) : MulConsts (exT s) resCols 253 852 := by
  refine ⟨by simp [exT], fun i hi => consts_of fun j hj => ?_⟩
  have h1 : stepRow 253 852 i + 65 + 47 + ((4 + j : ℕ) : ℤ) = 1003 + j + 141 * i := by
    rw [stepRow_eq]
    simp only [usedRows, decRows_253]
    push_cast; ring
  have h2 : ((1003 + (j : ℤ) + 141 * i - 1003) % 141).toNat = j := by
    have : (1003 + (j : ℤ) + 141 * i - 1003) % 141 = j := by omega
    rw [this]; rfl
  simp only [exT, h1, h2]
  rw [if_neg (by decide), if_pos trivial, if_neg (by omega), if_neg (by omega), if_pos (by omega)]

theorem exT_sum (s : ℕ) : Sat (exT s) (addConsts resCols 36419) := by
  refine consts_of fun j hj => ?_
  have h1 : (36419 : ℤ) + 47 + ((4 + j : ℕ) : ℤ) = 36470 + j := by push_cast; ring
  have h2 : (36470 + (j : ℤ) - 36470).toNat = j := by
    have : 36470 + (j : ℤ) - 36470 = j := by omega
    rw [this]; rfl
  simp only [exT, h1, h2]
  rw [if_neg (by decide), if_pos trivial, if_neg (by omega), if_neg (by omega), if_neg (by omega)]

theorem exT_base (s : ℕ) : Held (exT s) exIn.tx exIn.ty basePt := by
  have e1 : basePt.1.1.val = baseX := val_cast (by decide +kernel)
  have e2 : basePt.1.2.val = baseY := val_cast (by decide +kernel)
  unfold Held
  rw [e1, e2]
  refine ⟨limbs_of (by decide +kernel) fun i hi => ?_, limbs_of (by decide +kernel) fun i hi => ?_⟩ <;>
  · interval_cases i <;> rfl

theorem exT_hash (s : ℕ) : (exIn.k.value (exT s)).val = 1 := by
  show (1 : ZMod pallasP).val = 1
  rw [← Nat.cast_one]
  exact ZMod.val_cast_of_lt (by decide +kernel)

theorem exT_neutral (s : ℕ) : Held (exT s) exV.rx exV.ry 0 := by
  have hz1 : (0 : G).1.1.val = 0 := by rw [TEd.Point.coe_zero]; exact ZMod.val_zero
  have hz2 : (0 : G).1.2.val = 1 := by rw [TEd.Point.coe_zero]; exact EdMul.one_val
  unfold Held
  rw [hz1, hz2]
  refine ⟨limbs_of (by norm_num) fun i hi => ?_, limbs_of (by norm_num) fun i hi => ?_⟩ <;>
  · interval_cases i <;> rfl

/-- Everything but the multiplication of the base point is assigned honestly. -/
theorem exT_others (s : ℕ) : ∃ t : Table (ZMod pallasP), Frame resCols 852 (mulRows 253 + addRows) (exT s) t ∧ Sat t (exV.others 0) ∧
    Held t (resultX resCols (exV.sumRow 0)) (resultY resCols (exV.sumRow 0)) basePt := by
  have hR : mulRows 253 = 35567 := by decide
  have hsum : exV.sumRow 0 = 36419 := by
    simp only [Verify.sumRow, Verify.mulRow, Verify.fixRow, exV, hR, fixedRows, addRows]
    norm_num
  have hk := exT_hash s
  have hA := exT_base s
  obtain ⟨a, -, b, f1⟩ := mul_complete_partial (T := basePt) (t := exT s) (inp := exIn) (srow := 852) pallas_large res_ok res_first rfl (exT_mul s) hA
    (exIn_outside _ _) (by rw [hk]; norm_num) (by
      rw [hk]
      intro i hi
      have : 1 / 2 ^ (252 - i) = 0 := Nat.div_eq_of_lt (Nat.one_lt_two_pow (by omega))
      rw [this, zero_nsmul]
      exact low_zero _)
  rw [hk, one_nsmul] at b
  set t1 := mulAssign resCols 253 true exIn 852 (exT s) with ht1
  have hR0 : Held t1 exV.rx exV.ry 0 := by
    exact (exT_neutral s).congr (fun i _ => f1.outside fun h => (by cases h)) (fun i _ => f1.outside fun h => (by cases h))
  have onP : ∀ P : G, Edwards.On (dInt : ZMod modulus) (P.1.1.val : ℕ) (P.1.2.val : ℕ) :=
    fun P => on_of (ZMod.natCast_zmod_val _) (ZMod.natCast_zmod_val _)
  have hb : Held t1 (exV.sumIn 0).tx (exV.sumIn 0).ty basePt := b
  have hout : ∀ i, ((exV.sumIn 0).tx i).Outside 36419 addRows ∧ ((exV.sumIn 0).ty i).Outside 36419 addRows := by
    intro i
    have h := EdMul.acc_row (c := resCols) 253 852 252 i
    have hu : (usedRows 253 252 : ℤ) = 35567 := by decide
    have e1 : (exV.sumIn 0).tx = EdMul.accX resCols 253 852 252 := (mulResult_eq (c := resCols) 253 852).1
    have e2 : (exV.sumIn 0).ty = EdMul.accY resCols 253 852 252 := (mulResult_eq (c := resCols) 253 852).2
    rw [e1, e2]
    exact ⟨fun _ => .inl (by omega), fun _ => .inl (by omega)⟩
  obtain ⟨g1, -, g3, g4, g5⟩ := add_complete_partial (inp := exV.sumIn 0) (srow := 36419) pallas_large res_ok res_first
    (consts_frame (fun i r => f1.const i r) (exT_sum s)) hb.1 hb.2 hR0.1 hR0.2
    (ZMod.val_lt _) (ZMod.val_lt _) (ZMod.val_lt _) (ZMod.val_lt _) (onP _) (onP _)
    (fun i _ => ⟨(hout i).1, (hout i).2, fun h => (by cases h), fun h => (by cases h)⟩)
    (by rw [ZMod.natCast_zmod_val, ZMod.natCast_zmod_val, ZMod.natCast_zmod_val, ZMod.natCast_zmod_val]; exact low_neutral basePt)
  set t2 := addAssign resCols (exV.sumIn 0) 36419 t1 with ht2
  refine ⟨t2, (f1.mono (by omega) (by rw [hR]; push_cast; omega)).trans (g5.mono (by omega) (by rw [hR]; push_cast; omega)), ?_, ?_⟩
  · rw [Verify.others, sat_append, sat_append]
    refine ⟨sat_nil.2 trivial, ?_, by rw [hsum]; exact g1⟩
    refine EdMul.prefix_stable (t := t1) (c := resCols) le_rfl (fun i r => g5.const i r) (fun i _ => g5.outside fun h => (by cases h)) (fun i _ => g5.outside fun h => (by cases h))
      (g5.outside fun h => (by cases h)) 252 le_rfl (frame_same g5 (.inl ?_)) a
    show (0 : ℤ) + (0 : ℕ) + (fixedRows : ℕ) + (usedRows 253 252 : ℕ) ≤ 36419
    decide
  · rw [hsum]
    have := sum_val basePt 0
    rw [add_zero] at this
    exact ⟨by rw [this]; exact g3, by rw [this]; exact g4⟩

/-- For every `s` below the order of the group, `s B = 0 + 1 B` is accepted. -/
theorem forged_signature (s : ℕ) (hs : s < ScalarRange.L) : ∃ t : Table (ZMod pallasP), Sat t (exV.circuit 0) ∧ (exV.s.value t).val = s ∧
    Held t exV.ax exV.ay basePt ∧ Held t exV.rx exV.ry 0 ∧ (exV.k.value t).val = 1 := by
  obtain ⟨t, f, h, hT⟩ := exT_others s
  have hL : ScalarRange.L < pallasP := by decide +kernel
  have hv : (exV.s.value (exT s)).val = s := by
    show ((s : ℕ) : ZMod pallasP).val = s
    exact ZMod.val_cast_of_lt (hs.trans hL)
  have hout : ∀ (i : ℕ) (r : ℤ) (srow : ℤ) (k : ℕ), Var.Outside ⟨i, r, false, .publicInput⟩ srow k := fun _ _ _ _ h => (by cases h)
  have es : exV.s.value t = exV.s.value (exT s) := f.outside (hout _ _ _ _)
  obtain ⟨t', f', h'⟩ := verify_forged (srow := 0) pallas_large exV rfl t (hout _ _ _ _) (by rw [es, hv]; exact hs)
    (fun i hi => consts_frame (fun i r => f.const i r) (exT_fixed s i hi)) (fun _ _ => sat_nil.2 trivial) (fun i _ => ⟨hout _ _ _ _, hout _ _ _ _⟩)
    (exIn_outside _ _) hT h
  have e : ∀ (i : ℕ) (r : ℤ), Var.value t' ⟨i, r, false, .publicInput⟩ = Var.value (exT s) ⟨i, r, false, .publicInput⟩ :=
    fun i r => (f'.outside (hout _ _ _ _)).trans (f.outside (hout _ _ _ _))
  refine ⟨t', h', ?_, (exT_base s).congr (fun i _ => e _ _) (fun i _ => e _ _), (exT_neutral s).congr (fun i _ => e _ _) (fun i _ => e _ _), ?_⟩
  · rw [show exV.s.value t' = exV.s.value (exT s) from e _ _, hv]
  · rw [show exV.k.value t' = exV.k.value (exT s) from e _ _]
    exact exT_hash s

/-- The equation is false for `s = 2`. -/
example : 2 • basePt ≠ (0 : G) + 1 • basePt := by
  rw [one_nsmul, zero_add]
  intro h
  have h1 := congrArg (fun P : G => P.1.1.val) h
  simp only [two_base] at h1
  rw [val_cast (by decide +kernel), show basePt.1.1.val = baseX from val_cast (by decide +kernel)] at h1
  exact absurd h1 (by decide +kernel)

/-- The output for the scalar 7: any point, here the base point itself. -/
example : ∃ t' : Table (ZMod pallasP), Sat t' (fixedCircuit resCols exV.s 0) ∧ Held t' (fixedX resCols 0) (fixedY resCols 0) basePt ∧ (exV.s.value t').val = 7 := by
  have hv : (exV.s.value (exT 7)).val = 7 := by
    show ((7 : ℕ) : ZMod pallasP).val = 7
    exact ZMod.val_cast_of_lt (by decide +kernel)
  obtain ⟨t', f, a, -, b⟩ := fixed_forged (k := exV.s) (srow := 0) (t := exT 7) pallas_large (fun h => (by cases h)) (by rw [hv]; decide +kernel)
    (exT_fixed 7) basePt
  exact ⟨t', a, b, by rw [show exV.s.value t' = exV.s.value (exT 7) from f.outside fun h => (by cases h), hv]⟩

/-- The honest table for the scalar 7 (the hypotheses of completeness are met, and so are those of soundness). -/
example : let t' := fixedAssign (fun m => ((m • basePt).1.1.val, (m • basePt).1.2.val)) resCols exV.s 0 (0, 1) (exT 7)
    Sat t' (fixedCircuit resCols exV.s 0) ∧ Held t' (fixedX resCols 0) (fixedY resCols 0) (7 • basePt) := by
  have hv : (exV.s.value (exT 7)).val = 7 := by
    show ((7 : ℕ) : ZMod pallasP).val = 7
    exact ZMod.val_cast_of_lt (by decide +kernel)
  have hz1 : (0 : G).1.1.val = 0 := by rw [TEd.Point.coe_zero]; exact ZMod.val_zero
  have hz2 : (0 : G).1.2.val = 1 := by rw [TEd.Point.coe_zero]; exact EdMul.one_val
  have := fixed_complete_partial (k := exV.s) (srow := 0) (t := exT 7) pallas_large (fun h => (by cases h)) (by rw [hv]; decide +kernel)
    (exT_fixed 7) basePt 0 (by
      intro i hi
      rw [hv]
      have : ScalarRange.chunk 7 (i + 1) = 0 := by
        rw [ScalarRange.chunk, Nat.div_eq_of_lt (lt_of_lt_of_le (show 7 < 2 ^ 22 by norm_num) (Nat.pow_le_pow_right (by norm_num) (by omega)))]
        rfl
      rw [this, zero_mul, zero_nsmul]
      exact low_neutral _)
  rw [hv, hz1, hz2] at this
  exact ⟨this.1, this.2.1⟩

end EdFixed
end Verif
