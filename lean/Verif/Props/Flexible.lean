import Verif.Model.Flexible
import Verif.Props.Arith
import Mathlib.LinearAlgebra.Lagrange

/-!
# C28, C29, C32, C33: swap, element-wise arrays, FRI interpolation and array swap
-/

set_option linter.unusedSimpArgs false
set_option linter.unusedVariables false
set_option linter.unusedSectionVars false

namespace Verif
section
variable {F : Type*} [Field F] [DecidableEq F]

/-! ## C28 -/

/-- C28: the control is boolean and selects the order of the pair. -/
theorem swap_sound (k : Cols) (inp : Swap.In) (srow : ℤ) (t : Table F)
    (h : Sat t (Swap.circuit k inp srow)) :
    (inp.b.value t = 0 ∨ inp.b.value t = 1) ∧
    (inp.b.value t = 0 → (Swap.result k srow).1.value t = inp.c.value t ∧
      (Swap.result k srow).2.value t = inp.d.value t) ∧
    (inp.b.value t = 1 → (Swap.result k srow).1.value t = inp.d.value t ∧
      (Swap.result k srow).2.value t = inp.c.value t) := by
  simp [Swap.circuit, Swap.result] at h ⊢
  obtain ⟨⟨h1, h2, h3⟩, h4, h5, h6⟩ := h
  rw [← h4] at h1
  rw [← h4, ← h5, ← h6] at h2 h3
  refine ⟨?_, ?_, ?_⟩
  · rcases h1 with h | h
    · exact .inl h
    · exact .inr (by linear_combination h)
  · intro hb; rw [hb] at h2 h3
    exact ⟨by linear_combination h2, by linear_combination h3⟩
  · intro hb; rw [hb] at h2 h3
    exact ⟨by linear_combination h2, by linear_combination h3⟩

/-- C28: the generated row is accepted for a boolean control. -/
theorem swap_complete (k : Cols) (hk : k.OK 5) (inp : Swap.In) (srow : ℤ) (t : Table F)
    (hb : inp.b.Outside srow 1) (hc : inp.c.Outside srow 1) (hd : inp.d.Outside srow 1)
    (hbool : inp.b.value t = 0 ∨ inp.b.value t = 1) :
    let t' := Swap.assign k inp srow (writeConsts (Swap.circuit k inp srow) t)
    Sat t' (Swap.circuit k inp srow) ∧ Frame k srow 1 t t' := by
  intro t'
  have hr := row1 srow
  refine ⟨?_, ?_⟩
  · simp [t', Swap.circuit, Swap.assign, hb.value_set hr, hc.value_set hr, hd.value_set hr, Table.set_apply,
      hk.inj]
    rcases hbool with h | h <;> simp [h]
  · simp only [t', Swap.circuit, Swap.assign, writeAll_cons, writeAll_nil]
    exact ((((Frame.refl _ _ _ _).setOK hk (by omega) hr _ _).setOK hk (by omega) hr _ _).setOK hk
      (by omega) hr _ _ |>.setOK hk (by omega) hr _ _).setOK hk (by omega) hr _ _

example : ∃ (k : Cols) (inp : Swap.In) (t : Table ℚ), k.OK 5 ∧ inp.b.Outside 3 1 ∧ inp.c.Outside 3 1 ∧
    inp.d.Outside 3 1 ∧ inp.b.value t = 1 ∧ inp.c.value t = 5 ∧ inp.d.value t = 7 :=
  ⟨⟨[4, 2, 0, 1, 9], [], []⟩, ⟨⟨0, 0, false, .witness⟩, ⟨0, 1, false, .witness⟩, ⟨0, 2, false, .witness⟩⟩,
   fun _ _ r => if r = 0 then 1 else if r = 1 then 5 else 7,
   ⟨by decide, rfl⟩, by simp [Var.Outside], by simp [Var.Outside], by simp [Var.Outside],
   by simp [Var.value], by simp [Var.value], by simp [Var.value]⟩

/-! ## C32 -/

/-- C32: the output is the value at `alpha` of every affine function through `(s, y0)` and `(-s, y1)`. -/
theorem friLinInter_sound (h2 : (2 : F) ≠ 0) (k : Cols) (inp : FriLinInter.In) (srow : ℤ) (t : Table F)
    (h : Sat t (FriLinInter.circuit k inp srow)) (hs : inp.s.value t ≠ 0) (a b : F)
    (e0 : a * inp.s.value t + b = inp.y0.value t) (e1 : a * (-inp.s.value t) + b = inp.y1.value t) :
    (FriLinInter.result k srow).value t = a * inp.alpha.value t + b := by
  simp [FriLinInter.circuit, FriLinInter.result] at h ⊢
  obtain ⟨h1, h3, h4, h5, h6⟩ := h
  rw [h3, h4, h5, h6, ← e0, ← e1] at h1
  have h7 : (2 * inp.s.value t) * (t .witness (k.w 4) srow - (a * inp.alpha.value t + b)) = 0 := by
    linear_combination h1
  rcases mul_eq_zero.1 h7 with h | h
  · exact absurd h (mul_ne_zero h2 hs)
  · linear_combination h

/-- The affine function of `friLinInter_sound` exists. -/
theorem friLinInter_line_exists (h2 : (2 : F) ≠ 0) (s y0 y1 : F) (hs : s ≠ 0) :
    ∃ a b : F, a * s + b = y0 ∧ a * (-s) + b = y1 := by
  refine ⟨(y0 - y1) / (2 * s), (y0 + y1) / 2, ?_, ?_⟩ <;> field_simp <;> ring

/-- C32: the generated row is accepted (also for `s = 0`, where the inverse used by the generator must
be defined as some value; here `0⁻¹ = 0`). -/
theorem friLinInter_complete (h2 : (2 : F) ≠ 0) (k : Cols) (hk : k.OK 5) (inp : FriLinInter.In) (srow : ℤ)
    (t : Table F) (i1 : inp.s.Outside srow 1) (i2 : inp.y0.Outside srow 1) (i3 : inp.y1.Outside srow 1)
    (i4 : inp.alpha.Outside srow 1) (hs : inp.s.value t ≠ 0) :
    let t' := FriLinInter.assign k inp srow (writeConsts (FriLinInter.circuit k inp srow) t)
    Sat t' (FriLinInter.circuit k inp srow) ∧ Frame k srow 1 t t' := by
  intro t'
  have hr := row1 srow
  refine ⟨?_, ?_⟩
  · simp [t', FriLinInter.circuit, FriLinInter.assign, i1.value_set hr, i2.value_set hr, i3.value_set hr,
      i4.value_set hr, Table.set_apply, hk.inj]
    field_simp
    ring
  · simp only [t', FriLinInter.circuit, FriLinInter.assign, writeAll_cons, writeAll_nil]
    exact ((((Frame.refl _ _ _ _).setOK hk (by omega) hr _ _).setOK hk (by omega) hr _ _).setOK hk
      (by omega) hr _ _ |>.setOK hk (by omega) hr _ _).setOK hk (by omega) hr _ _

/-- `s ≠ 0` is needed: with `s = 0` and `y0 = y1` every output is accepted. -/
theorem friLinInter_zero_unconstrained (k : Cols) (inp : FriLinInter.In) (srow : ℤ) (t : Table F)
    (hk : k.OK 5) (i1 : inp.s.Outside srow 1) (i2 : inp.y0.Outside srow 1) (i3 : inp.y1.Outside srow 1)
    (i4 : inp.alpha.Outside srow 1) (hs : inp.s.value t = 0) (hy : inp.y0.value t = inp.y1.value t) (o : F) :
    ∃ t', Sat t' (FriLinInter.circuit k inp srow) ∧ Frame k srow 1 t t' ∧
      (FriLinInter.result k srow).value t' = o := by
  have hr := row1 srow
  refine ⟨(FriLinInter.assign k inp srow t).set .witness (k.w 4) srow o, ?_, ?_, ?_⟩
  · simp [FriLinInter.circuit, FriLinInter.assign, i1.value_set hr, i2.value_set hr, i3.value_set hr,
      i4.value_set hr, Table.set_apply, hk.inj, hs, hy]
  · simp only [FriLinInter.circuit, FriLinInter.assign, writeAll_cons, writeAll_nil]
    exact ((((Frame.refl _ _ _ _).setOK hk (by omega) hr _ _).setOK hk (by omega) hr _ _).setOK hk
      (by omega) hr _ _ |>.setOK hk (by omega) hr _ _).setOK hk (by omega) hr _ _ |>.setOK hk (by omega) hr _ _
  · simp [FriLinInter.result, Table.set_apply]

/-! ## C29 -/

theorem arrayOp_rows_le {w n : ℕ} (hw : 3 ≤ w) : n ≤ ArrayOp.rows w n * (w / 3) := by
  have hk : 0 < w / 3 := by omega
  unfold ArrayOp.rows
  simp only
  have e1 : 3 * n % (w / 3 * 3) = 3 * (n % (w / 3)) := by rw [Nat.mul_comm (w / 3) 3, Nat.mul_mod_mul_left]
  have e2 : 3 * n / (w / 3 * 3) = n / (w / 3) := by
    rw [Nat.mul_comm (w / 3) 3, Nat.mul_div_mul_left _ _ (by omega)]
  rw [e1, e2]
  have h3 := Nat.div_add_mod n (w / 3)
  have h4 := Nat.mod_lt n hk
  rw [Nat.mul_comm] at h3
  split_ifs with h
  · omega
  · rw [add_mul, one_mul]; omega

theorem getD_eq {α : Type*} (l : List α) (i : ℕ) (d : α) (h : i < l.length) : l.getD i d = l[i] := by
  simp [List.getD, h]

theorem map_range_getD {α β : Type*} (l : List α) (d : α) (f : α → β) :
    (List.range l.length).map (fun i => f (l.getD i d)) = l.map f := by
  apply List.ext_getElem
  · simp
  · intro i h1 h2
    simp only [List.length_map] at h2
    simp [List.getD, h2]

/-- C29: element `i` of the output is `a_i + b_i` (`a_i * b_i`), for every `i`. -/
theorem arrayOp_sound (k : ArrayOp.Kind) (c : Cols) (w : ℕ) (hw : 3 ≤ w) (arr : List (Var × Var)) (srow : ℤ)
    (t : Table F) (h : Sat t (ArrayOp.circuit k c w arr srow)) :
    (ArrayOp.result c w arr.length srow).map (·.value t) =
      arr.map fun p => match k with
        | .add => p.1.value t + p.2.value t
        | .mul => p.1.value t * p.2.value t := by
  have hk : 0 < w / 3 := by omega
  have hle := arrayOp_rows_le (n := arr.length) hw
  rw [ArrayOp.result, blocks_eq hk hle, List.map_map]
  rw [← map_range_getD arr default]
  apply List.map_congr_left
  intro i hi
  have hi' : i < arr.length := List.mem_range.1 hi
  have hb : i % (w / 3) < w / 3 := Nat.mod_lt _ hk
  have hdm : i / (w / 3) * (w / 3) + i % (w / 3) = i := by rw [Nat.mul_comm]; exact Nat.div_add_mod i (w / 3)
  have hr : i / (w / 3) < ArrayOp.rows w arr.length := by
    rw [Nat.div_lt_iff_lt_mul hk]; omega
  rw [ArrayOp.circuit, sat_cons] at h
  obtain ⟨hg, hcp⟩ := h
  have hg1 := hg (srow + ((i / (w / 3) : ℕ) : ℤ)) (mem_rowsFrom.2 ⟨_, hr, rfl⟩) _
    (List.mem_map.2 ⟨i % (w / 3), List.mem_range.2 hb, rfl⟩)
  have hmem : ∀ o ∈ [Op.copy (arr.getD (i / (w / 3) * (w / 3) + i % (w / 3)) default).1
        (c.wa ((3 * (i % (w / 3)) : ℕ) : ℤ) (srow + ((i / (w / 3) : ℕ) : ℤ))),
      Op.copy (arr.getD (i / (w / 3) * (w / 3) + i % (w / 3)) default).2
        (c.wa ((3 * (i % (w / 3)) + 1 : ℕ) : ℤ) (srow + ((i / (w / 3) : ℕ) : ℤ)))], o.Holds t := by
    intro o ho
    apply hcp
    refine List.mem_flatten.2 ⟨_, mem_blocks.2 ⟨_, hr, _, hb, ?_, rfl⟩, ho⟩
    omega
  have h1 := hmem _ List.mem_cons_self
  have h2 := hmem _ (List.mem_cons_of_mem _ List.mem_cons_self)
  rw [holds_copy, Cols.value_wa, hdm] at h1 h2
  rw [Nat.mul_comm 3] at h1 h2
  simp only [Function.comp, Cols.value_wa]
  cases k with
  | add =>
    simp only [ArrayOp.Kind.expr, Expr.eval_sub, Expr.eval_add, Cols.eval_wv, add_zero] at hg1
    rw [h1, h2]; linear_combination -hg1
  | mul =>
    simp only [ArrayOp.Kind.expr, Expr.eval_sub, Expr.eval_mul, Cols.eval_wv, add_zero] at hg1
    rw [h1, h2]; linear_combination -hg1

/-- The value the generator leaves in row `r`, column `j`. -/
def ArrayOp.cell (k : ArrayOp.Kind) (w : ℕ) (vals : List (F × F)) (r j : ℕ) : F :=
  if j < w / 3 * 3 ∧ r * (w / 3) + j / 3 < vals.length then
    let p := vals.getD (r * (w / 3) + j / 3) (0, 0)
    if j % 3 = 0 then p.1 else if j % 3 = 1 then p.2 else k.val p.1 p.2
  else 0

theorem arrayOp_grid (k : ArrayOp.Kind) (c : Cols) (w : ℕ) (vals : List (F × F)) (srow : ℤ) :
    GridWrites c srow w (ArrayOp.rows w vals.length) (ArrayOp.cell k w vals) (ArrayOp.writes k c w vals srow) := by
  intro x hx
  simp only [ArrayOp.writes, List.mem_flatMap, List.mem_append, List.mem_range, List.mem_map] at hx
  obtain ⟨r, hr, ⟨b, hb, hx⟩ | ⟨i, hi, rfl⟩⟩ := hx
  · have hb3 : b * 3 + 2 < w := by omega
    have d0 : b * 3 / 3 = b := by omega
    have d1 : (b * 3 + 1) / 3 = b := by omega
    have d2 : (b * 3 + 2) / 3 = b := by omega
    have m1 : (b * 3 + 1) % 3 = 1 := by omega
    have m2 : (b * 3 + 2) % 3 = 2 := by omega
    have l0 : b * 3 < w / 3 * 3 := by omega
    have l1 : b * 3 + 1 < w / 3 * 3 := by omega
    have l2 : b * 3 + 2 < w / 3 * 3 := by omega
    split_ifs at hx with hlt
    · simp only [List.mem_cons, List.not_mem_nil, or_false] at hx
      rcases hx with rfl | rfl | rfl
      · exact ⟨r, hr, b * 3, by omega, by simp [ArrayOp.cell, d0, hlt, l0]⟩
      · exact ⟨r, hr, b * 3 + 1, by omega, by simp [ArrayOp.cell, d1, m1, hlt, l1]⟩
      · exact ⟨r, hr, b * 3 + 2, by omega, by simp [ArrayOp.cell, d2, m2, hlt, l2]⟩
    · simp only [List.mem_cons, List.not_mem_nil, or_false] at hx
      rcases hx with rfl | rfl | rfl
      · exact ⟨r, hr, b * 3, by omega, by simp [ArrayOp.cell, d0, hlt, l0]⟩
      · exact ⟨r, hr, b * 3 + 1, by omega, by simp [ArrayOp.cell, d1, m1, hlt, l1]⟩
      · exact ⟨r, hr, b * 3 + 2, by omega, by simp [ArrayOp.cell, d2, m2, hlt, l2]⟩
  · refine ⟨r, hr, w / 3 * 3 + i, by omega, ?_⟩
    have : ¬ (w / 3 * 3 + i < w / 3 * 3) := by omega
    simp [ArrayOp.cell, this]

theorem arrayOp_mem (k : ArrayOp.Kind) (c : Cols) (w : ℕ) (vals : List (F × F)) (srow : ℤ) {r b d : ℕ}
    (hr : r < ArrayOp.rows w vals.length) (hb : b < w / 3) (hd : d < 3) :
    (⟨.witness, c.w ((b * 3 + d : ℕ) : ℤ), srow + r, ArrayOp.cell k w vals r (b * 3 + d)⟩ : Write F) ∈
      ArrayOp.writes k c w vals srow := by
  simp only [ArrayOp.writes, List.mem_flatMap, List.mem_append, List.mem_range]
  refine ⟨r, hr, .inl ⟨b, hb, ?_⟩⟩
  have d0 : (b * 3 + d) / 3 = b := by omega
  have m1 : (b * 3 + d) % 3 = d := by omega
  have l0 : b * 3 + d < w / 3 * 3 := by omega
  split_ifs with hlt
  · interval_cases d
    · simp only [add_zero] at d0 l0 ⊢; simp [ArrayOp.cell, d0, hlt, l0]
    · simp [ArrayOp.cell, d0, m1, hlt, l0]
    · simp [ArrayOp.cell, d0, m1, hlt, l0]
  · interval_cases d
    · simp only [add_zero] at d0 l0 ⊢; simp [ArrayOp.cell, d0, hlt, l0]
    · simp [ArrayOp.cell, d0, m1, hlt, l0]
    · simp [ArrayOp.cell, d0, m1, hlt, l0]

/-- C29: the generated table is accepted, whatever the padding slots. -/
theorem arrayOp_complete (k : ArrayOp.Kind) (c : Cols) (w : ℕ) (hw : 3 ≤ w) (hc : c.OK w)
    (arr : List (Var × Var)) (srow : ℤ) (t : Table F)
    (ho : ∀ p ∈ arr, p.1.Outside srow (ArrayOp.rows w arr.length) ∧
      p.2.Outside srow (ArrayOp.rows w arr.length)) :
    let t' := ArrayOp.assign k c w arr srow (writeConsts (ArrayOp.circuit k c w arr srow) t)
    Sat t' (ArrayOp.circuit k c w arr srow) ∧ Frame c srow (ArrayOp.rows w arr.length) t t' := by
  intro t'
  have hwc : writeConsts (ArrayOp.circuit k c w arr srow) t = t := by
    apply writeConsts_noConst
    intro o ho col row v
    rw [ArrayOp.circuit] at ho
    rcases List.mem_cons.1 ho with rfl | ho
    · simp
    obtain ⟨l, hl, hol⟩ := List.mem_flatten.1 ho
    obtain ⟨r, _, b, _, _, rfl⟩ := mem_blocks.1 hl
    simp only [List.mem_cons, List.not_mem_nil, or_false] at hol
    rcases hol with rfl | rfl <;> simp
  set vals := arr.map fun p => (p.1.value t, p.2.value t) with hvals
  have hlen : vals.length = arr.length := by simp [hvals]
  have hgrid := arrayOp_grid k c w vals srow
  have ht' : t' = writeAll (ArrayOp.writes k c w vals srow) t := by
    simp only [t', hwc, ArrayOp.assign, hvals]
  have hfr : Frame c srow (ArrayOp.rows w arr.length) t t' := by
    rw [ht', ← hlen]; exact (hgrid.own hc).frame t
  have hread : ∀ r b d : ℕ, r < ArrayOp.rows w arr.length → b < w / 3 → d < 3 →
      t' .witness (c.w ((b * 3 + d : ℕ) : ℤ)) (srow + r) = ArrayOp.cell k w vals r (b * 3 + d) := by
    intro r b d hr hb hd
    rw [ht']
    exact hgrid.read hc t (by omega) (arrayOp_mem k c w vals srow (by rw [hlen]; exact hr) hb hd)
  refine ⟨?_, hfr⟩
  rw [ArrayOp.circuit, sat_cons]
  constructor
  · intro r hr e he
    obtain ⟨i, hi, rfl⟩ := mem_rowsFrom.1 hr
    obtain ⟨b, hb, rfl⟩ := List.mem_map.1 he
    have hb := List.mem_range.1 hb
    have r0 := hread i b 0 hi hb (by omega)
    have r1 := hread i b 1 hi hb (by omega)
    have r2 := hread i b 2 hi hb (by omega)
    rw [add_zero] at r0
    have hcell : k.val (ArrayOp.cell k w vals i (b * 3)) (ArrayOp.cell k w vals i (b * 3 + 1)) =
        ArrayOp.cell k w vals i (b * 3 + 2) := by
      have d0 : b * 3 / 3 = b := by omega
      have d1 : (b * 3 + 1) / 3 = b := by omega
      have d2 : (b * 3 + 2) / 3 = b := by omega
      have m1 : (b * 3 + 1) % 3 = 1 := by omega
      have m2 : (b * 3 + 2) % 3 = 2 := by omega
      have l0 : b * 3 < w / 3 * 3 := by omega
      have l1 : b * 3 + 1 < w / 3 * 3 := by omega
      have l2 : b * 3 + 2 < w / 3 * 3 := by omega
      unfold ArrayOp.cell
      rw [d0, d1, d2]
      by_cases hlt : i * (w / 3) + b < vals.length
      · simp [hlt, l0, l1, l2, m1, m2]
      · cases k <;> simp [hlt, ArrayOp.Kind.val]
    cases k with
    | add =>
      simp only [ArrayOp.Kind.expr, Expr.eval_sub, Expr.eval_add, Cols.eval_wv, add_zero, r0, r1, r2]
      rw [← hcell]; simp [ArrayOp.Kind.val]
    | mul =>
      simp only [ArrayOp.Kind.expr, Expr.eval_sub, Expr.eval_mul, Cols.eval_wv, add_zero, r0, r1, r2]
      rw [← hcell]; simp [ArrayOp.Kind.val]
  · intro o hmem
    obtain ⟨l, hl, hol⟩ := List.mem_flatten.1 hmem
    obtain ⟨r, hr, b, hb, hn, rfl⟩ := mem_blocks.1 hl
    have hp : arr[r * (w / 3) + b] ∈ arr := List.getElem_mem hn
    obtain ⟨o1, o2⟩ := ho _ hp
    have r0 := hread r b 0 hr hb (by omega)
    have r1 := hread r b 1 hr hb (by omega)
    rw [add_zero] at r0
    have d0 : b * 3 / 3 = b := by omega
    have d1 : (b * 3 + 1) / 3 = b := by omega
    have m1 : (b * 3 + 1) % 3 = 1 := by omega
    have l0 : b * 3 < w / 3 * 3 := by omega
    have l1 : b * 3 + 1 < w / 3 * 3 := by omega
    have hn' : r * (w / 3) + b < vals.length := by omega
    have hv : vals[r * (w / 3) + b] = (arr[r * (w / 3) + b].1.value t, arr[r * (w / 3) + b].2.value t) := by
      simp [hvals]
    simp only [List.mem_cons, List.not_mem_nil, or_false] at hol
    rcases hol with rfl | rfl
    · rw [holds_copy, Cols.value_wa, getD_eq _ _ _ hn, hfr.outside o1, Nat.mul_comm 3, r0]
      simp [ArrayOp.cell, d0, l0, hn', hv, List.getD]
    · rw [holds_copy, Cols.value_wa, getD_eq _ _ _ hn, hfr.outside o2, Nat.mul_comm 3, r1]
      simp [ArrayOp.cell, d1, m1, l1, hn', hv, List.getD]

example : ∃ (c : Cols) (arr : List (Var × Var)) (t : Table ℚ), c.OK 7 ∧ arr.length = 5 ∧
    ArrayOp.rows 7 arr.length = 3 ∧
    (∀ p ∈ arr, p.1.Outside 9 3 ∧ p.2.Outside 9 3) ∧ (arr.map fun p => p.2.value t) = [0, 1, 2, 3, 4] :=
  ⟨⟨[0, 1, 2, 3, 4, 5, 6], [], []⟩,
   (List.range 5).map fun i => (⟨1, i, false, .witness⟩, ⟨0, i, false, .witness⟩),
   fun _ _ r => r, ⟨by decide, rfl⟩, rfl, by decide, by simp [List.range_succ, Var.Outside],
   by simp [List.range_succ, Var.value]⟩

/-! ## C33 -/

theorem friArraySwap_rows_le {w h : ℕ} (hw : 5 ≤ w) : h ≤ FriArraySwap.rows w h * FriArraySwap.perRow w := by
  unfold FriArraySwap.rows FriArraySwap.perRow
  have hk : 0 < (w - 1) / 4 := by omega
  set k := (w - 1) / 4
  have h1 := Nat.div_add_mod (2 * h + k - 1) k
  have h2 := Nat.mod_lt (2 * h + k - 1) hk
  rw [Nat.mul_comm] at h1
  omega

theorem list_pairs_flatten {α : Type*} (h : ℕ) (f : ℕ → α) :
    ((List.range h).map fun i => [f (2 * i), f (2 * i + 1)]).flatten = (List.range (2 * h)).map f := by
  induction h with
  | zero => simp
  | succ h ih =>
    rw [List.range_succ, List.map_append, List.flatten_append, ih, Nat.mul_succ, List.range_succ, List.range_succ]
    simp

/-- What C33 asks: the list of pairs, each exchanged iff `swap`. -/
def swapPairs {α : Type*} (swap : Bool) : List α → List α
  | a :: b :: l => (if swap then [b, a] else [a, b]) ++ swapPairs swap l
  | l => l

theorem swapPairs_range {α : Type*} (s : Bool) (h : ℕ) (f : ℕ → α) :
    swapPairs s ((List.range (2 * h)).map f) =
      ((List.range h).map fun i => if s then [f (2 * i + 1), f (2 * i)] else [f (2 * i), f (2 * i + 1)]).flatten := by
  induction h generalizing f with
  | zero => simp [swapPairs]
  | succ h ih =>
    have e : 2 * (h + 1) = 2 * h + 2 := by ring
    rw [e, List.range_succ_eq_map, List.range_succ_eq_map, List.range_succ_eq_map]
    simp only [List.map_cons, List.map_map, swapPairs, List.flatten_cons]
    have := ih (fun i => f (i + 2))
    rw [show (List.range (2 * h)).map (f ∘ Nat.succ ∘ Nat.succ) = (List.range (2 * h)).map (fun i => f (i + 2)) from rfl,
      this]
    cases s
    · simp [Function.comp_def, mul_add]
    · simp [Function.comp_def, mul_add]

/-- C33: with a boolean control the output is the array with every pair exchanged iff the control is 1;
same length, same order of pairs. -/
theorem friArraySwap_sound (c : Cols) (w h : ℕ) (hw : 5 ≤ w) (ctl : Var) (arr : List Var)
    (ha : arr.length = 2 * h) (srow : ℤ) (t : Table F) (hs : Sat t (FriArraySwap.circuit c w h ctl arr srow))
    (hb : ctl.value t = 0 ∨ ctl.value t = 1) :
    (FriArraySwap.result c w h srow).map (·.value t) =
      swapPairs (decide (ctl.value t = 1)) (arr.map (·.value t)) := by
  have hk : 0 < FriArraySwap.perRow w := by unfold FriArraySwap.perRow; omega
  have hle := friArraySwap_rows_le (h := h) hw
  have harr : arr.map (·.value t) = (List.range (2 * h)).map fun i => (arr.getD i default).value t := by
    rw [← ha, map_range_getD arr default]
  rw [harr, swapPairs_range, FriArraySwap.result, blocks_eq hk hle, List.map_flatten, List.map_map]
  congr 1
  apply List.map_congr_left
  intro i hi
  have hi' : i < h := List.mem_range.1 hi
  set k := FriArraySwap.perRow w with hkdef
  have hbk : i % k < k := Nat.mod_lt _ hk
  have hdm : i / k * k + i % k = i := by rw [Nat.mul_comm]; exact Nat.div_add_mod i k
  have hr : i / k < FriArraySwap.rows w h := by
    rw [Nat.div_lt_iff_lt_mul hk]; omega
  rw [FriArraySwap.circuit, sat_cons] at hs
  obtain ⟨hg, hcp⟩ := hs
  have hg' := fun e he => hg (srow + ((i / k : ℕ) : ℤ)) (mem_rowsFrom.2 ⟨_, hr, rfl⟩) e
    (List.mem_flatMap.2 ⟨i % k, List.mem_range.2 hbk, he⟩)
  simp only [List.mem_cons, List.not_mem_nil, or_false, forall_eq_or_imp, forall_eq] at hg'
  obtain ⟨g1, g2⟩ := hg'
  have hrow := fun o ho => hcp o (List.mem_flatMap.2 ⟨i / k, List.mem_range.2 hr, ho⟩)
  simp only [List.mem_cons, forall_eq_or_imp, List.mem_flatMap, List.mem_filter, List.mem_range,
    decide_eq_true_eq] at hrow
  obtain ⟨c0, hrest⟩ := hrow
  have hrest' := fun o ho => hrest o ⟨i % k, ⟨hbk, by rw [← hkdef]; omega⟩, ho⟩
  rw [← hkdef] at hrest'
  simp only [List.not_mem_nil, or_false, forall_eq_or_imp, forall_eq, hdm] at hrest'
  obtain ⟨c1, c2⟩ := hrest'
  rw [holds_copy, Cols.value_wa] at c0 c1 c2
  simp only [Expr.eval_sub, Expr.eval_mul, Cols.eval_wv, add_zero, Expr.eval_one] at g1 g2
  rw [← c0, ← c1, ← c2] at g1 g2
  simp only [Function.comp, List.map_cons, List.map_nil, Cols.value_wa]
  rcases hb with hb | hb
  · rw [hb] at g1 g2
    simp only [hb, zero_ne_one, decide_false, Bool.false_eq_true, if_false, List.cons.injEq, and_true]
    exact ⟨by linear_combination g1, by linear_combination g2⟩
  · rw [hb] at g1 g2
    simp only [hb, decide_true, if_true, List.cons.injEq, and_true]
    exact ⟨by linear_combination g1, by linear_combination g2⟩

/-- The control is not forced boolean by the component itself: over any field, control 2 is accepted
and the outputs are not a permutation of the inputs. -/
theorem friArraySwap_control_unchecked :
    ∃ (c : Cols) (ctl : Var) (arr : List Var) (t : Table ℚ), c.OK 5 ∧ arr.length = 2 ∧
      Sat t (FriArraySwap.circuit c 5 1 ctl arr 0) ∧ ctl.value t = 2 ∧ arr.map (·.value t) = [0, 1] ∧
      (FriArraySwap.result c 5 1 0).map (·.value t) = [2, -1] := by
  refine ⟨⟨[0, 1, 2, 3, 4], [], []⟩, ⟨0, 0, false, .publicInput⟩,
    [⟨0, 1, false, .publicInput⟩, ⟨0, 2, false, .publicInput⟩],
    fun ty i r => match ty with
      | .publicInput => if r = 0 then 2 else if r = 1 then 0 else 1
      | _ => if r ≠ 0 then (if i = 0 then 2 else 0) else
          if i = 0 then 2 else if i = 1 then 0 else if i = 2 then 1 else if i = 3 then 2 else -1,
    ⟨by decide, rfl⟩, rfl, ?_, by simp [Var.value], by simp [Var.value], ?_⟩
  · simp [FriArraySwap.circuit, FriArraySwap.rows, FriArraySwap.perRow, rowsFrom, List.range_succ, Cols.w, colAt,
      Cols.wa, Var.value]
    norm_num
  · simp [FriArraySwap.result, FriArraySwap.rows, FriArraySwap.perRow, blocks, List.range_succ, Cols.w, colAt,
      Cols.wa, Var.value]

/-- The value the generator leaves in row `r`, column `j`. -/
def FriArraySwap.cell (w : ℕ) (t : F) (vals : List F) (r j : ℕ) : F :=
  if j = 0 then t else
  let p := 2 * (r * FriArraySwap.perRow w + (j - 1) / 4)
  if p < vals.length then
    let a := vals.getD p 0
    let b := vals.getD (p + 1) 0
    if (j - 1) % 4 = 0 then a else if (j - 1) % 4 = 1 then b
    else if (j - 1) % 4 = 2 then (if t = 0 then a else b) else (if t = 0 then b else a)
  else 0

theorem friArraySwap_cell_at (w : ℕ) (t : F) (vals : List F) (r b d : ℕ) (hd : d < 4) :
    FriArraySwap.cell w t vals r (1 + 4 * b + d) =
      if 2 * (r * FriArraySwap.perRow w + b) < vals.length then
        (if d = 0 then vals.getD (2 * (r * FriArraySwap.perRow w + b)) 0
        else if d = 1 then vals.getD (2 * (r * FriArraySwap.perRow w + b) + 1) 0
        else if d = 2 then (if t = 0 then vals.getD (2 * (r * FriArraySwap.perRow w + b)) 0
          else vals.getD (2 * (r * FriArraySwap.perRow w + b) + 1) 0)
        else (if t = 0 then vals.getD (2 * (r * FriArraySwap.perRow w + b) + 1) 0
          else vals.getD (2 * (r * FriArraySwap.perRow w + b)) 0))
      else 0 := by
  have h1 : (1 + 4 * b + d - 1) / 4 = b := by omega
  have h2 : (1 + 4 * b + d - 1) % 4 = d := by omega
  have h3 : 1 + 4 * b + d ≠ 0 := by omega
  simp only [FriArraySwap.cell, h1, h2, if_neg h3]

theorem friArraySwap_grid (c : Cols) (w h : ℕ) (hw : 5 ≤ w) (t : F) (vals : List F) (srow : ℤ) :
    GridWrites c srow w (FriArraySwap.rows w h) (FriArraySwap.cell w t vals) (FriArraySwap.writes c w h t vals srow) := by
  intro x hx
  simp only [FriArraySwap.writes, List.mem_flatMap, List.mem_cons, List.mem_range] at hx
  obtain ⟨r, hr, rfl | ⟨b, hb, hx⟩⟩ := hx
  · exact ⟨r, hr, 0, by omega, by simp [FriArraySwap.cell]⟩
  · have hb3 : 1 + 4 * b + 3 < w := by unfold FriArraySwap.perRow at hb; omega
    have a0 := friArraySwap_cell_at w t vals r b 0 (by omega)
    have a1 := friArraySwap_cell_at w t vals r b 1 (by omega)
    have a2 := friArraySwap_cell_at w t vals r b 2 (by omega)
    have a3 := friArraySwap_cell_at w t vals r b 3 (by omega)
    rw [add_zero] at a0
    by_cases hlt : 2 * (r * FriArraySwap.perRow w + b) < vals.length
    · rw [if_pos hlt] at hx
      simp only [List.mem_cons, List.not_mem_nil, or_false] at hx
      rcases hx with rfl | rfl | rfl | rfl
      · exact ⟨r, hr, 1 + 4 * b, by omega, by rw [a0, if_pos hlt]; rfl⟩
      · exact ⟨r, hr, 1 + 4 * b + 1, by omega, by rw [a1, if_pos hlt]; rfl⟩
      · exact ⟨r, hr, 1 + 4 * b + 2, by omega, by rw [a2, if_pos hlt]; rfl⟩
      · exact ⟨r, hr, 1 + 4 * b + 3, by omega, by rw [a3, if_pos hlt]; rfl⟩
    · rw [if_neg hlt] at hx
      simp only [List.mem_cons, List.not_mem_nil, or_false] at hx
      rcases hx with rfl | rfl | rfl | rfl
      · exact ⟨r, hr, 1 + 4 * b, by omega, by rw [a0, if_neg hlt]⟩
      · exact ⟨r, hr, 1 + 4 * b + 1, by omega, by rw [a1, if_neg hlt]⟩
      · exact ⟨r, hr, 1 + 4 * b + 2, by omega, by rw [a2, if_neg hlt]⟩
      · exact ⟨r, hr, 1 + 4 * b + 3, by omega, by rw [a3, if_neg hlt]⟩

theorem friArraySwap_mem (c : Cols) (w h : ℕ) (t : F) (vals : List F) (srow : ℤ) {r b d : ℕ}
    (hr : r < FriArraySwap.rows w h) (hb : b < FriArraySwap.perRow w) (hd : d < 4) :
    (⟨.witness, c.w ((1 + 4 * b + d : ℕ) : ℤ), srow + r, FriArraySwap.cell w t vals r (1 + 4 * b + d)⟩ : Write F) ∈
      FriArraySwap.writes c w h t vals srow := by
  simp only [FriArraySwap.writes, List.mem_flatMap, List.mem_cons, List.mem_range]
  refine ⟨r, hr, .inr ⟨b, hb, ?_⟩⟩
  rw [friArraySwap_cell_at w t vals r b d hd]
  split_ifs with hlt <;> interval_cases d <;> simp_all

/-- C33: the generated table is accepted for a boolean control. -/
theorem friArraySwap_complete (c : Cols) (w h : ℕ) (hw : 5 ≤ w) (hc : c.OK w) (ctl : Var) (arr : List Var)
    (ha : arr.length = 2 * h) (srow : ℤ) (t : Table F) (hctl : ctl.Outside srow (FriArraySwap.rows w h))
    (ho : ∀ v ∈ arr, v.Outside srow (FriArraySwap.rows w h))
    (hb : ctl.value t = 0 ∨ ctl.value t = 1) :
    let t' := FriArraySwap.assign c w h ctl arr srow (writeConsts (FriArraySwap.circuit c w h ctl arr srow) t)
    Sat t' (FriArraySwap.circuit c w h ctl arr srow) ∧ Frame c srow (FriArraySwap.rows w h) t t' := by
  intro t'
  have hwc : writeConsts (FriArraySwap.circuit c w h ctl arr srow) t = t := by
    apply writeConsts_noConst
    intro o ho col row v
    rw [FriArraySwap.circuit] at ho
    simp only [List.mem_cons, List.mem_flatMap, List.not_mem_nil, or_false] at ho
    rcases ho with rfl | ⟨r, _, rfl | ⟨b, _, rfl | rfl⟩⟩ <;> simp
  set vals := arr.map (·.value t) with hvals
  have hlen : vals.length = arr.length := by simp [hvals]
  have hgrid := friArraySwap_grid c w h hw (ctl.value t) vals srow
  have ht' : t' = writeAll (FriArraySwap.writes c w h (ctl.value t) vals srow) t := by
    simp only [t', hwc, FriArraySwap.assign, hvals]
  have hfr : Frame c srow (FriArraySwap.rows w h) t t' := by
    rw [ht']; exact (hgrid.own hc).frame t
  have hread : ∀ r b d : ℕ, r < FriArraySwap.rows w h → b < FriArraySwap.perRow w → d < 4 →
      t' .witness (c.w ((1 + 4 * b + d : ℕ) : ℤ)) (srow + r) =
        FriArraySwap.cell w (ctl.value t) vals r (1 + 4 * b + d) := by
    intro r b d hr hb hd
    rw [ht']
    exact hgrid.read hc t (by unfold FriArraySwap.perRow at hb; omega)
      (friArraySwap_mem c w h _ vals srow hr hb hd)
  have hread0 : ∀ r : ℕ, r < FriArraySwap.rows w h →
      t' .witness (c.w 0) (srow + r) = ctl.value t := by
    intro r hr
    rw [ht']
    have := hgrid.read hc t (r := r) (j := 0) (by omega) (by
      simp only [FriArraySwap.writes, List.mem_flatMap, List.mem_cons, List.mem_range]
      exact ⟨r, hr, .inl (by simp [FriArraySwap.cell])⟩)
    simpa [FriArraySwap.cell] using this
  refine ⟨?_, hfr⟩
  rw [FriArraySwap.circuit, sat_cons]
  constructor
  · intro r hr e he
    obtain ⟨i, hi, rfl⟩ := mem_rowsFrom.1 hr
    obtain ⟨b, hbb, he⟩ := List.mem_flatMap.1 he
    have hbb := List.mem_range.1 hbb
    have r0 := hread i b 0 hi hbb (by omega)
    have r1 := hread i b 1 hi hbb (by omega)
    have r2 := hread i b 2 hi hbb (by omega)
    have r3 := hread i b 3 hi hbb (by omega)
    rw [friArraySwap_cell_at _ _ _ _ _ _ (by omega)] at r0 r1 r2 r3
    rw [add_zero] at r0
    simp only [List.mem_cons, List.not_mem_nil, or_false] at he
    rcases he with rfl | rfl
    · simp only [Expr.eval_sub, Expr.eval_mul, Cols.eval_wv, add_zero, Expr.eval_one, hread0 i hi, r0, r1, r2, r3]
      clear hread hread0 r0 r1 r2 r3
      rcases hb with hb | hb <;> rw [hb] <;>
        by_cases hlt : 2 * (i * FriArraySwap.perRow w + b) < vals.length <;> simp [hlt]
    · simp only [Expr.eval_sub, Expr.eval_mul, Cols.eval_wv, add_zero, Expr.eval_one, hread0 i hi, r0, r1, r2, r3]
      clear hread hread0 r0 r1 r2 r3
      rcases hb with hb | hb <;> rw [hb] <;>
        by_cases hlt : 2 * (i * FriArraySwap.perRow w + b) < vals.length <;> simp [hlt]
  · intro o hmem
    obtain ⟨r, hr, hol⟩ := List.mem_flatMap.1 hmem
    have hr := List.mem_range.1 hr
    simp only [List.mem_cons, List.mem_flatMap, List.mem_filter, List.mem_range, decide_eq_true_eq,
      List.not_mem_nil, or_false] at hol
    rcases hol with rfl | ⟨b, ⟨hbb, hlt⟩, rfl | rfl⟩
    · rw [holds_copy, Cols.value_wa, hread0 r hr, hfr.outside hctl]
    · have r0 := hread r b 0 hr hbb (by omega)
      rw [friArraySwap_cell_at _ _ _ _ _ _ (by omega), add_zero, if_pos (by omega)] at r0
      rw [holds_copy, Cols.value_wa, r0, getD_eq _ _ _ hlt, hfr.outside (ho _ (List.getElem_mem hlt))]
      simp [hvals, hlt]
    · have r0 := hread r b 1 hr hbb (by omega)
      rw [friArraySwap_cell_at _ _ _ _ _ _ (by omega), if_pos (by omega)] at r0
      have hlt' : 2 * (r * FriArraySwap.perRow w + b) + 1 < arr.length := by omega
      rw [holds_copy, Cols.value_wa, r0, getD_eq _ _ _ hlt', hfr.outside (ho _ (List.getElem_mem hlt'))]
      simp [hvals, hlt']

example : ∃ (c : Cols) (ctl : Var) (arr : List Var) (t : Table ℚ), c.OK 9 ∧ arr.length = 2 * 3 ∧
    ctl.Outside 9 (FriArraySwap.rows 9 3) ∧ (∀ v ∈ arr, v.Outside 9 (FriArraySwap.rows 9 3)) ∧
    ctl.value t = 1 ∧ swapPairs (decide (ctl.value t = 1)) (arr.map (·.value t)) = [1, 0, 3, 2, 5, 4] :=
  ⟨⟨[0, 1, 2, 3, 4, 5, 6, 7, 8], [], []⟩, ⟨0, 1, false, .witness⟩,
   (List.range 6).map fun i => ⟨1, i, false, .witness⟩,
   fun _ _ r => r, ⟨by decide, rfl⟩, rfl, by simp [Var.Outside],
   by simp [List.range_succ, Var.Outside], by simp [Var.value],
   by simp [List.range_succ, Var.value, swapPairs]⟩

end
end Verif
