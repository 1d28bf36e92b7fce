import Verif.Model.Logic
import Verif.Props.Arith
import Mathlib.Tactic.IntervalCases
import Mathlib.LinearAlgebra.Lagrange

/-!
# C13-C16: flags, boolean operations, interpolation
-/

set_option linter.unusedSimpArgs false
set_option linter.unusedVariables false
set_option linter.unusedSectionVars false

namespace Verif
section
variable {F : Type*} [Field F] [DecidableEq F]

/-! ## C13 -/

theorem logicAndFlag_sound (c : Cols) (w : ℕ) (hw : 2 ≤ w ∧ w < 6) (inp : In2) (srow : ℤ) (t : Table F)
    (h : Sat t (LogicAndFlag.circuit c w inp srow)) :
    (LogicAndFlag.result c w srow).value t =
      if inp.x.value t ≠ 0 ∧ inp.y.value t ≠ 0 then 1 else 0 := by
  have key : ∀ x y p v f : F, p = x * y → f * (f - 1) = 0 → f = p * v → (v - p) * (f - 1) = 0 →
      f = if x ≠ 0 ∧ y ≠ 0 then 1 else 0 := by
    intro x y p v f h1 h2 h3 h4
    rcases mul_eq_zero.1 h2 with hf | hf
    · subst hf
      have hpv : v = p := by linear_combination -h4
      rw [hpv] at h3
      have hp : p = 0 := by simpa using h3.symm
      rw [hp] at h1
      rcases mul_eq_zero.1 h1.symm with h0 | h0 <;> simp [h0]
    · have hf1 : f = 1 := by linear_combination hf
      rw [hf1] at h3
      have hp : p ≠ 0 := by rintro rfl; simp at h3
      rw [h1] at hp
      rw [hf1, if_pos ⟨left_ne_zero_of_mul hp, right_ne_zero_of_mul hp⟩]
  obtain ⟨h1, h2⟩ := hw
  interval_cases w <;>
  · simp [LogicAndFlag.circuit, LogicAndFlag.result, LogicAndFlag.gv, LogicAndFlag.fv, LogicAndFlag.rows,
      LogicAndFlag.offset] at h ⊢
    obtain ⟨⟨e1, e2, e3, e4⟩, e5, e6⟩ := h
    rw [← e5, ← e6]
    have := key _ _ _ _ _ (sub_eq_zero.1 e1) (by simpa [sub_eq_zero] using e2) (sub_eq_zero.1 e3)
      (by simpa [sub_eq_zero] using e4)
    simpa [add_assoc, add_sub_assoc] using this

theorem logicAndFlag_complete (c : Cols) (w : ℕ) (hw : 2 ≤ w ∧ w < 6) (hc : c.OK w) (inp : In2) (srow : ℤ)
    (t : Table F) (hx : inp.x.Outside srow (LogicAndFlag.rows w))
    (hy : inp.y.Outside srow (LogicAndFlag.rows w)) :
    let t' := LogicAndFlag.assign c w inp srow (writeConsts (LogicAndFlag.circuit c w inp srow) t)
    Sat t' (LogicAndFlag.circuit c w inp srow) ∧ Frame c srow (LogicAndFlag.rows w) t t' ∧
    (LogicAndFlag.result c w srow).value t' =
      (if inp.x.value t ≠ 0 ∧ inp.y.value t ≠ 0 then 1 else 0) ∧
    (LogicAndFlag.emptyResult c srow).value (LogicAndFlag.emptyAssign c inp srow t) =
      (LogicAndFlag.result c w srow).value t' := by
  intro t'
  have hwc : writeConsts (LogicAndFlag.circuit c w inp srow) t = t := rfl
  have hown : Own c srow (LogicAndFlag.rows w) (LogicAndFlag.writes c w srow (inp.x.value t) (inp.y.value t)) := by
    intro x hx
    have hmem : ∀ i, c.w i ∈ c.W := Cols.w_mem (by rw [hc.len]; omega)
    have hr : 0 < LogicAndFlag.rows w := by unfold LogicAndFlag.rows; split_ifs <;> omega
    simp only [LogicAndFlag.writes, List.mem_append, List.mem_flatMap, List.mem_range, List.mem_singleton] at hx
    rcases hx with ⟨i, hi, j, hj, hx⟩ | rfl
    · split_ifs at hx
      · simp only [List.mem_singleton] at hx; subst hx
        exact ⟨rfl, hmem _, by simp, by simpa using hi⟩
      · simp at hx
    · exact ⟨rfl, hmem _, by simp only; omega, by simp⟩
  have hfr : Frame c srow (LogicAndFlag.rows w) t t' := by
    simp only [t', hwc]; exact hown.frame t
  have hxv := hfr.outside hx
  have hyv := hfr.outside hy
  have hvals : LogicAndFlag.vals (inp.x.value t) (inp.y.value t) 4 =
      (if inp.x.value t ≠ 0 ∧ inp.y.value t ≠ 0 then 1 else 0) := by
    simp only [LogicAndFlag.vals]
    by_cases h1 : inp.x.value t = 0
    · simp [h1]
    · by_cases h2 : inp.y.value t = 0
      · simp [h2]
      · rw [if_neg (mul_ne_zero h1 h2), inv_mul_cancel₀ (mul_ne_zero h1 h2), if_pos ⟨h1, h2⟩]
  have key : (LogicAndFlag.vals (inp.x.value t) (inp.y.value t) 4 = 0 ∨
      LogicAndFlag.vals (inp.x.value t) (inp.y.value t) 4 - 1 = 0) ∧
      LogicAndFlag.vals (inp.x.value t) (inp.y.value t) 4 - inp.x.value t * inp.y.value t *
        LogicAndFlag.vals (inp.x.value t) (inp.y.value t) 3 = 0 ∧
      (LogicAndFlag.vals (inp.x.value t) (inp.y.value t) 3 - inp.x.value t * inp.y.value t = 0 ∨
      LogicAndFlag.vals (inp.x.value t) (inp.y.value t) 4 - 1 = 0) := by
    refine ⟨?_, by simp only [LogicAndFlag.vals]; ring, ?_⟩
    · rw [hvals]; split_ifs <;> simp
    · by_cases h1 : inp.x.value t * inp.y.value t = 0
      · left; simp [LogicAndFlag.vals, h1]
      · right; simp only [LogicAndFlag.vals, if_neg h1]; rw [inv_mul_cancel₀ h1, sub_self]
  have hres : (LogicAndFlag.result c w srow).value t' =
      LogicAndFlag.vals (inp.x.value t) (inp.y.value t) 4 := by
    simp only [t', hwc, LogicAndFlag.assign, LogicAndFlag.writes, LogicAndFlag.result, writeAll_append,
      writeAll_cons, writeAll_nil, Cols.value_wa, Table.set_same]
  refine ⟨?_, hfr, hres.trans hvals, ?_⟩
  · have h0 : Sat t' (LogicAndFlag.circuit c w inp srow) ↔ Sat t' (LogicAndFlag.circuit c w inp srow) := Iff.rfl
    simp only [LogicAndFlag.circuit, sat_cons, holds_copy, hxv, hyv, sat_nil, and_true, Cols.value_wa]
    clear hxv hyv hres h0 hfr hown
    simp only [t', hwc, LogicAndFlag.assign]
    generalize inp.x.value t = x at *
    generalize inp.y.value t = y at *
    obtain ⟨k1, k2, k3⟩ := key
    obtain ⟨h1, h2⟩ := hw
    have e0 : LogicAndFlag.vals x y 0 = x := rfl
    have e1 : LogicAndFlag.vals x y 1 = y := rfl
    have e2 : LogicAndFlag.vals x y 2 = x * y := rfl
    interval_cases w <;>
    · simp [LogicAndFlag.gv, LogicAndFlag.fv, LogicAndFlag.rows, LogicAndFlag.offset, LogicAndFlag.writes,
        List.range_succ, Table.set_apply, hc.inj, e0, e1, e2, k1, k2, k3, add_assoc, add_sub_assoc]
  · rw [hres]
    simp [LogicAndFlag.emptyResult, LogicAndFlag.emptyAssign, Table.set_apply, LogicAndFlag.calculate]

theorem orKey (x y vx vy fx fy f : F) (h1 : fx - x * vx = 0) (h2 : fy - y * vy = 0) (h3 : fx = 0 ∨ fx - 1 = 0)
    (h4 : fy = 0 ∨ fy - 1 = 0) (h5 : vx - x = 0 ∨ fx - 1 = 0) (h6 : vy - y = 0 ∨ fy - 1 = 0)
    (h7 : f - fx - fy + fx * fy = 0) : f = if x ≠ 0 ∨ y ≠ 0 then 1 else 0 := by
  have flag : ∀ x v g : F, g - x * v = 0 → (g = 0 ∨ g - 1 = 0) → (v - x = 0 ∨ g - 1 = 0) →
      g = if x ≠ 0 then 1 else 0 := by
    intro x v g a1 a2 a3
    by_cases hg : g - 1 = 0
    · have hg1 : g = 1 := by linear_combination hg
      have : x ≠ 0 := by rintro rfl; rw [hg1] at a1; simp at a1
      simp [hg1, this]
    · have hg0 := a2.resolve_right hg
      have hv := a3.resolve_right hg
      have hvx : v = x := by linear_combination hv
      rw [hg0, hvx] at a1
      have : x = 0 := by simpa using a1
      simp [hg0, this]
  have ex := flag x vx fx h1 h3 h5
  have ey := flag y vy fy h2 h4 h6
  have hf : f = fx + fy - fx * fy := by linear_combination h7
  rw [hf, ex, ey]
  by_cases hx : x = 0 <;> by_cases hy : y = 0 <;> simp [hx, hy]

theorem logicOrFlag_sound (c : Cols) (w : ℕ) (hw : 2 ≤ w ∧ w < 7) (inp : In2) (srow : ℤ) (t : Table F)
    (h : Sat t (LogicOrFlag.circuit c w inp srow)) :
    (LogicOrFlag.result c w srow).value t =
      if inp.x.value t ≠ 0 ∨ inp.y.value t ≠ 0 then 1 else 0 := by
  obtain ⟨h1, h2⟩ := hw
  interval_cases w <;>
  · simp [LogicOrFlag.circuit, LogicOrFlag.result, LogicOrFlag.gv, LogicOrFlag.fv, LogicOrFlag.rows,
      LogicOrFlag.offset, LogicOrFlag.flagConstraints, add_assoc, add_sub_assoc] at h ⊢
    simp only [← and_assoc] at h
    obtain ⟨⟨⟨⟨⟨⟨⟨⟨e1, e2⟩, e3⟩, e4⟩, e5⟩, e6⟩, e7⟩, e8⟩, e9⟩ := h
    rw [← e8, ← e9]
    have := orKey _ _ _ _ _ _ _ e1 e2 e3 e4 e5 e6 e7
    simpa using this

theorem logicOrFlag_complete (c : Cols) (w : ℕ) (hw : 2 ≤ w ∧ w < 7) (hc : c.OK w) (inp : In2) (srow : ℤ)
    (t : Table F) (hx : inp.x.Outside srow (LogicOrFlag.rows w))
    (hy : inp.y.Outside srow (LogicOrFlag.rows w)) :
    let t' := LogicOrFlag.assign c w inp srow (writeConsts (LogicOrFlag.circuit c w inp srow) t)
    Sat t' (LogicOrFlag.circuit c w inp srow) ∧ Frame c srow (LogicOrFlag.rows w) t t' ∧
    (LogicOrFlag.result c w srow).value t' =
      (if inp.x.value t ≠ 0 ∨ inp.y.value t ≠ 0 then 1 else 0) ∧
    (LogicOrFlag.emptyResult c srow).value (LogicOrFlag.emptyAssign c inp srow t) =
      (LogicOrFlag.result c w srow).value t' := by
  intro t'
  have hwc : writeConsts (LogicOrFlag.circuit c w inp srow) t = t := by
    unfold LogicOrFlag.circuit; split_ifs <;> rfl
  have hown : Own c srow (LogicOrFlag.rows w) (LogicOrFlag.writes c w srow (inp.x.value t) (inp.y.value t)) := by
    intro x hx
    have hmem : ∀ i, c.w i ∈ c.W := Cols.w_mem (by rw [hc.len]; omega)
    have hr : 0 < LogicOrFlag.rows w := by unfold LogicOrFlag.rows; split_ifs <;> omega
    simp only [LogicOrFlag.writes, List.mem_append, List.mem_flatMap, List.mem_map, List.mem_range,
      List.mem_singleton] at hx
    rcases hx with ⟨i, hi, j, hj, rfl⟩ | rfl
    · exact ⟨rfl, hmem _, by simp, by simpa using hi⟩
    · exact ⟨rfl, hmem _, by simp only; omega, by simp⟩
  have hfr : Frame c srow (LogicOrFlag.rows w) t t' := by
    simp only [t', hwc]; exact hown.frame t
  have hxv := hfr.outside hx
  have hyv := hfr.outside hy
  have fl : ∀ x : F, (x * LogicOrFlag.invOrZero x = 0 ∨ x * LogicOrFlag.invOrZero x - 1 = 0) ∧
      (LogicOrFlag.invOrZero x - x = 0 ∨ x * LogicOrFlag.invOrZero x - 1 = 0) := by
    intro x
    by_cases hx : x = 0
    · simp [LogicOrFlag.invOrZero, hx]
    · simp [LogicOrFlag.invOrZero, hx]
  have key : ∀ x y : F, LogicOrFlag.vals x y 6 = if x ≠ 0 ∨ y ≠ 0 then 1 else 0 := by
    intro x y
    exact orKey x y _ _ (x * LogicOrFlag.invOrZero x) (y * LogicOrFlag.invOrZero y) _ (sub_self _) (sub_self _)
      (fl x).1 (fl y).1 (fl x).2 (fl y).2 (by simp only [LogicOrFlag.vals]; ring)
  have hres : (LogicOrFlag.result c w srow).value t' =
      LogicOrFlag.vals (inp.x.value t) (inp.y.value t) 6 := by
    simp only [t', hwc, LogicOrFlag.assign, LogicOrFlag.writes, LogicOrFlag.result, writeAll_append,
      writeAll_cons, writeAll_nil, Cols.value_wa, Table.set_same]
  refine ⟨?_, hfr, hres.trans (key _ _), ?_⟩
  · simp only [LogicOrFlag.circuit, sat_append, sat_cons, holds_copy, hxv, hyv, sat_nil, and_true, Cols.value_wa]
    clear hxv hyv hres hfr hown
    simp only [t', hwc, LogicOrFlag.assign]
    generalize inp.x.value t = x at *
    generalize inp.y.value t = y at *
    have fx := fl x
    have fy := fl y
    obtain ⟨h1, h2⟩ := hw
    have e0 : LogicOrFlag.vals x y 0 = x := rfl
    have e1 : LogicOrFlag.vals x y 1 = y := rfl
    have e2 : LogicOrFlag.vals x y 2 = LogicOrFlag.invOrZero x := rfl
    have e3 : LogicOrFlag.vals x y 3 = LogicOrFlag.invOrZero y := rfl
    have e4 : LogicOrFlag.vals x y 4 = x * LogicOrFlag.invOrZero x := rfl
    have e5 : LogicOrFlag.vals x y 5 = y * LogicOrFlag.invOrZero y := rfl
    have e6 : LogicOrFlag.vals x y 6 = x * LogicOrFlag.invOrZero x + y * LogicOrFlag.invOrZero y -
      x * LogicOrFlag.invOrZero x * (y * LogicOrFlag.invOrZero y) := rfl
    have fx1 := mul_eq_zero.2 fx.1
    have fx2 := mul_eq_zero.2 fx.2
    have fy1 := mul_eq_zero.2 fy.1
    have fy2 := mul_eq_zero.2 fy.2
    interval_cases w <;>
    · simp [LogicOrFlag.gv, LogicOrFlag.fv, LogicOrFlag.rows, LogicOrFlag.offset, LogicOrFlag.writes,
        List.range_succ, Table.set_apply, hc.inj, e0, e1, e2, e3, e4, e5, e6, add_assoc, add_sub_assoc,
        LogicOrFlag.flagConstraints, -mul_eq_zero, fx1, fx2, fy1, fy2]
  · rw [hres]
    simp [LogicOrFlag.emptyResult, LogicOrFlag.emptyAssign, Table.set_apply, LogicOrFlag.calculate]

/-- Three columns, inputs 0 and 5 in row 0, component in rows 2..: AND gives 0, OR gives 1. -/
example : ∃ t : Table (ZMod 7), let c : Cols := ⟨[0, 1, 2], [], []⟩
    let i : In2 := ⟨⟨0, 0, false, .witness⟩, ⟨1, 0, false, .witness⟩⟩
    Sat t (LogicAndFlag.circuit c 3 i 2) ∧ (LogicAndFlag.result c 3 2).value t = 0 := by
  have h := logicAndFlag_complete (F := ZMod 7) ⟨[0, 1, 2], [], []⟩ 3 (by decide) ⟨by decide, rfl⟩
    ⟨⟨0, 0, false, .witness⟩, ⟨1, 0, false, .witness⟩⟩ 2
    (fun _ i r => if r = 0 then (if i = 0 then 0 else 5) else 0)
    (by intro _; left; decide) (by intro _; left; decide)
  exact ⟨_, h.1, by rw [h.2.2.1]; simp [Var.value]⟩
example : ∃ t : Table (ZMod 7), let c : Cols := ⟨[0, 1], [], []⟩
    let i : In2 := ⟨⟨0, 0, false, .witness⟩, ⟨1, 0, false, .witness⟩⟩
    Sat t (LogicOrFlag.circuit c 2 i 2) ∧ (LogicOrFlag.result c 2 2).value t = 1 := by
  have h := logicOrFlag_complete (F := ZMod 7) ⟨[0, 1], [], []⟩ 2 (by decide) ⟨by decide, rfl⟩
    ⟨⟨0, 0, false, .witness⟩, ⟨1, 0, false, .witness⟩⟩ 2
    (fun _ i r => if r = 0 then (if i = 0 then 0 else 5) else 0)
    (by intro _; left; decide) (by intro _; left; decide)
  exact ⟨_, h.1, by rw [h.2.2.1]; simp [Var.value]; decide⟩

/-! ## C15 -/

theorem equalityFlag_sound (c : Cols) (ineq : Bool) (inp : In2) (srow : ℤ) (t : Table F)
    (h : Sat t (EqualityFlag.circuit c ineq inp srow)) :
    (EqualityFlag.result c srow).value t =
      if (inp.x.value t = inp.y.value t) = (ineq = false) then 1 else 0 := by
  cases ineq
  · simp [EqualityFlag.circuit, EqualityFlag.result] at h ⊢
    obtain ⟨⟨e1, e2, e3⟩, e4, e5⟩ := h
    rw [e4, e5]
    by_cases hxy : t .witness (c.w 0) srow = t .witness (c.w 1) srow
    · simp [hxy] at e2 ⊢
      exact sub_eq_zero.1 e2
    · have hd : t .witness (c.w 0) srow - t .witness (c.w 1) srow ≠ 0 := sub_ne_zero.2 hxy
      rw [if_neg hxy]
      by_contra hr
      have h3 := sub_eq_zero.1 (e3.resolve_right hr)
      have h1 := e1.resolve_left hr
      rw [h3] at e2
      refine hd (mul_self_eq_zero.1 (?_ : (t .witness (c.w 0) srow - t .witness (c.w 1) srow) *
        (t .witness (c.w 0) srow - t .witness (c.w 1) srow) = 0))
      linear_combination e2 - h1
  · simp [EqualityFlag.circuit, EqualityFlag.result] at h ⊢
    obtain ⟨⟨e1, e2, e3⟩, e4, e5⟩ := h
    rw [e4, e5]
    by_cases hxy : t .witness (c.w 0) srow = t .witness (c.w 1) srow
    · simp [hxy] at e2 ⊢
      exact e2
    · have hd : t .witness (c.w 0) srow - t .witness (c.w 1) srow ≠ 0 := sub_ne_zero.2 hxy
      rw [if_neg hxy]
      by_contra hr
      have hr2 : t .witness (c.w 3) srow - 1 ≠ 0 := fun h => hr (sub_eq_zero.1 h)
      have h3 := sub_eq_zero.1 (e3.resolve_right hr2)
      have h1 := e1.resolve_right hr2
      rw [h3] at e2
      refine hd (mul_self_eq_zero.1 (?_ : (t .witness (c.w 0) srow - t .witness (c.w 1) srow) *
        (t .witness (c.w 0) srow - t .witness (c.w 1) srow) = 0))
      linear_combination e2 + h1

theorem equalityFlag_complete (c : Cols) (hc : c.OK 4) (ineq : Bool) (inp : In2) (srow : ℤ) (t : Table F)
    (hx : inp.x.Outside srow 1) (hy : inp.y.Outside srow 1) :
    let t' := EqualityFlag.assign c ineq inp srow (writeConsts (EqualityFlag.circuit c ineq inp srow) t)
    Sat t' (EqualityFlag.circuit c ineq inp srow) ∧ Frame c srow 1 t t' ∧
    (EqualityFlag.result c srow).value t' =
      if (inp.x.value t = inp.y.value t) = (ineq = false) then 1 else 0 := by
  have hr := row1 srow
  refine ⟨?_, ?_, ?_⟩
  · by_cases hxy : inp.x.value t = inp.y.value t
    · cases ineq <;>
      simp [EqualityFlag.circuit, EqualityFlag.assign, hx.value_set hr, hy.value_set hr, Table.set_apply,
        hc.inj, hxy]
    · have hd : inp.x.value t - inp.y.value t ≠ 0 := sub_ne_zero.2 hxy
      cases ineq <;>
      simp [EqualityFlag.circuit, EqualityFlag.assign, hx.value_set hr, hy.value_set hr, Table.set_apply,
        hc.inj, hxy, hd]
  · exact ((((Frame.refl c srow 1 t).setOK hc (by omega) hr _ _).setOK hc (by omega) hr _ _).setOK hc
      (by omega) hr _ _).setOK hc (by omega) hr _ _
  · by_cases hxy : inp.x.value t = inp.y.value t <;> cases ineq <;>
    simp [EqualityFlag.result, EqualityFlag.assign, Table.set_apply, EqualityFlag.circuit, hxy]

/-- 3 = 3 gives 1, and for the inequality variant 3, 4 give 1. -/
example : ∃ t : Table (ZMod 7), let c : Cols := ⟨[0, 1, 2, 3], [], []⟩
    let i : In2 := ⟨⟨0, 0, false, .witness⟩, ⟨1, 0, false, .witness⟩⟩
    Sat t (EqualityFlag.circuit c true i 2) ∧ (EqualityFlag.result c 2).value t = 1 := by
  have h := equalityFlag_complete (F := ZMod 7) ⟨[0, 1, 2, 3], [], []⟩ ⟨by decide, rfl⟩ true
    ⟨⟨0, 0, false, .witness⟩, ⟨1, 0, false, .witness⟩⟩ 2
    (fun _ i r => if r = 0 then (if i = 0 then 3 else 4) else 0)
    (by intro _; left; decide) (by intro _; left; decide)
  exact ⟨_, h.1, by rw [h.2.2]; simp [Var.value]; decide⟩

/-! ## C16 -/

/-- A boolean as a field element. -/
def bit (b : Bool) : F := if b then 1 else 0

/-- What it means for a boolean operation component to compute a truth table `f` of `n` arguments: on every
accepted table whose inputs are booleans the output is `f` of them; and for boolean inputs the generated
table is accepted, only touches the component's row and leaves the inputs alone. -/
structure Computes (op : BoolOp F) (n : ℕ) (f : (ℕ → Bool) → Bool) : Prop where
  sound : ∀ (c : Cols) (inp : ℕ → Var) (srow : ℤ) (t : Table F) (b : ℕ → Bool),
    (∀ i < n, (inp i).value t = bit (b i)) → Sat t (op.circuit c inp srow) →
    (op.result c srow).value t = bit (f b)
  complete : ∀ (c : Cols) (inp : ℕ → Var) (srow : ℤ) (t : Table F), c.OK (n + 1) →
    (∀ i < n, (inp i).Outside srow 1) →
    (∀ i < n, ∃ b, (inp i).value t = bit b) →
    let t' := op.assign c inp srow (writeConsts (op.circuit c inp srow) t)
    Sat t' (op.circuit c inp srow) ∧ Frame c srow 1 t t'

theorem frame_load (c : Cols) (hc : 0 < c.W.length) (inp : ℕ → Var) (srow : ℤ) (t : Table F) (n : ℕ) :
    Frame c srow 1 t (BoolOp.load c inp srow t n).1 := by
  induction n with
  | zero => exact Frame.refl c srow 1 t
  | succ n ih => exact ih.set hc (row1 srow) _ _

theorem writeConsts_boolOp (op : BoolOp F) (c : Cols) (inp : ℕ → Var) (srow : ℤ) (t : Table F) :
    writeConsts (op.circuit c inp srow) t = t := by
  simp only [BoolOp.circuit, writeConsts_gate]
  generalize List.range op.args = l
  induction l with
  | nil => rfl
  | cons a l ih => simpa using ih

theorem logicNot_computes : Computes (BoolOp.lnot (F := F)) 1 (fun b => !b 0) := by
  constructor
  · intro c inp srow t b hb h
    simp [BoolOp.circuit, BoolOp.lnot, BoolOp.result, List.range_succ] at h ⊢
    rw [← sub_eq_zero.1 h.1, ← h.2, hb 0 (by omega)]
    cases b 0 <;> simp [bit]
  · intro c inp srow t hc ho hb t'
    have hr := row1 srow
    have h0 := ho 0 (by omega)
    refine ⟨?_, ?_⟩
    · simp only [t', writeConsts_boolOp]
      simp [BoolOp.circuit, BoolOp.assign, BoolOp.lnot, BoolOp.load, Table.set_apply, hc.inj,
        h0.value_set hr, List.range_succ, Function.update]
    · simp only [t', writeConsts_boolOp]
      exact (frame_load c (by rw [hc.len]; omega) inp srow t _).setOK hc (by omega) hr _ _

theorem logicAnd_computes : Computes (BoolOp.land (F := F)) 2 (fun b => b 0 && b 1) := by
  constructor
  · intro c inp srow t b hb h
    simp [BoolOp.circuit, BoolOp.land, BoolOp.result, List.range_succ] at h ⊢
    rw [sub_eq_zero.1 h.1, ← h.2.1, ← h.2.2, hb 0 (by omega), hb 1 (by omega)]
    cases b 0 <;> cases b 1 <;> simp [bit]
  · intro c inp srow t hc ho hb t'
    have hr := row1 srow
    have h0 := ho 0 (by omega)
    have h1 := ho 1 (by omega)
    refine ⟨?_, ?_⟩
    · simp only [t', writeConsts_boolOp]
      simp [BoolOp.circuit, BoolOp.assign, BoolOp.land, BoolOp.load, Table.set_apply, hc.inj,
        h0.value_set hr, h1.value_set hr, List.range_succ, Function.update]
    · simp only [t', writeConsts_boolOp]
      exact (frame_load c (by rw [hc.len]; omega) inp srow t _).setOK hc (by omega) hr _ _

theorem logicOr_computes : Computes (BoolOp.lor (F := F)) 2 (fun b => b 0 || b 1) := by
  constructor
  · intro c inp srow t b hb h
    simp [BoolOp.circuit, BoolOp.lor, BoolOp.result, List.range_succ] at h ⊢
    rw [sub_eq_zero.1 h.1, ← h.2.1, ← h.2.2, hb 0 (by omega), hb 1 (by omega)]
    cases b 0 <;> cases b 1 <;> simp [bit]
  · intro c inp srow t hc ho hb t'
    have hr := row1 srow
    have h0 := ho 0 (by omega)
    have h1 := ho 1 (by omega)
    refine ⟨?_, ?_⟩
    · simp only [t', writeConsts_boolOp]
      simp [BoolOp.circuit, BoolOp.assign, BoolOp.lor, BoolOp.load, Table.set_apply, hc.inj,
        h0.value_set hr, h1.value_set hr, List.range_succ, Function.update]
    · simp only [t', writeConsts_boolOp]
      exact (frame_load c (by rw [hc.len]; omega) inp srow t _).setOK hc (by omega) hr _ _

theorem logicXor_computes : Computes (BoolOp.lxor (F := F)) 2 (fun b => b 0 != b 1) := by
  constructor
  · intro c inp srow t b hb h
    simp [BoolOp.circuit, BoolOp.lxor, BoolOp.result, List.range_succ] at h ⊢
    rw [sub_eq_zero.1 h.1, ← h.2.1, ← h.2.2, hb 0 (by omega), hb 1 (by omega)]
    cases b 0 <;> cases b 1 <;> simp [bit]; try norm_num
  · intro c inp srow t hc ho hb t'
    have hr := row1 srow
    have h0 := ho 0 (by omega)
    have h1 := ho 1 (by omega)
    refine ⟨?_, ?_⟩
    · simp only [t', writeConsts_boolOp]
      simp [BoolOp.circuit, BoolOp.assign, BoolOp.lxor, BoolOp.load, Table.set_apply, hc.inj,
        h0.value_set hr, h1.value_set hr, List.range_succ, Function.update]
    · simp only [t', writeConsts_boolOp]
      exact (frame_load c (by rw [hc.len]; omega) inp srow t _).setOK hc (by omega) hr _ _

theorem logicNand_computes : Computes (BoolOp.lnand (F := F)) 2 (fun b => !(b 0 && b 1)) := by
  constructor
  · intro c inp srow t b hb h
    simp [BoolOp.circuit, BoolOp.lnand, BoolOp.result, List.range_succ] at h ⊢
    rw [sub_eq_zero.1 h.1, ← h.2.1, ← h.2.2, hb 0 (by omega), hb 1 (by omega)]
    cases b 0 <;> cases b 1 <;> simp [bit]
  · intro c inp srow t hc ho hb t'
    have hr := row1 srow
    have h0 := ho 0 (by omega)
    have h1 := ho 1 (by omega)
    refine ⟨?_, ?_⟩
    · simp only [t', writeConsts_boolOp]
      simp [BoolOp.circuit, BoolOp.assign, BoolOp.lnand, BoolOp.load, Table.set_apply, hc.inj,
        h0.value_set hr, h1.value_set hr, List.range_succ, Function.update]
    · simp only [t', writeConsts_boolOp]
      exact (frame_load c (by rw [hc.len]; omega) inp srow t _).setOK hc (by omega) hr _ _

theorem logicNor_computes : Computes (BoolOp.lnor (F := F)) 2 (fun b => !(b 0 || b 1)) := by
  constructor
  · intro c inp srow t b hb h
    simp [BoolOp.circuit, BoolOp.lnor, BoolOp.result, List.range_succ] at h ⊢
    rw [sub_eq_zero.1 h.1, ← h.2.1, ← h.2.2, hb 0 (by omega), hb 1 (by omega)]
    cases b 0 <;> cases b 1 <;> simp [bit]
  · intro c inp srow t hc ho hb t'
    have hr := row1 srow
    have h0 := ho 0 (by omega)
    have h1 := ho 1 (by omega)
    refine ⟨?_, ?_⟩
    · simp only [t', writeConsts_boolOp]
      simp [BoolOp.circuit, BoolOp.assign, BoolOp.lnor, BoolOp.load, Table.set_apply, hc.inj,
        h0.value_set hr, h1.value_set hr, List.range_succ, Function.update]
    · simp only [t', writeConsts_boolOp]
      exact (frame_load c (by rw [hc.len]; omega) inp srow t _).setOK hc (by omega) hr _ _

/-- Select: the output is the second input when the first is 1, the third when it is 0 (the other two
inputs are arbitrary field elements). -/
theorem select_sound (c : Cols) (inp : ℕ → Var) (srow : ℤ) (t : Table F) (b : Bool)
    (hb : (inp 0).value t = bit b) (h : Sat t (BoolOp.select.circuit c inp srow)) :
    (BoolOp.select.result (F := F) c srow).value t =
      if b then (inp 1).value t else (inp 2).value t := by
  simp [BoolOp.circuit, BoolOp.select, BoolOp.result, List.range_succ] at h ⊢
  obtain ⟨h0, h1, h2, h3⟩ := h
  rw [sub_eq_zero.1 h0, ← h1, ← h2, ← h3, hb]
  cases b <;> simp [bit]

theorem select_complete (c : Cols) (inp : ℕ → Var) (srow : ℤ) (t : Table F) (hc : c.OK 4)
    (ho : ∀ i < 3, (inp i).Outside srow 1) (b : Bool) (hb : (inp 0).value t = bit b) :
    let t' := BoolOp.select.assign c inp srow (writeConsts (BoolOp.select.circuit c inp srow) t)
    Sat t' (BoolOp.select.circuit c inp srow) ∧ Frame c srow 1 t t' := by
  intro t'
  have hr := row1 srow
  have h0 := ho 0 (by omega)
  have h1 := ho 1 (by omega)
  have h2 := ho 2 (by omega)
  refine ⟨?_, ?_⟩
  · simp only [t', writeConsts_boolOp]
    simp [BoolOp.circuit, BoolOp.assign, BoolOp.select, BoolOp.load, Table.set_apply, hc.inj,
      h0.value_set hr, h1.value_set hr, h2.value_set hr, List.range_succ, Function.update, hb]
    cases b <;> simp [bit]
  · simp only [t', writeConsts_boolOp]
    exact (frame_load c (by rw [hc.len]; omega) inp srow t _).setOK hc (by omega) hr _ _

/-- Inputs 1 and 1 to XOR: accepted, output 0. -/
example : ∃ t : Table (ZMod 7), let c : Cols := ⟨[0, 1, 2], [], []⟩
    let i : ℕ → Var := fun k => ⟨k, 0, false, .witness⟩
    Sat t (BoolOp.lxor.circuit c i 2) ∧ (BoolOp.lxor.result (F := ZMod 7) c 2).value t = 0 := by
  have hb : ∀ i < 2, ((⟨i, 0, false, .witness⟩ : Var)).value (fun _ _ _ => 1 : Table (ZMod 7)) = bit true := by
    intro i _; rfl
  have hc : (⟨[0, 1, 2], [], []⟩ : Cols).OK 3 := ⟨by decide, rfl⟩
  have ho : ∀ i < 2, (⟨i, 0, false, .witness⟩ : Var).Outside 2 1 := by intro i _ _; left; show (0 : ℤ) < 2; decide
  have h := (logicXor_computes (F := ZMod 7)).complete ⟨[0, 1, 2], [], []⟩ (fun k => ⟨k, 0, false, .witness⟩) 2
    (fun _ _ _ => 1) hc ho (fun i hi => ⟨true, hb i hi⟩)
  refine ⟨_, h.1, ?_⟩
  refine ((logicXor_computes (F := ZMod 7)).sound _ _ _ _ (fun _ => true) ?_ h.1).trans (by simp [bit])
  intro i hi
  rw [h.2.outside (ho i hi)]; exact hb i hi

/-! ## C14 -/

open Polynomial in
/-- C14, linear: on any accepted table the nodes are distinct and the outputs are the coefficients of the
interpolating polynomial of degree below two through the two points. -/
theorem linearInter_sound (c : Cols) (i : InLin) (srow : ℤ) (t : Table F)
    (h : Sat t (LinearInter.circuit c i srow)) :
    i.x0.value t ≠ i.x1.value t ∧
    let a0 := (LinearInter.result c srow).1.value t
    let a1 := (LinearInter.result c srow).2.value t
    ∀ P : F[X], P.degree < 2 → P.eval (i.x0.value t) = i.z0.value t → P.eval (i.x1.value t) = i.z1.value t →
      P = C a1 * X + C a0 := by
  simp [LinearInter.circuit, LinearInter.result] at h ⊢
  obtain ⟨⟨e1, e2, e3⟩, f1, f2, f3, f4⟩ := h
  rw [f1, f2] at e1; rw [f3, f4] at e2; rw [f1, f3] at e3
  have hne : i.x0.value t ≠ i.x1.value t := by
    intro he; rw [he] at e3; simp at e3
  refine ⟨hne, fun P hP h0 h1 => ?_⟩
  generalize t .witness (c.w 4) srow = a0 at *
  generalize t .witness (c.w 5) srow = a1 at *
  refine eq_of_degrees_lt_of_eval_index_eq (s := (Finset.univ : Finset (Fin 2)))
    (v := ![i.x0.value t, i.x1.value t]) ?_ ?_ ?_ ?_
  · intro a _ b _ hab
    fin_cases a <;> fin_cases b <;> simp_all
  · simpa using hP
  · exact lt_of_le_of_lt (degree_linear_le) (by simp)
  · intro k _
    fin_cases k
    · simp [h0]; linear_combination -e1
    · simp [h1]; linear_combination -e2

theorem linearInter_complete (c : Cols) (hc : c.OK 7) (i : InLin) (srow : ℤ) (t : Table F)
    (h0 : i.x0.Outside srow 1) (h1 : i.z0.Outside srow 1) (h2 : i.x1.Outside srow 1)
    (h3 : i.z1.Outside srow 1) (hne : i.x0.value t ≠ i.x1.value t) :
    let t' := LinearInter.assign c i srow (writeConsts (LinearInter.circuit c i srow) t)
    Sat t' (LinearInter.circuit c i srow) ∧ Frame c srow 1 t t' := by
  have hr := row1 srow
  have hd : i.x1.value t - i.x0.value t ≠ 0 := sub_ne_zero.2 hne.symm
  refine ⟨?_, ?_⟩
  · simp [LinearInter.circuit, LinearInter.assign, h0.value_set hr, h1.value_set hr, h2.value_set hr,
      h3.value_set hr, Table.set_apply, hc.inj, hne, hd, -mul_eq_zero, writeAll_append]
    constructor <;> field_simp <;> ring
  · have : LinearInter.assign c i srow (writeConsts (LinearInter.circuit c i srow) t) = writeAll _ t := rfl
    rw [this]
    apply Own.frame
    intro x hx
    have hmem : ∀ i, c.w i ∈ c.W := Cols.w_mem (by rw [hc.len]; omega)
    rw [if_pos (by exact hne)] at hx
    simp at hx
    rcases hx with rfl | rfl | rfl | rfl | rfl | rfl | rfl <;> exact ⟨rfl, hmem _, hr⟩

open Polynomial in
/-- C14, quadratic. -/
theorem quadraticInter_sound (c : Cols) (i : InQuad) (srow : ℤ) (t : Table F)
    (h : Sat t (QuadraticInter.circuit c i srow)) :
    (i.x0.value t ≠ i.x1.value t ∧ i.x0.value t ≠ i.x2.value t ∧ i.x1.value t ≠ i.x2.value t) ∧
    let a0 := (QuadraticInter.result c srow).1.value t
    let a1 := (QuadraticInter.result c srow).2.1.value t
    let a2 := (QuadraticInter.result c srow).2.2.value t
    ∀ P : F[X], P.degree < 3 → P.eval (i.x0.value t) = i.z0.value t → P.eval (i.x1.value t) = i.z1.value t →
      P.eval (i.x2.value t) = i.z2.value t → P = C a2 * X ^ 2 + C a1 * X + C a0 := by
  simp [QuadraticInter.circuit, QuadraticInter.result] at h ⊢
  obtain ⟨⟨e1, e2, e3, e4⟩, f1, f2, f3, f4, f5, f6⟩ := h
  rw [f1, f2] at e1; rw [f3, f4] at e2; rw [f5, f6] at e3; rw [f1, f3, f5] at e4
  have hne : i.x0.value t ≠ i.x1.value t := by
    intro he; rw [he] at e4; simp at e4
  have hne2 : i.x0.value t ≠ i.x2.value t := by
    intro he; rw [he] at e4; simp at e4
  have hne3 : i.x1.value t ≠ i.x2.value t := by
    intro he; rw [he] at e4; simp at e4
  refine ⟨⟨hne, hne2, hne3⟩, fun P hP h0 h1 h2 => ?_⟩
  generalize t .witness (c.w 6) srow = a0 at *
  generalize t .witness (c.w 7) srow = a1 at *
  generalize t .witness (c.w 8) srow = a2 at *
  refine eq_of_degrees_lt_of_eval_index_eq (s := (Finset.univ : Finset (Fin 3)))
    (v := ![i.x0.value t, i.x1.value t, i.x2.value t]) ?_ ?_ ?_ ?_
  · intro a _ b _ hab
    fin_cases a <;> fin_cases b <;> simp_all
  · simpa using hP
  · exact lt_of_le_of_lt (degree_quadratic_le) (by simp; decide)
  · intro k _
    fin_cases k
    · simp [h0]; linear_combination -e1
    · simp [h1]; linear_combination -e2
    · simp [h2]; linear_combination -e3

theorem quadraticInter_complete (c : Cols) (hc : c.OK 10) (i : InQuad) (srow : ℤ) (t : Table F)
    (h0 : i.x0.Outside srow 1) (h1 : i.z0.Outside srow 1) (h2 : i.x1.Outside srow 1)
    (h3 : i.z1.Outside srow 1) (h4 : i.x2.Outside srow 1) (h5 : i.z2.Outside srow 1)
    (hne : i.x0.value t ≠ i.x1.value t) (hne2 : i.x0.value t ≠ i.x2.value t)
    (hne3 : i.x1.value t ≠ i.x2.value t) :
    let t' := QuadraticInter.assign c i srow (writeConsts (QuadraticInter.circuit c i srow) t)
    Sat t' (QuadraticInter.circuit c i srow) ∧ Frame c srow 1 t t' := by
  have hr := row1 srow
  have hd1 : i.x1.value t - i.x0.value t ≠ 0 := sub_ne_zero.2 hne.symm
  have hd2 : i.x2.value t - i.x0.value t ≠ 0 := sub_ne_zero.2 hne2.symm
  have hd3 : i.x2.value t - i.x1.value t ≠ 0 := sub_ne_zero.2 hne3.symm
  have hd : (i.x1.value t - i.x0.value t) * (i.x2.value t - i.x0.value t) * (i.x2.value t - i.x1.value t) ≠ 0 :=
    mul_ne_zero (mul_ne_zero hd1 hd2) hd3
  refine ⟨?_, ?_⟩
  · simp [QuadraticInter.circuit, QuadraticInter.assign, h0.value_set hr, h1.value_set hr, h2.value_set hr,
      h3.value_set hr, h4.value_set hr, h5.value_set hr, Table.set_apply, hc.inj, hd, hd1, hd2, hd3,
      -mul_eq_zero, -mul_inv_rev, writeAll_append]
    simp only [QuadraticInter.det3]
    refine ⟨?_, ?_, ?_⟩ <;> field_simp <;> ring
  · have : QuadraticInter.assign c i srow (writeConsts (QuadraticInter.circuit c i srow) t) = writeAll _ t := rfl
    rw [this]
    apply Own.frame
    intro x hx
    have hmem : ∀ i, c.w i ∈ c.W := Cols.w_mem (by rw [hc.len]; omega)
    rw [if_pos (by exact hd)] at hx
    simp at hx
    rcases hx with rfl | rfl | rfl | rfl | rfl | rfl | rfl | rfl | rfl | rfl <;> exact ⟨rfl, hmem _, hr⟩

/-- The line through (1,3), (2,5) is accepted. -/
example : ∃ t : Table (ZMod 7), Sat t (LinearInter.circuit ⟨[0, 1, 2, 3, 4, 5, 6], [], []⟩
    ⟨⟨0, 0, false, .witness⟩, ⟨1, 0, false, .witness⟩, ⟨2, 0, false, .witness⟩, ⟨3, 0, false, .witness⟩⟩ 1) :=
  ⟨_, (linearInter_complete (F := ZMod 7) _ ⟨by decide, rfl⟩ _ 1
    (fun _ i _ => if i = 0 then 1 else if i = 1 then 3 else if i = 2 then 2 else 5)
    (by intro _; left; decide) (by intro _; left; decide) (by intro _; left; decide)
    (by intro _; left; decide) (by simp [Var.value]; decide)).1⟩

end
/-- C13: the five values of the conjunction take the fewest rows of `w` columns. -/
theorem logicAndFlag_rows (w : ℕ) (h : 2 ≤ w) :
    5 ≤ LogicAndFlag.rows w * w ∧ (LogicAndFlag.rows w - 1) * w < 5 := by
  unfold LogicAndFlag.rows
  split_ifs <;> omega

/-- C13: the seven values of the disjunction take the fewest rows of `w` columns. -/
theorem logicOrFlag_rows (w : ℕ) (h : 2 ≤ w) :
    7 ≤ LogicOrFlag.rows w * w ∧ (LogicOrFlag.rows w - 1) * w < 7 := by
  unfold LogicOrFlag.rows
  split_ifs with h1 h2
  · interval_cases w <;> omega
  · omega
  · omega

end Verif
