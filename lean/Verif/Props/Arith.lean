import Verif.Model.Arith
import Mathlib.Algebra.Field.ZMod
import Mathlib.Tactic.NormNum.Prime

/-!
# C07-C12: one-row arithmetic components

Soundness: any table meeting the component's obligations has the specified output.
Completeness: the generated table meets them. Frame: only the component's own row is written.
`emptyAssign` (the generator used when the component is skipped) leaves in the output cell exactly the
value full generation would.
-/

set_option linter.unusedSimpArgs false
set_option linter.unusedVariables false

namespace Verif

instance fact_prime_7 : Fact (Nat.Prime 7) := ⟨by norm_num⟩

section
variable {F : Type*} [Field F]

theorem row1 (srow : ℤ) : srow ≤ srow ∧ srow < srow + (1 : ℕ) := by omega

/-! ## C07 addition -/

theorem addition_sound (c : Cols) (inp : In2) (srow : ℤ) (t : Table F)
    (h : Sat t (Addition.circuit c inp srow)) :
    (Addition.result c srow).value t = inp.x.value t + inp.y.value t := by
  simp [Addition.circuit, Addition.result] at h ⊢
  obtain ⟨h1, h2, h3⟩ := h
  rw [h2, ← h3]; linear_combination -h1

theorem addition_complete (c : Cols) (hc : c.OK 3) (inp : In2) (srow : ℤ)
    (t : Table F) (hx : inp.x.Outside srow 1) (hy : inp.y.Outside srow 1) :
    let t' := Addition.assign c inp srow (writeConsts (Addition.circuit c inp srow) t)
    Sat t' (Addition.circuit c inp srow) ∧ Frame c srow 1 t t' ∧
    (Addition.result c srow).value t' = inp.x.value t + inp.y.value t ∧
    (Addition.result c srow).value (Addition.emptyAssign c inp srow t) =
      (Addition.result c srow).value t' := by
  have hr := row1 srow
  refine ⟨?_, ?_, ?_, ?_⟩
  · simp [Addition.circuit, Addition.assign, hx.value_set hr, hy.value_set hr, Table.set_apply, hc.inj]
  · exact (((Frame.refl c srow 1 t).setOK hc (by omega) hr _ _).setOK hc (by omega) hr _ _).setOK hc
      (by omega) hr _ _
  · simp [Addition.result, Addition.assign, hx.value_set hr, hy.value_set hr, Table.set_apply,
      Addition.circuit]
  · simp [Addition.result, Addition.assign, hx.value_set hr, hy.value_set hr, Table.set_apply,
      Addition.circuit, Addition.emptyAssign, Addition.calculate]

/-- The hypotheses are met: 3 + 6 = 2 in `ZMod 7`, inputs in row 0, component in row 1. -/
example : ∃ t : Table (ZMod 7),
    Sat t (Addition.circuit ⟨[0, 1, 2], [], []⟩ ⟨⟨0, 0, false, .witness⟩, ⟨1, 0, false, .witness⟩⟩ 1) ∧
    (Addition.result ⟨[0, 1, 2], [], []⟩ 1).value t = 2 := by
  have h := addition_complete (F := ZMod 7) ⟨[0, 1, 2], [], []⟩ ⟨by decide, rfl⟩
    ⟨⟨0, 0, false, .witness⟩, ⟨1, 0, false, .witness⟩⟩ 1
    (fun _ i r => if r = 0 then (if i = 0 then 3 else 6) else 0)
    (by intro _; left; decide) (by intro _; left; decide)
  refine ⟨_, h.1, ?_⟩
  rw [h.2.2.1]; decide

/-! ## C08 subtraction -/

theorem subtraction_sound (c : Cols) (inp : In2) (srow : ℤ) (t : Table F)
    (h : Sat t (Subtraction.circuit c inp srow)) :
    (Subtraction.result c srow).value t = inp.x.value t - inp.y.value t := by
  simp [Subtraction.circuit, Subtraction.result] at h ⊢
  obtain ⟨h1, h2, h3⟩ := h
  rw [h2, ← h3]; linear_combination -h1

theorem subtraction_complete (c : Cols) (hc : c.OK 3) (inp : In2) (srow : ℤ)
    (t : Table F) (hx : inp.x.Outside srow 1) (hy : inp.y.Outside srow 1) :
    let t' := Subtraction.assign c inp srow (writeConsts (Subtraction.circuit c inp srow) t)
    Sat t' (Subtraction.circuit c inp srow) ∧ Frame c srow 1 t t' ∧
    (Subtraction.result c srow).value t' = inp.x.value t - inp.y.value t ∧
    (Subtraction.result c srow).value (Subtraction.emptyAssign c inp srow t) =
      (Subtraction.result c srow).value t' := by
  have hr := row1 srow
  refine ⟨?_, ?_, ?_, ?_⟩
  · simp [Subtraction.circuit, Subtraction.assign, hx.value_set hr, hy.value_set hr, Table.set_apply,
      hc.inj]
  · exact (((Frame.refl c srow 1 t).setOK hc (by omega) hr _ _).setOK hc (by omega) hr _ _).setOK hc
      (by omega) hr _ _
  · simp [Subtraction.result, Subtraction.assign, hx.value_set hr, hy.value_set hr, Table.set_apply,
      Subtraction.circuit]
  · simp [Subtraction.result, Subtraction.assign, hx.value_set hr, hy.value_set hr, Table.set_apply,
      Subtraction.circuit, Subtraction.emptyAssign, Subtraction.calculate]

example : ∃ t : Table (ZMod 7),
    Sat t (Subtraction.circuit ⟨[2, 1, 0], [], []⟩
      ⟨⟨0, 5, false, .publicInput⟩, ⟨1, 0, false, .witness⟩⟩ 1) ∧
    (Subtraction.result ⟨[2, 1, 0], [], []⟩ 1).value t = 4 := by
  have h := subtraction_complete (F := ZMod 7) ⟨[2, 1, 0], [], []⟩ ⟨by decide, rfl⟩
    ⟨⟨0, 5, false, .publicInput⟩, ⟨1, 0, false, .witness⟩⟩ 1
    (fun _ i _ => if i = 0 then 3 else 6)
    (by intro h; simp at h) (by intro _; left; decide)
  refine ⟨_, h.1, ?_⟩
  rw [h.2.2.1]; decide

/-! ## C09 multiplication -/

theorem multiplication_sound (c : Cols) (inp : In2) (srow : ℤ) (t : Table F)
    (h : Sat t (Multiplication.circuit c inp srow)) :
    (Multiplication.result c srow).value t = inp.x.value t * inp.y.value t := by
  simp only [Multiplication.circuit, sat_cons, sat_append] at h
  obtain ⟨h1, h2, h3⟩ := h
  have hx : inp.x.value t = t .witness (c.w 0) srow := by
    by_cases hx : inp.x = c.wa 0 srow
    · rw [hx]; rfl
    · simpa [hx] using h2
  have hy : inp.y.value t = t .witness (c.w 1) srow := by
    by_cases hy : inp.y = c.wa 1 srow
    · rw [hy]; rfl
    · simpa [hy, eq_comm] using h3
  simp [Multiplication.result] at h1 ⊢
  rw [hx, hy]; linear_combination -h1

theorem multiplication_complete (c : Cols) (hc : c.OK 3) (inp : In2) (srow : ℤ)
    (t : Table F) (hx : inp.x.Outside srow 1) (hy : inp.y.Outside srow 1) :
    let t' := Multiplication.assign c inp srow (writeConsts (Multiplication.circuit c inp srow) t)
    Sat t' (Multiplication.circuit c inp srow) ∧ Frame c srow 1 t t' ∧
    (Multiplication.result c srow).value t' = inp.x.value t * inp.y.value t ∧
    (Multiplication.result c srow).value (Multiplication.emptyAssign c inp srow t) =
      (Multiplication.result c srow).value t' := by
  have hr := row1 srow
  have hw : writeConsts (Multiplication.circuit c inp srow) t = t := by
    unfold Multiplication.circuit; split <;> split <;> simp
  refine ⟨?_, ?_, ?_, ?_⟩
  · rw [hw]
    unfold Multiplication.circuit
    split <;> split <;> simp [Multiplication.assign, hx.value_set hr, hy.value_set hr,
      Table.set_apply, hc.inj]
  · rw [hw]
    exact (((Frame.refl c srow 1 t).setOK hc (by omega) hr _ _).setOK hc (by omega) hr _ _).setOK hc
      (by omega) hr _ _
  · rw [hw]
    simp [Multiplication.result, Multiplication.assign, hx.value_set hr, hy.value_set hr,
      Table.set_apply]
  · rw [hw]
    simp [Multiplication.result, Multiplication.assign, hx.value_set hr, hy.value_set hr,
      Table.set_apply, Multiplication.emptyAssign, Multiplication.calculate]

/-- The aliased use the code provides for (inputs already sit in the component's own cells,
multiplication.hpp:214-215): no copies are emitted and the generated table still satisfies the gate. -/
theorem multiplication_complete_aliased (c : Cols) (hc : c.OK 3) (srow : ℤ) (t : Table F) :
    let inp : In2 := ⟨c.wa 0 srow, c.wa 1 srow⟩
    let t' := Multiplication.assign c inp srow t
    Sat t' (Multiplication.circuit c inp srow) ∧
    (Multiplication.result c srow).value t' = t .witness (c.w 0) srow * t .witness (c.w 1) srow := by
  constructor <;>
  simp [Multiplication.circuit, Multiplication.result, Multiplication.assign, Table.set_apply, hc.inj]

example : ∃ t : Table (ZMod 7),
    Sat t (Multiplication.circuit ⟨[0, 1, 2], [], []⟩
      ⟨⟨0, 0, false, .witness⟩, ⟨1, 0, false, .witness⟩⟩ 1) ∧
    (Multiplication.result ⟨[0, 1, 2], [], []⟩ 1).value t = 4 := by
  have h := multiplication_complete (F := ZMod 7) ⟨[0, 1, 2], [], []⟩ ⟨by decide, rfl⟩
    ⟨⟨0, 0, false, .witness⟩, ⟨1, 0, false, .witness⟩⟩ 1
    (fun _ i r => if r = 0 then (if i = 0 then 3 else 6) else 0)
    (by intro _; left; decide) (by intro _; left; decide)
  refine ⟨_, h.1, ?_⟩
  rw [h.2.2.1]; decide

/-! ## C10 division -/

theorem division_sound (c : Cols) (inp : In2) (srow : ℤ) (t : Table F)
    (h : Sat t (Division.circuit c inp srow)) :
    inp.y.value t ≠ 0 ∧
    (Division.result c srow).value t * inp.y.value t = inp.x.value t ∧
    (Division.result c srow).value t = inp.x.value t / inp.y.value t := by
  simp [Division.circuit, Division.result] at h ⊢
  obtain ⟨⟨h1, h1'⟩, h2, h3⟩ := h
  have hy : inp.y.value t ≠ 0 := by
    intro h0; rw [h3, h0] at h1'; simp at h1'
  rw [h2, ← h3] at *
  refine ⟨hy, by linear_combination h1, ?_⟩
  field_simp; linear_combination h1

/-- No table at all satisfies the constraints with a zero divisor. -/
theorem division_by_zero_unsat (c : Cols) (inp : In2) (srow : ℤ) (t : Table F)
    (hy : inp.y.value t = 0) : ¬ Sat t (Division.circuit c inp srow) :=
  fun h => (division_sound c inp srow t h).1 hy

theorem division_complete (c : Cols) (hc : c.OK 4) (inp : In2) (srow : ℤ)
    (t : Table F) (hx : inp.x.Outside srow 1) (hy : inp.y.Outside srow 1) (h0 : inp.y.value t ≠ 0) :
    let t' := Division.assign c inp srow (writeConsts (Division.circuit c inp srow) t)
    Sat t' (Division.circuit c inp srow) ∧ Frame c srow 1 t t' ∧
    (Division.result c srow).value t' = inp.x.value t / inp.y.value t ∧
    (Division.result c srow).value (Division.emptyAssign c inp srow t) =
      (Division.result c srow).value t' := by
  have hr := row1 srow
  refine ⟨?_, ?_, ?_, ?_⟩
  · simp [Division.circuit, Division.assign, hx.value_set hr, hy.value_set hr, Table.set_apply, hc.inj,
      h0, mul_div_cancel₀, sub_eq_zero]
  · exact ((((Frame.refl c srow 1 t).setOK hc (by omega) hr _ _).setOK hc (by omega) hr _ _).setOK hc
      (by omega) hr _ _).setOK hc (by omega) hr _ _
  · simp [Division.result, Division.assign, hx.value_set hr, hy.value_set hr, Table.set_apply,
      Division.circuit, hc.inj]
  · simp [Division.result, Division.assign, hx.value_set hr, hy.value_set hr, Table.set_apply,
      Division.circuit, Division.emptyAssign, Division.calculate, hc.inj]

example : ∃ t : Table (ZMod 7),
    Sat t (Division.circuit ⟨[0, 1, 2, 3], [], []⟩
      ⟨⟨0, 0, false, .witness⟩, ⟨1, 0, false, .witness⟩⟩ 1) ∧
    (Division.result ⟨[0, 1, 2, 3], [], []⟩ 1).value t = 4 := by
  have h := division_complete (F := ZMod 7) ⟨[0, 1, 2, 3], [], []⟩ ⟨by decide, rfl⟩
    ⟨⟨0, 0, false, .witness⟩, ⟨1, 0, false, .witness⟩⟩ 1
    (fun _ i r => if r = 0 then (if i = 0 then 3 else 6) else 0)
    (by intro _; left; decide) (by intro _; left; decide) (by decide)
  refine ⟨_, h.1, ?_⟩
  rw [h.2.2.1, div_eq_iff (by decide)]; decide

/-! ## C11 division or zero -/

theorem divisionOrZero_sound (c : Cols) (inp : In2) (srow : ℤ) (t : Table F)
    (h : Sat t (DivisionOrZero.circuit c inp srow)) :
    (inp.y.value t ≠ 0 → (DivisionOrZero.result c srow).value t * inp.y.value t = inp.x.value t) ∧
    (inp.y.value t = 0 → (DivisionOrZero.result c srow).value t = 0) := by
  simp [DivisionOrZero.circuit, DivisionOrZero.result] at h ⊢
  obtain ⟨⟨h1, h2, h3, h4⟩, hx, hy⟩ := h
  rw [hx, ← hy]
  set y := t .witness (c.w 1) srow
  set v := t .witness (c.w 3) srow
  set f := t .witness (c.w 4) srow
  constructor
  · intro hy0
    have hf : f = 1 := by
      rcases h2 with h2 | h2
      · -- then `v = y` and `y * y = 0`
        rcases h3 with h3 | h3
        · have : y * y = 0 := by linear_combination h1 + h2 - y * h3
          exact absurd (mul_self_eq_zero.mp this) hy0
        · linear_combination h3
      · linear_combination h2
    linear_combination (-y) * h4 + t .witness (c.w 0) srow * (h1 + hf)
  · intro hy0
    have hf : f = 0 := by rw [hy0] at h1; linear_combination -h1
    have hv : v = 0 := by
      rcases h3 with h3 | h3
      · linear_combination h3 + hy0
      · rw [hf] at h3; simp at h3
    rw [hv] at h4; linear_combination -h4

theorem divisionOrZero_complete [DecidableEq F] (c : Cols) (hc : c.OK 5) (inp : In2) (srow : ℤ)
    (t : Table F) (hx : inp.x.Outside srow 1) (hy : inp.y.Outside srow 1) :
    let t' := DivisionOrZero.assign c inp srow (writeConsts (DivisionOrZero.circuit c inp srow) t)
    Sat t' (DivisionOrZero.circuit c inp srow) ∧ Frame c srow 1 t t' ∧
    (DivisionOrZero.result c srow).value (DivisionOrZero.emptyAssign c inp srow t) =
      (DivisionOrZero.result c srow).value t' := by
  have hr := row1 srow
  refine ⟨?_, ?_, ?_⟩
  · by_cases h0 : inp.y.value t = 0 <;>
    simp [DivisionOrZero.circuit, DivisionOrZero.assign, hx.value_set hr, hy.value_set hr,
      Table.set_apply, hc.inj, h0]
  · exact (((((Frame.refl c srow 1 t).setOK hc (by omega) hr _ _).setOK hc (by omega) hr _ _).setOK hc
      (by omega) hr _ _).setOK hc (by omega) hr _ _).setOK hc (by omega) hr _ _
  · by_cases h0 : inp.y.value t = 0 <;>
    simp [DivisionOrZero.result, DivisionOrZero.assign, hx.value_set hr, hy.value_set hr,
      Table.set_apply, DivisionOrZero.circuit, DivisionOrZero.emptyAssign, DivisionOrZero.calculate,
      hc.inj, h0]

/-- Both branches are inhabited: divisor 6 and divisor 0. -/
example : ∀ d : ZMod 7, ∃ t : Table (ZMod 7),
    Sat t (DivisionOrZero.circuit ⟨[0, 1, 2, 3, 4], [], []⟩
      ⟨⟨0, 0, false, .witness⟩, ⟨1, 0, false, .witness⟩⟩ 1) ∧ t .witness 1 0 = d := by
  intro d
  have h := divisionOrZero_complete (F := ZMod 7) ⟨[0, 1, 2, 3, 4], [], []⟩ ⟨by decide, rfl⟩
    ⟨⟨0, 0, false, .witness⟩, ⟨1, 0, false, .witness⟩⟩ 1
    (fun _ i r => if r = 0 then (if i = 0 then 3 else d) else 0)
    (by intro _; left; decide) (by intro _; left; decide)
  refine ⟨_, h.1, ?_⟩
  rw [h.2.1 .witness 1 0 (by omega)]; simp [DivisionOrZero.circuit]

/-! ## C12 multiplication by a constant -/

/-- The full C12 statement for one instance. -/
def MulByConstantSpec (c : Cols) (k : F) (x : Var) (srow : ℤ) : Prop :=
  ∀ t : Table F, Sat t (MulByConstant.circuit c k x srow) →
    (MulByConstant.result c srow).value t = k * x.value t

/-- Partial: the statement holds when the component's constant column is column 0 (the gate hard-codes
column 0, multiplication_by_constant.hpp:185, while the constant goes to `C(0)`, line 234). -/
theorem mulByConstant_sound_partial (c : Cols) (k : F) (x : Var) (srow : ℤ) (hk : c.k 0 = 0) :
    MulByConstantSpec c k x srow := by
  intro t h
  simp [MulByConstant.circuit, MulByConstant.result, Var.evalAt, hk] at h ⊢
  obtain ⟨h1, h2, h3⟩ := h
  rw [h2, ← h3]; linear_combination -h1

theorem mulByConstant_complete_partial (c : Cols) (hc : c.OK 2) (k : F) (x : Var) (srow : ℤ)
    (hk : c.k 0 = 0) (t : Table F) (hx : x.Outside srow 1) :
    let t0 := writeConsts (MulByConstant.circuit c k x srow) t
    Sat (MulByConstant.assign c k x srow t0) (MulByConstant.circuit c k x srow) ∧
      (MulByConstant.result c srow).value (MulByConstant.assign c k x srow t0) =
        MulByConstant.calculate (x.value t0) k := by
  have hr := row1 srow
  constructor
  · simp [MulByConstant.circuit, MulByConstant.assign, hx.value_set hr, Table.set_apply, hc.inj, hk,
      Var.evalAt, sub_eq_zero, mul_comm]
  · simp only [MulByConstant.assign, MulByConstant.result, MulByConstant.calculate, Cols.value_wa, Table.set_same,
      hx.value_set hr]
    ring

/-- Refutation of the full C12: with constant column 1 a table meets every obligation while the output
is 0 although constant times input is 1. -/
theorem mulByConstant_unsound : ∃ (c : Cols) (k : ZMod 7) (x : Var) (srow : ℤ),
    c.W.Nodup ∧ c.C.length = 1 ∧ ¬ MulByConstantSpec c k x srow := by
  refine ⟨⟨[0, 1], [1], []⟩, 1, ⟨0, 0, false, .publicInput⟩, 0, by decide, rfl, ?_⟩
  intro h
  have := h (fun ty i r => match ty, i, r with
    | .witness, 0, 0 => 1 | .constant, 1, 0 => 1 | .publicInput, 0, 0 => 1 | _, _, _ => 0) ?_
  · revert this; simp [MulByConstant.result, Cols.w, colAt, Var.value, Cols.wa]
  · simp [MulByConstant.circuit, Var.evalAt, Cols.w, colAt, Cols.k, Var.value, Cols.wa]

example : (⟨[0, 1], [0], []⟩ : Cols).k 0 = 0 := by decide

end
end Verif
