import Verif.Model.BoolScalarMul
import Mathlib.Algebra.Field.ZMod
import Mathlib.Tactic.NormNum.Prime

/-!
# C69: multiplication of a point by a bit

Specification: with bit 1 the limbs of the point itself, with bit 0 the limbs of the neutral point `(0, 1)` of a twisted
Edwards curve, and no other value of the bit.
-/

set_option linter.unusedSimpArgs false
set_option linter.unusedVariables false

namespace Verif
namespace BoolScalarMul

variable {F : Type*} [Field F]

/-- Limbs of `k * (x, y)`. -/
def Spec (x y : ℕ → F) (k : F) (x' y' : ℕ → F) : Prop :=
  (k = 0 ∧ (∀ i < 4, x' i = 0) ∧ y' 0 = 1 ∧ ∀ i, 0 < i → i < 4 → y' i = 0) ∨
  (k = 1 ∧ ∀ i < 4, x' i = x i ∧ y' i = y i)

/-- **C69**, soundness. -/
theorem bool_sound (c : Cols) (inp : In) (srow : ℤ) (t : Table F) (h : Sat t (circuit c inp srow)) :
    Spec (fun i => (inp.x i).value t) (fun i => (inp.y i).value t) (inp.k.value t)
      (fun i => (resultX c srow i).value t) (fun i => (resultY c srow i).value t) := by
  simp only [circuit, gate, copies, sat_cons, sat_nil, holds_gate, holds_copy, List.mem_singleton, forall_eq,
    List.forall_mem_cons, Expr.eval_sub, Expr.eval_add, Expr.eval_mul, Expr.eval_one, Cols.eval_wv, Cols.value_wa,
    add_zero] at h
  obtain ⟨⟨g1, g2, g3, g4, g5, g6, g7, g8, g9, g10⟩, x0, x1, x2, x3, k1, y0, y1, y2, y3, k0, -⟩ := h
  have e2 : t .witness (c.w 4) (srow + 1) = t .witness (c.w 4) srow := by linear_combination -g2
  rw [← k0]
  rw [e2] at g7 g8 g9 g10
  rcases mul_eq_zero.1 g1 with hk | hk
  · left
    rw [hk] at g3 g4 g5 g6 g7 g8 g9 g10
    refine ⟨hk, ?_, ?_, ?_⟩
    · intro i hi
      simp only [resultX, Cols.value_wa]
      interval_cases i
      · linear_combination g7
      · linear_combination g8
      · linear_combination g9
      · linear_combination g10
    · simp only [resultY, Cols.value_wa]
      linear_combination g3
    · intro i h0 hi
      simp only [resultY, Cols.value_wa]
      interval_cases i
      · linear_combination g4
      · linear_combination g5
      · linear_combination g6
  · right
    have hk' : t .witness (c.w 4) srow = 1 := by linear_combination hk
    rw [hk'] at g3 g4 g5 g6 g7 g8 g9 g10
    refine ⟨hk', ?_⟩
    intro i hi
    simp only [resultX, resultY, Cols.value_wa]
    interval_cases i
    · exact ⟨by linear_combination g7 + x0, by linear_combination g3 + y0⟩
    · exact ⟨by linear_combination g8 + x1, by linear_combination g4 + y1⟩
    · exact ⟨by linear_combination g9 + x2, by linear_combination g5 + y2⟩
    · exact ⟨by linear_combination g10 + x3, by linear_combination g6 + y3⟩

/-- **C69**, completeness: for a bit the generated table is accepted and only the two rows of the component change. -/
theorem bool_complete (c : Cols) (hc : c.OK 9) (inp : In) (srow : ℤ) (hx : ∀ i < 4, (inp.x i).Outside srow 2)
    (hy : ∀ i < 4, (inp.y i).Outside srow 2) (hk : inp.k.Outside srow 2) (t : Table F)
    (hb : inp.k.value t = 0 ∨ inp.k.value t = 1) :
    let t' := assign c inp srow (writeConsts (circuit c inp srow) t)
    Sat t' (circuit c inp srow) ∧ Frame c srow 2 t t' := by
  have hw : writeConsts (circuit c inp srow) t = t := rfl
  intro t'
  set x := fun i => (inp.x i).value t with hxd
  set y := fun i => (inp.y i).value t with hyd
  set b := inp.k.value t with hbd
  have hg : GridWrites c srow 9 2 (cell x y b) ((List.range 2).flatMap fun r : ℕ => (List.range 9).map fun j : ℕ =>
      (⟨.witness, c.w j, srow + r, cell x y b r j⟩ : Write F)) := by
    intro w hw
    simp only [List.mem_flatMap, List.mem_range, List.mem_map] at hw
    obtain ⟨r, hr, j, hj, rfl⟩ := hw
    exact ⟨r, hr, j, hj, rfl⟩
  have rd : ∀ r j : ℕ, r < 2 → j < 9 → t' .witness (c.w j) (srow + r) = cell x y b r j := by
    intro r j hr hj
    refine hg.read hc t hj ?_
    simp only [List.mem_flatMap, List.mem_range, List.mem_map]
    exact ⟨r, hr, j, hj, rfl⟩
  have hfr : Frame c srow 2 t t' := (hg.own hc).frame t
  refine ⟨?_, hfr⟩
  have p0 : ∀ j : ℕ, j < 9 → t' .witness (c.w j) srow = cell x y b 0 j := fun j hj => by
    have := rd 0 j (by omega) hj
    rwa [Nat.cast_zero, add_zero] at this
  have p1 : ∀ j : ℕ, j < 9 → t' .witness (c.w j) (srow + 1) = cell x y b 1 j := fun j hj => rd 1 j (by omega) hj
  have a0 := p0 0 (by omega); have a1 := p0 1 (by omega); have a2 := p0 2 (by omega); have a3 := p0 3 (by omega)
  have a4 := p0 4 (by omega); have a5 := p0 5 (by omega); have a6 := p0 6 (by omega); have a7 := p0 7 (by omega)
  have a8 := p0 8 (by omega)
  have b0 := p1 0 (by omega); have b1 := p1 1 (by omega); have b2 := p1 2 (by omega); have b3 := p1 3 (by omega)
  have b4 := p1 4 (by omega); have b5 := p1 5 (by omega); have b6 := p1 6 (by omega); have b7 := p1 7 (by omega)
  have b8 := p1 8 (by omega)
  simp only [cell, Nat.cast_zero, Nat.cast_one, Nat.cast_ofNat] at a0 a1 a2 a3 a4 a5 a6 a7 a8 b0 b1 b2 b3 b4 b5 b6 b7 b8
  norm_num at a0 a1 a2 a3 a4 a5 a6 a7 a8 b0 b1 b2 b3 b4 b5 b6 b7 b8
  have ox : ∀ i, i < 4 → (inp.x i).value t' = x i := fun i hi => hfr.outside (hx i hi)
  have oy : ∀ i, i < 4 → (inp.y i).value t' = y i := fun i hi => hfr.outside (hy i hi)
  have ok : inp.k.value t' = b := hfr.outside hk
  simp only [circuit, gate, copies, sat_cons, sat_nil, holds_gate, holds_copy, List.mem_singleton, forall_eq,
    List.forall_mem_cons, Expr.eval_sub, Expr.eval_add, Expr.eval_mul, Expr.eval_one, Cols.eval_wv, Cols.value_wa,
    add_zero, a0, a1, a2, a3, a4, a5, a6, a7, a8, b0, b1, b2, b3, b4, b5, b6, b7, b8, ok,
    ox 0 (by omega), ox 1 (by omega), ox 2 (by omega), ox 3 (by omega),
    oy 0 (by omega), oy 1 (by omega), oy 2 (by omega), oy 3 (by omega)]
  refine ⟨⟨?_, by ring, by ring, by ring, by ring, by ring, by ring, by ring, by ring, by ring⟩, ?_⟩
  · rcases hb with h | h <;> rw [h] <;> ring
  · simp

/-- A scalar that is not a bit is never accepted. -/
theorem bool_rejects (c : Cols) (inp : In) (srow : ℤ) (t : Table F) (h0 : inp.k.value t ≠ 0) (h1 : inp.k.value t ≠ 1) :
    ¬ Sat t (circuit c inp srow) := by
  intro h
  rcases bool_sound c inp srow t h with ⟨h, _⟩ | ⟨h, _⟩
  · exact h0 h
  · exact h1 h

instance : Fact (Nat.Prime 101) := ⟨by norm_num⟩

/-- A table that satisfies the circuit with bit 1 and a point with all limbs different from 0. -/
example : ∃ t : Table (ZMod 101), Sat t (circuit ⟨List.range 9, [], []⟩
    ⟨fun i => ⟨20 + i, 0, false, .witness⟩, fun i => ⟨30 + i, 0, false, .witness⟩, ⟨40, 0, false, .witness⟩⟩ 5) ∧
    (⟨40, 0, false, .witness⟩ : Var).value t = 1 ∧ (⟨21, 0, false, .witness⟩ : Var).value t = 22 := by
  have h := bool_complete (F := ZMod 101) ⟨List.range 9, [], []⟩ ⟨List.nodup_range, by simp⟩
    ⟨fun i => ⟨20 + i, 0, false, .witness⟩, fun i => ⟨30 + i, 0, false, .witness⟩, ⟨40, 0, false, .witness⟩⟩ 5
    (fun i _ => by intro _; left; norm_num) (fun i _ => by intro _; left; norm_num) (by intro _; left; norm_num)
    (fun _ j _ => if j = 40 then 1 else (j : ZMod 101) + 1) (Or.inr (by simp [Var.value]))
  refine ⟨_, h.1, ?_, ?_⟩
  · rw [h.2.outside (by intro _; left; norm_num)]; simp [Var.value]
  · rw [h.2.outside (by intro _; left; norm_num)]; simp [Var.value]; norm_num

end BoolScalarMul
end Verif
