import Verif.Props.Ed25519Mul
import Verif.Core.Primality

/-!
# C49: what the constraints alone leave open

Tables built by a dishonest prover. `paint` fills rows of a component's columns with chosen values.
-/

set_option linter.unusedSimpArgs false
set_option linter.unusedVariables false
set_option linter.unusedSectionVars false
set_option exponentiation.threshold 600

namespace Verif
namespace Ed25519

theorem paint {F : Type*} {c : Cols} {w : ℕ} (hc : c.OK w) (row : ℤ) (rows : ℕ) (g : ℕ → ℕ → F) (t : Table F) :
    ∃ t', Frame c row rows t t' ∧ ∀ r j : ℕ, r < rows → j < w → t' .witness (c.w j) (row + r) = g r j := by
  have hg : GridWrites c row w rows g ((List.range rows).flatMap fun r : ℕ => (List.range w).map fun j : ℕ =>
      (⟨.witness, c.w j, row + r, g r j⟩ : Write F)) := by
    intro x hx
    simp only [List.mem_flatMap, List.mem_range, List.mem_map] at hx
    obtain ⟨r, hr, j, hj, rfl⟩ := hx
    exact ⟨r, hr, j, hj, rfl⟩
  refine ⟨_, (hg.own hc).frame t, fun r j hr hj => hg.read hc t hj ?_⟩
  simp only [List.mem_flatMap, List.mem_range, List.mem_map]
  exact ⟨r, hr, j, hj, rfl⟩

/-- The cells of a range component which splits nothing: each limb is its own lowest chunk. -/
def freeRange {F : Type*} [Field F] (z : ℕ → F) (s : F) : ℕ → ℕ → F
  | 0, 0 => z 0 | 0, 1 => z 1 | 0, 2 => z 2 | 0, 3 => z 3 | 0, 4 => z 0 | 0, 7 => z 1 | 0, 8 => s⁻¹
  | 1, 2 => z 2 | 1, 5 => z 3 | 1, 8 => 1
  | _, _ => 0

/-- Sum of the chunks of `freeRange`. -/
def freeSum {F : Type*} [Field F] (z : ℕ → F) : F := z 1 + z 2 + z 3 - 2 * 2 ^ 21 - 8 * 2 ^ 22 - 2 ^ 15 + 11

theorem freeRange_gate {F : Type*} [Field F] {T : Table F} {c : Cols} {row : ℤ} (z : ℕ → F)
    (h : ∀ r j : ℕ, r < 2 → j < 9 → T .witness (c.w j) (row + r) = freeRange z (freeSum z) r j) :
    (Op.gate (rangeGate c) [row]).Holds T := by
  have h0 : ∀ j : ℕ, j < 9 → T .witness (c.w j) row = freeRange z (freeSum z) 0 j := fun j hj => by
    have := h 0 j (by omega) hj
    rwa [Nat.cast_zero, add_zero] at this
  have h1 : ∀ j : ℕ, j < 9 → T .witness (c.w j) (row + 1) = freeRange z (freeSum z) 1 j := fun j hj => by
    have := h 1 j (by omega) hj
    rwa [Nat.cast_one] at this
  have a0 := h0 0 (by omega); have a1 := h0 1 (by omega); have a2 := h0 2 (by omega); have a3 := h0 3 (by omega)
  have a4 := h0 4 (by omega); have a5 := h0 5 (by omega); have a6 := h0 6 (by omega); have a7 := h0 7 (by omega)
  have a8 := h0 8 (by omega)
  have b0 := h1 0 (by omega); have b1 := h1 1 (by omega); have b2 := h1 2 (by omega); have b3 := h1 3 (by omega)
  have b4 := h1 4 (by omega); have b5 := h1 5 (by omega); have b6 := h1 6 (by omega); have b7 := h1 7 (by omega)
  have b8 := h1 8 (by omega)
  simp only [freeRange] at a0 a1 a2 a3 a4 a5 a6 a7 a8 b0 b1 b2 b3 b4 b5 b6 b7 b8
  norm_num at a0 a1 a2 a3 a4 a5 a6 a7 a8 b0 b1 b2 b3 b4 b5 b6 b7 b8
  have hs : (rangeSum c).eval T row = freeSum z := by
    simp only [rangeSum, sh, Expr.eval_sub, Expr.eval_add, Cols.eval_wv, Expr.eval_const, add_zero, a5, a6, a7,
      b0, b1, b2, b3, b4, b5, b6, b7, freeSum]
    ring
  simp only [rangeGate, holds_gate, List.mem_singleton, forall_eq, List.forall_mem_cons, Expr.eval_sub, Expr.eval_add,
    Expr.eval_mul, hs, Cols.eval_wv, sh, Expr.eval_const, add_zero, Expr.eval_one, a0, a1, a2, a3, a4, a5, a6, a7, a8,
    b0, b1, b2, b3, b4, b5, b6, b7, b8]
  refine ⟨by ring, by ring, by ring, by ring, ?_, by ring⟩
  by_cases hz : freeSum z = 0
  · rw [hz, zero_mul]
  · rw [inv_mul_cancel₀ hz, sub_self, mul_zero]

section free
variable {F : Type*} [Field F] {c : Cols}

/-- Addition and subtraction with quotient `q`, carry `u` and output limbs `z`. -/
def freeAdd (a b : ℕ → F) (q u : F) (z : ℕ → F) : ℕ → ℕ → F
  | 0, 3 => u | 0, 7 => u
  | 1, 0 => a 0 | 1, 1 => b 0 | 1, 2 => q | 1, 3 => a 1 | 1, 4 => a 2 | 1, 5 => a 3 | 1, 6 => b 1 | 1, 7 => b 2
  | 1, 8 => b 3
  | r + 2, j => freeRange z (freeSum z) r j
  | _, _ => 0

/-- Addition: without the widths of the chunks, three of the four output limbs are arbitrary. -/
theorem add_undetermined (h2 : (2 : F) ≠ 0) (hc : c.OK 9) {inp : In} {row : ℤ} (t : Table F)
    (hoa : ∀ i, i < 4 → (inp.a i).Outside row 4) (hob : ∀ i, i < 4 → (inp.b i).Outside row 4) (z0 z1 z2 : F) :
    ∃ t', Frame c row 4 t t' ∧ Sat t' (addCircuit c inp row) ∧ (addResult c row 0).value t' = z0 ∧
      (addResult c row 1).value t' = z1 ∧ (addResult c row 2).value t' = z2 := by
  set a := fun i => (inp.a i).value t with ha
  set b := fun i => (inp.b i).value t with hb
  set u := (a 0 + b 0 - z0) / 2 ^ 66 with hu
  set z3 := (a 0 + a 1 * 2 ^ 66 + a 2 * 2 ^ 132 + a 3 * 2 ^ 198 + (b 0 + b 1 * 2 ^ 66 + b 2 * 2 ^ 132 + b 3 * 2 ^ 198)
    - z0 - z1 * 2 ^ 66 - z2 * 2 ^ 132) / 2 ^ 198 with hz3
  set z : ℕ → F := fun i => if i = 0 then z0 else if i = 1 then z1 else if i = 2 then z2 else z3 with hz
  have e66 : (2 : F) ^ 66 ≠ 0 := pow_ne_zero _ h2
  have e198 : (2 : F) ^ 198 ≠ 0 := pow_ne_zero _ h2
  have hu' : u * 2 ^ 66 = a 0 + b 0 - z0 := by rw [hu, div_mul_cancel₀ _ e66]
  have hz3' : z3 * 2 ^ 198 = a 0 + a 1 * 2 ^ 66 + a 2 * 2 ^ 132 + a 3 * 2 ^ 198
      + (b 0 + b 1 * 2 ^ 66 + b 2 * 2 ^ 132 + b 3 * 2 ^ 198) - z0 - z1 * 2 ^ 66 - z2 * 2 ^ 132 := by rw [hz3, div_mul_cancel₀ _ e198]
  obtain ⟨T, hfr, hT⟩ := paint hc row 4 (freeAdd a b 0 u z) t
  have ra : ∀ i, i < 4 → (inp.a i).value T = a i := fun i hi => hfr.outside (hoa i hi)
  have rb : ∀ i, i < 4 → (inp.b i).value T = b i := fun i hi => hfr.outside (hob i hi)
  have hrange := freeRange_gate (T := T) (c := c) (row := row + 2) z (fun r j hr hj => by
    have := hT (r + 2) j (by omega) hj
    rw [show row + 2 + (r : ℤ) = row + ((r + 2 : ℕ) : ℤ) by push_cast; ring, this]
    rfl)
  have q1 : ∀ j : ℕ, j < 9 → T .witness (c.w j) (row + 1) = freeAdd a b 0 u z 1 j := fun j hj => hT 1 j (by omega) hj
  have q2 : ∀ j : ℕ, j < 9 → T .witness (c.w j) (row + 2) = freeAdd a b 0 u z 2 j := fun j hj => hT 2 j (by omega) hj
  have q0 : ∀ j : ℕ, j < 9 → T .witness (c.w j) row = freeAdd a b 0 u z 0 j := fun j hj => by
    have := hT 0 j (by omega) hj
    rwa [Nat.cast_zero, add_zero] at this
  have s3 := q0 3 (by omega); have s4 := q0 4 (by omega); have s5 := q0 5 (by omega); have s6 := q0 6 (by omega)
  have s7 := q0 7 (by omega)
  have t0 := q1 0 (by omega); have t1 := q1 1 (by omega); have t2 := q1 2 (by omega); have t3 := q1 3 (by omega)
  have t4 := q1 4 (by omega); have t5 := q1 5 (by omega); have t6 := q1 6 (by omega); have t7 := q1 7 (by omega)
  have t8 := q1 8 (by omega)
  have r0 := q2 0 (by omega); have r1 := q2 1 (by omega); have r2 := q2 2 (by omega); have r3 := q2 3 (by omega)
  simp only [freeAdd, freeRange] at s3 s4 s5 s6 s7 t0 t1 t2 t3 t4 t5 t6 t7 t8 r0 r1 r2 r3
  norm_num [hz] at s3 s4 s5 s6 s7 t0 t1 t2 t3 t4 t5 t6 t7 t8 r0 r1 r2 r3
  refine ⟨T, hfr, ?_, r0, r1, r2⟩
  simp only [addCircuit, sat_cons, sat_append]
  refine ⟨?_, ?_, ?_⟩
  · simp only [addGate, holds_gate, List.mem_singleton, forall_eq, List.forall_mem_cons, Expr.eval_sub, Expr.eval_add,
      Expr.eval_mul, Cols.eval_wv, sh, Expr.eval_const, add_zero, composeE, Expr.eval_one, add_assoc,
      show (1 : ℤ) + 1 = 2 by norm_num, show (1 : ℤ) + -1 = 0 by norm_num, s3, s4, s5, s6, s7, t0, t1, t2, t3, t4, t5,
      t6, t7, t8, r0, r1, r2, r3]
    refine ⟨?_, by ring, by ring, ?_⟩
    · linear_combination hu'
    · linear_combination -hz3'
  · simp only [addCopies, sat_cons, holds_copy, Cols.value_wa, sat_nil, and_true, t0, t1, t3, t4, t5, t6, t7, t8,
      ra 0 (by omega), ra 1 (by omega), ra 2 (by omega), ra 3 (by omega), rb 0 (by omega), rb 1 (by omega),
      rb 2 (by omega), rb 3 (by omega)]
  · simp only [rangeCircuit, sat_cons]
    exact ⟨hrange, by simp [List.range, List.range.loop]⟩

/-- Subtraction: without the widths of the chunks, three of the four output limbs are arbitrary. -/
theorem sub_undetermined (h2 : (2 : F) ≠ 0) (hc : c.OK 9) {inp : In} {row : ℤ} (t : Table F)
    (hoa : ∀ i, i < 4 → (inp.a i).Outside row 4) (hob : ∀ i, i < 4 → (inp.b i).Outside row 4) (z0 z1 z2 : F) :
    ∃ t', Frame c row 4 t t' ∧ Sat t' (subCircuit c inp row) ∧ (addResult c row 0).value t' = z0 ∧
      (addResult c row 1).value t' = z1 ∧ (addResult c row 2).value t' = z2 := by
  set a := fun i => (inp.a i).value t with ha
  set b := fun i => (inp.b i).value t with hb
  set u := (a 0 + (limb modulus 0 : F) - b 0 - z0) / 2 ^ 66 with hu
  set z3 := (a 0 + a 1 * 2 ^ 66 + a 2 * 2 ^ 132 + a 3 * 2 ^ 198 + (modulus : F) - (b 0 + b 1 * 2 ^ 66 + b 2 * 2 ^ 132 + b 3 * 2 ^ 198)
    - z0 - z1 * 2 ^ 66 - z2 * 2 ^ 132) / 2 ^ 198 with hz3
  set z : ℕ → F := fun i => if i = 0 then z0 else if i = 1 then z1 else if i = 2 then z2 else z3 with hz
  have e66 : (2 : F) ^ 66 ≠ 0 := pow_ne_zero _ h2
  have e198 : (2 : F) ^ 198 ≠ 0 := pow_ne_zero _ h2
  have hu' : u * 2 ^ 66 = a 0 + (limb modulus 0 : F) - b 0 - z0 := by rw [hu, div_mul_cancel₀ _ e66]
  have hz3' : z3 * 2 ^ 198 = a 0 + a 1 * 2 ^ 66 + a 2 * 2 ^ 132 + a 3 * 2 ^ 198
      + (modulus : F) - (b 0 + b 1 * 2 ^ 66 + b 2 * 2 ^ 132 + b 3 * 2 ^ 198) - z0 - z1 * 2 ^ 66 - z2 * 2 ^ 132 := by rw [hz3, div_mul_cancel₀ _ e198]
  obtain ⟨T, hfr, hT⟩ := paint hc row 4 (freeAdd a b 0 u z) t
  have ra : ∀ i, i < 4 → (inp.a i).value T = a i := fun i hi => hfr.outside (hoa i hi)
  have rb : ∀ i, i < 4 → (inp.b i).value T = b i := fun i hi => hfr.outside (hob i hi)
  have hrange := freeRange_gate (T := T) (c := c) (row := row + 2) z (fun r j hr hj => by
    have := hT (r + 2) j (by omega) hj
    rw [show row + 2 + (r : ℤ) = row + ((r + 2 : ℕ) : ℤ) by push_cast; ring, this]
    rfl)
  have q1 : ∀ j : ℕ, j < 9 → T .witness (c.w j) (row + 1) = freeAdd a b 0 u z 1 j := fun j hj => hT 1 j (by omega) hj
  have q2 : ∀ j : ℕ, j < 9 → T .witness (c.w j) (row + 2) = freeAdd a b 0 u z 2 j := fun j hj => hT 2 j (by omega) hj
  have q0 : ∀ j : ℕ, j < 9 → T .witness (c.w j) row = freeAdd a b 0 u z 0 j := fun j hj => by
    have := hT 0 j (by omega) hj
    rwa [Nat.cast_zero, add_zero] at this
  have s3 := q0 3 (by omega); have s4 := q0 4 (by omega); have s5 := q0 5 (by omega); have s6 := q0 6 (by omega)
  have s7 := q0 7 (by omega)
  have t0 := q1 0 (by omega); have t1 := q1 1 (by omega); have t2 := q1 2 (by omega); have t3 := q1 3 (by omega)
  have t4 := q1 4 (by omega); have t5 := q1 5 (by omega); have t6 := q1 6 (by omega); have t7 := q1 7 (by omega)
  have t8 := q1 8 (by omega)
  have r0 := q2 0 (by omega); have r1 := q2 1 (by omega); have r2 := q2 2 (by omega); have r3 := q2 3 (by omega)
  simp only [freeAdd, freeRange] at s3 s4 s5 s6 s7 t0 t1 t2 t3 t4 t5 t6 t7 t8 r0 r1 r2 r3
  norm_num [hz] at s3 s4 s5 s6 s7 t0 t1 t2 t3 t4 t5 t6 t7 t8 r0 r1 r2 r3
  refine ⟨T, hfr, ?_, r0, r1, r2⟩
  simp only [subCircuit, sat_cons, sat_append]
  refine ⟨?_, ?_, ?_⟩
  · simp only [subGate, holds_gate, List.mem_singleton, forall_eq, List.forall_mem_cons, Expr.eval_sub, Expr.eval_add,
      Expr.eval_mul, Cols.eval_wv, sh, Expr.eval_const, add_zero, composeE, Expr.eval_one, add_assoc,
      show (1 : ℤ) + 1 = 2 by norm_num, show (1 : ℤ) + -1 = 0 by norm_num, s3, s4, s5, s6, s7, t0, t1, t2, t3, t4, t5,
      t6, t7, t8, r0, r1, r2, r3]
    refine ⟨?_, by ring, by ring, ?_⟩
    · linear_combination hu'
    · linear_combination -hz3'
  · simp only [addCopies, sat_cons, holds_copy, Cols.value_wa, sat_nil, and_true, t0, t1, t3, t4, t5, t6, t7, t8,
      ra 0 (by omega), ra 1 (by omega), ra 2 (by omega), ra 3 (by omega), rb 0 (by omega), rb 1 (by omega),
      rb 2 (by omega), rb 3 (by omega)]
  · simp only [rangeCircuit, sat_cons]
    exact ⟨hrange, by simp [List.range, List.range.loop]⟩

/-- Multiplication with quotient zero, carries `u`, `v` and output limbs `z`. -/
def freeMul (a b : ℕ → F) (u v : F) (z : ℕ → F) : ℕ → ℕ → F
  | 0, j => freeRange (fun _ => 0) (freeSum fun _ => 0) 0 j
  | 1, j => freeRange (fun _ => 0) (freeSum fun _ => 0) 1 j
  | 2, j => freeRange z (freeSum z) 0 j
  | 3, j => freeRange z (freeSum z) 1 j
  | 4, 0 => a 0 | 4, 1 => a 1 | 4, 2 => a 2 | 4, 3 => a 3 | 4, 4 => b 0 | 4, 5 => b 1 | 4, 6 => b 2 | 4, 7 => b 3
  | 5, 3 => z 0 | 5, 4 => z 1 | 5, 5 => z 2 | 5, 6 => z 3 | 5, 7 => u | 5, 8 => v
  | 6, 0 => u | 6, 4 => v
  | _, _ => 0

/-- Multiplication: without the widths of the chunks, three of the four output limbs are arbitrary. -/
theorem mul_undetermined (h2 : (2 : F) ≠ 0) (hc : c.OK 9) {inp : In} {row : ℤ} (t : Table F)
    (hoa : ∀ i, i < 4 → (inp.a i).Outside row 7) (hob : ∀ i, i < 4 → (inp.b i).Outside row 7) (z0 z1 z2 : F) :
    ∃ t', Frame c row 7 t t' ∧ Sat t' (mulCircuit c inp row) ∧ (mulResult c row 0).value t' = z0 ∧
      (mulResult c row 1).value t' = z1 ∧ (mulResult c row 2).value t' = z2 := by
  set a := fun i => (inp.a i).value t with ha
  set b := fun i => (inp.b i).value t with hb
  set P := (a 0 + a 1 * 2 ^ 66 + a 2 * 2 ^ 132 + a 3 * 2 ^ 198) * (b 0 + b 1 * 2 ^ 66 + b 2 * 2 ^ 132 + b 3 * 2 ^ 198) with hP
  set z3 := (P - z0 - z1 * 2 ^ 66 - z2 * 2 ^ 132) / 2 ^ 198 with hz3
  set u := (a 0 * b 0 - z0 + (a 1 * b 0 + a 0 * b 1) * 2 ^ 66 - z1 * 2 ^ 66) / 2 ^ 132 with hu
  set v := (a 2 * b 0 + a 0 * b 2 + a 1 * b 1 - z2 + (a 3 * b 0 + b 3 * a 0 + a 1 * b 2 + b 1 * a 2) * 2 ^ 66
    - z3 * 2 ^ 66 + u) / 2 ^ 125 with hv
  set z : ℕ → F := fun i => if i = 0 then z0 else if i = 1 then z1 else if i = 2 then z2 else z3 with hz
  have e198 : (2 : F) ^ 198 ≠ 0 := pow_ne_zero _ h2
  have hz3' : z3 * 2 ^ 198 = P - z0 - z1 * 2 ^ 66 - z2 * 2 ^ 132 := by rw [hz3, div_mul_cancel₀ _ e198]
  have hu' : u * 2 ^ 132 = a 0 * b 0 - z0 + (a 1 * b 0 + a 0 * b 1) * 2 ^ 66 - z1 * 2 ^ 66 := by
    rw [hu, div_mul_cancel₀ _ (pow_ne_zero _ h2)]
  have hv' : v * 2 ^ 125 = a 2 * b 0 + a 0 * b 2 + a 1 * b 1 - z2 + (a 3 * b 0 + b 3 * a 0 + a 1 * b 2 + b 1 * a 2) * 2 ^ 66
    - z3 * 2 ^ 66 + u := by
    rw [hv, div_mul_cancel₀ _ (pow_ne_zero _ h2)]
  obtain ⟨T, hfr, hT⟩ := paint hc row 7 (freeMul a b u v z) t
  have ra : ∀ i, i < 4 → (inp.a i).value T = a i := fun i hi => hfr.outside (hoa i hi)
  have rb : ∀ i, i < 4 → (inp.b i).value T = b i := fun i hi => hfr.outside (hob i hi)
  have hrq := freeRange_gate (T := T) (c := c) (row := row) (fun _ => 0) (fun r j hr hj => by
    rw [hT r j (by omega) hj]
    interval_cases r <;> rfl)
  have hrr := freeRange_gate (T := T) (c := c) (row := row + 2) z (fun r j hr hj => by
    have := hT (r + 2) j (by omega) hj
    rw [show row + 2 + (r : ℤ) = row + ((r + 2 : ℕ) : ℤ) by push_cast; ring, this]
    interval_cases r <;> rfl)
  have q4 : ∀ j : ℕ, j < 9 → T .witness (c.w j) (row + 4) = freeMul a b u v z 4 j := fun j hj => hT 4 j (by omega) hj
  have q5 : ∀ j : ℕ, j < 9 → T .witness (c.w j) (row + 5) = freeMul a b u v z 5 j := fun j hj => hT 5 j (by omega) hj
  have q6 : ∀ j : ℕ, j < 9 → T .witness (c.w j) (row + 6) = freeMul a b u v z 6 j := fun j hj => hT 6 j (by omega) hj
  have q0 : ∀ j : ℕ, j < 9 → T .witness (c.w j) row = freeMul a b u v z 0 j := fun j hj => by
    have := hT 0 j (by omega) hj
    rwa [Nat.cast_zero, add_zero] at this
  have q2 : ∀ j : ℕ, j < 9 → T .witness (c.w j) (row + 2) = freeMul a b u v z 2 j := fun j hj => hT 2 j (by omega) hj
  have s0 := q4 0 (by omega); have s1 := q4 1 (by omega); have s2 := q4 2 (by omega); have s3 := q4 3 (by omega)
  have s4 := q4 4 (by omega); have s5 := q4 5 (by omega); have s6 := q4 6 (by omega); have s7 := q4 7 (by omega)
  have s8 := q4 8 (by omega)
  have t0 := q5 0 (by omega); have t1 := q5 1 (by omega); have t2 := q5 2 (by omega); have t3 := q5 3 (by omega)
  have t4 := q5 4 (by omega); have t5 := q5 5 (by omega); have t6 := q5 6 (by omega); have t7 := q5 7 (by omega)
  have t8 := q5 8 (by omega)
  have r0 := q6 0 (by omega); have r1 := q6 1 (by omega); have r2 := q6 2 (by omega); have r3 := q6 3 (by omega)
  have r4 := q6 4 (by omega); have r5 := q6 5 (by omega); have r6 := q6 6 (by omega); have r7 := q6 7 (by omega)
  simp only [freeMul, freeRange] at s0 s1 s2 s3 s4 s5 s6 s7 s8 t0 t1 t2 t3 t4 t5 t6 t7 t8 r0 r1 r2 r3 r4 r5 r6 r7
  norm_num [hz] at s0 s1 s2 s3 s4 s5 s6 s7 s8 t0 t1 t2 t3 t4 t5 t6 t7 t8 r0 r1 r2 r3 r4 r5 r6 r7
  refine ⟨T, hfr, ?_, t3, t4, t5⟩
  simp only [mulCircuit, sat_cons, sat_append]
  refine ⟨?_, ⟨?_, ?_⟩, ?_⟩
  · simp only [mulGate, mulT, holds_gate, List.mem_singleton, forall_eq, List.forall_mem_cons, Expr.eval_sub, Expr.eval_add,
      Expr.eval_mul, Cols.eval_wv, sh, Expr.eval_const, add_zero, composeE, Expr.eval_one, add_assoc,
      show (5 : ℤ) + 1 = 6 by norm_num, show (5 : ℤ) + -1 = 4 by norm_num, s0, s1, s2, s3, s4, s5, s6, s7, s8,
      t0, t1, t2, t3, t4, t5, t6, t7, t8, r0, r1, r2, r3, r4, r5, r6, r7]
    refine ⟨?_, ?_, by ring, by ring, ?_⟩
    · linear_combination hu'
    · linear_combination hv'
    · linear_combination -hz3' + hP
  · intro o ho
    simp only [mulCopies, List.mem_append, List.mem_map, List.mem_range] at ho
    rcases ho with ⟨i, hi, rfl⟩ | ⟨i, hi, rfl⟩
    · refine Eq.trans ?_ (ra i hi).symm
      refine (q4 i (by omega)).trans ?_
      interval_cases i <;> rfl
    · refine Eq.trans ?_ (rb i hi).symm
      refine (q4 (4 + i) (by omega)).trans ?_
      interval_cases i <;> rfl
  · refine rangeCircuit_sat hrq fun i hi => (q0 i (by omega)).trans ?_
    unfold mulQ
    by_cases h0 : i = 0
    · subst h0; rw [if_pos rfl]; exact s8.symm
    · rw [if_neg h0, Cols.value_wa]
      have := q5 (i - 1) (by omega)
      rw [Nat.cast_sub (by omega), Nat.cast_one] at this
      rw [this]
      interval_cases i <;> first | omega | rfl
  · refine rangeCircuit_sat hrr fun i hi => (q2 i (by omega)).trans ?_
    unfold mulResult
    rw [Cols.value_wa, q5 (3 + i) (by omega)]
    interval_cases i <;> rfl

end free

section values
variable {n : ℕ} [Fact n.Prime] {c : Cols}

/-- The cells of addition with a chosen flag. -/
def painted (w : ℕ) (a b r : ℕ → ℕ) (q u : ℕ) (f : ZMod n) : ℕ → ℕ → ZMod n
  | 0, j => addCell w a b r q u 0 j
  | 1, j => addCell w a b r q u 1 j
  | 2, j => rangeCell r 0 j
  | _, j => if j = 8 then f else rangeCell r 1 j

theorem painted_at {T : Table (ZMod n)} {row : ℤ} {w : ℕ} {a b r : ℕ → ℕ} {q u : ℕ} {f : ZMod n}
    (h : ∀ i j : ℕ, i < 4 → j < 9 → T .witness (c.w j) (row + i) = painted w a b r q u f i j) :
    AddAt T c row w a b r q u f := by
  have h0 : ∀ j : ℕ, j < 9 → T .witness (c.w j) row = painted w a b r q u f 0 j := fun j hj => by
    have := h 0 j (by omega) hj
    rwa [Nat.cast_zero, add_zero] at this
  have h1 : ∀ j : ℕ, j < 9 → T .witness (c.w j) (row + 1) = painted w a b r q u f 1 j := fun j hj => h 1 j (by omega) hj
  have h2 : ∀ j : ℕ, j < 9 → T .witness (c.w j) (row + 2) = painted w a b r q u f 2 j := fun j hj => h 2 j (by omega) hj
  have h3 : ∀ j : ℕ, j < 9 → T .witness (c.w j) (row + 2 + 1) = painted w a b r q u f 3 j := fun j hj => by
    rw [show row + 2 + 1 = row + ((3 : ℕ) : ℤ) by push_cast; ring]
    exact h 3 j (by omega) hj
  refine ⟨h1 0 (by omega), h1 1 (by omega), h1 2 (by omega), h1 3 (by omega), h1 4 (by omega), h1 5 (by omega),
    h1 6 (by omega), h1 7 (by omega), h1 8 (by omega), h0 3 (by omega), h0 4 (by omega), h0 5 (by omega), h0 6 (by omega),
    h0 7 (by omega), ⟨fun j hj => ?_, fun k hk => ?_, ?_, fun k hk => ?_, ?_⟩⟩
  · rw [h2 j (by omega)]; simp [painted, rangeCell, hj]
  · rw [h2 (4 + k) (by omega)]; simp [painted, rangeCell, show 4 + k < 8 by omega]
  · refine (h2 8 (by omega)).trans ?_
    simp only [painted, rangeCell_inv]
  · rw [h3 k (by omega)]; simp [painted, rangeCell, show k ≠ 8 by omega, hk]
  · refine (h3 8 (by omega)).trans ?_
    simp [painted]

/-- Addition, even with all chunks within their widths: when the sum is one of the nineteen numbers from the modulus
to `2^255 - 1`, the unreduced sum is accepted as the output. -/
theorem add_noncanonical (hn : 2 ^ 254 < n) (hc : c.OK 9) {inp : In} {row : ℤ}
    {t : Table (ZMod n)} {x y : ℕ} (hx : Limbs t inp.a x) (hy : Limbs t inp.b y) (hxy : x + y < 2 ^ 255)
    (hoa : ∀ i, i < 4 → (inp.a i).Outside row 4) (hob : ∀ i, i < 4 → (inp.b i).Outside row 4) :
    ∃ t', Frame c row 4 t t' ∧ Sat t' (addCircuit c inp row) ∧ Limbs t' (addResult c row) (x + y) ∧
      RangeCells t' c (row + 2) ∧ CarryCells t' c row 3 1 := by
  obtain ⟨va, ha0, ha1, ha2, ha3, hax⟩ := limbs_val hn hx
  obtain ⟨vb, hb0, hb1, hb2, hb3, hby⟩ := limbs_val hn hy
  set a := fun i => ((inp.a i).value t).val with hadef
  set b := fun i => ((inp.b i).value t).val with hbdef
  have ea0 : a 0 = x % 2 ^ 66 := by rw [← hax]; exact (num_mod ha0).symm
  have eb0 : b 0 = y % 2 ^ 66 := by rw [← hby]; exact (num_mod hb0).symm
  have hint := add_int (q := 0) (R := x + y) ea0 eb0 (.inl rfl) (by omega)
  have hu4 : (a 0 + b 0 + 19 * 0) / 2 ^ 66 < 4 := by omega
  obtain ⟨T, hfr, hT⟩ := paint hc row 4
    (painted (n := n) 1 a b (limb (x + y)) 0 ((a 0 + b 0 + 19 * 0) / 2 ^ 66) 1) t
  have hat := painted_at hT
  refine ⟨T, hfr, add_sat hn hat hxy (.inl rfl) (by omega) ?_ ?_ (.inr rfl) ?_ ?_, hat.rng.limbs hxy, hat.rng.cells,
    hat.carry⟩
  · rw [limb_zero]; exact hint
  · rw [hax, hby]; ring
  · intro i hi; rw [hfr.outside (hoa i hi)]; exact va i
  · intro i hi; rw [hfr.outside (hob i hi)]; exact vb i

theorem limbs_unique (hn : 2 ^ 254 < n) {t : Table (ZMod n)} {v : ℕ → Var} {x y : ℕ} (hx : Limbs t v x)
    (hy : Limbs t v y) : x = y := (limbs_val hn hx).2.2.2.2.2.symm.trans (limbs_val hn hy).2.2.2.2.2

theorem rangeAt_zero {T : Table (ZMod n)} {row : ℤ} {f : ZMod n} (h : RangeAt T c row (fun _ => 0) f) :
    Limbs T (fun i : ℕ => c.wa i row) 0 :=
  ⟨0, 0, 0, 0, by norm_num, by norm_num, by norm_num, by norm_num, h.inp 0 (by omega), h.inp 1 (by omega),
    h.inp 2 (by omega), h.inp 3 (by omega), rfl⟩

/-- Addition on other columns: the range component reads columns `0` to `3` of the table instead of the output and
writes what it finds there over the output. Where these columns are outside the component and hold zeros, the
assignment violates the circuit unless the sum is zero in the field. -/
theorem add_columns_refuted (hn : 2 ^ 254 < n) (hc : c.OK 9) (hcols : ∀ j ∈ c.W, 4 ≤ j) {inp : In} {row : ℤ}
    {t : Table (ZMod n)} {x y : ℕ} (hx : Limbs t inp.a x) (hy : Limbs t inp.b y) (hne : x + y ≠ 0) (hnp : x + y ≠ modulus)
    (h0 : ∀ i : ℕ, i < 4 → t .witness i (row + 2) = 0)
    (hoa : ∀ i, i < 4 → (inp.a i).Outside row 4) (hob : ∀ i, i < 4 → (inp.b i).Outside row 4) :
    ¬ Sat (addAssign c inp row t) (addCircuit c inp row) := by
  intro hsat
  have hodd : n % 2 = 1 := by
    have := (Fact.out : n.Prime).eq_two_or_odd
    omega
  have hfr : Frame c row 4 t (addAssign c inp row t) := addWrites_frame hc _ _ _ _ _ _ _ _ _
  have tr : ∀ (v : ℕ → Var) (z : ℕ), (∀ i, i < 4 → (v i).Outside row 4) → Limbs t v z →
      Limbs (addAssign c inp row t) v z := by
    rintro v z ho ⟨l0, l1, l2, l3, h0, h1, h2, h3, e0, e1, e2, e3, e⟩
    exact ⟨l0, l1, l2, l3, h0, h1, h2, h3, by rw [hfr.outside (ho 0 (by omega)), e0],
      by rw [hfr.outside (ho 1 (by omega)), e1], by rw [hfr.outside (ho 2 (by omega)), e2],
      by rw [hfr.outside (ho 3 (by omega)), e3], e⟩
  set a := fun i => ((inp.a i).value t).val with hadef
  set b := fun i => ((inp.b i).value t).val with hbdef
  set T := writeAll (addWrites c row 1 a b (limb (addR a b)) (addQ a b) (addU n a b)) t with hT
  have ht' : addAssign c inp row t = rangeAssign c (addRangeInput row) (row + 2) T := rfl
  have hTf : Frame c row 3 t T := ((add_grid row 1 a b (limb (addR a b)) (addQ a b) (addU n a b)).own hc).frame t
  have hz : ∀ i : ℕ, i < 4 → ((addRangeInput row i).value T).val = (fun _ => 0 : ℕ → ℕ) i := by
    intro i hi
    have : (addRangeInput row i).value T = 0 := by
      unfold addRangeInput Var.value
      refine Eq.trans ?_ (h0 i hi)
      apply hTf
      rintro ⟨_, h, _, _⟩
      have := hcols i h
      omega
    rw [this, ZMod.val_zero]
  have hat := (rangeAssign_at hc (addRangeInput row) (row + 2) T).congr hz
  rw [← ht'] at hat
  have hcar : CarryCells (addAssign c inp row t) c row 3 1 := by
    have rd : ∀ j : ℕ, 3 ≤ j ∧ j < 7 → addAssign c inp row t .witness (c.w (j : ℤ)) row =
        addCell (n := n) 1 a b (limb (addR a b)) (addQ a b) (addU n a b) 0 j := by
      intro j hj
      rw [ht', (rangeAssign_frame hc (addRangeInput row) (row + 2) T).row (by omega)]
      have := (add_grid row 1 a b (limb (addR a b)) (addQ a b) (addU n a b)).read hc t (r := 0) (j := j) (by omega) (by
        obtain ⟨h1, h2⟩ := hj
        interval_cases j <;> simp [addWrites, addCell])
      rwa [Nat.cast_zero, add_zero] at this
    exact ⟨⟨_, Nat.mod_lt _ (by norm_num), rd 3 (by omega)⟩, ⟨_, Nat.mod_lt _ (by norm_num), rd 4 (by omega)⟩,
      ⟨_, Nat.mod_lt _ (by norm_num), rd 5 (by omega)⟩, ⟨_, Nat.mod_lt _ (Nat.two_pow_pos _), rd 6 (by omega)⟩⟩
  obtain ⟨z, hz1, hz2⟩ := add_sound (n := n) hodd hn hsat (tr _ _ hoa hx) (tr _ _ hob hy) hat.cells hcar
  have := limbs_unique hn hz1 (rangeAt_zero hat)
  subst this
  unfold modulus at hnp
  omega

end values

/-! ### Instances -/

section instances

theorem pallas_large : 2 ^ 254 < pallasP := by unfold pallasP; norm_num

/-- Nine columns, the first nine of the table. -/
def cols9 : Cols := ⟨[0, 1, 2, 3, 4, 5, 6, 7, 8], [], []⟩

theorem cols9_ok : cols9.OK 9 := ⟨by decide, rfl⟩

theorem cols9_id : ∀ i : ℕ, i < 4 → cols9.w i = i := by
  intro i hi; interval_cases i <;> rfl

/-- Operands in the public input columns 0 and 1. -/
def pubIn : In := ⟨fun i => ⟨0, i, false, .publicInput⟩, fun i => ⟨1, i, false, .publicInput⟩⟩

/-- A table with operands `x` and `y`. -/
def pubTable (x y : ℕ) : Table (ZMod pallasP) := fun ty i r =>
  if ty = .publicInput then (limb (if i = 0 then x else y) r.toNat : ZMod pallasP) else 0

theorem pub_limbs {x y : ℕ} (hx : x < 2 ^ 255) (hy : y < 2 ^ 255) :
    Limbs (pubTable x y) pubIn.a x ∧ Limbs (pubTable x y) pubIn.b y := by
  obtain ⟨lx3, lxe⟩ := limb_num hx
  obtain ⟨ly3, lye⟩ := limb_num hy
  exact ⟨⟨_, _, _, _, limb_lt _ _, limb_lt _ _, limb_lt _ _, lx3, rfl, rfl, rfl, rfl, lxe⟩,
    ⟨_, _, _, _, limb_lt _ _, limb_lt _ _, limb_lt _ _, ly3, rfl, rfl, rfl, rfl, lye⟩⟩

theorem pub_outside (rows : ℕ) : ∀ i, i < 4 → (pubIn.a i).Outside 0 rows ∧ (pubIn.b i).Outside 0 rows := by
  intro i _
  exact ⟨fun h => absurd h (by simp [pubIn]), fun h => absurd h (by simp [pubIn])⟩

theorem mod255 : modulus < 2 ^ 255 := by rw [modulus_val]; norm_num

/-- Honest sum and product of any two reduced numbers, over the Pallas base field; soundness applies to them. -/
example {x y : ℕ} (hx : x < modulus) (hy : y < modulus) :
    let t' := addAssign cols9 pubIn 0 (pubTable x y)
    Sat t' (addCircuit cols9 pubIn 0) ∧ Limbs t' (addResult cols9 0) ((x + y) % modulus) :=
  have h := pub_limbs (hx.trans mod255) (hy.trans mod255)
  have r := add_complete_partial pallas_large cols9_ok cols9_id h.1 h.2 hx hy (fun i hi => (pub_outside 4 i hi).1)
    (fun i hi => (pub_outside 4 i hi).2)
  ⟨r.1, r.2.1⟩

example {x y : ℕ} (hx : x < modulus) (hy : y < modulus) :
    let t' := mulAssign cols9 pubIn 0 (pubTable x y)
    Sat t' (mulCircuit cols9 pubIn 0) ∧ Limbs t' (mulResult cols9 0) (x * y % modulus) :=
  have h := pub_limbs (hx.trans mod255) (hy.trans mod255)
  have r := mul_complete pallas_large cols9_ok h.1 h.2 hx hy (fun i hi => (pub_outside 7 i hi).1)
    (fun i hi => (pub_outside 7 i hi).2)
  ⟨r.1, r.2.1⟩

/-- `0 - (2^66 - 1)` cannot be assigned. -/
example : ¬ Sat (subAssign cols9 pubIn 0 (pubTable 0 (2 ^ 66 - 1))) (subCircuit cols9 pubIn 0) :=
  have h := pub_limbs (x := 0) (y := 2 ^ 66 - 1) (by norm_num) (by norm_num)
  sub_refuted pallas_large cols9_ok cols9_id h.1 h.2 (by norm_num) (by norm_num) (fun i hi => (pub_outside 4 i hi).1)
    (fun i hi => (pub_outside 4 i hi).2)

/-- `5 - 7` can. -/
example : Sat (subAssign cols9 pubIn 0 (pubTable 5 7)) (subCircuit cols9 pubIn 0) :=
  have h := pub_limbs (x := 5) (y := 7) (by norm_num) (by norm_num)
  (sub_complete_partial pallas_large cols9_ok cols9_id h.1 h.2 (by rw [modulus_val]; norm_num)
    (by rw [modulus_val]; norm_num) (.inr (by norm_num)) (fun i hi => (pub_outside 4 i hi).1)
    (fun i hi => (pub_outside 4 i hi).2)).1

/-- The sum `(p - 1) + 1` accepted as `p`. -/
example : ∃ t', Sat t' (addCircuit cols9 pubIn 0) ∧ Limbs (F := ZMod pallasP) t' (addResult cols9 0) modulus := by
  have hp : modulus - 1 < 2 ^ 255 := by rw [modulus_val]; norm_num
  have h := pub_limbs (x := modulus - 1) (y := 1) hp (by norm_num)
  obtain ⟨t', -, h1, h2, -⟩ := add_noncanonical pallas_large cols9_ok h.1 h.2
    (by rw [modulus_val]; norm_num) (fun i hi => (pub_outside 4 i hi).1) (fun i hi => (pub_outside 4 i hi).2)
  rw [Nat.sub_add_cancel (by rw [modulus_val]; norm_num)] at h2
  exact ⟨t', h1, h2⟩

/-- `2 + 3` on columns 4 to 12. -/
example : ¬ Sat (addAssign ⟨[4, 5, 6, 7, 8, 9, 10, 11, 12], [], []⟩ pubIn 0 (pubTable 2 3))
    (addCircuit ⟨[4, 5, 6, 7, 8, 9, 10, 11, 12], [], []⟩ pubIn 0) :=
  have h := pub_limbs (x := 2) (y := 3) (by norm_num) (by norm_num)
  add_columns_refuted pallas_large ⟨by decide, rfl⟩ (by decide) h.1 h.2 (by norm_num) (by rw [modulus_val]; norm_num)
    (fun i hi => rfl) (fun i hi => (pub_outside 4 i hi).1) (fun i hi => (pub_outside 4 i hi).2)

end instances

end Ed25519
end Verif
