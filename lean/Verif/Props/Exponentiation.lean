import Verif.Model.Exponentiation
import Verif.Props.BitBuilder
import Mathlib.FieldTheory.Finite.Basic

/-!
# Exponentiation: C25
-/

set_option linter.unusedSimpArgs false
set_option linter.unusedVariables false
set_option linter.unusedSectionVars false

namespace Verif
namespace Exponentiation

section
variable {F : Type*} [Field F]

/-- Bit `i` of main row `r`. -/
def bitv (c : Cols) (t : Table F) (srow : ℤ) (r i : ℕ) : F := t .witness (c.w ((14 - i : ℕ) : ℤ)) (srow + 1 + (r : ℤ))

theorem gate_iff (c : Cols) (t : Table F) (row : ℤ) :
    (∀ e ∈ (gate c : List (Expr F)), e.eval t row = 0) ↔
      (∀ i < 8, t .witness (c.w ((14 - i : ℕ) : ℤ)) row = 0 ∨ t .witness (c.w ((14 - i : ℕ) : ℤ)) row = 1) ∧
      (∀ j < 4, t .witness (c.w ((2 + j : ℕ) : ℤ)) row =
        (let a := if j = 0 then t .witness (c.w 5) (row + -1) else t .witness (c.w ((1 + j : ℕ) : ℤ)) row
         let f := fun b => t .witness (c.w 0) row * b + (1 - b)
         let s := a * a * f (t .witness (c.w ((14 - 2 * j : ℕ) : ℤ)) row)
         s * s * f (t .witness (c.w ((14 - (2 * j + 1) : ℕ) : ℤ)) row))) ∧
      t .witness (c.w 1) row = 2 ^ 8 * t .witness (c.w 1) (row + -1) +
        horner2 (fun i => t .witness (c.w ((14 - i : ℕ) : ℤ)) row) 8 := by
  have hb : ∀ b : F, b * (1 - b) = 0 ↔ b = 0 ∨ b = 1 := by
    intro b
    rw [mul_eq_zero, sub_eq_zero, eq_comm (a := (1 : F))]
  have h8 : ∀ P : ℕ → Prop, (∀ i < 8, P i) ↔ P 0 ∧ P 1 ∧ P 2 ∧ P 3 ∧ P 4 ∧ P 5 ∧ P 6 ∧ P 7 := by
    intro P
    constructor
    · intro h; exact ⟨h 0 (by omega), h 1 (by omega), h 2 (by omega), h 3 (by omega), h 4 (by omega), h 5 (by omega),
        h 6 (by omega), h 7 (by omega)⟩
    · rintro ⟨h0, h1, h2, h3, h4, h5, h6, h7⟩ i hi
      interval_cases i <;> assumption
  have h4 : ∀ P : ℕ → Prop, (∀ i < 4, P i) ↔ P 0 ∧ P 1 ∧ P 2 ∧ P 3 := by
    intro P
    constructor
    · intro h; exact ⟨h 0 (by omega), h 1 (by omega), h 2 (by omega), h 3 (by omega)⟩
    · rintro ⟨h0, h1, h2, h3⟩ i hi
      interval_cases i <;> assumption
  rw [h8, h4]
  simp [gate, perRow, List.range_succ, bitCol, interC, accC, bitsPerRow, Cols.eval_wv, horner2_succ, sub_eq_zero]
  simp only [eq_comm (a := (1 : F))]
  constructor
  · rintro ⟨b0, b1, e0, b2, b3, e1, b4, b5, e2, b6, b7, e3, e⟩
    exact ⟨⟨b0, b1, b2, b3, b4, b5, b6, b7⟩, ⟨e0.symm, e1.symm, e2.symm, e3.symm⟩, by rw [← e]; ring⟩
  · rintro ⟨⟨b0, b1, b2, b3, b4, b5, b6, b7⟩, ⟨e0, e1, e2, e3⟩, e⟩
    exact ⟨b0, b1, e0.symm, b2, b3, e1.symm, b4, b5, e2.symm, b6, b7, e3.symm, by rw [e]; ring⟩

/-- The circuit in terms of the cells of `R` main rows. -/
theorem circuit_iff (c : Cols) (es : ℕ) (base exponent : Var) (srow : ℤ) (t : Table F) (hk : c.k 0 = c.w 0) :
    Sat t (circuit c es base exponent srow) ↔
      (∀ r < mainRows es, ∀ e ∈ (gate c : List (Expr F)), e.eval t (srow + 1 + (r : ℤ)) = 0) ∧
      (∀ r < mainRows es, t .witness (c.w 0) (srow + 1 + (r : ℤ)) = base.value t) ∧
      t .witness (c.w 1) srow = 0 ∧ t .witness (c.w 5) srow = 1 ∧
      t .witness (c.w 1) (srow + (mainRows es : ℤ)) = exponent.value t ∧
      t .constant (c.k 0) srow = 0 ∧ t .constant (c.k 0) (srow + 1) = 1 := by
  have er : srow + ((rows es : ℕ) : ℤ) - 1 = srow + (mainRows es : ℤ) := by unfold rows; push_cast; ring
  have hg : (Op.gate (gate c : List (Expr F)) (rowsFrom (srow + 1) (mainRows es))).Holds t ↔
      ∀ r < mainRows es, ∀ e ∈ (gate c : List (Expr F)), e.eval t (srow + 1 + (r : ℤ)) = 0 := by
    rw [holds_gate]
    constructor
    · intro h r hr; exact h _ (mem_rowsFrom.2 ⟨r, hr, rfl⟩)
    · intro h r hr
      obtain ⟨i, hi, rfl⟩ := mem_rowsFrom.1 hr
      exact h i hi
  have hcp : Sat t ((List.range (mainRows es)).map fun (i : ℕ) =>
      (.copy (c.wa 0 (srow + 1 + (i : ℤ))) base : Op F)) ↔
      ∀ r < mainRows es, t .witness (c.w 0) (srow + 1 + (r : ℤ)) = base.value t := by
    constructor
    · intro h r hr
      have := h _ (List.mem_map.2 ⟨r, List.mem_range.2 hr, rfl⟩)
      rwa [holds_copy, Cols.value_wa] at this
    · intro h o ho
      obtain ⟨r, hr, rfl⟩ := List.mem_map.1 ho
      rw [holds_copy, Cols.value_wa]; exact h r (List.mem_range.1 hr)
  have hzv : (zeroVar c srow).value t = t .constant (c.k 0) srow := by rw [hk]; rfl
  have hov : (oneVar c srow).value t = t .constant (c.k 0) (srow + 1) := by rw [hk]; rfl
  have h5 : ((2 + perRow - 1 : ℕ) : ℤ) = 5 := rfl
  simp only [circuit, sat_append, sat_cons, sat_nil, and_true, hg, hcp, holds_copy, holds_constant, Cols.value_wa, er,
    hzv, hov, h5]
  constructor
  · rintro ⟨⟨h1, h2⟩, h3, h4, h5, h6, h7⟩
    exact ⟨h1, h2, h3.trans h6, h4.trans h7, h5, h6, h7⟩
  · rintro ⟨h1, h2, h3, h4, h5, h6, h7⟩
    exact ⟨⟨h1, h2⟩, h3.trans h6.symm, h4.trans h7.symm, h5, h6, h7⟩

/-- Soundness over any field. -/
theorem sound (c : Cols) (es : ℕ) (base exponent : Var) (srow : ℤ) (t : Table F) (hk : c.k 0 = c.w 0)
    (h : Sat t (circuit c es base exponent srow)) :
    ∃ N : ℕ, N < 2 ^ padded es ∧ exponent.value t = N ∧ (out c es srow).value t = base.value t ^ N := by
  rw [circuit_iff c es base exponent srow t hk] at h
  obtain ⟨hg, hb, h0, h1, he, -, -⟩ := h
  have key : ∀ r ≤ mainRows es, ∃ N : ℕ, N < 2 ^ (r * 8) ∧ t .witness (c.w 1) (srow + (r : ℤ)) = N ∧
      t .witness (c.w 5) (srow + (r : ℤ)) = base.value t ^ N := by
    intro r hr
    induction r with
    | zero => exact ⟨0, by simp, by simpa using h0, by simpa using h1⟩
    | succ r ih =>
      obtain ⟨N, hN, e1, e2⟩ := ih (by omega)
      obtain ⟨hbits, hint, hacc⟩ := (gate_iff c t _).1 (hg r (by omega))
      have er : srow + 1 + (r : ℤ) + -1 = srow + (r : ℤ) := by ring
      have er' : srow + ((r + 1 : ℕ) : ℤ) = srow + 1 + (r : ℤ) := by push_cast; ring
      rw [er] at hint hacc
      rw [er']
      have hbits' : ∀ i < 8, ∃ b : Bool, t .witness (c.w ((14 - i : ℕ) : ℤ)) (srow + 1 + (r : ℤ)) = (b.toNat : F) := by
        intro i hi
        rcases hbits i hi with h | h
        · exact ⟨false, by simpa using h⟩
        · exact ⟨true, by simpa using h⟩
      have : ∀ i, ∃ b : Bool, i < 8 → t .witness (c.w ((14 - i : ℕ) : ℤ)) (srow + 1 + (r : ℤ)) = (b.toNat : F) := by
        intro i
        by_cases hi : i < 8
        · obtain ⟨b, hb⟩ := hbits' i hi; exact ⟨b, fun _ => hb⟩
        · exact ⟨false, fun h => absurd h hi⟩
      choose b hbv using this
      have hsel : ∀ i < 8, ∀ x : F, x * t .witness (c.w ((14 - i : ℕ) : ℤ)) (srow + 1 + (r : ℤ)) +
          (1 - t .witness (c.w ((14 - i : ℕ) : ℤ)) (srow + 1 + (r : ℤ))) = x ^ (b i).toNat := by
        intro i hi x
        rw [hbv i hi]; cases b i <;> simp
      have hstep : ∀ (x : F) (M k : ℕ), x ^ M * x ^ M * x ^ k = x ^ (2 * M + k) := by
        intro x M k; rw [pow_add, two_mul, pow_add]
      have q0 := hint 0 (by omega)
      have q1 := hint 1 (by omega)
      have q2 := hint 2 (by omega)
      have q3 := hint 3 (by omega)
      simp only [if_true, hb r (by omega), e2] at q0
      rw [if_neg (by omega), hb r (by omega)] at q1 q2 q3
      have s := fun i hi => hsel i hi (base.value t)
      simp only [Nat.reduceMul, Nat.reduceAdd] at q0 q1 q2 q3
      rw [s 0 (by omega), s 1 (by omega), hstep, hstep] at q0
      rw [s 2 (by omega), s 3 (by omega), q0, hstep, hstep] at q1
      rw [s 4 (by omega), s 5 (by omega), q1, hstep, hstep] at q2
      rw [s 6 (by omega), s 7 (by omega), q2, hstep, hstep] at q3
      refine ⟨2 ^ 8 * N + bitsNat b 8, ?_, ?_, ?_⟩
      · have := bitsNat_lt b 8
        rw [Nat.add_mul, Nat.one_mul, pow_add]
        nlinarith
      · rw [hacc, e1, horner2_congr fun i hi => hbv i hi, horner2_bits]; push_cast; ring
      · refine q3.trans ?_
        congr 1
        simp only [bitsNat_succ]
        simp only [bitsNat, List.range_zero, List.foldl_nil]
        ring
  obtain ⟨N, hN, e1, e2⟩ := key (mainRows es) le_rfl
  refine ⟨N, hN, by rw [← he, e1], ?_⟩
  rw [out, Cols.value_wa, ← e2]
  have er : srow + ((rows es : ℕ) : ℤ) - 1 = srow + (mainRows es : ℤ) := by unfold rows; push_cast; ring
  rw [er]; rfl

/-- Value written to row `r`, column `j`. -/
def cell (base : F) (bits : ℕ → Bool) (r j : ℕ) : F :=
  if r = 0 then if j = 1 then 0 else 1
  else if j = 0 then base else if j = 1 then nAt bits ((r - 1) * 8 + 8)
  else if j < 6 then accAt base bits ((r - 1) * 8 + (j - 2) * 2 + 2)
  else if bits ((r - 1) * 8 + (14 - j)) then 1 else 0

theorem mem_writes {c : Cols} {es : ℕ} {base : F} {bits : ℕ → Bool} {srow : ℤ} {z : Write F} :
    z ∈ writes c es base bits srow ↔
      z = ⟨.witness, c.w 1, srow, 0⟩ ∨ z = ⟨.witness, 5, srow, 1⟩ ∨ ∃ r < mainRows es,
        z = ⟨.witness, c.w 0, srow + 1 + (r : ℤ), base⟩ ∨
        z = ⟨.witness, c.w 1, srow + 1 + (r : ℤ), nAt bits (r * 8 + 8)⟩ ∨
        (∃ j < 4, z = ⟨.witness, c.w ((2 + j : ℕ) : ℤ), srow + 1 + (r : ℤ), accAt base bits (r * 8 + j * 2 + 2)⟩) ∨
        (∃ i < 8, z = ⟨.witness, c.w ((14 - i : ℕ) : ℤ), srow + 1 + (r : ℤ), if bits (r * 8 + i) then 1 else 0⟩) := by
  simp only [writes, bitsPerRow, perRow, bitCol, Nat.reduceSub, Nat.reduceAdd, Nat.reduceDiv, Nat.reduceMul,
    List.mem_append, List.mem_cons, List.mem_flatMap, List.mem_map, List.mem_range, List.not_mem_nil, or_false]
  constructor
  · rintro ((h | h) | ⟨r, hr, (h | ⟨j, hj, ⟨b, hb, rfl⟩ | h⟩) | h⟩)
    · exact Or.inl h
    · exact Or.inr (Or.inl h)
    · exact Or.inr (Or.inr ⟨r, hr, Or.inl h⟩)
    · refine Or.inr (Or.inr ⟨r, hr, Or.inr (Or.inr (Or.inr ⟨j * 2 + b, by omega, ?_⟩))⟩)
      simp only [show 14 - j * 2 - b = 14 - (j * 2 + b) by omega, ← Nat.add_assoc]
      rfl
    · exact Or.inr (Or.inr ⟨r, hr, Or.inr (Or.inr (Or.inl ⟨j, hj, h⟩))⟩)
    · exact Or.inr (Or.inr ⟨r, hr, Or.inr (Or.inl h)⟩)
  · rintro (h | h | ⟨r, hr, h | h | ⟨j, hj, h⟩ | ⟨i, hi, rfl⟩⟩)
    · exact Or.inl (Or.inl h)
    · exact Or.inl (Or.inr h)
    · exact Or.inr ⟨r, hr, Or.inl (Or.inl h)⟩
    · exact Or.inr ⟨r, hr, Or.inr h⟩
    · exact Or.inr ⟨r, hr, Or.inl (Or.inr ⟨j, hj, Or.inr h⟩)⟩
    · refine Or.inr ⟨r, hr, Or.inl (Or.inr ⟨i / 2, by omega, Or.inl ⟨i % 2, by omega, ?_⟩⟩)⟩
      simp only [show 14 - i / 2 * 2 - i % 2 = 14 - i by omega]
      have : r * 8 + i / 2 * 2 + i % 2 = r * 8 + i := by omega
      rw [← this]
      rfl

theorem grid (c : Cols) (es : ℕ) (base : F) (bits : ℕ → Bool) (srow : ℤ) (h5 : c.w 5 = 5) :
    GridWrites c srow 15 (rows es) (cell base bits) (writes c es base bits srow) := by
  intro z hz
  have er : ∀ r : ℕ, srow + 1 + (r : ℤ) = srow + ((r + 1 : ℕ) : ℤ) := fun r => by push_cast; ring
  unfold rows
  rcases mem_writes.1 hz with rfl | rfl | ⟨r, hr, rfl | rfl | ⟨j, hj, rfl⟩ | ⟨i, hi, rfl⟩⟩
  · exact ⟨0, by omega, 1, by omega, by simp [cell]⟩
  · exact ⟨0, by omega, 5, by omega, by simp [cell, h5]⟩
  · exact ⟨r + 1, by omega, 0, by omega, by rw [er]; simp [cell]⟩
  · exact ⟨r + 1, by omega, 1, by omega, by rw [er]; simp [cell]⟩
  · refine ⟨r + 1, by omega, 2 + j, by omega, ?_⟩
    rw [er, cell, if_neg (by omega), if_neg (by omega), if_neg (by omega), if_pos (by omega), Nat.add_sub_cancel,
      show 2 + j - 2 = j by omega]
  · refine ⟨r + 1, by omega, 14 - i, by omega, ?_⟩
    have hv : cell base bits (r + 1) (14 - i) = if bits (r * 8 + i) then 1 else 0 := by
      rw [cell, if_neg (by omega), if_neg (by omega), if_neg (by omega), if_neg (by omega), Nat.add_sub_cancel,
        show 14 - (14 - i) = i by omega]
    rw [er, hv]

theorem accAt_eq (base : F) (bits : ℕ → Bool) (k : ℕ) : accAt base bits k = base ^ bitsNat bits k := by
  induction k with
  | zero => simp [accAt, bitsNat]
  | succ k ih =>
    rw [accAt, ih, bitsNat_succ, pow_add, two_mul, pow_add]
    cases bits k <;> simp

theorem nAt_eq (bits : ℕ → Bool) (k : ℕ) : (nAt bits k : F) = bitsNat bits k := by
  induction k with
  | zero => simp [nAt, bitsNat]
  | succ k ih =>
    rw [nAt, ih, bitsNat_succ]
    cases bits k <;> simp

theorem writeConsts_eq (c : Cols) (es : ℕ) (base exponent : Var) (srow : ℤ) (t : Table F) :
    writeConsts (circuit c es base exponent srow) t =
      (t.set .constant (c.k 0) srow 0).set .constant (c.k 0) (srow + 1) 1 := by
  unfold circuit
  rw [writeConsts_append]
  simp only [writeConsts_copy, writeConsts_constant, writeConsts_nil]
  rw [writeConsts_noConst]
  intro o ho col row v
  simp only [List.mem_append, List.mem_cons, List.mem_map, List.not_mem_nil, or_false] at ho
  rcases ho with rfl | ⟨i, -, rfl⟩ <;> simp

/-- Completeness core for an arbitrary bit array. -/
theorem core (c : Cols) (es : ℕ) (hc : c.OK 15) (hk : c.k 0 = c.w 0) (h5 : c.w 5 = 5)
    (base exponent : Var) (srow : ℤ) (t : Table F) (hz : t .constant (c.k 0) srow = 0)
    (ho : t .constant (c.k 0) (srow + 1) = 1) (hbo : base.Outside srow (rows es))
    (heo : exponent.Outside srow (rows es)) (bits : ℕ → Bool)
    (he : exponent.value t = ((bitsNat bits (padded es) : ℕ) : F)) :
    let t' := writeAll (writes c es (base.value t) bits srow) t
    Sat t' (circuit c es base exponent srow) ∧ Frame c srow (rows es) t t' ∧
      (out c es srow).value t' = base.value t ^ bitsNat bits (padded es) := by
  intro t'
  have hG := grid c es (base.value t) bits srow h5
  have hfr : Frame c srow (rows es) t t' := (hG.own hc).frame t
  have er : ∀ r : ℕ, srow + 1 + (r : ℤ) = srow + ((r + 1 : ℕ) : ℤ) := fun r => by push_cast; ring
  have hread : ∀ r j : ℕ, j < 15 → ∀ v : F, cell (base.value t) bits r j = v →
      (⟨.witness, c.w (j : ℤ), srow + (r : ℤ), v⟩ : Write F) ∈ writes c es (base.value t) bits srow →
      t' .witness (c.w (j : ℤ)) (srow + (r : ℤ)) = v := by
    intro r j hj v hv hm
    rw [← hv] at hm ⊢
    exact hG.read hc t hj hm
  have hB : ∀ r < mainRows es, t' .witness (c.w 0) (srow + 1 + (r : ℤ)) = base.value t := by
    intro r hr
    rw [er]
    refine hread (r + 1) 0 (by omega) _ (by simp [cell]) (mem_writes.2 (Or.inr (Or.inr ⟨r, hr, Or.inl ?_⟩)))
    rw [er]; rfl
  have hN : ∀ r ≤ mainRows es, t' .witness (c.w 1) (srow + (r : ℤ)) = nAt bits (r * 8) := by
    intro r hr
    rcases Nat.eq_zero_or_pos r with rfl | h0
    · refine hread 0 1 (by omega) _ (by simp [cell, nAt]) (mem_writes.2 (Or.inl ?_))
      simp [nAt]
    · obtain ⟨r, rfl⟩ : ∃ r', r = r' + 1 := ⟨r - 1, by omega⟩
      refine hread (r + 1) 1 (by omega) _ (by simp [cell, Nat.add_mul])
        (mem_writes.2 (Or.inr (Or.inr ⟨r, by omega, Or.inr (Or.inl ?_)⟩)))
      rw [er, Nat.add_mul]; rfl
  have hA : ∀ r < mainRows es, ∀ j < 4, t' .witness (c.w ((2 + j : ℕ) : ℤ)) (srow + 1 + (r : ℤ)) =
      accAt (base.value t) bits (r * 8 + j * 2 + 2) := by
    intro r hr j hj
    rw [er]
    refine hread (r + 1) (2 + j) (by omega) _ ?_
      (mem_writes.2 (Or.inr (Or.inr ⟨r, hr, Or.inr (Or.inr (Or.inl ⟨j, hj, ?_⟩))⟩)))
    · rw [cell, if_neg (by omega), if_neg (by omega), if_neg (by omega), if_pos (by omega), Nat.add_sub_cancel,
        show 2 + j - 2 = j by omega]
    · rw [er]
  have hA5 : ∀ r ≤ mainRows es, t' .witness (c.w 5) (srow + (r : ℤ)) = accAt (base.value t) bits (r * 8) := by
    intro r hr
    rcases Nat.eq_zero_or_pos r with rfl | h0
    · refine hread 0 5 (by omega) _ (by simp [cell, accAt]) (mem_writes.2 (Or.inr (Or.inl ?_)))
      simp [accAt, h5]
    · obtain ⟨r, rfl⟩ : ∃ r', r = r' + 1 := ⟨r - 1, by omega⟩
      have := hA r (by omega) 3 (by omega)
      rw [er] at this
      rw [show (r + 1) * 8 = r * 8 + 3 * 2 + 2 by omega]; exact this
  have hbt : ∀ r < mainRows es, ∀ i < 8, t' .witness (c.w ((14 - i : ℕ) : ℤ)) (srow + 1 + (r : ℤ)) =
      if bits (r * 8 + i) then 1 else 0 := by
    intro r hr i hi
    rw [er]
    refine hread (r + 1) (14 - i) (by omega) _ ?_
      (mem_writes.2 (Or.inr (Or.inr ⟨r, hr, Or.inr (Or.inr (Or.inr ⟨i, hi, ?_⟩))⟩)))
    · rw [cell, if_neg (by omega), if_neg (by omega), if_neg (by omega), if_neg (by omega), Nat.add_sub_cancel,
        show 14 - (14 - i) = i by omega]
    · rw [er]
  have hpad : padded es = mainRows es * 8 := rfl
  refine ⟨?_, hfr, ?_⟩
  · rw [circuit_iff c es base exponent srow t' hk]
    refine ⟨fun r hr => (gate_iff c t' _).2 ⟨?_, ?_, ?_⟩, fun r hr => ?_, ?_, ?_, ?_, ?_, ?_⟩
    · intro i hi
      rw [hbt r hr i hi]; split_ifs <;> simp
    · intro j hj
      have em : srow + 1 + (r : ℤ) + -1 = srow + (r : ℤ) := by ring
      have hprev : (if j = 0 then t' .witness (c.w 5) (srow + 1 + (r : ℤ) + -1)
          else t' .witness (c.w ((1 + j : ℕ) : ℤ)) (srow + 1 + (r : ℤ))) =
          accAt (base.value t) bits (r * 8 + 2 * j) := by
        rcases Nat.eq_zero_or_pos j with rfl | h0
        · rw [if_pos rfl, em, hA5 r (by omega)]; rfl
        · rw [if_neg (by omega), show 1 + j = 2 + (j - 1) by omega, hA r hr (j - 1) (by omega)]
          congr 1; omega
      have hsel : ∀ b : Bool, base.value t * (if b = true then 1 else 0) + (1 - (if b = true then (1 : F) else 0)) =
          if b = true then base.value t else 1 := by intro b; cases b <;> simp
      simp only [hprev, hB r hr]
      rw [hbt r hr (2 * j) (by omega), hbt r hr (2 * j + 1) (by omega), hsel, hsel, hA r hr j hj,
        show r * 8 + j * 2 + 2 = (r * 8 + 2 * j + 1) + 1 by omega, accAt, accAt]
      simp only [Nat.add_assoc]
    · rw [show srow + 1 + (r : ℤ) + -1 = srow + (r : ℤ) by ring, hN r (by omega),
        show srow + 1 + (r : ℤ) = srow + ((r + 1 : ℕ) : ℤ) by push_cast; ring, hN (r + 1) (by omega), nAt_eq, nAt_eq,
        Nat.add_mul, Nat.one_mul, ← horner2_bits, ← horner2_bits, horner2_add]
      congr 1
      apply horner2_congr
      intro i hi
      have := hbt r hr i hi
      rw [er] at this
      rw [this]
      cases bits (r * 8 + i) <;> simp
    · rw [hB r hr, hfr.outside hbo]
    · have := hN 0 (by omega); simpa [nAt] using this
    · have := hA5 0 (by omega); simpa [accAt] using this
    · rw [hN _ le_rfl, hfr.outside heo, he, nAt_eq, hpad]
    · rw [hfr.const, hz]
    · rw [hfr.const, ho]
  · rw [out, Cols.value_wa, ← accAt_eq, hpad]
    have er : srow + ((rows es : ℕ) : ℤ) - 1 = srow + (mainRows es : ℤ) := by unfold rows; push_cast; ring
    rw [er]; exact hA5 _ le_rfl

end
end Exponentiation

section
variable {p : ℕ} [hp : Fact p.Prime]
open Exponentiation

/-- C25, exactly what the component enforces: base `a`, exponent `e` and output `o` can be proved iff
`o = a^N` for some integer `N < 2^padded` (the exponent size rounded up to a multiple of 8) with `N = e` in the field. -/
theorem exponentiation_accepts_iff (c : Cols) (es : ℕ) (hc : c.OK 15) (hk : c.k 0 = c.w 0)
    (h5 : c.w 5 = 5) (srow : ℤ) (a e o : ZMod p) :
    (∃ t, Sat t (circuit c es ⟨0, 0, false, .publicInput⟩ ⟨0, 1, false, .publicInput⟩ srow) ∧
      t .publicInput 0 0 = a ∧ t .publicInput 0 1 = e ∧ (out c es srow).value t = o) ↔
    ∃ N : ℕ, N < 2 ^ padded es ∧ e = N ∧ o = a ^ N := by
  constructor
  · rintro ⟨t, h, rfl, rfl, rfl⟩
    exact sound c es _ _ srow t hk h
  · rintro ⟨N, hN, rfl, rfl⟩
    set t : Table (ZMod p) := fun ty _ i => if ty = .publicInput then (if i = 0 then a else (N : ZMod p))
      else if i = srow then 0 else 1
    have hb : bitsNat (fun k => N.testBit (padded es - 1 - k)) (padded es) = N := bitsNat_of_testBit N _ hN
    obtain ⟨h1, h2, h3⟩ := core c es hc hk h5 ⟨0, 0, false, .publicInput⟩ ⟨0, 1, false, .publicInput⟩ srow t
      (by simp [t]) (by simp [t]) (by simp [Var.Outside]) (by simp [Var.Outside])
      (fun k => N.testBit (padded es - 1 - k)) (by rw [hb]; rfl)
    refine ⟨_, h1, (h2.outside (v := ⟨0, 0, false, .publicInput⟩) (by simp [Var.Outside])).trans rfl,
      (h2.outside (v := ⟨0, 1, false, .publicInput⟩) (by simp [Var.Outside])).trans rfl, ?_⟩
    rw [h3, hb]; rfl

/-- C25, soundness, for exponent sizes the field can hold and the constant column the code reads. -/
theorem exponentiation_sound_partial (c : Cols) (es : ℕ) (hk : c.k 0 = c.w 0) (hp2 : 2 ^ padded es ≤ p)
    (base exponent : Var) (srow : ℤ) (t : Table (ZMod p)) (h : Sat t (circuit c es base exponent srow)) :
    (out c es srow).value t = base.value t ^ (exponent.value t).val := by
  obtain ⟨N, hN, e1, e2⟩ := sound c es base exponent srow t hk h
  rw [e2, e1, ZMod.val_natCast, Nat.mod_eq_of_lt (by omega)]

/-- C25 fails when the padded exponent size exceeds the field: `a^0 = a` can be proved (and `a^0 = 1` as well). -/
theorem exponentiation_refuted_large (c : Cols) (es : ℕ) (hc : c.OK 15) (hk : c.k 0 = c.w 0)
    (h5 : c.w 5 = 5) (hp2 : p < 2 ^ padded es) (srow : ℤ) (a : ZMod p) :
    ∃ t, Sat t (circuit c es ⟨0, 0, false, .publicInput⟩ ⟨0, 1, false, .publicInput⟩ srow) ∧
      t .publicInput 0 0 = a ∧ t .publicInput 0 1 = 0 ∧ (out c es srow).value t = a := by
  rw [exponentiation_accepts_iff c es hc hk h5]
  exact ⟨p, hp2, by simp, by simp⟩

/-- C25, completeness: the generated table satisfies the constraints and holds `base^exponent`, for every base and
every exponent below `2^padded`, provided witness column 5 of the component is column 5 of the table. -/
theorem exponentiation_complete_partial (c : Cols) (es : ℕ) (hc : c.OK 15) (hk : c.k 0 = c.w 0)
    (h5 : c.w 5 = 5) (base exponent : Var) (srow : ℤ) (t : Table (ZMod p))
    (hbo : base.Outside srow (rows es)) (heo : exponent.Outside srow (rows es)) :
    let tc := writeConsts (circuit c es base exponent srow) t
    (exponent.value tc).val < 2 ^ padded es →
    let t' := assign c es base exponent srow tc
    Sat t' (circuit c es base exponent srow) ∧ Frame c srow (rows es) tc t' ∧
      (out c es srow).value t' = base.value tc ^ (exponent.value tc).val := by
  intro tc he t'
  have htc : tc = _ := writeConsts_eq c es base exponent srow t
  have hb : bitsNat (bitAt es (exponent.value tc).val) (padded es) = (exponent.value tc).val :=
    bitsNat_of_testBit _ _ he
  have := core c es hc hk h5 base exponent srow tc (by rw [htc]; simp [Table.set_apply])
    (by rw [htc]; simp [Table.set_apply]) hbo heo (bitAt es (exponent.value tc).val)
    (by rw [hb, ZMod.natCast_zmod_val])
  rw [hb] at this
  exact this

/-- Without that proviso completeness fails: the assigner sets the initial accumulator in *table* column 5, so on a
fresh (zero) table with any other layout the generated table is rejected. -/
theorem exponentiation_incomplete_layout (c : Cols) (es : ℕ) (hc : c.OK 15) (hk : c.k 0 = c.w 0)
    (h5 : c.w 5 ≠ 5) (base exponent : Var) (srow : ℤ) (t : Table (ZMod p)) (h0 : t .witness (c.w 5) srow = 0) :
    let tc := writeConsts (circuit c es base exponent srow) t
    ¬ Sat (assign c es base exponent srow tc) (circuit c es base exponent srow) := by
  intro tc h
  rw [circuit_iff c es base exponent srow _ hk] at h
  have h1 := h.2.2.2.1
  have htc : tc .witness (c.w 5) srow = 0 := by
    have : tc = _ := writeConsts_eq c es base exponent srow t
    rw [this]; simpa [Table.set_apply] using h0
  have : assign c es base exponent srow tc .witness (c.w 5) srow = 0 := by
    unfold assign
    rw [writeAll_of_notMem, htc]
    rintro z hz ⟨e1, e2, e3⟩
    rcases mem_writes.1 hz with rfl | rfl | ⟨r, hr, rfl | rfl | ⟨j, hj, rfl⟩ | ⟨i, hi, rfl⟩⟩
    · have := (hc.inj (i := 1) (j := 5) ⟨by omega, by omega⟩ ⟨by omega, by omega⟩).1 e2
      omega
    · exact h5 e2.symm
    all_goals (have : srow + 1 + (r : ℤ) = srow := e3; omega)
  rw [this] at h1
  exact zero_ne_one h1

end

/-- The layout hypotheses hold for the layout used by the tests, with 7-bit exponents... -/
example : (⟨[0, 1, 2, 3, 4, 5, 6, 7, 8, 9, 10, 11, 12, 13, 14], [0], []⟩ : Cols).OK 15 ∧
    (⟨[0, 1, 2, 3, 4, 5, 6, 7, 8, 9, 10, 11, 12, 13, 14], [0], []⟩ : Cols).w 5 = 5 ∧
    (⟨[0, 1, 2, 3, 4, 5, 6, 7, 8, 9, 10, 11, 12, 13, 14], [0], []⟩ : Cols).k 0 =
    (⟨[0, 1, 2, 3, 4, 5, 6, 7, 8, 9, 10, 11, 12, 13, 14], [0], []⟩ : Cols).w 0 ∧
    Exponentiation.padded 7 = 8 ∧ 2 ^ Exponentiation.padded 7 ≤ 257 ∧ 7 < 2 ^ Exponentiation.padded 7 :=
  ⟨⟨by decide, rfl⟩, by decide, by decide, by decide, by decide, by decide⟩

/-- ... and are missed by a shifted layout. -/
example : (⟨[1, 2, 3, 4, 5, 6, 7, 8, 9, 10, 11, 12, 13, 14, 15], [1], []⟩ : Cols).OK 15 ∧
    (⟨[1, 2, 3, 4, 5, 6, 7, 8, 9, 10, 11, 12, 13, 14, 15], [1], []⟩ : Cols).w 5 ≠ 5 :=
  ⟨⟨by decide, rfl⟩, by decide⟩

end Verif
