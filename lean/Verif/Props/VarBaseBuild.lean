import Verif.Props.VarBaseSound

/-!
# C77: tables of the variable base scalar multiplication

From the cells of a table to the obligations of the circuit; used for the completeness of the assignment and for the
tables that show what the missing copy constraints allow.
-/

set_option linter.unusedVariables false
set_option linter.unusedSectionVars false
set_option linter.unusedSimpArgs false

namespace Verif
namespace VarBaseMul
open UnifiedAddition (curve enc enc_zero equation_of sumCells_eq pallas_ok vesta_ok)

section build
variable {p : ℕ} [Fact p.Prime] {K : Kind (ZMod p)} {c : Cols} {inp : In} {srow : ℤ} {t : Table (ZMod p)}
  {d : Data (ZMod p)}

/-- The cells that do not belong to the range check. -/
def Main (r j : ℕ) : Prop :=
  (r < 103 ∧ 1 ≤ r ∧ j < 15 ∧ ¬(r % 2 = 1 ∧ j = 6) ∧ ¬(r % 2 = 0 ∧ 12 ≤ j)) ∨ (r = 103 ∧ j ≤ 12)

theorem cell_fst (k j : ℕ) (hk : k < 51) : cell K d (2 * k + 1) j = fstCell d k j := by
  unfold cell
  rw [if_neg (by omega), if_pos (by omega), show (2 * k + 1) / 2 = k by omega]

theorem cell_snd (k j : ℕ) (hk : k < 51) : cell K d (2 * k + 2) j = sndCell d k j := by
  unfold cell
  rw [if_neg (by omega), if_neg (by omega), show (2 * k + 2) / 2 - 1 = k by omega]

theorem cell_last (j : ℕ) : cell K d 103 j = lastCell K d j := rfl

/-- The cells of the main part hold the values of `cell`. -/
def Cells (K : Kind (ZMod p)) (c : Cols) (srow : ℤ) (t : Table (ZMod p)) (d : Data (ZMod p)) : Prop :=
  ∀ r j : ℕ, Main r j → t .witness (c.w (j : ℤ)) (srow + (r : ℤ)) = cell K d r j

theorem Cells.fst (h : Cells K c srow t d) (k j : ℕ) (hk : k < 51) (hj : j < 15) (h6 : j ≠ 6) :
    t .witness (c.w (j : ℤ)) (srow + 1 + 2 * (k : ℤ)) = fstCell d k j := by
  have := h (2 * k + 1) j (Or.inl ⟨by omega, by omega, hj, by omega, by omega⟩)
  rw [cell_fst k j hk] at this
  rw [← this]; congr 1; push_cast; ring

theorem Cells.snd (h : Cells K c srow t d) (k j : ℕ) (hk : k < 51) (hj : j < 12) :
    t .witness (c.w (j : ℤ)) (srow + 1 + 2 * (k : ℤ) + 1) = sndCell d k j := by
  have := h (2 * k + 2) j (Or.inl ⟨by omega, by omega, by omega, by omega, by omega⟩)
  rw [cell_snd k j hk] at this
  rw [← this]; congr 1; push_cast; ring

theorem Cells.last (h : Cells K c srow t d) (j : ℕ) (hj : j ≤ 12) :
    t .witness (c.w (j : ℤ)) (srow + 103) = lastCell K d j := h 103 j (Or.inr ⟨rfl, hj⟩)

theorem Cells.X (h : Cells K c srow t d) (k m : ℕ) (hk : k < 51) (hm : m ≤ 5) :
    X c t (srow + 1 + 2 * (k : ℤ)) m = (pt d (5 * k + m)).1 := by
  unfold VarBaseMul.X
  have h0 := h.snd k 0 hk (by omega)
  have h2 := h.fst k 2 hk (by omega) (by omega)
  have h7 := h.fst k 7 hk (by omega) (by omega)
  have h9 := h.fst k 9 hk (by omega) (by omega)
  have h11 := h.fst k 11 hk (by omega) (by omega)
  have h13 := h.fst k 13 hk (by omega) (by omega)
  interval_cases m
  · exact h2
  · exact h7
  · exact h9
  · exact h11
  · exact h13
  · exact h0

theorem Cells.Y (h : Cells K c srow t d) (k m : ℕ) (hk : k < 51) (hm : m ≤ 5) :
    Y c t (srow + 1 + 2 * (k : ℤ)) m = (pt d (5 * k + m)).2 := by
  unfold VarBaseMul.Y
  have h0 := h.snd k 1 hk (by omega)
  have h2 := h.fst k 3 hk (by omega) (by omega)
  have h7 := h.fst k 8 hk (by omega) (by omega)
  have h9 := h.fst k 10 hk (by omega) (by omega)
  have h11 := h.fst k 12 hk (by omega) (by omega)
  have h13 := h.fst k 14 hk (by omega) (by omega)
  interval_cases m
  · exact h2
  · exact h7
  · exact h9
  · exact h11
  · exact h13
  · exact h0

theorem Cells.bit (h : Cells K c srow t d) (k m : ℕ) (hk : k < 51) (hm : m < 5) :
    bitAt c t (srow + 1 + 2 * (k : ℤ)) m = (d.bits (5 * k + m) : ZMod p) := by
  unfold bitAt
  have h2 := h.snd k 2 hk (by omega)
  have h3 := h.snd k 3 hk (by omega)
  have h4 := h.snd k 4 hk (by omega)
  have h5 := h.snd k 5 hk (by omega)
  have h6 := h.snd k 6 hk (by omega)
  rw [mul_comm 5 k]
  interval_cases m
  · exact h2
  · exact h3
  · exact h4
  · exact h5
  · exact h6

theorem Cells.sl (h : Cells K c srow t d) (k m : ℕ) (hk : k < 51) (hm : m < 5) :
    slAt c t (srow + 1 + 2 * (k : ℤ)) m = slope d (5 * k + m) := by
  unfold slAt
  have h2 := h.snd k 7 hk (by omega)
  have h3 := h.snd k 8 hk (by omega)
  have h4 := h.snd k 9 hk (by omega)
  have h5 := h.snd k 10 hk (by omega)
  have h6 := h.snd k 11 hk (by omega)
  interval_cases m
  · exact h2
  · exact h3
  · exact h4
  · exact h5
  · exact h6

theorem pair_of (h : Cells K c srow t d) (hb : ∀ i, d.bits i < 2) {g : Prop}
    (hs : ∀ i < 255, Slope (pt d i).1 (pt d i).2 d.tx (qy d i) (slope d i))
    (hc : ∀ i < 255, (i < 253 ∨ g) → Chord (pt d i).1 (pt d i).2 d.tx (slope d i) (pt d (i + 1)).1 (pt d (i + 1)).2)
    (k : ℕ) (hk : k < 51) : Pair c t (srow + 1 + 2 * (k : ℤ)) (k < 50 ∨ g) := by
  have tx : t .witness (c.w 0) (srow + 1 + 2 * (k : ℤ)) = d.tx := h.fst k 0 hk (by omega) (by omega)
  have ty : t .witness (c.w 1) (srow + 1 + 2 * (k : ℤ)) = d.ty := h.fst k 1 hk (by omega) (by omega)
  refine ⟨?_, ?_, ?_, ?_⟩
  · intro m hm
    rw [h.bit k m hk hm]
    have := hb (5 * k + m)
    generalize d.bits (5 * k + m) = x at *
    interval_cases x <;> simp
  · intro m hm
    rw [h.bit k m hk hm, h.X k m hk (by omega), h.Y k m hk (by omega), h.sl k m hk hm, tx, ty]
    exact hs _ (by omega)
  · intro m hm hg
    rw [h.X k m hk (by omega), h.Y k m hk (by omega), h.X k (m + 1) hk (by omega), h.Y k (m + 1) hk (by omega),
      h.sl k m hk hm, tx]
    refine hc _ (by omega) ?_
    rcases hg with hg | hg | hg
    · left; omega
    · left; omega
    · right; exact hg
  · rw [h.bit k 0 hk (by omega), h.bit k 1 hk (by omega), h.bit k 2 hk (by omega), h.bit k 3 hk (by omega),
      h.bit k 4 hk (by omega)]
    have h4 : t .witness (c.w 4) (srow + 1 + 2 * (k : ℤ)) = acc d k := h.fst k 4 hk (by omega) (by omega)
    have h5 : t .witness (c.w 5) (srow + 1 + 2 * (k : ℤ)) = acc d (k + 1) := h.fst k 5 hk (by omega) (by omega)
    rw [h4, h5, acc, mul_comm 5 k]; rfl

/-- What remains to be known about a table whose main cells are those of `cell`. -/
structure Rest (K : Kind (ZMod p)) (c : Cols) (inp : In) (srow : ℤ) (t : Table (ZMod p)) (d : Data (ZMod p)) : Prop where
  const0 : t .constant (c.k 0) (srow + 1) = 0
  constw : t .constant (c.w 0) (srow + 1) = 0
  ua : Sat t (UnifiedAddition.circuit c (addIn inp) srow)
  p0 : (t .witness (c.w 4) srow, t .witness (c.w 5) srow) = d.p0
  aux : ∀ k : ℕ, k < 21 → ∀ e ∈ gate3 c, e.eval t (srow + 59 + 2 * (k : ℤ)) = 0
  u0 : t .witness (c.w 6) (srow + 59) = 0
  u : ∀ k : ℕ, k < 20 →
    t .witness (c.w 14) (srow + 59 + 2 * (k : ℤ) + 1) = t .witness (c.w 6) (srow + 59 + 2 * ((k + 1 : ℕ) : ℤ))
  c23 : t .witness (c.w 12) (srow + 102) * (t .witness (c.w 12) (srow + 102) - 1) * (t .witness (c.w 12) (srow + 102) - 2) *
    (t .witness (c.w 12) (srow + 102) - 3) * (t .witness (c.w 12) (srow + 102) - 4) * (t .witness (c.w 12) (srow + 102) - 5) *
    (t .witness (c.w 12) (srow + 102) - 6) * (t .witness (c.w 12) (srow + 102) - 7) = 0
  c24 : t .witness (c.w 13) (srow + 102) * (t .witness (c.w 13) (srow + 102) - 1) = 0
  c25 : t .witness (c.w 14) (srow + 102) = 16 * t .witness (c.w 6) (srow + 101) + 2 * t .witness (c.w 12) (srow + 102) +
    t .witness (c.w 13) (srow + 102)
  c26 : d.bits 0 = 1 → t .witness (c.w 14) (srow + 102) = d.aux
  c27 : d.bits 0 = 1 → e2 d = 2 ^ 124
  e2 : acc d 25 = e2 d
  b : inp.b.value t = d.b
  hi : if K.pallas then inp.bHigh.value t = (d.bits 0 : ZMod p) else d.b = acc d 51
  c28 : d.aux = d.b - (if K.pallas then 0 else (d.bits 0 : ZMod p) * 2 ^ 254) - (if K.pallas then K.tq else K.tp) + 2 ^ 130
  c29 : K.pallas = true → acc d 51 = d.b + (d.bits 0 : ZMod p) * 2 ^ 254

theorem facts_of (h : Cells K c srow t d) (hb : ∀ i, d.bits i < 2)
    (hs : ∀ i < 255, Slope (pt d i).1 (pt d i).2 d.tx (qy d i) (slope d i))
    (hc : ∀ i < 255, (i < 253 ∨ mm K d ≠ 0) →
      Chord (pt d i).1 (pt d i).2 d.tx (slope d i) (pt d (i + 1)).1 (pt d (i + 1)).2)
    (h1 : K.shiftedMinusOne ≠ K.shiftedOne) (h2 : K.shiftedZero ≠ K.shiftedMinusOne) (h3 : K.shiftedZero ≠ K.shiftedOne)
    (hr : Rest K c inp srow t d) : Sat t (circuit K c inp srow) := by
  have l0 : t .witness (c.w 0) (srow + 103) = (res K d).1 := h.last 0 (by omega)
  have l1 : t .witness (c.w 1) (srow + 103) = (res K d).2 := h.last 1 (by omega)
  have l2 : t .witness (c.w 2) (srow + 103) = if mm K d = 0 then 0 else (mm K d)⁻¹ := h.last 2 (by omega)
  have l3 : t .witness (c.w 3) (srow + 103) = if acc d 51 - K.shiftedMinusOne = 0 then 0 else (acc d 51 - K.shiftedMinusOne)⁻¹ :=
    h.last 3 (by omega)
  have l4 : t .witness (c.w 4) (srow + 103) = if acc d 51 - K.shiftedOne = 0 then 0 else (acc d 51 - K.shiftedOne)⁻¹ :=
    h.last 4 (by omega)
  have l5 : t .witness (c.w 5) (srow + 103) = acc d 51 := h.last 5 (by omega)
  have l6 : t .witness (c.w 6) (srow + 103) = d.tx := h.last 6 (by omega)
  have l7 : t .witness (c.w 7) (srow + 103) = d.ty := h.last 7 (by omega)
  have l8 : t .witness (c.w 8) (srow + 103) = mm K d := h.last 8 (by omega)
  have l9 : t .witness (c.w 9) (srow + 103) = (d.bits 0 : ZMod p) := h.last 9 (by omega)
  have l10 : t .witness (c.w 10) (srow + 103) = VarBaseMul.e2 d := h.last 10 (by omega)
  have l11 : t .witness (c.w 11) (srow + 103) = d.b := h.last 11 (by omega)
  have l12 : t .witness (c.w 12) (srow + 103) = d.aux := h.last 12 (by omega)
  have e101 : srow + 1 + 2 * ((50 : ℕ) : ℤ) = srow + 101 := by push_cast; ring
  have e102 : srow + 1 + 2 * ((50 : ℕ) : ℤ) + 1 = srow + 102 := by push_cast; ring
  have e1 : srow + 1 + 2 * ((0 : ℕ) : ℤ) = srow + 1 := by simp
  have e49 : srow + 1 + 2 * ((24 : ℕ) : ℤ) = srow + 49 := by push_cast; ring
  have hx5 : t .witness (c.w 0) (srow + 102) = (pt d 255).1 := by
    have := h.snd 50 0 (by omega) (by omega); rw [e102] at this; exact this
  have hy5 : t .witness (c.w 1) (srow + 102) = (pt d 255).2 := by
    have := h.snd 50 1 (by omega) (by omega); rw [e102] at this; exact this
  have hn5 : t .witness (c.w 5) (srow + 101) = acc d 51 := by
    have := h.fst 50 5 (by omega) (by omega) (by omega); rw [e101] at this; exact this
  have hb02 := hb 0
  have hpair := pair_of h hb hs hc
  have hmask : t .witness (c.w 8) (srow + 103) * t .witness (c.w 2) (srow + 103) ≠ 0 → mm K d ≠ 0 := by
    intro hm e
    rw [l8, e, zero_mul] at hm
    exact hm rfl
  refine (sat_iff _ _ _ _ _).2 ⟨hr.const0, hr.ua, ?_, ?_, ?_, hr.aux, ?_⟩
  · intro k hk
    have := hpair k (by omega)
    exact ⟨this.bit, this.slope, fun m hm _ => this.chord m hm (Or.inr (Or.inl hk)), this.acc⟩
  · have := hpair 50 (by omega)
    rw [e101] at this
    exact ⟨this.bit, this.slope, fun m hm hg => this.chord m hm (hg.imp_right fun h => Or.inr (hmask h)), this.acc⟩
  · refine lastc_iff.2 ⟨?_, ?_, ?_, ?_, ?_, ?_, hr.c23, hr.c24, hr.c25, ?_, ?_, ?_, ?_⟩
    · rw [l8, l2]
      split_ifs with h0
      · rw [h0]; ring
      · rw [mul_inv_cancel₀ h0]; ring
    · rw [l5, l3]
      split_ifs with h0
      · rw [h0]; ring
      · rw [mul_inv_cancel₀ h0]; ring
    · rw [l5, l4]
      split_ifs with h0
      · rw [h0]; ring
      · rw [mul_inv_cancel₀ h0]; ring
    · rw [l8, l2, l5, l3, l4, l6, l0, hx5]
      unfold res mm
      by_cases a1 : acc d 51 = K.shiftedMinusOne
      · simp [a1, sub_eq_zero, h1, sub_ne_zero.2 h1]
      · by_cases a2 : acc d 51 = K.shiftedZero
        · simp [a2, sub_eq_zero, h2, h3, sub_ne_zero.2 h2, sub_ne_zero.2 h3]
        · by_cases a3 : acc d 51 = K.shiftedOne
          · simp [a3, sub_eq_zero, h1.symm, h3.symm, sub_ne_zero.2 h1.symm]
          · simp [a1, a2, a3, sub_eq_zero, sub_ne_zero.2 a1, sub_ne_zero.2 a3]
            field_simp [sub_ne_zero.2 a1, sub_ne_zero.2 a2, sub_ne_zero.2 a3]
    · rw [l8, l2, l5, l3, l4, l7, l1, hy5]
      unfold res mm
      by_cases a1 : acc d 51 = K.shiftedMinusOne
      · simp [a1, sub_eq_zero, h1, sub_ne_zero.2 h1]
      · by_cases a2 : acc d 51 = K.shiftedZero
        · simp [a2, sub_eq_zero, h2, h3, sub_ne_zero.2 h2, sub_ne_zero.2 h3]
        · by_cases a3 : acc d 51 = K.shiftedOne
          · simp [a3, sub_eq_zero, h1.symm, h3.symm, sub_ne_zero.2 h1.symm]
          · simp [a1, a2, a3, sub_eq_zero, sub_ne_zero.2 a1, sub_ne_zero.2 a3]
            field_simp [sub_ne_zero.2 a1, sub_ne_zero.2 a2, sub_ne_zero.2 a3]
    · rw [l8, l5]; rfl
    · rw [l9, l12]
      by_cases h0 : d.bits 0 = 0
      · simp [h0]
      · rw [hr.c26 (by omega)]; ring
    · rw [l9, l10]
      by_cases h0 : d.bits 0 = 0
      · simp [h0]
      · rw [hr.c27 (by omega)]; ring
    · rw [l9, l11, l12]; exact hr.c28
    · intro hk
      rw [l9, l11, hn5]; exact hr.c29 hk
  · refine (copies_iff _ _ _ _ _).2 ⟨?_, ?_, ?_, ?_, ?_, ?_, ?_, ?_, ?_, ?_, ?_, ?_, ?_, hr.u, ?_, ?_, ?_⟩
    · have : t .witness (c.w 2) (srow + 1) = (pt d 0).1 := by
        have := h.fst 0 2 (by omega) (by omega) (by omega); rw [e1] at this; exact this
      rw [this]; exact (congrArg Prod.fst hr.p0).symm
    · have : t .witness (c.w 3) (srow + 1) = (pt d 0).2 := by
        have := h.fst 0 3 (by omega) (by omega) (by omega); rw [e1] at this; exact this
      rw [this]; exact (congrArg Prod.snd hr.p0).symm
    · intro k hk
      exact (h.fst k 0 (by omega) (by omega) (by omega)).trans (h.fst (k + 1) 0 (by omega) (by omega) (by omega)).symm
    · intro k hk
      exact (h.fst k 1 (by omega) (by omega) (by omega)).trans (h.fst (k + 1) 1 (by omega) (by omega) (by omega)).symm
    · intro k hk
      exact (h.fst (k + 1) 2 (by omega) (by omega) (by omega)).trans (h.snd k 0 (by omega) (by omega)).symm
    · intro k hk
      exact (h.fst (k + 1) 3 (by omega) (by omega) (by omega)).trans (h.snd k 1 (by omega) (by omega)).symm
    · intro k hk
      exact (h.fst (k + 1) 4 (by omega) (by omega) (by omega)).trans (h.fst k 5 (by omega) (by omega) (by omega)).symm
    · rw [l5, hn5]
    · rw [l6, ← e101]; exact (h.fst 50 0 (by omega) (by omega) (by omega)).symm
    · rw [l7, ← e101]; exact (h.fst 50 1 (by omega) (by omega) (by omega)).symm
    · rw [hr.constw, ← e1]; exact h.fst 0 4 (by omega) (by omega) (by omega)
    · have hbit : t .witness (c.w 2) (srow + 2) = (d.bits 0 : ZMod p) := by
        have := h.snd 0 2 (by omega) (by omega)
        rw [show srow + 1 + 2 * ((0 : ℕ) : ℤ) + 1 = srow + 2 by push_cast; ring] at this
        exact this
      have := hr.hi
      split_ifs at this ⊢ with hk
      · rw [this, hbit]
      · rw [hr.b, this, hn5]
    · rw [hr.const0, hr.u0]
    · rw [l9]
      have := h.snd 0 2 (by omega) (by omega)
      rw [show srow + 1 + 2 * ((0 : ℕ) : ℤ) + 1 = srow + 2 by push_cast; ring] at this
      exact this
    · rw [l10, ← hr.e2, ← e49]
      exact h.fst 24 5 (by omega) (by omega) (by omega)
    · rw [hr.b, l11]

theorem acc_eq (d : Data (ZMod p)) (k : ℕ) : acc d k = (pre d.bits (5 * k) : ZMod p) := by
  induction k with
  | zero => simp [acc, pre]
  | succ k ih =>
    rw [acc, ih, show 5 * (k + 1) = 5 * k + 4 + 1 by ring, pre, show 5 * k + 4 = 5 * k + 3 + 1 by ring, pre,
      show 5 * k + 3 = 5 * k + 2 + 1 by ring, pre, show 5 * k + 2 = 5 * k + 1 + 1 by ring, pre, pre, mul_comm k 5]
    push_cast
    ring

theorem pre_eq_sum (β : ℕ → ℕ) (m : ℕ) : pre β m = ((List.range m).map fun l => β (m - 1 - l) * 2 ^ l).sum := by
  induction m with
  | zero => rfl
  | succ m ih =>
    rw [List.range_succ_eq_map, List.map_cons, List.sum_cons, List.map_map, pre, ih, ← List.sum_map_mul_left]
    have : (List.range m).map (fun l => 2 * (β (m - 1 - l) * 2 ^ l)) =
        (List.range m).map ((fun l => β (m + 1 - 1 - l) * 2 ^ l) ∘ Nat.succ) := by
      apply List.map_congr_left
      intro l hl
      simp only [Function.comp, Nat.succ_eq_add_one]
      rw [show m + 1 - 1 - (l + 1) = m - 1 - l by omega, pow_succ]
      ring
    rw [this]
    simp
    ring

theorem e2_eq (d : Data (ZMod p)) : VarBaseMul.e2 d = (pre d.bits 125 : ZMod p) := by
  rw [pre_eq_sum]
  unfold VarBaseMul.e2
  rw [Nat.cast_list_sum, List.map_map]
  congr 1
  apply List.map_congr_left
  intro l hl
  have := List.mem_range.1 hl
  simp only [Function.comp]
  rw [show 254 - (130 + l) = 125 - 1 - l by omega]
  push_cast
  ring

section steps
variable {cb : ZMod p} {T : (curve cb).Point} {r τ : ℕ} {β : ℕ → ℕ}

theorem pts (hb : ∀ y : ZMod p, y ^ 2 ≠ cb) (htwo : (2 : ZMod p) ≠ 0) (hβ : ∀ i < 255, β i < 2)
    (hp0 : d.p0 = enc ((2 : ℕ) • T)) (hq : ∀ i < 255, (d.tx, qy d i) = enc (signed T (β i))) (i : ℕ) (hi : i ≤ 255) :
    pt d i = enc (al β i • T) := by
  induction i with
  | zero => rw [pt, hp0]; rfl
  | succ i ih =>
    have h1 := ih (by omega)
    have h2 := hq i (by omega)
    rw [pt, h1, h2, al_next hβ (by omega)]
    unfold next
    simp only [sumCells_eq cb hb htwo]

/-- The multiples for which the slopes exist. -/
theorem no_one (hr : r = 2 ^ 254 + τ) (h4 : 4 < τ) (ht : τ < 2 ^ 126) (ho : τ % 2 = 1) (hβ : ∀ i < 255, β i < 2)
    (hn : Fine τ (pre β 255)) (i : ℕ) (hi : i < 255) : ¬ r ∣ al β i - 1 ∧ ¬ r ∣ al β i + 1 := by
  rcases Nat.lt_or_ge i 252 with h | h
  · have := good_low hr hβ i h
    exact ⟨this.one, this.minus⟩
  · obtain rfl | rfl | rfl : i = 252 ∨ i = 253 ∨ i = 254 := by omega
    · have := good_252 hr h4 ht ho hβ hn
      exact ⟨this.one, this.minus⟩
    · exact (good_253' hr h4 ht ho hβ hn).2
    · exact good_254' hr h4 ht ho hβ hn

theorem slopes (hb : ∀ y : ZMod p, y ^ 2 ≠ cb) (htwo : (2 : ZMod p) ≠ 0) (hT : addOrderOf T = r) (hr : r = 2 ^ 254 + τ)
    (h4 : 4 < τ) (ht : τ < 2 ^ 126) (ho : τ % 2 = 1) (hβ : ∀ i < 255, β i < 2) (hn : Fine τ (pre β 255))
    (hp0 : d.p0 = enc ((2 : ℕ) • T)) (hq : ∀ i < 255, (d.tx, qy d i) = enc (signed T (β i))) (i : ℕ) (hi : i < 255) :
    Slope (pt d i).1 (pt d i).2 d.tx (qy d i) (slope d i) := by
  have hpt := pts hb htwo hβ hp0 hq i (by omega)
  obtain ⟨a, b⟩ := no_one hr h4 ht ho hβ hn i hi
  obtain ⟨n1, n2⟩ := ne_signed (β := β) hT a b (β i)
  have hne : (pt d i).1 ≠ d.tx := by
    rw [hpt, show d.tx = (enc (signed T (β i))).1 by rw [← hq i hi]]
    intro h
    rcases eq_or_neg hb h with h | h
    · exact n1 h
    · exact n2 h
  unfold Slope slope
  have h0 := sub_ne_zero.2 hne
  rw [if_neg h0]
  field_simp

theorem chords (hb : ∀ y : ZMod p, y ^ 2 ≠ cb) (htwo : (2 : ZMod p) ≠ 0) (hT : addOrderOf T = r) (hr : r = 2 ^ 254 + τ)
    (h4 : 4 < τ) (ht : τ < 2 ^ 126) (ho : τ % 2 = 1) (hβ : ∀ i < 255, β i < 2) (hn : Fine τ (pre β 255))
    (hp0 : d.p0 = enc ((2 : ℕ) • T)) (hq : ∀ i < 255, (d.tx, qy d i) = enc (signed T (β i))) {g : Prop}
    (hg : g → pre β 255 ≠ τ ∧ pre β 255 ≠ τ - 1 ∧ 2 * pre β 255 + 1 + 2 ^ 255 ≠ 3 * r) (i : ℕ) (hi : i < 255)
    (hm : i < 253 ∨ g) : Chord (pt d i).1 (pt d i).2 d.tx (slope d i) (pt d (i + 1)).1 (pt d (i + 1)).2 := by
  have hpt := pts hb htwo hβ hp0 hq i (by omega)
  have hpt1 := pts hb htwo hβ hp0 hq (i + 1) (by omega)
  have hs := slopes hb htwo hT hr h4 ht ho hβ hn hp0 hq i hi
  have good : Good r β i := by
    rcases Nat.lt_or_ge i 252 with h | h
    · exact good_low hr hβ i h
    · obtain rfl | rfl | rfl : i = 252 ∨ i = 253 ∨ i = 254 := by omega
      · exact good_252 hr h4 ht ho hβ hn
      · obtain ⟨g1, g2, g3⟩ := hg (hm.resolve_left (by omega))
        exact good_253 hr h4 ht ho hβ hn g1 g2
      · obtain ⟨g1, g2, g3⟩ := hg (hm.resolve_left (by omega))
        exact good_254 hr h4 ht ho hβ hn g1 g2 g3
  have hT0 : T ≠ 0 := nonzero_of_order hT (by omega)
  obtain ⟨n1, n2⟩ := ne_signed (β := β) hT good.one good.minus (β i)
  have e1 := congrArg Prod.fst (hq i hi)
  have e2 := congrArg Prod.snd (hq i hi)
  simp only at e1 e2
  rw [hpt, e1, e2] at hs
  rw [hpt, e1, hpt1, al_next hβ hi]
  refine (chord_iff hb (fun h => good.zero ((nsmul_zero_iff hT _).1 h)) (signed_ne hT0 _) n1 n2 ?_ hs).2 rfl
  rw [← al_next hβ hi]
  exact fun h => good.next ((nsmul_zero_iff hT _).1 h)

end steps
end build
end VarBaseMul
end Verif
