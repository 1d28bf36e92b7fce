import Verif.Props.VarBaseStep

/-!
# The circuit of the variable base multiplication, read row by row, and the arithmetic of its scalars
-/

set_option linter.unusedVariables false
set_option linter.unusedSectionVars false
set_option linter.unusedSimpArgs false

namespace Verif
namespace VarBaseMul

section facts
variable {F : Type*} [Field F]

/-- Point `m` of the pair of rows at `r`. -/
def X (c : Cols) (t : Table F) (r : ℤ) (m : ℕ) : F :=
  if m = 5 then t .witness (c.w 0) (r + 1) else t .witness (c.w (pcol m)) r
def Y (c : Cols) (t : Table F) (r : ℤ) (m : ℕ) : F :=
  if m = 5 then t .witness (c.w 1) (r + 1) else t .witness (c.w (pcol m + 1)) r
def bitAt (c : Cols) (t : Table F) (r : ℤ) (m : ℕ) : F := t .witness (c.w (2 + m)) (r + 1)
def slAt (c : Cols) (t : Table F) (r : ℤ) (m : ℕ) : F := t .witness (c.w (7 + m)) (r + 1)

/-- The obligations of a pair of rows; `g` is whether the last two steps count. -/
structure Pair (c : Cols) (t : Table F) (r : ℤ) (g : Prop) : Prop where
  bit : ∀ m < 5, bitAt c t r m * (1 - bitAt c t r m) = 0
  slope : ∀ m < 5, Slope (X c t r m) (Y c t r m) (t .witness (c.w 0) r)
    ((2 * bitAt c t r m - 1) * t .witness (c.w 1) r) (slAt c t r m)
  chord : ∀ m < 5, (m < 3 ∨ g) → Chord (X c t r m) (Y c t r m) (t .witness (c.w 0) r) (slAt c t r m)
    (X c t r (m + 1)) (Y c t r (m + 1))
  acc : t .witness (c.w 5) r = 32 * t .witness (c.w 4) r + 16 * bitAt c t r 0 + 8 * bitAt c t r 1 + 4 * bitAt c t r 2 +
    2 * bitAt c t r 3 + bitAt c t r 4

theorem px_eval (c : Cols) (t : Table F) (row rot : ℤ) (m : ℕ) :
    (px c rot m : Expr F).eval t row = X c t (row + rot) m := by
  unfold px X
  split_ifs <;> simp [add_assoc]

theorem py_eval (c : Cols) (t : Table F) (row rot : ℤ) (m : ℕ) :
    (py c rot m : Expr F).eval t row = Y c t (row + rot) m := by
  unfold py Y
  split_ifs <;> simp [add_assoc]

theorem bitE_eval (c : Cols) (t : Table F) (row rot : ℤ) (m : ℕ) :
    (bitE c rot m : Expr F).eval t row = bitAt c t (row + rot) m := by
  simp [bitE, bitAt, add_assoc]

theorem sE_eval (c : Cols) (t : Table F) (row rot : ℤ) (m : ℕ) :
    (sE c rot m : Expr F).eval t row = slAt c t (row + rot) m := by
  simp [sE, slAt, add_assoc]

theorem pairC_iff (c : Cols) (t : Table F) (row rot : ℤ) (mask : Expr F → Expr F) (g : Prop)
    (hm : ∀ e : Expr F, (mask e).eval t row = 0 ↔ (g → e.eval t row = 0)) :
    (∀ e ∈ pairC c rot mask, e.eval t row = 0) ↔ Pair c t (row + rot) g := by
  have hk : ∀ (m : ℕ) (e : Expr F), ((if m < 3 then e else mask e).eval t row = 0) ↔ ((m < 3 ∨ g) → e.eval t row = 0) := by
    intro m e
    by_cases h : m < 3
    · simp [h]
    · simp [h, hm]
  have hx : ∀ m, (xC (px c rot m) (py c rot m) (c.wv 0 rot) (sE c rot m) (px c rot (m + 1)) : Expr F).eval t row = 0 ↔
      (2 * Y c t (row + rot) m - slAt c t (row + rot) m * (2 * X c t (row + rot) m - slAt c t (row + rot) m ^ 2 +
        t .witness (c.w 0) (row + rot))) * (2 * Y c t (row + rot) m - slAt c t (row + rot) m *
        (2 * X c t (row + rot) m - slAt c t (row + rot) m ^ 2 + t .witness (c.w 0) (row + rot))) =
      (2 * X c t (row + rot) m - slAt c t (row + rot) m ^ 2 + t .witness (c.w 0) (row + rot)) *
      (2 * X c t (row + rot) m - slAt c t (row + rot) m ^ 2 + t .witness (c.w 0) (row + rot)) *
      (X c t (row + rot) (m + 1) - t .witness (c.w 0) (row + rot) + slAt c t (row + rot) m ^ 2) := by
    intro m
    simp only [xC, uE, Expr.eval_sub, Expr.eval_mul, Expr.eval_add, Expr.eval_pow, Expr.eval_two, px_eval, py_eval, sE_eval,
      Cols.eval_wv]
    exact sub_eq_zero
  have hy : ∀ m, (yC (px c rot m) (py c rot m) (c.wv 0 rot) (sE c rot m) (px c rot (m + 1)) (py c rot (m + 1)) :
      Expr F).eval t row = 0 ↔
      (Y c t (row + rot) (m + 1) + Y c t (row + rot) m) * (2 * X c t (row + rot) m - slAt c t (row + rot) m ^ 2 +
        t .witness (c.w 0) (row + rot)) = (X c t (row + rot) m - X c t (row + rot) (m + 1)) * (2 * Y c t (row + rot) m -
        slAt c t (row + rot) m * (2 * X c t (row + rot) m - slAt c t (row + rot) m ^ 2 +
        t .witness (c.w 0) (row + rot))) := by
    intro m
    simp only [yC, uE, Expr.eval_sub, Expr.eval_mul, Expr.eval_add, Expr.eval_pow, Expr.eval_two, px_eval, py_eval, sE_eval,
      Cols.eval_wv]
    exact sub_eq_zero
  have hsl : ∀ m, (slopeC (px c rot m) (py c rot m) (c.wv 0 rot) (c.wv 1 rot) (bitE c rot m) (sE c rot m) :
      Expr F).eval t row = 0 ↔ Slope (X c t (row + rot) m) (Y c t (row + rot) m) (t .witness (c.w 0) (row + rot))
        ((2 * bitAt c t (row + rot) m - 1) * t .witness (c.w 1) (row + rot)) (slAt c t (row + rot) m) := by
    intro m
    simp only [slopeC, Expr.eval_sub, Expr.eval_mul, Expr.eval_two, Expr.eval_one, px_eval, py_eval, sE_eval, bitE_eval,
      Cols.eval_wv]
    exact sub_eq_zero
  have hb : ∀ m, (bitE c rot m * (1 - bitE c rot m) : Expr F).eval t row = 0 ↔
      bitAt c t (row + rot) m * (1 - bitAt c t (row + rot) m) = 0 := by
    intro m
    simp only [Expr.eval_sub, Expr.eval_mul, Expr.eval_one, bitE_eval]
  have ha : (c.wv 5 rot - (.const 32 * c.wv 4 rot + .const 16 * bitE c rot 0 + .const 8 * bitE c rot 1 +
      .const 4 * bitE c rot 2 + 2 * bitE c rot 3 + bitE c rot 4) : Expr F).eval t row = 0 ↔
      t .witness (c.w 5) (row + rot) = 32 * t .witness (c.w 4) (row + rot) + 16 * bitAt c t (row + rot) 0 +
      8 * bitAt c t (row + rot) 1 + 4 * bitAt c t (row + rot) 2 + 2 * bitAt c t (row + rot) 3 + bitAt c t (row + rot) 4 := by
    simp only [Expr.eval_sub, Expr.eval_mul, Expr.eval_add, Expr.eval_two, Expr.eval_const, bitE_eval, Cols.eval_wv]
    exact sub_eq_zero
  unfold pairC
  simp only [List.mem_append, List.mem_map, List.mem_range, List.mem_singleton, or_imp, forall_and, forall_exists_index,
    and_imp, forall_apply_eq_imp_iff₂, forall_eq, hk, hx, hy, hsl, hb, ha]
  constructor
  · rintro ⟨⟨⟨⟨h1, h2⟩, h3⟩, h4⟩, h5⟩
    refine ⟨h1, h2, fun m hm5 hg => ⟨?_, ?_⟩, h5⟩
    · rcases hg with hg | hg
      · exact h3.1 m hm5 hg
      · exact h3.2 m hm5 hg
    · rcases hg with hg | hg
      · exact h4.1 m hm5 hg
      · exact h4.2 m hm5 hg
  · rintro ⟨h1, h2, h3, h5⟩
    exact ⟨⟨⟨⟨h1, h2⟩, fun m hm5 hg => (h3 m hm5 (Or.inl hg)).1, fun m hm5 hg => (h3 m hm5 (Or.inr hg)).1⟩,
      fun m hm5 hg => (h3 m hm5 (Or.inl hg)).2, fun m hm5 hg => (h3 m hm5 (Or.inr hg)).2⟩, h5⟩

/-- The circuit, row by row. -/
structure Facts (K : Kind F) (c : Cols) (inp : In) (srow : ℤ) (t : Table F) : Prop where
  const0 : t .constant (c.k 0) (srow + 1) = 0
  ua : Sat t (UnifiedAddition.circuit c (addIn inp) srow)
  pairs : ∀ k : ℕ, k < 50 → Pair c t (srow + 1 + 2 * (k : ℤ)) True
  last : Pair c t (srow + 101) (t .witness (c.w 8) (srow + 103) * t .witness (c.w 2) (srow + 103) ≠ 0)
  lastc : ∀ e ∈ lastC K c, e.eval t (srow + 102) = 0
  aux : ∀ k : ℕ, k < 21 → ∀ e ∈ gate3 c, e.eval t (srow + 59 + 2 * (k : ℤ)) = 0
  cp : Sat t (copies K c inp srow)

theorem sat_iff (K : Kind F) (c : Cols) (inp : In) (srow : ℤ) (t : Table F) :
    Sat t (circuit K c inp srow) ↔ Facts K c inp srow t := by
  unfold circuit
  rw [sat_append, sat_append]
  simp only [sat_cons, sat_nil, holds_constant, holds_gate, and_true, List.mem_singleton, forall_eq, gate1, gate2,
    List.mem_append, or_imp, forall_and]
  have hrow1 : (∀ r ∈ rowsBetween (srow + 1) (srow + 100) 2, ∀ e ∈ pairC c 0 id, e.eval t r = 0) ↔
      ∀ k : ℕ, k < 50 → Pair c t (srow + 1 + 2 * (k : ℤ)) True := by
    constructor
    · intro h k hk
      have := (pairC_iff c t _ 0 id True (by simp)).1
        (h (srow + 1 + 2 * (k : ℤ)) ((mem_rowsBetween (by norm_num)).2 ⟨k, by push_cast; rfl, by omega⟩))
      rwa [add_zero] at this
    · intro h r hr
      obtain ⟨k, rfl, hk⟩ := (mem_rowsBetween (by norm_num)).1 hr
      push_cast at hk ⊢
      rw [pairC_iff c t _ 0 id True (by simp), add_zero]
      exact h k (by omega)
  have hrow3 : (∀ r ∈ rowsBetween (srow + 59) (srow + 59 + 40) 2, ∀ e ∈ gate3 c, e.eval t r = 0) ↔
      ∀ k : ℕ, k < 21 → ∀ e ∈ gate3 c, e.eval t (srow + 59 + 2 * (k : ℤ)) = 0 := by
    constructor
    · intro h k hk
      exact h _ ((mem_rowsBetween (by norm_num)).2 ⟨k, by push_cast; rfl, by omega⟩)
    · intro h r hr
      obtain ⟨k, rfl, hk⟩ := (mem_rowsBetween (by norm_num)).1 hr
      push_cast at hk ⊢
      exact h k (by omega)
  have hlast := pairC_iff c t (srow + 102) (-1) (fun e => e * c.wv 8 1 * c.wv 2 1)
    (t .witness (c.w 8) (srow + 103) * t .witness (c.w 2) (srow + 103) ≠ 0) (by
      intro e
      simp only [Expr.eval_mul, Cols.eval_wv]
      rw [show srow + 102 + 1 = srow + 103 by ring, mul_assoc]
      constructor
      · intro h hne
        exact (mul_eq_zero.1 h).resolve_right hne
      · intro h
        by_cases h0 : t .witness (c.w 8) (srow + 103) * t .witness (c.w 2) (srow + 103) = 0
        · rw [h0, mul_zero]
        · rw [h h0, zero_mul])
  rw [show srow + 102 + -1 = srow + 101 by ring] at hlast
  rw [hrow1, hrow3, hlast]
  constructor
  · rintro ⟨⟨⟨h1, h2, ⟨h3, h4⟩, h5⟩, h6⟩, h7⟩
    exact ⟨h1, h6, h2, h3, h4, h5, h7⟩
  · rintro ⟨h1, h6, h2, h3, h4, h5, h7⟩
    exact ⟨⟨⟨h1, h2, ⟨h3, h4⟩, h5⟩, h6⟩, h7⟩

end facts

section scalars

/-- The number with the first `i` of the given bits. -/
def pre (β : ℕ → ℕ) : ℕ → ℕ
  | 0 => 0
  | i + 1 => 2 * pre β i + β i

/-- The multiple of the base point after `i` steps. -/
def al (β : ℕ → ℕ) (i : ℕ) : ℕ := 2 ^ i + 1 + 2 * pre β i

theorem pre_lt {β : ℕ → ℕ} (hβ : ∀ i < 255, β i < 2) (i : ℕ) (hi : i ≤ 255) : pre β i < 2 ^ i := by
  induction i with
  | zero => simp [pre]
  | succ i ih =>
    have := ih (by omega)
    have := hβ i (by omega)
    rw [pre, pow_succ]
    omega

theorem al_succ (β : ℕ → ℕ) (i : ℕ) : al β (i + 1) + 1 = 2 * al β i + 2 * β i := by
  simp only [al, pre, pow_succ]; ring

/-- The step from `i` is an ordinary one. -/
structure Good (r : ℕ) (β : ℕ → ℕ) (i : ℕ) : Prop where
  zero : ¬ r ∣ al β i
  one : ¬ r ∣ al β i - 1
  minus : ¬ r ∣ al β i + 1
  next : ¬ r ∣ al β (i + 1)

theorem not_dvd {r x : ℕ} (h0 : 0 < x) (h1 : x < r) : ¬ r ∣ x := Nat.not_dvd_of_pos_of_lt h0 h1

variable {r τ : ℕ} {β : ℕ → ℕ}

/-- The scalars for which every step up to the third from the end is ordinary. -/
def Fine (τ n : ℕ) : Prop := n < 2 ^ 254 + 2 ^ 130 ∧ (n < 2 ^ 254 + 2 * τ - 2 ∨ 2 ^ 254 + 2 * τ + 1 < n)

theorem pre_254 (β : ℕ → ℕ) : pre β 255 = 2 * pre β 254 + β 254 := rfl
theorem pre_253 (β : ℕ → ℕ) : pre β 254 = 2 * pre β 253 + β 253 := rfl
theorem pre_252 (β : ℕ → ℕ) : pre β 253 = 2 * pre β 252 + β 252 := rfl

theorem not_dvd_k {r x : ℕ} (h5 : x < 5 * r) (h0 : x ≠ 0) (h1 : x ≠ r) (h2 : x ≠ 2 * r) (h3 : x ≠ 3 * r) (h4 : x ≠ 4 * r) :
    ¬ r ∣ x := by
  rintro ⟨k, hk⟩
  have : k < 5 := by
    by_contra hc
    have : r * 5 ≤ r * k := Nat.mul_le_mul_left r (by omega)
    omega
  interval_cases k <;> omega

theorem good_low (hr : r = 2 ^ 254 + τ) (hβ : ∀ i < 255, β i < 2) (i : ℕ) (hi : i < 252) : Good r β i := by
  have h1 := pre_lt hβ i (by omega)
  have h2 := pre_lt hβ (i + 1) (by omega)
  have h3 : 2 ^ i ≤ 2 ^ 251 := Nat.pow_le_pow_right (by norm_num) (by omega)
  have h4 : (2 : ℕ) ^ (i + 1) ≤ 2 ^ 252 := Nat.pow_le_pow_right (by norm_num) (by omega)
  have h5 : 0 < 2 ^ i := by positivity
  generalize hx : 2 ^ i = x at *
  generalize hy : 2 ^ (i + 1) = y at *
  refine ⟨?_, ?_, ?_, ?_⟩ <;> unfold al <;> rw [‹2 ^ _ = _›] <;> apply not_dvd <;> omega

theorem good_252 (hr : r = 2 ^ 254 + τ) (h4 : 4 < τ) (ht : τ < 2 ^ 126) (ho : τ % 2 = 1) (hβ : ∀ i < 255, β i < 2)
    (hn : Fine τ (pre β 255)) : Good r β 252 := by
  have h1 := pre_lt hβ 252 (by omega)
  have b2 := hβ 252 (by omega)
  have b3 := hβ 253 (by omega)
  have b4 := hβ 254 (by omega)
  unfold Fine at hn
  rw [pre_254, pre_253, pre_252] at hn
  refine ⟨?_, ?_, ?_, ?_⟩ <;> unfold al
  · apply not_dvd <;> omega
  · apply not_dvd <;> omega
  · apply not_dvd <;> omega
  · rw [pre_252]
    apply not_dvd_k <;> omega

theorem good_253 (hr : r = 2 ^ 254 + τ) (h4 : 4 < τ) (ht : τ < 2 ^ 126) (ho : τ % 2 = 1) (hβ : ∀ i < 255, β i < 2)
    (hn : Fine τ (pre β 255)) (h1 : pre β 255 ≠ τ) (h2 : pre β 255 ≠ τ - 1) : Good r β 253 := by
  have h1 := pre_lt hβ 253 (by omega)
  have b3 := hβ 253 (by omega)
  have b4 := hβ 254 (by omega)
  have g := (good_252 hr h4 ht ho hβ hn).next
  unfold Fine at hn
  rw [pre_254, pre_253] at hn
  rw [pre_254, pre_253] at *
  refine ⟨g, ?_, ?_, ?_⟩ <;> unfold al
  · apply not_dvd_k <;> omega
  · apply not_dvd_k <;> omega
  · rw [pre_253]
    apply not_dvd_k <;> omega

/-- Without the exceptional scalars `±1` the first three conditions of step 253 hold all the same. -/
theorem good_253' (hr : r = 2 ^ 254 + τ) (h4 : 4 < τ) (ht : τ < 2 ^ 126) (ho : τ % 2 = 1) (hβ : ∀ i < 255, β i < 2)
    (hn : Fine τ (pre β 255)) : ¬ r ∣ al β 253 ∧ ¬ r ∣ al β 253 - 1 ∧ ¬ r ∣ al β 253 + 1 := by
  have h1 := pre_lt hβ 253 (by omega)
  have b3 := hβ 253 (by omega)
  have b4 := hβ 254 (by omega)
  have g := (good_252 hr h4 ht ho hβ hn).next
  refine ⟨g, ?_, ?_⟩ <;> unfold al
  · apply not_dvd_k <;> omega
  · apply not_dvd_k <;> omega

theorem good_254' (hr : r = 2 ^ 254 + τ) (h4 : 4 < τ) (ht : τ < 2 ^ 126) (ho : τ % 2 = 1) (hβ : ∀ i < 255, β i < 2)
    (hn : Fine τ (pre β 255)) : ¬ r ∣ al β 254 - 1 ∧ ¬ r ∣ al β 254 + 1 := by
  have h1 := pre_lt hβ 254 (by omega)
  have b4 := hβ 254 (by omega)
  unfold Fine at hn
  rw [pre_254] at hn
  refine ⟨?_, ?_⟩ <;> unfold al
  · apply not_dvd_k <;> omega
  · apply not_dvd_k <;> omega

theorem good_254 (hr : r = 2 ^ 254 + τ) (h4 : 4 < τ) (ht : τ < 2 ^ 126) (ho : τ % 2 = 1) (hβ : ∀ i < 255, β i < 2)
    (hn : Fine τ (pre β 255)) (h1 : pre β 255 ≠ τ) (h2 : pre β 255 ≠ τ - 1) (h3 : 2 * pre β 255 + 1 + 2 ^ 255 ≠ 3 * r) :
    Good r β 254 := by
  have g := (good_253 hr h4 ht ho hβ hn h1 h2).next
  obtain ⟨g1, g2⟩ := good_254' hr h4 ht ho hβ hn
  have h1 := pre_lt hβ 255 (by omega)
  unfold Fine at hn
  refine ⟨g, g1, g2, ?_⟩
  unfold al
  rw [show 254 + 1 = 255 from rfl]
  apply not_dvd_k <;> omega

theorem al_255 (β : ℕ → ℕ) : al β 255 = 2 * pre β 255 + 1 + 2 ^ 255 := by unfold al; ring

end scalars
end VarBaseMul
end Verif
