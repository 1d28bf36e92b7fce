import Verif.Props.ZkevmMul

/-!
# zkEVM DIV: C40
-/

set_option linter.unusedSimpArgs false
set_option linter.unusedVariables false
set_option linter.unusedSectionVars false

namespace Verif
namespace Zkevm

/-- First group of DIV constraints as equations; `W r j` is column `j` of the row at offset `r` from the row
of `b`. -/
theorem div1_iff {F : Type*} [Field F] (c : Cols) (pos : Expr F) (t : Table F) (row : ℤ) (hpos : pos.eval t row ≠ 0) :
    (∀ e ∈ divGates1 c pos, e.eval t row = 0) ↔
      let a : ℕ → F := sum64 two fun i => t .witness (c.w (i : ℤ)) (row + -1)
      let b : ℕ → F := sum64 two fun i => t .witness (c.w (i : ℤ)) (row + 0)
      let r : ℕ → F := sum64 two fun i => t .witness (c.w (i : ℤ)) (row + 1)
      let q : ℕ → F := sum64 two fun i => t .witness (c.w ((16 + i : ℕ) : ℤ)) (row + 1)
      let c1 : F := sum64 two (fun i => t .witness (c.w ((16 + i : ℕ) : ℤ)) (row + -1)) 0
      let c3 : F := sum64 two (fun i => t .witness (c.w ((16 + i : ℕ) : ℤ)) (row + 0)) 0
      let c2 : F := t .witness (c.w 20) (row + -1)
      let c4 : F := t .witness (c.w 20) (row + 0)
      let inv : F := t .witness (c.w 21) (row + 0)
      let s : F := ∑ i ∈ Finset.range 16, t .witness (c.w (i : ℤ)) (row + 0)
      (inv = 0 ∨ inv * s = 1) ∧ (s = 0 ∨ inv * s = 1) ∧
      divFirst two a b r q - c1 * two 128 - c2 * two 192 = 0 ∧
      divSecond two a b r q + c1 + c2 * two 64 - c3 * two 128 - c4 * two 192 = 0 ∧
      (c2 = 0 ∨ c2 = 1) ∧ (c4 = 0 ∨ c4 = 1 ∨ c4 = 2 ∨ c4 = 3) ∧
      ∀ i : ℕ, i < 16 → 1 = inv * s ∨ t .witness (c.w (i : ℤ)) (row + 1) = 0 := by
  simp only [divGates1, List.mem_append, List.mem_cons, List.mem_map, List.mem_range, List.not_mem_nil, or_false, or_imp,
    forall_and, forall_eq, forall_exists_index, and_imp, forall_apply_eq_imp_iff₂]
  simp only [divFirst, divSecond, sum64, cE, Expr.eval_mul, Expr.eval_sub, Expr.eval_add, Cols.eval_wv, Expr.eval_one,
    Expr.eval_two, Expr.eval_three, Expr.eval_const, mul_eq_zero, hpos, false_or, eval_chunkSum]
  simp only [and_assoc]
  refine and_congr ?_ (and_congr ?_ (and_congr Iff.rfl (and_congr Iff.rfl (and_congr ?_ (and_congr ?_ ?_)))))
  · rw [sub_eq_zero]
  · rw [sub_eq_zero]
  · rw [sub_eq_zero]
  · rw [sub_eq_zero, sub_eq_zero, sub_eq_zero, or_assoc, or_assoc]
  · simp only [sub_eq_zero]

/-- Second group of DIV constraints as equations, around the row of `r` and `q`. -/
theorem div2_iff {F : Type*} [Field F] (c : Cols) (pos : Expr F) (t : Table F) (row : ℤ) (hpos : pos.eval t row ≠ 0) :
    (∀ e ∈ divGates2 c pos, e.eval t row = 0) ↔
      let inv : F := t .witness (c.w 21) (row + -1)
      let s : F := ∑ i ∈ Finset.range 16, t .witness (c.w (i : ℤ)) (row + -1)
      let d (i : ℕ) : F := t .witness (c.w (i : ℤ)) (row + -1) - t .witness (c.w ((16 + i : ℕ) : ℤ)) (row + 0)
      let T (i : ℕ) : F := t .witness (c.w (i : ℤ)) (row + 1)
      let v (i : ℕ) : F := t .witness (c.w ((16 + i : ℕ) : ℤ)) (row + 1)
      inv * s = 0 ∨ (T 15 = v 15 * d 15 ∧ (v 15 = 0 ∨ v 15 * d 15 = 1) ∧ (d 15 = 0 ∨ v 15 * d 15 = 1) ∧
        (∀ i < 15, T i = T (i + 1) + (1 - T (i + 1)) * v i * d i ∧ (v i = 0 ∨ v i * d i = 1) ∧ (d i = 0 ∨ v i * d i = 1)) ∧
        T 0 = 1) := by
  simp only [divGates2, List.mem_append, List.mem_cons, List.mem_flatMap, List.mem_reverse, List.mem_range,
    List.not_mem_nil, or_false, or_imp, forall_and, forall_eq, forall_exists_index, and_imp]
  simp only [Expr.eval_mul, Expr.eval_sub, Expr.eval_add, Cols.eval_wv, Expr.eval_one, eval_chunkSum, mul_eq_zero, hpos, false_or]
  set inv : F := t .witness (c.w 21) (row + -1)
  set s : F := ∑ i ∈ Finset.range 16, t .witness (c.w (i : ℤ)) (row + -1)
  by_cases h1 : inv = 0
  · simp only [h1, true_or, and_self, true_and]
    refine iff_of_true ⟨⟨?_, ?_, ?_⟩, trivial⟩ trivial <;> intro e i hi he <;> rw [he] <;>
      simp only [Expr.eval_mul, Cols.eval_wv] <;> rw [show t .witness (c.w 21) (row + -1) = 0 from h1] <;> ring
  by_cases h2 : s = 0
  · simp only [h2, or_true, true_or, and_self, true_and]
    refine iff_of_true ⟨⟨?_, ?_, ?_⟩, trivial⟩ trivial <;> intro e i hi he <;> rw [he] <;>
      simp only [Expr.eval_mul, Cols.eval_wv, eval_chunkSum] <;>
      rw [show (∑ i ∈ Finset.range 16, t .witness (c.w (i : ℤ)) (row + -1)) = 0 from h2] <;> ring
  simp only [h1, h2, false_or, or_false]
  constructor
  · rintro ⟨⟨⟨g1, g2, g3⟩, k1, k2, k3⟩, g4⟩
    refine ⟨sub_eq_zero.1 g1, g2.imp_right sub_eq_zero.1, g3.imp_right sub_eq_zero.1, ⟨?_, ?_, ?_⟩, sub_eq_zero.1 g4⟩
    · intro i hi
      have := k1 _ i hi rfl
      simp only [Expr.eval_mul, Expr.eval_sub, Expr.eval_add, Cols.eval_wv, Expr.eval_one, eval_chunkSum, mul_eq_zero, hpos,
        false_or, inv, s, h1, h2] at this
      linear_combination this
    · intro i hi
      have := k2 _ i hi rfl
      simp only [Expr.eval_mul, Expr.eval_sub, Expr.eval_add, Cols.eval_wv, Expr.eval_one, eval_chunkSum, mul_eq_zero, hpos,
        false_or] at this
      rcases this with (h | h) | h
      · exact absurd h h1
      · exact absurd h h2
      · exact h.imp_right sub_eq_zero.1
    · intro i hi
      have := k3 _ i hi rfl
      simp only [Expr.eval_mul, Expr.eval_sub, Expr.eval_add, Cols.eval_wv, Expr.eval_one, eval_chunkSum, mul_eq_zero, hpos,
        false_or] at this
      rcases this with (h | h) | h
      · exact absurd h h1
      · exact absurd h h2
      · exact h.imp_right sub_eq_zero.1
  · rintro ⟨g1, g2, g3, ⟨k1, k2, k3⟩, g4⟩
    refine ⟨⟨⟨sub_eq_zero.2 g1, g2.imp_right sub_eq_zero.2, g3.imp_right sub_eq_zero.2⟩, ?_, ?_, ?_⟩, sub_eq_zero.2 g4⟩
    · rintro e i hi rfl
      have := k1 i hi
      simp only [Expr.eval_mul, Expr.eval_sub, Expr.eval_add, Cols.eval_wv, Expr.eval_one, eval_chunkSum, mul_eq_zero]
      right
      linear_combination this
    · rintro e i hi rfl
      have := k2 i hi
      simp only [Expr.eval_mul, Expr.eval_sub, Expr.eval_add, Cols.eval_wv, Expr.eval_one, eval_chunkSum, mul_eq_zero]
      right
      exact this.imp_right sub_eq_zero.2
    · rintro e i hi rfl
      have := k3 i hi
      simp only [Expr.eval_mul, Expr.eval_sub, Expr.eval_add, Cols.eval_wv, Expr.eval_one, eval_chunkSum, mul_eq_zero]
      right
      exact this.imp_right sub_eq_zero.2

/-- What the DIV constraints enforce: group 1 on the row of `b`, group 2 on the row of `r` and `q`. -/
def DivRows {F : Type*} [Field F] (c : Cols) (t : Table F) (row : ℤ) : Prop :=
  (∀ e ∈ divGates1 c (1 : Expr F), e.eval t row = 0) ∧ (∀ e ∈ divGates2 c (1 : Expr F), e.eval t (row + 1) = 0)

/-- With non-vanishing guards and positions the circuit's constraints on the two rows imply `DivRows`. -/
theorem divRows_of_guarded {F : Type*} [Field F] (c : Cols) (opt pos1 pos2 : Expr F) (t : Table F) (row : ℤ)
    (ho1 : opt.eval t row ≠ 0) (ho2 : opt.eval t (row + 1) ≠ 0) (h1 : pos1.eval t row ≠ 0) (h2 : pos2.eval t (row + 1) ≠ 0)
    (g1 : ∀ e ∈ guarded opt (divGates c pos1 pos2), e.eval t row = 0)
    (g2 : ∀ e ∈ guarded opt (divGates c pos1 pos2), e.eval t (row + 1) = 0) : DivRows c t row := by
  rw [guarded_iff _ _ _ _ ho1] at g1
  rw [guarded_iff _ _ _ _ ho2] at g2
  exact ⟨(div1_iff c 1 t row (by simp)).2 ((div1_iff c pos1 t row h1).1 fun e he => g1 e (List.mem_append_left _ he)),
    (div2_iff c 1 t _ (by simp)).2 ((div2_iff c pos2 t _ h2).1 fun e he => g2 e (List.mem_append_right _ he))⟩

/-- The rows hold the words `a`, `b`, `r`, `q` as 16-bit digits, and the carry chunks are 16-bit digits. -/
structure DivHolds {p : ℕ} (c : Cols) (t : Table (ZMod p)) (row : ℤ) (a b r q : ℕ → ℕ) : Prop where
  a : ∀ i : ℕ, i < 16 → t .witness (c.w (i : ℤ)) (row - 1) = (a i : ZMod p)
  b : ∀ i : ℕ, i < 16 → t .witness (c.w (i : ℤ)) row = (b i : ZMod p)
  r : ∀ i : ℕ, i < 16 → t .witness (c.w (i : ℤ)) (row + 1) = (r i : ZMod p)
  q : ∀ i : ℕ, i < 16 → t .witness (c.w ((16 + i : ℕ) : ℤ)) (row + 1) = (q i : ZMod p)
  k1 : ∀ i : ℕ, i < 4 → (t .witness (c.w ((16 + i : ℕ) : ℤ)) (row - 1)).val < 2 ^ 16
  k3 : ∀ i : ℕ, i < 4 → (t .witness (c.w ((16 + i : ℕ) : ℤ)) row).val < 2 ^ 16

theorem div_rows_sound {p : ℕ} [Fact p.Prime] (hp : 2 ^ 194 ≤ p) (c : Cols) (t : Table (ZMod p))
    (row : ℤ) (h : DivRows c t row) (a b r q : ℕ → ℕ)
    (ha : ∀ i < 16, a i < 2 ^ 16) (hb : ∀ i < 16, b i < 2 ^ 16) (hr : ∀ i < 16, r i < 2 ^ 16) (hq : ∀ i < 16, q i < 2 ^ 16)
    (hh : DivHolds c t row a b r q) :
    (digits b 16 = 0 → digits r 16 = 0) ∧ (digits r 16 * digits b 16 + digits q 16) % 2 ^ 256 = digits a 16 ∧
      (digits b 16 ≠ 0 → digits q 16 ≠ digits b 16) := by
  obtain ⟨h1, h2⟩ := h
  rw [div1_iff c 1 t row (by simp)] at h1
  rw [div2_iff c 1 t (row + 1) (by simp)] at h2
  have p16 : (2 : ℕ) ^ 16 ≤ p := le_trans (Nat.pow_le_pow_right (by omega) (by omega)) hp
  have p20 : (2 : ℕ) ^ 20 ≤ p := le_trans (Nat.pow_le_pow_right (by omega) (by omega)) hp
  obtain ⟨i1, i2, e1, e2, e3, e4, hz⟩ := h1
  have er1 : row + 1 + -1 = row := by ring
  have er2 : row + 1 + 0 = row + 1 := by ring
  simp only [er1, er2] at h2
  have sumb : (∑ i ∈ Finset.range 16, t .witness (c.w (i : ℤ)) (row + 0)) = ∑ i ∈ Finset.range 16, (b i : ZMod p) := by
    refine Finset.sum_congr rfl fun i hi => ?_
    rw [add_zero, hh.b i (Finset.mem_range.1 hi)]
  have hs := sum_cast_eq_zero b hb p20
  rw [← digits_eq_zero] at hs
  rw [sumb] at i1 i2 hz
  rw [add_zero] at sumb
  rw [sumb] at h2
  rw [add_zero] at i1 i2 hz
  refine ⟨?_, ?_, ?_⟩
  · intro hb0
    rw [digits_eq_zero]
    intro i hi
    rw [hs.2 hb0, mul_zero] at hz
    have := (hz i hi).resolve_left one_ne_zero
    rw [hh.r i hi, ← Nat.cast_zero] at this
    exact natCast_inj_of_lt (lt_of_lt_of_le (hr i hi) p16) (by omega) this
  · obtain ⟨c2, hc2, v2⟩ := small_root2 _ e3
    obtain ⟨c4, hc4, v4⟩ := small_root4 _ e4
    have sA : ∀ k < 4, sum64 two (fun i : ℕ => t .witness (c.w (i : ℤ)) (row + -1)) k = ((n64 a k : ℕ) : ZMod p) := by
      intro k hk
      rw [n64_cast]
      simp only [sum64, ← sub_eq_add_neg]
      rw [hh.a _ (by omega), hh.a _ (by omega), hh.a _ (by omega), hh.a _ (by omega)]
    have sB : ∀ k < 4, sum64 two (fun i : ℕ => t .witness (c.w (i : ℤ)) (row + 0)) k = ((n64 b k : ℕ) : ZMod p) := by
      intro k hk
      rw [n64_cast]
      simp only [sum64, add_zero row]
      rw [hh.b _ (by omega), hh.b _ (by omega), hh.b _ (by omega), hh.b _ (by omega)]
    have sR : ∀ k < 4, sum64 two (fun i : ℕ => t .witness (c.w (i : ℤ)) (row + 1)) k = ((n64 r k : ℕ) : ZMod p) := by
      intro k hk
      rw [n64_cast]
      simp only [sum64]
      rw [hh.r _ (by omega), hh.r _ (by omega), hh.r _ (by omega), hh.r _ (by omega)]
    have sQ : ∀ k < 4, sum64 two (fun i : ℕ => t .witness (c.w ((16 + i : ℕ) : ℤ)) (row + 1)) k = ((n64 q k : ℕ) : ZMod p) := by
      intro k hk
      rw [n64_cast]
      simp only [sum64]
      rw [hh.q _ (by omega), hh.q _ (by omega), hh.q _ (by omega), hh.q _ (by omega)]
    let k1 : ℕ → ℕ := fun i => (t .witness (c.w ((16 + i : ℕ) : ℤ)) (row - 1)).val
    let k3 : ℕ → ℕ := fun i => (t .witness (c.w ((16 + i : ℕ) : ℤ)) row).val
    have s1 : sum64 two (fun i : ℕ => t .witness (c.w ((16 + i : ℕ) : ℤ)) (row + -1)) 0 = ((n64 k1 0 : ℕ) : ZMod p) := by
      rw [n64_cast]
      simp only [sum64, ← sub_eq_add_neg, k1, ZMod.natCast_zmod_val]
    have s3 : sum64 two (fun i : ℕ => t .witness (c.w ((16 + i : ℕ) : ℤ)) (row + 0)) 0 = ((n64 k3 0 : ℕ) : ZMod p) := by
      rw [n64_cast]
      simp only [sum64, add_zero row, k3, ZMod.natCast_zmod_val]
    simp only [v2, v4, s1, s3, divFirst, divSecond, sA 0 (by omega), sA 1 (by omega), sA 2 (by omega), sA 3 (by omega),
      sB 0 (by omega), sB 1 (by omega), sB 2 (by omega), sB 3 (by omega), sR 0 (by omega), sR 1 (by omega), sR 2 (by omega),
      sR 3 (by omega), sQ 0 (by omega), sQ 1 (by omega), sQ 2 (by omega), sQ 3 (by omega)] at e1 e2
    rw [two_128, two_192, show (two 64 : ZMod p) = ((2 ^ 64 : ℕ) : ZMod p) from rfl] at e1
    rw [two_128, two_192, show (two 64 : ZMod p) = ((2 ^ 64 : ℕ) : ZMod p) from rfl] at e2
    obtain ⟨g1, g2⟩ := field_carries (2 ^ 64) (by norm_num) (by norm_num at hp ⊢; omega) (n64 r) (n64 b) (n64 q) (n64 a)
      (n64_lt r 4 hr) (n64_lt b 4 hb) (n64_lt q 4 hq) (n64_lt a 4 ha) (n64 k1 0) c2 (n64 k3 0) c4
      (n64_lt k1 1 hh.k1 0 (by omega)) hc2 (n64_lt k3 1 hh.k3 0 (by omega)) hc4
      (by
        simp only [Nat.cast_add, Nat.cast_mul, low_cast]
        rw [Nat.cast_pow (2 ^ 64) 2]
        linear_combination e1)
      (by
        simp only [Nat.cast_add, Nat.cast_mul, mid_cast]
        rw [Nat.cast_pow (2 ^ 64) 2]
        linear_combination e2)
    have := carries_sound _ _ _ _ _ _ _ g1 g2
    rw [← digits16_four, ← digits16_four, ← digits16_four, ← digits16_four] at this
    rw [this, ← pow_mul, Nat.add_mul_mod_self_left, Nat.mod_eq_of_lt]
    exact digits_lt a 16 ha
  · intro hb0 hqb
    have hsn : (∑ i ∈ Finset.range 16, (b i : ZMod p)) ≠ 0 := fun h0 => hb0 (hs.1 h0)
    have hinv := i2.resolve_left hsn
    rcases h2 with h2 | ⟨g1, -, -, g2, g3⟩
    · rw [hinv] at h2; exact one_ne_zero h2
    have heq := digits_unique 16 q b hq hb hqb
    have hd : ∀ i : ℕ, i < 16 → t .witness (c.w (i : ℤ)) row - t .witness (c.w ((16 + i : ℕ) : ℤ)) (row + 1) = 0 := by
      intro i hi
      rw [hh.b i hi, hh.q i hi, heq i hi, sub_self]
    have hT : ∀ n, n < 16 → t .witness (c.w ((15 - n : ℕ) : ℤ)) (row + 1 + 1) = 0 := by
      intro n
      induction n with
      | zero => intro _; rw [hd 15 (by omega), mul_zero] at g1; exact g1
      | succ n ih =>
        intro hn
        have := (g2 (15 - (n + 1)) (by omega)).1
        rw [hd _ (by omega), mul_zero, add_zero, show 15 - (n + 1) + 1 = 15 - n by omega, ih (by omega)] at this
        exact this
    have := hT 15 (by omega)
    rw [show 15 - 15 = 0 from rfl, g3] at this
    exact one_ne_zero this

/-- The DIV rows. -/
def divCell {p : ℕ} [Fact p.Prime] (A B R Q : List (ZMod p)) (x1 x2 : ZMod p) (T : ℕ → Bool) (r j : ℕ) : ZMod p :=
  if r = 0 then (if j < 16 then A.getD j 0 else if j = 20 then carryHi x1 else (chunk64 (carryLo x1)).getD (j - 16) 0)
  else if r = 1 then (if j < 16 then B.getD j 0 else if j = 20 then carryHi x2
    else if j = 21 then (if B.sum = 0 then 0 else B.sum⁻¹) else (chunk64 (carryLo x2)).getD (j - 16) 0)
  else if r = 2 then (if j < 16 then R.getD j 0 else Q.getD (j - 16) 0)
  else (if j < 16 then (((T j).toNat : ℕ) : ZMod p)
    else if B.getD (j - 16) 0 - Q.getD (j - 16) 0 ≠ 0 then 1 * (B.getD (j - 16) 0 - Q.getD (j - 16) 0)⁻¹ else 0)

/-- First carry value of the DIV assignment. -/
def divX1 {p : ℕ} [Fact p.Prime] (A B R Q : List (ZMod p)) : ZMod p := divFirst two (val64 A) (val64 B) (val64 R) (val64 Q)
/-- Second carry value of the DIV assignment. -/
def divX2 {p : ℕ} [Fact p.Prime] (A B R Q : List (ZMod p)) : ZMod p :=
  divSecond two (val64 A) (val64 B) (val64 R) (val64 Q) + carryLo (divX1 A B R Q) + carryHi (divX1 A B R Q) * two 64

/-- The DIV writes by row and column range. -/
theorem mem_divWritesWith {p : ℕ} [Fact p.Prime] (c : Cols) (a b r q : BitVec 256) (T : ℕ → Bool) (row : ℤ) (x : Write (ZMod p)) :
    let cell := divCell (wordChunks a : List (ZMod p)) (wordChunks b) (wordChunks r) (wordChunks q)
      (divX1 (wordChunks a) (wordChunks b) (wordChunks r) (wordChunks q))
      (divX2 (wordChunks a) (wordChunks b) (wordChunks r) (wordChunks q)) T
    x ∈ divWritesWith c a b r q T row ↔ ∃ i j : ℕ, (i = 0 ∧ j < 21 ∨ i = 1 ∧ j < 22 ∨ i = 2 ∧ j < 32 ∨ i = 3 ∧ j < 32) ∧
      x = ⟨.witness, c.w (j : ℤ), row + (i : ℤ), cell i j⟩ := by
  intro cell
  have e1 : ∀ j, cell 0 j = if j < 16 then (wordChunks a : List (ZMod p)).getD j 0 else if j = 20 then
      carryHi (divX1 (wordChunks a) (wordChunks b) (wordChunks r) (wordChunks q)) else
      (chunk64 (carryLo (divX1 (wordChunks a) (wordChunks b) (wordChunks r) (wordChunks q)))).getD (j - 16) 0 := fun j => rfl
  have e2 : ∀ j, cell 1 j = if j < 16 then (wordChunks b : List (ZMod p)).getD j 0 else if j = 20 then
      carryHi (divX2 (wordChunks a) (wordChunks b) (wordChunks r) (wordChunks q)) else
      if j = 21 then (if (wordChunks b : List (ZMod p)).sum = 0 then 0 else (wordChunks b : List (ZMod p)).sum⁻¹) else
      (chunk64 (carryLo (divX2 (wordChunks a) (wordChunks b) (wordChunks r) (wordChunks q)))).getD (j - 16) 0 := fun j => rfl
  have e3 : ∀ j, cell 2 j = if j < 16 then (wordChunks r : List (ZMod p)).getD j 0 else (wordChunks q : List (ZMod p)).getD (j - 16) 0 :=
    fun j => rfl
  have e4 : ∀ j, cell 3 j = if j < 16 then (((T j).toNat : ℕ) : ZMod p)
    else if (wordChunks b : List (ZMod p)).getD (j - 16) 0 - (wordChunks q : List (ZMod p)).getD (j - 16) 0 ≠ 0 then
      1 * ((wordChunks b : List (ZMod p)).getD (j - 16) 0 - (wordChunks q : List (ZMod p)).getD (j - 16) 0)⁻¹ else 0 := fun j => rfl
  simp only [divWritesWith, List.mem_append, List.mem_map, List.mem_range, List.mem_cons, List.not_mem_nil, or_false]
  constructor
  · rintro (((((((((⟨i, hi, rfl⟩ | ⟨i, hi, rfl⟩) | rfl) | ⟨i, hi, rfl⟩) | ⟨i, hi, rfl⟩) | rfl | rfl) | ⟨i, hi, rfl⟩) | ⟨i, hi, rfl⟩) | ⟨i, hi, rfl⟩) | ⟨i, hi, rfl⟩)
    · exact ⟨0, i, by omega, by rw [e1, if_pos hi]; simp⟩
    · exact ⟨0, 16 + i, by omega, by rw [e1, if_neg (by omega), if_neg (by omega), Nat.add_sub_cancel_left]; simp [divX1]⟩
    · exact ⟨0, 20, by omega, by rw [e1, if_neg (by omega), if_pos rfl]; simp [divX1]⟩
    · exact ⟨1, i, by omega, by rw [e2, if_pos hi]; simp⟩
    · exact ⟨1, 16 + i, by omega, by
        rw [e2, if_neg (by omega), if_neg (by omega), if_neg (by omega), Nat.add_sub_cancel_left]; simp [divX1, divX2]⟩
    · exact ⟨1, 20, by omega, by rw [e2, if_neg (by omega), if_pos rfl]; simp [divX1, divX2]⟩
    · exact ⟨1, 21, by omega, by
        rw [e2, if_neg (show ¬ 21 < 16 by omega), if_neg (show ¬ 21 = 20 by omega), if_pos (show 21 = 21 from rfl)]; simp⟩
    · exact ⟨2, i, by omega, by rw [e3, if_pos hi]; simp⟩
    · exact ⟨2, 16 + i, by omega, by rw [e3, if_neg (by omega), Nat.add_sub_cancel_left]; simp⟩
    · exact ⟨3, i, by omega, by rw [e4, if_pos hi]; simp⟩
    · exact ⟨3, 16 + i, by omega, by
        rw [e4, if_neg (show ¬ 16 + i < 16 by omega), Nat.add_sub_cancel_left]; simp⟩
  · rintro ⟨i, j, hij, rfl⟩
    rcases hij with ⟨rfl, hj⟩ | ⟨rfl, hj⟩ | ⟨rfl, hj⟩ | ⟨rfl, hj⟩
    · rw [e1]
      by_cases h16 : j < 16
      · exact Or.inl (Or.inl (Or.inl (Or.inl (Or.inl (Or.inl (Or.inl (Or.inl (Or.inl ⟨j, h16, by rw [if_pos h16]; simp⟩))))))))
      by_cases h20 : j = 20
      · subst h20
        exact Or.inl (Or.inl (Or.inl (Or.inl (Or.inl (Or.inl (Or.inl (Or.inr (by
          rw [if_neg (by omega), if_pos rfl]; simp [divX1]))))))))
      · exact Or.inl (Or.inl (Or.inl (Or.inl (Or.inl (Or.inl (Or.inl (Or.inl (Or.inr ⟨j - 16, by omega, by
          rw [if_neg h16, if_neg h20, show 16 + (j - 16) = j by omega]; simp [divX1]⟩))))))))
    · rw [e2]
      by_cases h16 : j < 16
      · exact Or.inl (Or.inl (Or.inl (Or.inl (Or.inl (Or.inl (Or.inr ⟨j, h16, by rw [if_pos h16]; simp⟩))))))
      by_cases h20 : j = 20
      · subst h20
        exact Or.inl (Or.inl (Or.inl (Or.inl (Or.inr (Or.inl (by
          rw [if_neg (by omega), if_pos rfl]; simp [divX1, divX2]))))))
      by_cases h21 : j = 21
      · subst h21
        exact Or.inl (Or.inl (Or.inl (Or.inl (Or.inr (Or.inr (by
          rw [if_neg (by omega), if_neg (by omega), if_pos rfl]; simp))))))
      · exact Or.inl (Or.inl (Or.inl (Or.inl (Or.inl (Or.inr ⟨j - 16, by omega, by
          rw [if_neg h16, if_neg h20, if_neg h21, show 16 + (j - 16) = j by omega]; simp [divX1, divX2]⟩)))))
    · rw [e3]
      by_cases h16 : j < 16
      · exact Or.inl (Or.inl (Or.inl (Or.inr ⟨j, h16, by rw [if_pos h16]; simp⟩)))
      · exact Or.inl (Or.inl (Or.inr ⟨j - 16, by omega, by rw [if_neg h16, show 16 + (j - 16) = j by omega]; simp⟩))
    · rw [e4]
      by_cases h16 : j < 16
      · exact Or.inl (Or.inr ⟨j, h16, by rw [if_pos h16]; simp⟩)
      · exact Or.inr ⟨j - 16, by omega, by rw [if_neg h16, show 16 + (j - 16) = j by omega]; simp⟩

theorem div_grid {p : ℕ} [Fact p.Prime] (c : Cols) (a b r q : BitVec 256) (T : ℕ → Bool) (row : ℤ) :
    GridWrites c row 64 4 (divCell (wordChunks a : List (ZMod p)) (wordChunks b) (wordChunks r) (wordChunks q)
      (divX1 (wordChunks a) (wordChunks b) (wordChunks r) (wordChunks q))
      (divX2 (wordChunks a) (wordChunks b) (wordChunks r) (wordChunks q)) T) (divWritesWith c a b r q T row) := by
  intro x hx
  obtain ⟨i, j, hij, rfl⟩ := (mem_divWritesWith c a b r q T row x).1 hx
  exact ⟨i, by omega, j, by omega, rfl⟩

/-- If the words satisfy the product relation and the flags are those of a chunkwise comparison, the written
rows satisfy the DIV constraints. -/
theorem div_writes_complete {p : ℕ} [Fact p.Prime] (hp : 2 ^ 194 ≤ p) (c : Cols) (hc : c.OK 64) (a b r q : BitVec 256)
    (T : ℕ → Bool) (row : ℤ) (t : Table (ZMod p)) (hb0 : b = 0 → r = 0)
    (hm : (r.toNat * b.toNat + q.toNat) % 2 ^ 256 = a.toNat)
    (hT : b ≠ 0 → (T 15 = true ↔ (chunkLoop 16 b.toNat).getD 15 0 ≠ (chunkLoop 16 q.toNat).getD 15 0) ∧
      (∀ i < 15, T i = true ↔ T (i + 1) = true ∨ (chunkLoop 16 b.toNat).getD i 0 ≠ (chunkLoop 16 q.toNat).getD i 0) ∧
      T 0 = true) :
    let t' := writeAll (divWritesWith c a b r q T (row - 1)) t
    DivRows c t' row ∧ DivHolds c t' row (fun i => (chunkLoop 16 a.toNat).getD i 0) (fun i => (chunkLoop 16 b.toNat).getD i 0)
      (fun i => (chunkLoop 16 r.toNat).getD i 0) (fun i => (chunkLoop 16 q.toNat).getD i 0) := by
  intro t'
  set A : List (ZMod p) := wordChunks a with hAd
  set B : List (ZMod p) := wordChunks b with hBd
  set R : List (ZMod p) := wordChunks r with hRd
  set Q : List (ZMod p) := wordChunks q with hQd
  set x1 := divX1 A B R Q with hx1
  set x2 := divX2 A B R Q with hx2
  have hread : ∀ i j : ℕ, (i = 0 ∧ j < 21 ∨ i = 1 ∧ j < 22 ∨ i = 2 ∧ j < 32 ∨ i = 3 ∧ j < 32) →
      t' .witness (c.w (j : ℤ)) (row - 1 + (i : ℤ)) = divCell A B R Q x1 x2 T i j := by
    intro i j hij
    exact (div_grid (p := p) c a b r q T (row - 1)).read hc t (r := i) (by omega)
      ((mem_divWritesWith c a b r q T (row - 1) _).2 ⟨i, j, hij, rfl⟩)
  have w0 : ∀ j : ℕ, j < 21 → t' .witness (c.w (j : ℤ)) (row - 1) = divCell A B R Q x1 x2 T 0 j := by
    intro j hj
    have := hread 0 j (by omega)
    rwa [Nat.cast_zero, add_zero] at this
  have w1 : ∀ j : ℕ, j < 22 → t' .witness (c.w (j : ℤ)) row = divCell A B R Q x1 x2 T 1 j := by
    intro j hj
    have := hread 1 j (by omega)
    rwa [Nat.cast_one, sub_add_cancel] at this
  have w2 : ∀ j : ℕ, j < 32 → t' .witness (c.w (j : ℤ)) (row + 1) = divCell A B R Q x1 x2 T 2 j := by
    intro j hj
    have := hread 2 j (by omega)
    rwa [Nat.cast_ofNat, show row - 1 + 2 = row + 1 by ring] at this
  have w3 : ∀ j : ℕ, j < 32 → t' .witness (c.w (j : ℤ)) (row + 1 + 1) = divCell A B R Q x1 x2 T 3 j := by
    intro j hj
    have := hread 3 j (by omega)
    rwa [Nat.cast_ofNat, show row - 1 + 3 = row + 1 + 1 by ring] at this
  let na : ℕ → ℕ := fun i => (chunkLoop 16 a.toNat).getD i 0
  let nb : ℕ → ℕ := fun i => (chunkLoop 16 b.toNat).getD i 0
  let nr : ℕ → ℕ := fun i => (chunkLoop 16 r.toNat).getD i 0
  let nq : ℕ → ℕ := fun i => (chunkLoop 16 q.toNat).getD i 0
  obtain ⟨C1, C2, hC1, hC2, g1, g2⟩ := carries_complete (2 ^ 64) (by norm_num) (n64 nr) (n64 nb) (n64 nq) (n64 na)
    (n64_lt nr 4 fun i _ => chunkLoop_lt _ _ _) (n64_lt nb 4 fun i _ => chunkLoop_lt _ _ _)
    (n64_lt nq 4 fun i _ => chunkLoop_lt _ _ _) (n64_lt na 4 fun i _ => chunkLoop_lt _ _ _) (by
      rw [← digits16_four, ← digits16_four, ← digits16_four, ← digits16_four, word_digits, word_digits, word_digits,
        word_digits, ← pow_mul]
      exact hm)
  have p64 : (2 : ℕ) ^ 64 ≤ p := le_trans (Nat.pow_le_pow_right (by omega) (by omega)) hp
  have p16 : (2 : ℕ) ^ 16 ≤ p := le_trans (Nat.pow_le_pow_right (by omega) (by omega)) hp
  have p20 : (2 : ℕ) ^ 20 ≤ p := le_trans (Nat.pow_le_pow_right (by omega) (by omega)) hp
  have g1' := congrArg (fun n : ℕ => (n : ZMod p)) g1
  have g2' := congrArg (fun n : ℕ => (n : ZMod p)) g2
  simp only [Nat.cast_add, Nat.cast_mul, low_cast, mid_cast] at g1' g2'
  rw [Nat.cast_pow (2 ^ 64) 2] at g1' g2'
  have vx1 : x1 = ((2 ^ 128 * C1 : ℕ) : ZMod p) := by
    rw [hx1, divX1, divFirst]
    simp only [hAd, hBd, hRd, hQd, val64_word, two]
    rw [show (2 : ℕ) ^ 128 = (2 ^ 64) ^ 2 by norm_num, Nat.cast_mul, Nat.cast_pow (2 ^ 64) 2]
    linear_combination g1'
  obtain ⟨lo1, hi1⟩ := carry_split hp x1 C1 (by omega) vx1
  have split : ∀ C : ℕ, ((C % 2 ^ 64 : ℕ) : ZMod p) + ((2 ^ 64 : ℕ) : ZMod p) * ((C / 2 ^ 64 : ℕ) : ZMod p) = (C : ZMod p) := by
    intro C
    rw [← Nat.cast_mul, ← Nat.cast_add, Nat.mod_add_div]
  have vx2 : x2 = ((2 ^ 128 * C2 : ℕ) : ZMod p) := by
    rw [hx2, divX2, ← hx1, lo1, hi1, divSecond]
    simp only [hAd, hBd, hRd, hQd, val64_word, two]
    rw [show (2 : ℕ) ^ 128 = (2 ^ 64) ^ 2 by norm_num, Nat.cast_mul, Nat.cast_pow (2 ^ 64) 2]
    linear_combination g2' + split C1
  obtain ⟨lo2, hi2⟩ := carry_split hp x2 C2 (by omega) vx2
  have hlo1 : (carryLo x1).val = C1 % 2 ^ 64 := by
    rw [lo1, ZMod.val_cast_of_lt (lt_of_lt_of_le (Nat.mod_lt _ (by norm_num)) p64)]
  have hlo2 : (carryLo x2).val = C2 % 2 ^ 64 := by
    rw [lo2, ZMod.val_cast_of_lt (lt_of_lt_of_le (Nat.mod_lt _ (by norm_num)) p64)]
  have h0 : ∀ i : ℕ, i < 16 → t' .witness (c.w (i : ℤ)) (row - 1) = (na i : ZMod p) := by
    intro i hi
    rw [w0 i (by omega), divCell, if_pos rfl, if_pos hi, hAd, wordChunks_getD]
  have h1 : ∀ i : ℕ, i < 16 → t' .witness (c.w (i : ℤ)) row = (nb i : ZMod p) := by
    intro i hi
    rw [w1 i (by omega), divCell, if_neg (by omega), if_pos rfl, if_pos hi, hBd, wordChunks_getD]
  have h2 : ∀ i : ℕ, i < 16 → t' .witness (c.w (i : ℤ)) (row + 1) = (nr i : ZMod p) := by
    intro i hi
    rw [w2 i (by omega), divCell, if_neg (by omega), if_neg (by omega), if_pos rfl, if_pos hi, hRd, wordChunks_getD]
  have h2q : ∀ i : ℕ, i < 16 → t' .witness (c.w ((16 + i : ℕ) : ℤ)) (row + 1) = (nq i : ZMod p) := by
    intro i hi
    rw [w2 (16 + i) (by omega), divCell, if_neg (by omega), if_neg (by omega), if_pos rfl, if_neg (by omega),
      Nat.add_sub_cancel_left, hQd, wordChunks_getD]
  have h3 : ∀ i : ℕ, i < 4 → t' .witness (c.w ((16 + i : ℕ) : ℤ)) (row - 1) = (((chunkLoop 4 (C1 % 2 ^ 64)).getD i 0 : ℕ) : ZMod p) := by
    intro i hi
    rw [w0 (16 + i) (by omega), divCell, if_pos rfl, if_neg (by omega), if_neg (by omega), Nat.add_sub_cancel_left,
      chunk64_getD, hlo1]
  have h4 : ∀ i : ℕ, i < 4 → t' .witness (c.w ((16 + i : ℕ) : ℤ)) row = (((chunkLoop 4 (C2 % 2 ^ 64)).getD i 0 : ℕ) : ZMod p) := by
    intro i hi
    rw [w1 (16 + i) (by omega), divCell, if_neg (by omega), if_pos rfl, if_neg (by omega), if_neg (by omega), if_neg (by omega),
      Nat.add_sub_cancel_left, chunk64_getD, hlo2]
  have h5 : t' .witness (c.w 20) (row - 1) = ((C1 / 2 ^ 64 : ℕ) : ZMod p) := by
    have := w0 20 (by omega)
    rw [divCell, if_pos rfl, if_neg (by omega), if_pos rfl, hi1] at this
    exact this
  have h6 : t' .witness (c.w 20) row = ((C2 / 2 ^ 64 : ℕ) : ZMod p) := by
    have := w1 20 (by omega)
    rw [divCell, if_neg (by omega), if_pos rfl, if_neg (by omega), if_pos rfl, hi2] at this
    exact this
  have hsum : (∑ i ∈ Finset.range 16, t' .witness (c.w (i : ℤ)) row) = B.sum := by
    rw [hBd, wordChunks_sum]
    exact Finset.sum_congr rfl fun i hi => h1 i (Finset.mem_range.1 hi)
  have h7 : t' .witness (c.w 21) row = if B.sum = 0 then 0 else B.sum⁻¹ := by
    have := w1 21 (by omega)
    rw [divCell, if_neg (by omega), if_pos rfl, if_neg (by omega), if_neg (by omega), if_pos rfl] at this
    exact this
  have hB0 : B.sum = 0 ↔ b = 0 := by
    rw [hBd, wordChunks_sum, sum_cast_eq_zero nb (fun i _ => chunkLoop_lt _ _ _) p20, ← digits_eq_zero]
    show digits nb 16 = 0 ↔ _
    rw [word_digits]
    exact ⟨fun h => BitVec.eq_of_toNat_eq (by simpa using h), fun h => by rw [h]; rfl⟩
  have hinv : t' .witness (c.w 21) row = 0 ∧ B.sum = 0 ∨ t' .witness (c.w 21) row * B.sum = 1 := by
    rw [h7]
    by_cases hs : B.sum = 0
    · left; rw [if_pos hs]; exact ⟨rfl, hs⟩
    · right; rw [if_neg hs]; exact inv_mul_cancel₀ hs
  have er1 : row + 1 + -1 = row := by ring
  have er2 : row + 1 + 0 = row + 1 := by ring
  refine ⟨⟨(div1_iff c 1 t' row (by simp)).2 ?_, (div2_iff c 1 t' (row + 1) (by simp)).2 ?_⟩, ⟨h0, h1, h2, h2q, ?_, ?_⟩⟩
  · simp only [add_zero row, ← sub_eq_add_neg row]
    have sA : ∀ k < 4, sum64 two (fun i : ℕ => t' .witness (c.w (i : ℤ)) (row - 1)) k = ((n64 na k : ℕ) : ZMod p) := by
      intro k hk
      rw [n64_cast]
      simp only [sum64]
      rw [h0 _ (by omega), h0 _ (by omega), h0 _ (by omega), h0 _ (by omega)]
    have sB : ∀ k < 4, sum64 two (fun i : ℕ => t' .witness (c.w (i : ℤ)) row) k = ((n64 nb k : ℕ) : ZMod p) := by
      intro k hk
      rw [n64_cast]
      simp only [sum64]
      rw [h1 _ (by omega), h1 _ (by omega), h1 _ (by omega), h1 _ (by omega)]
    have sR : ∀ k < 4, sum64 two (fun i : ℕ => t' .witness (c.w (i : ℤ)) (row + 1)) k = ((n64 nr k : ℕ) : ZMod p) := by
      intro k hk
      rw [n64_cast]
      simp only [sum64]
      rw [h2 _ (by omega), h2 _ (by omega), h2 _ (by omega), h2 _ (by omega)]
    have sQ : ∀ k < 4, sum64 two (fun i : ℕ => t' .witness (c.w ((16 + i : ℕ) : ℤ)) (row + 1)) k = ((n64 nq k : ℕ) : ZMod p) := by
      intro k hk
      rw [n64_cast]
      simp only [sum64]
      rw [h2q _ (by omega), h2q _ (by omega), h2q _ (by omega), h2q _ (by omega)]
    have s1 : sum64 two (fun i : ℕ => t' .witness (c.w ((16 + i : ℕ) : ℤ)) (row - 1)) 0 = ((C1 % 2 ^ 64 : ℕ) : ZMod p) := by
      rw [← n64_digits (C1 % 2 ^ 64) (Nat.mod_lt _ (by norm_num)), n64_cast]
      simp only [sum64]
      rw [h3 _ (by omega), h3 _ (by omega), h3 _ (by omega), h3 _ (by omega)]
    have s3 : sum64 two (fun i : ℕ => t' .witness (c.w ((16 + i : ℕ) : ℤ)) row) 0 = ((C2 % 2 ^ 64 : ℕ) : ZMod p) := by
      rw [← n64_digits (C2 % 2 ^ 64) (Nat.mod_lt _ (by norm_num)), n64_cast]
      simp only [sum64]
      rw [h4 _ (by omega), h4 _ (by omega), h4 _ (by omega), h4 _ (by omega)]
    rw [h5, h6, hsum]
    simp only [s1, s3, divFirst, divSecond, sA 0 (by omega), sA 1 (by omega), sA 2 (by omega), sA 3 (by omega),
      sB 0 (by omega), sB 1 (by omega), sB 2 (by omega), sB 3 (by omega), sR 0 (by omega), sR 1 (by omega),
      sR 2 (by omega), sR 3 (by omega), sQ 0 (by omega), sQ 1 (by omega), sQ 2 (by omega), sQ 3 (by omega)]
    rw [two_128, two_192, show (two 64 : ZMod p) = ((2 ^ 64 : ℕ) : ZMod p) from rfl]
    refine ⟨hinv.imp_left And.left, hinv.imp_left And.right, ?_, ?_, ?_, ?_, ?_⟩
    · linear_combination g1' - ((2 ^ 64 : ℕ) : ZMod p) ^ 2 * split C1
    · linear_combination g2' + split C1 - ((2 ^ 64 : ℕ) : ZMod p) ^ 2 * split C2
    · have : C1 / 2 ^ 64 < 2 := by omega
      generalize C1 / 2 ^ 64 = n at this
      interval_cases n <;> simp
    · have : C2 / 2 ^ 64 < 4 := by omega
      generalize C2 / 2 ^ 64 = n at this
      interval_cases n <;> simp
    · intro i hi
      rcases hinv with ⟨-, h⟩ | h
      · right
        rw [h2 i hi]
        have : nr i = 0 := by
          show (chunkLoop 16 r.toNat).getD i 0 = 0
          rw [hb0 (hB0.1 h), chunkLoop_getD _ _ _ hi]
          simp
        rw [this, Nat.cast_zero]
      · exact Or.inl h.symm
  · simp only [er1, er2]
    rw [hsum]
    by_cases hbz : b = 0
    · left; rw [hB0.2 hbz, mul_zero]
    right
    obtain ⟨t1, t2, t3⟩ := hT hbz
    have hd : ∀ i : ℕ, i < 16 → t' .witness (c.w (i : ℤ)) row - t' .witness (c.w ((16 + i : ℕ) : ℤ)) (row + 1) =
        (nb i : ZMod p) - (nq i : ZMod p) := by
      intro i hi; rw [h1 i hi, h2q i hi]
    have hne : ∀ i : ℕ, (nb i : ZMod p) - (nq i : ZMod p) = 0 ↔ nb i = nq i := by
      intro i
      rw [sub_eq_zero]
      exact ⟨natCast_inj_of_lt (lt_of_lt_of_le (chunkLoop_lt _ _ _) p16) (lt_of_lt_of_le (chunkLoop_lt _ _ _) p16), fun h => by rw [h]⟩
    have hTv : ∀ i : ℕ, i < 16 → t' .witness (c.w (i : ℤ)) (row + 1 + 1) = (((T i).toNat : ℕ) : ZMod p) := by
      intro i hi
      rw [w3 i (by omega), divCell, if_neg (by omega), if_neg (by omega), if_neg (by omega), if_pos hi]
    have hV : ∀ i : ℕ, i < 16 → (nb i = nq i → t' .witness (c.w ((16 + i : ℕ) : ℤ)) (row + 1 + 1) = 0) ∧
        (nb i ≠ nq i → t' .witness (c.w ((16 + i : ℕ) : ℤ)) (row + 1 + 1) * ((nb i : ZMod p) - (nq i : ZMod p)) = 1) := by
      intro i hi
      rw [w3 (16 + i) (by omega), divCell, if_neg (by omega), if_neg (by omega), if_neg (by omega), if_neg (by omega),
        Nat.add_sub_cancel_left, hBd, hQd, wordChunks_getD, wordChunks_getD]
      have e := hne i
      constructor
      · intro h
        rw [if_neg]
        intro h'; exact h' (e.2 h)
      · intro h
        have h' : (nb i : ZMod p) - (nq i : ZMod p) ≠ 0 := fun h'' => h (e.1 h'')
        rw [if_pos h', one_mul]
        exact inv_mul_cancel₀ h'
    have hVD : ∀ i : ℕ, i < 16 → t' .witness (c.w ((16 + i : ℕ) : ℤ)) (row + 1 + 1) * ((nb i : ZMod p) - (nq i : ZMod p)) =
        if nb i = nq i then 0 else 1 := by
      intro i hi
      by_cases h : nb i = nq i
      · rw [if_pos h, (hV i hi).1 h, zero_mul]
      · rw [if_neg h, (hV i hi).2 h]
    have aux : ∀ i : ℕ, i < 16 → (t' .witness (c.w ((16 + i : ℕ) : ℤ)) (row + 1 + 1) = 0 ∨
        t' .witness (c.w ((16 + i : ℕ) : ℤ)) (row + 1 + 1) * ((nb i : ZMod p) - (nq i : ZMod p)) = 1) ∧
        ((nb i : ZMod p) - (nq i : ZMod p) = 0 ∨
        t' .witness (c.w ((16 + i : ℕ) : ℤ)) (row + 1 + 1) * ((nb i : ZMod p) - (nq i : ZMod p)) = 1) := by
      intro i hi
      by_cases h : nb i = nq i
      · exact ⟨Or.inl ((hV i hi).1 h), Or.inl ((hne i).2 h)⟩
      · exact ⟨Or.inr ((hV i hi).2 h), Or.inr ((hV i hi).2 h)⟩
    refine ⟨?_, ?_, ?_, ?_, ?_⟩
    · rw [hd 15 (by omega), hVD 15 (by omega), hTv 15 (by omega)]
      by_cases h : nb 15 = nq 15
      · rw [if_pos h]
        have : T 15 = false := by
          rw [← Bool.not_eq_true]; intro h'; exact t1.1 h' h
        rw [this]; simp
      · rw [if_neg h, t1.2 h]; simp
    · rw [hd 15 (by omega)]; exact (aux 15 (by omega)).1
    · rw [hd 15 (by omega)]; exact (aux 15 (by omega)).2
    · intro i hi
      rw [hd i (by omega)]
      refine ⟨?_, (aux i (by omega)).1, (aux i (by omega)).2⟩
      rw [mul_assoc, hVD i (by omega), hTv i (by omega), hTv (i + 1) (by omega)]
      have t2i := t2 i hi
      by_cases h : nb i = nq i
      · rw [if_pos h, mul_zero, add_zero]
        have : T i = T (i + 1) := by
          rw [Bool.eq_iff_iff, t2i]
          exact ⟨fun h' => h'.resolve_right fun h'' => h'' h, Or.inl⟩
        rw [this]
      · rw [if_neg h, mul_one, t2i.2 (Or.inr h)]
        simp
    · rw [hTv 0 (by omega), t3]; simp
  · intro i hi
    rw [h3 i hi, ZMod.val_cast_of_lt (lt_of_lt_of_le (chunkLoop_lt _ _ _) p16)]
    exact chunkLoop_lt _ _ _
  · intro i hi
    rw [h4 i hi, ZMod.val_cast_of_lt (lt_of_lt_of_le (chunkLoop_lt _ _ _) p16)]
    exact chunkLoop_lt _ _ _

theorem top_diff (n : ℕ) (q b : ℕ → ℕ) (hq : ∀ i < n, q i < 2 ^ 16) (hb : ∀ i < n, b i < 2 ^ 16)
    (h : digits q n < digits b n) : ∃ J < n, q J < b J ∧ ∀ k, J < k → k < n → q k = b k := by
  induction n with
  | zero => simp [digits] at h
  | succ n ih =>
    have e : ∀ a : ℕ → ℕ, digits a (n + 1) = digits a n + a n * 2 ^ (16 * n) := fun a => by simp [digits, Finset.sum_range_succ]
    rcases Nat.lt_trichotomy (q n) (b n) with hlt | heq | hgt
    · exact ⟨n, by omega, hlt, fun k h1 h2 => by omega⟩
    · rw [e, e, heq] at h
      obtain ⟨J, hJ, h1, h2⟩ := ih (fun i hi => hq i (by omega)) (fun i hi => hb i (by omega)) (by omega)
      refine ⟨J, by omega, h1, fun k hk1 hk2 => ?_⟩
      rcases Nat.lt_succ_iff_lt_or_eq.1 hk2 with hk | rfl
      · exact h2 k hk1 hk
      · exact heq
    · exfalso
      rw [e, e] at h
      have hbl := digits_lt b n fun i hi => hb i (by omega)
      have : (b n + 1) * 2 ^ (16 * n) ≤ q n * 2 ^ (16 * n) := Nat.mul_le_mul_right _ hgt
      rw [add_mul, one_mul] at this
      omega

theorem divT_iff {p : ℕ} [Fact p.Prime] (hp : 2 ^ 16 ≤ p) (b q : BitVec 256) (i : ℕ) (hi : i < 16) :
    divT (wordChunks b : List (ZMod p)) (wordChunks q) i = true ↔
      ∃ k, i ≤ k ∧ k < 16 ∧ (chunkLoop 16 q.toNat).getD k 0 < (chunkLoop 16 b.toNat).getD k 0 := by
  simp only [divT, List.any_eq_true, List.mem_range, decide_eq_true_eq, wordChunks_getD]
  constructor
  · rintro ⟨j, hj, h⟩
    rw [ZMod.val_cast_of_lt (lt_of_lt_of_le (chunkLoop_lt _ _ _) hp), ZMod.val_cast_of_lt (lt_of_lt_of_le (chunkLoop_lt _ _ _) hp)] at h
    exact ⟨15 - j, by omega, by omega, h⟩
  · rintro ⟨k, h1, h2, h⟩
    refine ⟨15 - k, by omega, ?_⟩
    rw [show 15 - (15 - k) = k by omega,
      ZMod.val_cast_of_lt (lt_of_lt_of_le (chunkLoop_lt _ _ _) hp), ZMod.val_cast_of_lt (lt_of_lt_of_le (chunkLoop_lt _ _ _) hp)]
    exact h

end Zkevm

open Zkevm

open Classical in
/-- Exactly which word tuples the DIV constraints accept. The rows hold `a`, `b`, `r` (quotient) and `q`
(remainder); carries are 16-bit. The comparison part only enforces `q ≠ b`. -/
theorem div_accepts_iff {p : ℕ} [Fact p.Prime] (hp : 2 ^ 194 ≤ p) (c : Cols) (hc : c.OK 64) (row : ℤ) (a b r q : BitVec 256) :
    (∃ t : Table (ZMod p), DivRows c t row ∧
      DivHolds c t row (fun i => a.toNat / 2 ^ (16 * i) % 2 ^ 16) (fun i => b.toNat / 2 ^ (16 * i) % 2 ^ 16)
        (fun i => r.toNat / 2 ^ (16 * i) % 2 ^ 16) (fun i => q.toNat / 2 ^ (16 * i) % 2 ^ 16)) ↔
    (b = 0 → r = 0) ∧ r * b + q = a ∧ (b ≠ 0 → q ≠ b) := by
  have hdig : ∀ w : BitVec 256, digits (fun i => w.toNat / 2 ^ (16 * i) % 2 ^ 16) 16 = w.toNat := by
    intro w
    conv_rhs => rw [← word_digits w]
    exact Finset.sum_congr rfl fun i hi => by
      simp only []
      rw [chunkLoop_getD _ _ _ (Finset.mem_range.1 hi)]
  have hlt : ∀ w : BitVec 256, ∀ i < 16, w.toNat / 2 ^ (16 * i) % 2 ^ 16 < 2 ^ 16 := fun w i _ => Nat.mod_lt _ (by norm_num)
  have hz : ∀ w : BitVec 256, w.toNat = 0 ↔ w = 0 := fun w =>
    ⟨fun h => BitVec.eq_of_toNat_eq (by simpa using h), fun h => by rw [h]; rfl⟩
  have hmul : (r.toNat * b.toNat + q.toNat) % 2 ^ 256 = a.toNat ↔ r * b + q = a := by
    have e : (r * b + q).toNat = (r.toNat * b.toNat + q.toNat) % 2 ^ 256 := by
      rw [BitVec.toNat_add, BitVec.toNat_mul, Nat.mod_add_mod]
    rw [← e]
    exact ⟨fun h => BitVec.eq_of_toNat_eq h, fun h => by rw [h]⟩
  constructor
  · rintro ⟨t, h1, h2⟩
    obtain ⟨s1, s2, s3⟩ := div_rows_sound hp c t row h1 _ _ _ _ (hlt a) (hlt b) (hlt r) (hlt q) h2
    rw [hdig, hdig, hz, hz] at s1
    rw [hdig, hdig, hdig, hdig] at s2
    rw [hdig, hdig, Ne, hz] at s3
    exact ⟨s1, hmul.1 s2, fun h e => s3 h (by rw [e])⟩
  · rintro ⟨s1, s2, s3⟩
    let T : ℕ → Bool := fun i => decide (∃ j < 16, i ≤ j ∧ (chunkLoop 16 b.toNat).getD j 0 ≠ (chunkLoop 16 q.toNat).getD j 0)
    obtain ⟨g1, g2⟩ := div_writes_complete hp c hc a b r q T row (fun _ _ _ => 0) s1 (hmul.2 s2) (by
      intro hb
      refine ⟨?_, ?_, ?_⟩
      · simp only [T, decide_eq_true_eq]
        exact ⟨fun ⟨j, hj, h1, h2⟩ => by rwa [show j = 15 by omega] at h2, fun h => ⟨15, by omega, le_refl _, h⟩⟩
      · intro i hi
        simp only [T, decide_eq_true_eq]
        constructor
        · rintro ⟨j, hj, h1, h2⟩
          by_cases hji : j = i
          · right; rwa [hji] at h2
          · left; exact ⟨j, hj, by omega, h2⟩
        · rintro (⟨j, hj, h1, h2⟩ | h)
          · exact ⟨j, hj, by omega, h2⟩
          · exact ⟨i, by omega, le_refl _, h⟩
      · simp only [T, decide_eq_true_eq]
        by_contra hcon
        push Not at hcon
        apply s3 hb
        apply BitVec.eq_of_toNat_eq
        rw [← word_digits q, ← word_digits b]
        exact Finset.sum_congr rfl fun i hi => by
          have := hcon i (Finset.mem_range.1 hi) (Nat.zero_le _)
          simp only []
          rw [this])
    refine ⟨_, g1, ?_⟩
    refine ⟨fun i hi => ?_, fun i hi => ?_, fun i hi => ?_, fun i hi => ?_, g2.k1, g2.k3⟩
    · rw [g2.a i hi, chunkLoop_getD _ _ _ hi]
    · rw [g2.b i hi, chunkLoop_getD _ _ _ hi]
    · rw [g2.r i hi, chunkLoop_getD _ _ _ hi]
    · rw [g2.q i hi, chunkLoop_getD _ _ _ hi]

/-- C40 is false of the code: `2 / 1 = 0` is accepted (with "remainder" 2). -/
theorem div_refuted {p : ℕ} [Fact p.Prime] (hp : 2 ^ 194 ≤ p) (c : Cols) (hc : c.OK 64) (row : ℤ) :
    ∃ t : Table (ZMod p), DivRows c t row ∧ ∃ q : BitVec 256,
      DivHolds c t row (fun i => (2#256).toNat / 2 ^ (16 * i) % 2 ^ 16) (fun i => (1#256).toNat / 2 ^ (16 * i) % 2 ^ 16)
        (fun i => (0#256).toNat / 2 ^ (16 * i) % 2 ^ 16) (fun i => q.toNat / 2 ^ (16 * i) % 2 ^ 16) := by
  obtain ⟨t, h1, h2⟩ := (div_accepts_iff hp c hc row 2#256 1#256 0#256 2#256).2 ⟨by decide, by decide, by decide⟩
  exact ⟨t, h1, _, h2⟩

/-- C40 is false in general: for a non-zero divisor every quotient is accepted, except the one with `a - r b ≡ b`. -/
theorem div_refuted_any {p : ℕ} [Fact p.Prime] (hp : 2 ^ 194 ≤ p) (c : Cols) (hc : c.OK 64) (row : ℤ) (a b r : BitVec 256)
    (hb : b ≠ 0) (hr : a - r * b ≠ b) :
    ∃ t : Table (ZMod p), DivRows c t row ∧ ∃ q : BitVec 256,
      DivHolds c t row (fun i => a.toNat / 2 ^ (16 * i) % 2 ^ 16) (fun i => b.toNat / 2 ^ (16 * i) % 2 ^ 16)
        (fun i => r.toNat / 2 ^ (16 * i) % 2 ^ 16) (fun i => q.toNat / 2 ^ (16 * i) % 2 ^ 16) := by
  obtain ⟨t, h1, h2⟩ := (div_accepts_iff hp c hc row a b r (a - r * b)).2
    ⟨fun h => absurd h hb, by rw [BitVec.add_comm, BitVec.sub_add_cancel], fun _ => hr⟩
  exact ⟨t, h1, _, h2⟩

/-- C40 (partial soundness): if in addition the remainder chunks are below the divisor and the product does not
wrap, the quotient is the EVM quotient. Missing from the code: the two additional hypotheses. -/
theorem div_sound_partial {p : ℕ} [Fact p.Prime] (hp : 2 ^ 194 ≤ p) (c : Cols) (opt pos1 pos2 : Expr (ZMod p))
    (t : Table (ZMod p)) (row : ℤ) (ho1 : opt.eval t row ≠ 0) (ho2 : opt.eval t (row + 1) ≠ 0)
    (h1 : pos1.eval t row ≠ 0) (h2 : pos2.eval t (row + 1) ≠ 0)
    (g1 : ∀ e ∈ guarded opt (divGates c pos1 pos2), e.eval t row = 0)
    (g2 : ∀ e ∈ guarded opt (divGates c pos1 pos2), e.eval t (row + 1) = 0) (a b r q : ℕ → ℕ)
    (ha : ∀ i < 16, a i < 2 ^ 16) (hb : ∀ i < 16, b i < 2 ^ 16) (hr : ∀ i < 16, r i < 2 ^ 16) (hq : ∀ i < 16, q i < 2 ^ 16)
    (hh : DivHolds c t row a b r q) (hrem : digits b 16 ≠ 0 → digits q 16 < digits b 16)
    (hwrap : digits r 16 * digits b 16 + digits q 16 < 2 ^ 256) :
    digits r 16 = digits a 16 / digits b 16 := by
  obtain ⟨s1, s2, s3⟩ := div_rows_sound hp c t row (divRows_of_guarded c opt pos1 pos2 t row ho1 ho2 h1 h2 g1 g2)
    a b r q ha hb hr hq hh
  rw [Nat.mod_eq_of_lt hwrap] at s2
  by_cases h : digits b 16 = 0
  · rw [s1 h, h, Nat.div_zero]
  · rw [← s2, Nat.add_comm, Nat.add_mul_div_right _ _ (Nat.pos_of_ne_zero h), Nat.div_eq_of_lt (hrem h), zero_add]

/-- C40 (completeness): the generated rows satisfy the DIV constraints for all words and hold `a`, `b`,
`a / b` (`0` for `b = 0`) and the remainder. -/
theorem div_complete {p : ℕ} [Fact p.Prime] (hp : 2 ^ 194 ≤ p) (c : Cols) (hc : c.OK 64) (opt pos1 pos2 : Expr (ZMod p))
    (a b : BitVec 256) (row : ℤ) (t : Table (ZMod p)) :
    let t' := writeAll (divWrites c a b row) t
    (∀ e ∈ guarded opt (divGates1 c pos1), e.eval t' (row + 1) = 0) ∧
    (∀ e ∈ guarded opt (divGates2 c pos2), e.eval t' (row + 2) = 0) ∧
      DivHolds c t' (row + 1) (fun i => (chunkLoop 16 a.toNat).getD i 0) (fun i => (chunkLoop 16 b.toNat).getD i 0)
        (fun i => (chunkLoop 16 (a / b).toNat).getD i 0)
        (fun i => (chunkLoop 16 (if b = 0 then a else a % b).toNat).getD i 0) := by
  intro t'
  have p16 : (2 : ℕ) ^ 16 ≤ p := le_trans (Nat.pow_le_pow_right (by omega) (by omega)) hp
  have hz : ∀ w : BitVec 256, w.toNat = 0 ↔ w = 0 := fun w =>
    ⟨fun h => BitVec.eq_of_toNat_eq (by simpa using h), fun h => by rw [h]; rfl⟩
  have er : (if b ≠ 0 then BitVec.ofNat 256 (a.toNat / b.toNat) else 0) = a / b := by
    by_cases hb : b = 0
    · rw [if_neg (not_not.2 hb), hb]
      apply BitVec.eq_of_toNat_eq
      simp
    · rw [if_pos hb]
      apply BitVec.eq_of_toNat_eq
      rw [BitVec.toNat_ofNat, BitVec.toNat_udiv, Nat.mod_eq_of_lt (lt_of_le_of_lt (Nat.div_le_self _ _) a.isLt)]
  have eq : (if b ≠ 0 then BitVec.ofNat 256 (a.toNat % b.toNat) else a) = if b = 0 then a else a % b := by
    by_cases hb : b = 0
    · rw [if_neg (not_not.2 hb), if_pos hb]
    · rw [if_pos hb, if_neg hb]
      apply BitVec.eq_of_toNat_eq
      rw [BitVec.toNat_ofNat, BitVec.toNat_umod, Nat.mod_eq_of_lt (lt_of_le_of_lt (Nat.mod_le _ _) a.isLt)]
  set q : BitVec 256 := if b = 0 then a else a % b with hq
  have key := div_writes_complete hp c hc a b (a / b) q (divT (wordChunks b : List (ZMod p)) (wordChunks q)) (row + 1) t
    (by
      intro hb; rw [hb]
      apply BitVec.eq_of_toNat_eq
      simp)
    (by
      by_cases hb : b = 0
      · rw [hq, if_pos hb, hb]
        rw [show (0 : BitVec 256).toNat = 0 from rfl, mul_zero, zero_add]
        exact Nat.mod_eq_of_lt a.isLt
      · rw [hq, if_neg hb, BitVec.toNat_udiv, BitVec.toNat_umod, mul_comm, Nat.div_add_mod]
        exact Nat.mod_eq_of_lt a.isLt)
    (by
      intro hb
      have hlt : q.toNat < b.toNat := by
        rw [hq, if_neg hb, BitVec.toNat_umod]
        exact Nat.mod_lt _ (Nat.pos_of_ne_zero fun h => hb ((hz b).1 h))
      rw [← word_digits q, ← word_digits b] at hlt
      obtain ⟨J, hJ, j1, j2⟩ := top_diff 16 _ _ (fun i _ => chunkLoop_lt _ _ _) (fun i _ => chunkLoop_lt _ _ _) hlt
      refine ⟨?_, ?_, ?_⟩
      · rw [divT_iff p16 b q 15 (by omega)]
        constructor
        · rintro ⟨k, h1, h2, h3⟩
          rw [show k = 15 by omega] at h3
          omega
        · intro h
          by_cases hJ15 : J = 15
          · exact ⟨15, le_refl _, by omega, by rw [← hJ15]; exact j1⟩
          · exact absurd (j2 15 (by omega) (by omega)).symm h
      · intro i hi
        rw [divT_iff p16 b q i (by omega), divT_iff p16 b q (i + 1) (by omega)]
        constructor
        · rintro ⟨k, h1, h2, h3⟩
          by_cases hk : k = i
          · right; rw [← hk]; omega
          · left; exact ⟨k, by omega, h2, h3⟩
        · rintro (⟨k, h1, h2, h3⟩ | h)
          · exact ⟨k, by omega, h2, h3⟩
          · by_cases hJi : J < i
            · exact absurd (j2 i hJi (by omega)).symm h
            · exact ⟨J, by omega, hJ, j1⟩
      · rw [divT_iff p16 b q 0 (by omega)]
        exact ⟨J, Nat.zero_le _, hJ, j1⟩)
  rw [add_sub_cancel_right] at key
  have et : t' = writeAll (divWritesWith c a b (a / b) q (divT (wordChunks b : List (ZMod p)) (wordChunks q)) row) t := by
    show writeAll (divWrites c a b row) t = _
    rw [divWrites]
    simp only [er, eq]
  rw [← et] at key
  obtain ⟨⟨k1, k2⟩, k3⟩ := key
  refine ⟨?_, ?_, k3⟩
  · intro e he
    simp only [guarded, List.mem_map] at he
    obtain ⟨e', he', rfl⟩ := he
    rw [Expr.eval_mul]
    have : e'.eval t' (row + 1) = 0 := by
      by_cases hpos : pos1.eval t' (row + 1) = 0
      · simp only [divGates1, List.mem_append, List.mem_cons, List.mem_map, List.mem_range, List.not_mem_nil, or_false] at he'
        rcases he' with (rfl | rfl | rfl | rfl | rfl | rfl) | ⟨i, hi, rfl⟩ <;> simp only [Expr.eval_mul, hpos, zero_mul]
      · exact (div1_iff c pos1 t' _ hpos).2 ((div1_iff c 1 t' _ (by simp)).1 k1) e' he'
    rw [this, mul_zero]
  · intro e he
    rw [show row + 1 + 1 = row + 2 by ring] at k2
    simp only [guarded, List.mem_map] at he
    obtain ⟨e', he', rfl⟩ := he
    rw [Expr.eval_mul]
    have : e'.eval t' (row + 2) = 0 := by
      by_cases hpos : pos2.eval t' (row + 2) = 0
      · simp only [divGates2, List.mem_append, List.mem_cons, List.mem_flatMap, List.mem_reverse, List.mem_range,
          List.not_mem_nil, or_false] at he'
        rcases he' with ((rfl | rfl | rfl) | ⟨i, hi, rfl | rfl | rfl⟩) | rfl <;> simp only [Expr.eval_mul, hpos, zero_mul]
      · exact (div2_iff c pos2 t' _ hpos).2 ((div2_iff c 1 t' _ (by simp)).1 k2) e' he'
    rw [this, mul_zero]

/-- Non-vacuity: the tuple `7 / 2 = 3 rem 1` meets the right-hand side of `div_accepts_iff`. -/
example : ((2#256 = 0 → 3#256 = 0) ∧ 3#256 * 2#256 + 1#256 = 7#256 ∧ (2#256 ≠ 0 → 1#256 ≠ 2#256)) := by decide

/-- Non-vacuity of `div_refuted_any`: `7 / 2 = 0` is such a false quotient. -/
example : (2#256 ≠ 0) ∧ 7#256 - 0#256 * 2#256 ≠ 2#256 := by decide

/-- Non-vacuity: the rows generated for `7 / 2` meet the hypotheses of `div_sound_partial`. -/
example {p : ℕ} [Fact p.Prime] (hp : 2 ^ 194 ≤ p) : ∃ (t : Table (ZMod p)) (a b r q : ℕ → ℕ),
    DivRows ⟨List.range 64, [], []⟩ t 1 ∧ DivHolds ⟨List.range 64, [], []⟩ t 1 a b r q ∧ digits b 16 = 2 ∧
    digits q 16 = 1 ∧ digits r 16 * digits b 16 + digits q 16 = 7 := by
  obtain ⟨t, h1, h2⟩ := (div_accepts_iff hp ⟨List.range 64, [], []⟩ ⟨List.nodup_range, by simp⟩ 1 7#256 2#256 3#256 1#256).2
    ⟨by decide, by decide, by decide⟩
  refine ⟨t, _, _, _, _, h1, h2, ?_, ?_, ?_⟩ <;> decide

end Verif
