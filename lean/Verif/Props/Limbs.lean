import Verif.Model.Limbs
import Verif.Props.RangeCheck
import Verif.Core.Primality

/-!
# C145: `to_limbs`, C146: `from_limbs`
-/

set_option linter.unusedSimpArgs false
set_option linter.unusedVariables false
set_option linter.unusedSectionVars false

namespace Verif
variable {p : ℕ} [Fact p.Prime]

namespace ToLimbs

theorem limb_eq (n i : ℕ) : limb n i = n / 2 ^ (64 * i) % 2 ^ 64 := by
  unfold limb
  rw [Nat.and_two_pow_sub_one_eq_mod, Nat.shiftRight_eq_div_pow]

theorem rows_eq : RangeCheck.rows 15 chunkSize = 4 := by decide

theorem sat_checks (c : Cols) (srow : ℤ) (t : Table (ZMod p)) (n : ℕ) :
    Sat t ((List.range n).flatMap fun k => RangeCheck.circuit (F := ZMod p) c 15 chunkSize (c.wa (rcCol k : ℤ) srow) (rcRow srow k)) ↔
      ∀ k < n, Sat t (RangeCheck.circuit c 15 chunkSize (c.wa (rcCol k : ℤ) srow) (rcRow srow k)) := by
  induction n with
  | zero => simp
  | succ n ih =>
    rw [List.range_succ, List.flatMap_append, sat_append, ih]
    simp only [List.flatMap_cons, List.flatMap_nil, List.append_nil]
    constructor
    · rintro ⟨h1, h2⟩ i hi
      rcases Nat.lt_succ_iff_lt_or_eq.1 hi with h | rfl
      · exact h1 i h
      · exact h2
    · intro h; exact ⟨fun i hi => h i (by omega), h n (by omega)⟩

/-- What the circuit says, cell by cell (`w k` is the cell of `W(k)` in the first row). -/
theorem circuit_iff (c : Cols) (x : Var) (srow : ℤ) (t : Table (ZMod p)) :
    Sat t (circuit c x srow) ↔
      (let w : ℕ → ZMod p := fun k => t .witness (c.w (k : ℤ)) srow
       w 1 + w 2 * 2 ^ 64 + w 3 * 2 ^ 128 + w 4 * 2 ^ 192 = w 0 ∧
       w 1 + (limb (cOf p) 0 : ℕ) = w 5 + w 9 * 2 ^ 64 ∧
       w 2 + (limb (cOf p) 1 : ℕ) + w 9 = w 6 + w 10 * 2 ^ 64 ∧
       w 3 + (limb (cOf p) 2 : ℕ) + w 10 = w 7 + w 11 * 2 ^ 64 ∧
       w 4 + (limb (cOf p) 3 : ℕ) + w 11 = w 8 ∧
       (w 9 = 0 ∨ w 9 = 1) ∧ (w 10 = 0 ∨ w 10 = 1) ∧ (w 11 = 0 ∨ w 11 = 1)) ∧
      (∀ k < 8, Sat t (RangeCheck.circuit c 15 chunkSize (c.wa (rcCol k : ℤ) srow) (rcRow srow k))) ∧
      t .witness (c.w 0) srow = x.value t := by
  have e8 : 2 * chunkAmount = 8 := rfl
  simp only [circuit, sat_append, e8, sat_checks, sat_cons, sat_nil, and_true, holds_gate, holds_copy, List.mem_singleton,
    forall_eq, gate, List.mem_cons, List.not_mem_nil, or_false, forall_eq_or_imp, Expr.eval_sub, Expr.eval_mul, Expr.eval_add,
    Expr.eval_const, Expr.eval_zero, Expr.eval_one, Cols.eval_wv, add_zero, Cols.value_wa, and_assoc, mul_eq_zero, sub_eq_zero,
    Nat.cast_ofNat, Nat.cast_zero, Nat.cast_one]
  constructor
  · rintro ⟨h1, h2, h3, h4, h5, h6, h7, h8, h9⟩
    exact ⟨by linear_combination h1, by linear_combination -h2, by linear_combination -h3, by linear_combination -h4,
      by linear_combination -h5, h6, h7, h8, h9⟩
  · rintro ⟨h1, h2, h3, h4, h5, h6, h7, h8, h9⟩
    exact ⟨by linear_combination h1, by linear_combination -h2, by linear_combination -h3, by linear_combination -h4,
      by linear_combination -h5, h6, h7, h8, h9⟩

/-- Equal small numbers of the field are equal. -/
theorem nat_of_cast {a b : ℕ} (ha : a < p) (hb : b < p) (h : (a : ZMod p) = b) : a = b := by
  have := congrArg ZMod.val h
  rwa [ZMod.val_natCast, ZMod.val_natCast, Nat.mod_eq_of_lt ha, Nat.mod_eq_of_lt hb] at this

theorem bit_cases {z : ZMod p} (h : z = 0 ∨ z = 1) : ∃ k : ℕ, k ≤ 1 ∧ z = (k : ℕ) := by
  rcases h with rfl | rfl
  · exact ⟨0, by omega, by simp⟩
  · exact ⟨1, by omega, by simp⟩

end ToLimbs

open ToLimbs in
/-- C145, soundness: in every accepted table the four outputs are the four 64-bit limbs of the canonical integer of the input; no other
decomposition (for instance of the integer plus the modulus) is accepted. -/
theorem toLimbs_sound (h1 : 2 ^ 66 < p) (h2 : p ≤ 2 ^ 256) (c : Cols) (hk : c.k 0 = 0) (x : Var) (srow : ℤ) (t : Table (ZMod p))
    (h : Sat t (circuit c x srow)) (i : ℕ) (hi : i < 4) :
    ((result c srow i).value t).val = (x.value t).val / 2 ^ (64 * i) % 2 ^ 64 := by
  rw [circuit_iff] at h
  obtain ⟨⟨g1, g2, g3, g4, g5, g6, g7, g8⟩, hr, hx⟩ := h
  have hrc := fun k hk' => rangeCheck_sound c 15 chunkSize (by omega) hk _ _ t (hr k hk')
  obtain ⟨k9, b9, e9⟩ := bit_cases g6
  obtain ⟨k10, b10, e10⟩ := bit_cases g7
  obtain ⟨k11, b11, e11⟩ := bit_cases g8
  have cell : ∀ j : ℕ, ∃ n : ℕ, t .witness (c.w (j : ℤ)) srow = (n : ZMod p) ∧ n = (t .witness (c.w (j : ℤ)) srow).val :=
    fun j => ⟨_, (ZMod.natCast_zmod_val _).symm, rfl⟩
  obtain ⟨l0, f1, v1⟩ := cell 1
  obtain ⟨l1, f2, v2⟩ := cell 2
  obtain ⟨l2, f3, v3⟩ := cell 3
  obtain ⟨l3, f4, v4⟩ := cell 4
  obtain ⟨b0, f5, v5⟩ := cell 5
  obtain ⟨b1, f6, v6⟩ := cell 6
  obtain ⟨b2, f7, v7⟩ := cell 7
  obtain ⟨b3, f8, v8⟩ := cell 8
  have r1 : l0 < 2 ^ 64 := by rw [v1]; exact hrc 0 (by omega)
  have r5 : b0 < 2 ^ 64 := by rw [v5]; exact hrc 1 (by omega)
  have r2 : l1 < 2 ^ 64 := by rw [v2]; exact hrc 2 (by omega)
  have r6 : b1 < 2 ^ 64 := by rw [v6]; exact hrc 3 (by omega)
  have r3 : l2 < 2 ^ 64 := by rw [v3]; exact hrc 4 (by omega)
  have r7 : b2 < 2 ^ 64 := by rw [v7]; exact hrc 5 (by omega)
  have r4 : l3 < 2 ^ 64 := by rw [v4]; exact hrc 6 (by omega)
  have r8 : b3 < 2 ^ 64 := by rw [v8]; exact hrc 7 (by omega)
  simp only [f1, f2, f3, f4, f5, f6, f7, f8, e9, e10, e11] at g1 g2 g3 g4 g5
  have c0 : limb (cOf p) 0 < 2 ^ 64 := by rw [limb_eq]; exact Nat.mod_lt _ (by positivity)
  have c1 : limb (cOf p) 1 < 2 ^ 64 := by rw [limb_eq]; exact Nat.mod_lt _ (by positivity)
  have c2 : limb (cOf p) 2 < 2 ^ 64 := by rw [limb_eq]; exact Nat.mod_lt _ (by positivity)
  have c3 : limb (cOf p) 3 < 2 ^ 64 := by rw [limb_eq]; exact Nat.mod_lt _ (by positivity)
  have n2 : l0 + limb (cOf p) 0 = b0 + k9 * 2 ^ 64 :=
    nat_of_cast (p := p) (by omega) (by omega) (by push_cast; linear_combination g2)
  have n3 : l1 + limb (cOf p) 1 + k9 = b1 + k10 * 2 ^ 64 :=
    nat_of_cast (p := p) (by omega) (by omega) (by push_cast; linear_combination g3)
  have n4 : l2 + limb (cOf p) 2 + k10 = b2 + k11 * 2 ^ 64 :=
    nat_of_cast (p := p) (by omega) (by omega) (by push_cast; linear_combination g4)
  have n5 : l3 + limb (cOf p) 3 + k11 = b3 :=
    nat_of_cast (p := p) (by omega) (by omega) (by push_cast; linear_combination g5)
  have hc : cOf p = limb (cOf p) 0 + limb (cOf p) 1 * 2 ^ 64 + limb (cOf p) 2 * 2 ^ 128 + limb (cOf p) 3 * 2 ^ 192 := by
    have : cOf p < 2 ^ 256 := by unfold cOf; omega
    simp only [limb_eq]
    omega
  have hlt : l0 + l1 * 2 ^ 64 + l2 * 2 ^ 128 + l3 * 2 ^ 192 < p := by
    have : cOf p + p = 2 ^ 256 := by unfold cOf; omega
    omega
  have hv : (x.value t).val = l0 + l1 * 2 ^ 64 + l2 * 2 ^ 128 + l3 * 2 ^ 192 := by
    rw [← hx]
    have : t .witness (c.w 0) srow = ((l0 + l1 * 2 ^ 64 + l2 * 2 ^ 128 + l3 * 2 ^ 192 : ℕ) : ZMod p) := by
      push_cast; linear_combination -g1
    rw [this, ZMod.val_natCast, Nat.mod_eq_of_lt hlt]
  rw [hv, result, Cols.value_wa]
  interval_cases i
  · show (t .witness (c.w ((1 : ℕ) : ℤ)) srow).val = _
    rw [← v1]; omega
  · show (t .witness (c.w ((2 : ℕ) : ℤ)) srow).val = _
    rw [← v2]; omega
  · show (t .witness (c.w ((3 : ℕ) : ℤ)) srow).val = _
    rw [← v3]; omega
  · show (t .witness (c.w ((4 : ℕ) : ℤ)) srow).val = _
    rw [← v4]; omega

namespace ToLimbs

/-- Value of column `k` of the first row. -/
def headVal (v : ℕ) (k : ℕ) : ZMod p := (headVals v : List (ZMod p)).getD k 0

theorem heads_grid (c : Cols) (v : ℕ) (srow : ℤ) :
    GridWrites c srow 15 1 (fun _ j => headVal v j : ℕ → ℕ → ZMod p) (heads c v srow) := by
  intro z hz
  obtain ⟨k, hk, rfl⟩ := List.mem_map.1 hz
  exact ⟨0, by omega, k, by have := List.mem_range.1 hk; omega, by simp [headVal]⟩

theorem heads_read (c : Cols) (hc : c.OK 15) (v : ℕ) (srow : ℤ) (t : Table (ZMod p)) (k : ℕ) (hk : k < 12) :
    writeAll (heads c v srow) t .witness (c.w (k : ℤ)) srow = headVal v k := by
  have := (heads_grid (p := p) c v srow).read hc t (r := 0) (j := k) (by omega)
    (List.mem_map.2 ⟨k, List.mem_range.2 hk, by simp [headVal]⟩)
  simpa using this

theorem rcCol_lt {k : ℕ} (hk : k < 8) : rcCol k < 12 := by unfold rcCol; split_ifs <;> omega

/-- The carry chosen by the assignment. -/
theorem carry_eq (hp : 1 < p) (part b k : ℕ) (hk : k ≤ 1) (h : part = b + k * 2 ^ 64) (hb : b < 2 ^ 64) :
    ((carry p part b : ℕ) : ZMod p) = (k : ℕ) := by
  unfold carry
  simp only [Nat.shiftRight_eq_div_pow]
  rcases Nat.le_one_iff_eq_zero_or_eq_one.1 hk with rfl | rfl
  · rw [if_neg (by omega)]
    have : b - part = 0 := by omega
    rw [this]; simp
  · rw [if_pos (by omega)]
    have : part - b = 2 ^ 64 := by omega
    rw [this]; norm_num

/-- One limb of an addition. -/
theorem carry_step (a c k : ℕ) (hk : k ≤ 1) :
    ∃ k' ≤ 1, a % 2 ^ 64 + c % 2 ^ 64 + k = (a + c + k) % 2 ^ 64 + k' * 2 ^ 64 ∧ (a + c + k) / 2 ^ 64 = a / 2 ^ 64 + c / 2 ^ 64 + k' :=
  ⟨(a % 2 ^ 64 + c % 2 ^ 64 + k) / 2 ^ 64, by omega, by omega, by omega⟩

/-- The first row is a decomposition with carries. -/
theorem headVals_spec (h1 : 2 ^ 66 < p) (h2 : p ≤ 2 ^ 256) (v : ℕ) (hv : v < p) :
    ∃ l0 l1 l2 l3 b0 b1 b2 b3 k9 k10 k11 : ℕ,
      (headVals v : List (ZMod p)) = [(v : ZMod p), l0, l1, l2, l3, b0, b1, b2, b3, k9, k10, k11] ∧
      l0 = v % 2 ^ 64 ∧ l1 = v / 2 ^ 64 % 2 ^ 64 ∧ l2 = v / 2 ^ 128 % 2 ^ 64 ∧ l3 = v / 2 ^ 192 ∧ l3 < 2 ^ 64 ∧
      b0 < 2 ^ 64 ∧ b1 < 2 ^ 64 ∧ b2 < 2 ^ 64 ∧ b3 < 2 ^ 64 ∧ k9 ≤ 1 ∧ k10 ≤ 1 ∧ k11 ≤ 1 ∧
      l0 + limb (cOf p) 0 = b0 + k9 * 2 ^ 64 ∧
      l1 + limb (cOf p) 1 + k9 = b1 + k10 * 2 ^ 64 ∧
      l2 + limb (cOf p) 2 + k10 = b2 + k11 * 2 ^ 64 ∧
      l3 + limb (cOf p) 3 + k11 = b3 := by
  have hcp : cOf p + p = 2 ^ 256 := by unfold cOf; omega
  set C := cOf p with hC
  have hl : ∀ n, limb n 0 = n % 2 ^ 64 ∧ limb n 1 = n / 2 ^ 64 % 2 ^ 64 ∧ limb n 2 = n / 2 ^ 128 % 2 ^ 64 ∧
      limb n 3 = n / 2 ^ 192 % 2 ^ 64 := by
    intro n
    simp only [limb_eq]
    norm_num
  obtain ⟨c0, c1, c2, c3⟩ := hl C
  obtain ⟨d0, d1, d2, d3⟩ := hl (v + C)
  have dd : ∀ n : ℕ, n / 2 ^ 128 = n / 2 ^ 64 / 2 ^ 64 ∧ n / 2 ^ 192 = n / 2 ^ 64 / 2 ^ 64 / 2 ^ 64 := by
    intro n
    rw [Nat.div_div_eq_div_mul, Nat.div_div_eq_div_mul]
    norm_num
  have sh : ∀ n : ℕ, n >>> 64 <<< 64 >>> 64 = n >>> 64 := by
    intro n
    rw [Nat.shiftRight_eq_div_pow, Nat.shiftLeft_eq, Nat.shiftRight_eq_div_pow, Nat.mul_div_cancel _ (by norm_num)]
  have e0 : ∀ n : ℕ, n - n >>> 64 <<< 64 = n % 2 ^ 64 := by
    intro n
    rw [Nat.shiftRight_eq_div_pow, Nat.shiftLeft_eq]
    have := Nat.div_add_mod' n (2 ^ 64)
    exact Nat.sub_eq_of_eq_add (by rw [Nat.add_comm]; exact this.symm)
  have e1 := e0 v
  have e2 : v >>> 64 - v >>> 64 <<< 64 >>> 64 >>> 64 <<< 64 = v / 2 ^ 64 % 2 ^ 64 := by
    rw [sh, e0, Nat.shiftRight_eq_div_pow]
  have e3 : v >>> 64 >>> 64 - v >>> 64 <<< 64 >>> 64 >>> 64 <<< 64 >>> 64 >>> 64 <<< 64 = v / 2 ^ 128 % 2 ^ 64 := by
    rw [sh, sh, e0, (dd v).1, Nat.shiftRight_eq_div_pow, Nat.shiftRight_eq_div_pow]
  have e4 : v >>> 64 >>> 64 >>> 64 = v / 2 ^ 192 := by
    rw [(dd v).2, Nat.shiftRight_eq_div_pow, Nat.shiftRight_eq_div_pow, Nat.shiftRight_eq_div_pow]
  have vl : ∀ n : ℕ, n < 2 ^ 64 → ((n : ℕ) : ZMod p).val = n := fun n hn => ZMod.val_cast_of_lt (by omega)
  obtain ⟨k9, b9, n9, m9⟩ := carry_step v C 0 (by omega)
  obtain ⟨k10, b10, n10, m10⟩ := carry_step (v / 2 ^ 64) (C / 2 ^ 64) k9 b9
  obtain ⟨k11, b11, n11, m11⟩ := carry_step (v / 2 ^ 64 / 2 ^ 64) (C / 2 ^ 64 / 2 ^ 64) k10 b10
  simp only [Nat.add_zero] at n9 m9
  rw [← m9] at n10 m10
  rw [← m10] at n11 m11
  have hv256 : v / 2 ^ 64 / 2 ^ 64 / 2 ^ 64 < 2 ^ 64 := by
    rw [← (dd v).2]; exact Nat.div_lt_of_lt_mul (by omega)
  have hC256 : C / 2 ^ 64 / 2 ^ 64 / 2 ^ 64 < 2 ^ 64 := by
    rw [← (dd C).2]; exact Nat.div_lt_of_lt_mul (by omega)
  have hb256 : (v + C) / 2 ^ 64 / 2 ^ 64 / 2 ^ 64 < 2 ^ 64 := by
    rw [← (dd (v + C)).2]; exact Nat.div_lt_of_lt_mul (by omega)
  rw [← (dd v).1, ← (dd C).1, ← (dd (v + C)).1] at n11
  rw [← (dd v).2] at hv256
  have n12 : v / 2 ^ 192 + C / 2 ^ 192 % 2 ^ 64 + k11 = (v + C) / 2 ^ 192 % 2 ^ 64 := by
    rw [(dd v).2, (dd C).2, (dd (v + C)).2, Nat.mod_eq_of_lt hC256, Nat.mod_eq_of_lt hb256, m11]
  have w9 : ((carry p (v % 2 ^ 64 + limb C 0) (limb (v + C) 0) : ℕ) : ZMod p) = (k9 : ℕ) :=
    carry_eq (by omega) _ _ _ b9 (by rw [c0, d0]; exact n9) (by rw [d0]; exact Nat.mod_lt _ (by norm_num))
  have w10 : ((carry p (v / 2 ^ 64 % 2 ^ 64 + k9 + limb C 1) (limb (v + C) 1) : ℕ) : ZMod p) = (k10 : ℕ) :=
    carry_eq (by omega) _ _ _ b10 (by rw [c1, d1, ← n10]; ring) (by rw [d1]; exact Nat.mod_lt _ (by norm_num))
  have w11 : ((carry p (v / 2 ^ 128 % 2 ^ 64 + k10 + limb C 2) (limb (v + C) 2) : ℕ) : ZMod p) = (k11 : ℕ) :=
    carry_eq (by omega) _ _ _ b11 (by rw [c2, d2, ← n11]; ring) (by rw [d2]; exact Nat.mod_lt _ (by norm_num))
  refine ⟨v % 2 ^ 64, v / 2 ^ 64 % 2 ^ 64, v / 2 ^ 128 % 2 ^ 64, v / 2 ^ 192, limb (v + C) 0, limb (v + C) 1, limb (v + C) 2,
    limb (v + C) 3, k9, k10, k11, ?_, rfl, rfl, rfl, rfl, hv256, by rw [d0]; exact Nat.mod_lt _ (by norm_num),
    by rw [d1]; exact Nat.mod_lt _ (by norm_num), by rw [d2]; exact Nat.mod_lt _ (by norm_num), by rw [d3]; exact Nat.mod_lt _ (by norm_num),
    b9, b10, b11, by rw [c0, d0]; exact n9, by rw [c1, d1]; exact n10, by rw [c2, d2]; exact n11, by rw [c3, d3]; exact n12⟩
  unfold headVals
  simp only [e1, e2, e3, e4, ← hC]
  rw [vl (v % 2 ^ 64) (Nat.mod_lt _ (by norm_num)), w9, vl (v / 2 ^ 64 % 2 ^ 64) (Nat.mod_lt _ (by norm_num)), vl k9 (by omega), w10,
    vl (v / 2 ^ 128 % 2 ^ 64) (Nat.mod_lt _ (by norm_num)), vl k10 (by omega), w11]

/-- All range-check blocks after the loop. -/
theorem blocksRead (c : Cols) (hc : c.OK 15) (srow : ℤ) (t1 : Table (ZMod p)) (n : ℕ) (hn : n ≤ 8) :
    let T := (List.range n).foldl
      (fun t k => RangeCheck.assign c 15 chunkSize (c.wa (rcCol k : ℤ) srow) (rcRow srow k) t) t1
    Frame c (srow + 1) (n * 4) t1 T ∧
    ∀ k < n, ∃ t0, ∀ idx r, rcRow srow k ≤ r → r < rcRow srow k + RangeCheck.rows 15 chunkSize →
      T .witness idx r = writeAll (RangeCheck.writes c 15 chunkSize (t1 .witness (c.w (rcCol k : ℤ)) srow).val
        (rcRow srow k)) t0 .witness idx r := by
  have hrow : ∀ k, rcRow srow k = srow + 1 + 4 * (k : ℤ) := by
    intro k; unfold rcRow; rw [rows_eq]; push_cast; ring
  induction n with
  | zero => exact ⟨by simpa using Frame.refl _ _ _ _, by simp⟩
  | succ n ih =>
    obtain ⟨hf, hb⟩ := ih (by omega)
    intro T
    set T0 := (List.range n).foldl
      (fun t k => RangeCheck.assign c 15 chunkSize (c.wa (rcCol k : ℤ) srow) (rcRow srow k) t) t1 with hT0
    have hT : T = RangeCheck.assign c 15 chunkSize (c.wa (rcCol n : ℤ) srow) (rcRow srow n) T0 := by
      simp only [T, List.range_succ, List.foldl_append, List.foldl_cons, List.foldl_nil]
      rw [hT0]
    have hv : (c.wa (rcCol n : ℤ) srow).value T0 = t1 .witness (c.w (rcCol n : ℤ)) srow := by
      rw [Cols.value_wa]; exact hf.row (by omega) _ _
    have hT' : T = writeAll (RangeCheck.writes c 15 chunkSize (t1 .witness (c.w (rcCol n : ℤ)) srow).val (rcRow srow n)) T0 := by
      rw [hT, RangeCheck.assign, hv]
    have hf2 : Frame c (rcRow srow n) (RangeCheck.rows 15 chunkSize) T0 T := by
      rw [hT']; exact ((RangeCheck.grid c 15 chunkSize _ (by omega) _).own hc).frame _
    rw [rows_eq, hrow] at hf2
    refine ⟨(hf.mono le_rfl (by omega)).trans (hf2.mono (by omega) (by omega)), ?_⟩
    intro k hk
    rcases Nat.lt_succ_iff_lt_or_eq.1 hk with h | rfl
    · obtain ⟨t0, h0⟩ := hb k h
      refine ⟨t0, fun idx r h1 h2 => ?_⟩
      rw [← h0 idx r h1 h2]
      rw [rows_eq, hrow] at h2
      exact hf2.row (by left; push_cast at h2; omega) _ _
    · exact ⟨T0, fun idx r _ _ => by rw [hT']⟩

/-- The range checks find their zeros. -/
theorem writeConsts_zero (c : Cols) (x : Var) (srow : ℤ) (t : Table (ZMod p)) (i : ℕ) (hi : i < 8) :
    writeConsts (circuit c x srow) t .constant (c.k 0) (rcRow srow i) = 0 := by
  have key : ∀ n (t : Table (ZMod p)), i < n → writeConsts ((List.range n).flatMap fun k =>
      RangeCheck.circuit (F := ZMod p) c 15 chunkSize (c.wa (rcCol k : ℤ) srow) (rcRow srow k)) t
        .constant (c.k 0) (rcRow srow i) = 0 := by
    intro n
    induction n with
    | zero => simp
    | succ n ih =>
      intro t hi
      rw [List.range_succ, List.flatMap_append, writeConsts_append]
      simp only [List.flatMap_cons, List.flatMap_nil, List.append_nil]
      rw [RangeCheck.writeConsts_eq, Table.set_apply]
      split_ifs with h
      · rfl
      · rcases Nat.lt_succ_iff_lt_or_eq.1 hi with h' | rfl
        · exact ih _ h'
        · exact absurd ⟨rfl, rfl, rfl⟩ h
  simp only [circuit]
  rw [writeConsts_append, writeConsts_append]
  simp only [writeConsts_gate, writeConsts_nil, writeConsts_copy]
  exact key _ _ hi

end ToLimbs

open ToLimbs in
/-- C145, completeness: for every input the generated table is accepted, the four outputs are the limbs of the input, and only the 33 rows of the
component are written. -/
theorem toLimbs_complete (h1 : 2 ^ 66 < p) (h2 : p ≤ 2 ^ 256) (c : Cols) (hc : c.OK 15) (hk : c.k 0 = 0) (x : Var) (srow : ℤ)
    (hx : x.Outside srow rows) (t : Table (ZMod p)) :
    let tc := writeConsts (circuit c x srow) t
    let t' := assign c x srow tc
    Sat t' (circuit c x srow) ∧ Frame c srow rows tc t' ∧
      ∀ i < 4, (result c srow i).value t' = (((x.value tc).val / 2 ^ (64 * i) % 2 ^ 64 : ℕ) : ZMod p) := by
  intro tc t'
  have hrows : rows = 33 := by decide
  set v := (x.value tc).val with hv
  have hvp : v < p := ZMod.val_lt _
  set t1 := writeAll (heads c v srow) tc with ht1
  have hf1 : Frame c srow 1 tc t1 := ((heads_grid c v srow).own hc).frame tc
  obtain ⟨hf2, hbl⟩ := blocksRead c hc srow t1 8 le_rfl
  have et' : (List.range 8).foldl
      (fun t k => RangeCheck.assign c 15 chunkSize (c.wa (rcCol k : ℤ) srow) (rcRow srow k) t) t1 = t' := rfl
  rw [et'] at hf2 hbl
  have hfr : Frame c srow rows tc t' := by
    rw [hrows]
    exact (hf1.mono le_rfl (by omega)).trans (hf2.mono (by omega) (by omega))
  have hval1 : ∀ k : ℕ, k < 12 → t1 .witness (c.w (k : ℤ)) srow = headVal v k := fun k hk12 => heads_read c hc v srow tc k hk12
  have hval : ∀ k : ℕ, k < 12 → t' .witness (c.w (k : ℤ)) srow = headVal v k := by
    intro k hk12
    rw [← hval1 k hk12]; exact hf2.row (by omega) _ _
  obtain ⟨l0, l1, l2, l3, b0, b1, b2, b3, k9, k10, k11, hl, q0, q1, q2, q3, q4, r0, r1, r2, r3, s9, s10, s11, n1, n2, n3, n4⟩ :=
    headVals_spec (p := p) h1 h2 v hvp
  have hh : ∀ k, (headVal v k : ZMod p) = [(v : ZMod p), l0, l1, l2, l3, b0, b1, b2, b3, k9, k10, k11].getD k 0 := by
    intro k; rw [headVal, hl]
  have bit : ∀ k : ℕ, k ≤ 1 → ((k : ℕ) : ZMod p) = 0 ∨ ((k : ℕ) : ZMod p) = 1 := by
    intro k hk1
    rcases Nat.le_one_iff_eq_zero_or_eq_one.1 hk1 with rfl | rfl <;> simp
  refine ⟨?_, hfr, ?_⟩
  · rw [circuit_iff]
    refine ⟨?_, fun k hk8 => ?_, ?_⟩
    · intro w
      have hw : ∀ k, k < 12 → w k = headVal v k := hval
      rw [hw 0 (by omega), hw 1 (by omega), hw 2 (by omega), hw 3 (by omega), hw 4 (by omega), hw 5 (by omega), hw 6 (by omega),
        hw 7 (by omega), hw 8 (by omega), hw 9 (by omega), hw 10 (by omega), hw 11 (by omega)]
      simp only [hh, List.getD_cons_zero, List.getD_cons_succ]
      have n1' := congrArg (Nat.cast : ℕ → ZMod p) n1
      have n2' := congrArg (Nat.cast : ℕ → ZMod p) n2
      have n3' := congrArg (Nat.cast : ℕ → ZMod p) n3
      have n4' := congrArg (Nat.cast : ℕ → ZMod p) n4
      have n0 : l0 + l1 * 2 ^ 64 + l2 * 2 ^ 128 + l3 * 2 ^ 192 = v := by omega
      have n0' := congrArg (Nat.cast : ℕ → ZMod p) n0
      push_cast at n0' n1' n2' n3' n4'
      refine ⟨by linear_combination n0', by linear_combination n1', by linear_combination n2', by linear_combination n3',
        by linear_combination n4', bit _ s9, bit _ s10, bit _ s11⟩
    · obtain ⟨t0, h0⟩ := hbl k hk8
      have hlt := rcCol_lt hk8
      refine RangeCheck.sat_after c 15 chunkSize (by omega) hc hk _ _ t0 t' _ ?_ ?_ ?_ h0
      · rw [hval1 _ hlt, hh]
        have vl : ∀ n : ℕ, n < 2 ^ 64 → ((n : ℕ) : ZMod p).val < 2 ^ chunkSize := fun n hn => by
          rw [ZMod.val_cast_of_lt (by omega)]; exact hn
        interval_cases k
        · exact vl l0 (by omega)
        · exact vl b0 r0
        · exact vl l1 (by omega)
        · exact vl b1 r1
        · exact vl l2 (by omega)
        · exact vl b2 r2
        · exact vl l3 q4
        · exact vl b3 r3
      · rw [Cols.value_wa, hval _ hlt, hval1 _ hlt, ZMod.natCast_zmod_val]
      · rw [hfr.const]
        have := writeConsts_zero c x srow t k hk8
        rw [hk] at this; exact this
    · rw [hfr.outside hx]
      have := hval 0 (by omega)
      rw [Nat.cast_zero] at this
      rw [this, hh]
      show ((v : ℕ) : ZMod p) = _
      rw [hv, ZMod.natCast_zmod_val]
  · intro i hi
    rw [result, Cols.value_wa, hval (1 + i) (by omega), hh]
    interval_cases i
    · show ((l0 : ℕ) : ZMod p) = _
      congr 1; omega
    · show ((l1 : ℕ) : ZMod p) = _
      congr 1
    · show ((l2 : ℕ) : ZMod p) = _
      congr 1
    · show ((l3 : ℕ) : ZMod p) = _
      congr 1; omega

/-- C146, soundness and determinism: the output of an accepted table is `first + 2^64 * second`. -/
theorem fromLimbs_sound {F : Type*} [Field F] (c : Cols) (lo hi : Var) (srow : ℤ) (t : Table F)
    (h : Sat t (FromLimbs.circuit c lo hi srow)) : (FromLimbs.result c srow).value t = lo.value t + 2 ^ 64 * hi.value t := by
  simp only [FromLimbs.circuit, FromLimbs.gate, sat_cons, sat_nil, holds_gate, holds_copy, List.mem_singleton, forall_eq, and_true,
    Expr.eval_sub, Expr.eval_add, Expr.eval_mul, Expr.eval_const, Cols.eval_wv, add_zero, Cols.value_wa] at h
  obtain ⟨h1, h2, h3⟩ := h
  rw [FromLimbs.result, Cols.value_wa, ← h2, ← h3]
  linear_combination -h1

/-- C146, completeness. -/
theorem fromLimbs_complete {F : Type*} [Field F] (c : Cols) (hc : c.OK 3) (lo hi : Var) (srow : ℤ) (hl : lo.Outside srow 1)
    (hh : hi.Outside srow 1) (t : Table F) :
    let t' := FromLimbs.assign c lo hi srow t
    Sat t' (FromLimbs.circuit c lo hi srow) ∧ Frame c srow 1 t t' := by
  intro t'
  have hfr : Frame c srow 1 t t' :=
    (((Frame.refl c srow 1 t).setOK hc (by omega) (by omega) 0 _).setOK hc (by omega) (by omega) 1 _).setOK hc (by omega) (by omega) 2 _
  have n01 : c.w 0 ≠ c.w 1 := fun h => by have := (hc.inj (by omega) (by omega)).1 h; omega
  have n02 : c.w 0 ≠ c.w 2 := fun h => by have := (hc.inj (by omega) (by omega)).1 h; omega
  have n12 : c.w 1 ≠ c.w 2 := fun h => by have := (hc.inj (by omega) (by omega)).1 h; omega
  have v0 : t' .witness (c.w 0) srow = lo.value t := by
    simp only [t', FromLimbs.assign, Table.set_apply]; simp [n01, n02]
  have v1 : t' .witness (c.w 1) srow = hi.value t := by
    simp only [t', FromLimbs.assign, Table.set_apply]; simp [n12]
  have v2 : t' .witness (c.w 2) srow = 2 ^ 64 * hi.value t + lo.value t := by
    simp only [t', FromLimbs.assign, Table.set_apply]; simp
  refine ⟨?_, hfr⟩
  simp only [FromLimbs.circuit, FromLimbs.gate, sat_cons, sat_nil, holds_gate, holds_copy, List.mem_singleton, forall_eq, and_true,
    Expr.eval_sub, Expr.eval_add, Expr.eval_mul, Expr.eval_const, Cols.eval_wv, add_zero, Cols.value_wa, v0, v1, v2,
    hfr.outside hl, hfr.outside hh]
  ring

/-- C146, the bits: for 64-bit limbs and a field of more than 128 bits the output is the 128-bit integer whose low half is the first limb and whose
high half is the second. -/
theorem fromLimbs_bits (hp : 2 ^ 128 ≤ p) (c : Cols) (lo hi : Var) (srow : ℤ) (t : Table (ZMod p))
    (h : Sat t (FromLimbs.circuit c lo hi srow)) (h1 : (lo.value t).val < 2 ^ 64) (h2 : (hi.value t).val < 2 ^ 64) (i : ℕ) :
    ((FromLimbs.result c srow).value t).val.testBit i =
      if i < 64 then (lo.value t).val.testBit i else (hi.value t).val.testBit (i - 64) := by
  have e : (FromLimbs.result c srow).value t = ((2 ^ 64 * (hi.value t).val + (lo.value t).val : ℕ) : ZMod p) := by
    rw [fromLimbs_sound c lo hi srow t h]
    rw [Nat.cast_add, Nat.cast_mul, ZMod.natCast_zmod_val, ZMod.natCast_zmod_val]
    push_cast; ring
  rw [e, ZMod.val_cast_of_lt (by omega)]
  exact Nat.testBit_two_pow_mul_add _ h1 i

open ToLimbs in
/-- C145 and C146 together, as the transcript uses them: splitting an element and joining its first two limbs gives its low 128 bits. -/
theorem limbs_low128 (h1 : 2 ^ 128 ≤ p) (h2 : p ≤ 2 ^ 256) (c c' : Cols) (hk : c.k 0 = 0) (x : Var) (srow row' : ℤ) (t : Table (ZMod p))
    (h : Sat t (circuit c x srow)) (h' : Sat t (FromLimbs.circuit c' (result c srow 0) (result c srow 1) row')) :
    ((FromLimbs.result c' row').value t).val = (x.value t).val % 2 ^ 128 := by
  have s0 := toLimbs_sound (by omega) h2 c hk x srow t h 0 (by omega)
  have s1 := toLimbs_sound (by omega) h2 c hk x srow t h 1 (by omega)
  have e : (FromLimbs.result c' row').value t =
      ((2 ^ 64 * ((result c srow 1).value t).val + ((result c srow 0).value t).val : ℕ) : ZMod p) := by
    rw [fromLimbs_sound c' _ _ row' t h', Nat.cast_add, Nat.cast_mul, ZMod.natCast_zmod_val, ZMod.natCast_zmod_val]
    push_cast; ring
  rw [e, s0, s1, ZMod.val_cast_of_lt (by omega)]
  omega

theorem ToLimbs.writeConsts_keep {F : Type*} [Field F] (os : List (Op F)) (t : Table F) (ty : ColType) (i : ℕ) (r : ℤ) (h : ty ≠ .constant) :
    writeConsts os t ty i r = t ty i r := by
  induction os generalizing t with
  | nil => rfl
  | cons o os ih =>
    show writeConsts os (o.writeConst t) ty i r = _
    rw [ih]
    cases o <;> simp [Op.writeConst, Table.set_apply, h]

open ToLimbs in
/-- The hypotheses can be met for every public input. -/
theorem ToLimbs.exists_table (h1 : 2 ^ 66 < p) (h2 : p ≤ 2 ^ 256) (c : Cols) (hc : c.OK 15) (hk : c.k 0 = 0) (x : Var)
    (hx : x.type = .publicInput) (srow : ℤ) (v : ZMod p) :
    ∃ t : Table (ZMod p), Sat t (circuit c x srow) ∧ x.value t = v ∧
      ∀ i < 4, (result c srow i).value t = ((v.val / 2 ^ (64 * i) % 2 ^ 64 : ℕ) : ZMod p) := by
  have ho : x.Outside srow rows := by intro h; rw [hx] at h; simp at h
  have hv : x.value (writeConsts (circuit c x srow) (fun _ _ _ => v)) = v := by
    unfold Var.value
    rw [writeConsts_keep _ _ _ _ _ (by rw [hx]; simp)]
  have H := toLimbs_complete (p := p) h1 h2 c hc hk x srow ho (fun _ _ _ => v)
  simp only [] at H
  refine ⟨assign c x srow (writeConsts (circuit c x srow) fun _ _ _ => v), H.1, ?_, ?_⟩
  · rw [H.2.1.outside ho, hv]
  · intro i hi
    have := H.2.2 i hi
    rw [hv] at this
    exact this

open ToLimbs in
/-- The field of the pallas curve: `2^200 + 5` has an accepted table, in which limb 3 is `2^8`. -/
example : 2 ^ 128 ≤ pallasP ∧ pallasP ≤ 2 ^ 256 ∧
    ∃ t : Table (ZMod pallasP), Sat t (circuit ⟨List.range 15, [0], []⟩ ⟨0, 0, false, .publicInput⟩ 3) ∧
      (⟨0, 0, false, .publicInput⟩ : Var).value t = ((2 ^ 200 + 5 : ℕ) : ZMod pallasP) ∧
      (result ⟨List.range 15, [0], []⟩ 3 3).value t = ((2 ^ 8 : ℕ) : ZMod pallasP) := by
  have hp : 2 ^ 128 ≤ pallasP ∧ pallasP ≤ 2 ^ 256 := by unfold pallasP; constructor <;> norm_num
  have hv : (((2 ^ 200 + 5 : ℕ) : ZMod pallasP)).val = 2 ^ 200 + 5 := ZMod.val_cast_of_lt (by unfold pallasP; norm_num)
  obtain ⟨t, a1, a2, a3⟩ := ToLimbs.exists_table (p := pallasP) (by omega) hp.2 ⟨List.range 15, [0], []⟩ ⟨List.nodup_range, by simp⟩ rfl
    ⟨0, 0, false, .publicInput⟩ rfl 3 ((2 ^ 200 + 5 : ℕ) : ZMod pallasP)
  refine ⟨hp.1, hp.2, t, a1, a2, ?_⟩
  have e : (2 ^ 200 + 5) / 2 ^ (64 * 3) % 2 ^ 64 = 2 ^ 8 := by norm_num
  rw [a3 3 (by omega), hv, e]

end Verif
