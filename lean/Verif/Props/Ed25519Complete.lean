import Verif.Props.Ed25519

/-!
# C49: the honest assignment, and what the constraints do not determine
-/

set_option linter.unusedSimpArgs false
set_option linter.unusedVariables false
set_option linter.unusedSectionVars false
set_option exponentiation.threshold 600

namespace Verif
namespace Ed25519

/-! ### Completeness -/

section complete
variable {n : ℕ} [Fact n.Prime] {c : Cols}

theorem limb_lt (x i : ℕ) : limb x i < 2 ^ 66 := Nat.mod_lt _ (by norm_num)

theorem limb_num {x : ℕ} (h : x < 2 ^ 255) : limb x 3 < 2 ^ 57 ∧ x = num (limb x 0) (limb x 1) (limb x 2) (limb x 3) := by
  have key : x / 2 ^ 198 % 2 ^ 66 < 2 ^ 57 ∧ x = x / 2 ^ 0 % 2 ^ 66 + 2 ^ 66 * (x / 2 ^ 66 % 2 ^ 66)
      + 2 ^ 132 * (x / 2 ^ 132 % 2 ^ 66) + 2 ^ 198 * (x / 2 ^ 198 % 2 ^ 66) := by omega
  simpa only [num, limb, Nat.shiftRight_eq_div_pow] using key

theorem compose_eq (v : ℕ → ℕ) : compose v = num (v 0) (v 1) (v 2) (v 3) := by unfold compose num; ring

theorem chunk_lt (v : ℕ → ℕ) (k : ℕ) : chunk v k < 2 ^ chunkBits k := Nat.mod_lt _ (Nat.two_pow_pos _)

theorem chunk_sum {v : ℕ → ℕ} (h0 : v 0 < 2 ^ 66) (h1 : v 1 < 2 ^ 66) (h2 : v 2 < 2 ^ 66) (h3 : v 3 < 2 ^ 57) :
    v 0 = chunk v 0 + chunk v 1 * 2 ^ 22 + chunk v 2 * 2 ^ 44 ∧
    v 1 = chunk v 3 + chunk v 4 * 2 ^ 22 + chunk v 5 * 2 ^ 44 ∧
    v 2 = chunk v 6 + chunk v 7 * 2 ^ 22 + chunk v 8 * 2 ^ 44 ∧
    v 3 = chunk v 9 + chunk v 10 * 2 ^ 21 + chunk v 11 * 2 ^ 42 := by
  have key : ∀ x : ℕ, x < 2 ^ 66 → x = x / 2 ^ 0 % 2 ^ 22 + x / 2 ^ 22 % 2 ^ 22 * 2 ^ 22 + x / 2 ^ 44 % 2 ^ 22 * 2 ^ 44 :=
    fun x hx => by omega
  have key' : ∀ x : ℕ, x < 2 ^ 57 → x = x / 2 ^ 0 % 2 ^ 21 + x / 2 ^ 21 % 2 ^ 21 * 2 ^ 21 + x / 2 ^ 42 % 2 ^ 15 * 2 ^ 42 :=
    fun x hx => by omega
  have e : ∀ k, chunk v k = v (k / 3) / 2 ^ ((if k < 9 then 22 else 21) * (k % 3)) % 2 ^ chunkBits k := fun k => by
    simp only [chunk, Nat.shiftRight_eq_div_pow]
  refine ⟨?_, ?_, ?_, ?_⟩
  · rw [e 0, e 1, e 2]; exact key _ h0
  · rw [e 3, e 4, e 5]; exact key _ h1
  · rw [e 6, e 7, e 8]; exact key _ h2
  · rw [e 9, e 10, e 11]; exact key' _ h3

theorem carry_sum {w u : ℕ} (h : u < 2 ^ (66 + w)) :
    u = carryChunk w u 0 + carryChunk w u 1 * 2 ^ 22 + carryChunk w u 2 * 2 ^ 44 + carryChunk w u 3 * 2 ^ 66 := by
  have h3 : carryChunk w u 3 = u / 2 ^ 66 := by
    simp only [carryChunk, Nat.shiftRight_eq_div_pow]
    norm_num
    apply Nat.mod_eq_of_lt
    rw [Nat.div_lt_iff_lt_mul (by norm_num)]
    rw [pow_add] at h
    norm_num at h
    linarith
  rw [h3]
  simp only [carryChunk, Nat.shiftRight_eq_div_pow]
  norm_num
  omega

/-- The two rows of a range component hold the chunks of `v`, the inverse of `xiSum v` and the flag `f`. -/
structure RangeAt (T : Table (ZMod n)) (c : Cols) (row : ℤ) (v : ℕ → ℕ) (f : ZMod n) : Prop where
  inp : ∀ j : ℕ, j < 4 → T .witness (c.w j) row = (v j : ZMod n)
  lo : ∀ k : ℕ, k < 4 → T .witness (c.w ((4 + k : ℕ) : ℤ)) row = (chunk v k : ZMod n)
  inv : T .witness (c.w 8) row = (xiSum v)⁻¹
  hi : ∀ k : ℕ, k < 8 → T .witness (c.w k) (row + 1) = (chunk v (4 + k) : ZMod n)
  flag : T .witness (c.w 8) (row + 1) = f

theorem RangeAt.cells {T : Table (ZMod n)} {row : ℤ} {v : ℕ → ℕ} {f : ZMod n} (h : RangeAt T c row v f) :
    RangeCells T c row := by
  have b := chunk_lt v
  refine ⟨⟨⟨_, b 0, h.lo 0 (by omega)⟩, ⟨_, b 1, h.lo 1 (by omega)⟩, ⟨_, b 2, h.lo 2 (by omega)⟩⟩,
    ⟨⟨_, b 3, h.lo 3 (by omega)⟩, ⟨_, b 4, h.hi 0 (by omega)⟩, ⟨_, b 5, h.hi 1 (by omega)⟩⟩,
    ⟨⟨_, b 6, h.hi 2 (by omega)⟩, ⟨_, b 7, h.hi 3 (by omega)⟩, ⟨_, b 8, h.hi 4 (by omega)⟩⟩,
    ⟨⟨_, b 9, h.hi 5 (by omega)⟩, ⟨_, b 10, h.hi 6 (by omega)⟩, ⟨_, b 11, h.hi 7 (by omega)⟩⟩⟩

theorem RangeAt.gate {T : Table (ZMod n)} {row : ℤ} {v : ℕ → ℕ} {f : ZMod n} (h : RangeAt T c row v f)
    (h0 : v 0 < 2 ^ 66) (h1 : v 1 < 2 ^ 66) (h2 : v 2 < 2 ^ 66) (h3 : v 3 < 2 ^ 57)
    (hf : (xiSum v : ZMod n) ≠ 0 ∨ f = 1) : (Op.gate (rangeGate c) [row]).Holds T := by
  obtain ⟨e0, e1, e2, e3⟩ := chunk_sum h0 h1 h2 h3
  have i0 := h.inp 0 (by omega); have i1 := h.inp 1 (by omega)
  have i2 := h.inp 2 (by omega); have i3 := h.inp 3 (by omega)
  have l0 := h.lo 0 (by omega); have l1 := h.lo 1 (by omega)
  have l2 := h.lo 2 (by omega); have l3 := h.lo 3 (by omega)
  have k0 := h.hi 0 (by omega); have k1 := h.hi 1 (by omega)
  have k2 := h.hi 2 (by omega); have k3 := h.hi 3 (by omega)
  have k4 := h.hi 4 (by omega); have k5 := h.hi 5 (by omega)
  have k6 := h.hi 6 (by omega); have k7 := h.hi 7 (by omega)
  norm_num at i0 i1 i2 i3 l0 l1 l2 l3 k0 k1 k2 k3 k4 k5 k6 k7
  have hs : (rangeSum c).eval T row = (xiSum v : ZMod n) := by
    simp only [rangeSum, sh, Expr.eval_sub, Expr.eval_add, Cols.eval_wv, Expr.eval_const, add_zero, l1, l2, l3,
      k0, k1, k2, k3, k4, k5, k6, k7]
    simp [xiSum, List.range, List.range.loop, chunkBits]
    ring
  have hx : (xiSum v : ZMod n) * ((xiSum v)⁻¹ * xiSum v - 1) = 0 := by
    by_cases hz : (xiSum v : ZMod n) = 0
    · rw [hz, zero_mul]
    · rw [inv_mul_cancel₀ hz, sub_self, mul_zero]
  simp only [rangeGate, holds_gate, List.mem_singleton, forall_eq, List.forall_mem_cons, Expr.eval_sub, Expr.eval_add,
    Expr.eval_mul, hs, Cols.eval_wv, sh, Expr.eval_const, add_zero, Expr.eval_one, i0, i1, i2, i3, l0, l1, l2, l3,
    k0, k1, k2, k3, k4, k5, k6, k7, h.inv, h.flag]
  refine ⟨?_, ?_, ?_, ?_, hx, ?_⟩
  · rw [sub_eq_zero]; exact_mod_cast congrArg (Nat.cast (R := ZMod n)) e0
  · rw [sub_eq_zero]; exact_mod_cast congrArg (Nat.cast (R := ZMod n)) e1
  · rw [sub_eq_zero]; exact_mod_cast congrArg (Nat.cast (R := ZMod n)) e2
  · rw [sub_eq_zero]; exact_mod_cast congrArg (Nat.cast (R := ZMod n)) e3
  · rcases hf with hf | hf
    · rw [inv_mul_cancel₀ hf]; ring
    · rw [hf]; ring

theorem chunk_congr {v v' : ℕ → ℕ} (h : ∀ i, i < 4 → v i = v' i) (k : ℕ) (hk : k < 12) : chunk v k = chunk v' k := by
  unfold chunk; rw [h (k / 3) (by omega)]

theorem xiSum_congr {v v' : ℕ → ℕ} (h : ∀ i, i < 4 → v i = v' i) : (xiSum v : ZMod n) = xiSum v' := by
  unfold xiSum
  congr 1
  apply List.map_congr_left
  intro k hk
  rw [chunk_congr h k (List.mem_range.1 hk)]

theorem RangeAt.congr {T : Table (ZMod n)} {row : ℤ} {v v' : ℕ → ℕ} {f : ZMod n} (h : RangeAt T c row v f)
    (he : ∀ i, i < 4 → v i = v' i) : RangeAt T c row v' f := by
  refine ⟨fun j hj => ?_, fun k hk => ?_, ?_, fun k hk => ?_, h.flag⟩
  · rw [← he j hj]; exact h.inp j hj
  · rw [← chunk_congr he k (by omega)]; exact h.lo k hk
  · rw [← xiSum_congr he]; exact h.inv
  · rw [← chunk_congr he _ (by omega)]; exact h.hi k hk

theorem all_max {x1 x2 x3 x4 x5 x6 x7 x8 x9 x10 x11 : ℕ} (b1 : x1 < 4194304) (b2 : x2 < 4194304) (b3 : x3 < 4194304)
    (b4 : x4 < 4194304) (b5 : x5 < 4194304) (b6 : x6 < 4194304) (b7 : x7 < 4194304) (b8 : x8 < 4194304)
    (b9 : x9 < 2097152) (b10 : x10 < 2097152) (b11 : x11 < 32768)
    (h : (x1 + x2 + x3 + x4 + x5 + x6 + x7 + x8 + x9 + x10 + x11 - 33554432 - 4194304 - 32768 + 11 : ℤ) = 0) :
    x1 = 4194303 ∧ x2 = 4194303 ∧ x3 = 4194303 ∧ x4 = 4194303 ∧ x5 = 4194303 ∧ x6 = 4194303 ∧ x7 = 4194303 ∧
    x8 = 4194303 ∧ x9 = 2097151 ∧ x10 = 2097151 ∧ x11 = 32767 := by
  zify at *
  refine ⟨?_, ?_, ?_, ?_, ?_, ?_, ?_, ?_, ?_, ?_, ?_⟩ <;> linarith

/-- The flag computed by the component is the right one for numbers below the modulus. -/
theorem flag_ok {v : ℕ → ℕ} (hn : 2 ^ 254 < n)
    (h0 : v 0 < 2 ^ 66) (h1 : v 1 < 2 ^ 66) (h2 : v 2 < 2 ^ 66) (h3 : v 3 < 2 ^ 57)
    (hlt : num (v 0) (v 1) (v 2) (v 3) < modulus) :
    (xiSum v : ZMod n) ≠ 0 ∨ (if chunk v 0 > 2 ^ 22 - 20 then (0 : ZMod n) else 1) = 1 := by
  by_contra hcon
  push Not at hcon
  obtain ⟨hx, hfl⟩ := hcon
  have hc0 : chunk v 0 > 2 ^ 22 - 20 := by
    by_contra hh; rw [if_neg hh] at hfl; exact hfl rfl
  obtain ⟨e0, e1, e2, e3⟩ := chunk_sum h0 h1 h2 h3
  have hX : (n : ℤ) ∣ (chunk v 1 + chunk v 2 + chunk v 3 + chunk v 4 + chunk v 5 + chunk v 6 + chunk v 7 + chunk v 8
      + chunk v 9 + chunk v 10 + chunk v 11 - 8 * 2 ^ 22 - 2 * 2 ^ 21 - 2 ^ 15 + 11 : ℤ) := by
    rw [← ZMod.intCast_zmod_eq_zero_iff_dvd]
    rw [← hx]
    simp [xiSum, List.range, List.range.loop, chunkBits]
    ring
  have b1 := chunk_lt v 1; have b2 := chunk_lt v 2; have b3 := chunk_lt v 3; have b4 := chunk_lt v 4
  have b5 := chunk_lt v 5; have b6 := chunk_lt v 6; have b7 := chunk_lt v 7; have b8 := chunk_lt v 8
  have b9 := chunk_lt v 9; have b10 := chunk_lt v 10; have b11 := chunk_lt v 11
  simp only [chunkBits] at b1 b2 b3 b4 b5 b6 b7 b8 b9 b10 b11
  norm_num at b1 b2 b3 b4 b5 b6 b7 b8 b9 b10 b11 hc0
  have hz := small_zero hX (by
    have hn' : (2 : ℤ) ^ 254 < n := by exact_mod_cast hn
    rw [abs_lt]
    norm_num at hn' ⊢
    constructor <;> omega)
  norm_num at hz
  obtain ⟨m1, m2, m3, m4, m5, m6, m7, m8, m9, m10, m11⟩ := all_max b1 b2 b3 b4 b5 b6 b7 b8 b9 b10 b11 hz
  rw [modulus_val] at hlt
  unfold num at hlt
  rw [e0, e1, e2, e3, m1, m2, m3, m4, m5, m6, m7, m8, m9, m10, m11] at hlt
  clear hX hz
  omega

theorem rangeCell_inv (v : ℕ → ℕ) : (rangeCell v 0 8 : ZMod n) = (xiSum v)⁻¹ := by
  unfold rangeCell
  by_cases h : (xiSum v : ZMod n) = 0 <;> simp [h]

theorem range_grid (hc : c.OK 9) (inp : ℕ → Var) (row : ℤ) (t : Table (ZMod n)) :
    GridWrites c row 9 2 (rangeCell fun i => ((inp i).value t).val)
      ((List.range 2).flatMap fun r : ℕ => (List.range 9).map fun j : ℕ =>
        (⟨.witness, c.w j, row + r, rangeCell (fun i => ((inp i).value t).val) r j⟩ : Write (ZMod n))) := by
  intro x hx
  simp only [List.mem_flatMap, List.mem_range, List.mem_map] at hx
  obtain ⟨r, hr, j, hj, rfl⟩ := hx
  exact ⟨r, hr, j, hj, rfl⟩

theorem rangeAssign_frame (hc : c.OK 9) (inp : ℕ → Var) (row : ℤ) (t : Table (ZMod n)) :
    Frame c row 2 t (rangeAssign c inp row t) := ((range_grid hc inp row t).own hc).frame t

theorem rangeAssign_read (hc : c.OK 9) (inp : ℕ → Var) (row : ℤ) (t : Table (ZMod n)) {r j : ℕ} (hr : r < 2)
    (hj : j < 9) : rangeAssign c inp row t .witness (c.w j) (row + r) =
      rangeCell (fun i => ((inp i).value t).val) r j := by
  refine (range_grid hc inp row t).read hc t hj ?_
  simp only [List.mem_flatMap, List.mem_range, List.mem_map]
  exact ⟨r, hr, j, hj, rfl⟩

/-- What the range component writes. -/
theorem rangeAssign_at (hc : c.OK 9) (inp : ℕ → Var) (row : ℤ) (t : Table (ZMod n)) :
    RangeAt (rangeAssign c inp row t) c row (fun i => ((inp i).value t).val)
      (if chunk (fun i => ((inp i).value t).val) 0 > 2 ^ 22 - 20 then 0 else 1) := by
  have rd := @rangeAssign_read n _ c hc inp row t
  refine ⟨fun j hj => ?_, fun k hk => ?_, ?_, fun k hk => ?_, ?_⟩
  · have := rd (r := 0) (j := j) (by omega) (by omega)
    rw [Nat.cast_zero, add_zero] at this
    rw [this, rangeCell, if_pos rfl, if_pos hj]
  · have := rd (r := 0) (j := 4 + k) (by omega) (by omega)
    rw [Nat.cast_zero, add_zero] at this
    rw [this, rangeCell, if_pos rfl, if_neg (by omega), if_pos (by omega), Nat.add_sub_cancel_left]
  · have := rd (r := 0) (j := 8) (by omega) (by omega)
    rw [Nat.cast_zero, add_zero, rangeCell_inv] at this
    exact this
  · have := rd (r := 1) (j := k) (by omega) (by omega)
    rw [Nat.cast_one] at this
    rw [this, rangeCell, if_neg (by omega), if_pos (by omega)]
  · have := rd (r := 1) (j := 8) (by omega) (by omega)
    rw [Nat.cast_one] at this
    exact this

/-- First three rows of addition and subtraction, by row and column. -/
def addCell (w : ℕ) (a b r : ℕ → ℕ) (q u : ℕ) : ℕ → ℕ → ZMod n
  | 1, 0 => a 0 | 1, 1 => b 0 | 1, 2 => q | 1, 3 => a 1 | 1, 4 => a 2 | 1, 5 => a 3
  | 1, 6 => b 1 | 1, 7 => b 2 | 1, 8 => b 3
  | 0, 3 => carryChunk w u 0 | 0, 4 => carryChunk w u 1 | 0, 5 => carryChunk w u 2 | 0, 6 => carryChunk w u 3
  | 0, 7 => u
  | 2, 0 => r 0 | 2, 1 => r 1 | 2, 2 => r 2 | 2, 3 => r 3
  | _, _ => 0

theorem add_grid (row : ℤ) (w : ℕ) (a b r : ℕ → ℕ) (q u : ℕ) :
    GridWrites c row 9 3 (addCell (n := n) w a b r q u) (addWrites c row w a b r q u) := by
  intro x hx
  simp only [addWrites, List.mem_cons, List.not_mem_nil, or_false] at hx
  rcases hx with rfl | rfl | rfl | rfl | rfl | rfl | rfl | rfl | rfl | rfl | rfl | rfl | rfl | rfl | rfl | rfl | rfl | rfl
  · exact ⟨1, by omega, 0, by omega, rfl⟩
  · exact ⟨1, by omega, 1, by omega, rfl⟩
  · exact ⟨1, by omega, 2, by omega, rfl⟩
  · exact ⟨1, by omega, 3, by omega, rfl⟩
  · exact ⟨1, by omega, 4, by omega, rfl⟩
  · exact ⟨1, by omega, 5, by omega, rfl⟩
  · exact ⟨1, by omega, 6, by omega, rfl⟩
  · exact ⟨1, by omega, 7, by omega, rfl⟩
  · exact ⟨1, by omega, 8, by omega, rfl⟩
  · exact ⟨0, by omega, 3, by omega, by rw [Nat.cast_zero, add_zero]; rfl⟩
  · exact ⟨0, by omega, 4, by omega, by rw [Nat.cast_zero, add_zero]; rfl⟩
  · exact ⟨0, by omega, 5, by omega, by rw [Nat.cast_zero, add_zero]; rfl⟩
  · exact ⟨0, by omega, 6, by omega, by rw [Nat.cast_zero, add_zero]; rfl⟩
  · exact ⟨0, by omega, 7, by omega, by rw [Nat.cast_zero, add_zero]; rfl⟩
  · exact ⟨2, by omega, 0, by omega, rfl⟩
  · exact ⟨2, by omega, 1, by omega, rfl⟩
  · exact ⟨2, by omega, 2, by omega, rfl⟩
  · exact ⟨2, by omega, 3, by omega, rfl⟩

/-- The cells of an assignment of addition or subtraction. -/
structure AddAt (T : Table (ZMod n)) (c : Cols) (row : ℤ) (w : ℕ) (a b r : ℕ → ℕ) (q u : ℕ) (f : ZMod n) : Prop where
  a0 : T .witness (c.w 0) (row + 1) = a 0
  b0 : T .witness (c.w 1) (row + 1) = b 0
  q : T .witness (c.w 2) (row + 1) = q
  a1 : T .witness (c.w 3) (row + 1) = a 1
  a2 : T .witness (c.w 4) (row + 1) = a 2
  a3 : T .witness (c.w 5) (row + 1) = a 3
  b1 : T .witness (c.w 6) (row + 1) = b 1
  b2 : T .witness (c.w 7) (row + 1) = b 2
  b3 : T .witness (c.w 8) (row + 1) = b 3
  u0 : T .witness (c.w 3) row = carryChunk w u 0
  u1 : T .witness (c.w 4) row = carryChunk w u 1
  u2 : T .witness (c.w 5) row = carryChunk w u 2
  u3 : T .witness (c.w 6) row = carryChunk w u 3
  u : T .witness (c.w 7) row = u
  rng : RangeAt T c (row + 2) r f

theorem AddAt.carry {T : Table (ZMod n)} {row : ℤ} {w : ℕ} {a b r : ℕ → ℕ} {q u : ℕ} {f : ZMod n}
    (h : AddAt T c row w a b r q u f) : CarryCells T c row 3 w :=
  ⟨⟨_, Nat.mod_lt _ (by norm_num), h.u0⟩, ⟨_, Nat.mod_lt _ (by norm_num), h.u1⟩, ⟨_, Nat.mod_lt _ (by norm_num), h.u2⟩,
    ⟨_, Nat.mod_lt _ (Nat.two_pow_pos _), h.u3⟩⟩

/-- The writes of addition and subtraction, when columns `W(0)` to `W(3)` are columns `0` to `3` of the table. -/
theorem addAt_of (hn : 2 ^ 254 < n) (hc : c.OK 9) (hid : ∀ i : ℕ, i < 4 → c.w i = i) (row : ℤ) (w : ℕ) (a b : ℕ → ℕ)
    {R : ℕ} (hR : R < 2 ^ 255) (q u : ℕ) (t : Table (ZMod n)) :
    ∃ f : ZMod n, (R < modulus → (xiSum (limb R) : ZMod n) ≠ 0 ∨ f = 1) ∧
      AddAt (rangeAssign c (addRangeInput row) (row + 2) (writeAll (addWrites c row w a b (limb R) q u) t))
        c row w a b (limb R) q u f := by
  set T := writeAll (addWrites c row w a b (limb R) q u) t with hT
  have rd : ∀ r j : ℕ, j < 9 → (⟨.witness, c.w (j : ℤ), row + (r : ℤ), addCell w a b (limb R) q u r j⟩ : Write (ZMod n)) ∈
      addWrites c row w a b (limb R) q u → T .witness (c.w (j : ℤ)) (row + (r : ℤ)) = addCell w a b (limb R) q u r j :=
    fun r j hj hm => (add_grid row w a b (limb R) q u).read hc t hj hm
  have m : ∀ r j : ℕ, (r = 1 ∧ j < 9 ∨ r = 2 ∧ j < 4) →
      (⟨.witness, c.w (j : ℤ), row + (r : ℤ), addCell w a b (limb R) q u r j⟩ : Write (ZMod n)) ∈
      addWrites c row w a b (limb R) q u := by
    rintro r j (⟨rfl, hj⟩ | ⟨rfl, hj⟩) <;> interval_cases j <;> simp [addWrites, addCell]
  have m0 : ∀ j : ℕ, (3 ≤ j ∧ j < 8) →
      (⟨.witness, c.w (j : ℤ), row + ((0 : ℕ) : ℤ), addCell w a b (limb R) q u 0 j⟩ : Write (ZMod n)) ∈
      addWrites c row w a b (limb R) q u := by
    rintro j ⟨hj, hj'⟩; interval_cases j <;> simp [addWrites, addCell]
  have hv : ∀ i : ℕ, i < 4 → ((addRangeInput row i).value T).val = limb R i := by
    intro i hi
    have e := rd 2 i (by omega) (m 2 i (by omega))
    rw [hid i hi] at e
    have e' : (addRangeInput row i).value T = (limb R i : ZMod n) := by
      unfold addRangeInput Var.value
      refine Eq.trans e ?_
      interval_cases i <;> rfl
    rw [e', ZMod.val_cast_of_lt]
    have := limb_lt R i
    omega
  have hat := (rangeAssign_at hc (addRangeInput row) (row + 2) T).congr hv
  have hfr := rangeAssign_frame hc (addRangeInput row) (row + 2) T
  set T' := rangeAssign c (addRangeInput row) (row + 2) T with hT'
  have r1 : ∀ j : ℕ, j < 9 → T' .witness (c.w (j : ℤ)) (row + 1) = addCell w a b (limb R) q u 1 j := by
    intro j hj
    rw [hfr.row (by omega)]
    exact rd 1 j hj (m 1 j (by omega))
  have r0 : ∀ j : ℕ, 3 ≤ j ∧ j < 8 → T' .witness (c.w (j : ℤ)) row = addCell w a b (limb R) q u 0 j := by
    intro j hj
    rw [hfr.row (by omega)]
    have := rd 0 j (by omega) (m0 j hj)
    rw [Nat.cast_zero, add_zero] at this
    exact this
  refine ⟨_, fun hlt => ?_, ⟨r1 0 (by omega), r1 1 (by omega), r1 2 (by omega), r1 3 (by omega), r1 4 (by omega),
    r1 5 (by omega), r1 6 (by omega), r1 7 (by omega), r1 8 (by omega), r0 3 (by omega), r0 4 (by omega), r0 5 (by omega),
    r0 6 (by omega), r0 7 (by omega), hat⟩⟩
  obtain ⟨l3, le⟩ := limb_num hR
  rw [chunk_congr hv 0 (by omega)]
  exact flag_ok hn (limb_lt _ _) (limb_lt _ _) (limb_lt _ _) l3 (by rw [← le]; exact hlt)

/-- The circuit of addition holds for cells which satisfy the integer relation. -/
theorem add_sat (hn : 2 ^ 254 < n) {T : Table (ZMod n)} {row : ℤ} {a b : ℕ → ℕ} {q u R : ℕ} {f : ZMod n} {inp : In}
    (h : AddAt T c row 1 a b (limb R) q u f) (hR : R < 2 ^ 255) (hq : q = 0 ∨ q = 1) (hu : u < 2 ^ 67)
    (h1 : u * 2 ^ 66 + limb R 0 = a 0 + b 0 + 19 * q)
    (h4 : num (a 0) (a 1) (a 2) (a 3) + num (b 0) (b 1) (b 2) (b 3) = q * (2 ^ 255 - 19) + R)
    (hf : (xiSum (limb R) : ZMod n) ≠ 0 ∨ f = 1)
    (ha : ∀ i : ℕ, i < 4 → (inp.a i).value T = a i) (hb : ∀ i : ℕ, i < 4 → (inp.b i).value T = b i) :
    Sat T (addCircuit c inp row) := by
  obtain ⟨l3, le⟩ := limb_num hR
  have hrng := h.rng.gate (limb_lt _ _) (limb_lt _ _) (limb_lt _ _) l3 hf
  have k0 := h.rng.inp 0 (by omega); have k1 := h.rng.inp 1 (by omega)
  have k2 := h.rng.inp 2 (by omega); have k3 := h.rng.inp 3 (by omega)
  norm_num at k0 k1 k2 k3
  have hus := congrArg (Nat.cast (R := ZMod n)) (carry_sum (w := 1) (u := u) hu)
  have h1' := congrArg (Nat.cast (R := ZMod n)) h1
  have h4' := congrArg (Nat.cast (R := ZMod n)) h4
  rw [le] at h4'
  unfold num at h4'
  push_cast [show (19 : ℕ) ≤ 2 ^ 255 by norm_num] at hus h1' h4'
  simp only [addCircuit, sat_cons, sat_append]
  refine ⟨?_, ?_, ?_⟩
  · simp only [addGate, holds_gate, List.mem_singleton, forall_eq, List.forall_mem_cons, Expr.eval_sub, Expr.eval_add,
      Expr.eval_mul, Cols.eval_wv, sh, Expr.eval_const, add_zero, composeE, Expr.eval_one, add_assoc,
      show (1 : ℤ) + 1 = 2 by norm_num, show (1 : ℤ) + -1 = 0 by norm_num, h.a0, h.a1, h.a2, h.a3, h.b0, h.b1, h.b2,
      h.b3, h.q, h.u, h.u0, h.u1, h.u2, h.u3, k0, k1, k2, k3, negP_val, modulus_val]
    refine ⟨?_, ?_, ?_, ?_⟩
    · push_cast; linear_combination h1'
    · rcases hq with rfl | rfl <;> simp
    · linear_combination hus
    · push_cast; linear_combination h4'
  · simp only [addCopies, sat_cons, holds_copy, Cols.value_wa, sat_nil, and_true, h.a0, h.a1, h.a2, h.a3, h.b0, h.b1, h.b2,
      h.b3, ha 0 (by omega), ha 1 (by omega), ha 2 (by omega), ha 3 (by omega), hb 0 (by omega), hb 1 (by omega),
      hb 2 (by omega), hb 3 (by omega)]
  · simp only [rangeCircuit, sat_cons]
    exact ⟨hrng, by simp [List.range, List.range.loop]⟩

theorem limbs_val (hn : 2 ^ 254 < n) {t : Table (ZMod n)} {v : ℕ → Var} {x : ℕ} (h : Limbs t v x) :
    (∀ i : ℕ, (v i).value t = ((((v i).value t).val : ℕ) : ZMod n)) ∧
    ((v 0).value t).val < 2 ^ 66 ∧ ((v 1).value t).val < 2 ^ 66 ∧ ((v 2).value t).val < 2 ^ 66 ∧
    ((v 3).value t).val < 2 ^ 57 ∧
    num ((v 0).value t).val ((v 1).value t).val ((v 2).value t).val ((v 3).value t).val = x := by
  obtain ⟨l0, l1, l2, l3, h0, h1, h2, h3, e0, e1, e2, e3, rfl⟩ := h
  refine ⟨fun i => (ZMod.natCast_zmod_val _).symm, ?_⟩
  rw [e0, e1, e2, e3, ZMod.val_cast_of_lt, ZMod.val_cast_of_lt, ZMod.val_cast_of_lt, ZMod.val_cast_of_lt]
  · exact ⟨h0, h1, h2, h3, rfl⟩
  all_goals omega

theorem addWrites_frame (hc : c.OK 9) (row : ℤ) (w : ℕ) (a b r : ℕ → ℕ) (q u : ℕ) (inp : ℕ → Var) (t : Table (ZMod n)) :
    Frame c row 4 t (rangeAssign c inp (row + 2) (writeAll (addWrites c row w a b r q u) t)) :=
  ((((add_grid row w a b r q u).own hc).frame t).mono (by omega) (by push_cast; omega)).trans
    ((rangeAssign_frame hc _ _ _).mono (by omega) (by push_cast; omega))

theorem num_mod {l0 l1 l2 l3 : ℕ} (h : l0 < 2 ^ 66) : num l0 l1 l2 l3 % 2 ^ 66 = l0 := by unfold num; omega

theorem limb_zero (x : ℕ) : limb x 0 = x % 2 ^ 66 := by simp [limb]

theorem RangeAt.limbs {T : Table (ZMod n)} {row : ℤ} {R : ℕ} {f : ZMod n} (h : RangeAt T c row (limb R) f)
    (hR : R < 2 ^ 255) : Limbs T (fun i : ℕ => c.wa i row) R := by
  obtain ⟨l3, le⟩ := limb_num hR
  exact ⟨_, _, _, _, limb_lt _ _, limb_lt _ _, limb_lt _ _, l3, h.inp 0 (by omega), h.inp 1 (by omega), h.inp 2 (by omega),
    h.inp 3 (by omega), le⟩

/-- The carry of an addition over the integers. -/
theorem add_int {x y q R a0 b0 : ℕ} (ha : a0 = x % 2 ^ 66) (hb : b0 = y % 2 ^ 66) (hq : q = 0 ∨ q = 1)
    (h : x + y = q * (2 ^ 255 - 19) + R) :
    (a0 + b0 + 19 * q) / 2 ^ 66 * 2 ^ 66 + R % 2 ^ 66 = a0 + b0 + 19 * q := by
  subst ha hb
  rcases hq with rfl | rfl
  · omega
  · have : x + y + 19 = 2 ^ 255 + R := by omega
    omega

/-- Addition: the assignment of the component satisfies its circuit, with all chunks within their widths, and holds
the reduced sum, for reduced operands and columns `W(0)` to `W(3)` equal to table columns `0` to `3`. -/
theorem add_complete_partial (hn : 2 ^ 254 < n) (hc : c.OK 9) (hid : ∀ i : ℕ, i < 4 → c.w i = i) {inp : In} {row : ℤ}
    {t : Table (ZMod n)} {x y : ℕ} (hx : Limbs t inp.a x) (hy : Limbs t inp.b y) (hxp : x < modulus) (hyp : y < modulus)
    (hoa : ∀ i, i < 4 → (inp.a i).Outside row 4) (hob : ∀ i, i < 4 → (inp.b i).Outside row 4) :
    let t' := addAssign c inp row t
    Sat t' (addCircuit c inp row) ∧ Limbs t' (addResult c row) ((x + y) % modulus) ∧
      RangeCells t' c (row + 2) ∧ CarryCells t' c row 3 1 ∧ Frame c row 4 t t' := by
  obtain ⟨va, ha0, ha1, ha2, ha3, hax⟩ := limbs_val hn hx
  obtain ⟨vb, hb0, hb1, hb2, hb3, hby⟩ := limbs_val hn hy
  intro t'
  set a := fun i => ((inp.a i).value t).val with hadef
  set b := fun i => ((inp.b i).value t).val with hbdef
  have hca : compose a = x := by rw [compose_eq]; exact hax
  have hcb : compose b = y := by rw [compose_eq]; exact hby
  have hRe : addR a b = (x + y) % modulus := by
    unfold addR; rw [hca, hcb, Nat.mod_eq_of_lt hxp, Nat.mod_eq_of_lt hyp]
  have hQe : addQ a b = (x + y - (x + y) % modulus) / modulus := by
    unfold addQ; rw [hRe, hca, hcb, Nat.mod_eq_of_lt hxp, Nat.mod_eq_of_lt hyp]
  obtain ⟨hq, heq⟩ : (addQ a b = 0 ∨ addQ a b = 1) ∧ x + y = addQ a b * modulus + (x + y) % modulus := by
    rw [hQe]
    rcases Nat.lt_or_ge (x + y) modulus with h | h
    · rw [Nat.mod_eq_of_lt h]; simp
    · have e : (x + y) % modulus = x + y - modulus := by
        rw [Nat.mod_eq_sub_mod h, Nat.mod_eq_of_lt (by omega)]
      have e2 : (x + y - (x + y - modulus)) / modulus = 1 := by
        rw [show x + y - (x + y - modulus) = modulus by omega]
        exact Nat.div_self (by rw [modulus_val]; norm_num)
      rw [e, e2]; omega
  have hR : (x + y) % modulus < 2 ^ 255 :=
    (Nat.mod_lt _ (by rw [modulus_val]; norm_num)).trans (by rw [modulus_val]; norm_num)
  set R := (x + y) % modulus with hRdef
  set q := addQ a b with hqdef
  have ea0 : a 0 = x % 2 ^ 66 := by rw [← hax]; exact (num_mod ha0).symm
  have eb0 : b 0 = y % 2 ^ 66 := by rw [← hby]; exact (num_mod hb0).symm
  have hint := add_int ea0 eb0 hq heq
  set u := (a 0 + b 0 + 19 * q) / 2 ^ 66 with hu
  have hu3 : u < 4 := by rw [hu]; omega
  have hU : addU n a b = u := by
    unfold addU
    rw [← hqdef, hRe, negP_val.1, limb_zero, limb_zero, Nat.mod_eq_of_lt (a := q) (by omega)]
    have : ((a 0 : ZMod n) + b 0 + ((19 : ℕ) : ZMod n) * q - ((R % 2 ^ 66 : ℕ) : ZMod n)) = ((u * 2 ^ 66 : ℕ) : ZMod n) := by
      rw [sub_eq_iff_eq_add]
      exact_mod_cast congrArg (Nat.cast (R := ZMod n)) hint.symm
    rw [this, ZMod.val_cast_of_lt (by omega), Nat.shiftRight_eq_div_pow]
    omega
  have ht' : t' = rangeAssign c (addRangeInput row) (row + 2) (writeAll (addWrites c row 1 a b (limb R) q u) t) := by
    show addAssign c inp row t = _
    unfold addAssign
    simp only [← hadef, ← hbdef, ← hqdef, hRe, hU]
  obtain ⟨f, hf, hat⟩ := addAt_of hn hc hid row 1 a b hR q u t
  rw [← ht'] at hat
  have hfr : Frame c row 4 t t' := by rw [ht']; exact addWrites_frame hc _ _ _ _ _ _ _ _ _
  refine ⟨add_sat hn hat hR hq (by omega) ?_ ?_ (hf (Nat.mod_lt _ (by rw [modulus_val]; norm_num))) ?_ ?_,
    hat.rng.limbs hR, hat.rng.cells, hat.carry, hfr⟩
  · rw [limb_zero]; exact hint
  · rw [hax, hby]; exact heq
  · intro i hi; rw [hfr.outside (hoa i hi)]; exact va i
  · intro i hi; rw [hfr.outside (hob i hi)]; exact vb i

/-- The circuit of subtraction holds for cells which satisfy the integer relation. -/
theorem sub_sat (hn : 2 ^ 254 < n) {T : Table (ZMod n)} {row : ℤ} {a b : ℕ → ℕ} {q u R : ℕ} {f : ZMod n} {inp : In}
    (h : AddAt T c row 2 a b (limb R) q u f) (hR : R < 2 ^ 255) (hq : q = 0 ∨ q = 1) (hu : u < 2 ^ 68)
    (h1 : u * 2 ^ 66 + limb R 0 + b 0 = a 0 + (2 ^ 66 - 19) + 19 * q)
    (h4 : num (a 0) (a 1) (a 2) (a 3) + (2 ^ 255 - 19) = num (b 0) (b 1) (b 2) (b 3) + q * (2 ^ 255 - 19) + R)
    (hf : (xiSum (limb R) : ZMod n) ≠ 0 ∨ f = 1)
    (ha : ∀ i : ℕ, i < 4 → (inp.a i).value T = a i) (hb : ∀ i : ℕ, i < 4 → (inp.b i).value T = b i) :
    Sat T (subCircuit c inp row) := by
  obtain ⟨l3, le⟩ := limb_num hR
  have hrng := h.rng.gate (limb_lt _ _) (limb_lt _ _) (limb_lt _ _) l3 hf
  have k0 := h.rng.inp 0 (by omega); have k1 := h.rng.inp 1 (by omega)
  have k2 := h.rng.inp 2 (by omega); have k3 := h.rng.inp 3 (by omega)
  norm_num at k0 k1 k2 k3
  have hus := congrArg (Nat.cast (R := ZMod n)) (carry_sum (w := 2) (u := u) hu)
  have h1' := congrArg (Nat.cast (R := ZMod n)) h1
  have h4' := congrArg (Nat.cast (R := ZMod n)) h4
  rw [le] at h4'
  unfold num at h4'
  push_cast [show (19 : ℕ) ≤ 2 ^ 255 by norm_num, show (19 : ℕ) ≤ 2 ^ 66 by norm_num] at hus h1' h4'
  simp only [subCircuit, sat_cons, sat_append]
  refine ⟨?_, ?_, ?_⟩
  · simp only [subGate, holds_gate, List.mem_singleton, forall_eq, List.forall_mem_cons, Expr.eval_sub, Expr.eval_add,
      Expr.eval_mul, Cols.eval_wv, sh, Expr.eval_const, add_zero, composeE, Expr.eval_one, add_assoc,
      show (1 : ℤ) + 1 = 2 by norm_num, show (1 : ℤ) + -1 = 0 by norm_num, h.a0, h.a1, h.a2, h.a3, h.b0, h.b1, h.b2,
      h.b3, h.q, h.u, h.u0, h.u1, h.u2, h.u3, k0, k1, k2, k3, negP_val, modulus_val, limb_modulus]
    have e19 : ((2 ^ 66 - 19 : ℕ) : ZMod n) = 2 ^ 66 - 19 := by
      push_cast [show (19 : ℕ) ≤ 2 ^ 66 by norm_num]; norm_num
    rw [modulus_val.symm, limb_modulus, e19, modulus_val]
    refine ⟨?_, ?_, ?_, ?_⟩
    · push_cast; linear_combination h1'
    · rcases hq with rfl | rfl <;> simp
    · linear_combination hus
    · push_cast; linear_combination h4'
  · simp only [addCopies, sat_cons, holds_copy, Cols.value_wa, sat_nil, and_true, h.a0, h.a1, h.a2, h.a3, h.b0, h.b1, h.b2,
      h.b3, ha 0 (by omega), ha 1 (by omega), ha 2 (by omega), ha 3 (by omega), hb 0 (by omega), hb 1 (by omega),
      hb 2 (by omega), hb 3 (by omega)]
  · simp only [rangeCircuit, sat_cons]
    exact ⟨hrng, by simp [List.range, List.range.loop]⟩

/-- The carry of a subtraction over the integers. -/
theorem sub_int {x y q R a0 b0 : ℕ} (ha : a0 = x % 2 ^ 66) (hb : b0 = y % 2 ^ 66) (hq : q = 0 ∨ q = 1)
    (h : x + (2 ^ 255 - 19) = y + q * (2 ^ 255 - 19) + R) (hlow : q = 1 ∨ b0 ≤ a0 + (2 ^ 66 - 19)) :
    (a0 + (2 ^ 66 - 19) + 19 * q - b0) / 2 ^ 66 * 2 ^ 66 + R % 2 ^ 66 + b0 = a0 + (2 ^ 66 - 19) + 19 * q := by
  subst ha hb
  rcases hq with rfl | rfl
  · have h' : x + 2 ^ 255 = y + R + 19 := by omega
    have hl : y % 2 ^ 66 ≤ x % 2 ^ 66 + (2 ^ 66 - 19) := by omega
    clear h hlow
    omega
  · have h' : x = y + R := by omega
    clear h hlow
    omega

/-- Subtraction, full statement: as for addition. False, see `sub_refuted`; proved here when the subtrahend is not
larger or the low limb does not borrow past the constant. -/
theorem sub_complete_partial (hn : 2 ^ 254 < n) (hc : c.OK 9) (hid : ∀ i : ℕ, i < 4 → c.w i = i) {inp : In} {row : ℤ}
    {t : Table (ZMod n)} {x y : ℕ} (hx : Limbs t inp.a x) (hy : Limbs t inp.b y) (hxp : x < modulus) (hyp : y < modulus)
    (hlow : y ≤ x ∨ y % 2 ^ 66 ≤ x % 2 ^ 66 + (2 ^ 66 - 19))
    (hoa : ∀ i, i < 4 → (inp.a i).Outside row 4) (hob : ∀ i, i < 4 → (inp.b i).Outside row 4) :
    let t' := subAssign c inp row t
    Sat t' (subCircuit c inp row) ∧ Limbs t' (addResult c row) ((x + (modulus - y)) % modulus) ∧
      RangeCells t' c (row + 2) ∧ CarryCells t' c row 3 2 ∧ Frame c row 4 t t' := by
  obtain ⟨va, ha0, ha1, ha2, ha3, hax⟩ := limbs_val hn hx
  obtain ⟨vb, hb0, hb1, hb2, hb3, hby⟩ := limbs_val hn hy
  intro t'
  set a := fun i => ((inp.a i).value t).val with hadef
  set b := fun i => ((inp.b i).value t).val with hbdef
  have hca : compose a = x := by rw [compose_eq]; exact hax
  have hcb : compose b = y := by rw [compose_eq]; exact hby
  have hRe : subR a b = (x + (modulus - y)) % modulus := by
    unfold subR; rw [hca, hcb, Nat.mod_eq_of_lt hxp, Nat.mod_eq_of_lt hyp]
  have hQe : subQ a b = (x + modulus - y - (x + (modulus - y)) % modulus) / modulus := by
    unfold subQ; rw [hRe, hca, hcb, Nat.mod_eq_of_lt hxp, Nat.mod_eq_of_lt hyp]
  obtain ⟨hq, heq, hql⟩ : (subQ a b = 0 ∨ subQ a b = 1) ∧
      x + modulus = y + subQ a b * modulus + (x + (modulus - y)) % modulus ∧ (y ≤ x → subQ a b = 1) := by
    rw [hQe]
    rcases Nat.lt_or_ge (x + (modulus - y)) modulus with h | h
    · rw [Nat.mod_eq_of_lt h, show x + modulus - y - (x + (modulus - y)) = 0 by omega, Nat.zero_div]
      exact ⟨.inl rfl, by omega, by omega⟩
    · have e : (x + (modulus - y)) % modulus = x + (modulus - y) - modulus := by
        rw [Nat.mod_eq_sub_mod h, Nat.mod_eq_of_lt (by omega)]
      have e2 : (x + modulus - y - (x + (modulus - y) - modulus)) / modulus = 1 := by
        rw [show x + modulus - y - (x + (modulus - y) - modulus) = modulus by omega]
        exact Nat.div_self (by rw [modulus_val]; norm_num)
      rw [e, e2]; omega
  have hR : (x + (modulus - y)) % modulus < 2 ^ 255 :=
    (Nat.mod_lt _ (by rw [modulus_val]; norm_num)).trans (by rw [modulus_val]; norm_num)
  have hRm : (x + (modulus - y)) % modulus < modulus := Nat.mod_lt _ (by rw [modulus_val]; norm_num)
  set R := (x + (modulus - y)) % modulus with hRdef
  set q := subQ a b with hqdef
  have ea0 : a 0 = x % 2 ^ 66 := by rw [← hax]; exact (num_mod ha0).symm
  have eb0 : b 0 = y % 2 ^ 66 := by rw [← hby]; exact (num_mod hb0).symm
  have hql' : q = 1 ∨ b 0 ≤ a 0 + (2 ^ 66 - 19) := by
    rcases hlow with h | h
    · exact .inl (hql h)
    · right; rw [ea0, eb0]; exact h
  have hint := sub_int ea0 eb0 hq heq hql'
  have hb0' : b 0 < 2 ^ 66 := hb0
  have ha0' : a 0 < 2 ^ 66 := ha0
  set u := (a 0 + (2 ^ 66 - 19) + 19 * q - b 0) / 2 ^ 66 with hu
  have hu3 : u < 4 := by
    rw [hu]
    clear heq hint hRdef hRe hQe hlow hql hql'
    omega
  have hU : subU n a b = u := by
    unfold subU
    rw [← hqdef, hRe, negP_val.1, limb_modulus, limb_zero, limb_zero, Nat.mod_eq_of_lt (a := q) (by omega)]
    have : ((a 0 : ZMod n) + ((2 ^ 66 - 19 : ℕ) : ZMod n) - b 0 + ((19 : ℕ) : ZMod n) * q - ((R % 2 ^ 66 : ℕ) : ZMod n))
        = ((u * 2 ^ 66 : ℕ) : ZMod n) := by
      have e := congrArg (Nat.cast (R := ZMod n)) hint
      rw [Nat.cast_add, Nat.cast_add, Nat.cast_add, Nat.cast_add] at e
      rw [Nat.cast_mul 19 q] at e
      linear_combination -e
    rw [this, ZMod.val_cast_of_lt (by omega), Nat.shiftRight_eq_div_pow]
    omega
  have ht' : t' = rangeAssign c (addRangeInput row) (row + 2) (writeAll (addWrites c row 2 a b (limb R) q u) t) := by
    show subAssign c inp row t = _
    unfold subAssign
    simp only [← hadef, ← hbdef, ← hqdef, hRe, hU]
  obtain ⟨f, hf, hat⟩ := addAt_of hn hc hid row 2 a b hR q u t
  rw [← ht'] at hat
  have hfr : Frame c row 4 t t' := by rw [ht']; exact addWrites_frame hc _ _ _ _ _ _ _ _ _
  refine ⟨sub_sat hn hat hR hq (by omega) ?_ ?_ (hf hRm) ?_ ?_,
    hat.rng.limbs hR, hat.rng.cells, hat.carry, hfr⟩
  · rw [limb_zero]; exact hint
  · rw [hax, hby]; exact heq
  · intro i hi; rw [hfr.outside (hoa i hi)]; exact va i
  · intro i hi; rw [hfr.outside (hob i hi)]; exact vb i

/-- Subtraction of a larger number whose low limb exceeds the low limb of the minuend plus `2^66 - 19`: the assignment
of the component violates its circuit. -/
theorem sub_refuted (hn : 2 ^ 254 < n) (hc : c.OK 9) (hid : ∀ i : ℕ, i < 4 → c.w i = i) {inp : In} {row : ℤ}
    {t : Table (ZMod n)} {x y : ℕ} (hx : Limbs t inp.a x) (hy : Limbs t inp.b y)
    (hlt : x < y) (hlow : x % 2 ^ 66 + (2 ^ 66 - 19) < y % 2 ^ 66)
    (hoa : ∀ i, i < 4 → (inp.a i).Outside row 4) (hob : ∀ i, i < 4 → (inp.b i).Outside row 4) :
    ¬ Sat (subAssign c inp row t) (subCircuit c inp row) := by
  have hodd : n % 2 = 1 := by
    have := (Fact.out : n.Prime).eq_two_or_odd
    omega
  set a := fun i => ((inp.a i).value t).val with hadef
  set b := fun i => ((inp.b i).value t).val with hbdef
  have hR : subR a b < 2 ^ 255 :=
    (Nat.mod_lt _ (by rw [modulus_val]; norm_num)).trans (by rw [modulus_val]; norm_num)
  obtain ⟨f, hf, hat⟩ := addAt_of hn hc hid row 2 a b hR (subQ a b) (subU n a b) t
  have hfr : Frame c row 4 t (subAssign c inp row t) := addWrites_frame hc _ _ _ _ _ _ _ _ _
  have tr : ∀ (v : ℕ → Var) (z : ℕ), (∀ i, i < 4 → (v i).Outside row 4) → Limbs t v z →
      Limbs (subAssign c inp row t) v z := by
    rintro v z ho ⟨l0, l1, l2, l3, h0, h1, h2, h3, e0, e1, e2, e3, e⟩
    exact ⟨l0, l1, l2, l3, h0, h1, h2, h3, by rw [hfr.outside (ho 0 (by omega)), e0],
      by rw [hfr.outside (ho 1 (by omega)), e1], by rw [hfr.outside (ho 2 (by omega)), e2],
      by rw [hfr.outside (ho 3 (by omega)), e3], e⟩
  exact sub_blocked (n := n) hodd hn (tr _ _ hoa hx) (tr _ _ hob hy) hat.rng.cells hat.carry hlt hlow
end complete

end Ed25519
end Verif
