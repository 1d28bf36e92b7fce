import Verif.Props.ZkevmWord
import Mathlib.Tactic.Zify

/-!
# zkEVM ADD and SUB: C38
-/

set_option linter.unusedSimpArgs false
set_option linter.unusedVariables false
set_option linter.unusedSectionVars false

namespace Verif
namespace Zkevm

/-- The 48-bit digit made of chunks `3 i, 3 i + 1, 3 i + 2`. -/
def tri (a : ℕ → ℕ) (i : ℕ) : ℕ := a (3 * i) + a (3 * i + 1) * 2 ^ 16 + a (3 * i + 2) * 2 ^ 32

theorem tri_lt (a : ℕ → ℕ) (ha : ∀ i < 16, a i < 2 ^ 16) (i : ℕ) (hi : i < 5) : tri a i < 2 ^ 48 := by
  have h0 := ha (3 * i) (by omega)
  have h1 := ha (3 * i + 1) (by omega)
  have h2 := ha (3 * i + 2) (by omega)
  unfold tri; omega

theorem digits16_tri (a : ℕ → ℕ) : digits a 16 =
    tri a 0 + 2 ^ 48 * (tri a 1 + 2 ^ 48 * (tri a 2 + 2 ^ 48 * (tri a 3 + 2 ^ 48 * (tri a 4 + 2 ^ 48 * a 15)))) := by
  simp only [digits, Finset.sum_range_succ, Finset.sum_range_zero, tri]
  ring

/-- One triple of constraints. -/
theorem addTriple_iff {F : Type*} [Field F] (c : Cols) (pos : Expr F) (t : Table F) (row : ℤ) (hpos : pos.eval t row ≠ 0)
    (A B R K : ℕ → F) (hA : ∀ i : ℕ, i < 16 → t .witness (c.w (i : ℤ)) (row + -1) = A i)
    (hB : ∀ i : ℕ, i < 16 → t .witness (c.w (i : ℤ)) row = B i)
    (hR : ∀ i : ℕ, i < 16 → t .witness (c.w (i : ℤ)) (row + 1) = R i)
    (hK : ∀ i : ℕ, i < 6 → t .witness (c.w ((16 + i : ℕ) : ℤ)) (row + 1) = K i) (i : ℕ) (hi : i < 4) :
    (∀ e ∈ addTriple c pos (i + 1), e.eval t row = 0) ↔
      K i + (A (3 * (i + 1)) + B (3 * (i + 1))) + (A (3 * (i + 1) + 1) + B (3 * (i + 1) + 1)) * two 16 +
        (A (3 * (i + 1) + 2) + B (3 * (i + 1) + 2)) * two 32 =
        R (3 * (i + 1)) + R (3 * (i + 1) + 1) * two 16 + R (3 * (i + 1) + 2) * two 32 + K (i + 1) * two 48 ∧
      (K (i + 1) = 0 ∨ K (i + 1) = 1) := by
  simp only [addTriple, List.mem_cons, List.not_mem_nil, or_false, or_imp, forall_and,
    forall_eq, Expr.eval_mul, Expr.eval_sub, Expr.eval_add, Cols.eval_wv, Expr.eval_one, Expr.eval_const, mul_eq_zero,
    hpos, false_or, add_zero, Nat.add_sub_cancel,
    hA (3 * (i + 1)) (by omega), hA (3 * (i + 1) + 1) (by omega), hA (3 * (i + 1) + 2) (by omega),
    hB (3 * (i + 1)) (by omega), hB (3 * (i + 1) + 1) (by omega), hB (3 * (i + 1) + 2) (by omega),
    hR (3 * (i + 1)) (by omega), hR (3 * (i + 1) + 1) (by omega), hR (3 * (i + 1) + 2) (by omega),
    hK i (by omega), hK (i + 1) (by omega), sub_eq_zero]
  refine and_congr ⟨fun h => ?_, fun h => ?_⟩ Iff.rfl
  · linear_combination h
  · linear_combination h

/-- The ADD/SUB constraints as equations on the three rows. -/
theorem addSub_iff {F : Type*} [Field F] (c : Cols) (pos : Expr F) (t : Table F) (row : ℤ) (hpos : pos.eval t row ≠ 0)
    (A B R K : ℕ → F) (hA : ∀ i : ℕ, i < 16 → t .witness (c.w (i : ℤ)) (row + -1) = A i)
    (hB : ∀ i : ℕ, i < 16 → t .witness (c.w (i : ℤ)) row = B i)
    (hR : ∀ i : ℕ, i < 16 → t .witness (c.w (i : ℤ)) (row + 1) = R i)
    (hK : ∀ i : ℕ, i < 6 → t .witness (c.w ((16 + i : ℕ) : ℤ)) (row + 1) = K i) :
    (∀ e ∈ addSubGates c pos, e.eval t row = 0) ↔
      (A 0 + B 0) + (A 1 + B 1) * two 16 + (A 2 + B 2) * two 32 = R 0 + R 1 * two 16 + R 2 * two 32 + K 0 * two 48 ∧
      (∀ i < 4, K i + (A (3 * (i + 1)) + B (3 * (i + 1))) + (A (3 * (i + 1) + 1) + B (3 * (i + 1) + 1)) * two 16 +
        (A (3 * (i + 1) + 2) + B (3 * (i + 1) + 2)) * two 32 =
        R (3 * (i + 1)) + R (3 * (i + 1) + 1) * two 16 + R (3 * (i + 1) + 2) * two 32 + K (i + 1) * two 48) ∧
      K 4 + A 15 + B 15 = R 15 + K 5 * two 16 ∧ (∀ i < 6, K i = 0 ∨ K i = 1) := by
  have T := fun i hi => addTriple_iff c pos t row hpos A B R K hA hB hR hK i hi
  have hfirst : (∀ e ∈ ([pos * ((c.wv ((0 : ℕ) : ℤ) (-1) + c.wv ((0 : ℕ) : ℤ) 0) + (c.wv ((1 : ℕ) : ℤ) (-1) + c.wv ((1 : ℕ) : ℤ) 0) * .const (two 16) +
      (c.wv ((2 : ℕ) : ℤ) (-1) + c.wv ((2 : ℕ) : ℤ) 0) * .const (two 32) - c.wv ((0 : ℕ) : ℤ) 1 - c.wv ((1 : ℕ) : ℤ) 1 * .const (two 16) -
      c.wv ((2 : ℕ) : ℤ) 1 * .const (two 32) - c.wv ((16 + 0 : ℕ) : ℤ) 1 * .const (two 48)),
      pos * c.wv ((16 + 0 : ℕ) : ℤ) 1 * (c.wv ((16 + 0 : ℕ) : ℤ) 1 - 1)] : List (Expr F)), e.eval t row = 0) ↔
      ((A 0 + B 0) + (A 1 + B 1) * two 16 + (A 2 + B 2) * two 32 = R 0 + R 1 * two 16 + R 2 * two 32 + K 0 * two 48 ∧
        (K 0 = 0 ∨ K 0 = 1)) := by
    simp only [List.mem_cons, List.not_mem_nil, or_false, or_imp, forall_and,
      forall_eq, Expr.eval_mul, Expr.eval_sub, Expr.eval_add, Cols.eval_wv, Expr.eval_one, Expr.eval_const, mul_eq_zero,
      hpos, false_or, add_zero (row : ℤ), hA 0 (by omega), hA 1 (by omega), hA 2 (by omega), hB 0 (by omega), hB 1 (by omega), hB 2 (by omega),
      hR 0 (by omega), hR 1 (by omega), hR 2 (by omega), hK 0 (by omega), sub_eq_zero]
    refine and_congr ⟨fun h => ?_, fun h => ?_⟩ Iff.rfl
    · linear_combination h
    · linear_combination h
  have hlast : (∀ e ∈ ([pos * (c.wv ((16 + 4 : ℕ) : ℤ) 1 + c.wv ((15 : ℕ) : ℤ) (-1) + c.wv ((15 : ℕ) : ℤ) 0 - c.wv ((15 : ℕ) : ℤ) 1 -
      c.wv ((16 + 5 : ℕ) : ℤ) 1 * .const (two 16)), pos * c.wv ((16 + 5 : ℕ) : ℤ) 1 * (c.wv ((16 + 5 : ℕ) : ℤ) 1 - 1)] : List (Expr F)),
      e.eval t row = 0) ↔ (K 4 + A 15 + B 15 = R 15 + K 5 * two 16 ∧ (K 5 = 0 ∨ K 5 = 1)) := by
    simp only [List.mem_cons, List.not_mem_nil, or_false, or_imp, forall_and,
      forall_eq, Expr.eval_mul, Expr.eval_sub, Expr.eval_add, Cols.eval_wv, Expr.eval_one, Expr.eval_const, mul_eq_zero,
      hpos, false_or, add_zero (row : ℤ), hA 15 (by omega), hB 15 (by omega), hR 15 (by omega), hK 4 (by omega), hK 5 (by omega), sub_eq_zero]
    refine and_congr ⟨fun h => ?_, fun h => ?_⟩ Iff.rfl
    · linear_combination h
    · linear_combination h
  simp only [addSubGates, List.forall_mem_append]
  rw [hfirst, hlast, T 0 (by omega), T 1 (by omega), T 2 (by omega), T 3 (by omega)]
  constructor
  · rintro ⟨⟨⟨⟨⟨⟨f1, f2⟩, a1, a2⟩, b1, b2⟩, c1, c2⟩, d1, d2⟩, e1, e2⟩
    refine ⟨f1, ?_, e1, ?_⟩
    · intro i hi
      have hi' : i = 0 ∨ i = 1 ∨ i = 2 ∨ i = 3 := by omega
      rcases hi' with rfl | rfl | rfl | rfl
      exacts [a1, b1, c1, d1]
    · intro i hi
      have hi' : i = 0 ∨ i = 1 ∨ i = 2 ∨ i = 3 ∨ i = 4 ∨ i = 5 := by omega
      rcases hi' with rfl | rfl | rfl | rfl | rfl | rfl
      exacts [f2, a2, b2, c2, d2, e2]
  · rintro ⟨f1, h, e1, hk⟩
    exact ⟨⟨⟨⟨⟨⟨f1, hk 0 (by omega)⟩, h 0 (by omega), hk 1 (by omega)⟩, h 1 (by omega), hk 2 (by omega)⟩,
      h 2 (by omega), hk 3 (by omega)⟩, h 3 (by omega), hk 4 (by omega)⟩, e1, hk 5 (by omega)⟩

/-- Chaining the carries of six digits. -/
theorem add_chain (M N x0 x1 x2 x3 x4 x5 y0 y1 y2 y3 y4 y5 z0 z1 z2 z3 z4 z5 k0 k1 k2 k3 k4 k5 : ℕ)
    (h0 : 0 + x0 + y0 = z0 + k0 * M) (h1 : k0 + x1 + y1 = z1 + k1 * M) (h2 : k1 + x2 + y2 = z2 + k2 * M)
    (h3 : k2 + x3 + y3 = z3 + k3 * M) (h4 : k3 + x4 + y4 = z4 + k4 * M) (h5 : k4 + x5 + y5 = z5 + k5 * N) :
    x0 + M * (x1 + M * (x2 + M * (x3 + M * (x4 + M * x5)))) + (y0 + M * (y1 + M * (y2 + M * (y3 + M * (y4 + M * y5))))) =
      z0 + M * (z1 + M * (z2 + M * (z3 + M * (z4 + M * z5)))) + k5 * (M * M * M * M * M * N) := by
  zify at *
  linear_combination h0 + (M : ℤ) * h1 + (M : ℤ) ^ 2 * h2 + (M : ℤ) ^ 3 * h3 + (M : ℤ) ^ 4 * h4 + (M : ℤ) ^ 5 * h5

theorem ofNat_add_of_mod (w n m k : ℕ) (h : k = (n + m) % 2 ^ w) :
    BitVec.ofNat w k = BitVec.ofNat w n + BitVec.ofNat w m := by
  apply BitVec.eq_of_toNat_eq
  simp only [BitVec.toNat_ofNat, BitVec.toNat_add]
  rw [h, ← Nat.add_mod, Nat.mod_mod]

theorem toNat_add_carry {w : ℕ} (x y : BitVec w) : ∃ K < 2, (x + y).toNat + 2 ^ w * K = x.toNat + y.toNat := by
  refine ⟨(x.toNat + y.toNat) / 2 ^ w, ?_, ?_⟩
  · have h1 := x.isLt
    have h2 := y.isLt
    rw [Nat.div_lt_iff_lt_mul (by positivity)]; omega
  · rw [BitVec.toNat_add]; exact Nat.mod_add_div _ _

/-- One triple of chunks over the integers. -/
theorem triple_nat {p : ℕ} [Fact p.Prime] (hp : 2 ^ 50 ≤ p) (a b r : ℕ → ℕ) (ha : ∀ i < 16, a i < 2 ^ 16) (hb : ∀ i < 16, b i < 2 ^ 16)
    (hr : ∀ i < 16, r i < 2 ^ 16) (i : ℕ) (hi : i < 5) (k k' : ℕ) (hk : k < 2) (hk' : k' < 2) :
    ((k : ZMod p) + ((a (3 * i) : ZMod p) + b (3 * i)) + ((a (3 * i + 1) : ZMod p) + b (3 * i + 1)) * two 16 +
        ((a (3 * i + 2) : ZMod p) + b (3 * i + 2)) * two 32 =
        (r (3 * i) : ZMod p) + (r (3 * i + 1) : ZMod p) * two 16 + (r (3 * i + 2) : ZMod p) * two 32 + (k' : ZMod p) * two 48) ↔
    k + tri a i + tri b i = tri r i + k' * 2 ^ 48 := by
  have h1 := tri_lt a ha i hi
  have h2 := tri_lt b hb i hi
  have h3 := tri_lt r hr i hi
  constructor
  · intro h
    refine natCast_inj_of_lt (p := p) (by omega) (by omega) ?_
    simp only [tri, two] at *
    push_cast at *
    linear_combination h
  · intro h
    have := congrArg (fun n : ℕ => (n : ZMod p)) h
    simp only [tri, two] at *
    push_cast at *
    linear_combination this

end Zkevm

open Zkevm

/-- C38: on any row where ADD/SUB's position expression is non-zero and whose three rows contain 16-bit digits,
the constraints hold for *some* content of the carry columns only if the third row's word is the sum modulo
`2^256` of the first two. -/
theorem addSub_sound {p : ℕ} [Fact p.Prime] (hp : 2 ^ 50 ≤ p) (c : Cols) (opt pos : Expr (ZMod p)) (t : Table (ZMod p))
    (row : ℤ) (hopt : opt.eval t row ≠ 0) (hpos : pos.eval t row ≠ 0)
    (h : ∀ e ∈ guarded opt (addSubGates c pos), e.eval t row = 0) (a b r : ℕ → ℕ)
    (ha : ∀ i < 16, a i < 2 ^ 16) (hb : ∀ i < 16, b i < 2 ^ 16) (hr : ∀ i < 16, r i < 2 ^ 16)
    (hA : ∀ i : ℕ, i < 16 → t .witness (c.w (i : ℤ)) (row - 1) = (a i : ZMod p))
    (hB : ∀ i : ℕ, i < 16 → t .witness (c.w (i : ℤ)) row = (b i : ZMod p))
    (hR : ∀ i : ℕ, i < 16 → t .witness (c.w (i : ℤ)) (row + 1) = (r i : ZMod p)) :
    digits r 16 = (digits a 16 + digits b 16) % 2 ^ 256 := by
  rw [guarded_iff _ _ _ _ hopt] at h
  obtain ⟨h0, h1, h2, hk⟩ := (addSub_iff c pos t row hpos (fun i => (a i : ZMod p)) (fun i => (b i : ZMod p))
    (fun i => (r i : ZMod p)) (fun i => t .witness (c.w ((16 + i : ℕ) : ℤ)) (row + 1)) hA hB hR (fun _ _ => rfl)).1 h
  have hk' : ∃ k : ℕ → ℕ, ∀ i < 6, k i < 2 ∧ t .witness (c.w ((16 + i : ℕ) : ℤ)) (row + 1) = (k i : ZMod p) := by
    refine ⟨fun i => if t .witness (c.w ((16 + i : ℕ) : ℤ)) (row + 1) = 0 then 0 else 1, ?_⟩
    intro i hi
    refine ⟨by simp only; split <;> omega, ?_⟩
    have hki := hk i hi
    by_cases h : t .witness (c.w ((16 + i : ℕ) : ℤ)) (row + 1) = 0
    · simp only [if_pos h]; rw [h]; simp
    · simp only [if_neg h]; rw [hki.resolve_left h]; simp
  obtain ⟨k, hk'⟩ := hk'
  have t0 := (triple_nat hp a b r ha hb hr 0 (by omega) 0 (k 0) (by omega) (hk' 0 (by omega)).1).1 (by
    have := h0
    rw [(hk' 0 (by omega)).2] at this
    simp only [mul_zero, zero_add, Nat.cast_zero]
    exact this)
  have tt : ∀ i < 4, k i + tri a (i + 1) + tri b (i + 1) = tri r (i + 1) + k (i + 1) * 2 ^ 48 := by
    intro i hi
    refine (triple_nat hp a b r ha hb hr (i + 1) (by omega) (k i) (k (i + 1)) (hk' i (by omega)).1
      (hk' (i + 1) (by omega)).1).1 ?_
    have := h1 i hi
    simp only [(hk' i (by omega)).2, (hk' (i + 1) (by omega)).2] at this
    exact this
  have tl : k 4 + a 15 + b 15 = r 15 + k 5 * 2 ^ 16 := by
    have b1 := ha 15 (by omega)
    have b2 := hb 15 (by omega)
    have b3 := hr 15 (by omega)
    have b4 := (hk' 4 (by omega)).1
    have b5 := (hk' 5 (by omega)).1
    refine natCast_inj_of_lt (p := p) (by omega) (by omega) ?_
    have := h2
    simp only [(hk' 4 (by omega)).2, (hk' 5 (by omega)).2, two] at this
    push_cast at *
    linear_combination this
  have t1 := tt 0 (by omega)
  have t2 := tt 1 (by omega)
  have t3 := tt 2 (by omega)
  have t4 := tt 3 (by omega)
  have hd : digits a 16 + digits b 16 = digits r 16 + k 5 * 2 ^ 256 := by
    rw [digits16_tri, digits16_tri, digits16_tri]
    have e := add_chain (2 ^ 48) (2 ^ 16) _ _ _ _ _ _ _ _ _ _ _ _ _ _ _ _ _ _ _ _ _ _ _ _ t0 t1 t2 t3 t4 tl
    rw [e]
    norm_num
  have hlt := digits_lt r 16 hr
  rw [hd, Nat.add_mul_mod_self_right, Nat.mod_eq_of_lt (by simpa using hlt)]

/-- C38, ADD: rows holding the operands `a`, `b` and the result. -/
theorem add_sound {p : ℕ} [Fact p.Prime] (hp : 2 ^ 50 ≤ p) (c : Cols) (opt pos : Expr (ZMod p)) (t : Table (ZMod p))
    (row : ℤ) (hopt : opt.eval t row ≠ 0) (hpos : pos.eval t row ≠ 0)
    (h : ∀ e ∈ guarded opt (addSubGates c pos), e.eval t row = 0) (a b r : ℕ → ℕ)
    (ha : ∀ i < 16, a i < 2 ^ 16) (hb : ∀ i < 16, b i < 2 ^ 16) (hr : ∀ i < 16, r i < 2 ^ 16)
    (hA : ∀ i : ℕ, i < 16 → t .witness (c.w (i : ℤ)) (row - 1) = (a i : ZMod p))
    (hB : ∀ i : ℕ, i < 16 → t .witness (c.w (i : ℤ)) row = (b i : ZMod p))
    (hR : ∀ i : ℕ, i < 16 → t .witness (c.w (i : ℤ)) (row + 1) = (r i : ZMod p)) :
    BitVec.ofNat 256 (digits r 16) = BitVec.ofNat 256 (digits a 16) + BitVec.ofNat 256 (digits b 16) := by
  exact ofNat_add_of_mod _ _ _ _ (addSub_sound hp c opt pos t row hopt hpos h a b r ha hb hr hA hB hR)

/-- C38, SUB: the same constraints, the first row holding the result `r`, the third the minuend `a`. -/
theorem sub_sound {p : ℕ} [Fact p.Prime] (hp : 2 ^ 50 ≤ p) (c : Cols) (opt pos : Expr (ZMod p)) (t : Table (ZMod p))
    (row : ℤ) (hopt : opt.eval t row ≠ 0) (hpos : pos.eval t row ≠ 0)
    (h : ∀ e ∈ guarded opt (addSubGates c pos), e.eval t row = 0) (a b r : ℕ → ℕ)
    (ha : ∀ i < 16, a i < 2 ^ 16) (hb : ∀ i < 16, b i < 2 ^ 16) (hr : ∀ i < 16, r i < 2 ^ 16)
    (hR : ∀ i : ℕ, i < 16 → t .witness (c.w (i : ℤ)) (row - 1) = (r i : ZMod p))
    (hB : ∀ i : ℕ, i < 16 → t .witness (c.w (i : ℤ)) row = (b i : ZMod p))
    (hA : ∀ i : ℕ, i < 16 → t .witness (c.w (i : ℤ)) (row + 1) = (a i : ZMod p)) :
    BitVec.ofNat 256 (digits r 16) = BitVec.ofNat 256 (digits a 16) - BitVec.ofNat 256 (digits b 16) := by
  have := add_sound hp c opt pos t row hopt hpos h r b a hr hb ha hR hB hA
  rw [this, BitVec.add_sub_cancel]

namespace Zkevm

/-- Adding one 48-bit digit: the outgoing carry is the comparison, the remaining words add up with it. -/
theorem peel (x y z k X Y Z : ℕ) (hx : x < 2 ^ 48) (hy : y < 2 ^ 48) (hz : z < 2 ^ 48) (hk : k < 2)
    (h : z + 2 ^ 48 * Z = k + (x + 2 ^ 48 * X) + (y + 2 ^ 48 * Y)) :
    k + x + y = z + (if 2 ^ 48 ≤ k + x + y then 1 else 0) * 2 ^ 48 ∧
      Z = (if 2 ^ 48 ≤ k + x + y then 1 else 0) + X + Y := by
  split <;> constructor <;> omega

/-- The carries of honest rows over the integers. -/
def natCarry (a b : ℕ → ℕ) : ℕ → ℕ
  | 0 => if 2 ^ 48 ≤ 0 + tri a 0 + tri b 0 then 1 else 0
  | i + 1 => if 2 ^ 48 ≤ natCarry a b i + tri a (i + 1) + tri b (i + 1) then 1 else 0

theorem natCarry_lt (a b : ℕ → ℕ) (i : ℕ) : natCarry a b i < 2 := by
  cases i <;> simp only [natCarry] <;> split <;> omega

theorem addCarry_eq {p : ℕ} [Fact p.Prime] (hp : 2 ^ 50 ≤ p) (A B : List (ZMod p)) (a b : ℕ → ℕ)
    (ha : ∀ i < 16, a i < 2 ^ 16) (hb : ∀ i < 16, b i < 2 ^ 16)
    (hA : ∀ i < 16, A.getD i 0 = (a i : ZMod p)) (hB : ∀ i < 16, B.getD i 0 = (b i : ZMod p)) (i : ℕ) (hi : i < 5) :
    (addCarry A B i).toNat = natCarry a b i := by
  have h48 : ((2 ^ 48 : ℕ) : ZMod p).val = 2 ^ 48 := ZMod.val_cast_of_lt (by omega)
  have step : ∀ (k i : ℕ), k < 2 → i < 5 → ((k : ZMod p) + A.getD (3 * i) 0 + B.getD (3 * i) 0 +
      (A.getD (3 * i + 1) 0 + B.getD (3 * i + 1) 0) * ((2 ^ 16 : ℕ) : ZMod p) +
      (A.getD (3 * i + 2) 0 + B.getD (3 * i + 2) 0) * ((2 ^ 32 : ℕ) : ZMod p)).val = k + tri a i + tri b i := by
    intro k i hk hi
    have h1 := tri_lt a ha i hi
    have h2 := tri_lt b hb i hi
    rw [hA _ (by omega), hB _ (by omega), hA _ (by omega), hB _ (by omega), hA _ (by omega), hB _ (by omega)]
    rw [← ZMod.val_cast_of_lt (show k + tri a i + tri b i < p by omega)]
    congr 1
    simp only [tri]
    push_cast
    ring
  induction i with
  | zero =>
    have h0 := step 0 0 (by omega) (by omega)
    simp only [mul_zero, zero_add, Nat.cast_zero] at h0
    simp only [addCarry, natCarry, h48, zero_add, h0]
    by_cases hc : 2 ^ 48 ≤ tri a 0 + tri b 0
    · rw [if_pos hc, decide_eq_true hc]; rfl
    · rw [if_neg hc, decide_eq_false hc]; rfl
  | succ i ih =>
    have ih := ih (by omega)
    have h0 := step (natCarry a b i) (i + 1) (natCarry_lt a b i) hi
    simp only [addCarry, natCarry, h48, ih, h0]
    by_cases hc : 2 ^ 48 ≤ natCarry a b i + tri a (i + 1) + tri b (i + 1)
    · rw [if_pos hc, decide_eq_true hc]; rfl
    · rw [if_neg hc, decide_eq_false hc]; rfl

/-- The contents of the three rows written by ADD/SUB for the words `x`, `y`, `z` of the rows. -/
def addCell {p : ℕ} (A B R : List (ZMod p)) (r j : ℕ) : ZMod p :=
  if j < 16 then (if r = 0 then A.getD j 0 else if r = 1 then B.getD j 0 else R.getD j 0)
  else if j < 21 then (((addCarry A B (j - 16)).toNat : ℕ) : ZMod p)
  else (((addLastCarry A B).toNat : ℕ) : ZMod p)

section
variable {p : ℕ} (A B R : List (ZMod p))
theorem addCell_a (i : ℕ) (hi : i < 16) : addCell A B R 0 i = A.getD i 0 := by rw [addCell, if_pos hi, if_pos rfl]
theorem addCell_b (i : ℕ) (hi : i < 16) : addCell A B R 1 i = B.getD i 0 := by
  rw [addCell, if_pos hi, if_neg (by omega), if_pos rfl]
theorem addCell_r (i : ℕ) (hi : i < 16) : addCell A B R 2 i = R.getD i 0 := by
  rw [addCell, if_pos hi, if_neg (by omega), if_neg (by omega)]
theorem addCell_k (i : ℕ) (hi : i < 5) : addCell A B R 2 (16 + i) = (((addCarry A B i).toNat : ℕ) : ZMod p) := by
  rw [addCell, if_neg (by omega), if_pos (by omega), Nat.add_sub_cancel_left]
theorem addCell_last : addCell A B R 2 21 = (((addLastCarry A B).toNat : ℕ) : ZMod p) := by
  rw [addCell, if_neg (by omega), if_neg (by omega)]
end

theorem addSub_grid {p : ℕ} (c : Cols) (isAdd : Bool) (a b : BitVec 256) (row : ℤ) :
    GridWrites c row 64 3 (addCell (p := p) (wordChunks (if isAdd then a else a - b)) (wordChunks b)
      (wordChunks (if isAdd then a + b else a))) (addSubWrites c isAdd a b row) := by
  intro x hx
  have e1 : (if isAdd then a else if isAdd then a + b else a - b) = if isAdd then a else a - b := by cases isAdd <;> rfl
  have e2 : (if isAdd then if isAdd then a + b else a - b else a) = if isAdd then a + b else a := by cases isAdd <;> rfl
  simp only [addSubWrites, e1, e2, List.mem_append, List.mem_map, List.mem_range, List.mem_singleton] at hx
  rcases hx with (((⟨i, hi, rfl⟩ | ⟨i, hi, rfl⟩) | ⟨i, hi, rfl⟩) | ⟨i, hi, rfl⟩) | rfl
  · refine ⟨0, by omega, i, by omega, ?_⟩
    rw [addCell_a _ _ _ _ hi]; simp
  · refine ⟨1, by omega, i, by omega, ?_⟩
    rw [addCell_b _ _ _ _ hi]; simp
  · refine ⟨2, by omega, i, by omega, ?_⟩
    rw [addCell_r _ _ _ _ hi]; simp
  · refine ⟨2, by omega, 16 + i, by omega, ?_⟩
    rw [addCell_k _ _ _ _ hi]; simp
  · refine ⟨2, by omega, 21, by omega, ?_⟩
    rw [addCell_last]; simp

end Zkevm

/-- C38 (completeness): for every pair of words the generated rows satisfy the constraints; for ADD they hold
`a`, `b`, `a + b`, for SUB `a - b`, `b`, `a`. -/
theorem addSub_complete {p : ℕ} [Fact p.Prime] (hp : 2 ^ 50 ≤ p) (c : Cols) (hc : c.OK 64) (opt pos : Expr (ZMod p))
    (isAdd : Bool) (a b : BitVec 256) (row : ℤ) (t : Table (ZMod p)) :
    let t' := writeAll (addSubWrites c isAdd a b row) t
    (∀ e ∈ guarded opt (addSubGates c pos), e.eval t' (row + 1) = 0) ∧
      (∀ i : ℕ, i < 16 → t' .witness (c.w (i : ℤ)) row =
        (((chunkLoop 16 (if isAdd then a else a - b).toNat).getD i 0 : ℕ) : ZMod p)) ∧
      (∀ i : ℕ, i < 16 → t' .witness (c.w (i : ℤ)) (row + 1) = (((chunkLoop 16 b.toNat).getD i 0 : ℕ) : ZMod p)) ∧
      (∀ i : ℕ, i < 16 → t' .witness (c.w (i : ℤ)) (row + 2) =
        (((chunkLoop 16 (if isAdd then a + b else a).toNat).getD i 0 : ℕ) : ZMod p)) := by
  intro t'
  set x := if isAdd then a else a - b with hx
  set z := if isAdd then a + b else a with hz
  have e1 : (if isAdd then a else if isAdd then a + b else a - b) = x := by cases isAdd <;> rfl
  have e2 : (if isAdd then if isAdd then a + b else a - b else a) = z := by cases isAdd <;> rfl
  have hxz : x + b = z := by
    rw [hx, hz]; cases isAdd
    · exact BitVec.sub_add_cancel a b
    · rfl
  have hread : ∀ r j : ℕ, j < 64 → ∀ v : ZMod p, addCell (p := p) (wordChunks x) (wordChunks b) (wordChunks z) r j = v →
      (⟨.witness, c.w (j : ℤ), row + (r : ℤ), v⟩ : Write (ZMod p)) ∈ addSubWrites c isAdd a b row →
      t' .witness (c.w (j : ℤ)) (row + (r : ℤ)) = v := by
    intro r j hj v hv hm
    rw [← hv] at hm ⊢
    exact (addSub_grid (p := p) c isAdd a b row).read hc t (r := r) hj hm
  have h0 : ∀ i : ℕ, i < 16 → t' .witness (c.w (i : ℤ)) row = (((chunkLoop 16 x.toNat).getD i 0 : ℕ) : ZMod p) := by
    intro i hi
    rw [← wordChunks_getD]
    have := hread 0 i (by omega) ((wordChunks x : List (ZMod p)).getD i 0) (addCell_a _ _ _ _ hi) (by
      simp only [addSubWrites, e1, e2, List.mem_append, List.mem_map, List.mem_range]
      exact Or.inl (Or.inl (Or.inl (Or.inl ⟨i, hi, by simp⟩))))
    simpa using this
  have h1 : ∀ i : ℕ, i < 16 → t' .witness (c.w (i : ℤ)) (row + 1) = (((chunkLoop 16 b.toNat).getD i 0 : ℕ) : ZMod p) := by
    intro i hi
    rw [← wordChunks_getD]
    exact hread 1 i (by omega) ((wordChunks b : List (ZMod p)).getD i 0)
      (addCell_b _ _ _ _ hi) (by
      simp only [addSubWrites, e1, e2, List.mem_append, List.mem_map, List.mem_range]
      exact Or.inl (Or.inl (Or.inl (Or.inr ⟨i, hi, by simp⟩))))
  have h2 : ∀ i : ℕ, i < 16 → t' .witness (c.w (i : ℤ)) (row + 2) = (((chunkLoop 16 z.toNat).getD i 0 : ℕ) : ZMod p) := by
    intro i hi
    rw [← wordChunks_getD]
    exact hread 2 i (by omega) ((wordChunks z : List (ZMod p)).getD i 0)
      (addCell_r _ _ _ _ hi) (by
      simp only [addSubWrites, e1, e2, List.mem_append, List.mem_map, List.mem_range]
      exact Or.inl (Or.inl (Or.inr ⟨i, hi, by simp⟩)))
  have h3 : ∀ i : ℕ, i < 5 → t' .witness (c.w ((16 + i : ℕ) : ℤ)) (row + 2) =
      (((addCarry (p := p) (wordChunks x) (wordChunks b) i).toNat : ℕ) : ZMod p) := by
    intro i hi
    exact hread 2 (16 + i) (by omega) _
      (addCell_k _ _ _ _ hi) (by
      simp only [addSubWrites, e1, e2, List.mem_append, List.mem_map, List.mem_range]
      exact Or.inl (Or.inr ⟨i, hi, by simp⟩))
  have h4 : t' .witness (c.w ((16 + 5 : ℕ) : ℤ)) (row + 2) =
      (((addLastCarry (p := p) (wordChunks x) (wordChunks b)).toNat : ℕ) : ZMod p) := by
    exact hread 2 21 (by omega) _
      (addCell_last _ _ _) (by
      simp only [addSubWrites, e1, e2, List.mem_append, List.mem_map, List.mem_range]
      exact Or.inr (by simp))
  refine ⟨?_, h0, h1, h2⟩
  -- integer facts
  let na : ℕ → ℕ := fun i => (chunkLoop 16 x.toNat).getD i 0
  let nb : ℕ → ℕ := fun i => (chunkLoop 16 b.toNat).getD i 0
  let nr : ℕ → ℕ := fun i => (chunkLoop 16 z.toNat).getD i 0
  have ha : ∀ i < 16, na i < 2 ^ 16 := fun i _ => chunkLoop_lt _ _ _
  have hb : ∀ i < 16, nb i < 2 ^ 16 := fun i _ => chunkLoop_lt _ _ _
  have hr : ∀ i < 16, nr i < 2 ^ 16 := fun i _ => chunkLoop_lt _ _ _
  have hcar : ∀ i < 5, (addCarry (p := p) (wordChunks x) (wordChunks b) i).toNat = natCarry na nb i := fun i hi =>
    addCarry_eq hp _ _ na nb ha hb (fun i _ => wordChunks_getD x i) (fun i _ => wordChunks_getD b i) i hi
  obtain ⟨K, hK, hsum⟩ : ∃ K < 2, digits nr 16 + 2 ^ 256 * K = digits na 16 + digits nb 16 := by
    have d1 : digits na 16 = x.toNat := word_digits x
    have d2 : digits nb 16 = b.toNat := word_digits b
    have d3 : digits nr 16 = z.toNat := word_digits z
    rw [d1, d2, d3, ← hxz]
    exact toNat_add_carry x b
  rw [digits16_tri nr, digits16_tri na, digits16_tri nb] at hsum
  obtain ⟨c0, s0⟩ := peel (tri na 0) (tri nb 0) (tri nr 0) 0 (tri na 1 + 2 ^ 48 * (tri na 2 + 2 ^ 48 * (tri na 3 + 2 ^ 48 * (tri na 4 + 2 ^ 48 * na 15))))
    (tri nb 1 + 2 ^ 48 * (tri nb 2 + 2 ^ 48 * (tri nb 3 + 2 ^ 48 * (tri nb 4 + 2 ^ 48 * nb 15))))
    (tri nr 1 + 2 ^ 48 * (tri nr 2 + 2 ^ 48 * (tri nr 3 + 2 ^ 48 * (tri nr 4 + 2 ^ 48 * (nr 15 + 2 ^ 16 * K)))))
    (tri_lt _ ha _ (by omega)) (tri_lt _ hb _ (by omega)) (tri_lt _ hr _ (by omega)) (by omega) (by rw [zero_add, ← hsum]; ring)
  change 0 + tri na 0 + tri nb 0 = tri nr 0 + natCarry na nb 0 * 2 ^ 48 at c0
  change _ = natCarry na nb 0 + _ + _ at s0
  obtain ⟨c1, s1⟩ := peel (tri na 1) (tri nb 1) (tri nr 1) (natCarry na nb 0) _ _ _
    (tri_lt _ ha _ (by omega)) (tri_lt _ hb _ (by omega)) (tri_lt _ hr _ (by omega)) (natCarry_lt _ _ _) s0
  change natCarry na nb 0 + tri na 1 + tri nb 1 = tri nr 1 + natCarry na nb 1 * 2 ^ 48 at c1
  change _ = natCarry na nb 1 + _ + _ at s1
  obtain ⟨c2, s2⟩ := peel (tri na 2) (tri nb 2) (tri nr 2) (natCarry na nb 1) _ _ _
    (tri_lt _ ha _ (by omega)) (tri_lt _ hb _ (by omega)) (tri_lt _ hr _ (by omega)) (natCarry_lt _ _ _) s1
  change natCarry na nb 1 + tri na 2 + tri nb 2 = tri nr 2 + natCarry na nb 2 * 2 ^ 48 at c2
  change _ = natCarry na nb 2 + _ + _ at s2
  obtain ⟨c3, s3⟩ := peel (tri na 3) (tri nb 3) (tri nr 3) (natCarry na nb 2) _ _ _
    (tri_lt _ ha _ (by omega)) (tri_lt _ hb _ (by omega)) (tri_lt _ hr _ (by omega)) (natCarry_lt _ _ _) s2
  change natCarry na nb 2 + tri na 3 + tri nb 3 = tri nr 3 + natCarry na nb 3 * 2 ^ 48 at c3
  change _ = natCarry na nb 3 + _ + _ at s3
  obtain ⟨c4, s4⟩ := peel (tri na 4) (tri nb 4) (tri nr 4) (natCarry na nb 3) _ _ _
    (tri_lt _ ha _ (by omega)) (tri_lt _ hb _ (by omega)) (tri_lt _ hr _ (by omega)) (natCarry_lt _ _ _) s3
  change natCarry na nb 3 + tri na 4 + tri nb 4 = tri nr 4 + natCarry na nb 4 * 2 ^ 48 at c4
  change _ = natCarry na nb 4 + _ + _ at s4
  have hlast : (addLastCarry (p := p) (wordChunks x) (wordChunks b)).toNat = K := by
    unfold addLastCarry
    have b1 := ha 15 (by omega)
    have b2 := hb 15 (by omega)
    have b3 := hr 15 (by omega)
    have b4 := natCarry_lt na nb 4
    rw [hcar 4 (by omega), wordChunks_getD, wordChunks_getD, ZMod.val_cast_of_lt (by omega), ← Nat.cast_add, ← Nat.cast_add,
      ZMod.val_cast_of_lt (show natCarry na nb 4 + na 15 + nb 15 < p by omega)]
    by_cases hle : 2 ^ 16 ≤ natCarry na nb 4 + na 15 + nb 15
    · rw [decide_eq_true hle]; simp only [Bool.toNat_true]; omega
    · rw [decide_eq_false hle]; simp only [Bool.toNat_false]; omega
  have key : ∀ e ∈ guarded opt (addSubGates c pos), e.eval t' (row + 1) = 0 := by
    by_cases hpos : pos.eval t' (row + 1) = 0
    · intro e he
      simp only [guarded, List.mem_map, addSubGates, addTriple, List.mem_append, List.mem_cons, List.not_mem_nil, or_false] at he
      obtain ⟨e', he', rfl⟩ := he
      rw [Expr.eval_mul]
      have : e'.eval t' (row + 1) = 0 := by
        rcases he' with ((((((rfl | rfl) | (rfl | rfl)) | (rfl | rfl)) | (rfl | rfl)) | (rfl | rfl)) | (rfl | rfl)) <;>
          simp [hpos]
      rw [this, mul_zero]
    · have hz := (addSub_iff c pos t' (row + 1) hpos (fun i => (na i : ZMod p)) (fun i => (nb i : ZMod p))
        (fun i => (nr i : ZMod p)) (fun i => if i < 5 then (natCarry na nb i : ZMod p) else (K : ZMod p))
        (by intro i hi; rw [add_neg_cancel_right]; exact h0 i hi) h1
        (by intro i hi; rw [add_assoc]; exact h2 i hi)
        (by
          intro i hi
          rw [add_assoc]
          by_cases h5 : i < 5
          · rw [if_pos h5]; exact (h3 i h5).trans (by rw [hcar i h5])
          · have : i = 5 := by omega
            subst this
            rw [if_neg h5]
            exact h4.trans (by rw [hlast]))).2 ?_
      · intro e he
        simp only [guarded, List.mem_map] at he
        obtain ⟨e', he', rfl⟩ := he
        rw [Expr.eval_mul, hz e' he', mul_zero]
      · have tr := fun i hi k k' hk hk' => (triple_nat hp na nb nr ha hb hr i hi k k' hk hk').2
        refine ⟨?_, ?_, ?_, ?_⟩
        · have := tr 0 (by omega) 0 (natCarry na nb 0) (by omega) (natCarry_lt _ _ _) c0
          simpa using this
        · intro i hi
          rw [if_pos (by omega), if_pos (by omega)]
          refine tr (i + 1) (by omega) _ _ (natCarry_lt _ _ _) (natCarry_lt _ _ _) ?_
          interval_cases i
          exacts [c1, c2, c3, c4]
        · have := congrArg (fun n : ℕ => (n : ZMod p)) s4
          simp only [two, if_pos (show 4 < 5 by omega), if_neg (show ¬ 5 < 5 by omega)]
          push_cast at this ⊢
          linear_combination -this
        · intro i hi
          have := natCarry_lt na nb i
          have h01 : ∀ n : ℕ, n < 2 → (n : ZMod p) = 0 ∨ (n : ZMod p) = 1 := by
            intro n hn
            interval_cases n <;> simp
          split
          · exact h01 _ this
          · exact h01 _ hK
  exact key

/-- Non-vacuity: the rows generated for `2^256 - 1` and `1` meet the hypotheses of `addSub_sound`. -/
example {p : ℕ} [Fact p.Prime] (hp : 2 ^ 50 ≤ p) : ∃ (t : Table (ZMod p)) (a b r : ℕ → ℕ),
    (∀ e ∈ guarded (1 : Expr (ZMod p)) (addSubGates ⟨List.range 64, [], []⟩ 1), e.eval t 1 = 0) ∧
    (∀ i < 16, a i < 2 ^ 16) ∧ (∀ i < 16, b i < 2 ^ 16) ∧ (∀ i < 16, r i < 2 ^ 16) ∧ a 3 = 65535 ∧ b 0 = 1 ∧
    (∀ i : ℕ, i < 16 → t .witness ((⟨List.range 64, [], []⟩ : Cols).w (i : ℤ)) 0 = (a i : ZMod p)) ∧
    (∀ i : ℕ, i < 16 → t .witness ((⟨List.range 64, [], []⟩ : Cols).w (i : ℤ)) 1 = (b i : ZMod p)) ∧
    (∀ i : ℕ, i < 16 → t .witness ((⟨List.range 64, [], []⟩ : Cols).w (i : ℤ)) 2 = (r i : ZMod p)) := by
  obtain ⟨h1, h2, h3, h4⟩ := addSub_complete hp ⟨List.range 64, [], []⟩ ⟨List.nodup_range, by simp⟩ 1 1 true (-1#256) 1#256 0
    (fun _ _ _ => 0)
  exact ⟨_, fun i => (chunkLoop 16 (-1#256).toNat).getD i 0, fun i => (chunkLoop 16 (1#256).toNat).getD i 0,
    fun i => (chunkLoop 16 (-1#256 + 1#256).toNat).getD i 0, h1, fun i _ => chunkLoop_lt _ _ i, fun i _ => chunkLoop_lt _ _ i,
    fun i _ => chunkLoop_lt _ _ i, by decide, by decide, h2, h3, h4⟩

end Verif
