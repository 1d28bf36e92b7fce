import Verif.Model.Mocked
import Mathlib.Tactic.Linarith
import Mathlib.Tactic.Ring
import Mathlib.Tactic.NormNum
import Mathlib.Algebra.Order.Ring.Int
import Mathlib.Algebra.Field.ZMod

/-!
# Mocked integer components compute what their names say

Specification: `Exact op x y z` over the integers, `Holds c x y` for comparisons, and the representations of integers by cells
(`Small`, `Pair`, `Triple`).
-/

set_option linter.unusedSectionVars false

namespace Verif
namespace Mocked

/-- `z` is the result of the operation on integers; division truncates towards zero. -/
def Exact (op : Arith) (x y z : ℤ) : Prop :=
  match op with
  | .add => z = x + y
  | .sub => z + y = x
  | .mul => z = x * y
  | .div => ∃ r : ℤ, x = y * z + r ∧ |r| < |y| ∧ (0 ≤ x → 0 ≤ r) ∧ (x ≤ 0 → r ≤ 0)
  | .rem => ∃ q : ℤ, x = y * q + z ∧ |z| < |y| ∧ (0 ≤ x → 0 ≤ z) ∧ (x ≤ 0 → z ≤ 0)

/-- The comparison of integers. -/
def Holds (op : Cmp) (x y : ℤ) : Prop :=
  match op with
  | .lt => x < y
  | .gt => x > y
  | .ge => x ≥ y
  | .le => x ≤ y

/-- Division and remainder are used with a non-zero divisor. -/
def Defined (op : Arith) (y : ℤ) : Prop := op = .div ∨ op = .rem → y ≠ 0

theorem exact_tdiv {x y : ℤ} (hy : y ≠ 0) : Exact .div x y (x.tdiv y) := by
  refine ⟨x.tmod y, (Int.mul_tdiv_add_tmod x y).symm, ?_, fun h => Int.tmod_nonneg y h, fun h => ?_⟩
  · have := Int.natAbs_tmod x y
    have h2 : x.natAbs % y.natAbs < y.natAbs := Nat.mod_lt _ (Int.natAbs_pos.2 hy)
    rw [Int.abs_eq_natAbs, Int.abs_eq_natAbs]; omega
  · have := Int.tmod_nonneg (a := -x) y (by omega)
    rw [Int.neg_tmod] at this; omega

theorem exact_tmod {x y : ℤ} (hy : y ≠ 0) : Exact .rem x y (x.tmod y) := by
  obtain ⟨r, h1, h2, h3, h4⟩ := exact_tdiv (x := x) hy
  have h := Int.mul_tdiv_add_tmod x y
  have hr : r = x.tmod y := by linarith
  subst hr
  exact ⟨x.tdiv y, h.symm, h2, h3, h4⟩

theorem emod_of_range {n : ℕ} {z : ℤ} (h0 : 0 ≤ z) (h1 : z < 2 ^ n) : z % 2 ^ n = z := Int.emod_eq_of_lt h0 h1

/-- Unsigned operations are exact modulo `2^n`. -/
theorem uop_spec {n : ℕ} (op : Arith) {a b : ℕ} (ha : a < 2 ^ n) (hb : b < 2 ^ n) (hd : Defined op b) :
    ∃ r z, uop n op a b = some r ∧ Exact op a b z ∧ (r : ℤ) = z % 2 ^ n := by
  have haz : (a : ℤ) < 2 ^ n := by exact_mod_cast ha
  cases op with
  | add => exact ⟨_, a + b, rfl, rfl, by push_cast; rfl⟩
  | sub =>
    refine ⟨_, a - b, rfl, by show ((a : ℤ) - b) + b = a; ring, ?_⟩
    push_cast [Nat.cast_sub hb.le]
    rw [show (a : ℤ) + (2 ^ n - b) = (a - b) + 2 ^ n by ring, Int.add_emod_right]
  | mul => exact ⟨_, a * b, rfl, rfl, by push_cast; rfl⟩
  | div =>
    have hb0 : b ≠ 0 := by exact_mod_cast hd (.inl rfl)
    refine ⟨_, _, if_neg hb0, exact_tdiv (by exact_mod_cast hb0), ?_⟩
    have h : ((a : ℤ)).tdiv b = ((a / b : ℕ) : ℤ) := rfl
    rw [h, emod_of_range (by positivity)]
    exact_mod_cast (Nat.div_le_self a b).trans_lt ha
  | rem =>
    have hb0 : b ≠ 0 := by exact_mod_cast hd (.inr rfl)
    refine ⟨_, _, if_neg hb0, exact_tmod (by exact_mod_cast hb0), ?_⟩
    have h : ((a : ℤ)).tmod b = ((a % b : ℕ) : ℤ) := rfl
    rw [h, emod_of_range (by positivity)]
    exact_mod_cast (Nat.mod_le a b).trans_lt ha

theorem cut_of_lt {n : ℕ} {z : ℤ} (h : |z| < 2 ^ n) : cut n z = z := by
  have h' : z.natAbs < 2 ^ n := by
    have : ((z.natAbs : ℕ) : ℤ) < 2 ^ n := by rwa [← Int.abs_eq_natAbs]
    exact_mod_cast this
  rw [cut, Nat.mod_eq_of_lt h', Int.sign_mul_natAbs]

/-- Signed operations are exact when the result fits. -/
theorem sop_spec {n : ℕ} (op : Arith) {x y : ℤ} (hd : Defined op y) :
    ∃ z, Exact op x y z ∧ (|z| < 2 ^ n → sop n op x y = some z) := by
  cases op with
  | add => exact ⟨x + y, rfl, fun h => by simp [sop, cut_of_lt h]⟩
  | sub => exact ⟨x - y, by show x - y + y = x; ring, fun h => by simp [sop, cut_of_lt h]⟩
  | mul => exact ⟨x * y, rfl, fun h => by simp [sop, cut_of_lt h]⟩
  | div => exact ⟨_, exact_tdiv (hd (.inl rfl)), fun _ => if_neg (hd (.inl rfl))⟩
  | rem => exact ⟨_, exact_tmod (hd (.inr rfl)), fun _ => if_neg (hd (.inr rfl))⟩

/-- The integer operations are functions. -/
theorem exact_unique {op : Arith} {x y z w : ℤ} (h : Exact op x y z) (h' : Exact op x y w) : z = w := by
  have key : ∀ (q r q' r' : ℤ), x = y * q + r → |r| < |y| → (0 ≤ x → 0 ≤ r) → (x ≤ 0 → r ≤ 0) →
      x = y * q' + r' → |r'| < |y| → (0 ≤ x → 0 ≤ r') → (x ≤ 0 → r' ≤ 0) → q = q' ∧ r = r' := by
    intro q r q' r' e1 b1 p1 n1 e2 b2 p2 n2
    have hlt : |r - r'| < |y| := by
      rcases le_total 0 x with hx | hx
      · have := p1 hx; have := p2 hx
        rw [abs_of_nonneg (p1 hx)] at b1; rw [abs_of_nonneg (p2 hx)] at b2
        rw [abs_lt]; constructor <;> linarith
      · rw [abs_of_nonpos (n1 hx)] at b1; rw [abs_of_nonpos (n2 hx)] at b2
        have := n1 hx; have := n2 hx
        rw [abs_lt]; constructor <;> linarith
    have hdiv : y ∣ r - r' := ⟨q' - q, by linarith⟩
    have hr : r - r' = 0 := Int.eq_zero_of_abs_lt_dvd ((abs_dvd _ _).2 hdiv) hlt
    have hy : y ≠ 0 := by rintro rfl; simp at b1; exact absurd b1 (not_lt.2 (abs_nonneg _))
    have hq : y * (q - q') = 0 := by linarith
    rcases mul_eq_zero.1 hq with h0 | h0
    · exact absurd h0 hy
    · exact ⟨by linarith, by linarith⟩
  cases op with
  | add => exact h.trans h'.symm
  | sub => simp only [Exact] at h h'; linarith
  | mul => exact h.trans h'.symm
  | div =>
    obtain ⟨r, a1, a2, a3, a4⟩ := h; obtain ⟨r', b1, b2, b3, b4⟩ := h'
    exact (key _ _ _ _ a1 a2 a3 a4 b1 b2 b3 b4).1
  | rem =>
    obtain ⟨q, a1, a2, a3, a4⟩ := h; obtain ⟨q', b1, b2, b3, b4⟩ := h'
    exact (key _ _ _ _ a1 a2 a3 a4 b1 b2 b3 b4).2

section
variable {p : ℕ} [NeZero p]

/-- A pair of cells (top, bottom) stands for a number below `2^256`. -/
def Pair (a : ZMod p × ZMod p) (z : ℤ) : Prop :=
  a.1.val < 2 ^ 128 ∧ a.2.val < 2 ^ 128 ∧ z = a.1.val * 2 ^ 128 + a.2.val

/-- Cells (sign, magnitude). -/
def Signed (n : ℕ) (a : ZMod p × ZMod p) (z : ℤ) : Prop :=
  (a.1 = 0 ∨ a.1 = 1) ∧ a.2.val < 2 ^ n ∧ z = (if a.1 = 0 then 1 else -1) * (a.2.val : ℤ)

/-- Cells (sign, top, bottom). -/
def Triple (a : ZMod p × ZMod p × ZMod p) (z : ℤ) : Prop :=
  (a.1 = 0 ∨ a.1 = 1) ∧ a.2.1.val < 2 ^ 128 ∧ a.2.2.val < 2 ^ 128 ∧
    z = (if a.1 = 0 then 1 else -1) * (a.2.1.val * 2 ^ 128 + a.2.2.val : ℤ)

theorem val_cast_lt {k n : ℕ} (h : k < 2 ^ n) (hp : 2 ^ n ≤ p) : ((k : ZMod p)).val = k :=
  ZMod.val_natCast_of_lt (h.trans_le hp)

/-- C114: the unsigned components of at most `n` bits return the exact result of the low `n` bits of the operands, modulo `2^n`. -/
theorem unsigned_small (n : ℕ) (op : Arith) (a b : ZMod p) (hp : 2 ^ n ≤ p)
    (hd : Defined op ((b.val % 2 ^ n : ℕ) : ℤ)) :
    ∃ (r : ZMod p) (z : ℤ), unsignedSmall n op a b = some [r] ∧
      Exact op ((a.val % 2 ^ n : ℕ) : ℤ) ((b.val % 2 ^ n : ℕ) : ℤ) z ∧ (r.val : ℤ) = z % 2 ^ n := by
  obtain ⟨r, z, h1, h2, h3⟩ := uop_spec op (Nat.mod_lt a.val (by positivity : 0 < 2 ^ n))
    (Nat.mod_lt b.val (by positivity : 0 < 2 ^ n)) hd
  refine ⟨(r : ZMod p), z, ?_, h2, ?_⟩
  · simp [unsignedSmall, h1]
  · have hr : r < 2 ^ n := by
      have : (r : ℤ) < 2 ^ n := by rw [h3]; exact Int.emod_lt_of_pos _ (by positivity)
      exact_mod_cast this
    rw [val_cast_lt hr hp, h3]

/-- A zero divisor makes the calculation throw. -/
theorem unsigned_small_zero (n : ℕ) (op : Arith) (ho : op = .div ∨ op = .rem) (a b : ZMod p) (hb : b.val % 2 ^ n = 0) :
    unsignedSmall n op a b = none := by
  rcases ho with rfl | rfl <;> simp [unsignedSmall, uop, hb]

theorem pairNat_eq {a : ZMod p × ZMod p} {z : ℤ} (h : Pair a z) : (pairNat a : ℤ) = z := by
  obtain ⟨h1, h2, rfl⟩ := h
  have : a.1.val * 2 ^ 128 + a.2.val < 2 ^ 256 := by omega
  rw [pairNat, Nat.mod_eq_of_lt this]; push_cast; ring

theorem pairNat_lt (a : ZMod p × ZMod p) : pairNat a < 2 ^ 256 := Nat.mod_lt _ (by positivity)

/-- Splitting a number below `2^256` into two cells. -/
theorem pair_split {r : ℕ} (hr : r < 2 ^ 256) (hp : 2 ^ 128 ≤ p) :
    Pair (((r / 2 ^ 128 % 2 ^ 128 : ℕ) : ZMod p), ((r % 2 ^ 128 : ℕ) : ZMod p)) r := by
  have h1 : r / 2 ^ 128 % 2 ^ 128 < 2 ^ 128 := Nat.mod_lt _ (by positivity)
  have h2 : r % 2 ^ 128 < 2 ^ 128 := Nat.mod_lt _ (by positivity)
  refine ⟨?_, ?_, ?_⟩
  · rw [val_cast_lt h1 hp]; exact h1
  · rw [val_cast_lt h2 hp]; exact h2
  · simp only [val_cast_lt h1 hp, val_cast_lt h2 hp]; omega

/-- C114: the unsigned components of 256 bits return the two halves of the exact result modulo `2^256`. -/
theorem unsigned_big (op : Arith) (a b : ZMod p × ZMod p) {x y : ℤ} (ha : Pair a x) (hb : Pair b y) (hp : 2 ^ 128 ≤ p)
    (hd : Defined op y) :
    ∃ (r : ZMod p × ZMod p) (z : ℤ), unsignedBig op a b = some [r.1, r.2] ∧ Exact op x y z ∧ Pair r (z % 2 ^ 256) := by
  have ea := pairNat_eq ha
  have eb := pairNat_eq hb
  subst ea; subst eb
  obtain ⟨r, z, h1, h2, h3⟩ := uop_spec op (pairNat_lt a) (pairNat_lt b) hd
  have hr : r < 2 ^ 256 := by
    have : (r : ℤ) < 2 ^ 256 := by rw [h3]; exact Int.emod_lt_of_pos _ (by positivity)
    exact_mod_cast this
  exact ⟨_, z, by simp [unsignedBig, h1], h2, h3 ▸ pair_split hr hp⟩

theorem cmp_spec (op : Cmp) (a b : ℕ) : cmp op a b = true ↔ Holds op a b := by
  cases op <;> simp [cmp, Holds]

/-- C114: the unsigned comparisons of 256 bits. -/
theorem unsigned_big_cmp (op : Cmp) (a b : ZMod p × ZMod p) {x y : ℤ} (ha : Pair a x) (hb : Pair b y) :
    (Holds op x y → unsignedBigCmp op a b = [1]) ∧ (¬ Holds op x y → unsignedBigCmp op a b = [0]) := by
  have ea := pairNat_eq ha
  have eb := pairNat_eq hb
  subst ea; subst eb
  constructor
  · intro h; simp [unsignedBigCmp, (cmp_spec op _ _).2 h]
  · intro h
    have : cmp op (pairNat a) (pairNat b) = false := by
      rw [← Bool.not_eq_true]; exact fun h' => h ((cmp_spec op _ _).1 h')
    simp [unsignedBigCmp, this]

theorem signed_operand {n : ℕ} {a : ZMod p × ZMod p} {x : ℤ} (h : Signed n a x) :
    signOf a.1 * ((a.2.val % 2 ^ n : ℕ) : ℤ) = x := by
  obtain ⟨-, h1, rfl⟩ := h
  rw [Nat.mod_eq_of_lt h1]; rfl

theorem signCell_cases (z : ℤ) : (0 ≤ z ∧ (signCell z : ZMod p) = 0) ∨ (z < 0 ∧ (signCell z : ZMod p) = 1) := by
  rcases le_or_gt 0 z with h | h
  · exact .inl ⟨h, if_pos h⟩
  · exact .inr ⟨h, if_neg (not_le.2 h)⟩

/-- C115: the signed components of at most `n` bits are exact when the result fits into sign and `n` bits. -/
theorem signed_small (n : ℕ) (op : Arith) (a b : ZMod p × ZMod p) {x y : ℤ} (ha : Signed n a x) (hb : Signed n b y)
    (hp : 2 ^ n ≤ p) (hp1 : 1 < p) (hd : Defined op y) :
    ∃ z, Exact op x y z ∧ (|z| < 2 ^ n →
      ∃ r : ZMod p × ZMod p, signedSmall n op a b = some [r.1, r.2] ∧ Signed n r z) := by
  obtain ⟨z, h1, h2⟩ := sop_spec (n := n) op hd (x := x)
  refine ⟨z, h1, fun hz => ⟨(signCell z, ((z.natAbs : ℕ) : ZMod p)), ?_, ?_⟩⟩
  · simp only [signedSmall, signed_operand ha, signed_operand hb, h2 hz]
    rfl
  · have hz' : z.natAbs < 2 ^ n := by
      have : ((z.natAbs : ℕ) : ℤ) < 2 ^ n := by rwa [← Int.abs_eq_natAbs]
      exact_mod_cast this
    have : Fact (1 < p) := ⟨hp1⟩
    rcases signCell_cases (p := p) z with ⟨hs, e⟩ | ⟨hs, e⟩
    · refine ⟨.inl e, by rw [val_cast_lt hz' hp]; exact hz', ?_⟩
      simp only [e, if_true, val_cast_lt hz' hp]; omega
    · refine ⟨.inr e, by rw [val_cast_lt hz' hp]; exact hz', ?_⟩
      have : ¬ ((1 : ZMod p) = 0) := one_ne_zero
      simp only [e, val_cast_lt hz' hp, if_neg this]; omega

/-- C115: absolute values. -/
theorem signed_abs_small (n : ℕ) (a : ZMod p × ZMod p) {x : ℤ} (ha : Signed n a x) :
    ∃ r : ZMod p × ZMod p, signedAbsSmall a = [r.1, r.2] ∧ Signed n r |x| := by
  obtain ⟨-, h, rfl⟩ := ha
  refine ⟨(0, a.2), rfl, .inl rfl, h, ?_⟩
  have h0 : (0 : ℤ) ≤ a.2.val := by positivity
  rw [if_pos rfl, abs_mul, abs_of_nonneg h0]
  split <;> simp

/-- C115: absolute values. -/
theorem signed_abs_big (a : ZMod p × ZMod p × ZMod p) {x : ℤ} (ha : Triple a x) :
    ∃ r : ZMod p × ZMod p × ZMod p, signedAbsBig a = [r.1, r.2.1, r.2.2] ∧ Triple r |x| := by
  obtain ⟨-, h1, h2, rfl⟩ := ha
  refine ⟨(0, a.2), rfl, .inl rfl, h1, h2, ?_⟩
  have h0 : (0 : ℤ) ≤ a.2.1.val * 2 ^ 128 + a.2.2.val := by positivity
  rw [if_pos rfl, abs_mul, abs_of_nonneg h0]
  split <;> simp

theorem tripleInt_nonneg {a : ZMod p × ZMod p × ZMod p} {x : ℤ} (h : Triple a x) (h0 : a.1 = 0) : tripleInt a = x := by
  obtain ⟨-, h1, h2, rfl⟩ := h
  have e : signOf a.1 = 1 := if_pos h0
  have b1 : |1 * (a.2.1.val : ℤ) * 2 ^ 128| < 2 ^ 256 := by rw [abs_of_nonneg (by positivity)]; omega
  have b2 : |1 * (a.2.1.val : ℤ) * 2 ^ 128 + a.2.2.val| < 2 ^ 256 := by rw [abs_of_nonneg (by positivity)]; omega
  rw [tripleInt, e, cut_of_lt b1, cut_of_lt b2, if_pos h0]; ring

/-- What the code computes from a negative operand: the bottom half is added instead of subtracted. -/
theorem tripleInt_neg {a : ZMod p × ZMod p × ZMod p} {x : ℤ} (h : Triple a x) (h0 : a.1 ≠ 0) :
    tripleInt a = x + 2 * a.2.2.val := by
  obtain ⟨-, h1, h2, rfl⟩ := h
  have e : signOf a.1 = -1 := if_neg h0
  have b1 : |-1 * (a.2.1.val : ℤ) * 2 ^ 128| < 2 ^ 256 := by rw [abs_lt]; omega
  have b2 : |-1 * (a.2.1.val : ℤ) * 2 ^ 128 + a.2.2.val| < 2 ^ 256 := by rw [abs_lt]; omega
  rw [tripleInt, e, cut_of_lt b1, cut_of_lt b2, if_neg h0]; ring

/-- Operands the code reads correctly: non-negative, or with a zero bottom half. -/
def Readable (a : ZMod p × ZMod p × ZMod p) : Prop := a.1 = 0 ∨ a.2.2 = 0

theorem tripleInt_readable {a : ZMod p × ZMod p × ZMod p} {x : ℤ} (h : Triple a x) (hr : Readable a) : tripleInt a = x := by
  by_cases h0 : a.1 = 0
  · exact tripleInt_nonneg h h0
  · rw [tripleInt_neg h h0, hr.resolve_left h0]; simp

/-- The operand is read correctly exactly when it is `Readable`. -/
theorem tripleInt_iff {a : ZMod p × ZMod p × ZMod p} {x : ℤ} (h : Triple a x) : tripleInt a = x ↔ Readable a := by
  refine ⟨fun e => ?_, tripleInt_readable h⟩
  by_cases h0 : a.1 = 0
  · exact .inl h0
  · rw [tripleInt_neg h h0] at e
    refine .inr ((ZMod.val_eq_zero _).1 (by omega))

/-- C115, restricted: operands are non-negative or have a zero bottom half, the result is non-negative. Missing: all other negative
operands and all negative results (`signed_big_operand`, `signed_big_result`). -/
theorem signed_big_partial (op : Arith) (a b : ZMod p × ZMod p × ZMod p) {x y : ℤ} (ha : Triple a x) (hb : Triple b y)
    (hp : 2 ^ 128 ≤ p) (hra : Readable a) (hrb : Readable b) (hd : Defined op y) :
    ∃ z, Exact op x y z ∧ (0 ≤ z → z < 2 ^ 256 →
      ∃ r : ZMod p × ZMod p × ZMod p, signedBig op a b = some [r.1, r.2.1, r.2.2] ∧ Triple r z) := by
  obtain ⟨z, h1, h2⟩ := sop_spec (n := 256) op hd (x := x)
  refine ⟨z, h1, fun hz hz' => ?_⟩
  obtain ⟨m, rfl⟩ := Int.eq_ofNat_of_zero_le hz
  have hm : m < 2 ^ 256 := by exact_mod_cast hz'
  obtain ⟨q1, q2, q3⟩ := pair_split hm hp
  have e1 : (((m : ℤ) / 2 ^ 128) % 2 ^ 128).toNat = m / 2 ^ 128 % 2 ^ 128 := by omega
  have e2 : ((m : ℤ) % 2 ^ 128).toNat = m % 2 ^ 128 := by omega
  refine ⟨(0, _, _), ?_, .inl rfl, q1, q2, ?_⟩
  · have := h2 (by rw [abs_of_nonneg hz]; exact hz')
    simp only [signedBig, tripleInt_readable ha hra, tripleInt_readable hb hrb, this]
    show some [signCell (m : ℤ), _, _] = _
    rw [e1, e2, signCell, if_pos hz]
  · simpa using q3

/-- C115 refuted, operands: `-1 + 0` gives `1`. -/
theorem signed_big_operand (hp : 2 ^ 128 ≤ p) :
    ∃ a b : ZMod p × ZMod p × ZMod p, Triple a (-1) ∧ Triple b 0 ∧
      signedBig .add a b = some [0, 0, 1] ∧ Triple ((0, 0, 1) : ZMod p × ZMod p × ZMod p) 1 := by
  have : Fact (1 < p) := ⟨lt_of_lt_of_le (by norm_num) hp⟩
  have v1 : (1 : ZMod p).val = 1 := ZMod.val_one p
  refine ⟨(1, 0, 1), (0, 0, 0), ?_, ?_, ?_, ?_⟩
  · refine ⟨.inr rfl, ?_, ?_, ?_⟩ <;> simp [v1]
  · refine ⟨.inl rfl, ?_, ?_, ?_⟩ <;> simp
  · have h1 : tripleInt ((1, 0, 1) : ZMod p × ZMod p × ZMod p) = 1 := by simp [tripleInt, v1, cut]
    have h2 : tripleInt ((0, 0, 0) : ZMod p × ZMod p × ZMod p) = 0 := by simp [tripleInt, cut]
    simp [signedBig, h1, h2, sop, cut, signCell]
  · refine ⟨.inl rfl, ?_, ?_, ?_⟩ <;> simp [v1]

/-- C115 refuted, results: `0 - 1` gives sign 1 and the two's complement halves, which stand for `-(2^256 - 1)`. -/
theorem signed_big_result (hp : 2 ^ 128 ≤ p) :
    ∃ a b : ZMod p × ZMod p × ZMod p, Triple a 0 ∧ Triple b 1 ∧ ∃ r : ZMod p × ZMod p × ZMod p,
      signedBig .sub a b = some [r.1, r.2.1, r.2.2] ∧ Triple r (-(2 ^ 256 - 1)) := by
  have : Fact (1 < p) := ⟨lt_of_lt_of_le (by norm_num) hp⟩
  have v1 : (1 : ZMod p).val = 1 := ZMod.val_one p
  have h1 : tripleInt ((0, 0, 1) : ZMod p × ZMod p × ZMod p) = 1 := by simp [tripleInt, v1, cut]
  have h2 : tripleInt ((0, 0, 0) : ZMod p × ZMod p × ZMod p) = 0 := by simp [tripleInt, cut]
  have vm : (((2 ^ 128 - 1 : ℕ)) : ZMod p).val = 2 ^ 128 - 1 := val_cast_lt (n := 128) (by norm_num) hp
  have e1 : ((-1 : ℤ) / 2 ^ 128 % 2 ^ 128).toNat = 2 ^ 128 - 1 := by decide +kernel
  have e2 : ((-1 : ℤ) % 2 ^ 128).toNat = 2 ^ 128 - 1 := by decide +kernel
  refine ⟨(0, 0, 0), (0, 0, 1), ⟨.inl rfl, by simp, by simp, by simp⟩, ⟨.inl rfl, by simp, by simp [v1], by simp [v1]⟩,
    (1, ((2 ^ 128 - 1 : ℕ) : ZMod p), ((2 ^ 128 - 1 : ℕ) : ZMod p)), ?_, .inr rfl, ?_, ?_, ?_⟩
  · have hs : sop 256 .sub 0 1 = some (-1) := by
      simp only [sop]; rw [cut_of_lt (by norm_num)]; rfl
    simp only [signedBig, h1, h2, hs, signCell]
    show some [_, _, _] = _
    rw [e1, e2, if_neg (by norm_num)]
  · show ZMod.val (((2 ^ 128 - 1 : ℕ)) : ZMod p) < _
    rw [vm]; norm_num
  · show ZMod.val (((2 ^ 128 - 1 : ℕ)) : ZMod p) < _
    rw [vm]; norm_num
  · simp only [vm, one_ne_zero, if_false]; norm_num

theorem tripleNat_nonneg {a : ZMod p × ZMod p × ZMod p} {x : ℤ} (h : Triple a x) (h0 : a.1 = 0) : (tripleNat a : ℤ) = x := by
  obtain ⟨-, h1, h2, rfl⟩ := h
  have e : signOf a.1 = 1 := if_pos h0
  have hlt : (1 * (a.2.1.val : ℤ) * 2 ^ 128 + a.2.2.val) < 2 ^ 256 := by omega
  rw [tripleNat, e, emod_of_range (by positivity) hlt, if_pos h0, Int.toNat_of_nonneg (by positivity)]; ring

/-- C115, restricted to non-negative operands. Missing: negative operands (`signed_big_cmp_refuted`). -/
theorem signed_big_cmp_partial (op : Cmp) (a b : ZMod p × ZMod p × ZMod p) {x y : ℤ} (ha : Triple a x) (hb : Triple b y)
    (ha0 : a.1 = 0) (hb0 : b.1 = 0) :
    (Holds op x y → signedBigCmp op a b = [1]) ∧ (¬ Holds op x y → signedBigCmp op a b = [0]) := by
  have ea := tripleNat_nonneg ha ha0
  have eb := tripleNat_nonneg hb hb0
  subst ea; subst eb
  constructor
  · intro h; simp [signedBigCmp, (cmp_spec op _ _).2 h]
  · intro h
    have : cmp op (tripleNat a) (tripleNat b) = false := by
      rw [← Bool.not_eq_true]; exact fun h' => h ((cmp_spec op _ _).1 h')
    simp [signedBigCmp, this]

/-- C115 refuted, comparisons: `-2^128 < 0` is answered with 0, as is `-2^128 ≤ 0`, and `-2^128 > 0` with 1. -/
theorem signed_big_cmp_refuted (hp1 : 1 < p) :
    ∃ a b : ZMod p × ZMod p × ZMod p, Triple a (-2 ^ 128) ∧ Triple b 0 ∧
      signedBigCmp .lt a b = [0] ∧ signedBigCmp .le a b = [0] ∧ signedBigCmp .gt a b = [1] ∧ signedBigCmp .ge a b = [1] := by
  have : Fact (1 < p) := ⟨hp1⟩
  have v1 : (1 : ZMod p).val = 1 := ZMod.val_one p
  have h1 : tripleNat ((1, 1, 0) : ZMod p × ZMod p × ZMod p) = 2 ^ 256 - 2 ^ 128 := by simp [tripleNat, v1, signOf]
  have h2 : tripleNat ((0, 0, 0) : ZMod p × ZMod p × ZMod p) = 0 := by simp [tripleNat]
  refine ⟨(1, 1, 0), (0, 0, 0), ⟨.inr rfl, by simp [v1], by simp, by simp [v1]⟩, ⟨.inl rfl, by simp, by simp, by simp⟩, ?_, ?_, ?_, ?_⟩ <;>
    simp [signedBigCmp, h1, h2, cmp]

/-! ### Result cells -/

theorem assigner_aux (c : Cols) (vals : List (ZMod p)) (srow : ℤ) (t : Table (ZMod p)) (hc : ∀ i < vals.length, c.w i = i)
    (m : ℕ) (hm : m ≤ vals.length) (j : ℕ) (hj : j < m) :
    ((List.range m).foldl (fun t (i : ℕ) => t.set .witness (c.w i) srow (vals.getD i 0)) t) .witness j srow = vals.getD j 0 := by
  induction m with
  | zero => omega
  | succ m ih =>
    rw [List.range_succ, List.foldl_append]
    simp only [List.foldl_cons, List.foldl_nil]
    rw [hc m (by omega)]
    rcases Nat.lt_succ_iff_lt_or_eq.1 hj with h | rfl
    · rw [Table.set_ne _ _ (by rintro ⟨-, h', -⟩; omega)]
      exact ih (by omega) h
    · exact Table.set_same _ _ _ _ _

/-- C116: when the component stands in the first table columns the result variables hold the calculated values. -/
theorem result_cells_partial (c : Cols) (vals : List (ZMod p)) (srow : ℤ) (t : Table (ZMod p))
    (hc : ∀ i < vals.length, c.w i = i) :
    (resultVars vals.length srow).map (Var.value (assigner c vals srow t)) = vals := by
  apply List.ext_getElem
  · simp [resultVars]
  · intro i h1 h2
    simp only [resultVars, List.getElem_map, List.getElem_range, Var.value]
    rw [assigner, assigner_aux c vals srow t hc vals.length le_rfl i h2]
    simp [h2]

/-- C116 refuted for other columns: a component in column 1 leaves the result variable with what column 0 held before. -/
theorem result_cell_refuted (v : ZMod p) (srow : ℤ) (t : Table (ZMod p)) :
    (resultVars 1 srow).map (Var.value (assigner ⟨[1], [], []⟩ [v] srow t)) = [t .witness 0 srow] := by
  simp [resultVars, assigner, Var.value, Table.set, Cols.w, colAt]

/-- C116 refuted for the circuit: whatever the operands are, every value of the result cell is accepted. -/
theorem circuit_unsound [Fact p.Prime] (a b v : ZMod p) (srow : ℤ) :
    ∃ t : Table (ZMod p), Sat t circuit ∧ t .publicInput 0 0 = a ∧ t .publicInput 0 1 = b ∧
      (resultVars 1 srow).map (Var.value t) = [v] := by
  refine ⟨fun ty _ r => if ty = .publicInput then (if r = 0 then a else b) else v, ?_, ?_, ?_, ?_⟩
  · intro o ho; simp [circuit] at ho
  · simp
  · simp
  · simp [resultVars, Var.value]

end

/-! ### The hypotheses are met -/

/-- `200 + 100` in 8 bits. -/
example : unsignedSmall (p := 65537) 8 .add 200 100 = some [44] := by decide +kernel

/-- `-7 / 2 = -3`, `-7 % 2 = -1`, in 8 bits. -/
example : signedSmall (p := 65537) 8 .div (1, 7) (0, 2) = some [1, 3] ∧
    signedSmall (p := 65537) 8 .rem (1, 7) (0, 2) = some [1, 1] := by decide +kernel

example : Signed (p := 65537) 8 (1, 7) (-7) := ⟨.inr rfl, by decide +kernel, by decide +kernel⟩

/-- A prime above `2^128` (`2^130 - 5`), operands `2^128 + 3` and `-2^129`: both `Readable`, sum negative, difference positive. -/
example : Triple (p := 2 ^ 130 - 5) (1, 2, 0) (-2 ^ 129) ∧ Readable (p := 2 ^ 130 - 5) (1, 2, 0) ∧
    signedBig (p := 2 ^ 130 - 5) .sub (0, 1, 3) (1, 2, 0) = some [0, 3, 3] :=
  ⟨⟨.inr rfl, by decide +kernel, by decide +kernel, by decide +kernel⟩, .inr rfl, by decide +kernel⟩

end Mocked
end Verif
