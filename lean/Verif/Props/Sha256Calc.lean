import Verif.Model.Sha256
import Verif.Core.Sha256Spec
import Verif.Core.Digits
import Verif.Core.Primality
import Mathlib.Data.ZMod.Basic
import Mathlib.Tactic.NormNum
import Mathlib.Tactic.IntervalCases

/-!
# What `sha256_process::calculate` computes
-/

namespace Verif
namespace Sha256

open Digits
open Sha256Spec (Word)

/-! ## Splitting and putting together -/

theorem bits_getD (n k i : ℕ) : (bits n k).getD i false = (decide (i < n) && k.testBit (n - 1 - i)) := by
  unfold bits
  by_cases h : i < n
  · rw [List.getD_eq_getElem _ _ (by simpa using h)]; simp [h]
  · rw [List.getD_eq_default _ _ (by simpa using h)]; simp [h]

/-- A chunk holds the bits from its offset. -/
theorem chunkVal_bits (b n k pos size : ℕ) (h0 : 0 < size) (h : pos + size ≤ n) :
    chunkVal b (bits n k) pos size = val b size fun i => (k.testBit (n - pos - size + i)).toNat := by
  obtain ⟨s, rfl⟩ : ∃ s, size = s + 1 := ⟨size - 1, by omega⟩
  clear h0
  induction s with
  | zero =>
    have : pos < n := by omega
    have e : n - 1 - pos = n - pos - 1 := by omega
    have h1 : chunkVal b (bits n k) pos (0 + 1) = ((bits n k).getD pos false).toNat := rfl
    rw [h1, bits_getD]
    simp [val, this, e]
  | succ s ih =>
    have h1 : chunkVal b (bits n k) pos (s + 1 + 1) =
        chunkVal b (bits n k) pos (s + 1) * b + ((bits n k).getD (pos + (s + 1)) false).toNat := by
      simp only [chunkVal, Nat.add_sub_cancel, List.range_succ, List.foldl_append, List.foldl_cons, List.foldl_nil]
    rw [h1, ih (by omega), val_succ' b (s + 1), bits_getD]
    have h2 : pos + (s + 1) < n := by omega
    have h3 : n - 1 - (pos + (s + 1)) = n - pos - (s + 1 + 1) + 0 := by omega
    have h4 : (fun i => (k.testBit (n - pos - (s + 1 + 1) + (i + 1))).toNat) =
        fun i => (k.testBit (n - pos - (s + 1) + i)).toNat := by
      funext i; congr 2; omega
    rw [h3, h4]
    simp only [h2, decide_true, Bool.true_and]
    ring

/-- The digits found by repeated division. -/
theorem topDigits_val (p b n : ℕ) (f : ℕ → ℕ) (hf : ∀ i < n, f i < b) (hp : b ^ n ≤ p) (hb : 1 < b) :
    topDigits p b n (val b n f) = (List.range n).map fun i => f (n - 1 - i) := by
  induction n with
  | zero => rfl
  | succ n ih =>
    have hlt : b ^ n < b ^ (n + 1) := Nat.pow_lt_pow_right hb (by omega)
    have hm : b ^ n % p = b ^ n := Nat.mod_eq_of_lt (by omega)
    have h1 : val b n f < b ^ n := val_lt fun i hi => hf i (by omega)
    have hpos : 0 < b ^ n := by omega
    rw [topDigits, hm, val_succ]
    have hd : (val b n f + f n * b ^ n) / b ^ n = f n := by
      rw [Nat.add_mul_div_right _ _ hpos, Nat.div_eq_of_lt h1, zero_add]
    have hr : (val b n f + f n * b ^ n) % b ^ n = val b n f := by
      rw [Nat.add_mul_mod_self_right, Nat.mod_eq_of_lt h1]
    rw [hd, hr, ih (fun i hi => hf i (by omega)) (by omega), List.range_succ_eq_map]
    simp only [List.map_cons, List.map_map]
    congr 1
    apply List.map_congr_left
    intro i hi
    simp only [Function.comp]
    congr 1
    omega

theorem drop_take_range (n a m : ℕ) (f : ℕ → ℕ) (h : a + m ≤ n) :
    (((List.range n).map f).drop a).take m = (List.range m).map fun i => f (a + i) := by
  apply List.ext_getElem
  · simp; omega
  · intro i h1 h2; simp

/-- The digits of a byte. -/
theorem chunkDigits_bytes (p b : ℕ) (f : ℕ → ℕ) (hf : ∀ i < 32, f i < b) (hp : b ^ 32 ≤ p) (hb : 1 < b) (i : ℕ) (hi : i < 4) :
    chunkDigits p b bytes (val b 32 f) i = (List.range 8).map fun j => f (8 * i + (8 - 1 - j)) := by
  have hs : bytes.sum = 32 := rfl
  unfold chunkDigits
  rw [hs, topDigits_val p b 32 f hf hp hb]
  have e : (bytes.drop (i + 1)).sum = 24 - 8 * i ∧ bytes.getD i 0 = 8 := by interval_cases i <;> decide
  rw [e.1, e.2, drop_take_range _ _ _ _ (by omega)]
  apply List.map_congr_left
  intro j hj
  rw [List.mem_range] at hj
  congr 1
  omega

theorem chunkDigits_one (p b : ℕ) (f : ℕ → ℕ) (hf : ∀ i < 8, f i < b) (hp : b ^ 8 ≤ p) (hb : 1 < b) :
    chunkDigits p b [8] (val b 8 f) 0 = (List.range 8).map fun j => f (8 - 1 - j) := by
  unfold chunkDigits
  rw [show ([8] : List ℕ).sum = 8 from rfl, topDigits_val p b 8 f hf hp hb]
  simp

theorem revSparse_bytes (p b : ℕ) (f : ℕ → ℕ) (hf : ∀ i < 32, f i < b) (hp : b ^ 32 ≤ p) (hb : 1 < b) (i : ℕ) (hi : i < 4) :
    revSparse p b bytes (val b 32 f) i = val b 8 fun j => f (8 * i + j) := by
  unfold revSparse
  rw [chunkDigits_bytes p b f hf hp hb i hi]
  exact horner b 8 (fun j => f (8 * i + j)) id

theorem revBin_bytes (p b : ℕ) (g f : ℕ → ℕ) (hf : ∀ i < 32, f i < b) (hp : b ^ 32 ≤ p) (hb : 1 < b) (i : ℕ) (hi : i < 4) :
    revBin p g b bytes (val b 32 f) i = val 2 8 fun j => g (f (8 * i + j)) := by
  unfold revBin
  rw [chunkDigits_bytes p b f hf hp hb i hi]
  exact horner 2 8 (fun j => f (8 * i + j)) g

theorem revSparse_one (p b : ℕ) (f : ℕ → ℕ) (hf : ∀ i < 8, f i < b) (hp : b ^ 8 ≤ p) (hb : 1 < b) :
    revSparse p b [8] (val b 8 f) 0 = val b 8 f := by
  unfold revSparse
  rw [chunkDigits_one p b f hf hp hb]
  exact horner b 8 f id

theorem revBin_one (p b : ℕ) (g f : ℕ → ℕ) (hf : ∀ i < 8, f i < b) (hp : b ^ 8 ≤ p) (hb : 1 < b) :
    revBin p g b [8] (val b 8 f) 0 = val 2 8 fun j => g (f j) := by
  unfold revBin
  rw [chunkDigits_one p b f hf hp hb]
  exact horner 2 8 f g

theorem inBounds_val (p b n : ℕ) (f : ℕ → ℕ) (hf : ∀ i < 32, f i < b) (hn : ∀ i < 32, f i < n) (hp : b ^ 32 ≤ p) (hb : 1 < b) :
    inBounds p b bytes (val b 32 f) n = true := by
  unfold inBounds
  rw [show bytes.sum = 32 from rfl, topDigits_val p b 32 f hf hp hb, List.all_eq_true]
  intro r hr
  obtain ⟨i, hi, rfl⟩ := List.mem_map.mp hr
  rw [List.mem_range] at hi
  exact decide_eq_true (hn _ (by omega))

/-- Four bytes make a word. -/
theorem join_val (f : ℕ → ℕ) : (join fun i => val 2 8 fun j => f (8 * i + j)) = val 2 32 f := by
  rw [show 32 = 8 + (8 + (8 + 8)) from rfl, val_split, val_split, val_split]
  simp only [join, Nat.mul_zero, Nat.zero_add, Nat.mul_one, ← add_assoc, Nat.reduceMul, Nat.reduceAdd]
  ring

/-! ## Words -/

/-- Bit `i` of a word. -/
def bt (x : Word) (i : ℕ) : ℕ := (x.getLsbD i).toNat

theorem bt_le (x : Word) (i : ℕ) : bt x i ≤ 1 := by unfold bt; exact Bool.toNat_le _

theorem toNat_eq_val (x : Word) : x.toNat = val 2 32 (bt x) := by
  rw [show bt x = fun i => (x.toNat.testBit i).toNat from by funext i; simp [bt, BitVec.testBit_toNat]]
  exact (val_testBit 32 x.toNat x.isLt).symm

/-- A number whose bits are those of a word. -/
theorem val_eq_toNat (x : Word) (f : ℕ → ℕ) (h : ∀ i < 32, f i = bt x i) : val 2 32 f = x.toNat := by
  rw [toNat_eq_val, val_congr h]

variable {p : ℕ}

/-- A word as a field element. -/
def W (p : ℕ) (x : Word) : ZMod p := (x.toNat : ℕ)

theorem W_val (hp : 2 ^ 32 ≤ p) (x : Word) : (W p x).val = x.toNat := by
  have := x.isLt
  exact ZMod.val_natCast_of_lt (by omega)

theorem W_inj (hp : 2 ^ 32 ≤ p) {x y : Word} (h : W p x = W p y) : x = y := by
  apply BitVec.eq_of_toNat_eq
  rw [← W_val hp x, h, W_val hp y]

theorem word_W (hp : 2 ^ 32 ≤ p) (x : Word) : word (W p x) = bits 32 x.toNat := by rw [word, W_val hp]

theorem split_W (hp : 2 ^ 32 ≤ p) (b : ℕ) (sizes : List ℕ) (x : Word) (i o s : ℕ) (hs : sizes.getD i 0 = s)
    (ho : (sizes.drop (i + 1)).sum + s + o = 32) (h0 : 0 < s) :
    split b sizes (word (W p x)) i = val b s fun j => bt x (o + j) := by
  unfold split
  rw [hs, word_W hp, chunkVal_bits _ _ _ _ _ h0 (by omega)]
  apply val_congr
  intro j _
  rw [show 32 - (sizes.drop (i + 1)).sum - s = o from by omega, bt, BitVec.testBit_toNat]

/-- The word spread to the base `b`. -/
def spread (b : ℕ) (x : Word) : ℕ := val b 32 (bt x)

theorem split_all (hp : 2 ^ 32 ≤ p) (b : ℕ) (x : Word) : split b [32] (word (W p x)) 0 = spread b x := by
  rw [split_W hp b [32] x 0 0 32 rfl rfl (by omega)]
  exact val_congr fun i _ => by rw [Nat.zero_add]

/-- Digits of the sum of the three shifted copies. -/
def dig0 (x : Word) (i : ℕ) : ℕ := bt x ((i + 7) % 32) + bt x ((i + 18) % 32) + if i < 29 then bt x (i + 3) else 0
@[inherit_doc dig0] def dig1 (x : Word) (i : ℕ) : ℕ := bt x ((i + 17) % 32) + bt x ((i + 19) % 32) + if i < 22 then bt x (i + 10) else 0
@[inherit_doc dig0] def Dig0 (x : Word) (i : ℕ) : ℕ := bt x ((i + 2) % 32) + bt x ((i + 13) % 32) + bt x ((i + 22) % 32)
@[inherit_doc dig0] def Dig1 (x : Word) (i : ℕ) : ℕ := bt x ((i + 6) % 32) + bt x ((i + 11) % 32) + bt x ((i + 25) % 32)

theorem s0Chunk (hp : 2 ^ 32 ≤ p) (b : ℕ) (x : Word) :
    split b s0Sizes (word (W p x)) 0 = val b 3 (fun j => bt x (0 + j)) ∧ split b s0Sizes (word (W p x)) 1 = val b 4 (fun j => bt x (3 + j)) ∧
    split b s0Sizes (word (W p x)) 2 = val b 11 (fun j => bt x (7 + j)) ∧ split b s0Sizes (word (W p x)) 3 = val b 14 (fun j => bt x (18 + j)) :=
  ⟨split_W hp b _ x 0 0 3 rfl rfl (by omega), split_W hp b _ x 1 3 4 rfl rfl (by omega), split_W hp b _ x 2 7 11 rfl rfl (by omega),
    split_W hp b _ x 3 18 14 rfl rfl (by omega)⟩

theorem s1Chunk (hp : 2 ^ 32 ≤ p) (b : ℕ) (x : Word) :
    split b s1Sizes (word (W p x)) 0 = val b 10 (fun j => bt x (0 + j)) ∧ split b s1Sizes (word (W p x)) 1 = val b 7 (fun j => bt x (10 + j)) ∧
    split b s1Sizes (word (W p x)) 2 = val b 2 (fun j => bt x (17 + j)) ∧ split b s1Sizes (word (W p x)) 3 = val b 13 (fun j => bt x (19 + j)) :=
  ⟨split_W hp b _ x 0 0 10 rfl rfl (by omega), split_W hp b _ x 1 10 7 rfl rfl (by omega), split_W hp b _ x 2 17 2 rfl rfl (by omega),
    split_W hp b _ x 3 19 13 rfl rfl (by omega)⟩

theorem aChunk (hp : 2 ^ 32 ≤ p) (b : ℕ) (x : Word) :
    split b aSizes (word (W p x)) 0 = val b 2 (fun j => bt x (0 + j)) ∧ split b aSizes (word (W p x)) 1 = val b 11 (fun j => bt x (2 + j)) ∧
    split b aSizes (word (W p x)) 2 = val b 9 (fun j => bt x (13 + j)) ∧ split b aSizes (word (W p x)) 3 = val b 10 (fun j => bt x (22 + j)) :=
  ⟨split_W hp b _ x 0 0 2 rfl rfl (by omega), split_W hp b _ x 1 2 11 rfl rfl (by omega), split_W hp b _ x 2 13 9 rfl rfl (by omega),
    split_W hp b _ x 3 22 10 rfl rfl (by omega)⟩

theorem eChunk (hp : 2 ^ 32 ≤ p) (b : ℕ) (x : Word) :
    split b eSizes (word (W p x)) 0 = val b 6 (fun j => bt x (0 + j)) ∧ split b eSizes (word (W p x)) 1 = val b 5 (fun j => bt x (6 + j)) ∧
    split b eSizes (word (W p x)) 2 = val b 14 (fun j => bt x (11 + j)) ∧ split b eSizes (word (W p x)) 3 = val b 7 (fun j => bt x (25 + j)) :=
  ⟨split_W hp b _ x 0 0 6 rfl rfl (by omega), split_W hp b _ x 1 6 5 rfl rfl (by omega), split_W hp b _ x 2 11 14 rfl rfl (by omega),
    split_W hp b _ x 3 25 7 rfl rfl (by omega)⟩

theorem sigma0_combine (x : Word) :
    val 4 4 (fun j => bt x (3 + j)) * (1 + 2 ^ 56 + 2 ^ 34) + val 4 11 (fun j => bt x (7 + j)) * (2 ^ 8 + 1 + 2 ^ 42) +
      val 4 14 (fun j => bt x (18 + j)) * (2 ^ 30 + 2 ^ 22 + 1) + val 4 3 (fun j => bt x (0 + j)) * (2 ^ 50 + 2 ^ 28) = val 4 32 (dig0 x) := by
  simp [val, dig0, Finset.sum_range_succ]
  ring

theorem sigma1_combine (x : Word) :
    val 4 7 (fun j => bt x (10 + j)) * (1 + 2 ^ 50 + 2 ^ 46) + val 4 2 (fun j => bt x (17 + j)) * (2 ^ 14 + 1 + 2 ^ 60) +
      val 4 13 (fun j => bt x (19 + j)) * (2 ^ 18 + 2 ^ 4 + 1) + val 4 10 (fun j => bt x (0 + j)) * (2 ^ 30 + 2 ^ 26) = val 4 32 (dig1 x) := by
  simp [val, dig1, Finset.sum_range_succ]
  ring

theorem bigSigma0_combine (x : Word) :
    val 4 2 (fun j => bt x (0 + j)) * (2 ^ 38 + 2 ^ 20 + 2 ^ 60) + val 4 11 (fun j => bt x (2 + j)) * (2 ^ 42 + 1 + 2 ^ 24) +
      val 4 9 (fun j => bt x (13 + j)) * (2 ^ 22 + 2 ^ 46 + 1) + val 4 10 (fun j => bt x (22 + j)) * (2 ^ 40 + 2 ^ 18 + 1) = val 4 32 (Dig0 x) := by
  simp [val, Dig0, Finset.sum_range_succ]
  ring

theorem bigSigma1_combine (x : Word) :
    val 7 5 (fun j => bt x (6 + j)) * (7 ^ 27 + 7 ^ 13 + 1) + val 7 14 (fun j => bt x (11 + j)) * (7 ^ 5 + 7 ^ 18 + 1) +
      val 7 7 (fun j => bt x (25 + j)) * (7 ^ 19 + 7 ^ 14 + 1) + val 7 6 (fun j => bt x (0 + j)) * (7 ^ 26 + 7 ^ 21 + 7 ^ 7) = val 7 32 (Dig1 x) := by
  simp [val, Dig1, Finset.sum_range_succ]
  ring

/-! ## Digits and bit functions -/

theorem getLsbD_rotr (x : Word) (r i : ℕ) (hr : r < 32) (hi : i < 32) : (x.rotateRight r).getLsbD i = x.getLsbD ((i + r) % 32) := by
  rw [BitVec.getLsbD_rotateRight, Nat.mod_eq_of_lt hr]
  by_cases h : i < 32 - r
  · rw [show (i + r) % 32 = r + i from by rw [Nat.mod_eq_of_lt (by omega)]; omega]; simp [h]
  · rw [show (i + r) % 32 = i - (32 - r) from by omega]; simp [h, hi]

theorem parity3 : ∀ a b c : Bool, parity (a.toNat + b.toNat + c.toNat) = (a ^^ b ^^ c).toNat := by decide

theorem maj3 : ∀ a b c : Bool, majVal (a.toNat + b.toNat + c.toNat) = ((a && b) ^^ (a && c) ^^ (b && c)).toNat := by decide

theorem ch3 : ∀ a b c : Bool, chVal (a.toNat + 2 * b.toNat + 3 * c.toNat) = ((a && b) ^^ (!a && c)).toNat := by decide

theorem parity_dig0 (x : Word) (i : ℕ) (hi : i < 32) : parity (dig0 x i) = bt (Sha256Spec.smallSigma0 x) i := by
  have h : (if i < 29 then bt x (i + 3) else 0) = (x.getLsbD (3 + i)).toNat := by
    by_cases h : i < 29
    · simp [h, bt, add_comm]
    · rw [BitVec.getLsbD_of_ge x (3 + i) (by omega)]; simp [h]
  rw [dig0, h, bt, bt, parity3, bt, Sha256Spec.smallSigma0, BitVec.getLsbD_xor, BitVec.getLsbD_xor, getLsbD_rotr x 7 i (by omega) hi,
    getLsbD_rotr x 18 i (by omega) hi, BitVec.getLsbD_ushiftRight]

theorem parity_dig1 (x : Word) (i : ℕ) (hi : i < 32) : parity (dig1 x i) = bt (Sha256Spec.smallSigma1 x) i := by
  have h : (if i < 22 then bt x (i + 10) else 0) = (x.getLsbD (10 + i)).toNat := by
    by_cases h : i < 22
    · simp [h, bt, add_comm]
    · rw [BitVec.getLsbD_of_ge x (10 + i) (by omega)]; simp [h]
  rw [dig1, h, bt, bt, parity3, bt, Sha256Spec.smallSigma1, BitVec.getLsbD_xor, BitVec.getLsbD_xor, getLsbD_rotr x 17 i (by omega) hi,
    getLsbD_rotr x 19 i (by omega) hi, BitVec.getLsbD_ushiftRight]

theorem parity_Dig0 (x : Word) (i : ℕ) (hi : i < 32) : parity (Dig0 x i) = bt (Sha256Spec.bigSigma0 x) i := by
  rw [Dig0, bt, bt, bt, parity3, bt, Sha256Spec.bigSigma0, BitVec.getLsbD_xor, BitVec.getLsbD_xor, getLsbD_rotr x 2 i (by omega) hi,
    getLsbD_rotr x 13 i (by omega) hi, getLsbD_rotr x 22 i (by omega) hi]

theorem parity_Dig1 (x : Word) (i : ℕ) (hi : i < 32) : parity (Dig1 x i) = bt (Sha256Spec.bigSigma1 x) i := by
  rw [Dig1, bt, bt, bt, parity3, bt, Sha256Spec.bigSigma1, BitVec.getLsbD_xor, BitVec.getLsbD_xor, getLsbD_rotr x 6 i (by omega) hi,
    getLsbD_rotr x 11 i (by omega) hi, getLsbD_rotr x 25 i (by omega) hi]

theorem majVal_bt (x y z : Word) (i : ℕ) : majVal (bt x i + bt y i + bt z i) = bt (Sha256Spec.maj x y z) i := by
  rw [bt, bt, bt, maj3, bt, Sha256Spec.maj]
  simp only [BitVec.getLsbD_xor, BitVec.getLsbD_and]

theorem chVal_bt (x y z : Word) (i : ℕ) (hi : i < 32) : chVal (bt x i + 2 * bt y i + 3 * bt z i) = bt (Sha256Spec.ch x y z) i := by
  rw [bt, bt, bt, ch3, bt, Sha256Spec.ch]
  simp only [BitVec.getLsbD_xor, BitVec.getLsbD_and, BitVec.getLsbD_not, hi, decide_true, Bool.true_and]

theorem dig0_le (x : Word) (i : ℕ) : dig0 x i ≤ 3 := by
  have := bt_le x ((i + 7) % 32); have := bt_le x ((i + 18) % 32); have := bt_le x (i + 3)
  unfold dig0; split <;> omega
theorem dig1_le (x : Word) (i : ℕ) : dig1 x i ≤ 3 := by
  have := bt_le x ((i + 17) % 32); have := bt_le x ((i + 19) % 32); have := bt_le x (i + 10)
  unfold dig1; split <;> omega
theorem Dig0_le (x : Word) (i : ℕ) : Dig0 x i ≤ 3 := by
  have := bt_le x ((i + 2) % 32); have := bt_le x ((i + 13) % 32); have := bt_le x ((i + 22) % 32)
  unfold Dig0; omega
theorem Dig1_le (x : Word) (i : ℕ) : Dig1 x i ≤ 3 := by
  have := bt_le x ((i + 6) % 32); have := bt_le x ((i + 11) % 32); have := bt_le x ((i + 25) % 32)
  unfold Dig1; omega

/-! ## The functions of the code -/

/-- Byte `i` of a word. -/
def byte (x : Word) (i : ℕ) : ℕ := val 2 8 fun j => bt x (8 * i + j)

theorem join_byte (x : Word) : join (byte x) = x.toNat := by rw [toNat_eq_val]; exact join_val (bt x)

/-- All that is needed of the modulus. -/
structure Large (p : ℕ) : Prop where
  h2 : 2 ^ 32 ≤ p
  h40 : 2 ^ 40 ≤ p
  h4 : 4 ^ 32 ≤ p
  h7 : 7 ^ 32 ≤ p

theorem large (h : 7 ^ 32 ≤ p) : Large p :=
  ⟨le_trans (by norm_num) h, le_trans (by norm_num) h, le_trans (by norm_num) h, h⟩

section
variable (H : Large p)
include H

theorem sparseSigma0_W (x : Word) : sparseSigma0 (W p x) = val 4 32 (dig0 x) := by
  obtain ⟨h0, h1, h2, h3⟩ := s0Chunk H.h2 4 x
  rw [← sigma0_combine]; unfold sparseSigma0; simp only [h0, h1, h2, h3]

theorem sparseSigma1_W (x : Word) : sparseSigma1 (W p x) = val 4 32 (dig1 x) := by
  obtain ⟨h0, h1, h2, h3⟩ := s1Chunk H.h2 4 x
  rw [← sigma1_combine]; unfold sparseSigma1; simp only [h0, h1, h2, h3]

theorem sparseBigSigma0_W (x : Word) : sparseBigSigma0 (W p x) = val 4 32 (Dig0 x) := by
  obtain ⟨h0, h1, h2, h3⟩ := aChunk H.h2 4 x
  rw [← bigSigma0_combine]; unfold sparseBigSigma0; simp only [h0, h1, h2, h3]

theorem sparseBigSigma1_W (x : Word) : sparseBigSigma1 (W p x) = val 7 32 (Dig1 x) := by
  obtain ⟨h0, h1, h2, h3⟩ := eChunk H.h2 7 x
  have hlt : val 7 32 (Dig1 x) < p := lt_of_lt_of_le (val_lt fun i _ => by have := Dig1_le x i; omega) H.h7
  rw [← ZMod.val_natCast_of_lt hlt, ← bigSigma1_combine]
  unfold sparseBigSigma1
  simp only [h0, h1, h2, h3]
  push_cast
  norm_num

theorem sparseA_W (x : Word) : sparseA (W p x) = spread 4 x := by
  obtain ⟨h0, h1, h2, h3⟩ := aChunk H.h2 4 x
  have hlt : spread 4 x < p := lt_of_lt_of_le (val_lt fun i _ => by have := bt_le x i; omega) H.h4
  have e : spread 4 x = val 4 2 (fun j => bt x (0 + j)) + val 4 11 (fun j => bt x (2 + j)) * 4 ^ 2 +
      val 4 9 (fun j => bt x (13 + j)) * 4 ^ (2 + 11) + val 4 10 (fun j => bt x (22 + j)) * 4 ^ (2 + 11 + 9) := by
    simp [spread, val, Finset.sum_range_succ]
    ring
  rw [← ZMod.val_natCast_of_lt hlt, e]
  unfold sparseA
  simp only [h0, h1, h2, h3]
  push_cast
  norm_num

theorem sparseE_W (x : Word) : sparseE (W p x) = spread 7 x := by
  obtain ⟨h0, h1, h2, h3⟩ := eChunk H.h2 7 x
  have hlt : spread 7 x < p := lt_of_lt_of_le (val_lt fun i _ => by have := bt_le x i; omega) H.h7
  have e : spread 7 x = val 7 6 (fun j => bt x (0 + j)) + val 7 5 (fun j => bt x (6 + j)) * 7 ^ 6 +
      val 7 14 (fun j => bt x (11 + j)) * 7 ^ (6 + 5) + val 7 7 (fun j => bt x (25 + j)) * 7 ^ (6 + 5 + 14) := by
    simp [spread, val, Finset.sum_range_succ]
    ring
  rw [← ZMod.val_natCast_of_lt hlt, e]
  unfold sparseE
  simp only [h0, h1, h2, h3]
  push_cast
  norm_num

theorem m32_eq : m32 p = 2 ^ 32 := by
  unfold m32
  have hlt : 2 ^ 32 < p := lt_of_lt_of_le (by norm_num) H.h40
  have h := ZMod.val_natCast_of_lt hlt
  rw [Nat.cast_pow, Nat.cast_ofNat] at h
  exact h

theorem rev_sigma0 (x : Word) (i : ℕ) (hi : i < 4) : revBin p parity 4 bytes (sparseSigma0 (W p x)) i = byte (Sha256Spec.smallSigma0 x) i := by
  rw [sparseSigma0_W H, revBin_bytes p 4 parity _ (fun i _ => by have := dig0_le x i; omega) H.h4 (by omega) i hi]
  exact val_congr fun j hj => parity_dig0 x _ (by omega)

theorem rev_sigma1 (x : Word) (i : ℕ) (hi : i < 4) : revBin p parity 4 bytes (sparseSigma1 (W p x)) i = byte (Sha256Spec.smallSigma1 x) i := by
  rw [sparseSigma1_W H, revBin_bytes p 4 parity _ (fun i _ => by have := dig1_le x i; omega) H.h4 (by omega) i hi]
  exact val_congr fun j hj => parity_dig1 x _ (by omega)

theorem rev_bigSigma0 (x : Word) (i : ℕ) (hi : i < 4) :
    revBin p parity 4 bytes (sparseBigSigma0 (W p x)) i = byte (Sha256Spec.bigSigma0 x) i := by
  rw [sparseBigSigma0_W H, revBin_bytes p 4 parity _ (fun i _ => by have := Dig0_le x i; omega) H.h4 (by omega) i hi]
  exact val_congr fun j hj => parity_Dig0 x _ (by omega)

theorem rev_bigSigma1 (x : Word) (i : ℕ) (hi : i < 4) :
    revBin p parity 7 bytes (sparseBigSigma1 (W p x)) i = byte (Sha256Spec.bigSigma1 x) i := by
  rw [sparseBigSigma1_W H, revBin_bytes p 7 parity _ (fun i _ => by have := Dig1_le x i; omega) H.h7 (by omega) i hi]
  exact val_congr fun j hj => parity_Dig1 x _ (by omega)

/-- The sum of the message schedule. -/
theorem schedSum_W (a b c d : Word) : schedSum (W p a) (W p b) (W p c) (W p d) =
    ((c.toNat + d.toNat + (Sha256Spec.smallSigma1 b).toNat + (Sha256Spec.smallSigma0 a).toNat : ℕ) : ZMod p) := by
  unfold schedSum
  simp only [rev_sigma0 H _ _ (show 0 < 4 by omega), rev_sigma0 H _ _ (show 1 < 4 by omega), rev_sigma0 H _ _ (show 2 < 4 by omega),
    rev_sigma0 H _ _ (show 3 < 4 by omega), rev_sigma1 H _ _ (show 0 < 4 by omega), rev_sigma1 H _ _ (show 1 < 4 by omega),
    rev_sigma1 H _ _ (show 2 < 4 by omega), rev_sigma1 H _ _ (show 3 < 4 by omega)]
  rw [← join_byte (Sha256Spec.smallSigma1 b), ← join_byte (Sha256Spec.smallSigma0 a)]
  unfold W join
  push_cast
  ring

theorem schedWord_W (a b c d : Word) : schedWord (W p a) (W p b) (W p c) (W p d) =
    W p (Sha256Spec.smallSigma1 b + c + Sha256Spec.smallSigma0 a + d) := by
  have h1 := (Sha256Spec.smallSigma1 b).isLt
  have h2 := (Sha256Spec.smallSigma0 a).isLt
  have h3 := c.isLt
  have h4 := d.isLt
  have h5 := H.h40
  unfold schedWord
  rw [schedSum_W H, m32_eq H, ZMod.val_natCast_of_lt (by omega), W]
  congr 1
  simp only [BitVec.toNat_add]
  omega

/-- The message schedule of the code is that of the standard. -/
theorem sched_W (m : ℕ → Word) (n : ℕ) : sched (fun i => W p (m i)) n = W p (Sha256Spec.schedule m n) := by
  induction n using Nat.strong_induction_on with
  | _ n ih =>
    rw [sched, Sha256Spec.schedule]
    by_cases h : n < 16
    · simp [h]
    · simp only [h, if_false]
      rw [ih (n - 15) (by omega), ih (n - 2) (by omega), ih (n - 7) (by omega), ih (n - 16) (by omega), schedWord_W H]

end

/-- The working variables of the code for a state. -/
def emb (p : ℕ) (s : Sha256Spec.State) : Work p :=
  ⟨W p s.a, W p s.b, W p s.c, W p s.d, W p s.e, W p s.f, W p s.g, W p s.h, spread 4 s.b, spread 4 s.c, spread 7 s.f, spread 7 s.g⟩

section
variable (H : Large p)
include H

theorem emb_sparseCh (s : Sha256Spec.State) : (emb p s).sparseCh = val 7 32 fun i => bt s.e i + 2 * bt s.f i + 3 * bt s.g i := by
  rw [val_add, val_add, val_mul, val_mul]
  simp only [Work.sparseCh, emb, sparseE_W H]
  rfl

theorem emb_sparseMaj (s : Sha256Spec.State) : (emb p s).sparseMaj = val 4 32 fun i => bt s.a i + bt s.b i + bt s.c i := by
  rw [val_add, val_add]
  simp only [Work.sparseMaj, emb, sparseA_W H]
  rfl

omit H in
theorem chDig_lt (x y z : Word) (i : ℕ) : bt x i + 2 * bt y i + 3 * bt z i < 7 := by
  have := bt_le x i; have := bt_le y i; have := bt_le z i; omega

omit H in
theorem majDig_lt (x y z : Word) (i : ℕ) : bt x i + bt y i + bt z i < 4 := by
  have := bt_le x i; have := bt_le y i; have := bt_le z i; omega

theorem rev_ch (s : Sha256Spec.State) (i : ℕ) (hi : i < 4) :
    revBin p chVal 7 bytes (emb p s).sparseCh i = byte (Sha256Spec.ch s.e s.f s.g) i := by
  rw [emb_sparseCh H, revBin_bytes p 7 chVal _ (fun i _ => chDig_lt _ _ _ _) H.h7 (by omega) i hi]
  exact val_congr fun j hj => chVal_bt _ _ _ _ (by omega)

theorem rev_maj (s : Sha256Spec.State) (i : ℕ) (hi : i < 4) :
    revBin p majVal 4 bytes (emb p s).sparseMaj i = byte (Sha256Spec.maj s.a s.b s.c) i := by
  rw [emb_sparseMaj H, revBin_bytes p 4 majVal _ (fun i _ => majDig_lt _ _ _ _) H.h4 (by omega) i hi]
  exact val_congr fun j hj => majVal_bt _ _ _ _

omit H in
theorem join_congr {f : ℕ → ℕ} {x : Word} (h : ∀ i < 4, f i = byte x i) : join f = x.toNat := by
  rw [← join_byte]; simp only [join, h 0 (by omega), h 1 (by omega), h 2 (by omega), h 3 (by omega)]

/-- `T1` as a number without reduction. -/
def t1 (s : Sha256Spec.State) (k w : Word) : ℕ :=
  s.h.toNat + (Sha256Spec.bigSigma1 s.e).toNat + (Sha256Spec.ch s.e s.f s.g).toNat + k.toNat + w.toNat

theorem tmp1_emb (s : Sha256Spec.State) (k w : Word) : (emb p s).tmp1 (W p k) (W p w) = (t1 s k w : ZMod p) := by
  unfold Work.tmp1
  rw [join_congr (rev_ch H s), show (emb p s).e = W p s.e from rfl, join_congr (rev_bigSigma1 H s.e), t1, W, W]
  simp only [emb, W]
  push_cast
  rfl

omit H in
theorem t1_lt (s : Sha256Spec.State) (k w : Word) : t1 s k w < 5 * 2 ^ 32 := by
  have h1 := s.h.isLt
  have h2 := (Sha256Spec.bigSigma1 s.e).isLt
  have h3 := (Sha256Spec.ch s.e s.f s.g).isLt
  have h4 := k.isLt
  have h5 := w.isLt
  unfold t1; omega

theorem eSum_emb (s : Sha256Spec.State) (k w : Word) : (emb p s).eSum (W p k) (W p w) = ((t1 s k w + s.d.toNat : ℕ) : ZMod p) := by
  unfold Work.eSum
  rw [tmp1_emb H]
  push_cast
  rfl

theorem aSum_emb (s : Sha256Spec.State) (k w : Word) : (emb p s).aSum (W p k) (W p w) =
    ((t1 s k w + (Sha256Spec.bigSigma0 s.a).toNat + (Sha256Spec.maj s.a s.b s.c).toNat : ℕ) : ZMod p) := by
  unfold Work.aSum
  rw [tmp1_emb H, join_congr (rev_maj H s), show (emb p s).a = W p s.a from rfl, join_congr (rev_bigSigma0 H s.a)]
  push_cast
  rfl

theorem eNew_emb (s : Sha256Spec.State) (k w : Word) : (emb p s).eNew (W p k) (W p w) = W p (Sha256Spec.round s k w).e := by
  have h1 := t1_lt s k w
  have h2 := s.d.isLt
  have h5 := H.h40
  unfold Work.eNew
  rw [eSum_emb H, m32_eq H, ZMod.val_natCast_of_lt (by omega), W]
  congr 1
  simp only [Sha256Spec.round, BitVec.toNat_add, t1]
  omega

theorem aNew_emb (s : Sha256Spec.State) (k w : Word) : (emb p s).aNew (W p k) (W p w) = W p (Sha256Spec.round s k w).a := by
  have h1 := t1_lt s k w
  have h2 := (Sha256Spec.bigSigma0 s.a).isLt
  have h3 := (Sha256Spec.maj s.a s.b s.c).isLt
  have h5 := H.h40
  unfold Work.aNew
  rw [aSum_emb H, m32_eq H, ZMod.val_natCast_of_lt (by omega), W]
  congr 1
  simp only [Sha256Spec.round, BitVec.toNat_add, t1]
  omega

/-- A round of the code is a round of the standard. -/
theorem step_emb (s : Sha256Spec.State) (k w : Word) : (emb p s).step (W p k) (W p w) = emb p (Sha256Spec.round s k w) := by
  unfold Work.step
  rw [aNew_emb H, eNew_emb H]
  simp only [emb, sparseA_W H, sparseE_W H, Sha256Spec.round]

omit H in
theorem kc_eq (n : ℕ) (hn : n < 64) : kc p n = W p (Sha256Spec.k n) := by
  unfold kc W
  congr 1
  interval_cases n <;> rfl

theorem run_emb (s : Sha256Spec.State) (w : ℕ → Word) (n : ℕ) (hn : n ≤ 64) :
    (emb p s).run (fun i => W p (w i)) n = emb p (Sha256Spec.rounds w s n) := by
  induction n with
  | zero => rfl
  | succ n ih => rw [Work.run, ih (by omega), kc_eq n (by omega), step_emb H]; rfl

omit H in
theorem emb_get (s : Sha256Spec.State) (i : ℕ) : (emb p s).get i = W p (s.get i) := by
  rcases i with _ | _ | _ | _ | _ | _ | _ | i <;> rfl

theorem init_emb (s : Sha256Spec.State) : Work.init (fun i => W p (s.get i)) = emb p s := by
  unfold Work.init
  simp only [split_all H.h2]
  rfl

theorem sum_W (x y : Word) : ((((W p x).val + (W p y).val) % m32 p : ℕ) : ZMod p) = W p (x + y) := by
  rw [W_val H.h2, W_val H.h2, m32_eq H, W, BitVec.toNat_add]

end

/-! ## The claim -/

/-- **C80.** On 32-bit words, `calculate` stays within its tables and returns the compression function of the standard. -/
theorem calculate_eq (hp : 7 ^ 32 ≤ p) (s : Sha256Spec.State) (m : ℕ → Word) :
    ∃ out, calculate (fun i => W p (s.get i)) (fun i => W p (m i)) = some out ∧
      ∀ i < 8, out i = W p ((Sha256Spec.compress s m).get i) := by
  have H := large hp
  refine ⟨fun i => ((((W p (s.get i)).val + (((emb p s).run (fun i => W p (Sha256Spec.schedule m i)) 64).get i).val) % m32 p : ℕ) : ZMod p),
    ?_, ?_⟩
  · unfold calculate
    have hs : sched (fun i => W p (m i)) = fun i => W p (Sha256Spec.schedule m i) := funext (sched_W H m)
    simp only [init_emb H, hs]
    rw [if_pos]
    rw [List.all_eq_true]
    intro n hn
    rw [List.mem_range] at hn
    rw [run_emb H s _ n (by omega), emb_sparseCh H, emb_sparseMaj H, Bool.and_eq_true]
    exact ⟨inBounds_val p 7 7 _ (fun i _ => chDig_lt _ _ _ _) (fun i _ => chDig_lt _ _ _ _) H.h7 (by omega),
      inBounds_val p 4 4 _ (fun i _ => majDig_lt _ _ _ _) (fun i _ => majDig_lt _ _ _ _) H.h4 (by omega)⟩
  · intro i hi
    simp only [run_emb H s _ 64 le_rfl, emb_get, sum_W H]
    congr 1
    interval_cases i <;> rfl

/-- Both curves of the Pasta cycle have a large enough base field. -/
example : 7 ^ 32 ≤ pallasP ∧ 7 ^ 32 ≤ vestaP := by constructor <;> norm_num [pallasP, vestaP]

/-- The words of the schedule, the newest first (to evaluate the specification). -/
def schedList (m : ℕ → Word) : ℕ → List Word
  | 0 => (List.range 16).map fun i => m (15 - i)
  | n + 1 =>
    let l := schedList m n
    (Sha256Spec.smallSigma1 (l.getD 1 0) + l.getD 6 0 + Sha256Spec.smallSigma0 (l.getD 14 0) + l.getD 15 0) :: l

theorem schedList_getD (m : ℕ → Word) (n i : ℕ) (hi : i ≤ n + 15) : (schedList m n).getD i 0 = Sha256Spec.schedule m (n + 15 - i) := by
  induction n generalizing i with
  | zero =>
    rw [Sha256Spec.schedule, if_pos (by omega), schedList, List.getD_eq_getElem _ _ (by simp; omega)]
    simp
  | succ n ih =>
    rw [schedList]
    cases i with
    | zero =>
      simp only [List.getD_cons_zero]
      rw [ih 1 (by omega), ih 6 (by omega), ih 14 (by omega), ih 15 (by omega), Sha256Spec.schedule.eq_1 m (n + 1 + 15 - 0), if_neg (by omega)]
      rfl
    | succ i => simp only [List.getD_cons_succ]; rw [ih i (by omega)]; congr 1; omega

theorem rounds_congr {w v : ℕ → Word} (s : Sha256Spec.State) (n : ℕ) (h : ∀ i < n, w i = v i) :
    Sha256Spec.rounds w s n = Sha256Spec.rounds v s n := by
  induction n with
  | zero => rfl
  | succ n ih => rw [Sha256Spec.rounds, Sha256Spec.rounds, ih fun i hi => h i (by omega), h n (by omega)]

/-- The one-block message `abc` (FIPS 180-4 examples). -/
example : ((List.range 8).map fun i => (Sha256Spec.compress Sha256Spec.iv fun i => if i = 0 then 0x61626380 else if i = 15 then 24 else 0).get i) =
    [0xba7816bf, 0x8f01cfea, 0x414140de, 0x5dae2223, 0xb00361a3, 0x96177a9c, 0xb410ff61, 0xf20015ad] := by
  rw [Sha256Spec.compress, rounds_congr (v := fun i => (schedList _ 48).getD (63 - i) 0) _ 64 fun i hi => by
    rw [schedList_getD _ _ _ (by omega)]; congr 1; omega]
  decide +kernel

end Sha256
end Verif
