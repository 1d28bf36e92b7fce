import Verif.Model.Sha512
import Verif.Core.Sha512Spec
import Verif.Props.Sha256Calc

/-!
# What `sha512_process` computes
-/

namespace Verif
namespace Sha512

open Digits
open Sha512Spec (Word)
open Sha256 (split bits revSparse revBin parity majVal chVal inBounds chunkDigits topDigits)

/-! ## Pieces of numbers -/

/-- The number with the `s` digits of `d` from position `o`. -/
def pc (b o s : ℕ) (d : ℕ → ℕ) : ℕ := val b s fun j => d (o + j)

theorem pc_split (b o s n : ℕ) (d : ℕ → ℕ) : pc b o (s + n) d = pc b o s d + b ^ s * pc b (o + s) n d := by
  unfold pc; rw [val_split]; simp only [add_assoc]

theorem pc_zero (b n : ℕ) (d : ℕ → ℕ) : pc b 0 n d = val b n d := by simp [pc]

theorem pc_lt {b o s : ℕ} {d : ℕ → ℕ} (h : ∀ i, d i < b) : pc b o s d < b ^ s := val_lt fun _ _ => h _

/-- Digits rotated by `r`. -/
theorem val_rot (b r : ℕ) (d : ℕ → ℕ) (hr : r ≤ 64) : (val b 64 fun i => d ((i + r) % 64)) = pc b r (64 - r) d + b ^ (64 - r) * pc b 0 r d := by
  conv_lhs => rw [show 64 = (64 - r) + r by omega, val_split]
  unfold pc
  congr 1
  · refine val_congr fun i hi => ?_
    rw [show 64 - r + r = 64 by omega, Nat.mod_eq_of_lt (by omega), add_comm]
  · congr 1
    refine val_congr fun i hi => ?_
    rw [show 64 - r + r = 64 by omega, show 64 - r + i + r = i + 64 by omega, Nat.add_mod_right, Nat.mod_eq_of_lt (by omega), zero_add]

/-- Digits shifted by `r`. -/
theorem val_shr (b r : ℕ) (d : ℕ → ℕ) (hr : r ≤ 64) : (val b 64 fun i => if i < 64 - r then d (i + r) else 0) = pc b r (64 - r) d := by
  conv_lhs => rw [show 64 = (64 - r) + r by omega, val_split]
  have h : (val b r fun i => if 64 - r + i < 64 - r + r - r then d (64 - r + i + r) else 0) = 0 := by
    rw [val_congr (g := fun _ => 0) fun i _ => if_neg (by omega)]; simp [val]
  rw [h, mul_zero, add_zero]
  unfold pc
  refine val_congr fun i hi => ?_
  rw [if_pos (by omega), add_comm]

/-- The digits of a chunk. -/
theorem chunkDigits_pc (p b : ℕ) (sizes : List ℕ) (f : ℕ → ℕ) (hf : ∀ i < 64, f i < b) (hp : b ^ 64 ≤ p) (hb : 1 < b) (i o s : ℕ)
    (ht : sizes.sum = 64) (hs : sizes.getD i 0 = s) (ho : (sizes.drop (i + 1)).sum + s + o = 64) :
    chunkDigits p b sizes (val b 64 f) i = (List.range s).map fun j => f (o + (s - 1 - j)) := by
  unfold chunkDigits
  rw [ht, hs, Sha256.topDigits_val p b 64 f hf hp hb, Sha256.drop_take_range _ _ _ _ (by omega)]
  apply List.map_congr_left
  intro j hj
  rw [List.mem_range] at hj
  congr 1
  omega

theorem revSparse_pc (p b : ℕ) (sizes : List ℕ) (f : ℕ → ℕ) (hf : ∀ i < 64, f i < b) (hp : b ^ 64 ≤ p) (hb : 1 < b) (i o s : ℕ)
    (ht : sizes.sum = 64) (hs : sizes.getD i 0 = s) (ho : (sizes.drop (i + 1)).sum + s + o = 64) :
    revSparse p b sizes (val b 64 f) i = pc b o s f := by
  unfold revSparse
  rw [chunkDigits_pc p b sizes f hf hp hb i o s ht hs ho]
  exact horner b s (fun j => f (o + j)) id

theorem revBin_pc (p b : ℕ) (sizes : List ℕ) (g f : ℕ → ℕ) (hf : ∀ i < 64, f i < b) (hp : b ^ 64 ≤ p) (hb : 1 < b) (i o s : ℕ)
    (ht : sizes.sum = 64) (hs : sizes.getD i 0 = s) (ho : (sizes.drop (i + 1)).sum + s + o = 64) :
    revBin p g b sizes (val b 64 f) i = pc 2 o s fun j => g (f j) := by
  unfold revBin
  rw [chunkDigits_pc p b sizes f hf hp hb i o s ht hs ho]
  exact horner 2 s (fun j => f (o + j)) g

theorem inBounds_val (p b n : ℕ) (f : ℕ → ℕ) (hf : ∀ i < 64, f i < b) (hn : ∀ i < 64, f i < n) (hp : b ^ 64 ≤ p) (hb : 1 < b) :
    inBounds p b qSizes (val b 64 f) n = true := by
  unfold inBounds
  rw [show qSizes.sum = 64 from rfl, Sha256.topDigits_val p b 64 f hf hp hb, List.all_eq_true]
  intro r hr
  obtain ⟨i, hi, rfl⟩ := List.mem_map.mp hr
  rw [List.mem_range] at hi
  exact decide_eq_true (hn _ (by omega))

/-! ## Words -/

/-- Bit `i` of a word. -/
def bt (x : Word) (i : ℕ) : ℕ := (x.getLsbD i).toNat

theorem bt_le (x : Word) (i : ℕ) : bt x i ≤ 1 := by unfold bt; exact Bool.toNat_le _

theorem toNat_eq_val (x : Word) : x.toNat = val 2 64 (bt x) := by
  rw [show bt x = fun i => (x.toNat.testBit i).toNat from by funext i; simp [bt, BitVec.testBit_toNat]]
  exact (val_testBit 64 x.toNat x.isLt).symm

variable {p : ℕ}

/-- A word as a field element. -/
def W (p : ℕ) (x : Word) : ZMod p := (x.toNat : ℕ)

theorem W_val (hp : 2 ^ 64 ≤ p) (x : Word) : (W p x).val = x.toNat := by
  have := x.isLt
  exact ZMod.val_natCast_of_lt (by omega)

theorem W_inj (hp : 2 ^ 64 ≤ p) {x y : Word} (h : W p x = W p y) : x = y := by
  apply BitVec.eq_of_toNat_eq
  rw [← W_val hp x, h, W_val hp y]

theorem word_W (hp : 2 ^ 64 ≤ p) (x : Word) : word (W p x) = bits 64 x.toNat := by rw [word, W_val hp]

theorem split_W (hp : 2 ^ 64 ≤ p) (b : ℕ) (sizes : List ℕ) (x : Word) (i o s : ℕ) (hs : sizes.getD i 0 = s)
    (ho : (sizes.drop (i + 1)).sum + s + o = 64) (h0 : 0 < s) :
    split b sizes (word (W p x)) i = pc b o s (bt x) := by
  unfold split pc
  rw [hs, word_W hp, Sha256.chunkVal_bits _ _ _ _ _ h0 (by omega)]
  apply val_congr
  intro j _
  rw [show 64 - (sizes.drop (i + 1)).sum - s = o from by omega, bt, BitVec.testBit_toNat]

/-- The word spread to the base `b`. -/
def spread (b : ℕ) (x : Word) : ℕ := val b 64 (bt x)

theorem split_all (hp : 2 ^ 64 ≤ p) (b : ℕ) (x : Word) : split b [64] (word (W p x)) 0 = spread b x := by
  rw [split_W hp b [64] x 0 0 64 rfl rfl (by omega), pc_zero]; rfl

/-- Digits of the sum of the three shifted copies. -/
def dig0 (x : Word) (i : ℕ) : ℕ := bt x ((i + 1) % 64) + bt x ((i + 8) % 64) + if i < 64 - 7 then bt x (i + 7) else 0
@[inherit_doc dig0] def dig1 (x : Word) (i : ℕ) : ℕ := bt x ((i + 19) % 64) + bt x ((i + 61) % 64) + if i < 64 - 6 then bt x (i + 6) else 0
@[inherit_doc dig0] def Dig0 (x : Word) (i : ℕ) : ℕ := bt x ((i + 28) % 64) + bt x ((i + 34) % 64) + bt x ((i + 39) % 64)
@[inherit_doc dig0] def Dig1 (x : Word) (i : ℕ) : ℕ := bt x ((i + 14) % 64) + bt x ((i + 18) % 64) + bt x ((i + 41) % 64)

theorem s0Chunk (hp : 2 ^ 64 ≤ p) (b : ℕ) (x : Word) :
    split b s0Sizes (word (W p x)) 0 = pc b 0 1 (bt x) ∧
    split b s0Sizes (word (W p x)) 1 = pc b 1 6 (bt x) ∧
    split b s0Sizes (word (W p x)) 2 = pc b 7 1 (bt x) ∧
    split b s0Sizes (word (W p x)) 3 = pc b 8 14 (bt x) ∧
    split b s0Sizes (word (W p x)) 4 = pc b 22 14 (bt x) ∧
    split b s0Sizes (word (W p x)) 5 = pc b 36 14 (bt x) ∧
    split b s0Sizes (word (W p x)) 6 = pc b 50 14 (bt x) :=
  ⟨split_W hp b _ x 0 0 1 rfl rfl (by omega),
    split_W hp b _ x 1 1 6 rfl rfl (by omega),
    split_W hp b _ x 2 7 1 rfl rfl (by omega),
    split_W hp b _ x 3 8 14 rfl rfl (by omega),
    split_W hp b _ x 4 22 14 rfl rfl (by omega),
    split_W hp b _ x 5 36 14 rfl rfl (by omega),
    split_W hp b _ x 6 50 14 rfl rfl (by omega)⟩

theorem s1Chunk (hp : 2 ^ 64 ≤ p) (b : ℕ) (x : Word) :
    split b s1Sizes (word (W p x)) 0 = pc b 0 6 (bt x) ∧
    split b s1Sizes (word (W p x)) 1 = pc b 6 13 (bt x) ∧
    split b s1Sizes (word (W p x)) 2 = pc b 19 14 (bt x) ∧
    split b s1Sizes (word (W p x)) 3 = pc b 33 14 (bt x) ∧
    split b s1Sizes (word (W p x)) 4 = pc b 47 14 (bt x) ∧
    split b s1Sizes (word (W p x)) 5 = pc b 61 3 (bt x) :=
  ⟨split_W hp b _ x 0 0 6 rfl rfl (by omega),
    split_W hp b _ x 1 6 13 rfl rfl (by omega),
    split_W hp b _ x 2 19 14 rfl rfl (by omega),
    split_W hp b _ x 3 33 14 rfl rfl (by omega),
    split_W hp b _ x 4 47 14 rfl rfl (by omega),
    split_W hp b _ x 5 61 3 rfl rfl (by omega)⟩

theorem aChunk (hp : 2 ^ 64 ≤ p) (b : ℕ) (x : Word) :
    split b aSizes (word (W p x)) 0 = pc b 0 14 (bt x) ∧
    split b aSizes (word (W p x)) 1 = pc b 14 14 (bt x) ∧
    split b aSizes (word (W p x)) 2 = pc b 28 6 (bt x) ∧
    split b aSizes (word (W p x)) 3 = pc b 34 5 (bt x) ∧
    split b aSizes (word (W p x)) 4 = pc b 39 14 (bt x) ∧
    split b aSizes (word (W p x)) 5 = pc b 53 11 (bt x) :=
  ⟨split_W hp b _ x 0 0 14 rfl rfl (by omega),
    split_W hp b _ x 1 14 14 rfl rfl (by omega),
    split_W hp b _ x 2 28 6 rfl rfl (by omega),
    split_W hp b _ x 3 34 5 rfl rfl (by omega),
    split_W hp b _ x 4 39 14 rfl rfl (by omega),
    split_W hp b _ x 5 53 11 rfl rfl (by omega)⟩

theorem eChunk (hp : 2 ^ 64 ≤ p) (b : ℕ) (x : Word) :
    split b eSizes (word (W p x)) 0 = pc b 0 14 (bt x) ∧
    split b eSizes (word (W p x)) 1 = pc b 14 4 (bt x) ∧
    split b eSizes (word (W p x)) 2 = pc b 18 14 (bt x) ∧
    split b eSizes (word (W p x)) 3 = pc b 32 9 (bt x) ∧
    split b eSizes (word (W p x)) 4 = pc b 41 14 (bt x) ∧
    split b eSizes (word (W p x)) 5 = pc b 55 9 (bt x) :=
  ⟨split_W hp b _ x 0 0 14 rfl rfl (by omega),
    split_W hp b _ x 1 14 4 rfl rfl (by omega),
    split_W hp b _ x 2 18 14 rfl rfl (by omega),
    split_W hp b _ x 3 32 9 rfl rfl (by omega),
    split_W hp b _ x 4 41 14 rfl rfl (by omega),
    split_W hp b _ x 5 55 9 rfl rfl (by omega)⟩

/-- Pieces between the chunk boundaries of `s0Sizes`. -/
theorem s0Pieces (b : ℕ) (d : ℕ → ℕ) :
    pc b 0 64 d = pc b 0 1 d + b ^ 1 * pc b 1 6 d + b ^ 7 * pc b 7 1 d + b ^ 8 * pc b 8 14 d + b ^ 22 * pc b 22 14 d + b ^ 36 * pc b 36 14 d + b ^ 50 * pc b 50 14 d ∧
    pc b 1 63 d = pc b 1 6 d + b ^ 6 * pc b 7 1 d + b ^ 7 * pc b 8 14 d + b ^ 21 * pc b 22 14 d + b ^ 35 * pc b 36 14 d + b ^ 49 * pc b 50 14 d ∧
    pc b 7 57 d = pc b 7 1 d + b ^ 1 * pc b 8 14 d + b ^ 15 * pc b 22 14 d + b ^ 29 * pc b 36 14 d + b ^ 43 * pc b 50 14 d ∧
    pc b 8 56 d = pc b 8 14 d + b ^ 14 * pc b 22 14 d + b ^ 28 * pc b 36 14 d + b ^ 42 * pc b 50 14 d ∧
    pc b 22 42 d = pc b 22 14 d + b ^ 14 * pc b 36 14 d + b ^ 28 * pc b 50 14 d ∧
    pc b 36 28 d = pc b 36 14 d + b ^ 14 * pc b 50 14 d ∧
    pc b 0 7 d = pc b 0 1 d + b ^ 1 * pc b 1 6 d ∧
    pc b 0 8 d = pc b 0 1 d + b ^ 1 * pc b 1 6 d + b ^ 7 * pc b 7 1 d ∧
    pc b 0 22 d = pc b 0 1 d + b ^ 1 * pc b 1 6 d + b ^ 7 * pc b 7 1 d + b ^ 8 * pc b 8 14 d ∧
    pc b 0 36 d = pc b 0 1 d + b ^ 1 * pc b 1 6 d + b ^ 7 * pc b 7 1 d + b ^ 8 * pc b 8 14 d + b ^ 22 * pc b 22 14 d ∧
    pc b 0 50 d = pc b 0 1 d + b ^ 1 * pc b 1 6 d + b ^ 7 * pc b 7 1 d + b ^ 8 * pc b 8 14 d + b ^ 22 * pc b 22 14 d + b ^ 36 * pc b 36 14 d := by
  have s5 := pc_split b 36 14 14 d
  have s4 := pc_split b 22 14 28 d
  have s3 := pc_split b 8 14 42 d
  have s2 := pc_split b 7 1 56 d
  have s1 := pc_split b 1 6 57 d
  have s0 := pc_split b 0 1 63 d
  have t2 := pc_split b 0 1 6 d
  have t3 := pc_split b 0 7 1 d
  have t4 := pc_split b 0 8 14 d
  have t5 := pc_split b 0 22 14 d
  have t6 := pc_split b 0 36 14 d
  simp only [Nat.reduceAdd, zero_add] at s0 s1 s2 s3 s4 s5 t2 t3 t4 t5 t6
  rw [s5] at s4
  rw [s4] at s3
  rw [s3] at s2
  rw [s2] at s1
  rw [s1] at s0
  rw [t2] at t3
  rw [t3] at t4
  rw [t4] at t5
  rw [t5] at t6
  refine ⟨?_, ?_, ?_, ?_, ?_, ?_, ?_, ?_, ?_, ?_, ?_⟩
  · rw [s0]; ring
  · rw [s1]; ring
  · rw [s2]; ring
  · rw [s3]; ring
  · rw [s4]; ring
  · rw [s5]
  · rw [t2]
  · rw [t3]
  · rw [t4]
  · rw [t5]
  · rw [t6]

/-- Pieces between the chunk boundaries of `s1Sizes`. -/
theorem s1Pieces (b : ℕ) (d : ℕ → ℕ) :
    pc b 0 64 d = pc b 0 6 d + b ^ 6 * pc b 6 13 d + b ^ 19 * pc b 19 14 d + b ^ 33 * pc b 33 14 d + b ^ 47 * pc b 47 14 d + b ^ 61 * pc b 61 3 d ∧
    pc b 6 58 d = pc b 6 13 d + b ^ 13 * pc b 19 14 d + b ^ 27 * pc b 33 14 d + b ^ 41 * pc b 47 14 d + b ^ 55 * pc b 61 3 d ∧
    pc b 19 45 d = pc b 19 14 d + b ^ 14 * pc b 33 14 d + b ^ 28 * pc b 47 14 d + b ^ 42 * pc b 61 3 d ∧
    pc b 33 31 d = pc b 33 14 d + b ^ 14 * pc b 47 14 d + b ^ 28 * pc b 61 3 d ∧
    pc b 47 17 d = pc b 47 14 d + b ^ 14 * pc b 61 3 d ∧
    pc b 0 19 d = pc b 0 6 d + b ^ 6 * pc b 6 13 d ∧
    pc b 0 33 d = pc b 0 6 d + b ^ 6 * pc b 6 13 d + b ^ 19 * pc b 19 14 d ∧
    pc b 0 47 d = pc b 0 6 d + b ^ 6 * pc b 6 13 d + b ^ 19 * pc b 19 14 d + b ^ 33 * pc b 33 14 d ∧
    pc b 0 61 d = pc b 0 6 d + b ^ 6 * pc b 6 13 d + b ^ 19 * pc b 19 14 d + b ^ 33 * pc b 33 14 d + b ^ 47 * pc b 47 14 d := by
  have s4 := pc_split b 47 14 3 d
  have s3 := pc_split b 33 14 17 d
  have s2 := pc_split b 19 14 31 d
  have s1 := pc_split b 6 13 45 d
  have s0 := pc_split b 0 6 58 d
  have t2 := pc_split b 0 6 13 d
  have t3 := pc_split b 0 19 14 d
  have t4 := pc_split b 0 33 14 d
  have t5 := pc_split b 0 47 14 d
  simp only [Nat.reduceAdd, zero_add] at s0 s1 s2 s3 s4 t2 t3 t4 t5
  rw [s4] at s3
  rw [s3] at s2
  rw [s2] at s1
  rw [s1] at s0
  rw [t2] at t3
  rw [t3] at t4
  rw [t4] at t5
  refine ⟨?_, ?_, ?_, ?_, ?_, ?_, ?_, ?_, ?_⟩
  · rw [s0]; ring
  · rw [s1]; ring
  · rw [s2]; ring
  · rw [s3]; ring
  · rw [s4]
  · rw [t2]
  · rw [t3]
  · rw [t4]
  · rw [t5]

/-- Pieces between the chunk boundaries of `aSizes`. -/
theorem aPieces (b : ℕ) (d : ℕ → ℕ) :
    pc b 0 64 d = pc b 0 14 d + b ^ 14 * pc b 14 14 d + b ^ 28 * pc b 28 6 d + b ^ 34 * pc b 34 5 d + b ^ 39 * pc b 39 14 d + b ^ 53 * pc b 53 11 d ∧
    pc b 14 50 d = pc b 14 14 d + b ^ 14 * pc b 28 6 d + b ^ 20 * pc b 34 5 d + b ^ 25 * pc b 39 14 d + b ^ 39 * pc b 53 11 d ∧
    pc b 28 36 d = pc b 28 6 d + b ^ 6 * pc b 34 5 d + b ^ 11 * pc b 39 14 d + b ^ 25 * pc b 53 11 d ∧
    pc b 34 30 d = pc b 34 5 d + b ^ 5 * pc b 39 14 d + b ^ 19 * pc b 53 11 d ∧
    pc b 39 25 d = pc b 39 14 d + b ^ 14 * pc b 53 11 d ∧
    pc b 0 28 d = pc b 0 14 d + b ^ 14 * pc b 14 14 d ∧
    pc b 0 34 d = pc b 0 14 d + b ^ 14 * pc b 14 14 d + b ^ 28 * pc b 28 6 d ∧
    pc b 0 39 d = pc b 0 14 d + b ^ 14 * pc b 14 14 d + b ^ 28 * pc b 28 6 d + b ^ 34 * pc b 34 5 d ∧
    pc b 0 53 d = pc b 0 14 d + b ^ 14 * pc b 14 14 d + b ^ 28 * pc b 28 6 d + b ^ 34 * pc b 34 5 d + b ^ 39 * pc b 39 14 d := by
  have s4 := pc_split b 39 14 11 d
  have s3 := pc_split b 34 5 25 d
  have s2 := pc_split b 28 6 30 d
  have s1 := pc_split b 14 14 36 d
  have s0 := pc_split b 0 14 50 d
  have t2 := pc_split b 0 14 14 d
  have t3 := pc_split b 0 28 6 d
  have t4 := pc_split b 0 34 5 d
  have t5 := pc_split b 0 39 14 d
  simp only [Nat.reduceAdd, zero_add] at s0 s1 s2 s3 s4 t2 t3 t4 t5
  rw [s4] at s3
  rw [s3] at s2
  rw [s2] at s1
  rw [s1] at s0
  rw [t2] at t3
  rw [t3] at t4
  rw [t4] at t5
  refine ⟨?_, ?_, ?_, ?_, ?_, ?_, ?_, ?_, ?_⟩
  · rw [s0]; ring
  · rw [s1]; ring
  · rw [s2]; ring
  · rw [s3]; ring
  · rw [s4]
  · rw [t2]
  · rw [t3]
  · rw [t4]
  · rw [t5]

/-- Pieces between the chunk boundaries of `eSizes`. -/
theorem ePieces (b : ℕ) (d : ℕ → ℕ) :
    pc b 0 64 d = pc b 0 14 d + b ^ 14 * pc b 14 4 d + b ^ 18 * pc b 18 14 d + b ^ 32 * pc b 32 9 d + b ^ 41 * pc b 41 14 d + b ^ 55 * pc b 55 9 d ∧
    pc b 14 50 d = pc b 14 4 d + b ^ 4 * pc b 18 14 d + b ^ 18 * pc b 32 9 d + b ^ 27 * pc b 41 14 d + b ^ 41 * pc b 55 9 d ∧
    pc b 18 46 d = pc b 18 14 d + b ^ 14 * pc b 32 9 d + b ^ 23 * pc b 41 14 d + b ^ 37 * pc b 55 9 d ∧
    pc b 32 32 d = pc b 32 9 d + b ^ 9 * pc b 41 14 d + b ^ 23 * pc b 55 9 d ∧
    pc b 41 23 d = pc b 41 14 d + b ^ 14 * pc b 55 9 d ∧
    pc b 0 18 d = pc b 0 14 d + b ^ 14 * pc b 14 4 d ∧
    pc b 0 32 d = pc b 0 14 d + b ^ 14 * pc b 14 4 d + b ^ 18 * pc b 18 14 d ∧
    pc b 0 41 d = pc b 0 14 d + b ^ 14 * pc b 14 4 d + b ^ 18 * pc b 18 14 d + b ^ 32 * pc b 32 9 d ∧
    pc b 0 55 d = pc b 0 14 d + b ^ 14 * pc b 14 4 d + b ^ 18 * pc b 18 14 d + b ^ 32 * pc b 32 9 d + b ^ 41 * pc b 41 14 d := by
  have s4 := pc_split b 41 14 9 d
  have s3 := pc_split b 32 9 23 d
  have s2 := pc_split b 18 14 32 d
  have s1 := pc_split b 14 4 46 d
  have s0 := pc_split b 0 14 50 d
  have t2 := pc_split b 0 14 4 d
  have t3 := pc_split b 0 18 14 d
  have t4 := pc_split b 0 32 9 d
  have t5 := pc_split b 0 41 14 d
  simp only [Nat.reduceAdd, zero_add] at s0 s1 s2 s3 s4 t2 t3 t4 t5
  rw [s4] at s3
  rw [s3] at s2
  rw [s2] at s1
  rw [s1] at s0
  rw [t2] at t3
  rw [t3] at t4
  rw [t4] at t5
  refine ⟨?_, ?_, ?_, ?_, ?_, ?_, ?_, ?_, ?_⟩
  · rw [s0]; ring
  · rw [s1]; ring
  · rw [s2]; ring
  · rw [s3]; ring
  · rw [s4]
  · rw [t2]
  · rw [t3]
  · rw [t4]
  · rw [t5]

/-- Pieces between the chunk boundaries of `sSizes`. -/
theorem sPieces (b : ℕ) (d : ℕ → ℕ) :
    pc b 0 64 d = pc b 0 14 d + b ^ 14 * pc b 14 14 d + b ^ 28 * pc b 28 14 d + b ^ 42 * pc b 42 14 d + b ^ 56 * pc b 56 8 d ∧
    pc b 14 50 d = pc b 14 14 d + b ^ 14 * pc b 28 14 d + b ^ 28 * pc b 42 14 d + b ^ 42 * pc b 56 8 d ∧
    pc b 28 36 d = pc b 28 14 d + b ^ 14 * pc b 42 14 d + b ^ 28 * pc b 56 8 d ∧
    pc b 42 22 d = pc b 42 14 d + b ^ 14 * pc b 56 8 d ∧
    pc b 0 28 d = pc b 0 14 d + b ^ 14 * pc b 14 14 d ∧
    pc b 0 42 d = pc b 0 14 d + b ^ 14 * pc b 14 14 d + b ^ 28 * pc b 28 14 d ∧
    pc b 0 56 d = pc b 0 14 d + b ^ 14 * pc b 14 14 d + b ^ 28 * pc b 28 14 d + b ^ 42 * pc b 42 14 d := by
  have s3 := pc_split b 42 14 8 d
  have s2 := pc_split b 28 14 22 d
  have s1 := pc_split b 14 14 36 d
  have s0 := pc_split b 0 14 50 d
  have t2 := pc_split b 0 14 14 d
  have t3 := pc_split b 0 28 14 d
  have t4 := pc_split b 0 42 14 d
  simp only [Nat.reduceAdd, zero_add] at s0 s1 s2 s3 t2 t3 t4
  rw [s3] at s2
  rw [s2] at s1
  rw [s1] at s0
  rw [t2] at t3
  rw [t3] at t4
  refine ⟨?_, ?_, ?_, ?_, ?_, ?_, ?_⟩
  · rw [s0]; ring
  · rw [s1]; ring
  · rw [s2]; ring
  · rw [s3]
  · rw [t2]
  · rw [t3]
  · rw [t4]

/-- Pieces between the chunk boundaries of `qSizes`. -/
theorem qPieces (b : ℕ) (d : ℕ → ℕ) :
    pc b 0 64 d = pc b 0 16 d + b ^ 16 * pc b 16 16 d + b ^ 32 * pc b 32 16 d + b ^ 48 * pc b 48 16 d ∧
    pc b 16 48 d = pc b 16 16 d + b ^ 16 * pc b 32 16 d + b ^ 32 * pc b 48 16 d ∧
    pc b 32 32 d = pc b 32 16 d + b ^ 16 * pc b 48 16 d ∧
    pc b 0 32 d = pc b 0 16 d + b ^ 16 * pc b 16 16 d ∧
    pc b 0 48 d = pc b 0 16 d + b ^ 16 * pc b 16 16 d + b ^ 32 * pc b 32 16 d := by
  have s2 := pc_split b 32 16 16 d
  have s1 := pc_split b 16 16 32 d
  have s0 := pc_split b 0 16 48 d
  have t2 := pc_split b 0 16 16 d
  have t3 := pc_split b 0 32 16 d
  simp only [Nat.reduceAdd, zero_add] at s0 s1 s2 t2 t3
  rw [s2] at s1
  rw [s1] at s0
  rw [t2] at t3
  refine ⟨?_, ?_, ?_, ?_, ?_⟩
  · rw [s0]; ring
  · rw [s1]; ring
  · rw [s2]
  · rw [t2]
  · rw [t3]

theorem sigma0_combine (x : Word) :
    pc 4 0 1 (bt x) * (2 ^ 126 + 2 ^ 112) +
      pc 4 1 6 (bt x) * (1 + 2 ^ 114) +
      pc 4 7 1 (bt x) * (2 ^ 12 + 2 ^ 126 + 1) +
      pc 4 8 14 (bt x) * (2 ^ 14 + 1 + 2 ^ 2) +
      pc 4 22 14 (bt x) * (2 ^ 42 + 2 ^ 28 + 2 ^ 30) +
      pc 4 36 14 (bt x) * (2 ^ 70 + 2 ^ 56 + 2 ^ 58) +
      pc 4 50 14 (bt x) * (2 ^ 98 + 2 ^ 84 + 2 ^ 86) = val 4 64 (dig0 x) := by
  have h := s0Pieces 4 (bt x)
  unfold dig0
  rw [val_add, val_add, val_rot 4 1 (bt x) (by omega), val_rot 4 8 (bt x) (by omega), val_shr 4 7 (bt x) (by omega)]
  obtain ⟨h0, h1, h2, h3, h4, h5, h6, h7, h8, h9, h10⟩ := h
  simp only [Nat.reduceSub, h1, h2, h3, h7]
  ring

theorem sigma1_combine (x : Word) :
    pc 4 0 6 (bt x) * (2 ^ 90 + 2 ^ 6) +
      pc 4 6 13 (bt x) * (2 ^ 102 + 2 ^ 18 + 1) +
      pc 4 19 14 (bt x) * (1 + 2 ^ 44 + 2 ^ 26) +
      pc 4 33 14 (bt x) * (2 ^ 28 + 2 ^ 72 + 2 ^ 54) +
      pc 4 47 14 (bt x) * (2 ^ 56 + 2 ^ 100 + 2 ^ 82) +
      pc 4 61 3 (bt x) * (2 ^ 84 + 1 + 2 ^ 110) = val 4 64 (dig1 x) := by
  have h := s1Pieces 4 (bt x)
  unfold dig1
  rw [val_add, val_add, val_rot 4 19 (bt x) (by omega), val_rot 4 61 (bt x) (by omega), val_shr 4 6 (bt x) (by omega)]
  obtain ⟨h0, h1, h2, h3, h4, h5, h6, h7, h8⟩ := h
  simp only [Nat.reduceSub, h1, h2, h5, h8]
  ring

theorem bigSigma0_combine (x : Word) :
    pc 4 0 14 (bt x) * (2 ^ 72 + 2 ^ 60 + 2 ^ 50) +
      pc 4 14 14 (bt x) * (2 ^ 100 + 2 ^ 88 + 2 ^ 78) +
      pc 4 28 6 (bt x) * (1 + 2 ^ 116 + 2 ^ 106) +
      pc 4 34 5 (bt x) * (2 ^ 12 + 1 + 2 ^ 118) +
      pc 4 39 14 (bt x) * (2 ^ 22 + 2 ^ 10 + 1) +
      pc 4 53 11 (bt x) * (2 ^ 50 + 2 ^ 38 + 2 ^ 28) = val 4 64 (Dig0 x) := by
  have h := aPieces 4 (bt x)
  unfold Dig0
  rw [val_add, val_add, val_rot 4 28 (bt x) (by omega), val_rot 4 34 (bt x) (by omega), val_rot 4 39 (bt x) (by omega)]
  obtain ⟨h0, h1, h2, h3, h4, h5, h6, h7, h8⟩ := h
  simp only [Nat.reduceSub, h2, h3, h4, h5, h6, h7]
  ring

theorem bigSigma1_combine (x : Word) :
    pc 7 0 14 (bt x) * (7 ^ 50 + 7 ^ 46 + 7 ^ 23) +
      pc 7 14 4 (bt x) * (1 + 7 ^ 60 + 7 ^ 37) +
      pc 7 18 14 (bt x) * (7 ^ 4 + 1 + 7 ^ 41) +
      pc 7 32 9 (bt x) * (7 ^ 18 + 7 ^ 14 + 7 ^ 55) +
      pc 7 41 14 (bt x) * (7 ^ 27 + 7 ^ 23 + 1) +
      pc 7 55 9 (bt x) * (7 ^ 41 + 7 ^ 37 + 7 ^ 14) = val 7 64 (Dig1 x) := by
  have h := ePieces 7 (bt x)
  unfold Dig1
  rw [val_add, val_add, val_rot 7 14 (bt x) (by omega), val_rot 7 18 (bt x) (by omega), val_rot 7 41 (bt x) (by omega)]
  obtain ⟨h0, h1, h2, h3, h4, h5, h6, h7, h8⟩ := h
  simp only [Nat.reduceSub, h1, h2, h4, h5, h7]
  ring

/-! ## Digits and bit functions -/

theorem getLsbD_rotr (x : Word) (r i : ℕ) (hr : r < 64) (hi : i < 64) : (x.rotateRight r).getLsbD i = x.getLsbD ((i + r) % 64) := by
  rw [BitVec.getLsbD_rotateRight, Nat.mod_eq_of_lt hr]
  by_cases h : i < 64 - r
  · rw [show (i + r) % 64 = r + i from by rw [Nat.mod_eq_of_lt (by omega)]; omega]; simp [h]
  · rw [show (i + r) % 64 = i - (64 - r) from by omega]; simp [h, hi]

theorem parity_dig0 (x : Word) (i : ℕ) (hi : i < 64) : parity (dig0 x i) = bt (Sha512Spec.smallSigma0 x) i := by
  have h : (if i < 64 - 7 then bt x (i + 7) else 0) = (x.getLsbD (7 + i)).toNat := by
    by_cases h : i < 64 - 7
    · simp only [h, if_true, bt, add_comm]
    · rw [BitVec.getLsbD_of_ge x (7 + i) (by omega)]; simp [h]
  rw [dig0, h, bt, bt, Sha256.parity3, bt, Sha512Spec.smallSigma0, BitVec.getLsbD_xor, BitVec.getLsbD_xor, getLsbD_rotr x 1 i (by omega) hi,
    getLsbD_rotr x 8 i (by omega) hi, BitVec.getLsbD_ushiftRight]

theorem parity_dig1 (x : Word) (i : ℕ) (hi : i < 64) : parity (dig1 x i) = bt (Sha512Spec.smallSigma1 x) i := by
  have h : (if i < 64 - 6 then bt x (i + 6) else 0) = (x.getLsbD (6 + i)).toNat := by
    by_cases h : i < 64 - 6
    · simp only [h, if_true, bt, add_comm]
    · rw [BitVec.getLsbD_of_ge x (6 + i) (by omega)]; simp [h]
  rw [dig1, h, bt, bt, Sha256.parity3, bt, Sha512Spec.smallSigma1, BitVec.getLsbD_xor, BitVec.getLsbD_xor, getLsbD_rotr x 19 i (by omega) hi,
    getLsbD_rotr x 61 i (by omega) hi, BitVec.getLsbD_ushiftRight]

theorem parity_Dig0 (x : Word) (i : ℕ) (hi : i < 64) : parity (Dig0 x i) = bt (Sha512Spec.bigSigma0 x) i := by
  rw [Dig0, bt, bt, bt, Sha256.parity3, bt, Sha512Spec.bigSigma0, BitVec.getLsbD_xor, BitVec.getLsbD_xor, getLsbD_rotr x 28 i (by omega) hi,
    getLsbD_rotr x 34 i (by omega) hi, getLsbD_rotr x 39 i (by omega) hi]

theorem parity_Dig1 (x : Word) (i : ℕ) (hi : i < 64) : parity (Dig1 x i) = bt (Sha512Spec.bigSigma1 x) i := by
  rw [Dig1, bt, bt, bt, Sha256.parity3, bt, Sha512Spec.bigSigma1, BitVec.getLsbD_xor, BitVec.getLsbD_xor, getLsbD_rotr x 14 i (by omega) hi,
    getLsbD_rotr x 18 i (by omega) hi, getLsbD_rotr x 41 i (by omega) hi]

theorem majVal_bt (x y z : Word) (i : ℕ) : majVal (bt x i + bt y i + bt z i) = bt (Sha512Spec.maj x y z) i := by
  rw [bt, bt, bt, Sha256.maj3, bt, Sha512Spec.maj]
  simp only [BitVec.getLsbD_xor, BitVec.getLsbD_and]

theorem chVal_bt (x y z : Word) (i : ℕ) (hi : i < 64) : chVal (bt x i + 2 * bt y i + 3 * bt z i) = bt (Sha512Spec.ch x y z) i := by
  rw [bt, bt, bt, Sha256.ch3, bt, Sha512Spec.ch]
  simp only [BitVec.getLsbD_xor, BitVec.getLsbD_and, BitVec.getLsbD_not, hi, decide_true, Bool.true_and]

theorem dig0_le (x : Word) (i : ℕ) : dig0 x i ≤ 3 := by
  have := bt_le x ((i + 1) % 64); have := bt_le x ((i + 8) % 64); have := bt_le x (i + 7)
  unfold dig0; split <;> omega
theorem dig1_le (x : Word) (i : ℕ) : dig1 x i ≤ 3 := by
  have := bt_le x ((i + 19) % 64); have := bt_le x ((i + 61) % 64); have := bt_le x (i + 6)
  unfold dig1; split <;> omega
theorem Dig0_le (x : Word) (i : ℕ) : Dig0 x i ≤ 3 := by
  have := bt_le x ((i + 28) % 64); have := bt_le x ((i + 34) % 64); have := bt_le x ((i + 39) % 64)
  unfold Dig0; omega
theorem Dig1_le (x : Word) (i : ℕ) : Dig1 x i ≤ 3 := by
  have := bt_le x ((i + 14) % 64); have := bt_le x ((i + 18) % 64); have := bt_le x ((i + 41) % 64)
  unfold Dig1; omega

/-! ## The functions of the code -/

theorem join_S (x : Word) : joinS (fun i => pc 2 (14 * i) ([14, 14, 14, 14, 8].getD i 0) (bt x)) = x.toNat := by
  have h := (sPieces 2 (bt x)).1
  rw [pc_zero] at h
  rw [toNat_eq_val, h]
  simp only [joinS, List.getD_cons_zero, List.getD_cons_succ, Nat.reduceMul]
  ring

theorem join_Q (x : Word) : joinQ (fun i => pc 2 (16 * i) 16 (bt x)) = x.toNat := by
  have h := (qPieces 2 (bt x)).1
  rw [pc_zero] at h
  rw [toNat_eq_val, h]
  simp only [joinQ, Nat.reduceMul]
  ring

theorem joinS_congr {f : ℕ → ℕ} {x : Word} (h : ∀ i < 5, f i = pc 2 (14 * i) ([14, 14, 14, 14, 8].getD i 0) (bt x)) : joinS f = x.toNat := by
  rw [← join_S]; simp only [joinS, h 0 (by omega), h 1 (by omega), h 2 (by omega), h 3 (by omega), h 4 (by omega)]

theorem joinQ_congr {f : ℕ → ℕ} {x : Word} (h : ∀ i < 4, f i = pc 2 (16 * i) 16 (bt x)) : joinQ f = x.toNat := by
  rw [← join_Q]; simp only [joinQ, h 0 (by omega), h 1 (by omega), h 2 (by omega), h 3 (by omega)]

/-- All that is needed of the modulus. -/
structure Large (p : ℕ) : Prop where
  h2 : 2 ^ 64 ≤ p
  h72 : 2 ^ 72 ≤ p
  h4 : 4 ^ 64 ≤ p
  h7 : 7 ^ 64 ≤ p

theorem large (h : 7 ^ 64 ≤ p) : Large p :=
  ⟨le_trans (by norm_num) h, le_trans (by norm_num) h, le_trans (by norm_num) h, h⟩

theorem revS (b : ℕ) (hb : 1 < b) (hp : b ^ 64 ≤ p) (d : ℕ → ℕ) (hd : ∀ i, d i < b) (i : ℕ) (hi : i < 5) :
    revSparse p b sSizes (val b 64 d) i = pc b (14 * i) ([14, 14, 14, 14, 8].getD i 0) d := by
  interval_cases i <;> exact revSparse_pc p b sSizes d (fun i _ => hd i) hp hb _ _ _ rfl rfl rfl

theorem revQ (b : ℕ) (hb : 1 < b) (hp : b ^ 64 ≤ p) (d : ℕ → ℕ) (hd : ∀ i, d i < b) (i : ℕ) (hi : i < 4) :
    revSparse p b qSizes (val b 64 d) i = pc b (16 * i) 16 d := by
  interval_cases i <;> exact revSparse_pc p b qSizes d (fun i _ => hd i) hp hb _ _ _ rfl rfl rfl

theorem binS (g : ℕ → ℕ) (b : ℕ) (hb : 1 < b) (hp : b ^ 64 ≤ p) (d : ℕ → ℕ) (hd : ∀ i, d i < b) (x : Word) (hx : ∀ i < 64, g (d i) = bt x i)
    (i : ℕ) (hi : i < 5) : revBin p g b sSizes (val b 64 d) i = pc 2 (14 * i) ([14, 14, 14, 14, 8].getD i 0) (bt x) := by
  have h : ∀ o s, o + s ≤ 64 → pc 2 o s (fun j => g (d j)) = pc 2 o s (bt x) := fun o s h => val_congr fun j hj => hx _ (by omega)
  interval_cases i <;> exact (revBin_pc p b sSizes g d (fun i _ => hd i) hp hb _ _ _ rfl rfl rfl).trans (h _ _ (by decide))

theorem binQ (g : ℕ → ℕ) (b : ℕ) (hb : 1 < b) (hp : b ^ 64 ≤ p) (d : ℕ → ℕ) (hd : ∀ i, d i < b) (x : Word) (hx : ∀ i < 64, g (d i) = bt x i)
    (i : ℕ) (hi : i < 4) : revBin p g b qSizes (val b 64 d) i = pc 2 (16 * i) 16 (bt x) := by
  have h : ∀ o s, o + s ≤ 64 → pc 2 o s (fun j => g (d j)) = pc 2 o s (bt x) := fun o s h => val_congr fun j hj => hx _ (by omega)
  interval_cases i <;> exact (revBin_pc p b qSizes g d (fun i _ => hd i) hp hb _ _ _ rfl rfl rfl).trans (h _ _ (by decide))

section
variable (H : Large p)
include H

theorem sparseSigma0_W (x : Word) : sparseSigma0 (W p x) = val 4 64 (dig0 x) := by
  obtain ⟨h0, h1, h2, h3, h4, h5, h6⟩ := s0Chunk H.h2 4 x
  rw [← sigma0_combine]; unfold sparseSigma0; simp only [h0, h1, h2, h3, h4, h5, h6]

theorem sparseSigma1_W (x : Word) : sparseSigma1 (W p x) = val 4 64 (dig1 x) := by
  obtain ⟨h0, h1, h2, h3, h4, h5⟩ := s1Chunk H.h2 4 x
  rw [← sigma1_combine]; unfold sparseSigma1; simp only [h0, h1, h2, h3, h4, h5]

theorem sparseBigSigma0_W (x : Word) : sparseBigSigma0 (W p x) = val 4 64 (Dig0 x) := by
  obtain ⟨h0, h1, h2, h3, h4, h5⟩ := aChunk H.h2 4 x
  rw [← bigSigma0_combine]; unfold sparseBigSigma0; simp only [h0, h1, h2, h3, h4, h5]

theorem sparseBigSigma1_W (x : Word) : sparseBigSigma1 (W p x) = val 7 64 (Dig1 x) := by
  obtain ⟨h0, h1, h2, h3, h4, h5⟩ := eChunk H.h2 7 x
  have hlt : val 7 64 (Dig1 x) < p := lt_of_lt_of_le (val_lt fun i _ => by have := Dig1_le x i; omega) H.h7
  rw [← ZMod.val_natCast_of_lt hlt, ← bigSigma1_combine]
  unfold sparseBigSigma1
  simp only [h0, h1, h2, h3, h4, h5, Nat.cast_add, Nat.cast_mul, Nat.cast_pow, Nat.cast_ofNat, Nat.cast_one]

omit H in
theorem spread_a (x : Word) : spread 4 x = pc 4 0 14 (bt x) + pc 4 14 14 (bt x) * 4 ^ 14 + pc 4 28 6 (bt x) * 4 ^ (14 + 14) + pc 4 34 5 (bt x) * 4 ^ (14 + 14 + 6) + pc 4 39 14 (bt x) * 4 ^ (14 + 14 + 6 + 5) + pc 4 53 11 (bt x) * 4 ^ (14 + 14 + 6 + 5 + 14) := by
  rw [spread, ← pc_zero, (aPieces 4 (bt x)).1]
  simp only [Nat.reduceAdd, mul_comm]

theorem sparseA_W (x : Word) : sparseA (W p x) = spread 4 x := by
  obtain ⟨h0, h1, h2, h3, h4, h5⟩ := aChunk H.h2 4 x
  have hlt : spread 4 x < p := lt_of_lt_of_le (val_lt fun i _ => by have := bt_le x i; omega) H.h4
  rw [← ZMod.val_natCast_of_lt hlt, spread_a]
  unfold sparseA
  simp only [h0, h1, h2, h3, h4, h5, Nat.cast_add, Nat.cast_mul, Nat.cast_pow, Nat.cast_ofNat]

omit H in
theorem spread_e (x : Word) : spread 7 x = pc 7 0 14 (bt x) + pc 7 14 4 (bt x) * 7 ^ 14 + pc 7 18 14 (bt x) * 7 ^ (14 + 4) + pc 7 32 9 (bt x) * 7 ^ (14 + 4 + 14) + pc 7 41 14 (bt x) * 7 ^ (14 + 4 + 14 + 9) + pc 7 55 9 (bt x) * 7 ^ (14 + 4 + 14 + 9 + 14) := by
  rw [spread, ← pc_zero, (ePieces 7 (bt x)).1]
  simp only [Nat.reduceAdd, mul_comm]

theorem sparseE_W (x : Word) : sparseE (W p x) = spread 7 x := by
  obtain ⟨h0, h1, h2, h3, h4, h5⟩ := eChunk H.h2 7 x
  have hlt : spread 7 x < p := lt_of_lt_of_le (val_lt fun i _ => by have := bt_le x i; omega) H.h7
  rw [← ZMod.val_natCast_of_lt hlt, spread_e]
  unfold sparseE
  simp only [h0, h1, h2, h3, h4, h5, Nat.cast_add, Nat.cast_mul, Nat.cast_pow, Nat.cast_ofNat]

theorem m64_eq : m64 p = 2 ^ 64 := by
  unfold m64
  have hlt : 2 ^ 64 < p := lt_of_lt_of_le (by norm_num) H.h72
  have h := ZMod.val_natCast_of_lt hlt
  rw [Nat.cast_pow, Nat.cast_ofNat] at h
  exact h

theorem rev_sigma0 (x : Word) (i : ℕ) (hi : i < 5) :
    revBin p parity 4 sSizes (sparseSigma0 (W p x)) i = pc 2 (14 * i) ([14, 14, 14, 14, 8].getD i 0) (bt (Sha512Spec.smallSigma0 x)) := by
  rw [sparseSigma0_W H]
  exact binS parity 4 (by omega) H.h4 _ (fun i => by have := dig0_le x i; omega) _ (parity_dig0 x) i hi

theorem rev_sigma1 (x : Word) (i : ℕ) (hi : i < 5) :
    revBin p parity 4 sSizes (sparseSigma1 (W p x)) i = pc 2 (14 * i) ([14, 14, 14, 14, 8].getD i 0) (bt (Sha512Spec.smallSigma1 x)) := by
  rw [sparseSigma1_W H]
  exact binS parity 4 (by omega) H.h4 _ (fun i => by have := dig1_le x i; omega) _ (parity_dig1 x) i hi

theorem rev_bigSigma0 (x : Word) (i : ℕ) (hi : i < 5) :
    revBin p parity 4 sSizes (sparseBigSigma0 (W p x)) i = pc 2 (14 * i) ([14, 14, 14, 14, 8].getD i 0) (bt (Sha512Spec.bigSigma0 x)) := by
  rw [sparseBigSigma0_W H]
  exact binS parity 4 (by omega) H.h4 _ (fun i => by have := Dig0_le x i; omega) _ (parity_Dig0 x) i hi

theorem rev_bigSigma1 (x : Word) (i : ℕ) (hi : i < 5) :
    revBin p parity 7 sSizes (sparseBigSigma1 (W p x)) i = pc 2 (14 * i) ([14, 14, 14, 14, 8].getD i 0) (bt (Sha512Spec.bigSigma1 x)) := by
  rw [sparseBigSigma1_W H]
  exact binS parity 7 (by omega) H.h7 _ (fun i => by have := Dig1_le x i; omega) _ (parity_Dig1 x) i hi

/-- The sum of the message schedule. -/
theorem schedSum_W (a b c d : Word) : schedSum (W p a) (W p b) (W p c) (W p d) =
    ((c.toNat + d.toNat + (Sha512Spec.smallSigma1 b).toNat + (Sha512Spec.smallSigma0 a).toNat : ℕ) : ZMod p) := by
  rw [← joinS_congr (rev_sigma1 H b), ← joinS_congr (rev_sigma0 H a)]
  unfold schedSum W joinS
  simp only [Nat.cast_add, Nat.cast_mul]
  ring

theorem schedWord_W (a b c d : Word) : schedWord (W p a) (W p b) (W p c) (W p d) =
    W p (Sha512Spec.smallSigma1 b + c + Sha512Spec.smallSigma0 a + d) := by
  have h1 := (Sha512Spec.smallSigma1 b).isLt
  have h2 := (Sha512Spec.smallSigma0 a).isLt
  have h3 := c.isLt
  have h4 := d.isLt
  have h5 := H.h72
  unfold schedWord
  rw [schedSum_W H, m64_eq H, ZMod.val_natCast_of_lt (by omega), W]
  congr 1
  simp only [BitVec.toNat_add]
  omega

/-- The message schedule of the code is that of the standard. -/
theorem sched_W (m : ℕ → Word) (n : ℕ) : sched (fun i => W p (m i)) n = W p (Sha512Spec.schedule m n) := by
  induction n using Nat.strong_induction_on with
  | _ n ih =>
    rw [sched, Sha512Spec.schedule]
    by_cases h : n < 16
    · simp [h]
    · simp only [h, if_false]
      rw [ih (n - 15) (by omega), ih (n - 2) (by omega), ih (n - 7) (by omega), ih (n - 16) (by omega), schedWord_W H]

end

/-- The working variables of the code for a state. -/
def emb (p : ℕ) (s : Sha512Spec.State) : Work p :=
  ⟨W p s.a, W p s.b, W p s.c, W p s.d, W p s.e, W p s.f, W p s.g, W p s.h, spread 4 s.b, spread 4 s.c, spread 7 s.f, spread 7 s.g⟩

section
variable (H : Large p)
include H

theorem emb_sparseCh (s : Sha512Spec.State) : (emb p s).sparseCh = val 7 64 fun i => bt s.e i + 2 * bt s.f i + 3 * bt s.g i := by
  rw [val_add, val_add, val_mul, val_mul]
  simp only [Work.sparseCh, emb, sparseE_W H]
  rfl

theorem emb_sparseMaj (s : Sha512Spec.State) : (emb p s).sparseMaj = val 4 64 fun i => bt s.a i + bt s.b i + bt s.c i := by
  rw [val_add, val_add]
  simp only [Work.sparseMaj, emb, sparseA_W H]
  rfl

omit H in
theorem chDig_lt (x y z : Word) (i : ℕ) : bt x i + 2 * bt y i + 3 * bt z i < 7 := by
  have := bt_le x i; have := bt_le y i; have := bt_le z i; omega

omit H in
theorem majDig_lt (x y z : Word) (i : ℕ) : bt x i + bt y i + bt z i < 4 := by
  have := bt_le x i; have := bt_le y i; have := bt_le z i; omega

theorem rev_ch (s : Sha512Spec.State) (i : ℕ) (hi : i < 4) :
    revBin p chVal 7 qSizes (emb p s).sparseCh i = pc 2 (16 * i) 16 (bt (Sha512Spec.ch s.e s.f s.g)) := by
  rw [emb_sparseCh H]
  exact binQ chVal 7 (by omega) H.h7 _ (fun i => chDig_lt _ _ _ _) _ (fun i hi => chVal_bt _ _ _ i hi) i hi

theorem rev_maj (s : Sha512Spec.State) (i : ℕ) (hi : i < 4) :
    revBin p majVal 4 qSizes (emb p s).sparseMaj i = pc 2 (16 * i) 16 (bt (Sha512Spec.maj s.a s.b s.c)) := by
  rw [emb_sparseMaj H]
  exact binQ majVal 4 (by omega) H.h4 _ (fun i => majDig_lt _ _ _ _) _ (fun i _ => majVal_bt _ _ _ i) i hi

/-- `T1` as a number without reduction. -/
def t1 (s : Sha512Spec.State) (k w : Word) : ℕ :=
  s.h.toNat + (Sha512Spec.bigSigma1 s.e).toNat + (Sha512Spec.ch s.e s.f s.g).toNat + k.toNat + w.toNat

theorem tmp1_emb (s : Sha512Spec.State) (k w : Word) : (emb p s).tmp1 (W p k) (W p w) = (t1 s k w : ZMod p) := by
  unfold Work.tmp1
  rw [joinQ_congr (rev_ch H s), show (emb p s).e = W p s.e from rfl, joinS_congr (rev_bigSigma1 H s.e), t1, W, W]
  simp only [emb, W]
  push_cast
  rfl

omit H in
theorem t1_lt (s : Sha512Spec.State) (k w : Word) : t1 s k w < 5 * 2 ^ 64 := by
  have h1 := s.h.isLt
  have h2 := (Sha512Spec.bigSigma1 s.e).isLt
  have h3 := (Sha512Spec.ch s.e s.f s.g).isLt
  have h4 := k.isLt
  have h5 := w.isLt
  unfold t1; omega

theorem eSum_emb (s : Sha512Spec.State) (k w : Word) : (emb p s).eSum (W p k) (W p w) = ((t1 s k w + s.d.toNat : ℕ) : ZMod p) := by
  unfold Work.eSum
  rw [tmp1_emb H]
  push_cast
  rfl

theorem aSum_emb (s : Sha512Spec.State) (k w : Word) : (emb p s).aSum (W p k) (W p w) =
    ((t1 s k w + (Sha512Spec.bigSigma0 s.a).toNat + (Sha512Spec.maj s.a s.b s.c).toNat : ℕ) : ZMod p) := by
  unfold Work.aSum
  rw [tmp1_emb H, joinQ_congr (rev_maj H s), show (emb p s).a = W p s.a from rfl, joinS_congr (rev_bigSigma0 H s.a)]
  push_cast
  rfl

theorem eNew_emb (s : Sha512Spec.State) (k w : Word) : (emb p s).eNew (W p k) (W p w) = W p (Sha512Spec.round s k w).e := by
  have h1 := t1_lt s k w
  have h2 := s.d.isLt
  have h5 := H.h72
  unfold Work.eNew
  rw [eSum_emb H, m64_eq H, ZMod.val_natCast_of_lt (by omega), W]
  congr 1
  simp only [Sha512Spec.round, BitVec.toNat_add, t1]
  omega

theorem aNew_emb (s : Sha512Spec.State) (k w : Word) : (emb p s).aNew (W p k) (W p w) = W p (Sha512Spec.round s k w).a := by
  have h1 := t1_lt s k w
  have h2 := (Sha512Spec.bigSigma0 s.a).isLt
  have h3 := (Sha512Spec.maj s.a s.b s.c).isLt
  have h5 := H.h72
  unfold Work.aNew
  rw [aSum_emb H, m64_eq H, ZMod.val_natCast_of_lt (by omega), W]
  congr 1
  simp only [Sha512Spec.round, BitVec.toNat_add, t1]
  omega

/-- A round of the code is a round of the standard. -/
theorem step_emb (s : Sha512Spec.State) (k w : Word) : (emb p s).step (W p k) (W p w) = emb p (Sha512Spec.round s k w) := by
  unfold Work.step
  rw [aNew_emb H, eNew_emb H]
  simp only [emb, sparseA_W H, sparseE_W H, Sha512Spec.round]

omit H in
theorem kc_eq (n : ℕ) (hn : n < 80) : kc p n = W p (Sha512Spec.k n) := by
  unfold kc W
  congr 1
  interval_cases n <;> rfl

theorem run_emb (s : Sha512Spec.State) (w : ℕ → Word) (n : ℕ) (hn : n ≤ 80) :
    (emb p s).run (fun i => W p (w i)) n = emb p (Sha512Spec.rounds w s n) := by
  induction n with
  | zero => rfl
  | succ n ih => rw [Work.run, ih (by omega), kc_eq n (by omega), step_emb H]; rfl

omit H in
theorem emb_get (s : Sha512Spec.State) (i : ℕ) : (emb p s).get i = W p (s.get i) := by
  rcases i with _ | _ | _ | _ | _ | _ | _ | i <;> rfl

theorem init_emb (s : Sha512Spec.State) : Work.init (fun i => W p (s.get i)) = emb p s := by
  unfold Work.init
  simp only [split_all H.h2]
  rfl

theorem sum_W (x y : Word) : ((((W p x).val + (W p y).val) % m64 p : ℕ) : ZMod p) = W p (x + y) := by
  rw [W_val H.h2, W_val H.h2, m64_eq H, W, BitVec.toNat_add]

end

/-! ## The claim -/

theorem sched_fun (hp : 7 ^ 64 ≤ p) (m : ℕ → Word) : sched (fun i => W p (m i)) = fun i => W p (Sha512Spec.schedule m i) :=
  funext (sched_W (large hp) m)

/-- On 64-bit words `generate_assignments` stays within the tables `r_values`. -/
theorem inRange_W (hp : 7 ^ 64 ≤ p) (s : Sha512Spec.State) (m : ℕ → Word) : inRange (fun i => W p (s.get i)) (fun i => W p (m i)) = true := by
  have H := large hp
  unfold inRange
  simp only [init_emb H, sched_fun hp]
  rw [List.all_eq_true]
  intro n hn
  rw [List.mem_range] at hn
  rw [run_emb H s _ n (by omega), emb_sparseCh H, emb_sparseMaj H, Bool.and_eq_true]
  exact ⟨inBounds_val p 7 7 _ (fun i _ => chDig_lt _ _ _ _) (fun i _ => chDig_lt _ _ _ _) H.h7 (by omega),
    inBounds_val p 4 4 _ (fun i _ => majDig_lt _ _ _ _) (fun i _ => majDig_lt _ _ _ _) H.h4 (by omega)⟩

theorem addState_get (s u : Sha512Spec.State) (i : ℕ) : (Sha512Spec.addState s u).get i = s.get i + u.get i := by
  rcases i with _ | _ | _ | _ | _ | _ | _ | i <;> rfl

/-- The values of the output row are the compression function of the standard. -/
theorem values_eq (hp : 7 ^ 64 ≤ p) (s : Sha512Spec.State) (m : ℕ → Word) (i : ℕ) :
    ((((W p (s.get i)).val + (((Work.init fun i => W p (s.get i)).run (sched fun i => W p (m i)) 80).get i).val) % m64 p : ℕ) : ZMod p) =
      W p ((Sha512Spec.compress s m).get i) := by
  have H := large hp
  simp only [init_emb H, sched_fun hp, run_emb H s _ 80 le_rfl, emb_get, sum_W H]
  rw [Sha512Spec.compress, addState_get]

/-- Both curves of the Pasta cycle have a large enough base field. -/
example : 7 ^ 64 ≤ pallasP ∧ 7 ^ 64 ≤ vestaP := by constructor <;> norm_num [pallasP, vestaP]

/-- The words of the schedule, the newest first (to evaluate the specification). -/
def schedList (m : ℕ → Word) : ℕ → List Word
  | 0 => (List.range 16).map fun i => m (15 - i)
  | n + 1 =>
    let l := schedList m n
    (Sha512Spec.smallSigma1 (l.getD 1 0) + l.getD 6 0 + Sha512Spec.smallSigma0 (l.getD 14 0) + l.getD 15 0) :: l

theorem schedList_getD (m : ℕ → Word) (n i : ℕ) (hi : i ≤ n + 15) : (schedList m n).getD i 0 = Sha512Spec.schedule m (n + 15 - i) := by
  induction n generalizing i with
  | zero =>
    rw [Sha512Spec.schedule, if_pos (by omega), schedList, List.getD_eq_getElem _ _ (by simp; omega)]
    simp
  | succ n ih =>
    rw [schedList]
    cases i with
    | zero =>
      simp only [List.getD_cons_zero]
      rw [ih 1 (by omega), ih 6 (by omega), ih 14 (by omega), ih 15 (by omega), Sha512Spec.schedule.eq_1 m (n + 1 + 15 - 0), if_neg (by omega)]
      rfl
    | succ i => simp only [List.getD_cons_succ]; rw [ih i (by omega)]; congr 1; omega

theorem rounds_congr {w v : ℕ → Word} (s : Sha512Spec.State) (n : ℕ) (h : ∀ i < n, w i = v i) :
    Sha512Spec.rounds w s n = Sha512Spec.rounds v s n := by
  induction n with
  | zero => rfl
  | succ n ih => rw [Sha512Spec.rounds, Sha512Spec.rounds, ih fun i hi => h i (by omega), h n (by omega)]

/-- The one-block message `abc` (FIPS 180-4 examples). -/
example : ((List.range 8).map fun i => (Sha512Spec.compress Sha512Spec.iv fun i => if i = 0 then 0x6162638000000000 else if i = 15 then 24 else 0).get i) =
    [0xddaf35a193617aba, 0xcc417349ae204131, 0x12e6fa4e89a97ea2, 0x0a9eeee64b55d39a, 0x2192992a274fc1a8, 0x36ba3c23a3feebbd, 0x454d4423643ce80e, 0x2a9ac94fa54ca49f] := by
  rw [Sha512Spec.compress, rounds_congr (v := fun i => (schedList _ 64).getD (79 - i) 0) _ 80 fun i hi => by
    rw [schedList_getD _ _ _ (by omega)]; congr 1; omega]
  decide +kernel

end Sha512
end Verif
