import Verif.Props.Sha256Gates

/-!
# `sha256_process`: tables that the circuit accepts
-/

set_option linter.unusedSimpArgs false
set_option linter.unusedSectionVars false

namespace Verif
namespace Sha256

open Digits
open Sha256Spec (Word)

/-! ## Membership in the lookup tables -/

section
variable {F : Type*} [Field F]

theorem split_bits (b i : ℕ) : split b [14] (bits 14 i) 0 = val b 14 fun j => (i.testBit j).toNat := by
  unfold split
  rw [show ([14] : List ℕ).getD 0 0 = 14 from rfl, chunkVal_bits _ _ _ _ _ (by omega) (by simp)]
  apply val_congr
  intro j _
  congr 2
  simp

theorem split_bits_two (i : ℕ) (hi : i < 16384) : split 2 [14] (bits 14 i) 0 = i := by
  rw [split_bits, val_testBit 14 i (by omega)]

theorem col_mem {n : ℕ} (hn : n < 16384) : firstColumn F [(n : F)] := ⟨n, hn, by rw [split_bits_two n hn]⟩

theorem col_mul {n k : ℕ} (hn : n * k < 16384) : firstColumn F [(n : F) * (k : F)] := by
  have := col_mem (F := F) hn
  rwa [Nat.cast_mul] at this

theorem sparse_mem (b s : ℕ) (hs : s ≤ 14) (f : ℕ → Bool) :
    sparseTable F b [((val 2 s fun j => (f j).toNat : ℕ) : F), ((val b s fun j => (f j).toNat : ℕ) : F)] := by
  have hlt : (val 2 s fun j => (f j).toNat) < 16384 := by
    have h1 : (val 2 s fun j => (f j).toNat) < 2 ^ s := val_lt fun i _ => by have := Bool.toNat_le (f i); omega
    have h2 : 2 ^ s ≤ 2 ^ 14 := Nat.pow_le_pow_right (by omega) hs
    omega
  refine ⟨_, hlt, ?_⟩
  rw [split_bits_two _ hlt, split_bits]
  congr 3
  obtain ⟨r, hr⟩ : ∃ r, 14 = s + r := ⟨14 - s, by omega⟩
  rw [hr, val_split]
  have h0 : (val b r fun i => ((val 2 s fun j => (f j).toNat).testBit (s + i)).toNat) = 0 := by
    simp only [testBit_val]
    unfold val
    exact Finset.sum_eq_zero fun i _ => by simp
  rw [h0, mul_zero, add_zero]
  apply val_congr
  intro i hi
  rw [testBit_val]; simp [hi]

theorem rev4_mem (d : ℕ → ℕ) (hd : ∀ j < 8, d j ≤ 3) :
    reverse4Table F [((val 2 8 fun j => parity (d j) : ℕ) : F), ((val 4 8 d : ℕ) : F)] := by
  refine ⟨d, hd, ?_⟩
  simp only [val, Finset.sum_range_succ, Finset.sum_range_zero, List.range_succ, List.range_zero, List.map_append, List.map_cons, List.map_nil,
    List.sum_append, List.sum_cons, List.sum_nil, List.nil_append, parity, add_zero, zero_add]

theorem rev7_mem (d : ℕ → ℕ) (hd : ∀ j < 8, d j ≤ 3) (he : ∀ j < 3, ¬ (d j = 0 ∧ d (j + 5) = 3) ∧ ¬ (d j = 3 ∧ d (j + 5) = 0)) :
    reverse7Table F [((val 2 8 fun j => parity (d j) : ℕ) : F), ((val 7 8 d : ℕ) : F)] := by
  refine ⟨d, hd, he, ?_⟩
  simp only [val, Finset.sum_range_succ, Finset.sum_range_zero, List.range_succ, List.range_zero, List.map_append, List.map_cons, List.map_nil,
    List.sum_append, List.sum_cons, List.sum_nil, List.nil_append, parity, add_zero, zero_add]

theorem maj_mem {p : ℕ} (hp : 4 ^ 8 ≤ p) (d : ℕ → ℕ) (hd : ∀ j < 8, d j < 4) :
    majTable F p [((val 2 8 fun j => majVal (d j) : ℕ) : F), ((val 4 8 d : ℕ) : F)] :=
  ⟨val 4 8 d, val_lt hd, by rw [revBin_one p 4 majVal d hd hp (by omega), revSparse_one p 4 d hd hp (by omega)]⟩

theorem ch_mem {p : ℕ} (hp : 7 ^ 8 ≤ p) (d : ℕ → ℕ) (hd : ∀ j < 8, d j < 7) :
    chTable F p [((val 2 8 fun j => chVal (d j) : ℕ) : F), ((val 7 8 d : ℕ) : F)] :=
  ⟨val 7 8 d, val_lt hd, by rw [revBin_one p 7 chVal d hd hp (by omega), revSparse_one p 7 d hd hp (by omega)]⟩

end

/-! ## Chunks and digits -/

/-- The `s` bits from position `o`, to the base `b`. -/
def ck (b o s : ℕ) (x : Word) : ℕ := val b s fun j => bt x (o + j)

/-- Eight digits. -/
def dg (b : ℕ) (d : ℕ → ℕ) (i : ℕ) : ℕ := val b 8 fun j => d (8 * i + j)

theorem ck_lt (o s : ℕ) (x : Word) : ck 2 o s x < 2 ^ s := val_lt fun i _ => by have := bt_le x (o + i); omega

theorem dg_all (b : ℕ) (d : ℕ → ℕ) : val b 32 d = dg b d 0 + dg b d 1 * b ^ 8 + dg b d 2 * b ^ 16 + dg b d 3 * b ^ 24 := by
  rw [show 32 = 8 + (8 + (8 + 8)) from rfl, val_split, val_split, val_split]
  simp only [dg, Nat.mul_zero, Nat.zero_add, Nat.mul_one, ← add_assoc, Nat.reduceMul, Nat.reduceAdd]
  ring

theorem ck_all (b o1 o2 o3 s1 s2 s3 s4 : ℕ) (x : Word) (h1 : o1 = s1) (h2 : o2 = s1 + s2) (h3 : o3 = s1 + s2 + s3) (h4 : s1 + s2 + s3 + s4 = 32) :
    val b 32 (bt x) = ck b 0 s1 x + ck b o1 s2 x * b ^ o1 + ck b o2 s3 x * b ^ o2 + ck b o3 s4 x * b ^ o3 := by
  subst h1 h2 h3
  rw [← h4, val_split, val_split, val_split]
  simp only [ck, Nat.zero_add]
  ring

section
variable {p : ℕ} [Fact p.Prime]

theorem ck_sparse (b o s : ℕ) (hs : s ≤ 14) (x : Word) : sparseTable (ZMod p) b [((ck 2 o s x : ℕ) : ZMod p), ((ck b o s x : ℕ) : ZMod p)] :=
  sparse_mem b s hs fun j => x.getLsbD (o + j)

theorem ck_col (o s k : ℕ) (x : Word) (h : 2 ^ s * k ≤ 16384) (hk : 0 < k) : firstColumn (ZMod p) [((ck 2 o s x : ℕ) : ZMod p) * ((k : ℕ) : ZMod p)] :=
  col_mul (lt_of_lt_of_le (Nat.mul_lt_mul_of_pos_right (ck_lt o s x) hk) h)

theorem small8 {n : ℕ} (hn : n < 8) : ((n : ZMod p) - ((7 : ℕ) : ZMod p)) * ((n : ZMod p) - ((6 : ℕ) : ZMod p)) * ((n : ZMod p) - ((5 : ℕ) : ZMod p)) *
    ((n : ZMod p) - ((4 : ℕ) : ZMod p)) * ((n : ZMod p) - ((3 : ℕ) : ZMod p)) * ((n : ZMod p) - ((2 : ℕ) : ZMod p)) * ((n : ZMod p) - ((1 : ℕ) : ZMod p)) *
    (n : ZMod p) = 0 := by interval_cases n <;> simp
theorem small7 {n : ℕ} (hn : n < 7) : ((n : ZMod p) - ((6 : ℕ) : ZMod p)) * ((n : ZMod p) - ((5 : ℕ) : ZMod p)) *
    ((n : ZMod p) - ((4 : ℕ) : ZMod p)) * ((n : ZMod p) - ((3 : ℕ) : ZMod p)) * ((n : ZMod p) - ((2 : ℕ) : ZMod p)) * ((n : ZMod p) - ((1 : ℕ) : ZMod p)) *
    (n : ZMod p) = 0 := by interval_cases n <;> simp
theorem small6 {n : ℕ} (hn : n < 6) : ((n : ZMod p) - ((5 : ℕ) : ZMod p)) *
    ((n : ZMod p) - ((4 : ℕ) : ZMod p)) * ((n : ZMod p) - ((3 : ℕ) : ZMod p)) * ((n : ZMod p) - ((2 : ℕ) : ZMod p)) * ((n : ZMod p) - ((1 : ℕ) : ZMod p)) *
    (n : ZMod p) = 0 := by interval_cases n <;> simp
theorem small4 {n : ℕ} (hn : n < 4) : ((n : ZMod p) - ((3 : ℕ) : ZMod p)) * ((n : ZMod p) - ((2 : ℕ) : ZMod p)) * ((n : ZMod p) - ((1 : ℕ) : ZMod p)) *
    (n : ZMod p) = 0 := by interval_cases n <;> simp

/-- Limb `i` of a word. -/
def lb (x : Word) (i : ℕ) : ℕ := x.toNat / 2 ^ (14 * i) % 2 ^ 14

theorem lb_sum (x : Word) : x.toNat = lb x 0 + lb x 1 * 2 ^ 14 + lb x 2 * 2 ^ 28 := by
  have := x.isLt; unfold lb; omega

theorem lb_lt (x : Word) (i : ℕ) : lb x i < 16384 := Nat.mod_lt _ (by norm_num)

theorem lb_top (x : Word) : lb x 2 < 16 := by have := x.isLt; unfold lb; omega

theorem limb_W (H : Large p) (x : Word) (i : ℕ) : limb (W p x) i = ((lb x i : ℕ) : ZMod p) := by
  unfold limb lb; rw [W_val H.h2]

theorem two32_ne (H : Large p) : (2 : ZMod p) ^ 32 ≠ 0 := by
  intro h
  have h1 : ((2 ^ 32 : ℕ) : ZMod p) = 0 := by rw [Nat.cast_pow, Nat.cast_ofNat]; exact h
  rw [ZMod.natCast_eq_zero_iff] at h1
  have := Nat.le_of_dvd (by norm_num) h1
  have := H.h40
  omega

theorem carry_eq (H : Large p) {N : ℕ} (hN : N < p) :
    ((N : ZMod p) - ((((N : ZMod p).val % m32 p : ℕ)) : ZMod p)) * ((2 : ZMod p) ^ 32)⁻¹ = ((N / 2 ^ 32 : ℕ) : ZMod p) := by
  rw [ZMod.val_natCast_of_lt hN, m32_eq H, mul_inv_eq_iff_eq_mul₀ (two32_ne H)]
  have h := Nat.mod_add_div N (2 ^ 32)
  generalize N / 2 ^ 32 = q at h ⊢
  generalize N % 2 ^ 32 = r at h ⊢
  rw [← h, Nat.cast_add, Nat.cast_mul, Nat.cast_pow, Nat.cast_ofNat]
  ring

/-- The value of the sum of bytes. -/
theorem cast_byte (x : Word) : ((x.toNat : ℕ) : ZMod p) = (byte x 0 : ZMod p) + (byte x 1 : ZMod p) * ((2 ^ 8 : ℕ) : ZMod p) +
    (byte x 2 : ZMod p) * ((2 ^ 16 : ℕ) : ZMod p) + (byte x 3 : ZMod p) * ((2 ^ 24 : ℕ) : ZMod p) := by
  rw [← join_byte]; unfold join; simp only [Nat.cast_add, Nat.cast_mul]

theorem cast_lb (x : Word) : W p x = (lb x 0 : ZMod p) + (lb x 1 : ZMod p) * ((2 ^ 14 : ℕ) : ZMod p) + (lb x 2 : ZMod p) * ((2 ^ 28 : ℕ) : ZMod p) := by
  unfold W; rw [lb_sum]; simp only [Nat.cast_add, Nat.cast_mul]

theorem cast_ck (o1 o2 o3 s1 s2 s3 s4 : ℕ) (x : Word) (h1 : o1 = s1) (h2 : o2 = s1 + s2) (h3 : o3 = s1 + s2 + s3) (h4 : s1 + s2 + s3 + s4 = 32) :
    W p x = (ck 2 0 s1 x : ZMod p) + (ck 2 o1 s2 x : ZMod p) * ((2 ^ o1 : ℕ) : ZMod p) + (ck 2 o2 s3 x : ZMod p) * ((2 ^ o2 : ℕ) : ZMod p) +
      (ck 2 o3 s4 x : ZMod p) * ((2 ^ o3 : ℕ) : ZMod p) := by
  unfold W; rw [toNat_eq_val, ck_all 2 o1 o2 o3 s1 s2 s3 s4 x h1 h2 h3 h4]; simp only [Nat.cast_add, Nat.cast_mul]

theorem cast_spread (b o1 o2 o3 s1 s2 s3 s4 : ℕ) (x : Word) (h1 : o1 = s1) (h2 : o2 = s1 + s2) (h3 : o3 = s1 + s2 + s3) (h4 : s1 + s2 + s3 + s4 = 32) :
    (spread b x : ZMod p) = (ck b 0 s1 x : ZMod p) + (ck b o1 s2 x : ZMod p) * ((b ^ o1 : ℕ) : ZMod p) + (ck b o2 s3 x : ZMod p) * ((b ^ o2 : ℕ) : ZMod p) +
      (ck b o3 s4 x : ZMod p) * ((b ^ o3 : ℕ) : ZMod p) := by
  unfold spread; rw [ck_all b o1 o2 o3 s1 s2 s3 s4 x h1 h2 h3 h4]; simp only [Nat.cast_add, Nat.cast_mul]

theorem cast_dg (b : ℕ) (d : ℕ → ℕ) : ((val b 32 d : ℕ) : ZMod p) = (dg b d 0 : ZMod p) + (dg b d 1 : ZMod p) * ((b ^ 8 : ℕ) : ZMod p) +
    (dg b d 2 : ZMod p) * ((b ^ 16 : ℕ) : ZMod p) + (dg b d 3 : ZMod p) * ((b ^ 24 : ℕ) : ZMod p) := by
  rw [dg_all]; simp only [Nat.cast_add, Nat.cast_mul]

theorem rev_dig (b : ℕ) (hb : 1 < b) (hp : b ^ 32 ≤ p) (d : ℕ → ℕ) (hd : ∀ i, d i < b) (i : ℕ) (hi : i < 4) :
    revSparse p b bytes (val b 32 d) i = dg b d i := revSparse_bytes p b d (fun i _ => hd i) hp hb i hi

theorem byte_rev4 (d : ℕ → ℕ) (x : Word) (hd : ∀ i, d i ≤ 3) (hx : ∀ i < 32, parity (d i) = bt x i) (i : ℕ) (hi : i < 4) :
    reverse4Table (ZMod p) [(byte x i : ZMod p), (dg 4 d i : ZMod p)] := by
  have := rev4_mem (F := ZMod p) (fun j => d (8 * i + j)) fun j _ => hd _
  rwa [val_congr (g := fun j => bt x (8 * i + j)) fun j hj => hx _ (by omega)] at this

theorem byte_rev7 (e x : Word) (hx : ∀ i < 32, parity (Dig1 e i) = bt x i) (i : ℕ) (hi : i < 4) :
    reverse7Table (ZMod p) [(byte x i : ZMod p), (dg 7 (Dig1 e) i : ZMod p)] := by
  have := rev7_mem (F := ZMod p) (fun j => Dig1 e (8 * i + j)) (fun j _ => Dig1_le _ _) fun j hj => by
    have e1 : (8 * i + (j + 5) + 6) % 32 = (8 * i + j + 11) % 32 := by omega
    have h1 := bt_le e ((8 * i + j + 11) % 32)
    have h2 := bt_le e ((8 * i + j + 6) % 32)
    have h3 := bt_le e ((8 * i + j + 25) % 32)
    have h4 := bt_le e ((8 * i + (j + 5) + 11) % 32)
    have h5 := bt_le e ((8 * i + (j + 5) + 25) % 32)
    simp only [Dig1, e1]
    omega
  rwa [val_congr (g := fun j => bt x (8 * i + j)) fun j hj => hx _ (by omega)] at this

theorem byte_maj (hp : 4 ^ 8 ≤ p) (d : ℕ → ℕ) (x : Word) (hd : ∀ i, d i < 4) (hx : ∀ i < 32, majVal (d i) = bt x i) (i : ℕ) (hi : i < 4) :
    majTable (ZMod p) p [(byte x i : ZMod p), (dg 4 d i : ZMod p)] := by
  have := maj_mem (F := ZMod p) hp (fun j => d (8 * i + j)) fun j _ => hd _
  rwa [val_congr (g := fun j => bt x (8 * i + j)) fun j hj => hx _ (by omega)] at this

theorem byte_ch (hp : 7 ^ 8 ≤ p) (d : ℕ → ℕ) (x : Word) (hd : ∀ i, d i < 7) (hx : ∀ i < 32, chVal (d i) = bt x i) (i : ℕ) (hi : i < 4) :
    chTable (ZMod p) p [(byte x i : ZMod p), (dg 7 d i : ZMod p)] := by
  have := ch_mem (F := ZMod p) hp (fun j => d (8 * i + j)) fun j _ => hd _
  rwa [val_congr (g := fun j => bt x (8 * i + j)) fun j hj => hx _ (by omega)] at this

/-! ## A step of the schedule -/

theorem schedBlock (H : Large p) (w0 w1 w9 w14 : Word) {x : ℤ → ℤ → ZMod p}
    (hx : ∀ m j : ℕ, m < 5 → j < 9 → written (2 + m) j = true → x (m : ℤ) (j : ℤ) = schedCell (W p w0) (W p w1) (W p w9) (W p w14) m j) :
    SchedBlock x := by
  obtain ⟨new, hnew⟩ : ∃ new, new = Sha256Spec.smallSigma1 w14 + w9 + Sha256Spec.smallSigma0 w1 + w0 := ⟨_, rfl⟩
  obtain ⟨N, hN⟩ : ∃ N, N = w9.toNat + w0.toNat + (Sha256Spec.smallSigma1 w14).toNat + (Sha256Spec.smallSigma0 w1).toNat := ⟨_, rfl⟩
  have hNlt : N < 4 * 2 ^ 32 := by
    have h1 := (Sha256Spec.smallSigma1 w14).isLt
    have h2 := (Sha256Spec.smallSigma0 w1).isLt
    have h3 := w9.isLt
    have h4 := w0.isLt
    omega
  have hq : N / 2 ^ 32 < 4 := by omega
  have hNp : N < p := lt_of_lt_of_le hNlt (le_trans (by norm_num) H.h40)
  have hnewN : new.toNat = N % 2 ^ 32 := by
    rw [hnew, hN]; simp only [BitVec.toNat_add]; omega
  have hcarry : (schedSum (W p w1) (W p w14) (W p w9) (W p w0) - schedWord (W p w1) (W p w14) (W p w9) (W p w0)) * ((2 : ZMod p) ^ 32)⁻¹ =
      ((N / 2 ^ 32 : ℕ) : ZMod p) := by
    unfold schedWord
    rw [schedSum_W H, ← hN]
    exact carry_eq H hNp
  have hdiv : (N : ZMod p) = W p new + ((2 ^ 32 : ℕ) : ZMod p) * ((N / 2 ^ 32 : ℕ) : ZMod p) := by
    unfold W; rw [hnewN, ← Nat.cast_mul, ← Nat.cast_add, Nat.mod_add_div]
  have hNs : (N : ZMod p) = W p w9 + W p w0 + ((Sha256Spec.smallSigma1 w14).toNat : ZMod p) + ((Sha256Spec.smallSigma0 w1).toNat : ZMod p) := by
    rw [hN]; unfold W; simp only [Nat.cast_add]
  have x00 : x 0 0 = W p w1 := (hx 0 0 (by omega) (by omega) rfl).trans (rfl)
  have x01 : x 0 1 = ((ck 2 0 3 w1 : ℕ) : ZMod p) := (hx 0 1 (by omega) (by omega) rfl).trans (congrArg _ (s0Chunk H.h2 2 w1).1)
  have x02 : x 0 2 = ((ck 2 3 4 w1 : ℕ) : ZMod p) := (hx 0 2 (by omega) (by omega) rfl).trans (congrArg _ (s0Chunk H.h2 2 w1).2.1)
  have x03 : x 0 3 = ((ck 2 7 11 w1 : ℕ) : ZMod p) := (hx 0 3 (by omega) (by omega) rfl).trans (congrArg _ (s0Chunk H.h2 2 w1).2.2.1)
  have x04 : x 0 4 = ((ck 2 18 14 w1 : ℕ) : ZMod p) := (hx 0 4 (by omega) (by omega) rfl).trans (congrArg _ (s0Chunk H.h2 2 w1).2.2.2)
  have x07 : x 0 7 = ((ck 4 0 3 w1 : ℕ) : ZMod p) := (hx 0 7 (by omega) (by omega) rfl).trans (congrArg _ (s0Chunk H.h2 4 w1).1)
  have x10 : x 1 0 = W p w9 := (hx 1 0 (by omega) (by omega) rfl).trans (rfl)
  have x11 : x 1 1 = W p w0 := (hx 1 1 (by omega) (by omega) rfl).trans (rfl)
  have x12 : x 1 2 = ((ck 4 3 4 w1 : ℕ) : ZMod p) := (hx 1 2 (by omega) (by omega) rfl).trans (congrArg _ (s0Chunk H.h2 4 w1).2.1)
  have x13 : x 1 3 = ((ck 4 7 11 w1 : ℕ) : ZMod p) := (hx 1 3 (by omega) (by omega) rfl).trans (congrArg _ (s0Chunk H.h2 4 w1).2.2.1)
  have x14 : x 1 4 = ((ck 4 18 14 w1 : ℕ) : ZMod p) := (hx 1 4 (by omega) (by omega) rfl).trans (congrArg _ (s0Chunk H.h2 4 w1).2.2.2)
  have x15 : x 1 5 = ((dg 4 (dig0 w1) 0 : ℕ) : ZMod p) := (hx 1 5 (by omega) (by omega) rfl).trans (congrArg _ ((congrArg (fun v => revSparse p 4 bytes v 0) (sparseSigma0_W H w1)).trans (rev_dig 4 (by omega) H.h4 _ (fun i => by have := dig0_le w1 i; omega) 0 (by omega))))
  have x16 : x 1 6 = ((dg 4 (dig0 w1) 1 : ℕ) : ZMod p) := (hx 1 6 (by omega) (by omega) rfl).trans (congrArg _ ((congrArg (fun v => revSparse p 4 bytes v 1) (sparseSigma0_W H w1)).trans (rev_dig 4 (by omega) H.h4 _ (fun i => by have := dig0_le w1 i; omega) 1 (by omega))))
  have x17 : x 1 7 = ((dg 4 (dig0 w1) 2 : ℕ) : ZMod p) := (hx 1 7 (by omega) (by omega) rfl).trans (congrArg _ ((congrArg (fun v => revSparse p 4 bytes v 2) (sparseSigma0_W H w1)).trans (rev_dig 4 (by omega) H.h4 _ (fun i => by have := dig0_le w1 i; omega) 2 (by omega))))
  have x18 : x 1 8 = ((dg 4 (dig0 w1) 3 : ℕ) : ZMod p) := (hx 1 8 (by omega) (by omega) rfl).trans (congrArg _ ((congrArg (fun v => revSparse p 4 bytes v 3) (sparseSigma0_W H w1)).trans (rev_dig 4 (by omega) H.h4 _ (fun i => by have := dig0_le w1 i; omega) 3 (by omega))))
  have x20 : x 2 0 = W p new := (hx 2 0 (by omega) (by omega) rfl).trans ((schedWord_W H w1 w14 w9 w0).trans (congrArg (W p) hnew.symm))
  have x21 : x 2 1 = ((byte (Sha256Spec.smallSigma0 w1) 0 : ℕ) : ZMod p) := (hx 2 1 (by omega) (by omega) rfl).trans (congrArg _ (rev_sigma0 H w1 0 (by omega)))
  have x22 : x 2 2 = ((byte (Sha256Spec.smallSigma0 w1) 1 : ℕ) : ZMod p) := (hx 2 2 (by omega) (by omega) rfl).trans (congrArg _ (rev_sigma0 H w1 1 (by omega)))
  have x23 : x 2 3 = ((byte (Sha256Spec.smallSigma0 w1) 2 : ℕ) : ZMod p) := (hx 2 3 (by omega) (by omega) rfl).trans (congrArg _ (rev_sigma0 H w1 2 (by omega)))
  have x24 : x 2 4 = ((byte (Sha256Spec.smallSigma0 w1) 3 : ℕ) : ZMod p) := (hx 2 4 (by omega) (by omega) rfl).trans (congrArg _ (rev_sigma0 H w1 3 (by omega)))
  have x25 : x 2 5 = ((byte (Sha256Spec.smallSigma1 w14) 0 : ℕ) : ZMod p) := (hx 2 5 (by omega) (by omega) rfl).trans (congrArg _ (rev_sigma1 H w14 0 (by omega)))
  have x26 : x 2 6 = ((byte (Sha256Spec.smallSigma1 w14) 1 : ℕ) : ZMod p) := (hx 2 6 (by omega) (by omega) rfl).trans (congrArg _ (rev_sigma1 H w14 1 (by omega)))
  have x27 : x 2 7 = ((byte (Sha256Spec.smallSigma1 w14) 2 : ℕ) : ZMod p) := (hx 2 7 (by omega) (by omega) rfl).trans (congrArg _ (rev_sigma1 H w14 2 (by omega)))
  have x28 : x 2 8 = ((byte (Sha256Spec.smallSigma1 w14) 3 : ℕ) : ZMod p) := (hx 2 8 (by omega) (by omega) rfl).trans (congrArg _ (rev_sigma1 H w14 3 (by omega)))
  have x30 : x 3 0 = ((N / 2 ^ 32 : ℕ) : ZMod p) := (hx 3 0 (by omega) (by omega) rfl).trans (hcarry)
  have x31 : x 3 1 = ((ck 4 0 10 w14 : ℕ) : ZMod p) := (hx 3 1 (by omega) (by omega) rfl).trans (congrArg _ (s1Chunk H.h2 4 w14).1)
  have x32 : x 3 2 = ((ck 4 10 7 w14 : ℕ) : ZMod p) := (hx 3 2 (by omega) (by omega) rfl).trans (congrArg _ (s1Chunk H.h2 4 w14).2.1)
  have x33 : x 3 3 = ((ck 4 17 2 w14 : ℕ) : ZMod p) := (hx 3 3 (by omega) (by omega) rfl).trans (congrArg _ (s1Chunk H.h2 4 w14).2.2.1)
  have x34 : x 3 4 = ((ck 4 19 13 w14 : ℕ) : ZMod p) := (hx 3 4 (by omega) (by omega) rfl).trans (congrArg _ (s1Chunk H.h2 4 w14).2.2.2)
  have x35 : x 3 5 = ((dg 4 (dig1 w14) 0 : ℕ) : ZMod p) := (hx 3 5 (by omega) (by omega) rfl).trans (congrArg _ ((congrArg (fun v => revSparse p 4 bytes v 0) (sparseSigma1_W H w14)).trans (rev_dig 4 (by omega) H.h4 _ (fun i => by have := dig1_le w14 i; omega) 0 (by omega))))
  have x36 : x 3 6 = ((dg 4 (dig1 w14) 1 : ℕ) : ZMod p) := (hx 3 6 (by omega) (by omega) rfl).trans (congrArg _ ((congrArg (fun v => revSparse p 4 bytes v 1) (sparseSigma1_W H w14)).trans (rev_dig 4 (by omega) H.h4 _ (fun i => by have := dig1_le w14 i; omega) 1 (by omega))))
  have x37 : x 3 7 = ((dg 4 (dig1 w14) 2 : ℕ) : ZMod p) := (hx 3 7 (by omega) (by omega) rfl).trans (congrArg _ ((congrArg (fun v => revSparse p 4 bytes v 2) (sparseSigma1_W H w14)).trans (rev_dig 4 (by omega) H.h4 _ (fun i => by have := dig1_le w14 i; omega) 2 (by omega))))
  have x38 : x 3 8 = ((dg 4 (dig1 w14) 3 : ℕ) : ZMod p) := (hx 3 8 (by omega) (by omega) rfl).trans (congrArg _ ((congrArg (fun v => revSparse p 4 bytes v 3) (sparseSigma1_W H w14)).trans (rev_dig 4 (by omega) H.h4 _ (fun i => by have := dig1_le w14 i; omega) 3 (by omega))))
  have x40 : x 4 0 = W p w14 := (hx 4 0 (by omega) (by omega) rfl).trans (rfl)
  have x41 : x 4 1 = ((ck 2 0 10 w14 : ℕ) : ZMod p) := (hx 4 1 (by omega) (by omega) rfl).trans (congrArg _ (s1Chunk H.h2 2 w14).1)
  have x42 : x 4 2 = ((ck 2 10 7 w14 : ℕ) : ZMod p) := (hx 4 2 (by omega) (by omega) rfl).trans (congrArg _ (s1Chunk H.h2 2 w14).2.1)
  have x43 : x 4 3 = ((ck 2 17 2 w14 : ℕ) : ZMod p) := (hx 4 3 (by omega) (by omega) rfl).trans (congrArg _ (s1Chunk H.h2 2 w14).2.2.1)
  have x44 : x 4 4 = ((ck 2 19 13 w14 : ℕ) : ZMod p) := (hx 4 4 (by omega) (by omega) rfl).trans (congrArg _ (s1Chunk H.h2 2 w14).2.2.2)
  have x45 : x 4 5 = ((lb new 0 : ℕ) : ZMod p) := (hx 4 5 (by omega) (by omega) rfl).trans ((congrArg (fun v => limb v 0) ((schedWord_W H w1 w14 w9 w0).trans (congrArg (W p) hnew.symm))).trans (limb_W H new 0))
  have x46 : x 4 6 = ((lb new 1 : ℕ) : ZMod p) := (hx 4 6 (by omega) (by omega) rfl).trans ((congrArg (fun v => limb v 1) ((schedWord_W H w1 w14 w9 w0).trans (congrArg (W p) hnew.symm))).trans (limb_W H new 1))
  have x47 : x 4 7 = ((lb new 2 : ℕ) : ZMod p) := (hx 4 7 (by omega) (by omega) rfl).trans ((congrArg (fun v => limb v 2) ((schedWord_W H w1 w14 w9 w0).trans (congrArg (W p) hnew.symm))).trans (limb_W H new 2))
  have x48 : x 4 8 = W p new := (hx 4 8 (by omega) (by omega) rfl).trans ((schedWord_W H w1 w14 w9 w0).trans (congrArg (W p) hnew.symm))
  unfold SchedBlock Sigma0OK SchedOK Sigma1OK
  simp only [Int.reduceAdd, Int.reduceNeg, x00, x01, x02, x03, x04, x07, x10, x11, x12, x13, x14, x15, x16, x17, x18, x20, x21, x22, x23, x24, x25, x26, x27, x28, x30, x31, x32, x33, x34, x35, x36, x37, x38, x40, x41, x42, x43, x44, x45, x46, x47, x48]
  have c0 := congrArg (Nat.cast : ℕ → ZMod p) (sigma0_combine w1)
  have c1 := congrArg (Nat.cast : ℕ → ZMod p) (sigma1_combine w14)
  rw [cast_dg] at c0 c1
  simp only [Nat.cast_add, Nat.cast_mul] at c0 c1
  refine ⟨⟨?_, small8 (ck_lt 0 3 w1), ?_, ck_sparse 4 0 3 (by omega) w1, ck_col 3 4 1024 w1 (by norm_num) (by omega),
    ck_sparse 4 3 4 (by omega) w1, ck_col 7 11 8 w1 (by norm_num) (by omega), ck_sparse 4 7 11 (by omega) w1, ck_sparse 4 18 14 (by omega) w1,
    byte_rev4 _ _ (dig0_le w1) (parity_dig0 w1) 0 (by omega), byte_rev4 _ _ (dig0_le w1) (parity_dig0 w1) 1 (by omega),
    byte_rev4 _ _ (dig0_le w1) (parity_dig0 w1) 2 (by omega), byte_rev4 _ _ (dig0_le w1) (parity_dig0 w1) 3 (by omega)⟩,
    ⟨?_, small4 hq, byte_rev4 _ _ (dig1_le w14) (parity_dig1 w14) 0 (by omega), byte_rev4 _ _ (dig1_le w14) (parity_dig1 w14) 1 (by omega),
    byte_rev4 _ _ (dig1_le w14) (parity_dig1 w14) 2 (by omega), byte_rev4 _ _ (dig1_le w14) (parity_dig1 w14) 3 (by omega)⟩,
    ⟨?_, small4 (ck_lt 17 2 w14), ?_, ?_, ck_col 0 10 16 w14 (by norm_num) (by omega), ck_sparse 4 0 10 (by omega) w14,
    ck_col 10 7 128 w14 (by norm_num) (by omega), ck_sparse 4 10 7 (by omega) w14, ck_col 19 13 2 w14 (by norm_num) (by omega),
    ck_sparse 4 17 2 (by omega) w14, ck_sparse 4 19 13 (by omega) w14, col_mem (lb_lt _ _), col_mem (lb_lt _ _), col_mem (lb_lt _ _),
    col_mul (by have := lb_top new; omega), col_mem (by omega), col_mul (by omega)⟩⟩
  · rw [cast_ck 3 7 18 3 4 11 14 w1 rfl rfl rfl rfl]; ring
  · unfold ck
    simp only [Nat.cast_add, Nat.cast_mul, Nat.cast_pow, Nat.cast_ofNat, Nat.cast_one] at c0 ⊢
    linear_combination -c0
  · rw [cast_byte, cast_byte] at hNs
    linear_combination hNs - hdiv
  · rw [cast_ck 10 17 19 10 7 2 13 w14 rfl rfl rfl rfl]; ring
  · unfold ck
    simp only [Nat.cast_add, Nat.cast_mul, Nat.cast_pow, Nat.cast_ofNat, Nat.cast_one] at c1 ⊢
    linear_combination -c1
  · rw [cast_lb new]; simp only [Nat.cast_zero]; ring

/-! ## A round -/

/-- Digits of the arguments of `Ch` and `Maj`. -/
def chd (s : Sha256Spec.State) (i : ℕ) : ℕ := bt s.e i + 2 * bt s.f i + 3 * bt s.g i
@[inherit_doc chd] def mjd (s : Sha256Spec.State) (i : ℕ) : ℕ := bt s.a i + bt s.b i + bt s.c i

theorem chd_val (s : Sha256Spec.State) : val 7 32 (chd s) = spread 7 s.e + 2 * spread 7 s.f + 3 * spread 7 s.g := by
  unfold chd spread; rw [val_add, val_add, val_mul, val_mul]

theorem mjd_val (s : Sha256Spec.State) : val 4 32 (mjd s) = spread 4 s.a + spread 4 s.b + spread 4 s.c := by
  unfold mjd spread; rw [val_add, val_add]

theorem roundBlock (H : Large p) (s : Sha256Spec.State) (k w : Word) {x : ℤ → ℤ → ZMod p}
    (hx : ∀ m j : ℕ, m < 8 → j < 9 → written (242 + m) j = true → x (m : ℤ) (j : ℤ) = roundCell (emb p s) (W p k) (W p w) m j) :
    RoundBlock x (W p k) := by
  obtain ⟨en, hen⟩ : ∃ en, en = (Sha256Spec.round s k w).e := ⟨_, rfl⟩
  obtain ⟨an, han⟩ : ∃ an, an = (Sha256Spec.round s k w).a := ⟨_, rfl⟩
  have he : (emb p s).eNew (W p k) (W p w) = W p en := by rw [hen]; exact eNew_emb H s k w
  have ha : (emb p s).aNew (W p k) (W p w) = W p an := by rw [han]; exact aNew_emb H s k w
  obtain ⟨N, hN⟩ : ∃ N, N = t1 s k w + s.d.toNat := ⟨_, rfl⟩
  obtain ⟨M, hM⟩ : ∃ M, M = t1 s k w + (Sha256Spec.bigSigma0 s.a).toNat + (Sha256Spec.maj s.a s.b s.c).toNat := ⟨_, rfl⟩
  have ht := t1_lt s k w
  have hNlt : N < 6 * 2 ^ 32 := by have h2 := s.d.isLt; omega
  have hMlt : M < 7 * 2 ^ 32 := by
    have h2 := (Sha256Spec.bigSigma0 s.a).isLt
    have h3 := (Sha256Spec.maj s.a s.b s.c).isLt
    omega
  have hNq : N / 2 ^ 32 < 6 := by omega
  have hMq : M / 2 ^ 32 < 7 := by omega
  have hNp : N < p := lt_of_lt_of_le hNlt (le_trans (by norm_num) H.h40)
  have hMp : M < p := lt_of_lt_of_le hMlt (le_trans (by norm_num) H.h40)
  have hinv : ((((2 : ZMod p) ^ 32)⁻¹.val : ℕ) : ZMod p) = ((2 : ZMod p) ^ 32)⁻¹ := ZMod.natCast_zmod_val _
  have hcarry : ((emb p s).eSum (W p k) (W p w) - (emb p s).eNew (W p k) (W p w)) * ((((2 : ZMod p) ^ 32)⁻¹.val : ℕ) : ZMod p) =
      ((N / 2 ^ 32 : ℕ) : ZMod p) := by
    unfold Work.eNew
    rw [hinv, eSum_emb H, ← hN]
    exact carry_eq H hNp
  have hcarry' : ((emb p s).aSum (W p k) (W p w) - (emb p s).aNew (W p k) (W p w)) * ((2 : ZMod p) ^ 32)⁻¹ = ((M / 2 ^ 32 : ℕ) : ZMod p) := by
    unfold Work.aNew
    rw [aSum_emb H, ← hM]
    exact carry_eq H hMp
  have henN : en.toNat = N % 2 ^ 32 := by rw [hen, hN, Sha256Spec.round, t1]; simp only [BitVec.toNat_add]; omega
  have hanM : an.toNat = M % 2 ^ 32 := by rw [han, hM, Sha256Spec.round, t1]; simp only [BitVec.toNat_add]; omega
  have hdiv : (N : ZMod p) = W p en + ((2 ^ 32 : ℕ) : ZMod p) * ((N / 2 ^ 32 : ℕ) : ZMod p) := by
    unfold W; rw [henN, ← Nat.cast_mul, ← Nat.cast_add, Nat.mod_add_div]
  have hdiv' : (M : ZMod p) = W p an + ((2 ^ 32 : ℕ) : ZMod p) * ((M / 2 ^ 32 : ℕ) : ZMod p) := by
    unfold W; rw [hanM, ← Nat.cast_mul, ← Nat.cast_add, Nat.mod_add_div]
  have hNs : (N : ZMod p) = (t1 s k w : ZMod p) + W p s.d := by rw [hN]; unfold W; simp only [Nat.cast_add]
  have hMs : (M : ZMod p) = (t1 s k w : ZMod p) + ((Sha256Spec.bigSigma0 s.a).toNat : ZMod p) + ((Sha256Spec.maj s.a s.b s.c).toNat : ZMod p) := by
    rw [hM]; simp only [Nat.cast_add]
  have hts : (t1 s k w : ZMod p) = W p s.h + ((Sha256Spec.bigSigma1 s.e).toNat : ZMod p) + ((Sha256Spec.ch s.e s.f s.g).toNat : ZMod p) + W p k + W p w := by
    unfold t1 W; simp only [Nat.cast_add]
  have x00 : x 0 0 = W p s.e := (hx 0 0 (by omega) (by omega) rfl).trans (rfl)
  have x01 : x 0 1 = ((ck 7 0 6 s.e : ℕ) : ZMod p) := (hx 0 1 (by omega) (by omega) rfl).trans (congrArg _ (eChunk H.h2 7 s.e).1)
  have x02 : x 0 2 = ((ck 2 0 6 s.e : ℕ) : ZMod p) := (hx 0 2 (by omega) (by omega) rfl).trans (congrArg _ (eChunk H.h2 2 s.e).1)
  have x03 : x 0 3 = ((ck 2 6 5 s.e : ℕ) : ZMod p) := (hx 0 3 (by omega) (by omega) rfl).trans (congrArg _ (eChunk H.h2 2 s.e).2.1)
  have x04 : x 0 4 = ((ck 2 11 14 s.e : ℕ) : ZMod p) := (hx 0 4 (by omega) (by omega) rfl).trans (congrArg _ (eChunk H.h2 2 s.e).2.2.1)
  have x05 : x 0 5 = ((ck 2 25 7 s.e : ℕ) : ZMod p) := (hx 0 5 (by omega) (by omega) rfl).trans (congrArg _ (eChunk H.h2 2 s.e).2.2.2)
  have x06 : x 0 6 = ((dg 7 (Dig1 s.e) 1 : ℕ) : ZMod p) := (hx 0 6 (by omega) (by omega) rfl).trans (congrArg _ ((congrArg (fun v => revSparse p 7 bytes v 1) (sparseBigSigma1_W H s.e)).trans (rev_dig 7 (by omega) H.h7 _ (fun i => by have := Dig1_le s.e i; omega) 1 (by omega))))
  have x07 : x 0 7 = ((dg 7 (Dig1 s.e) 2 : ℕ) : ZMod p) := (hx 0 7 (by omega) (by omega) rfl).trans (congrArg _ ((congrArg (fun v => revSparse p 7 bytes v 2) (sparseBigSigma1_W H s.e)).trans (rev_dig 7 (by omega) H.h7 _ (fun i => by have := Dig1_le s.e i; omega) 2 (by omega))))
  have x08 : x 0 8 = ((dg 7 (Dig1 s.e) 3 : ℕ) : ZMod p) := (hx 0 8 (by omega) (by omega) rfl).trans (congrArg _ ((congrArg (fun v => revSparse p 7 bytes v 3) (sparseBigSigma1_W H s.e)).trans (rev_dig 7 (by omega) H.h7 _ (fun i => by have := Dig1_le s.e i; omega) 3 (by omega))))
  have x10 : x 1 0 = ((spread 7 s.e : ℕ) : ZMod p) := (hx 1 0 (by omega) (by omega) rfl).trans (congrArg _ (sparseE_W H s.e))
  have x11 : x 1 1 = ((spread 7 s.f : ℕ) : ZMod p) := (hx 1 1 (by omega) (by omega) rfl).trans (rfl)
  have x12 : x 1 2 = ((ck 7 6 5 s.e : ℕ) : ZMod p) := (hx 1 2 (by omega) (by omega) rfl).trans (congrArg _ (eChunk H.h2 7 s.e).2.1)
  have x13 : x 1 3 = ((ck 7 11 14 s.e : ℕ) : ZMod p) := (hx 1 3 (by omega) (by omega) rfl).trans (congrArg _ (eChunk H.h2 7 s.e).2.2.1)
  have x14 : x 1 4 = ((ck 7 25 7 s.e : ℕ) : ZMod p) := (hx 1 4 (by omega) (by omega) rfl).trans (congrArg _ (eChunk H.h2 7 s.e).2.2.2)
  have x15 : x 1 5 = ((dg 7 (Dig1 s.e) 0 : ℕ) : ZMod p) := (hx 1 5 (by omega) (by omega) rfl).trans (congrArg _ ((congrArg (fun v => revSparse p 7 bytes v 0) (sparseBigSigma1_W H s.e)).trans (rev_dig 7 (by omega) H.h7 _ (fun i => by have := Dig1_le s.e i; omega) 0 (by omega))))
  have x16 : x 1 6 = ((lb en 0 : ℕ) : ZMod p) := (hx 1 6 (by omega) (by omega) rfl).trans ((congrArg (fun v => limb v 0) he).trans (limb_W H en 0))
  have x17 : x 1 7 = ((lb en 1 : ℕ) : ZMod p) := (hx 1 7 (by omega) (by omega) rfl).trans ((congrArg (fun v => limb v 1) he).trans (limb_W H en 1))
  have x18 : x 1 8 = ((lb en 2 : ℕ) : ZMod p) := (hx 1 8 (by omega) (by omega) rfl).trans ((congrArg (fun v => limb v 2) he).trans (limb_W H en 2))
  have x20 : x 2 0 = ((dg 7 (chd s) 0 : ℕ) : ZMod p) := (hx 2 0 (by omega) (by omega) rfl).trans (congrArg _ ((congrArg (fun v => revSparse p 7 bytes v 0) (emb_sparseCh H s)).trans (rev_dig 7 (by omega) H.h7 _ (fun i => chDig_lt _ _ _ i) 0 (by omega))))
  have x21 : x 2 1 = ((dg 7 (chd s) 1 : ℕ) : ZMod p) := (hx 2 1 (by omega) (by omega) rfl).trans (congrArg _ ((congrArg (fun v => revSparse p 7 bytes v 1) (emb_sparseCh H s)).trans (rev_dig 7 (by omega) H.h7 _ (fun i => chDig_lt _ _ _ i) 1 (by omega))))
  have x22 : x 2 2 = ((dg 7 (chd s) 2 : ℕ) : ZMod p) := (hx 2 2 (by omega) (by omega) rfl).trans (congrArg _ ((congrArg (fun v => revSparse p 7 bytes v 2) (emb_sparseCh H s)).trans (rev_dig 7 (by omega) H.h7 _ (fun i => chDig_lt _ _ _ i) 2 (by omega))))
  have x23 : x 2 3 = ((dg 7 (chd s) 3 : ℕ) : ZMod p) := (hx 2 3 (by omega) (by omega) rfl).trans (congrArg _ ((congrArg (fun v => revSparse p 7 bytes v 3) (emb_sparseCh H s)).trans (rev_dig 7 (by omega) H.h7 _ (fun i => chDig_lt _ _ _ i) 3 (by omega))))
  have x24 : x 2 4 = ((N / 2 ^ 32 : ℕ) : ZMod p) := (hx 2 4 (by omega) (by omega) rfl).trans (hcarry)
  have x25 : x 2 5 = ((byte (Sha256Spec.bigSigma1 s.e) 0 : ℕ) : ZMod p) := (hx 2 5 (by omega) (by omega) rfl).trans (congrArg _ (rev_bigSigma1 H s.e 0 (by omega)))
  have x26 : x 2 6 = ((byte (Sha256Spec.bigSigma1 s.e) 1 : ℕ) : ZMod p) := (hx 2 6 (by omega) (by omega) rfl).trans (congrArg _ (rev_bigSigma1 H s.e 1 (by omega)))
  have x27 : x 2 7 = ((byte (Sha256Spec.bigSigma1 s.e) 2 : ℕ) : ZMod p) := (hx 2 7 (by omega) (by omega) rfl).trans (congrArg _ (rev_bigSigma1 H s.e 2 (by omega)))
  have x28 : x 2 8 = ((byte (Sha256Spec.bigSigma1 s.e) 3 : ℕ) : ZMod p) := (hx 2 8 (by omega) (by omega) rfl).trans (congrArg _ (rev_bigSigma1 H s.e 3 (by omega)))
  have x30 : x 3 0 = ((spread 7 s.g : ℕ) : ZMod p) := (hx 3 0 (by omega) (by omega) rfl).trans (rfl)
  have x31 : x 3 1 = W p s.d := (hx 3 1 (by omega) (by omega) rfl).trans (rfl)
  have x32 : x 3 2 = W p s.h := (hx 3 2 (by omega) (by omega) rfl).trans (rfl)
  have x33 : x 3 3 = W p w := (hx 3 3 (by omega) (by omega) rfl).trans (rfl)
  have x34 : x 3 4 = W p en := (hx 3 4 (by omega) (by omega) rfl).trans (he)
  have x35 : x 3 5 = ((byte (Sha256Spec.ch s.e s.f s.g) 0 : ℕ) : ZMod p) := (hx 3 5 (by omega) (by omega) rfl).trans (congrArg _ (rev_ch H s 0 (by omega)))
  have x36 : x 3 6 = ((byte (Sha256Spec.ch s.e s.f s.g) 1 : ℕ) : ZMod p) := (hx 3 6 (by omega) (by omega) rfl).trans (congrArg _ (rev_ch H s 1 (by omega)))
  have x37 : x 3 7 = ((byte (Sha256Spec.ch s.e s.f s.g) 2 : ℕ) : ZMod p) := (hx 3 7 (by omega) (by omega) rfl).trans (congrArg _ (rev_ch H s 2 (by omega)))
  have x38 : x 3 8 = ((byte (Sha256Spec.ch s.e s.f s.g) 3 : ℕ) : ZMod p) := (hx 3 8 (by omega) (by omega) rfl).trans (congrArg _ (rev_ch H s 3 (by omega)))
  have x40 : x 4 0 = ((dg 4 (mjd s) 0 : ℕ) : ZMod p) := (hx 4 0 (by omega) (by omega) rfl).trans (congrArg _ ((congrArg (fun v => revSparse p 4 bytes v 0) (emb_sparseMaj H s)).trans (rev_dig 4 (by omega) H.h4 _ (fun i => majDig_lt _ _ _ i) 0 (by omega))))
  have x41 : x 4 1 = ((dg 4 (mjd s) 1 : ℕ) : ZMod p) := (hx 4 1 (by omega) (by omega) rfl).trans (congrArg _ ((congrArg (fun v => revSparse p 4 bytes v 1) (emb_sparseMaj H s)).trans (rev_dig 4 (by omega) H.h4 _ (fun i => majDig_lt _ _ _ i) 1 (by omega))))
  have x42 : x 4 2 = ((dg 4 (mjd s) 2 : ℕ) : ZMod p) := (hx 4 2 (by omega) (by omega) rfl).trans (congrArg _ ((congrArg (fun v => revSparse p 4 bytes v 2) (emb_sparseMaj H s)).trans (rev_dig 4 (by omega) H.h4 _ (fun i => majDig_lt _ _ _ i) 2 (by omega))))
  have x43 : x 4 3 = ((dg 4 (mjd s) 3 : ℕ) : ZMod p) := (hx 4 3 (by omega) (by omega) rfl).trans (congrArg _ ((congrArg (fun v => revSparse p 4 bytes v 3) (emb_sparseMaj H s)).trans (rev_dig 4 (by omega) H.h4 _ (fun i => majDig_lt _ _ _ i) 3 (by omega))))
  have x44 : x 4 4 = ((t1 s k w : ℕ) : ZMod p) := (hx 4 4 (by omega) (by omega) rfl).trans (tmp1_emb H s k w)
  have x45 : x 4 5 = ((byte (Sha256Spec.maj s.a s.b s.c) 0 : ℕ) : ZMod p) := (hx 4 5 (by omega) (by omega) rfl).trans (congrArg _ (rev_maj H s 0 (by omega)))
  have x46 : x 4 6 = ((byte (Sha256Spec.maj s.a s.b s.c) 1 : ℕ) : ZMod p) := (hx 4 6 (by omega) (by omega) rfl).trans (congrArg _ (rev_maj H s 1 (by omega)))
  have x47 : x 4 7 = ((byte (Sha256Spec.maj s.a s.b s.c) 2 : ℕ) : ZMod p) := (hx 4 7 (by omega) (by omega) rfl).trans (congrArg _ (rev_maj H s 2 (by omega)))
  have x48 : x 4 8 = ((byte (Sha256Spec.maj s.a s.b s.c) 3 : ℕ) : ZMod p) := (hx 4 8 (by omega) (by omega) rfl).trans (congrArg _ (rev_maj H s 3 (by omega)))
  have x50 : x 5 0 = ((spread 4 s.a : ℕ) : ZMod p) := (hx 5 0 (by omega) (by omega) rfl).trans (congrArg _ (sparseA_W H s.a))
  have x51 : x 5 1 = ((spread 4 s.b : ℕ) : ZMod p) := (hx 5 1 (by omega) (by omega) rfl).trans (rfl)
  have x52 : x 5 2 = W p an := (hx 5 2 (by omega) (by omega) rfl).trans (ha)
  have x53 : x 5 3 = ((M / 2 ^ 32 : ℕ) : ZMod p) := (hx 5 3 (by omega) (by omega) rfl).trans (hcarry')
  have x54 : x 5 4 = ((spread 4 s.c : ℕ) : ZMod p) := (hx 5 4 (by omega) (by omega) rfl).trans (rfl)
  have x55 : x 5 5 = ((byte (Sha256Spec.bigSigma0 s.a) 0 : ℕ) : ZMod p) := (hx 5 5 (by omega) (by omega) rfl).trans (congrArg _ (rev_bigSigma0 H s.a 0 (by omega)))
  have x56 : x 5 6 = ((byte (Sha256Spec.bigSigma0 s.a) 1 : ℕ) : ZMod p) := (hx 5 6 (by omega) (by omega) rfl).trans (congrArg _ (rev_bigSigma0 H s.a 1 (by omega)))
  have x57 : x 5 7 = ((byte (Sha256Spec.bigSigma0 s.a) 2 : ℕ) : ZMod p) := (hx 5 7 (by omega) (by omega) rfl).trans (congrArg _ (rev_bigSigma0 H s.a 2 (by omega)))
  have x58 : x 5 8 = ((byte (Sha256Spec.bigSigma0 s.a) 3 : ℕ) : ZMod p) := (hx 5 8 (by omega) (by omega) rfl).trans (congrArg _ (rev_bigSigma0 H s.a 3 (by omega)))
  have x60 : x 6 0 = ((dg 4 (Dig0 s.a) 0 : ℕ) : ZMod p) := (hx 6 0 (by omega) (by omega) rfl).trans (congrArg _ ((congrArg (fun v => revSparse p 4 bytes v 0) (sparseBigSigma0_W H s.a)).trans (rev_dig 4 (by omega) H.h4 _ (fun i => by have := Dig0_le s.a i; omega) 0 (by omega))))
  have x61 : x 6 1 = ((dg 4 (Dig0 s.a) 1 : ℕ) : ZMod p) := (hx 6 1 (by omega) (by omega) rfl).trans (congrArg _ ((congrArg (fun v => revSparse p 4 bytes v 1) (sparseBigSigma0_W H s.a)).trans (rev_dig 4 (by omega) H.h4 _ (fun i => by have := Dig0_le s.a i; omega) 1 (by omega))))
  have x62 : x 6 2 = ((ck 4 0 2 s.a : ℕ) : ZMod p) := (hx 6 2 (by omega) (by omega) rfl).trans (congrArg _ (aChunk H.h2 4 s.a).1)
  have x63 : x 6 3 = ((ck 4 2 11 s.a : ℕ) : ZMod p) := (hx 6 3 (by omega) (by omega) rfl).trans (congrArg _ (aChunk H.h2 4 s.a).2.1)
  have x64 : x 6 4 = ((ck 4 13 9 s.a : ℕ) : ZMod p) := (hx 6 4 (by omega) (by omega) rfl).trans (congrArg _ (aChunk H.h2 4 s.a).2.2.1)
  have x65 : x 6 5 = ((ck 4 22 10 s.a : ℕ) : ZMod p) := (hx 6 5 (by omega) (by omega) rfl).trans (congrArg _ (aChunk H.h2 4 s.a).2.2.2)
  have x66 : x 6 6 = ((dg 4 (Dig0 s.a) 2 : ℕ) : ZMod p) := (hx 6 6 (by omega) (by omega) rfl).trans (congrArg _ ((congrArg (fun v => revSparse p 4 bytes v 2) (sparseBigSigma0_W H s.a)).trans (rev_dig 4 (by omega) H.h4 _ (fun i => by have := Dig0_le s.a i; omega) 2 (by omega))))
  have x67 : x 6 7 = ((dg 4 (Dig0 s.a) 3 : ℕ) : ZMod p) := (hx 6 7 (by omega) (by omega) rfl).trans (congrArg _ ((congrArg (fun v => revSparse p 4 bytes v 3) (sparseBigSigma0_W H s.a)).trans (rev_dig 4 (by omega) H.h4 _ (fun i => by have := Dig0_le s.a i; omega) 3 (by omega))))
  have x70 : x 7 0 = W p s.a := (hx 7 0 (by omega) (by omega) rfl).trans (rfl)
  have x72 : x 7 2 = ((ck 2 0 2 s.a : ℕ) : ZMod p) := (hx 7 2 (by omega) (by omega) rfl).trans (congrArg _ (aChunk H.h2 2 s.a).1)
  have x73 : x 7 3 = ((ck 2 2 11 s.a : ℕ) : ZMod p) := (hx 7 3 (by omega) (by omega) rfl).trans (congrArg _ (aChunk H.h2 2 s.a).2.1)
  have x74 : x 7 4 = ((ck 2 13 9 s.a : ℕ) : ZMod p) := (hx 7 4 (by omega) (by omega) rfl).trans (congrArg _ (aChunk H.h2 2 s.a).2.2.1)
  have x75 : x 7 5 = ((ck 2 22 10 s.a : ℕ) : ZMod p) := (hx 7 5 (by omega) (by omega) rfl).trans (congrArg _ (aChunk H.h2 2 s.a).2.2.2)
  have x76 : x 7 6 = ((lb an 0 : ℕ) : ZMod p) := (hx 7 6 (by omega) (by omega) rfl).trans ((congrArg (fun v => limb v 0) ha).trans (limb_W H an 0))
  have x77 : x 7 7 = ((lb an 1 : ℕ) : ZMod p) := (hx 7 7 (by omega) (by omega) rfl).trans ((congrArg (fun v => limb v 1) ha).trans (limb_W H an 1))
  have x78 : x 7 8 = ((lb an 2 : ℕ) : ZMod p) := (hx 7 8 (by omega) (by omega) rfl).trans ((congrArg (fun v => limb v 2) ha).trans (limb_W H an 2))
  unfold RoundBlock BigSigma1OK BigSigma0OK EOK AOK MajOK ChOK
  simp only [Int.reduceAdd, Int.reduceNeg, x00, x01, x02, x03, x04, x05, x06, x07, x08, x10, x11, x12, x13, x14, x15, x16, x17, x18, x20, x21, x22, x23, x24, x25, x26, x27, x28, x30, x31, x32, x33, x34, x35, x36, x37, x38, x40, x41, x42, x43, x44, x45, x46, x47, x48, x50, x51, x52, x53, x54, x55, x56, x57, x58, x60, x61, x62, x63, x64, x65, x66, x67, x70, x72, x73, x74, x75, x76, x77, x78]
  clear hx he ha hcarry hcarry'
  have c0 := congrArg (Nat.cast : ℕ → ZMod p) (bigSigma0_combine s.a)
  have c1 := congrArg (Nat.cast : ℕ → ZMod p) (bigSigma1_combine s.e)
  have c2 := congrArg (Nat.cast : ℕ → ZMod p) (chd_val s)
  have c3 := congrArg (Nat.cast : ℕ → ZMod p) (mjd_val s)
  rw [cast_dg] at c0 c1 c2 c3
  have h48 : 4 ^ 8 ≤ p := le_trans (by norm_num) H.h40
  have h78 : 7 ^ 8 ≤ p := le_trans (by norm_num) H.h40
  refine ⟨⟨?_, ?_, ?_, ck_col 6 5 256 s.e (by norm_num) (by omega), ck_sparse 7 0 6 (by omega) s.e, ck_col 6 5 512 s.e (by norm_num) (by omega),
    ck_sparse 7 6 5 (by omega) s.e, ck_col 25 7 128 s.e (by norm_num) (by omega), ck_sparse 7 11 14 (by omega) s.e, ck_sparse 7 25 7 (by omega) s.e,
    byte_rev7 _ _ (parity_Dig1 s.e) 0 (by omega), byte_rev7 _ _ (parity_Dig1 s.e) 1 (by omega), byte_rev7 _ _ (parity_Dig1 s.e) 2 (by omega),
    byte_rev7 _ _ (parity_Dig1 s.e) 3 (by omega)⟩,
    ⟨?_, ?_, small4 (ck_lt 0 2 s.a), ?_, ?_, ck_col 2 11 8 s.a (by norm_num) (by omega), ck_sparse 4 0 2 (by omega) s.a,
    ck_col 13 9 32 s.a (by norm_num) (by omega), ck_sparse 4 2 11 (by omega) s.a, ck_col 22 10 16 s.a (by norm_num) (by omega),
    ck_sparse 4 13 9 (by omega) s.a, ck_sparse 4 22 10 (by omega) s.a, byte_rev4 _ _ (Dig0_le s.a) (parity_Dig0 s.a) 0 (by omega),
    byte_rev4 _ _ (Dig0_le s.a) (parity_Dig0 s.a) 1 (by omega), byte_rev4 _ _ (Dig0_le s.a) (parity_Dig0 s.a) 2 (by omega),
    byte_rev4 _ _ (Dig0_le s.a) (parity_Dig0 s.a) 3 (by omega), col_mem (lb_lt _ _), col_mem (lb_lt _ _), col_mem (lb_lt _ _),
    col_mul (by have := lb_top an; omega), col_mem (by omega), col_mul (by omega)⟩,
    ⟨?_, ?_, small6 hNq⟩, ⟨?_, small7 hMq⟩,
    ⟨?_, byte_maj h48 _ _ (fun i => majDig_lt _ _ _ i) (fun i _ => majVal_bt _ _ _ i) 0 (by omega),
      byte_maj h48 _ _ (fun i => majDig_lt _ _ _ i) (fun i _ => majVal_bt _ _ _ i) 1 (by omega),
      byte_maj h48 _ _ (fun i => majDig_lt _ _ _ i) (fun i _ => majVal_bt _ _ _ i) 2 (by omega),
      byte_maj h48 _ _ (fun i => majDig_lt _ _ _ i) (fun i _ => majVal_bt _ _ _ i) 3 (by omega)⟩,
    ⟨?_, ?_, byte_ch h78 _ _ (fun i => chDig_lt _ _ _ i) (fun i hi => chVal_bt _ _ _ i hi) 0 (by omega),
      byte_ch h78 _ _ (fun i => chDig_lt _ _ _ i) (fun i hi => chVal_bt _ _ _ i hi) 1 (by omega),
      byte_ch h78 _ _ (fun i => chDig_lt _ _ _ i) (fun i hi => chVal_bt _ _ _ i hi) 2 (by omega),
      byte_ch h78 _ _ (fun i => chDig_lt _ _ _ i) (fun i hi => chVal_bt _ _ _ i hi) 3 (by omega),
      col_mem (lb_lt _ _), col_mem (lb_lt _ _), col_mem (lb_lt _ _), col_mem (by omega), col_mul (by omega)⟩⟩
  · rw [cast_ck 6 11 25 6 5 14 7 s.e rfl rfl rfl rfl]; ring
  · rw [cast_spread 7 6 11 25 6 5 14 7 s.e rfl rfl rfl rfl]; ring
  · unfold ck
    simp only [Nat.cast_add, Nat.cast_mul, Nat.cast_pow, Nat.cast_ofNat, Nat.cast_one] at c1 ⊢
    linear_combination -c1
  · rw [cast_ck 2 13 22 2 11 9 10 s.a rfl rfl rfl rfl]; ring
  · rw [cast_spread 4 2 13 22 2 11 9 10 s.a rfl rfl rfl rfl]; norm_num
  · unfold ck
    simp only [Nat.cast_add, Nat.cast_mul, Nat.cast_pow, Nat.cast_ofNat, Nat.cast_one] at c0 ⊢
    linear_combination -c0
  · rw [cast_lb an]; simp only [Nat.cast_zero]; ring
  · rw [cast_byte, cast_byte] at hts
    linear_combination hts
  · linear_combination hNs - hdiv
  · rw [cast_byte, cast_byte] at hMs
    linear_combination hMs - hdiv'
  · simp only [Nat.cast_add, Nat.cast_mul, Nat.cast_pow, Nat.cast_ofNat, Nat.cast_one] at c3 ⊢
    linear_combination c3
  · simp only [Nat.cast_add, Nat.cast_mul, Nat.cast_pow, Nat.cast_ofNat, Nat.cast_one] at c2 ⊢
    linear_combination c2
  · rw [cast_lb en]; simp only [Nat.cast_zero]; ring

/-! ## The output -/

theorem out_pair (a b : Word) :
    W p (a + b) + ((2 ^ 32 : ℕ) : ZMod p) * (((a.toNat + b.toNat - (a.toNat + b.toNat) % 2 ^ 32) / 2 ^ 32 : ℕ) : ZMod p) - (W p a + W p b) = 0 ∧
    ((((a.toNat + b.toNat - (a.toNat + b.toNat) % 2 ^ 32) / 2 ^ 32 : ℕ) : ZMod p)) *
      ((((a.toNat + b.toNat - (a.toNat + b.toNat) % 2 ^ 32) / 2 ^ 32 : ℕ) : ZMod p) - ((1 : ℕ) : ZMod p)) = 0 := by
  have h1 := a.isLt
  have h2 := b.isLt
  constructor
  · unfold W
    rw [BitVec.toNat_add, ← Nat.cast_mul, ← Nat.cast_add, ← Nat.cast_add, sub_eq_zero]
    congr 1
    omega
  · have : (a.toNat + b.toNat - (a.toNat + b.toNat) % 2 ^ 32) / 2 ^ 32 < 2 := by omega
    generalize (a.toNat + b.toNat - (a.toNat + b.toNat) % 2 ^ 32) / 2 ^ 32 = q at this
    interval_cases q <;> simp

theorem outBlock (H : Large p) (s u : Sha256Spec.State) {x : ℤ → ℤ → ZMod p}
    (hx : ∀ m j : ℕ, m < 8 → j < 8 → x (m : ℤ) (j : ℤ) = outCell (fun i => W p (s.get i)) (fun i => W p (u.get i)) m j) :
    OutBlock x := by
  have h0 : ∀ j : ℕ, j < 4 → x 0 (j : ℤ) = W p (s.get j) := fun j hj => (hx 0 j (by omega) (by omega)).trans (by simp [outCell, hj])
  have h0' : ∀ j : ℕ, j < 4 → x 0 ((j + 4 : ℕ) : ℤ) = W p (u.get j) := fun j hj => (hx 0 (j + 4) (by omega) (by omega)).trans (by simp [outCell])
  have h2 : ∀ j : ℕ, j < 4 → x 2 (j : ℤ) = W p (s.get (j + 4)) := fun j hj => (hx 2 j (by omega) (by omega)).trans (by simp [outCell, hj])
  have h2' : ∀ j : ℕ, j < 4 → x 2 ((j + 4 : ℕ) : ℤ) = W p (u.get (j + 4)) := fun j hj => (hx 2 (j + 4) (by omega) (by omega)).trans (by simp [outCell])
  have h1 : ∀ j : ℕ, j < 4 → x 1 (j : ℤ) = W p (s.get j + u.get j) := fun j hj => (hx 1 j (by omega) (by omega)).trans (by
    simp only [outCell, hj, if_true]; exact sum_W H _ _)
  have h3 : ∀ j : ℕ, j < 4 → x 3 (j : ℤ) = W p (s.get (j + 4) + u.get (j + 4)) := fun j hj => (hx 3 j (by omega) (by omega)).trans (by
    simp only [outCell, hj, if_true]; exact sum_W H _ _)
  have h1' : ∀ j : ℕ, j < 4 → x 1 ((j + 4 : ℕ) : ℤ) =
      ((((s.get j).toNat + (u.get j).toNat - ((s.get j).toNat + (u.get j).toNat) % 2 ^ 32) / 2 ^ 32 : ℕ) : ZMod p) := fun j hj =>
    (hx 1 (j + 4) (by omega) (by omega)).trans (by
      simp only [outCell, show ¬ (j + 4 < 4) by omega, if_false, Nat.add_sub_cancel, W_val H.h2, m32_eq H])
  have h3' : ∀ j : ℕ, j < 4 → x 3 ((j + 4 : ℕ) : ℤ) =
      ((((s.get (j + 4)).toNat + (u.get (j + 4)).toNat - ((s.get (j + 4)).toNat + (u.get (j + 4)).toNat) % 2 ^ 32) / 2 ^ 32 : ℕ) : ZMod p) := fun j hj =>
    (hx 3 (j + 4) (by omega) (by omega)).trans (by
      simp only [outCell, show ¬ (j + 4 < 4) by omega, if_false, W_val H.h2, m32_eq H])
  have hout : ∀ j : ℕ, j < 4 → (x 1 (j : ℤ) + ((2 ^ 32 : ℕ) : ZMod p) * x 1 ((j + 4 : ℕ) : ℤ) - (x 0 (j : ℤ) + x 0 ((j + 4 : ℕ) : ℤ)) = 0 ∧
      x 1 ((j + 4 : ℕ) : ℤ) * (x 1 ((j + 4 : ℕ) : ℤ) - ((1 : ℕ) : ZMod p)) = 0) := fun j hj => by
    rw [h0 j hj, h0' j hj, h1 j hj, h1' j hj]; exact out_pair _ _
  have hout' : ∀ j : ℕ, j < 4 → (x 3 (j : ℤ) + ((2 ^ 32 : ℕ) : ZMod p) * x 3 ((j + 4 : ℕ) : ℤ) - (x 2 (j : ℤ) + x 2 ((j + 4 : ℕ) : ℤ)) = 0 ∧
      x 3 ((j + 4 : ℕ) : ℤ) * (x 3 ((j + 4 : ℕ) : ℤ) - ((1 : ℕ) : ZMod p)) = 0) := fun j hj => by
    rw [h2 j hj, h2' j hj, h3 j hj, h3' j hj]; exact out_pair _ _
  refine ⟨?_, ?_, ?_⟩
  · unfold OutOK
    simp only [Int.reduceAdd]
    exact ⟨(hout 0 (by omega)).1, (hout 1 (by omega)).1, (hout 2 (by omega)).1, (hout 3 (by omega)).1,
      (hout 0 (by omega)).2, (hout 1 (by omega)).2, (hout 2 (by omega)).2, (hout 3 (by omega)).2⟩
  · unfold OutOK
    simp only [Int.reduceAdd]
    exact ⟨(hout' 0 (by omega)).1, (hout' 1 (by omega)).1, (hout' 2 (by omega)).1, (hout' 3 (by omega)).1,
      (hout' 0 (by omega)).2, (hout' 1 (by omega)).2, (hout' 2 (by omega)).2, (hout' 3 (by omega)).2⟩
  · intro i hi
    have l1 : ∀ j : ℕ, j < 3 → x (4 + (i : ℤ) + 0) (j : ℤ) = ((lb (u.get (2 * i)) j : ℕ) : ZMod p) := fun j hj => by
      have e := hx (4 + i) j (by omega) (by omega)
      rw [show ((4 + i : ℕ) : ℤ) = 4 + (i : ℤ) + 0 by push_cast; ring] at e
      rw [e, show 4 + i = i + 1 + 1 + 1 + 1 by omega]
      simp only [outCell, hj, if_true]
      rw [limb_W H, show i + 1 + 1 + 1 + 1 - 4 = i by omega]
    have l2 : ∀ j : ℕ, j < 3 → x (4 + (i : ℤ) + 0) ((j + 4 : ℕ) : ℤ) = ((lb (u.get (2 * i + 1)) j : ℕ) : ZMod p) := fun j hj => by
      have e := hx (4 + i) (j + 4) (by omega) (by omega)
      rw [show ((4 + i : ℕ) : ℤ) = 4 + (i : ℤ) + 0 by push_cast; ring] at e
      rw [e, show 4 + i = i + 1 + 1 + 1 + 1 by omega]
      simp only [outCell, show ¬ (j + 4 < 3) by omega, show ¬ (j + 4 = 3) by omega, show j + 4 < 7 by omega, if_true, if_false]
      rw [limb_W H, show i + 1 + 1 + 1 + 1 - 4 = i by omega, Nat.add_sub_cancel]
    have l3 : x (4 + (i : ℤ) + 0) 3 = W p (u.get (2 * i)) := by
      have e := hx (4 + i) 3 (by omega) (by omega)
      rw [show ((4 + i : ℕ) : ℤ) = 4 + (i : ℤ) + 0 by push_cast; ring] at e
      refine e.trans ?_
      rw [show 4 + i = i + 1 + 1 + 1 + 1 by omega]
      simp [outCell]
    have l4 : x (4 + (i : ℤ) + 0) 7 = W p (u.get (2 * i + 1)) := by
      have e := hx (4 + i) 7 (by omega) (by omega)
      rw [show ((4 + i : ℕ) : ℤ) = 4 + (i : ℤ) + 0 by push_cast; ring] at e
      refine e.trans ?_
      rw [show 4 + i = i + 1 + 1 + 1 + 1 by omega]
      simp [outCell]
    have a0 := l1 0 (by omega)
    have a1 := l1 1 (by omega)
    have a2 := l1 2 (by omega)
    have b0 := l2 0 (by omega)
    have b1 := l2 1 (by omega)
    have b2 := l2 2 (by omega)
    simp only [Nat.cast_zero, Nat.cast_one, Nat.cast_ofNat, Nat.reduceAdd] at a0 a1 a2 b0 b1 b2
    unfold LimbOK
    simp only [l3, l4, a0, a1, a2, b0, b1, b2]
    refine ⟨?_, ?_, col_mem (lb_lt _ _), col_mem (lb_lt _ _), col_mem (lb_lt _ _), col_mul (by have := lb_top (u.get (2 * i)); omega),
      col_mem (lb_lt _ _), col_mem (lb_lt _ _), col_mem (lb_lt _ _), col_mul (by have := lb_top (u.get (2 * i + 1)); omega)⟩
    · rw [cast_lb]; simp only [Nat.cast_zero]; ring
    · rw [cast_lb]; simp only [Nat.cast_zero]; ring

/-! ## The whole table -/

variable {c : Cols} {inp : In} {srow : ℤ} {t : Table (ZMod p)}

theorem fill_grid (g : ℕ → ℕ → ZMod p) :
    GridWrites c srow 9 762 g (positions.map fun q => (⟨.witness, c.w (q.2 : ℤ), srow + (q.1 : ℤ), g q.1 q.2⟩ : Write (ZMod p))) := by
  intro x hx
  obtain ⟨q, hq, rfl⟩ := List.mem_map.mp hx
  have h := (List.mem_filter.mp hq).1
  simp only [List.mem_flatMap, List.mem_range, List.mem_map] at h
  obtain ⟨r, hr, j, hj, rfl⟩ := h
  exact ⟨r, hr, j, hj, rfl⟩

theorem fill_frame (hc : c.OK 9) (g : ℕ → ℕ → ZMod p) : Frame c srow 762 t (fill c srow g t) := ((fill_grid g).own hc).frame t

theorem fill_read (hc : c.OK 9) (g : ℕ → ℕ → ZMod p) (r j : ℕ) (hr : r < 762) (hj : j < 9) (hw : written r j = true) :
    fill c srow g t .witness (c.w (j : ℤ)) (srow + (r : ℤ)) = g r j := by
  refine (fill_grid g).read hc t hj ?_
  refine List.mem_map.mpr ⟨(r, j), List.mem_filter.mpr ⟨?_, hw⟩, rfl⟩
  simp only [List.mem_flatMap, List.mem_range, List.mem_map]
  exact ⟨r, hr, j, hj, rfl⟩

section
variable (st w : ℕ → ZMod p) (s : Work p) (v : ℕ → ZMod p)

theorem read_sched (hc : c.OK 9) (n m j : ℕ) (hn : n < 48) (hm : m < 5) (hj : j < 9) (hw : written (2 + m) j = true) :
    cells (fill c srow (gridCell st w s v) t) c (srow + 2 + 5 * (n : ℤ)) (m : ℤ) (j : ℤ) = schedCell (w n) (w (n + 1)) (w (n + 9)) (w (n + 14)) m j := by
  have h := fill_read (srow := srow) (t := t) hc (gridCell st w s v) (2 + 5 * n + m) j (by omega) hj (by
    unfold written at hw ⊢
    simp only [show ¬ (2 + 5 * n + m < 2) by omega, show 2 + 5 * n + m < 242 by omega, show (2 + 5 * n + m - 2) % 5 = m by omega, if_true, if_false]
    simpa only [show ¬ (2 + m < 2) by omega, show 2 + m < 242 by omega, show (2 + m - 2) % 5 = m by omega, if_true, if_false] using hw)
  unfold cells
  rw [show srow + 2 + 5 * (n : ℤ) + (m : ℤ) = srow + ((2 + 5 * n + m : ℕ) : ℤ) by push_cast; ring, h]
  unfold gridCell
  simp only [show ¬ (2 + 5 * n + m < 2) by omega, show 2 + 5 * n + m < 242 by omega, show (2 + 5 * n + m - 2) % 5 = m by omega,
    show (2 + 5 * n + m - 2) / 5 = n by omega, if_true, if_false]

theorem read_round (hc : c.OK 9) (n m j : ℕ) (hn : n < 64) (hm : m < 8) (hj : j < 9) (hw : written (242 + m) j = true) :
    cells (fill c srow (gridCell st w s v) t) c (srow + 242 + 8 * (n : ℤ)) (m : ℤ) (j : ℤ) = roundCell (s.run v n) (kc p n) (v n) m j := by
  have h := fill_read (srow := srow) (t := t) hc (gridCell st w s v) (242 + 8 * n + m) j (by omega) hj (by
    unfold written at hw ⊢
    simp only [show ¬ (242 + 8 * n + m < 2) by omega, show ¬ (242 + 8 * n + m < 242) by omega, show 242 + 8 * n + m < 754 by omega,
      show (242 + 8 * n + m - 242) % 8 = m by omega, if_true, if_false]
    simpa only [show ¬ (242 + m < 2) by omega, show ¬ (242 + m < 242) by omega, show 242 + m < 754 by omega, show (242 + m - 242) % 8 = m by omega,
      if_true, if_false] using hw)
  unfold cells
  rw [show srow + 242 + 8 * (n : ℤ) + (m : ℤ) = srow + ((242 + 8 * n + m : ℕ) : ℤ) by push_cast; ring, h]
  unfold gridCell
  simp only [show ¬ (242 + 8 * n + m < 2) by omega, show ¬ (242 + 8 * n + m < 242) by omega, show 242 + 8 * n + m < 754 by omega,
    show (242 + 8 * n + m - 242) % 8 = m by omega, show (242 + 8 * n + m - 242) / 8 = n by omega, if_true, if_false]

theorem read_out (hc : c.OK 9) (m j : ℕ) (hm : m < 8) (hj : j < 8) :
    cells (fill c srow (gridCell st w s v) t) c (srow + 754) (m : ℤ) (j : ℤ) = outCell st (fun i => (s.run v 64).get i) m j := by
  have h := fill_read (srow := srow) (t := t) hc (gridCell st w s v) (754 + m) j (by omega) (by omega) (by
    unfold written
    simp only [show ¬ (754 + m < 2) by omega, show ¬ (754 + m < 242) by omega, show ¬ (754 + m < 754) by omega, hj, if_true, if_false, decide_true])
  unfold cells
  rw [show srow + 754 + (m : ℤ) = srow + ((754 + m : ℕ) : ℤ) by push_cast; ring, h]
  unfold gridCell
  simp only [show ¬ (754 + m < 2) by omega, show ¬ (754 + m < 242) by omega, show ¬ (754 + m < 754) by omega, show 754 + m - 754 = m by omega, if_false]

end

/-- The table with the schedule of `ws`, and rounds from `s'` with the words `v'`. -/
def forged (c : Cols) (srow : ℤ) (s s' : Sha256Spec.State) (ws v' : ℕ → Word) (t : Table (ZMod p)) : Table (ZMod p) :=
  fill c srow (gridCell (fun i => W p (s.get i)) (fun i => W p (Sha256Spec.schedule ws i)) (emb p s') fun i => W p (v' i)) t

/-- All such tables are accepted, whatever state the rounds start from and whatever words they use. -/
theorem forged_sat (H : Large p) (hc : c.OK 9) (s s' : Sha256Spec.State) (ws v' : ℕ → Word)
    (hk : ∀ n : ℕ, n < 64 → t .constant (c.k 0) (srow + 245 + 8 * (n : ℤ)) = kc p n)
    (hst : ∀ i < 8, (inp.state i).Outside srow 762 ∧ (inp.state i).value t = W p (s.get i))
    (hws : ∀ i < 16, (inp.words i).Outside srow 762 ∧ (inp.words i).value t = W p (ws i)) :
    Sat (forged c srow s s' ws v' t) (circuit p c inp srow) ∧ Frame c srow 762 t (forged c srow s s' ws v' t) ∧
      ∀ i < 8, (result c srow i).value (forged c srow s s' ws v' t) = W p (s.get i + (Sha256Spec.rounds v' s' 64).get i) := by
  have hf : Frame c srow 762 t (forged c srow s s' ws v' t) := fill_frame hc _
  have hrun : ∀ n ≤ 64, (emb p s').run (fun i => W p (v' i)) n = emb p (Sha256Spec.rounds v' s' n) := fun n hn => run_emb H s' v' n hn
  have rS : ∀ n m j : ℕ, n < 48 → m < 5 → j < 9 → written (2 + m) j = true →
      cells (forged c srow s s' ws v' t) c (srow + 2 + 5 * (n : ℤ)) (m : ℤ) (j : ℤ) =
        schedCell (W p (Sha256Spec.schedule ws n)) (W p (Sha256Spec.schedule ws (n + 1))) (W p (Sha256Spec.schedule ws (n + 9)))
          (W p (Sha256Spec.schedule ws (n + 14))) m j := fun n m j hn hm hj hw => read_sched _ _ _ _ hc n m j hn hm hj hw
  have rR : ∀ n m j : ℕ, n < 64 → m < 8 → j < 9 → written (242 + m) j = true →
      cells (forged c srow s s' ws v' t) c (srow + 242 + 8 * (n : ℤ)) (m : ℤ) (j : ℤ) =
        roundCell (emb p (Sha256Spec.rounds v' s' n)) (W p (Sha256Spec.k n)) (W p (v' n)) m j := fun n m j hn hm hj hw => by
    rw [← hrun n (by omega), ← kc_eq n hn]; exact read_round _ _ _ _ hc n m j hn hm hj hw
  have rO : ∀ m j : ℕ, m < 8 → j < 8 → cells (forged c srow s s' ws v' t) c (srow + 754) (m : ℤ) (j : ℤ) =
      outCell (fun i => W p (s.get i)) (fun i => W p ((Sha256Spec.rounds v' s' 64).get i)) m j := fun m j hm hj => by
    refine (read_out _ _ _ _ hc m j hm hj).trans ?_
    rw [hrun 64 le_rfl]
    simp only [emb_get]
  have hwv : ∀ i < 16, (inp.words i).value (forged c srow s s' ws v' t) = W p (Sha256Spec.schedule ws i) := fun i hi => by
    rw [hf.outside (hws i hi).1, (hws i hi).2, Sha256Spec.schedule, if_pos hi]
  have hsv : ∀ i < 8, (inp.state i).value (forged c srow s s' ws v' t) = W p (s.get i) := fun i hi => by
    rw [hf.outside (hst i hi).1, (hst i hi).2]
  -- cells that take part in copies
  have S00 : ∀ n : ℕ, n < 48 → forged c srow s s' ws v' t .witness (c.w 0) (srow + 2 + 5 * (n : ℤ)) = W p (Sha256Spec.schedule ws (n + 1)) := fun n hn => by
    have := rS n 0 0 hn (by omega) (by omega) rfl
    simp only [cells, Nat.cast_zero, add_zero] at this; exact this
  have S10 : ∀ n : ℕ, n < 48 → forged c srow s s' ws v' t .witness (c.w 0) (srow + 2 + 5 * (n : ℤ) + 1) = W p (Sha256Spec.schedule ws (n + 9)) :=
    fun n hn => rS n 1 0 hn (by omega) (by omega) rfl
  have S11 : ∀ n : ℕ, n < 48 → forged c srow s s' ws v' t .witness (c.w 1) (srow + 2 + 5 * (n : ℤ) + 1) = W p (Sha256Spec.schedule ws n) :=
    fun n hn => rS n 1 1 hn (by omega) (by omega) rfl
  have S40 : ∀ n : ℕ, n < 48 → forged c srow s s' ws v' t .witness (c.w 0) (srow + 2 + 5 * (n : ℤ) + 4) = W p (Sha256Spec.schedule ws (n + 14)) :=
    fun n hn => rS n 4 0 hn (by omega) (by omega) rfl
  have hnew : ∀ n : ℕ, schedWord (W p (Sha256Spec.schedule ws (n + 1))) (W p (Sha256Spec.schedule ws (n + 14))) (W p (Sha256Spec.schedule ws (n + 9)))
      (W p (Sha256Spec.schedule ws n)) = W p (Sha256Spec.schedule ws (n + 16)) := fun n => by
    rw [schedWord_W H, Sha256Spec.schedule.eq_1 ws (n + 16), if_neg (by omega)]; rfl
  have S20 : ∀ n : ℕ, n < 48 → forged c srow s s' ws v' t .witness (c.w 0) (srow + 2 + 5 * (n : ℤ) + 2) = W p (Sha256Spec.schedule ws (n + 16)) :=
    fun n hn => (rS n 2 0 hn (by omega) (by omega) rfl).trans (hnew n)
  have S48 : ∀ n : ℕ, n < 48 → forged c srow s s' ws v' t .witness (c.w 8) (srow + 2 + 5 * (n : ℤ) + 4) = W p (Sha256Spec.schedule ws (n + 16)) :=
    fun n hn => (rS n 4 8 hn (by omega) (by omega) rfl).trans (hnew n)
  have R00 : ∀ n : ℕ, n < 64 → forged c srow s s' ws v' t .witness (c.w 0) (srow + 242 + 8 * (n : ℤ)) = W p (Sha256Spec.rounds v' s' n).e := fun n hn => by
    have := rR n 0 0 hn (by omega) (by omega) rfl
    simp only [cells, Nat.cast_zero, add_zero] at this; exact this
  have R34 : ∀ n : ℕ, n < 64 → forged c srow s s' ws v' t .witness (c.w 4) (srow + 242 + 8 * (n : ℤ) + 3) = W p (Sha256Spec.rounds v' s' (n + 1)).e :=
    fun n hn => (rR n 3 4 hn (by omega) (by omega) rfl).trans (eNew_emb H _ _ _)
  have R52 : ∀ n : ℕ, n < 64 → forged c srow s s' ws v' t .witness (c.w 2) (srow + 242 + 8 * (n : ℤ) + 5) = W p (Sha256Spec.rounds v' s' (n + 1)).a :=
    fun n hn => (rR n 5 2 hn (by omega) (by omega) rfl).trans (aNew_emb H _ _ _)
  have R70 : ∀ n : ℕ, n < 64 → forged c srow s s' ws v' t .witness (c.w 0) (srow + 242 + 8 * (n : ℤ) + 7) = W p (Sha256Spec.rounds v' s' n).a :=
    fun n hn => rR n 7 0 hn (by omega) (by omega) rfl
  have R50 : ∀ n : ℕ, n < 64 → forged c srow s s' ws v' t .witness (c.w 0) (srow + 242 + 8 * (n : ℤ) + 5) = ((spread 4 (Sha256Spec.rounds v' s' n).a : ℕ) : ZMod p) :=
    fun n hn => (rR n 5 0 hn (by omega) (by omega) rfl).trans (congrArg _ (sparseA_W H _))
  have R51 : ∀ n : ℕ, n < 64 → forged c srow s s' ws v' t .witness (c.w 1) (srow + 242 + 8 * (n : ℤ) + 5) = ((spread 4 (Sha256Spec.rounds v' s' n).b : ℕ) : ZMod p) :=
    fun n hn => rR n 5 1 hn (by omega) (by omega) rfl
  have R54 : ∀ n : ℕ, n < 64 → forged c srow s s' ws v' t .witness (c.w 4) (srow + 242 + 8 * (n : ℤ) + 5) = ((spread 4 (Sha256Spec.rounds v' s' n).c : ℕ) : ZMod p) :=
    fun n hn => rR n 5 4 hn (by omega) (by omega) rfl
  have R10 : ∀ n : ℕ, n < 64 → forged c srow s s' ws v' t .witness (c.w 0) (srow + 242 + 8 * (n : ℤ) + 1) = ((spread 7 (Sha256Spec.rounds v' s' n).e : ℕ) : ZMod p) :=
    fun n hn => (rR n 1 0 hn (by omega) (by omega) rfl).trans (congrArg _ (sparseE_W H _))
  have R11 : ∀ n : ℕ, n < 64 → forged c srow s s' ws v' t .witness (c.w 1) (srow + 242 + 8 * (n : ℤ) + 1) = ((spread 7 (Sha256Spec.rounds v' s' n).f : ℕ) : ZMod p) :=
    fun n hn => rR n 1 1 hn (by omega) (by omega) rfl
  have R30 : ∀ n : ℕ, n < 64 → forged c srow s s' ws v' t .witness (c.w 0) (srow + 242 + 8 * (n : ℤ) + 3) = ((spread 7 (Sha256Spec.rounds v' s' n).g : ℕ) : ZMod p) :=
    fun n hn => rR n 3 0 hn (by omega) (by omega) rfl
  have O0 : ∀ j : ℕ, j < 4 → forged c srow s s' ws v' t .witness (c.w (j : ℤ)) (srow + 754) = W p (s.get j) := fun j hj => by
    have := rO 0 j (by omega) (by omega)
    simp only [cells, Nat.cast_zero, add_zero, outCell, hj, if_true] at this; exact this
  have O2 : ∀ j : ℕ, j < 4 → forged c srow s s' ws v' t .witness (c.w (j : ℤ)) (srow + 754 + 2) = W p (s.get (j + 4)) := fun j hj => by
    have := rO 2 j (by omega) (by omega)
    simp only [cells, outCell, hj, if_true] at this; exact this
  have O0' : ∀ j : ℕ, j < 4 → forged c srow s s' ws v' t .witness (c.w ((j + 4 : ℕ) : ℤ)) (srow + 754) = W p ((Sha256Spec.rounds v' s' 64).get j) := fun j hj => by
    have := rO 0 (j + 4) (by omega) (by omega)
    simp only [cells, Nat.cast_zero, add_zero, outCell, show ¬ (j + 4 < 4) by omega, if_false, Nat.add_sub_cancel] at this; exact this
  have O2' : ∀ j : ℕ, j < 4 → forged c srow s s' ws v' t .witness (c.w ((j + 4 : ℕ) : ℤ)) (srow + 754 + 2) = W p ((Sha256Spec.rounds v' s' 64).get (j + 4)) :=
    fun j hj => by
      have := rO 2 (j + 4) (by omega) (by omega)
      simp only [cells, outCell, show ¬ (j + 4 < 4) by omega, if_false] at this; exact this
  have O3 : ∀ i : ℕ, i < 4 → forged c srow s s' ws v' t .witness (c.w 3) (srow + 754 + ((4 + i : ℕ) : ℤ)) = W p ((Sha256Spec.rounds v' s' 64).get (2 * i)) :=
    fun i hi => by
      refine (rO (4 + i) 3 (by omega) (by omega)).trans ?_
      rw [show 4 + i = i + 1 + 1 + 1 + 1 by omega]
      simp [outCell]
  have O7 : ∀ i : ℕ, i < 4 → forged c srow s s' ws v' t .witness (c.w 7) (srow + 754 + ((4 + i : ℕ) : ℤ)) = W p ((Sha256Spec.rounds v' s' 64).get (2 * i + 1)) :=
    fun i hi => by
      refine (rO (4 + i) 7 (by omega) (by omega)).trans ?_
      rw [show 4 + i = i + 1 + 1 + 1 + 1 by omega]
      simp [outCell]
  refine ⟨sat_iff.2 ⟨?_, ?_, ?_, ?_, ?_, ?_⟩, hf, ?_⟩
  · intro n hn
    exact schedBlock H _ _ _ _ fun m j hm hj hw => rS n m j hn hm hj hw
  · intro n hn
    refine ⟨(hf.const _ _).trans (hk n hn), ?_⟩
    rw [kc_eq n hn]
    exact roundBlock H _ _ _ fun m j hm hj hw => rR n m j hn hm hj hw
  · exact outBlock H s _ rO
  · refine sat_schedCopies.2 ⟨?_, ?_, ?_, ?_, ?_⟩
    · intro i hi; rw [S00 i (by omega), hwv _ (by omega)]
    · intro i hi; rw [S10 i (by omega), hwv _ (by omega)]
    · intro i hi; rw [S11 i (by omega), hwv _ (by omega)]
    · intro i hi; rw [S40 i (by omega), hwv _ (by omega)]
    · intro r hr
      refine ⟨fun h => ?_, fun h => ?_, fun h => ?_, fun h => ?_, ?_⟩
      · obtain ⟨q, rfl⟩ : ∃ q, r = q + 2 := ⟨r - 2, by omega⟩
        rw [S40 _ hr, show (((q + 2 : ℕ) : ℤ) - 2) = (q : ℤ) by push_cast; ring, S20 q (by omega)]
      · obtain ⟨q, rfl⟩ : ∃ q, r = q + 7 := ⟨r - 7, by omega⟩
        rw [S10 _ hr, show (((q + 7 : ℕ) : ℤ) - 7) = (q : ℤ) by push_cast; ring, S20 q (by omega)]
      · obtain ⟨q, rfl⟩ : ∃ q, r = q + 15 := ⟨r - 15, by omega⟩
        rw [S00 _ hr, show (((q + 15 : ℕ) : ℤ) - 15) = (q : ℤ) by push_cast; ring, S20 q (by omega)]
      · obtain ⟨q, rfl⟩ : ∃ q, r = q + 16 := ⟨r - 16, by omega⟩
        rw [S11 _ hr, show (((q + 16 : ℕ) : ℤ) - 16) = (q : ℤ) by push_cast; ring, S20 q (by omega)]
      · rw [S20 _ hr, S48 _ hr]
  · refine sat_roundCopies.2 fun r hr => ?_
    have e : ((r : ℤ) + 1) = ((r + 1 : ℕ) : ℤ) := by push_cast; rfl
    rw [e, R00 _ (by omega), R34 _ (by omega), R70 _ (by omega), R52 _ (by omega), R51 _ (by omega), R50 _ (by omega), R54 _ (by omega), R51 _ (by omega),
      R11 _ (by omega), R10 _ (by omega), R30 _ (by omega), R11 _ (by omega)]
    exact ⟨rfl, rfl, rfl, rfl, rfl, rfl⟩
  · refine sat_outCopies.2 ⟨⟨?_, ?_, ?_, ?_, ?_, ?_⟩, ?_, ⟨?_, ?_, ?_, ?_, ?_, ?_, ?_, ?_⟩⟩
    · rw [show srow + 754 - 1 = srow + 242 + 8 * ((63 : ℕ) : ℤ) + 7 by push_cast; ring, R70 63 (by omega)]; exact (O0' 1 (by omega)).symm
    · rw [show srow + 754 - 9 = srow + 242 + 8 * ((62 : ℕ) : ℤ) + 7 by push_cast; ring, R70 62 (by omega)]; exact (O0' 2 (by omega)).symm
    · rw [show srow + 754 - 17 = srow + 242 + 8 * ((61 : ℕ) : ℤ) + 7 by push_cast; ring, R70 61 (by omega)]; exact (O0' 3 (by omega)).symm
    · rw [show srow + 754 - 8 = srow + 242 + 8 * ((63 : ℕ) : ℤ) by push_cast; ring, R00 63 (by omega)]; exact (O2' 1 (by omega)).symm
    · rw [show srow + 754 - 16 = srow + 242 + 8 * ((62 : ℕ) : ℤ) by push_cast; ring, R00 62 (by omega)]; exact (O2' 2 (by omega)).symm
    · rw [show srow + 754 - 24 = srow + 242 + 8 * ((61 : ℕ) : ℤ) by push_cast; ring, R00 61 (by omega)]; exact (O2' 3 (by omega)).symm
    · intro i hi
      rw [O0 i hi, O2 i hi, hsv i (by omega), hsv (i + 4) (by omega)]
      exact ⟨rfl, rfl⟩
    · exact (O0' 0 (by omega)).trans (O3 0 (by omega)).symm
    · exact (O0' 1 (by omega)).trans (O7 0 (by omega)).symm
    · exact (O0' 2 (by omega)).trans (O3 1 (by omega)).symm
    · exact (O0' 3 (by omega)).trans (O7 1 (by omega)).symm
    · exact (O2' 0 (by omega)).trans (O3 2 (by omega)).symm
    · exact (O2' 1 (by omega)).trans (O7 2 (by omega)).symm
    · exact (O2' 2 (by omega)).trans (O3 3 (by omega)).symm
    · exact (O2' 3 (by omega)).trans (O7 3 (by omega)).symm
  · intro i hi
    unfold result
    by_cases h : i < 4
    · rw [if_pos h, Cols.value_wa, show srow + 762 - 7 = srow + 754 + ((1 : ℕ) : ℤ) by push_cast; ring]
      refine (rO 1 i (by omega) (by omega)).trans ?_
      simp only [outCell, h, if_true]
      exact sum_W H _ _
    · obtain ⟨q, rfl⟩ : ∃ q, i = q + 4 := ⟨i - 4, by omega⟩
      rw [if_neg h, Cols.value_wa, show srow + 762 - 5 = srow + 754 + ((3 : ℕ) : ℤ) by push_cast; ring,
        show (((q + 4 : ℕ) : ℤ) - 4) = (q : ℤ) by push_cast; ring]
      refine (rO 3 q (by omega) (by omega)).trans ?_
      simp only [outCell, show q < 4 by omega, if_true]
      exact sum_W H _ _

/-! ## Constants -/

theorem writeConsts_read {F : Type*} [Field F] (ops : List (Op F)) (t : Table F) (col : ℕ) (row : ℤ) (v : F)
    (hv : ∀ v', Op.constant col row v' ∈ ops → v' = v) (h : t .constant col row = v ∨ Op.constant col row v ∈ ops) :
    writeConsts ops t .constant col row = v := by
  induction ops generalizing t with
  | nil => simpa using h
  | cons o l ih =>
    have ih' := fun t' => ih t' fun v' hv' => hv v' (List.mem_cons_of_mem _ hv')
    cases o with
    | constant col' row' v' =>
      rw [writeConsts_constant]
      apply ih'
      by_cases he : col = col' ∧ row = row'
      · obtain ⟨rfl, rfl⟩ := he
        rw [hv v' (List.mem_cons_self ..)]
        left; simp [Table.set]
      · rcases h with h | h
        · left
          rw [Table.set_ne]
          · exact h
          · rintro ⟨-, h1, h2⟩; exact he ⟨h1, h2⟩
        · rcases List.mem_cons.1 h with h | h
          · exact absurd ⟨(Op.constant.inj h).1, (Op.constant.inj h).2.1⟩ he
          · exact Or.inr h
    | gate cs rows =>
      rw [writeConsts_gate]; apply ih'
      rcases h with h | h
      · exact Or.inl h
      · rcases List.mem_cons.1 h with h | h
        · exact absurd h (by simp)
        · exact Or.inr h
    | copy a b =>
      rw [writeConsts_copy]; apply ih'
      rcases h with h | h
      · exact Or.inl h
      · rcases List.mem_cons.1 h with h | h
        · exact absurd h (by simp)
        · exact Or.inr h
    | lookup tbl i rows =>
      rw [writeConsts_lookup]; apply ih'
      rcases h with h | h
      · exact Or.inl h
      · rcases List.mem_cons.1 h with h | h
        · exact absurd h (by simp)
        · exact Or.inr h

/-- The constants of the circuit. -/
theorem mem_circuit_const (row : ℤ) (v : ZMod p) : Op.constant (c.k 0) row v ∈ circuit p c inp srow ↔
    ∃ i : ℕ, i < 64 ∧ row = srow + 242 + 3 + 8 * (i : ℤ) ∧ v = kc p i := by
  unfold circuit
  constructor
  · intro h
    simp only [List.mem_append] at h
    rcases h with ((((h | h) | h) | h) | h) | h
    · simp [schedOps, sigma0Lookups, sigma1Check, sigma1Lookups] at h
    · unfold roundOps at h
      simp only [List.mem_append] at h
      rcases h with (((((((h | h) | h) | h) | h) | h) | h) | h) | h
      · obtain ⟨i, hi, he⟩ := List.mem_map.1 h
        have := Op.constant.inj he
        exact ⟨i, List.mem_range.1 hi, this.2.1.symm, this.2.2.symm⟩
      all_goals simp [bigSigma1Lookups, bigSigma0Lookups, majLookups, chLookups] at h
    · simp [outOps, limbLookups] at h
    · simp only [schedCopies, List.mem_append, List.mem_map, List.mem_flatMap] at h
      rcases h with (((⟨i, -, h⟩ | ⟨i, -, h⟩) | ⟨i, -, h⟩) | ⟨i, -, h⟩) | ⟨i, -, h⟩
      · simp at h
      · simp at h
      · simp at h
      · simp at h
      · rcases h with (((h | h) | h) | h) | h
        · split at h <;> simp at h
        · split at h <;> simp at h
        · split at h <;> simp at h
        · split at h <;> simp at h
        · simp at h
    · simp [roundCopies] at h
    · simp [outCopies] at h
  · rintro ⟨i, hi, rfl, rfl⟩
    simp only [List.mem_append]
    refine Or.inl (Or.inl (Or.inl (Or.inl (Or.inr ?_))))
    unfold roundOps
    simp only [List.mem_append]
    exact Or.inl (Or.inl (Or.inl (Or.inl (Or.inl (Or.inl (Or.inl (Or.inl (List.mem_map.2 ⟨i, List.mem_range.2 hi, rfl⟩))))))))

theorem circuit_consts (n : ℕ) (hn : n < 64) :
    writeConsts (circuit p c inp srow) t .constant (c.k 0) (srow + 245 + 8 * (n : ℤ)) = kc p n := by
  refine writeConsts_read _ _ _ _ _ (fun v' hv' => ?_) (Or.inr ((mem_circuit_const _ _).2 ⟨n, hn, by ring, rfl⟩))
  obtain ⟨i, hi, h1, h2⟩ := (mem_circuit_const _ _).1 hv'
  rw [h2, show i = n by omega]

theorem fill_congr {g g' : ℕ → ℕ → ZMod p} (h : ∀ r j, r < 762 → j < 9 → written r j = true → g r j = g' r j) :
    fill c srow g t = fill c srow g' t := by
  unfold fill
  refine congrArg (fun l => writeAll l t) (List.map_congr_left fun q hq => ?_)
  have hw := (List.mem_filter.mp hq).2
  have hq2 := (List.mem_filter.mp hq).1
  simp only [List.mem_flatMap, List.mem_range, List.mem_map] at hq2
  obtain ⟨r, hr, j, hj, rfl⟩ := hq2
  rw [h r j hr hj hw]

theorem addState_get (s u : Sha256Spec.State) (i : ℕ) : (Sha256Spec.addState s u).get i = s.get i + u.get i := by
  rcases i with _ | _ | _ | _ | _ | _ | _ | i <;> rfl

theorem writeConsts_other {F : Type*} [Field F] (ops : List (Op F)) (t : Table F) (ty : ColType) (col : ℕ) (row : ℤ) (h : ty ≠ .constant) :
    writeConsts ops t ty col row = t ty col row := by
  induction ops generalizing t with
  | nil => rfl
  | cons o l ih =>
    cases o with
    | constant col' row' v' => rw [writeConsts_constant, ih, Table.set_ne]; rintro ⟨h1, -⟩; exact h h1
    | gate cs rows => rw [writeConsts_gate, ih]
    | copy a b => rw [writeConsts_copy, ih]
    | lookup tbl i rows => rw [writeConsts_lookup, ih]

theorem value_writeConsts {F : Type*} [Field F] (ops : List (Op F)) (t : Table F) (v : Var) (h : v.type ≠ .constant) :
    v.value (writeConsts ops t) = v.value t := writeConsts_other ops t _ _ _ h

/-! ## Claims -/

/-- `generate_assignments` fills the grid of the standard. -/
theorem assign_eq (H : Large p) (s : Sha256Spec.State) (ws : ℕ → Word) {t₁ : Table (ZMod p)}
    (hst : ∀ i < 8, (inp.state i).Outside srow 762 ∧ (inp.state i).value t₁ = W p (s.get i))
    (hws : ∀ i < 16, (inp.words i).Outside srow 762 ∧ (inp.words i).value t₁ = W p (ws i)) :
    assign c inp srow t₁ = forged c srow s s ws (Sha256Spec.schedule ws) t₁ := by
  have hsc : ∀ n, sched (fun i => (inp.words i).value t₁) n = W p (Sha256Spec.schedule ws n) := fun n => by
    rw [← sched_W H]
    induction n using Nat.strong_induction_on with
    | _ n ih =>
      rw [sched, sched.eq_1 (fun i => W p (ws i))]
      by_cases h : n < 16
      · rw [if_pos h, if_pos h]; exact (hws n h).2
      · rw [if_neg h, if_neg h, ih (n - 15) (by omega), ih (n - 2) (by omega), ih (n - 7) (by omega), ih (n - 16) (by omega)]
  have hin : Work.init (fun i => (inp.state i).value t₁) = emb p s := by
    rw [← init_emb H]
    unfold Work.init
    simp only []
    rw [(hst 0 (by omega)).2, (hst 1 (by omega)).2, (hst 2 (by omega)).2, (hst 3 (by omega)).2, (hst 4 (by omega)).2, (hst 5 (by omega)).2,
      (hst 6 (by omega)).2, (hst 7 (by omega)).2]
  have hout : ∀ j, j < 8 → (inp.state j).value t₁ = W p (s.get j) := fun j hj => (hst j hj).2
  unfold assign forged
  simp only [hin, funext hsc]
  refine fill_congr fun r j hr hj hw => ?_
  unfold gridCell
  by_cases h1 : r < 2
  · have hj8 : j < 8 := by simpa [written, h1] using hw
    simp only [h1, if_true]
    rcases r with _ | _ | r
    · exact hout j hj8
    · simp only [inCell, hout j hj8]
    · omega
  · by_cases h2 : r < 242
    · simp only [h1, h2, if_true, if_false]
    · by_cases h3 : r < 754
      · simp only [h1, h2, h3, if_true, if_false]
      · simp only [h1, h2, h3, if_false]
        have hj8 : j < 8 := by simpa [written, h1, h2, h3] using hw
        obtain ⟨m, rfl⟩ : ∃ m, r = 754 + m := ⟨r - 754, by omega⟩
        rw [show 754 + m - 754 = m by omega]
        rcases m with _ | _ | _ | _ | m
        · unfold outCell; simp only
          by_cases hj4 : j < 4
          · simp only [hj4, if_true, hout j hj8]
          · simp only [hj4, if_false]
        · unfold outCell; simp only
          by_cases hj4 : j < 4
          · simp only [hj4, if_true, hout j hj8]
          · simp only [hj4, if_false, hout (j - 4) (by omega)]
        · unfold outCell; simp only
          by_cases hj4 : j < 4
          · simp only [hj4, if_true, hout (j + 4) (by omega)]
          · simp only [hj4, if_false]
        · unfold outCell; simp only
          by_cases hj4 : j < 4
          · simp only [hj4, if_true, hout (j + 4) (by omega)]
          · simp only [hj4, if_false, hout j hj8]
        · rfl

/-- **C81.** The table filled by `generate_assignments` is accepted and its result is the compression function of the standard.
`t₁` is the table after the constants of the circuit have been written. -/
theorem sha256_complete (hp : 7 ^ 32 ≤ p) (hc : c.OK 9) (s : Sha256Spec.State) (ws : ℕ → Word) (t₀ : Table (ZMod p))
    (hst : ∀ i < 8, (inp.state i).Outside srow 762 ∧ (inp.state i).value (writeConsts (circuit p c inp srow) t₀) = W p (s.get i))
    (hws : ∀ i < 16, (inp.words i).Outside srow 762 ∧ (inp.words i).value (writeConsts (circuit p c inp srow) t₀) = W p (ws i)) :
    let t₁ := writeConsts (circuit p c inp srow) t₀
    Sat (assign c inp srow t₁) (circuit p c inp srow) ∧ Frame c srow 762 t₁ (assign c inp srow t₁) ∧
      ∀ i < 8, (result c srow i).value (assign c inp srow t₁) = W p ((Sha256Spec.compress s ws).get i) := by
  intro t₁
  have H := large hp
  have hk : ∀ n : ℕ, n < 64 → t₁ .constant (c.k 0) (srow + 245 + 8 * (n : ℤ)) = kc p n := fun n hn => circuit_consts n hn
  change ∀ i < 8, (inp.state i).Outside srow 762 ∧ (inp.state i).value t₁ = W p (s.get i) at hst
  change ∀ i < 16, (inp.words i).Outside srow 762 ∧ (inp.words i).value t₁ = W p (ws i) at hws
  clear_value t₁
  have heq := assign_eq (c := c) H s ws hst hws
  have := forged_sat (t := t₁) (inp := inp) H hc s s ws (Sha256Spec.schedule ws) hk hst hws
  rw [heq]
  exact ⟨this.1, this.2.1, fun i hi => (this.2.2 i hi).trans (by rw [Sha256Spec.compress, addState_get])⟩

/-- The state before a round. -/
def unround (u : Sha256Spec.State) (k w : Word) : Sha256Spec.State :=
  let t1 := u.a - (Sha256Spec.bigSigma0 u.b + Sha256Spec.maj u.b u.c u.d)
  ⟨u.b, u.c, u.d, u.e - t1, u.f, u.g, u.h, t1 - w - k - Sha256Spec.ch u.f u.g u.h - Sha256Spec.bigSigma1 u.f⟩

theorem round_unround (u : Sha256Spec.State) (k w : Word) : Sha256Spec.round (unround u k w) k w = u := by
  have h : ∀ x y z v : Word, x - y - z - v + v + z + y = x := fun x y z v => by
    rw [BitVec.sub_add_cancel, BitVec.sub_add_cancel, BitVec.sub_add_cancel]
  have h1 : ∀ t w k c b : Word, t - w - k - c - b + b + c + k + w = t := fun t w k c b => by
    rw [BitVec.sub_add_cancel, BitVec.sub_add_cancel, BitVec.sub_add_cancel, BitVec.sub_add_cancel]
  unfold Sha256Spec.round unround
  simp only [h1, BitVec.sub_add_cancel]

/-- Every state is reached by the rounds. -/
theorem rounds_surj (v : ℕ → Word) (u : Sha256Spec.State) (n : ℕ) : ∃ s, Sha256Spec.rounds v s n = u := by
  induction n generalizing u with
  | zero => exact ⟨u, rfl⟩
  | succ n ih =>
    obtain ⟨s, hs⟩ := ih (unround u (Sha256Spec.k n) (v n))
    exact ⟨s, by rw [Sha256Spec.rounds, hs, round_unround]⟩

/-- **C81, the circuit does not compute SHA-256.** The rounds are not tied to the input state or to the message: for every state, every block
and *every* output there is a table with that input, accepted by the circuit, whose result is that output. It differs from the table before only
inside the component. -/
theorem sha256_any_output (hp : 7 ^ 32 ≤ p) (hc : c.OK 9) (s : Sha256Spec.State) (ws : ℕ → Word) (out : Sha256Spec.State) (t₀ : Table (ZMod p))
    (hst : ∀ i < 8, (inp.state i).Outside srow 762 ∧ (inp.state i).value (writeConsts (circuit p c inp srow) t₀) = W p (s.get i))
    (hws : ∀ i < 16, (inp.words i).Outside srow 762 ∧ (inp.words i).value (writeConsts (circuit p c inp srow) t₀) = W p (ws i)) :
    ∃ t', Sat t' (circuit p c inp srow) ∧ Frame c srow 762 (writeConsts (circuit p c inp srow) t₀) t' ∧
      (∀ i < 8, (inp.state i).value t' = W p (s.get i)) ∧ (∀ i < 16, (inp.words i).value t' = W p (ws i)) ∧
      ∀ i < 8, (result c srow i).value t' = W p (out.get i) := by
  have H := large hp
  obtain ⟨s', hs'⟩ := rounds_surj (Sha256Spec.schedule ws)
    ⟨out.a - s.a, out.b - s.b, out.c - s.c, out.d - s.d, out.e - s.e, out.f - s.f, out.g - s.g, out.h - s.h⟩ 64
  have h := forged_sat (t := writeConsts (circuit p c inp srow) t₀) (inp := inp) H hc s s' ws (Sha256Spec.schedule ws)
    (fun n hn => circuit_consts n hn) hst hws
  refine ⟨_, h.1, h.2.1, fun i hi => ?_, fun i hi => ?_, fun i hi => ?_⟩
  · rw [h.2.1.outside (hst i hi).1, (hst i hi).2]
  · rw [h.2.1.outside (hws i hi).1, (hws i hi).2]
  · rw [h.2.2 i hi, hs']
    congr 1
    interval_cases i <;> (simp only [Sha256Spec.State.get]; rw [BitVec.add_comm, BitVec.sub_add_cancel])

end

/-! ## A case -/

/-- Nine columns; the state and the block come from the public input. -/
def exCols : Cols := ⟨List.range 9, [0], [0]⟩
@[inherit_doc exCols] def exIn : In := ⟨fun i => ⟨0, i, false, .publicInput⟩, fun i => ⟨1, i, false, .publicInput⟩⟩

/-- The initial hash value and the padded message `abc` (0x61626380 0 … 0 24). -/
def exBlock (i : ℕ) : Word := if i = 0 then 0x61626380 else if i = 15 then 24 else 0
@[inherit_doc exBlock] def exTable : Table (ZMod pallasP) := fun ty col row =>
  if ty = .publicInput then (if col = 0 then W pallasP (Sha256Spec.iv.get row.toNat) else W pallasP (exBlock row.toNat)) else 0

theorem exCols_ok : exCols.OK 9 := ⟨List.nodup_range, rfl⟩

theorem exState (i : ℕ) : (exIn.state i).Outside 0 762 ∧ (exIn.state i).value (writeConsts (circuit pallasP exCols exIn 0) exTable) = W pallasP (Sha256Spec.iv.get i) :=
  ⟨fun h => by simp [exIn] at h, by
    rw [value_writeConsts _ _ _ (by simp [exIn])]; simp [exTable, exIn, Var.value]⟩

theorem exWords (i : ℕ) : (exIn.words i).Outside 0 762 ∧ (exIn.words i).value (writeConsts (circuit pallasP exCols exIn 0) exTable) = W pallasP (exBlock i) :=
  ⟨fun h => by simp [exIn] at h, by
    rw [value_writeConsts _ _ _ (by simp [exIn])]; simp [exTable, exIn, Var.value]⟩

theorem pallas_large : 7 ^ 32 ≤ pallasP := by norm_num [pallasP]

/-- The digest of `abc` is accepted … -/
example : Sat (assign exCols exIn 0 (writeConsts (circuit pallasP exCols exIn 0) exTable)) (circuit pallasP exCols exIn 0) :=
  (sha256_complete pallas_large exCols_ok Sha256Spec.iv exBlock exTable (fun i _ => exState i) fun i _ => exWords i).1

/-- … and so is a digest of eight zero words for the same message. -/
example : ∃ t', Sat t' (circuit pallasP exCols exIn 0) ∧ (∀ i < 16, (exIn.words i).value t' = W pallasP (exBlock i)) ∧
    ∀ i < 8, (result exCols 0 i).value t' = 0 := by
  obtain ⟨t', h1, -, -, h2, h3⟩ := sha256_any_output pallas_large exCols_ok Sha256Spec.iv exBlock ⟨0, 0, 0, 0, 0, 0, 0, 0⟩ exTable
    (fun i _ => exState i) fun i _ => exWords i
  refine ⟨t', h1, h2, fun i hi => (h3 i hi).trans ?_⟩
  have : (Sha256Spec.State.mk 0 0 0 0 0 0 0 0).get i = 0 := by rcases i with _ | _ | _ | _ | _ | _ | _ | i <;> rfl
  rw [this]; simp [W]

end Sha256
end Verif
