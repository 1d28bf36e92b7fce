import Verif.Props.Sha512Forge

/-!
# `sha512_process`: the honest table
-/

set_option linter.unusedSimpArgs false
set_option linter.unusedSectionVars false

namespace Verif
namespace Sha512

open Digits
open Sha512Spec (Word)
open Sha256 (split bits revSparse revBin parity majVal chVal small4 small6 small7 small8)

section
variable {p : ℕ} [Fact p.Prime]

theorem small2 {n : ℕ} (hn : n < 2) : ((n : ZMod p) - ((1 : ℕ) : ZMod p)) * (n : ZMod p) = 0 := by interval_cases n <;> simp

theorem two64_ne (H : Large p) : (2 : ZMod p) ^ 64 ≠ 0 := by
  intro h
  have h1 : ((2 ^ 64 : ℕ) : ZMod p) = 0 := by rw [Nat.cast_pow, Nat.cast_ofNat]; exact h
  rw [ZMod.natCast_eq_zero_iff] at h1
  have := Nat.le_of_dvd (by norm_num) h1
  have := H.h72
  omega

theorem carry_eq (H : Large p) {N : ℕ} (hN : N < p) :
    ((N : ZMod p) - ((((N : ZMod p).val % m64 p : ℕ)) : ZMod p)) * ((2 : ZMod p) ^ 64)⁻¹ = ((N / 2 ^ 64 : ℕ) : ZMod p) := by
  rw [ZMod.val_natCast_of_lt hN, m64_eq H, mul_inv_eq_iff_eq_mul₀ (two64_ne H)]
  have h := Nat.mod_add_div N (2 ^ 64)
  generalize N / 2 ^ 64 = q at h ⊢
  generalize N % 2 ^ 64 = r at h ⊢
  rw [← h, Nat.cast_add, Nat.cast_mul, Nat.cast_pow, Nat.cast_ofNat]
  ring

theorem cast_s0 (x : Word) : W p x = (pc 2 0 1 (bt x) : ZMod p) + (pc 2 1 6 (bt x) : ZMod p) * ((2 ^ 1 : ℕ) : ZMod p) + (pc 2 7 1 (bt x) : ZMod p) * ((2 ^ 7 : ℕ) : ZMod p) + (pc 2 8 14 (bt x) : ZMod p) * ((2 ^ 8 : ℕ) : ZMod p) + (pc 2 22 14 (bt x) : ZMod p) * ((2 ^ 22 : ℕ) : ZMod p) + (pc 2 36 14 (bt x) : ZMod p) * ((2 ^ 36 : ℕ) : ZMod p) + (pc 2 50 14 (bt x) : ZMod p) * ((2 ^ 50 : ℕ) : ZMod p) := by
  unfold W; rw [toNat_eq_val, ← pc_zero, (s0Pieces 2 (bt x)).1]; simp only [Nat.cast_add, Nat.cast_mul, mul_comm]

theorem cast_s0_val (b : ℕ) (d : ℕ → ℕ) : ((val b 64 d : ℕ) : ZMod p) = (pc b 0 1 (d) : ZMod p) + (pc b 1 6 (d) : ZMod p) * ((b ^ 1 : ℕ) : ZMod p) + (pc b 7 1 (d) : ZMod p) * ((b ^ 7 : ℕ) : ZMod p) + (pc b 8 14 (d) : ZMod p) * ((b ^ 8 : ℕ) : ZMod p) + (pc b 22 14 (d) : ZMod p) * ((b ^ 22 : ℕ) : ZMod p) + (pc b 36 14 (d) : ZMod p) * ((b ^ 36 : ℕ) : ZMod p) + (pc b 50 14 (d) : ZMod p) * ((b ^ 50 : ℕ) : ZMod p) := by
  rw [← pc_zero, (s0Pieces b (d)).1]; simp only [Nat.cast_add, Nat.cast_mul, mul_comm]

theorem cast_s1 (x : Word) : W p x = (pc 2 0 6 (bt x) : ZMod p) + (pc 2 6 13 (bt x) : ZMod p) * ((2 ^ 6 : ℕ) : ZMod p) + (pc 2 19 14 (bt x) : ZMod p) * ((2 ^ 19 : ℕ) : ZMod p) + (pc 2 33 14 (bt x) : ZMod p) * ((2 ^ 33 : ℕ) : ZMod p) + (pc 2 47 14 (bt x) : ZMod p) * ((2 ^ 47 : ℕ) : ZMod p) + (pc 2 61 3 (bt x) : ZMod p) * ((2 ^ 61 : ℕ) : ZMod p) := by
  unfold W; rw [toNat_eq_val, ← pc_zero, (s1Pieces 2 (bt x)).1]; simp only [Nat.cast_add, Nat.cast_mul, mul_comm]

theorem cast_s1_val (b : ℕ) (d : ℕ → ℕ) : ((val b 64 d : ℕ) : ZMod p) = (pc b 0 6 (d) : ZMod p) + (pc b 6 13 (d) : ZMod p) * ((b ^ 6 : ℕ) : ZMod p) + (pc b 19 14 (d) : ZMod p) * ((b ^ 19 : ℕ) : ZMod p) + (pc b 33 14 (d) : ZMod p) * ((b ^ 33 : ℕ) : ZMod p) + (pc b 47 14 (d) : ZMod p) * ((b ^ 47 : ℕ) : ZMod p) + (pc b 61 3 (d) : ZMod p) * ((b ^ 61 : ℕ) : ZMod p) := by
  rw [← pc_zero, (s1Pieces b (d)).1]; simp only [Nat.cast_add, Nat.cast_mul, mul_comm]

theorem cast_a (x : Word) : W p x = (pc 2 0 14 (bt x) : ZMod p) + (pc 2 14 14 (bt x) : ZMod p) * ((2 ^ 14 : ℕ) : ZMod p) + (pc 2 28 6 (bt x) : ZMod p) * ((2 ^ 28 : ℕ) : ZMod p) + (pc 2 34 5 (bt x) : ZMod p) * ((2 ^ 34 : ℕ) : ZMod p) + (pc 2 39 14 (bt x) : ZMod p) * ((2 ^ 39 : ℕ) : ZMod p) + (pc 2 53 11 (bt x) : ZMod p) * ((2 ^ 53 : ℕ) : ZMod p) := by
  unfold W; rw [toNat_eq_val, ← pc_zero, (aPieces 2 (bt x)).1]; simp only [Nat.cast_add, Nat.cast_mul, mul_comm]

theorem cast_a_val (b : ℕ) (d : ℕ → ℕ) : ((val b 64 d : ℕ) : ZMod p) = (pc b 0 14 (d) : ZMod p) + (pc b 14 14 (d) : ZMod p) * ((b ^ 14 : ℕ) : ZMod p) + (pc b 28 6 (d) : ZMod p) * ((b ^ 28 : ℕ) : ZMod p) + (pc b 34 5 (d) : ZMod p) * ((b ^ 34 : ℕ) : ZMod p) + (pc b 39 14 (d) : ZMod p) * ((b ^ 39 : ℕ) : ZMod p) + (pc b 53 11 (d) : ZMod p) * ((b ^ 53 : ℕ) : ZMod p) := by
  rw [← pc_zero, (aPieces b (d)).1]; simp only [Nat.cast_add, Nat.cast_mul, mul_comm]

theorem cast_e (x : Word) : W p x = (pc 2 0 14 (bt x) : ZMod p) + (pc 2 14 4 (bt x) : ZMod p) * ((2 ^ 14 : ℕ) : ZMod p) + (pc 2 18 14 (bt x) : ZMod p) * ((2 ^ 18 : ℕ) : ZMod p) + (pc 2 32 9 (bt x) : ZMod p) * ((2 ^ 32 : ℕ) : ZMod p) + (pc 2 41 14 (bt x) : ZMod p) * ((2 ^ 41 : ℕ) : ZMod p) + (pc 2 55 9 (bt x) : ZMod p) * ((2 ^ 55 : ℕ) : ZMod p) := by
  unfold W; rw [toNat_eq_val, ← pc_zero, (ePieces 2 (bt x)).1]; simp only [Nat.cast_add, Nat.cast_mul, mul_comm]

theorem cast_e_val (b : ℕ) (d : ℕ → ℕ) : ((val b 64 d : ℕ) : ZMod p) = (pc b 0 14 (d) : ZMod p) + (pc b 14 4 (d) : ZMod p) * ((b ^ 14 : ℕ) : ZMod p) + (pc b 18 14 (d) : ZMod p) * ((b ^ 18 : ℕ) : ZMod p) + (pc b 32 9 (d) : ZMod p) * ((b ^ 32 : ℕ) : ZMod p) + (pc b 41 14 (d) : ZMod p) * ((b ^ 41 : ℕ) : ZMod p) + (pc b 55 9 (d) : ZMod p) * ((b ^ 55 : ℕ) : ZMod p) := by
  rw [← pc_zero, (ePieces b (d)).1]; simp only [Nat.cast_add, Nat.cast_mul, mul_comm]

theorem cast_s (x : Word) : W p x = (pc 2 0 14 (bt x) : ZMod p) + (pc 2 14 14 (bt x) : ZMod p) * ((2 ^ 14 : ℕ) : ZMod p) + (pc 2 28 14 (bt x) : ZMod p) * ((2 ^ 28 : ℕ) : ZMod p) + (pc 2 42 14 (bt x) : ZMod p) * ((2 ^ 42 : ℕ) : ZMod p) + (pc 2 56 8 (bt x) : ZMod p) * ((2 ^ 56 : ℕ) : ZMod p) := by
  unfold W; rw [toNat_eq_val, ← pc_zero, (sPieces 2 (bt x)).1]; simp only [Nat.cast_add, Nat.cast_mul, mul_comm]

theorem cast_s_val (b : ℕ) (d : ℕ → ℕ) : ((val b 64 d : ℕ) : ZMod p) = (pc b 0 14 (d) : ZMod p) + (pc b 14 14 (d) : ZMod p) * ((b ^ 14 : ℕ) : ZMod p) + (pc b 28 14 (d) : ZMod p) * ((b ^ 28 : ℕ) : ZMod p) + (pc b 42 14 (d) : ZMod p) * ((b ^ 42 : ℕ) : ZMod p) + (pc b 56 8 (d) : ZMod p) * ((b ^ 56 : ℕ) : ZMod p) := by
  rw [← pc_zero, (sPieces b (d)).1]; simp only [Nat.cast_add, Nat.cast_mul, mul_comm]

theorem cast_q (x : Word) : W p x = (pc 2 0 16 (bt x) : ZMod p) + (pc 2 16 16 (bt x) : ZMod p) * ((2 ^ 16 : ℕ) : ZMod p) + (pc 2 32 16 (bt x) : ZMod p) * ((2 ^ 32 : ℕ) : ZMod p) + (pc 2 48 16 (bt x) : ZMod p) * ((2 ^ 48 : ℕ) : ZMod p) := by
  unfold W; rw [toNat_eq_val, ← pc_zero, (qPieces 2 (bt x)).1]; simp only [Nat.cast_add, Nat.cast_mul, mul_comm]

theorem cast_q_val (b : ℕ) (d : ℕ → ℕ) : ((val b 64 d : ℕ) : ZMod p) = (pc b 0 16 (d) : ZMod p) + (pc b 16 16 (d) : ZMod p) * ((b ^ 16 : ℕ) : ZMod p) + (pc b 32 16 (d) : ZMod p) * ((b ^ 32 : ℕ) : ZMod p) + (pc b 48 16 (d) : ZMod p) * ((b ^ 48 : ℕ) : ZMod p) := by
  rw [← pc_zero, (qPieces b (d)).1]; simp only [Nat.cast_add, Nat.cast_mul, mul_comm]

theorem pc_two_lt (o s : ℕ) (x : Word) : pc 2 o s (bt x) < 2 ^ s := pc_lt fun i => by have := bt_le x i; omega

/-! ## A step of the schedule -/

theorem schedBlock (H : Large p) (w0 w1 w9 w14 : Word) {x : ℤ → ℤ → ZMod p}
    (hx : ∀ m j : ℕ, m < 6 → j < 9 → written (2 + m) j = true → x (m : ℤ) (j : ℤ) = schedCell (W p w0) (W p w1) (W p w9) (W p w14) m j) :
    SchedBlock x := by
  obtain ⟨new, hnew⟩ : ∃ new, new = Sha512Spec.smallSigma1 w14 + w9 + Sha512Spec.smallSigma0 w1 + w0 := ⟨_, rfl⟩
  obtain ⟨N, hN⟩ : ∃ N, N = w9.toNat + w0.toNat + (Sha512Spec.smallSigma1 w14).toNat + (Sha512Spec.smallSigma0 w1).toNat := ⟨_, rfl⟩
  have hNlt : N < 4 * 2 ^ 64 := by
    have h1 := (Sha512Spec.smallSigma1 w14).isLt
    have h2 := (Sha512Spec.smallSigma0 w1).isLt
    have h3 := w9.isLt
    have h4 := w0.isLt
    omega
  have hq : N / 2 ^ 64 < 4 := by omega
  have hNp : N < p := lt_of_lt_of_le hNlt (le_trans (by norm_num) H.h72)
  have hnewN : new.toNat = N % 2 ^ 64 := by
    rw [hnew, hN]; simp only [BitVec.toNat_add]; omega
  have hcarry : (schedSum (W p w1) (W p w14) (W p w9) (W p w0) - schedWord (W p w1) (W p w14) (W p w9) (W p w0)) * ((2 : ZMod p) ^ 64)⁻¹ =
      ((N / 2 ^ 64 : ℕ) : ZMod p) := by
    unfold schedWord
    rw [schedSum_W H, ← hN]
    exact carry_eq H hNp
  have hdiv : (N : ZMod p) = W p new + ((2 ^ 64 : ℕ) : ZMod p) * ((N / 2 ^ 64 : ℕ) : ZMod p) := by
    unfold W; rw [hnewN, ← Nat.cast_mul, ← Nat.cast_add, Nat.mod_add_div]
  have hNs : (N : ZMod p) = W p w9 + W p w0 + ((Sha512Spec.smallSigma1 w14).toNat : ZMod p) + ((Sha512Spec.smallSigma0 w1).toNat : ZMod p) := by
    rw [hN]; unfold W; simp only [Nat.cast_add]
  have x00 : x 0 0 = W p w1 := (hx 0 0 (by omega) (by omega) rfl).trans (rfl)
  have x01 : x 0 1 = ((pc 2 0 1 (bt w1) : ℕ) : ZMod p) := (hx 0 1 (by omega) (by omega) rfl).trans (congrArg _ (s0Chunk H.h2 2 w1).1)
  have x02 : x 0 2 = ((pc 2 1 6 (bt w1) : ℕ) : ZMod p) := (hx 0 2 (by omega) (by omega) rfl).trans (congrArg _ (s0Chunk H.h2 2 w1).2.1)
  have x03 : x 0 3 = ((pc 2 7 1 (bt w1) : ℕ) : ZMod p) := (hx 0 3 (by omega) (by omega) rfl).trans (congrArg _ (s0Chunk H.h2 2 w1).2.2.1)
  have x04 : x 0 4 = ((pc 2 8 14 (bt w1) : ℕ) : ZMod p) := (hx 0 4 (by omega) (by omega) rfl).trans (congrArg _ (s0Chunk H.h2 2 w1).2.2.2.1)
  have x05 : x 0 5 = ((pc 2 22 14 (bt w1) : ℕ) : ZMod p) := (hx 0 5 (by omega) (by omega) rfl).trans (congrArg _ (s0Chunk H.h2 2 w1).2.2.2.2.1)
  have x06 : x 0 6 = ((pc 2 36 14 (bt w1) : ℕ) : ZMod p) := (hx 0 6 (by omega) (by omega) rfl).trans (congrArg _ (s0Chunk H.h2 2 w1).2.2.2.2.2.1)
  have x07 : x 0 7 = ((pc 2 50 14 (bt w1) : ℕ) : ZMod p) := (hx 0 7 (by omega) (by omega) rfl).trans (congrArg _ (s0Chunk H.h2 2 w1).2.2.2.2.2.2)
  have x08 : x 0 8 = ((pc 4 0 1 (bt w1) : ℕ) : ZMod p) := (hx 0 8 (by omega) (by omega) rfl).trans (congrArg _ (s0Chunk H.h2 4 w1).1)
  have x10 : x 1 0 = ((pc 4 1 6 (bt w1) : ℕ) : ZMod p) := (hx 1 0 (by omega) (by omega) rfl).trans (congrArg _ (s0Chunk H.h2 4 w1).2.1)
  have x11 : x 1 1 = ((pc 4 7 1 (bt w1) : ℕ) : ZMod p) := (hx 1 1 (by omega) (by omega) rfl).trans (congrArg _ (s0Chunk H.h2 4 w1).2.2.1)
  have x12 : x 1 2 = ((pc 4 8 14 (bt w1) : ℕ) : ZMod p) := (hx 1 2 (by omega) (by omega) rfl).trans (congrArg _ (s0Chunk H.h2 4 w1).2.2.2.1)
  have x13 : x 1 3 = ((pc 4 22 14 (bt w1) : ℕ) : ZMod p) := (hx 1 3 (by omega) (by omega) rfl).trans (congrArg _ (s0Chunk H.h2 4 w1).2.2.2.2.1)
  have x14 : x 1 4 = ((pc 4 36 14 (bt w1) : ℕ) : ZMod p) := (hx 1 4 (by omega) (by omega) rfl).trans (congrArg _ (s0Chunk H.h2 4 w1).2.2.2.2.2.1)
  have x15 : x 1 5 = ((pc 4 50 14 (bt w1) : ℕ) : ZMod p) := (hx 1 5 (by omega) (by omega) rfl).trans (congrArg _ (s0Chunk H.h2 4 w1).2.2.2.2.2.2)
  have x16 : x 1 6 = ((pc 4 0 14 (dig0 w1) : ℕ) : ZMod p) := (hx 1 6 (by omega) (by omega) rfl).trans (congrArg _ ((congrArg (fun v => revSparse p 4 sSizes v 0) (sparseSigma0_W H w1)).trans (revS 4 (by omega) H.h4 _ (fun i => by have := dig0_le w1 i; omega) 0 (by omega))))
  have x17 : x 1 7 = ((pc 4 14 14 (dig0 w1) : ℕ) : ZMod p) := (hx 1 7 (by omega) (by omega) rfl).trans (congrArg _ ((congrArg (fun v => revSparse p 4 sSizes v 1) (sparseSigma0_W H w1)).trans (revS 4 (by omega) H.h4 _ (fun i => by have := dig0_le w1 i; omega) 1 (by omega))))
  have x18 : x 1 8 = ((pc 4 28 14 (dig0 w1) : ℕ) : ZMod p) := (hx 1 8 (by omega) (by omega) rfl).trans (congrArg _ ((congrArg (fun v => revSparse p 4 sSizes v 2) (sparseSigma0_W H w1)).trans (revS 4 (by omega) H.h4 _ (fun i => by have := dig0_le w1 i; omega) 2 (by omega))))
  have x20 : x 2 0 = ((pc 4 42 14 (dig0 w1) : ℕ) : ZMod p) := (hx 2 0 (by omega) (by omega) rfl).trans (congrArg _ ((congrArg (fun v => revSparse p 4 sSizes v 3) (sparseSigma0_W H w1)).trans (revS 4 (by omega) H.h4 _ (fun i => by have := dig0_le w1 i; omega) 3 (by omega))))
  have x21 : x 2 1 = ((pc 4 56 8 (dig0 w1) : ℕ) : ZMod p) := (hx 2 1 (by omega) (by omega) rfl).trans (congrArg _ ((congrArg (fun v => revSparse p 4 sSizes v 4) (sparseSigma0_W H w1)).trans (revS 4 (by omega) H.h4 _ (fun i => by have := dig0_le w1 i; omega) 4 (by omega))))
  have x22 : x 2 2 = ((pc 2 0 14 (bt (Sha512Spec.smallSigma0 w1)) : ℕ) : ZMod p) := (hx 2 2 (by omega) (by omega) rfl).trans (congrArg _ (rev_sigma0 H w1 0 (by omega)))
  have x23 : x 2 3 = ((pc 2 14 14 (bt (Sha512Spec.smallSigma0 w1)) : ℕ) : ZMod p) := (hx 2 3 (by omega) (by omega) rfl).trans (congrArg _ (rev_sigma0 H w1 1 (by omega)))
  have x24 : x 2 4 = ((pc 2 28 14 (bt (Sha512Spec.smallSigma0 w1)) : ℕ) : ZMod p) := (hx 2 4 (by omega) (by omega) rfl).trans (congrArg _ (rev_sigma0 H w1 2 (by omega)))
  have x25 : x 2 5 = ((pc 2 42 14 (bt (Sha512Spec.smallSigma0 w1)) : ℕ) : ZMod p) := (hx 2 5 (by omega) (by omega) rfl).trans (congrArg _ (rev_sigma0 H w1 3 (by omega)))
  have x26 : x 2 6 = ((pc 2 56 8 (bt (Sha512Spec.smallSigma0 w1)) : ℕ) : ZMod p) := (hx 2 6 (by omega) (by omega) rfl).trans (congrArg _ (rev_sigma0 H w1 4 (by omega)))
  have x27 : x 2 7 = W p w9 := (hx 2 7 (by omega) (by omega) rfl).trans (rfl)
  have x28 : x 2 8 = W p w0 := (hx 2 8 (by omega) (by omega) rfl).trans (rfl)
  have x30 : x 3 0 = ((pc 2 0 14 (bt (Sha512Spec.smallSigma1 w14)) : ℕ) : ZMod p) := (hx 3 0 (by omega) (by omega) rfl).trans (congrArg _ (rev_sigma1 H w14 0 (by omega)))
  have x31 : x 3 1 = ((pc 2 14 14 (bt (Sha512Spec.smallSigma1 w14)) : ℕ) : ZMod p) := (hx 3 1 (by omega) (by omega) rfl).trans (congrArg _ (rev_sigma1 H w14 1 (by omega)))
  have x32 : x 3 2 = ((pc 2 28 14 (bt (Sha512Spec.smallSigma1 w14)) : ℕ) : ZMod p) := (hx 3 2 (by omega) (by omega) rfl).trans (congrArg _ (rev_sigma1 H w14 2 (by omega)))
  have x33 : x 3 3 = ((pc 2 42 14 (bt (Sha512Spec.smallSigma1 w14)) : ℕ) : ZMod p) := (hx 3 3 (by omega) (by omega) rfl).trans (congrArg _ (rev_sigma1 H w14 3 (by omega)))
  have x34 : x 3 4 = ((pc 2 56 8 (bt (Sha512Spec.smallSigma1 w14)) : ℕ) : ZMod p) := (hx 3 4 (by omega) (by omega) rfl).trans (congrArg _ (rev_sigma1 H w14 4 (by omega)))
  have x35 : x 3 5 = W p new := (hx 3 5 (by omega) (by omega) rfl).trans ((schedWord_W H w1 w14 w9 w0).trans (congrArg (W p) hnew.symm))
  have x36 : x 3 6 = ((N / 2 ^ 64 : ℕ) : ZMod p) := (hx 3 6 (by omega) (by omega) rfl).trans (hcarry)
  have x40 : x 4 0 = ((pc 4 19 14 (bt w14) : ℕ) : ZMod p) := (hx 4 0 (by omega) (by omega) rfl).trans (congrArg _ (s1Chunk H.h2 4 w14).2.2.1)
  have x41 : x 4 1 = ((pc 4 33 14 (bt w14) : ℕ) : ZMod p) := (hx 4 1 (by omega) (by omega) rfl).trans (congrArg _ (s1Chunk H.h2 4 w14).2.2.2.1)
  have x42 : x 4 2 = ((pc 4 47 14 (bt w14) : ℕ) : ZMod p) := (hx 4 2 (by omega) (by omega) rfl).trans (congrArg _ (s1Chunk H.h2 4 w14).2.2.2.2.1)
  have x43 : x 4 3 = ((pc 4 61 3 (bt w14) : ℕ) : ZMod p) := (hx 4 3 (by omega) (by omega) rfl).trans (congrArg _ (s1Chunk H.h2 4 w14).2.2.2.2.2)
  have x44 : x 4 4 = ((pc 4 0 14 (dig1 w14) : ℕ) : ZMod p) := (hx 4 4 (by omega) (by omega) rfl).trans (congrArg _ ((congrArg (fun v => revSparse p 4 sSizes v 0) (sparseSigma1_W H w14)).trans (revS 4 (by omega) H.h4 _ (fun i => by have := dig1_le w14 i; omega) 0 (by omega))))
  have x45 : x 4 5 = ((pc 4 14 14 (dig1 w14) : ℕ) : ZMod p) := (hx 4 5 (by omega) (by omega) rfl).trans (congrArg _ ((congrArg (fun v => revSparse p 4 sSizes v 1) (sparseSigma1_W H w14)).trans (revS 4 (by omega) H.h4 _ (fun i => by have := dig1_le w14 i; omega) 1 (by omega))))
  have x46 : x 4 6 = ((pc 4 28 14 (dig1 w14) : ℕ) : ZMod p) := (hx 4 6 (by omega) (by omega) rfl).trans (congrArg _ ((congrArg (fun v => revSparse p 4 sSizes v 2) (sparseSigma1_W H w14)).trans (revS 4 (by omega) H.h4 _ (fun i => by have := dig1_le w14 i; omega) 2 (by omega))))
  have x47 : x 4 7 = ((pc 4 42 14 (dig1 w14) : ℕ) : ZMod p) := (hx 4 7 (by omega) (by omega) rfl).trans (congrArg _ ((congrArg (fun v => revSparse p 4 sSizes v 3) (sparseSigma1_W H w14)).trans (revS 4 (by omega) H.h4 _ (fun i => by have := dig1_le w14 i; omega) 3 (by omega))))
  have x48 : x 4 8 = ((pc 4 56 8 (dig1 w14) : ℕ) : ZMod p) := (hx 4 8 (by omega) (by omega) rfl).trans (congrArg _ ((congrArg (fun v => revSparse p 4 sSizes v 4) (sparseSigma1_W H w14)).trans (revS 4 (by omega) H.h4 _ (fun i => by have := dig1_le w14 i; omega) 4 (by omega))))
  have x50 : x 5 0 = W p w14 := (hx 5 0 (by omega) (by omega) rfl).trans (rfl)
  have x51 : x 5 1 = ((pc 2 0 6 (bt w14) : ℕ) : ZMod p) := (hx 5 1 (by omega) (by omega) rfl).trans (congrArg _ (s1Chunk H.h2 2 w14).1)
  have x52 : x 5 2 = ((pc 2 6 13 (bt w14) : ℕ) : ZMod p) := (hx 5 2 (by omega) (by omega) rfl).trans (congrArg _ (s1Chunk H.h2 2 w14).2.1)
  have x53 : x 5 3 = ((pc 2 19 14 (bt w14) : ℕ) : ZMod p) := (hx 5 3 (by omega) (by omega) rfl).trans (congrArg _ (s1Chunk H.h2 2 w14).2.2.1)
  have x54 : x 5 4 = ((pc 2 33 14 (bt w14) : ℕ) : ZMod p) := (hx 5 4 (by omega) (by omega) rfl).trans (congrArg _ (s1Chunk H.h2 2 w14).2.2.2.1)
  have x55 : x 5 5 = ((pc 2 47 14 (bt w14) : ℕ) : ZMod p) := (hx 5 5 (by omega) (by omega) rfl).trans (congrArg _ (s1Chunk H.h2 2 w14).2.2.2.2.1)
  have x56 : x 5 6 = ((pc 2 61 3 (bt w14) : ℕ) : ZMod p) := (hx 5 6 (by omega) (by omega) rfl).trans (congrArg _ (s1Chunk H.h2 2 w14).2.2.2.2.2)
  have x57 : x 5 7 = ((pc 4 0 6 (bt w14) : ℕ) : ZMod p) := (hx 5 7 (by omega) (by omega) rfl).trans (congrArg _ (s1Chunk H.h2 4 w14).1)
  have x58 : x 5 8 = ((pc 4 6 13 (bt w14) : ℕ) : ZMod p) := (hx 5 8 (by omega) (by omega) rfl).trans (congrArg _ (s1Chunk H.h2 4 w14).2.1)
  unfold SchedBlock Sigma0OK Sigma1OK SchedOK
  simp only [Int.reduceAdd, Int.reduceNeg, x00, x01, x02, x03, x04, x05, x06, x07, x08, x10, x11, x12, x13, x14, x15, x16, x17, x18, x20, x21, x22, x23, x24, x25, x26, x27, x28, x30, x31, x32, x33, x34, x35, x36, x40, x41, x42, x43, x44, x45, x46, x47, x48, x50, x51, x52, x53, x54, x55, x56, x57, x58]
  clear hx hcarry
  have c0 := congrArg (Nat.cast : ℕ → ZMod p) (sigma0_combine w1)
  have c1 := congrArg (Nat.cast : ℕ → ZMod p) (sigma1_combine w14)
  rw [cast_s_val] at c0 c1
  refine ⟨⟨?_, small2 (pc_two_lt 0 1 w1), small2 (pc_two_lt 7 1 w1), ?_⟩, ⟨?_, small8 (pc_two_lt 61 3 w14), ?_⟩, ?_, small4 hq⟩
  · rw [cast_s0 w1]; ring
  · simp only [Nat.cast_add, Nat.cast_mul, Nat.cast_pow, Nat.cast_ofNat, Nat.cast_one] at c0 ⊢
    linear_combination -c0
  · rw [cast_s1 w14]; ring
  · simp only [Nat.cast_add, Nat.cast_mul, Nat.cast_pow, Nat.cast_ofNat, Nat.cast_one] at c1 ⊢
    linear_combination -c1
  · have e0 := cast_s (p := p) (Sha512Spec.smallSigma0 w1)
    have e1 := cast_s (p := p) (Sha512Spec.smallSigma1 w14)
    unfold W at e0 e1
    rw [e0, e1] at hNs
    linear_combination hNs - hdiv

/-! ## A round -/

/-- Digits of the arguments of `Ch` and `Maj`. -/
def chd (s : Sha512Spec.State) (i : ℕ) : ℕ := bt s.e i + 2 * bt s.f i + 3 * bt s.g i
@[inherit_doc chd] def mjd (s : Sha512Spec.State) (i : ℕ) : ℕ := bt s.a i + bt s.b i + bt s.c i

theorem chd_val (s : Sha512Spec.State) : val 7 64 (chd s) = spread 7 s.e + 2 * spread 7 s.f + 3 * spread 7 s.g := by
  unfold chd spread; rw [val_add, val_add, val_mul, val_mul]

theorem mjd_val (s : Sha512Spec.State) : val 4 64 (mjd s) = spread 4 s.a + spread 4 s.b + spread 4 s.c := by
  unfold mjd spread; rw [val_add, val_add]

theorem roundBlock (H : Large p) (s : Sha512Spec.State) (k w : Word) {x : ℤ → ℤ → ZMod p}
    (hx : ∀ m j : ℕ, m < 9 → j < 9 → written (386 + m) j = true → x (m : ℤ) (j : ℤ) = roundCell (emb p s) (W p k) (W p w) m j) :
    RoundBlock x (W p k) := by
  obtain ⟨en, hen⟩ : ∃ en, en = (Sha512Spec.round s k w).e := ⟨_, rfl⟩
  obtain ⟨an, han⟩ : ∃ an, an = (Sha512Spec.round s k w).a := ⟨_, rfl⟩
  have he : (emb p s).eNew (W p k) (W p w) = W p en := by rw [hen]; exact eNew_emb H s k w
  have ha : (emb p s).aNew (W p k) (W p w) = W p an := by rw [han]; exact aNew_emb H s k w
  obtain ⟨N, hN⟩ : ∃ N, N = t1 s k w + s.d.toNat := ⟨_, rfl⟩
  obtain ⟨M, hM⟩ : ∃ M, M = t1 s k w + (Sha512Spec.bigSigma0 s.a).toNat + (Sha512Spec.maj s.a s.b s.c).toNat := ⟨_, rfl⟩
  have ht := t1_lt s k w
  have hNlt : N < 6 * 2 ^ 64 := by have h2 := s.d.isLt; omega
  have hMlt : M < 7 * 2 ^ 64 := by
    have h2 := (Sha512Spec.bigSigma0 s.a).isLt
    have h3 := (Sha512Spec.maj s.a s.b s.c).isLt
    omega
  have hNq : N / 2 ^ 64 < 6 := by omega
  have hMq : M / 2 ^ 64 < 7 := by omega
  have hNp : N < p := lt_of_lt_of_le hNlt (le_trans (by norm_num) H.h72)
  have hMp : M < p := lt_of_lt_of_le hMlt (le_trans (by norm_num) H.h72)
  have hinv : ((((2 : ZMod p) ^ 64)⁻¹.val : ℕ) : ZMod p) = ((2 : ZMod p) ^ 64)⁻¹ := ZMod.natCast_zmod_val _
  have hcarry : ((emb p s).eSum (W p k) (W p w) - (emb p s).eNew (W p k) (W p w)) * ((((2 : ZMod p) ^ 64)⁻¹.val : ℕ) : ZMod p) =
      ((N / 2 ^ 64 : ℕ) : ZMod p) := by
    unfold Work.eNew
    rw [hinv, eSum_emb H, ← hN]
    exact carry_eq H hNp
  have hcarry' : ((emb p s).aSum (W p k) (W p w) - (emb p s).aNew (W p k) (W p w)) * ((2 : ZMod p) ^ 64)⁻¹ = ((M / 2 ^ 64 : ℕ) : ZMod p) := by
    unfold Work.aNew
    rw [aSum_emb H, ← hM]
    exact carry_eq H hMp
  have henN : en.toNat = N % 2 ^ 64 := by rw [hen, hN, Sha512Spec.round, t1]; simp only [BitVec.toNat_add]; omega
  have hanM : an.toNat = M % 2 ^ 64 := by rw [han, hM, Sha512Spec.round, t1]; simp only [BitVec.toNat_add]; omega
  have hdiv : (N : ZMod p) = W p en + ((2 ^ 64 : ℕ) : ZMod p) * ((N / 2 ^ 64 : ℕ) : ZMod p) := by
    unfold W; rw [henN, ← Nat.cast_mul, ← Nat.cast_add, Nat.mod_add_div]
  have hdiv' : (M : ZMod p) = W p an + ((2 ^ 64 : ℕ) : ZMod p) * ((M / 2 ^ 64 : ℕ) : ZMod p) := by
    unfold W; rw [hanM, ← Nat.cast_mul, ← Nat.cast_add, Nat.mod_add_div]
  have hNs : (N : ZMod p) = (t1 s k w : ZMod p) + W p s.d := by rw [hN]; unfold W; simp only [Nat.cast_add]
  have hMs : (M : ZMod p) = (t1 s k w : ZMod p) + ((Sha512Spec.bigSigma0 s.a).toNat : ZMod p) + ((Sha512Spec.maj s.a s.b s.c).toNat : ZMod p) := by
    rw [hM]; simp only [Nat.cast_add]
  have hts : (t1 s k w : ZMod p) = W p s.h + ((Sha512Spec.bigSigma1 s.e).toNat : ZMod p) + ((Sha512Spec.ch s.e s.f s.g).toNat : ZMod p) + W p k + W p w := by
    unfold t1 W; simp only [Nat.cast_add]
  have x00 : x 0 0 = W p s.e := (hx 0 0 (by omega) (by omega) rfl).trans (rfl)
  have x01 : x 0 1 = ((pc 2 0 14 (bt s.e) : ℕ) : ZMod p) := (hx 0 1 (by omega) (by omega) rfl).trans (congrArg _ (eChunk H.h2 2 s.e).1)
  have x02 : x 0 2 = ((pc 2 14 4 (bt s.e) : ℕ) : ZMod p) := (hx 0 2 (by omega) (by omega) rfl).trans (congrArg _ (eChunk H.h2 2 s.e).2.1)
  have x03 : x 0 3 = ((pc 2 18 14 (bt s.e) : ℕ) : ZMod p) := (hx 0 3 (by omega) (by omega) rfl).trans (congrArg _ (eChunk H.h2 2 s.e).2.2.1)
  have x04 : x 0 4 = ((pc 2 32 9 (bt s.e) : ℕ) : ZMod p) := (hx 0 4 (by omega) (by omega) rfl).trans (congrArg _ (eChunk H.h2 2 s.e).2.2.2.1)
  have x05 : x 0 5 = ((pc 2 41 14 (bt s.e) : ℕ) : ZMod p) := (hx 0 5 (by omega) (by omega) rfl).trans (congrArg _ (eChunk H.h2 2 s.e).2.2.2.2.1)
  have x06 : x 0 6 = ((pc 2 55 9 (bt s.e) : ℕ) : ZMod p) := (hx 0 6 (by omega) (by omega) rfl).trans (congrArg _ (eChunk H.h2 2 s.e).2.2.2.2.2)
  have x07 : x 0 7 = ((pc 7 0 14 (bt s.e) : ℕ) : ZMod p) := (hx 0 7 (by omega) (by omega) rfl).trans (congrArg _ (eChunk H.h2 7 s.e).1)
  have x08 : x 0 8 = ((pc 7 14 4 (bt s.e) : ℕ) : ZMod p) := (hx 0 8 (by omega) (by omega) rfl).trans (congrArg _ (eChunk H.h2 7 s.e).2.1)
  have x10 : x 1 0 = ((pc 7 18 14 (bt s.e) : ℕ) : ZMod p) := (hx 1 0 (by omega) (by omega) rfl).trans (congrArg _ (eChunk H.h2 7 s.e).2.2.1)
  have x11 : x 1 1 = ((pc 7 32 9 (bt s.e) : ℕ) : ZMod p) := (hx 1 1 (by omega) (by omega) rfl).trans (congrArg _ (eChunk H.h2 7 s.e).2.2.2.1)
  have x12 : x 1 2 = ((pc 7 41 14 (bt s.e) : ℕ) : ZMod p) := (hx 1 2 (by omega) (by omega) rfl).trans (congrArg _ (eChunk H.h2 7 s.e).2.2.2.2.1)
  have x13 : x 1 3 = ((pc 7 55 9 (bt s.e) : ℕ) : ZMod p) := (hx 1 3 (by omega) (by omega) rfl).trans (congrArg _ (eChunk H.h2 7 s.e).2.2.2.2.2)
  have x14 : x 1 4 = ((pc 7 0 14 (Dig1 s.e) : ℕ) : ZMod p) := (hx 1 4 (by omega) (by omega) rfl).trans (congrArg _ ((congrArg (fun v => revSparse p 7 sSizes v 0) (sparseBigSigma1_W H s.e)).trans (revS 7 (by omega) H.h7 _ (fun i => by have := Dig1_le s.e i; omega) 0 (by omega))))
  have x15 : x 1 5 = ((pc 7 14 14 (Dig1 s.e) : ℕ) : ZMod p) := (hx 1 5 (by omega) (by omega) rfl).trans (congrArg _ ((congrArg (fun v => revSparse p 7 sSizes v 1) (sparseBigSigma1_W H s.e)).trans (revS 7 (by omega) H.h7 _ (fun i => by have := Dig1_le s.e i; omega) 1 (by omega))))
  have x16 : x 1 6 = ((pc 7 28 14 (Dig1 s.e) : ℕ) : ZMod p) := (hx 1 6 (by omega) (by omega) rfl).trans (congrArg _ ((congrArg (fun v => revSparse p 7 sSizes v 2) (sparseBigSigma1_W H s.e)).trans (revS 7 (by omega) H.h7 _ (fun i => by have := Dig1_le s.e i; omega) 2 (by omega))))
  have x17 : x 1 7 = ((pc 7 42 14 (Dig1 s.e) : ℕ) : ZMod p) := (hx 1 7 (by omega) (by omega) rfl).trans (congrArg _ ((congrArg (fun v => revSparse p 7 sSizes v 3) (sparseBigSigma1_W H s.e)).trans (revS 7 (by omega) H.h7 _ (fun i => by have := Dig1_le s.e i; omega) 3 (by omega))))
  have x18 : x 1 8 = ((pc 7 56 8 (Dig1 s.e) : ℕ) : ZMod p) := (hx 1 8 (by omega) (by omega) rfl).trans (congrArg _ ((congrArg (fun v => revSparse p 7 sSizes v 4) (sparseBigSigma1_W H s.e)).trans (revS 7 (by omega) H.h7 _ (fun i => by have := Dig1_le s.e i; omega) 4 (by omega))))
  have x20 : x 2 0 = ((pc 2 0 14 (bt (Sha512Spec.bigSigma1 s.e)) : ℕ) : ZMod p) := (hx 2 0 (by omega) (by omega) rfl).trans (congrArg _ (rev_bigSigma1 H s.e 0 (by omega)))
  have x21 : x 2 1 = ((pc 2 14 14 (bt (Sha512Spec.bigSigma1 s.e)) : ℕ) : ZMod p) := (hx 2 1 (by omega) (by omega) rfl).trans (congrArg _ (rev_bigSigma1 H s.e 1 (by omega)))
  have x22 : x 2 2 = ((pc 2 28 14 (bt (Sha512Spec.bigSigma1 s.e)) : ℕ) : ZMod p) := (hx 2 2 (by omega) (by omega) rfl).trans (congrArg _ (rev_bigSigma1 H s.e 2 (by omega)))
  have x23 : x 2 3 = ((pc 2 42 14 (bt (Sha512Spec.bigSigma1 s.e)) : ℕ) : ZMod p) := (hx 2 3 (by omega) (by omega) rfl).trans (congrArg _ (rev_bigSigma1 H s.e 3 (by omega)))
  have x24 : x 2 4 = ((pc 2 56 8 (bt (Sha512Spec.bigSigma1 s.e)) : ℕ) : ZMod p) := (hx 2 4 (by omega) (by omega) rfl).trans (congrArg _ (rev_bigSigma1 H s.e 4 (by omega)))
  have x25 : x 2 5 = ((spread 7 s.e : ℕ) : ZMod p) := (hx 2 5 (by omega) (by omega) rfl).trans (congrArg _ (sparseE_W H s.e))
  have x26 : x 2 6 = ((spread 7 s.f : ℕ) : ZMod p) := (hx 2 6 (by omega) (by omega) rfl).trans (rfl)
  have x27 : x 2 7 = ((pc 7 0 16 (chd s) : ℕ) : ZMod p) := (hx 2 7 (by omega) (by omega) rfl).trans (congrArg _ ((congrArg (fun v => revSparse p 7 qSizes v 0) (emb_sparseCh H s)).trans (revQ 7 (by omega) H.h7 _ (fun i => chDig_lt _ _ _ i) 0 (by omega))))
  have x28 : x 2 8 = ((pc 7 16 16 (chd s) : ℕ) : ZMod p) := (hx 2 8 (by omega) (by omega) rfl).trans (congrArg _ ((congrArg (fun v => revSparse p 7 qSizes v 1) (emb_sparseCh H s)).trans (revQ 7 (by omega) H.h7 _ (fun i => chDig_lt _ _ _ i) 1 (by omega))))
  have x30 : x 3 0 = ((pc 7 32 16 (chd s) : ℕ) : ZMod p) := (hx 3 0 (by omega) (by omega) rfl).trans (congrArg _ ((congrArg (fun v => revSparse p 7 qSizes v 2) (emb_sparseCh H s)).trans (revQ 7 (by omega) H.h7 _ (fun i => chDig_lt _ _ _ i) 2 (by omega))))
  have x31 : x 3 1 = ((pc 7 48 16 (chd s) : ℕ) : ZMod p) := (hx 3 1 (by omega) (by omega) rfl).trans (congrArg _ ((congrArg (fun v => revSparse p 7 qSizes v 3) (emb_sparseCh H s)).trans (revQ 7 (by omega) H.h7 _ (fun i => chDig_lt _ _ _ i) 3 (by omega))))
  have x32 : x 3 2 = ((pc 2 0 16 (bt (Sha512Spec.ch s.e s.f s.g)) : ℕ) : ZMod p) := (hx 3 2 (by omega) (by omega) rfl).trans (congrArg _ (rev_ch H s 0 (by omega)))
  have x33 : x 3 3 = ((pc 2 16 16 (bt (Sha512Spec.ch s.e s.f s.g)) : ℕ) : ZMod p) := (hx 3 3 (by omega) (by omega) rfl).trans (congrArg _ (rev_ch H s 1 (by omega)))
  have x34 : x 3 4 = ((pc 2 32 16 (bt (Sha512Spec.ch s.e s.f s.g)) : ℕ) : ZMod p) := (hx 3 4 (by omega) (by omega) rfl).trans (congrArg _ (rev_ch H s 2 (by omega)))
  have x35 : x 3 5 = ((pc 2 48 16 (bt (Sha512Spec.ch s.e s.f s.g)) : ℕ) : ZMod p) := (hx 3 5 (by omega) (by omega) rfl).trans (congrArg _ (rev_ch H s 3 (by omega)))
  have x36 : x 3 6 = ((spread 7 s.g : ℕ) : ZMod p) := (hx 3 6 (by omega) (by omega) rfl).trans (rfl)
  have x37 : x 3 7 = W p s.d := (hx 3 7 (by omega) (by omega) rfl).trans (rfl)
  have x38 : x 3 8 = W p s.h := (hx 3 8 (by omega) (by omega) rfl).trans (rfl)
  have x40 : x 4 0 = W p w := (hx 4 0 (by omega) (by omega) rfl).trans (rfl)
  have x41 : x 4 1 = ((t1 s k w : ℕ) : ZMod p) := (hx 4 1 (by omega) (by omega) rfl).trans (tmp1_emb H s k w)
  have x42 : x 4 2 = W p en := (hx 4 2 (by omega) (by omega) rfl).trans (he)
  have x43 : x 4 3 = ((N / 2 ^ 64 : ℕ) : ZMod p) := (hx 4 3 (by omega) (by omega) rfl).trans (hcarry)
  have x50 : x 5 0 = ((pc 4 32 16 (mjd s) : ℕ) : ZMod p) := (hx 5 0 (by omega) (by omega) rfl).trans (congrArg _ ((congrArg (fun v => revSparse p 4 qSizes v 2) (emb_sparseMaj H s)).trans (revQ 4 (by omega) H.h4 _ (fun i => majDig_lt _ _ _ i) 2 (by omega))))
  have x51 : x 5 1 = ((pc 4 48 16 (mjd s) : ℕ) : ZMod p) := (hx 5 1 (by omega) (by omega) rfl).trans (congrArg _ ((congrArg (fun v => revSparse p 4 qSizes v 3) (emb_sparseMaj H s)).trans (revQ 4 (by omega) H.h4 _ (fun i => majDig_lt _ _ _ i) 3 (by omega))))
  have x52 : x 5 2 = ((pc 2 0 16 (bt (Sha512Spec.maj s.a s.b s.c)) : ℕ) : ZMod p) := (hx 5 2 (by omega) (by omega) rfl).trans (congrArg _ (rev_maj H s 0 (by omega)))
  have x53 : x 5 3 = ((pc 2 16 16 (bt (Sha512Spec.maj s.a s.b s.c)) : ℕ) : ZMod p) := (hx 5 3 (by omega) (by omega) rfl).trans (congrArg _ (rev_maj H s 1 (by omega)))
  have x54 : x 5 4 = ((pc 2 32 16 (bt (Sha512Spec.maj s.a s.b s.c)) : ℕ) : ZMod p) := (hx 5 4 (by omega) (by omega) rfl).trans (congrArg _ (rev_maj H s 2 (by omega)))
  have x55 : x 5 5 = ((pc 2 48 16 (bt (Sha512Spec.maj s.a s.b s.c)) : ℕ) : ZMod p) := (hx 5 5 (by omega) (by omega) rfl).trans (congrArg _ (rev_maj H s 3 (by omega)))
  have x56 : x 5 6 = ((spread 4 s.c : ℕ) : ZMod p) := (hx 5 6 (by omega) (by omega) rfl).trans (rfl)
  have x57 : x 5 7 = W p an := (hx 5 7 (by omega) (by omega) rfl).trans (ha)
  have x58 : x 5 8 = ((M / 2 ^ 64 : ℕ) : ZMod p) := (hx 5 8 (by omega) (by omega) rfl).trans (hcarry')
  have x60 : x 6 0 = ((pc 2 0 14 (bt (Sha512Spec.bigSigma0 s.a)) : ℕ) : ZMod p) := (hx 6 0 (by omega) (by omega) rfl).trans (congrArg _ (rev_bigSigma0 H s.a 0 (by omega)))
  have x61 : x 6 1 = ((pc 2 14 14 (bt (Sha512Spec.bigSigma0 s.a)) : ℕ) : ZMod p) := (hx 6 1 (by omega) (by omega) rfl).trans (congrArg _ (rev_bigSigma0 H s.a 1 (by omega)))
  have x62 : x 6 2 = ((pc 2 28 14 (bt (Sha512Spec.bigSigma0 s.a)) : ℕ) : ZMod p) := (hx 6 2 (by omega) (by omega) rfl).trans (congrArg _ (rev_bigSigma0 H s.a 2 (by omega)))
  have x63 : x 6 3 = ((pc 2 42 14 (bt (Sha512Spec.bigSigma0 s.a)) : ℕ) : ZMod p) := (hx 6 3 (by omega) (by omega) rfl).trans (congrArg _ (rev_bigSigma0 H s.a 3 (by omega)))
  have x64 : x 6 4 = ((pc 2 56 8 (bt (Sha512Spec.bigSigma0 s.a)) : ℕ) : ZMod p) := (hx 6 4 (by omega) (by omega) rfl).trans (congrArg _ (rev_bigSigma0 H s.a 4 (by omega)))
  have x65 : x 6 5 = ((spread 4 s.a : ℕ) : ZMod p) := (hx 6 5 (by omega) (by omega) rfl).trans (congrArg _ (sparseA_W H s.a))
  have x66 : x 6 6 = ((spread 4 s.b : ℕ) : ZMod p) := (hx 6 6 (by omega) (by omega) rfl).trans (rfl)
  have x67 : x 6 7 = ((pc 4 0 16 (mjd s) : ℕ) : ZMod p) := (hx 6 7 (by omega) (by omega) rfl).trans (congrArg _ ((congrArg (fun v => revSparse p 4 qSizes v 0) (emb_sparseMaj H s)).trans (revQ 4 (by omega) H.h4 _ (fun i => majDig_lt _ _ _ i) 0 (by omega))))
  have x68 : x 6 8 = ((pc 4 16 16 (mjd s) : ℕ) : ZMod p) := (hx 6 8 (by omega) (by omega) rfl).trans (congrArg _ ((congrArg (fun v => revSparse p 4 qSizes v 1) (emb_sparseMaj H s)).trans (revQ 4 (by omega) H.h4 _ (fun i => majDig_lt _ _ _ i) 1 (by omega))))
  have x70 : x 7 0 = ((pc 4 28 6 (bt s.a) : ℕ) : ZMod p) := (hx 7 0 (by omega) (by omega) rfl).trans (congrArg _ (aChunk H.h2 4 s.a).2.2.1)
  have x71 : x 7 1 = ((pc 4 34 5 (bt s.a) : ℕ) : ZMod p) := (hx 7 1 (by omega) (by omega) rfl).trans (congrArg _ (aChunk H.h2 4 s.a).2.2.2.1)
  have x72 : x 7 2 = ((pc 4 39 14 (bt s.a) : ℕ) : ZMod p) := (hx 7 2 (by omega) (by omega) rfl).trans (congrArg _ (aChunk H.h2 4 s.a).2.2.2.2.1)
  have x73 : x 7 3 = ((pc 4 53 11 (bt s.a) : ℕ) : ZMod p) := (hx 7 3 (by omega) (by omega) rfl).trans (congrArg _ (aChunk H.h2 4 s.a).2.2.2.2.2)
  have x74 : x 7 4 = ((pc 4 0 14 (Dig0 s.a) : ℕ) : ZMod p) := (hx 7 4 (by omega) (by omega) rfl).trans (congrArg _ ((congrArg (fun v => revSparse p 4 sSizes v 0) (sparseBigSigma0_W H s.a)).trans (revS 4 (by omega) H.h4 _ (fun i => by have := Dig0_le s.a i; omega) 0 (by omega))))
  have x75 : x 7 5 = ((pc 4 14 14 (Dig0 s.a) : ℕ) : ZMod p) := (hx 7 5 (by omega) (by omega) rfl).trans (congrArg _ ((congrArg (fun v => revSparse p 4 sSizes v 1) (sparseBigSigma0_W H s.a)).trans (revS 4 (by omega) H.h4 _ (fun i => by have := Dig0_le s.a i; omega) 1 (by omega))))
  have x76 : x 7 6 = ((pc 4 28 14 (Dig0 s.a) : ℕ) : ZMod p) := (hx 7 6 (by omega) (by omega) rfl).trans (congrArg _ ((congrArg (fun v => revSparse p 4 sSizes v 2) (sparseBigSigma0_W H s.a)).trans (revS 4 (by omega) H.h4 _ (fun i => by have := Dig0_le s.a i; omega) 2 (by omega))))
  have x77 : x 7 7 = ((pc 4 42 14 (Dig0 s.a) : ℕ) : ZMod p) := (hx 7 7 (by omega) (by omega) rfl).trans (congrArg _ ((congrArg (fun v => revSparse p 4 sSizes v 3) (sparseBigSigma0_W H s.a)).trans (revS 4 (by omega) H.h4 _ (fun i => by have := Dig0_le s.a i; omega) 3 (by omega))))
  have x78 : x 7 8 = ((pc 4 56 8 (Dig0 s.a) : ℕ) : ZMod p) := (hx 7 8 (by omega) (by omega) rfl).trans (congrArg _ ((congrArg (fun v => revSparse p 4 sSizes v 4) (sparseBigSigma0_W H s.a)).trans (revS 4 (by omega) H.h4 _ (fun i => by have := Dig0_le s.a i; omega) 4 (by omega))))
  have x80 : x 8 0 = W p s.a := (hx 8 0 (by omega) (by omega) rfl).trans (rfl)
  have x81 : x 8 1 = ((pc 2 0 14 (bt s.a) : ℕ) : ZMod p) := (hx 8 1 (by omega) (by omega) rfl).trans (congrArg _ (aChunk H.h2 2 s.a).1)
  have x82 : x 8 2 = ((pc 2 14 14 (bt s.a) : ℕ) : ZMod p) := (hx 8 2 (by omega) (by omega) rfl).trans (congrArg _ (aChunk H.h2 2 s.a).2.1)
  have x83 : x 8 3 = ((pc 2 28 6 (bt s.a) : ℕ) : ZMod p) := (hx 8 3 (by omega) (by omega) rfl).trans (congrArg _ (aChunk H.h2 2 s.a).2.2.1)
  have x84 : x 8 4 = ((pc 2 34 5 (bt s.a) : ℕ) : ZMod p) := (hx 8 4 (by omega) (by omega) rfl).trans (congrArg _ (aChunk H.h2 2 s.a).2.2.2.1)
  have x85 : x 8 5 = ((pc 2 39 14 (bt s.a) : ℕ) : ZMod p) := (hx 8 5 (by omega) (by omega) rfl).trans (congrArg _ (aChunk H.h2 2 s.a).2.2.2.2.1)
  have x86 : x 8 6 = ((pc 2 53 11 (bt s.a) : ℕ) : ZMod p) := (hx 8 6 (by omega) (by omega) rfl).trans (congrArg _ (aChunk H.h2 2 s.a).2.2.2.2.2)
  have x87 : x 8 7 = ((pc 4 0 14 (bt s.a) : ℕ) : ZMod p) := (hx 8 7 (by omega) (by omega) rfl).trans (congrArg _ (aChunk H.h2 4 s.a).1)
  have x88 : x 8 8 = ((pc 4 14 14 (bt s.a) : ℕ) : ZMod p) := (hx 8 8 (by omega) (by omega) rfl).trans (congrArg _ (aChunk H.h2 4 s.a).2.1)
  unfold RoundBlock BigSigma1OK BigSigma0OK ChOK MajOK EOK AOK
  simp only [Int.reduceAdd, Int.reduceNeg, x00, x01, x02, x03, x04, x05, x06, x07, x08, x10, x11, x12, x13, x14, x15, x16, x17, x18, x20, x21, x22, x23, x24, x25, x26, x27, x28, x30, x31, x32, x33, x34, x35, x36, x37, x38, x40, x41, x42, x43, x50, x51, x52, x53, x54, x55, x56, x57, x58, x60, x61, x62, x63, x64, x65, x66, x67, x68, x70, x71, x72, x73, x74, x75, x76, x77, x78, x80, x81, x82, x83, x84, x85, x86, x87, x88]
  clear hx he ha hcarry hcarry'
  have c1 := congrArg (Nat.cast : ℕ → ZMod p) (bigSigma1_combine s.e)
  have c2 := congrArg (Nat.cast : ℕ → ZMod p) (chd_val s)
  have c3 := congrArg (Nat.cast : ℕ → ZMod p) (mjd_val s)
  rw [cast_s_val] at c1
  rw [cast_q_val] at c2 c3
  refine ⟨⟨?_, ?_, ?_⟩, ⟨?_, ?_⟩, ?_, ?_, ⟨?_, ?_, small6 hNq⟩, ?_, small7 hMq⟩
  · rw [cast_e s.e]; ring
  · rw [spread, cast_e_val 7]; ring
  · simp only [Nat.cast_add, Nat.cast_mul, Nat.cast_pow, Nat.cast_ofNat, Nat.cast_one] at c1 ⊢
    linear_combination -c1
  · rw [cast_a s.a]; ring
  · rw [spread, cast_a_val 4]; ring
  · simp only [Nat.cast_add, Nat.cast_mul, Nat.cast_pow, Nat.cast_ofNat, Nat.cast_one] at c2 ⊢
    linear_combination c2
  · simp only [Nat.cast_add, Nat.cast_mul, Nat.cast_pow, Nat.cast_ofNat, Nat.cast_one] at c3 ⊢
    linear_combination c3
  · have e0 := cast_s (p := p) (Sha512Spec.bigSigma1 s.e)
    have e1 := cast_q (p := p) (Sha512Spec.ch s.e s.f s.g)
    unfold W at e0 e1
    rw [e0, e1] at hts
    linear_combination hts
  · linear_combination hdiv - hNs
  · have e0 := cast_s (p := p) (Sha512Spec.bigSigma0 s.a)
    have e1 := cast_q (p := p) (Sha512Spec.maj s.a s.b s.c)
    unfold W at e0 e1
    rw [e0, e1] at hMs
    linear_combination hMs - hdiv'

/-- The gate of `e` fixes the constant it reads. -/
theorem roundBlock_const {x : ℤ → ℤ → ZMod p} {κ κ' : ZMod p} (h : RoundBlock x κ) : RoundBlock x κ' ↔ κ' = κ := by
  constructor
  · rintro ⟨-, -, -, -, ⟨h', -⟩, -⟩
    obtain ⟨-, -, -, -, ⟨h, -⟩, -⟩ := h
    linear_combination h - h'
  · rintro rfl; exact h

/-! ## The output -/

theorem out_pair (a b : Word) :
    W p (a + b) + ((2 ^ 64 : ℕ) : ZMod p) * (((a.toNat + b.toNat - (a.toNat + b.toNat) % 2 ^ 64) / 2 ^ 64 : ℕ) : ZMod p) - (W p a + W p b) = 0 := by
  have h1 := a.isLt
  have h2 := b.isLt
  unfold W
  rw [BitVec.toNat_add, ← Nat.cast_mul, ← Nat.cast_add, ← Nat.cast_add, sub_eq_zero]
  congr 1
  omega

theorem outBlock (H : Large p) (s u : Sha512Spec.State) {x : ℤ → ℤ → ZMod p}
    (hx : ∀ m j : ℕ, m < 4 → j < 8 → x (m : ℤ) (j : ℤ) = outCell (fun i => W p (s.get i)) (fun i => W p (u.get i)) m j) :
    OutBlock x := by
  have h0 : ∀ j : ℕ, j < 4 → x 0 (j : ℤ) = W p (s.get j) := fun j hj => (hx 0 j (by omega) (by omega)).trans (by simp [outCell, hj])
  have h0' : ∀ j : ℕ, j < 4 → x 0 ((j + 4 : ℕ) : ℤ) = W p (u.get j) := fun j hj => (hx 0 (j + 4) (by omega) (by omega)).trans (by simp [outCell])
  have h2 : ∀ j : ℕ, j < 4 → x 2 (j : ℤ) = W p (s.get (j + 4)) := fun j hj => (hx 2 j (by omega) (by omega)).trans (by simp [outCell, hj])
  have h2' : ∀ j : ℕ, j < 4 → x 2 ((j + 4 : ℕ) : ℤ) = W p (u.get (j + 4)) := fun j hj => (hx 2 (j + 4) (by omega) (by omega)).trans (by simp [outCell])
  have h1 : ∀ j : ℕ, j < 4 → x 1 (j : ℤ) = W p (s.get j + u.get j) := fun j hj => (hx 1 j (by omega) (by omega)).trans (by
    simp only [outCell, hj, if_true]; exact sum_W H _ _)
  have h3 : ∀ j : ℕ, j < 4 → x 3 (j : ℤ) = W p (s.get (j + 4) + u.get (j + 4)) := fun j hj => (hx 3 j (by omega) (by omega)).trans (by
    simp only [outCell, hj, if_true]; exact sum_W H _ _)
  have h1' : ∀ j : ℕ, j < 4 → x 1 ((j + 4 : ℕ) : ℤ) =
      ((((s.get j).toNat + (u.get j).toNat - ((s.get j).toNat + (u.get j).toNat) % 2 ^ 64) / 2 ^ 64 : ℕ) : ZMod p) := fun j hj =>
    (hx 1 (j + 4) (by omega) (by omega)).trans (by
      simp only [outCell, show ¬ (j + 4 < 4) by omega, if_false, Nat.add_sub_cancel, W_val H.h2, m64_eq H])
  have h3' : ∀ j : ℕ, j < 4 → x 3 ((j + 4 : ℕ) : ℤ) =
      ((((s.get (j + 4)).toNat + (u.get (j + 4)).toNat - ((s.get (j + 4)).toNat + (u.get (j + 4)).toNat) % 2 ^ 64) / 2 ^ 64 : ℕ) : ZMod p) := fun j hj =>
    (hx 3 (j + 4) (by omega) (by omega)).trans (by
      simp only [outCell, show ¬ (j + 4 < 4) by omega, if_false, W_val H.h2, m64_eq H])
  have hout : ∀ j : ℕ, j < 4 → x 1 (j : ℤ) + ((2 ^ 64 : ℕ) : ZMod p) * x 1 ((j + 4 : ℕ) : ℤ) - (x 0 (j : ℤ) + x 0 ((j + 4 : ℕ) : ℤ)) = 0 := fun j hj => by
    rw [h0 j hj, h0' j hj, h1 j hj, h1' j hj]; exact out_pair _ _
  have hout' : ∀ j : ℕ, j < 4 → x 3 (j : ℤ) + ((2 ^ 64 : ℕ) : ZMod p) * x 3 ((j + 4 : ℕ) : ℤ) - (x 2 (j : ℤ) + x 2 ((j + 4 : ℕ) : ℤ)) = 0 := fun j hj => by
    rw [h2 j hj, h2' j hj, h3 j hj, h3' j hj]; exact out_pair _ _
  refine ⟨?_, ?_⟩
  · unfold OutOK
    simp only [Int.reduceAdd]
    exact ⟨hout 0 (by omega), hout 1 (by omega), hout 2 (by omega), hout 3 (by omega)⟩
  · unfold OutOK
    simp only [Int.reduceAdd]
    exact ⟨hout' 0 (by omega), hout' 1 (by omega), hout' 2 (by omega), hout' 3 (by omega)⟩

/-! ## The whole table -/

variable {c : Cols} {inp : In} {srow : ℤ} {t : Table (ZMod p)}

/-- The table of the standard. -/
def honest (c : Cols) (srow : ℤ) (s : Sha512Spec.State) (ws : ℕ → Word) (t : Table (ZMod p)) : Table (ZMod p) :=
  fill c srow (grid (inCell fun i => W p (s.get i))
    (fun n => schedCell (W p (Sha512Spec.schedule ws n)) (W p (Sha512Spec.schedule ws (n + 1))) (W p (Sha512Spec.schedule ws (n + 9)))
      (W p (Sha512Spec.schedule ws (n + 14))))
    (fun n => roundCell (emb p (Sha512Spec.rounds (Sha512Spec.schedule ws) s n)) (kc p n) (W p (Sha512Spec.schedule ws n)))
    (outCell (fun i => W p (s.get i)) fun i => W p ((Sha512Spec.rounds (Sha512Spec.schedule ws) s 80).get i))) t

theorem honest_sat (H : Large p) (hc : c.OK 9) (s : Sha512Spec.State) (ws : ℕ → Word)
    (hk : ∀ n : ℕ, n < 80 → t .constant (c.k 0) (srow + 389 + 9 * (n : ℤ)) = kc p n)
    (hst : ∀ i < 8, (inp.state i).Outside srow 1110 ∧ (inp.state i).value t = W p (s.get i))
    (hws : ∀ i < 16, (inp.words i).Outside srow 1110 ∧ (inp.words i).value t = W p (ws i)) :
    (Sat (honest c srow s ws t) (circuit c inp srow) ↔ ∀ n : ℕ, n < 80 → t .constant (c.w 0) (srow + 389 + 9 * (n : ℤ)) = kc p n) ∧
    Frame c srow 1110 t (honest c srow s ws t) ∧
      ∀ i < 8, (result c srow i).value (honest c srow s ws t) = W p (s.get i + (Sha512Spec.rounds (Sha512Spec.schedule ws) s 80).get i) := by
  obtain ⟨T, hT⟩ : ∃ T, T = honest c srow s ws t := ⟨_, rfl⟩
  obtain ⟨v, hv⟩ : ∃ v, v = Sha512Spec.schedule ws := ⟨_, rfl⟩
  have hf : Frame c srow 1110 t T := hT ▸ fill_frame hc _
  have rI : ∀ m j : ℕ, m < 2 → j < 8 → T .witness (c.w (j : ℤ)) (srow + (m : ℤ)) = inCell (fun i => W p (s.get i)) m j := fun m j hm hj => by
    rw [hT]; exact read_in _ _ _ _ hc m j hm hj
  have rS : ∀ n m j : ℕ, n < 64 → m < 6 → j < 9 → written (2 + m) j = true →
      cells T c (srow + 2 + 6 * (n : ℤ)) (m : ℤ) (j : ℤ) = schedCell (W p (v n)) (W p (v (n + 1))) (W p (v (n + 9))) (W p (v (n + 14))) m j :=
    fun n m j hn hm hj hw => by rw [hT, hv]; exact read_sched _ _ _ _ hc n m j hn hm hj hw
  have rR : ∀ n m j : ℕ, n < 80 → m < 9 → j < 9 → written (386 + m) j = true →
      cells T c (srow + 386 + 9 * (n : ℤ)) (m : ℤ) (j : ℤ) = roundCell (emb p (Sha512Spec.rounds v s n)) (W p (Sha512Spec.k n)) (W p (v n)) m j :=
    fun n m j hn hm hj hw => by rw [hT, hv, ← kc_eq n hn]; exact read_round _ _ _ _ hc n m j hn hm hj hw
  have rO : ∀ m j : ℕ, m < 4 → j < 8 → cells T c (srow + 1106) (m : ℤ) (j : ℤ) =
      outCell (fun i => W p (s.get i)) (fun i => W p ((Sha512Spec.rounds v s 80).get i)) m j := fun m j hm hj => by
    rw [hT, hv]; exact read_out _ _ _ _ hc m j hm hj
  rw [← hT, ← hv]
  have hwv : ∀ i < 16, (inp.words i).value T = W p (v i) := fun i hi => by
    rw [hf.outside (hws i hi).1, (hws i hi).2, hv, Sha512Spec.schedule, if_pos hi]
  have hsv : ∀ i < 8, (inp.state i).value T = W p (s.get i) := fun i hi => by rw [hf.outside (hst i hi).1, (hst i hi).2]
  clear hT hv
  have R25 : ∀ n : ℕ, n < 80 → T .witness (c.w 5) (srow + 386 + 9 * (n : ℤ) + 2) = ((spread 7 (Sha512Spec.rounds v s n).e : ℕ) : ZMod p) :=
    fun n hn => (rR n 2 5 hn (by omega) (by omega) rfl).trans (congrArg _ (sparseE_W H _))
  have R26 : ∀ n : ℕ, n < 80 → T .witness (c.w 6) (srow + 386 + 9 * (n : ℤ) + 2) = ((spread 7 (Sha512Spec.rounds v s n).f : ℕ) : ZMod p) :=
    fun n hn => rR n 2 6 hn (by omega) (by omega) rfl
  have R36 : ∀ n : ℕ, n < 80 → T .witness (c.w 6) (srow + 386 + 9 * (n : ℤ) + 3) = ((spread 7 (Sha512Spec.rounds v s n).g : ℕ) : ZMod p) :=
    fun n hn => rR n 3 6 hn (by omega) (by omega) rfl
  have R56 : ∀ n : ℕ, n < 80 → T .witness (c.w 6) (srow + 386 + 9 * (n : ℤ) + 5) = ((spread 4 (Sha512Spec.rounds v s n).c : ℕ) : ZMod p) :=
    fun n hn => rR n 5 6 hn (by omega) (by omega) rfl
  have R66 : ∀ n : ℕ, n < 80 → T .witness (c.w 6) (srow + 386 + 9 * (n : ℤ) + 6) = ((spread 4 (Sha512Spec.rounds v s n).b : ℕ) : ZMod p) :=
    fun n hn => rR n 6 6 hn (by omega) (by omega) rfl
  have R65 : ∀ n : ℕ, n < 80 → T .witness (c.w 5) (srow + 386 + 9 * (n : ℤ) + 6) = ((spread 4 (Sha512Spec.rounds v s n).a : ℕ) : ZMod p) :=
    fun n hn => (rR n 6 5 hn (by omega) (by omega) rfl).trans (congrArg _ (sparseA_W H _))
  have r0 : ∀ m j : ℕ, m < 9 → j < 9 → written (386 + m) j = true → T .witness (c.w (j : ℤ)) (srow + 386 + (m : ℤ)) =
      roundCell (emb p s) (W p (Sha512Spec.k 0)) (W p (v 0)) m j := fun m j hm hj hw => by
    have := rR 0 m j (by omega) hm hj hw
    simp only [cells, Nat.cast_zero, mul_zero, add_zero] at this; exact this
  have key : ∀ n : ℕ, n < 80 → RoundBlock (cells T c (srow + 386 + 9 * (n : ℤ))) (kc p n) := fun n hn => by
    rw [kc_eq n hn]; exact roundBlock H _ _ _ fun m j hm hj hw => rR n m j hn hm hj hw
  refine ⟨?_, hf, ?_⟩
  · have hiff : (∀ n : ℕ, n < 80 → RoundBlock (cells T c (srow + 386 + 9 * (n : ℤ))) (T .constant (c.w 0) (srow + 389 + 9 * (n : ℤ)))) ↔
        ∀ n : ℕ, n < 80 → t .constant (c.w 0) (srow + 389 + 9 * (n : ℤ)) = kc p n := by
      refine forall₂_congr fun n hn => ?_
      rw [hf.const, roundBlock_const (key n hn)]
    rw [sat_iff, hiff]
    refine ⟨fun h => h.2.2.1, fun h => ⟨?_, ?_, h, ?_, ?_, ?_, ?_⟩⟩
    · intro n hn
      exact schedBlock H _ _ _ _ fun m j hm hj hw => rS n m j hn hm hj hw
    · intro n hn; exact (hf.const _ _).trans (hk n hn)
    · exact outBlock H s _ rO
    · refine sat_schedCopies.2 ⟨?_, ?_, ?_, ?_⟩
      · intro i hi
        have := rS i 0 0 (by omega) (by omega) (by omega) rfl
        simp only [cells, Nat.cast_zero, add_zero] at this
        rw [this, hwv _ (by omega)]; rfl
      · intro i hi; rw [hwv _ (by omega)]; exact rS i 2 7 (by omega) (by omega) (by omega) rfl
      · intro i hi; rw [hwv _ (by omega)]; exact rS i 2 8 (by omega) (by omega) (by omega) rfl
      · intro i hi; rw [hwv _ (by omega)]; exact rS i 5 0 (by omega) (by omega) (by omega) rfl
    · have i4 : ∀ j : ℕ, j < 4 → T .witness (c.w (j : ℤ)) (srow + 1) = ((spread 4 (s.get j) : ℕ) : ZMod p) := fun j hj => by
        refine (rI 1 j (by omega) (by omega)).trans ?_
        simp only [inCell, hj, if_true, split_all H.h2]
      have i7 : ∀ j : ℕ, j < 4 → T .witness (c.w ((j + 4 : ℕ) : ℤ)) (srow + 1) = ((spread 7 (s.get (j + 4)) : ℕ) : ZMod p) := fun j hj => by
        refine (rI 1 (j + 4) (by omega) (by omega)).trans ?_
        simp only [inCell, show ¬ (j + 4 < 4) by omega, if_false, split_all H.h2]
      refine sat_roundCopies.2 ⟨⟨?_, ?_, ?_, ?_⟩, ?_, ?_, ?_, ?_, ?_⟩
      · exact (r0 2 6 (by omega) (by omega) rfl).trans (i7 1 (by omega)).symm
      · exact (r0 3 6 (by omega) (by omega) rfl).trans (i7 2 (by omega)).symm
      · exact (r0 6 6 (by omega) (by omega) rfl).trans (i4 1 (by omega)).symm
      · exact (r0 5 6 (by omega) (by omega) rfl).trans (i4 2 (by omega)).symm
      · intro r hr
        have e : ∀ k : ℤ, srow + 386 + 9 * (r : ℤ) + k + 9 = srow + 386 + 9 * ((r + 1 : ℕ) : ℤ) + k := fun k => by push_cast; ring
        rw [e 2, e 3, e 5, e 6, R26 _ (by omega), R25 _ (by omega), R36 _ (by omega), R26 _ (by omega), R56 _ (by omega), R66 _ (by omega), R66 _ (by omega),
          R65 _ (by omega)]
        exact ⟨rfl, rfl, rfl, rfl⟩
      · rw [hsv _ (by omega)]; exact r0 8 0 (by omega) (by omega) rfl
      · rw [hsv _ (by omega)]; exact r0 3 7 (by omega) (by omega) rfl
      · have := r0 0 0 (by omega) (by omega) rfl
        simp only [Nat.cast_zero, add_zero] at this
        rw [hsv _ (by omega), this]; rfl
      · rw [hsv _ (by omega)]; exact r0 3 8 (by omega) (by omega) rfl
    · refine sat_outCopies.2 fun i hi => ?_
      rw [hsv _ (by omega), hsv _ (by omega)]
      have h0 := rO 0 i (by omega) (by omega)
      have h1 := rO 2 i (by omega) (by omega)
      simp only [cells, Nat.cast_zero, add_zero, Nat.cast_ofNat] at h0 h1
      rw [h0, h1]
      simp only [outCell, hi, if_true, and_self]
  · intro i hi
    unfold result
    by_cases h : i < 4
    · rw [if_pos h, Cols.value_wa, show srow + 1110 - 3 = srow + 1106 + ((1 : ℕ) : ℤ) by push_cast; ring]
      refine (rO 1 i (by omega) (by omega)).trans ?_
      simp only [outCell, h, if_true]
      exact sum_W H _ _
    · obtain ⟨q, rfl⟩ : ∃ q, i = q + 4 := ⟨i - 4, by omega⟩
      rw [if_neg h, Cols.value_wa, show srow + 1110 - 1 = srow + 1106 + ((3 : ℕ) : ℤ) by push_cast; ring,
        show (((q + 4 : ℕ) : ℤ) - 4) = (q : ℤ) by push_cast; ring]
      refine (rO 3 q (by omega) (by omega)).trans ?_
      simp only [outCell, show q < 4 by omega, if_true]
      exact sum_W H _ _

/-! ## Claims -/

/-- `generate_assignments` fills the table of the standard. -/
theorem assign_eq (H : Large p) (s : Sha512Spec.State) (ws : ℕ → Word) {t₁ : Table (ZMod p)}
    (hst : ∀ i < 8, (inp.state i).value t₁ = W p (s.get i)) (hws : ∀ i < 16, (inp.words i).value t₁ = W p (ws i)) :
    assign c inp srow t₁ = honest c srow s ws t₁ := by
  have hsc : ∀ n, sched (fun i => (inp.words i).value t₁) n = W p (Sha512Spec.schedule ws n) := fun n => by
    rw [← sched_W H]
    induction n using Nat.strong_induction_on with
    | _ n ih =>
      rw [sched, sched.eq_1 (fun i => W p (ws i))]
      by_cases h : n < 16
      · rw [if_pos h, if_pos h]; exact hws n h
      · rw [if_neg h, if_neg h, ih (n - 15) (by omega), ih (n - 2) (by omega), ih (n - 7) (by omega), ih (n - 16) (by omega)]
  have hin : Work.init (fun i => (inp.state i).value t₁) = emb p s := by
    rw [← init_emb H]
    unfold Work.init
    simp only []
    rw [hst 0 (by omega), hst 1 (by omega), hst 2 (by omega), hst 3 (by omega), hst 4 (by omega), hst 5 (by omega), hst 6 (by omega), hst 7 (by omega)]
  unfold assign honest
  simp only [funext hsc]
  refine fill_congr fun r j hr hj hw => ?_
  unfold gridCell grid
  by_cases h1 : r < 2
  · have hj8 : j < 8 := by simpa [written, h1] using hw
    simp only [h1, if_true]
    rcases r with _ | _ | r
    · exact hst j hj8
    · simp only [inCell, hst j hj8]
    · omega
  · by_cases h2 : r < 386
    · simp only [h1, h2, if_true, if_false]
    · by_cases h3 : r < 1106
      · simp only [h1, h2, h3, if_true, if_false]
        rw [hin, run_emb H s _ _ (by omega)]
      · simp only [h1, h2, h3, if_false, hin, run_emb H s _ 80 le_rfl, emb_get]
        have hj8 : j < 8 := by simpa [written, h1, h2, h3] using hw
        obtain ⟨m, rfl⟩ : ∃ m, r = 1106 + m := ⟨r - 1106, by omega⟩
        rw [show 1106 + m - 1106 = m by omega]
        unfold outCell
        by_cases hj4 : j < 4
        · simp only [hj4, if_true, hst j hj8, hst (j + 4) (by omega)]
        · simp only [hj4, if_false, hst (j - 4) (by omega), hst j hj8]

/-- **C123.** The table filled by `generate_assignments` holds in its output cells the compression function of the standard, and it is accepted
exactly when the constant column with the number of the first *witness* column holds the round constants. -/
theorem sha512_honest (hp : 7 ^ 64 ≤ p) (hc : c.OK 9) (s : Sha512Spec.State) (ws : ℕ → Word) (t₀ : Table (ZMod p))
    (hst : ∀ i < 8, (inp.state i).Outside srow 1110 ∧ (inp.state i).value (writeConsts (circuit c inp srow) t₀) = W p (s.get i))
    (hws : ∀ i < 16, (inp.words i).Outside srow 1110 ∧ (inp.words i).value (writeConsts (circuit c inp srow) t₀) = W p (ws i)) :
    let t₁ := writeConsts (circuit c inp srow) t₀
    (Sat (assign c inp srow t₁) (circuit c inp srow) ↔ ∀ n : ℕ, n < 80 → t₁ .constant (c.w 0) (srow + 389 + 9 * (n : ℤ)) = W p (Sha512Spec.k n)) ∧
      Frame c srow 1110 t₁ (assign c inp srow t₁) ∧
      ∀ i < 8, (result c srow i).value (assign c inp srow t₁) = W p ((Sha512Spec.compress s ws).get i) := by
  intro t₁
  have H := large hp
  have hk : ∀ n : ℕ, n < 80 → t₁ .constant (c.k 0) (srow + 389 + 9 * (n : ℤ)) = kc p n := fun n hn => circuit_consts n hn
  change ∀ i < 8, (inp.state i).Outside srow 1110 ∧ (inp.state i).value t₁ = W p (s.get i) at hst
  change ∀ i < 16, (inp.words i).Outside srow 1110 ∧ (inp.words i).value t₁ = W p (ws i) at hws
  clear_value t₁
  have heq := assign_eq (c := c) (srow := srow) H s ws (fun i hi => (hst i hi).2) fun i hi => (hws i hi).2
  have := honest_sat (t := t₁) (inp := inp) H hc s ws hk hst hws
  rw [heq]
  refine ⟨this.1.trans (forall₂_congr fun n hn => by rw [kc_eq n hn]), this.2.1, fun i hi => (this.2.2 i hi).trans (by rw [Sha512Spec.compress, addState_get])⟩

/-- When the first constant column and the first witness column of the component have the same number the honest table is accepted. -/
theorem sha512_complete_partial (hp : 7 ^ 64 ≤ p) (hc : c.OK 9) (hcol : c.w 0 = c.k 0) (s : Sha512Spec.State) (ws : ℕ → Word) (t₀ : Table (ZMod p))
    (hst : ∀ i < 8, (inp.state i).Outside srow 1110 ∧ (inp.state i).value (writeConsts (circuit c inp srow) t₀) = W p (s.get i))
    (hws : ∀ i < 16, (inp.words i).Outside srow 1110 ∧ (inp.words i).value (writeConsts (circuit c inp srow) t₀) = W p (ws i)) :
    Sat (assign c inp srow (writeConsts (circuit c inp srow) t₀)) (circuit c inp srow) := by
  refine (sha512_honest hp hc s ws t₀ hst hws).1.2 fun n hn => ?_
  rw [hcol, circuit_consts n hn]; exact kc_eq n hn

/-- When they differ and the other constant column is empty, the honest table is rejected whatever the input. -/
theorem sha512_not_complete (hp : 7 ^ 64 ≤ p) (hc : c.OK 9) (hcol : c.w 0 ≠ c.k 0) (s : Sha512Spec.State) (ws : ℕ → Word) (t₀ : Table (ZMod p))
    (h0 : t₀ .constant (c.w 0) (srow + 389) = 0)
    (hst : ∀ i < 8, (inp.state i).Outside srow 1110 ∧ (inp.state i).value (writeConsts (circuit c inp srow) t₀) = W p (s.get i))
    (hws : ∀ i < 16, (inp.words i).Outside srow 1110 ∧ (inp.words i).value (writeConsts (circuit c inp srow) t₀) = W p (ws i)) :
    ¬ Sat (assign c inp srow (writeConsts (circuit c inp srow) t₀)) (circuit c inp srow) := by
  intro h
  have := (sha512_honest hp hc s ws t₀ hst hws).1.1 h 0 (by omega)
  rw [circuit_consts_ne hcol] at this
  simp only [Nat.cast_zero, mul_zero, add_zero] at this
  rw [h0] at this
  have h1 : W p (0 : Word) = W p (Sha512Spec.k 0) := by rw [← this]; simp [W]
  exact absurd (W_inj (large hp).h2 h1) (by decide)

end

/-! ## A case -/

/-- Nine columns; the state and the block come from the public input. -/
def exCols : Cols := ⟨List.range 9, [0], [0]⟩
/-- The same with the constants in column 1. -/
def exCols' : Cols := ⟨List.range 9, [1], [0]⟩
@[inherit_doc exCols] def exIn : In := ⟨fun i => ⟨0, i, false, .publicInput⟩, fun i => ⟨1, i, false, .publicInput⟩⟩

/-- The initial hash value and the padded message `abc`. -/
def exBlock (i : ℕ) : Word := if i = 0 then 0x6162638000000000 else if i = 15 then 24 else 0
@[inherit_doc exBlock] def exTable : Table (ZMod pallasP) := fun ty col row =>
  if ty = .publicInput then (if col = 0 then W pallasP (Sha512Spec.iv.get row.toNat) else W pallasP (exBlock row.toNat)) else 0

theorem exCols_ok : exCols.OK 9 := ⟨List.nodup_range, rfl⟩
theorem exCols_ok' : exCols'.OK 9 := ⟨List.nodup_range, rfl⟩

theorem exState (ops : List (Op (ZMod pallasP))) (i : ℕ) :
    (exIn.state i).Outside 0 1110 ∧ (exIn.state i).value (writeConsts ops exTable) = W pallasP (Sha512Spec.iv.get i) :=
  ⟨fun h => by simp [exIn] at h, by
    rw [Sha256.value_writeConsts _ _ _ (by simp [exIn])]; simp [exTable, exIn, Var.value]⟩

theorem exWords (ops : List (Op (ZMod pallasP))) (i : ℕ) :
    (exIn.words i).Outside 0 1110 ∧ (exIn.words i).value (writeConsts ops exTable) = W pallasP (exBlock i) :=
  ⟨fun h => by simp [exIn] at h, by
    rw [Sha256.value_writeConsts _ _ _ (by simp [exIn])]; simp [exTable, exIn, Var.value]⟩

theorem pallas_large : 7 ^ 64 ≤ pallasP := by norm_num [pallasP]

/-- The digest of `abc` is accepted … -/
example : Sat (assign exCols exIn 0 (writeConsts (circuit exCols exIn 0) exTable)) (circuit exCols exIn 0) :=
  sha512_complete_partial pallas_large exCols_ok rfl Sha512Spec.iv exBlock exTable (fun i _ => exState _ i) fun i _ => exWords _ i

/-- … not with the constants in column 1 … -/
example : ¬ Sat (assign exCols' exIn 0 (writeConsts (circuit exCols' exIn 0) exTable)) (circuit exCols' exIn 0) :=
  sha512_not_complete pallas_large exCols_ok' (by decide) Sha512Spec.iv exBlock exTable rfl (fun i _ => exState _ i) fun i _ => exWords _ i

/-- … and a digest of eight zero words is accepted for the same message. -/
example : ∃ t', Sat t' (circuit exCols exIn 0) ∧ (∀ i < 16, (exIn.words i).value t' = W pallasP (exBlock i)) ∧
    ∀ i < 8, (result exCols 0 i).value t' = 0 := by
  obtain ⟨t', h1, -, -, h2, h3⟩ := sha512_any_output (F := ZMod pallasP) (by
      have h := two64_ne (large pallas_large); intro h0; rw [h0] at h; simp at h)
    exCols_ok (fun i => W pallasP (Sha512Spec.iv.get i)) (fun i => W pallasP (exBlock i)) (fun _ => 0) exTable
    (fun i _ => exState _ i) fun i _ => exWords _ i
  exact ⟨t', h1, h2, h3⟩

end Sha512
end Verif
