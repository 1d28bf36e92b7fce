import Verif.Props.Sha512Gates

/-!
# `sha512_process`: the circuit accepts every output
-/

set_option linter.unusedSimpArgs false
set_option linter.unusedSectionVars false

namespace Verif
namespace Sha512

variable {F : Type*} [Field F] {c : Cols} {inp : In} {srow : ℤ} {t : Table F}

/-- The words of a step in an accepted table: chunks hold the whole word divided by the weight of the chunk, everything else is zero. -/
def fakeSched (v : ℕ → F) (n m j : ℕ) : F :=
  match m, j with
  | 0, 0 => v (n + 1)
  | 0, 7 => v (n + 1) * (2 ^ 50)⁻¹
  | 2, 7 => v (n + 9)
  | 2, 8 => v n
  | 3, 5 => v (n + 9) + v n
  | 5, 0 => v (n + 14)
  | 5, 5 => v (n + 14) * (2 ^ 47)⁻¹
  | _, _ => 0

/-- A round in an accepted table. -/
def fakeRound (a d e h : F) (κ : F) (m j : ℕ) : F :=
  match m, j with
  | 0, 0 => e
  | 0, 6 => e * (2 ^ 55)⁻¹
  | 3, 7 => d
  | 3, 8 => h
  | 4, 1 => h + κ
  | 4, 2 => h + κ + d
  | 5, 7 => h + κ
  | 8, 0 => a
  | 8, 6 => a * (2 ^ 53)⁻¹
  | _, _ => 0

/-- The output in an accepted table. -/
def fakeOut (st out : ℕ → F) (m j : ℕ) : F :=
  match m, j with
  | 0, 0 => st 0
  | 0, 1 => st 1
  | 0, 2 => st 2
  | 0, 3 => st 3
  | 0, 4 => out 0 - st 0
  | 0, 5 => out 1 - st 1
  | 0, 6 => out 2 - st 2
  | 0, 7 => out 3 - st 3
  | 1, 0 => out 0
  | 1, 1 => out 1
  | 1, 2 => out 2
  | 1, 3 => out 3
  | 2, 0 => st 4
  | 2, 1 => st 5
  | 2, 2 => st 6
  | 2, 3 => st 7
  | 2, 4 => out 4 - st 4
  | 2, 5 => out 5 - st 5
  | 2, 6 => out 6 - st 6
  | 2, 7 => out 7 - st 7
  | 3, 0 => out 4
  | 3, 1 => out 5
  | 3, 2 => out 6
  | 3, 3 => out 7
  | _, _ => 0

theorem fakeSched_ok (h2 : (2 : F) ≠ 0) (v : ℕ → F) (n : ℕ) {x : ℤ → ℤ → F}
    (hx : ∀ m j : ℕ, m < 6 → j < 9 → written (2 + m) j = true → x (m : ℤ) (j : ℤ) = fakeSched v n m j) : SchedBlock x := by
  have x00 : x 0 0 = v (n + 1) := (hx 0 0 (by omega) (by omega) rfl).trans rfl
  have x01 : x 0 1 = 0 := (hx 0 1 (by omega) (by omega) rfl).trans rfl
  have x02 : x 0 2 = 0 := (hx 0 2 (by omega) (by omega) rfl).trans rfl
  have x03 : x 0 3 = 0 := (hx 0 3 (by omega) (by omega) rfl).trans rfl
  have x04 : x 0 4 = 0 := (hx 0 4 (by omega) (by omega) rfl).trans rfl
  have x05 : x 0 5 = 0 := (hx 0 5 (by omega) (by omega) rfl).trans rfl
  have x06 : x 0 6 = 0 := (hx 0 6 (by omega) (by omega) rfl).trans rfl
  have x07 : x 0 7 = v (n + 1) * (2 ^ 50)⁻¹ := (hx 0 7 (by omega) (by omega) rfl).trans rfl
  have x08 : x 0 8 = 0 := (hx 0 8 (by omega) (by omega) rfl).trans rfl
  have x10 : x 1 0 = 0 := (hx 1 0 (by omega) (by omega) rfl).trans rfl
  have x11 : x 1 1 = 0 := (hx 1 1 (by omega) (by omega) rfl).trans rfl
  have x12 : x 1 2 = 0 := (hx 1 2 (by omega) (by omega) rfl).trans rfl
  have x13 : x 1 3 = 0 := (hx 1 3 (by omega) (by omega) rfl).trans rfl
  have x14 : x 1 4 = 0 := (hx 1 4 (by omega) (by omega) rfl).trans rfl
  have x15 : x 1 5 = 0 := (hx 1 5 (by omega) (by omega) rfl).trans rfl
  have x16 : x 1 6 = 0 := (hx 1 6 (by omega) (by omega) rfl).trans rfl
  have x17 : x 1 7 = 0 := (hx 1 7 (by omega) (by omega) rfl).trans rfl
  have x18 : x 1 8 = 0 := (hx 1 8 (by omega) (by omega) rfl).trans rfl
  have x20 : x 2 0 = 0 := (hx 2 0 (by omega) (by omega) rfl).trans rfl
  have x21 : x 2 1 = 0 := (hx 2 1 (by omega) (by omega) rfl).trans rfl
  have x22 : x 2 2 = 0 := (hx 2 2 (by omega) (by omega) rfl).trans rfl
  have x23 : x 2 3 = 0 := (hx 2 3 (by omega) (by omega) rfl).trans rfl
  have x24 : x 2 4 = 0 := (hx 2 4 (by omega) (by omega) rfl).trans rfl
  have x25 : x 2 5 = 0 := (hx 2 5 (by omega) (by omega) rfl).trans rfl
  have x26 : x 2 6 = 0 := (hx 2 6 (by omega) (by omega) rfl).trans rfl
  have x27 : x 2 7 = v (n + 9) := (hx 2 7 (by omega) (by omega) rfl).trans rfl
  have x28 : x 2 8 = v n := (hx 2 8 (by omega) (by omega) rfl).trans rfl
  have x30 : x 3 0 = 0 := (hx 3 0 (by omega) (by omega) rfl).trans rfl
  have x31 : x 3 1 = 0 := (hx 3 1 (by omega) (by omega) rfl).trans rfl
  have x32 : x 3 2 = 0 := (hx 3 2 (by omega) (by omega) rfl).trans rfl
  have x33 : x 3 3 = 0 := (hx 3 3 (by omega) (by omega) rfl).trans rfl
  have x34 : x 3 4 = 0 := (hx 3 4 (by omega) (by omega) rfl).trans rfl
  have x35 : x 3 5 = v (n + 9) + v n := (hx 3 5 (by omega) (by omega) rfl).trans rfl
  have x36 : x 3 6 = 0 := (hx 3 6 (by omega) (by omega) rfl).trans rfl
  have x40 : x 4 0 = 0 := (hx 4 0 (by omega) (by omega) rfl).trans rfl
  have x41 : x 4 1 = 0 := (hx 4 1 (by omega) (by omega) rfl).trans rfl
  have x42 : x 4 2 = 0 := (hx 4 2 (by omega) (by omega) rfl).trans rfl
  have x43 : x 4 3 = 0 := (hx 4 3 (by omega) (by omega) rfl).trans rfl
  have x44 : x 4 4 = 0 := (hx 4 4 (by omega) (by omega) rfl).trans rfl
  have x45 : x 4 5 = 0 := (hx 4 5 (by omega) (by omega) rfl).trans rfl
  have x46 : x 4 6 = 0 := (hx 4 6 (by omega) (by omega) rfl).trans rfl
  have x47 : x 4 7 = 0 := (hx 4 7 (by omega) (by omega) rfl).trans rfl
  have x48 : x 4 8 = 0 := (hx 4 8 (by omega) (by omega) rfl).trans rfl
  have x50 : x 5 0 = v (n + 14) := (hx 5 0 (by omega) (by omega) rfl).trans rfl
  have x51 : x 5 1 = 0 := (hx 5 1 (by omega) (by omega) rfl).trans rfl
  have x52 : x 5 2 = 0 := (hx 5 2 (by omega) (by omega) rfl).trans rfl
  have x53 : x 5 3 = 0 := (hx 5 3 (by omega) (by omega) rfl).trans rfl
  have x54 : x 5 4 = 0 := (hx 5 4 (by omega) (by omega) rfl).trans rfl
  have x55 : x 5 5 = v (n + 14) * (2 ^ 47)⁻¹ := (hx 5 5 (by omega) (by omega) rfl).trans rfl
  have x56 : x 5 6 = 0 := (hx 5 6 (by omega) (by omega) rfl).trans rfl
  have x57 : x 5 7 = 0 := (hx 5 7 (by omega) (by omega) rfl).trans rfl
  have x58 : x 5 8 = 0 := (hx 5 8 (by omega) (by omega) rfl).trans rfl
  unfold SchedBlock Sigma0OK Sigma1OK SchedOK
  simp only [Int.reduceAdd, Int.reduceNeg, x00, x01, x02, x03, x04, x05, x06, x07, x08, x10, x11, x12, x13, x14, x15, x16, x17, x18, x20, x21, x22, x23, x24, x25, x26, x27, x28, x30, x31, x32, x33, x34, x35, x36, x40, x41, x42, x43, x44, x45, x46, x47, x48, x50, x51, x52, x53, x54, x55, x56, x57, x58]
  have e50 : v (n + 1) * (2 ^ 50)⁻¹ * ((2 ^ 50 : ℕ) : F) = v (n + 1) := by
    rw [Nat.cast_pow, Nat.cast_ofNat]; exact inv_mul_cancel_right₀ (pow_ne_zero _ h2) _
  have e47 : v (n + 14) * (2 ^ 47)⁻¹ * ((2 ^ 47 : ℕ) : F) = v (n + 14) := by
    rw [Nat.cast_pow, Nat.cast_ofNat]; exact inv_mul_cancel_right₀ (pow_ne_zero _ h2) _
  rw [e50, e47]
  refine ⟨⟨?_, ?_, ?_, ?_⟩, ⟨?_, ?_, ?_⟩, ?_, ?_⟩ <;> ring

theorem fakeRound_ok (h2 : (2 : F) ≠ 0) (a d e h κ : F) {x : ℤ → ℤ → F}
    (hx : ∀ m j : ℕ, m < 9 → j < 9 → written (386 + m) j = true → x (m : ℤ) (j : ℤ) = fakeRound a d e h κ m j) : RoundBlock x κ := by
  have x00 : x 0 0 = e := (hx 0 0 (by omega) (by omega) rfl).trans rfl
  have x01 : x 0 1 = 0 := (hx 0 1 (by omega) (by omega) rfl).trans rfl
  have x02 : x 0 2 = 0 := (hx 0 2 (by omega) (by omega) rfl).trans rfl
  have x03 : x 0 3 = 0 := (hx 0 3 (by omega) (by omega) rfl).trans rfl
  have x04 : x 0 4 = 0 := (hx 0 4 (by omega) (by omega) rfl).trans rfl
  have x05 : x 0 5 = 0 := (hx 0 5 (by omega) (by omega) rfl).trans rfl
  have x06 : x 0 6 = e * (2 ^ 55)⁻¹ := (hx 0 6 (by omega) (by omega) rfl).trans rfl
  have x07 : x 0 7 = 0 := (hx 0 7 (by omega) (by omega) rfl).trans rfl
  have x08 : x 0 8 = 0 := (hx 0 8 (by omega) (by omega) rfl).trans rfl
  have x10 : x 1 0 = 0 := (hx 1 0 (by omega) (by omega) rfl).trans rfl
  have x11 : x 1 1 = 0 := (hx 1 1 (by omega) (by omega) rfl).trans rfl
  have x12 : x 1 2 = 0 := (hx 1 2 (by omega) (by omega) rfl).trans rfl
  have x13 : x 1 3 = 0 := (hx 1 3 (by omega) (by omega) rfl).trans rfl
  have x14 : x 1 4 = 0 := (hx 1 4 (by omega) (by omega) rfl).trans rfl
  have x15 : x 1 5 = 0 := (hx 1 5 (by omega) (by omega) rfl).trans rfl
  have x16 : x 1 6 = 0 := (hx 1 6 (by omega) (by omega) rfl).trans rfl
  have x17 : x 1 7 = 0 := (hx 1 7 (by omega) (by omega) rfl).trans rfl
  have x18 : x 1 8 = 0 := (hx 1 8 (by omega) (by omega) rfl).trans rfl
  have x20 : x 2 0 = 0 := (hx 2 0 (by omega) (by omega) rfl).trans rfl
  have x21 : x 2 1 = 0 := (hx 2 1 (by omega) (by omega) rfl).trans rfl
  have x22 : x 2 2 = 0 := (hx 2 2 (by omega) (by omega) rfl).trans rfl
  have x23 : x 2 3 = 0 := (hx 2 3 (by omega) (by omega) rfl).trans rfl
  have x24 : x 2 4 = 0 := (hx 2 4 (by omega) (by omega) rfl).trans rfl
  have x25 : x 2 5 = 0 := (hx 2 5 (by omega) (by omega) rfl).trans rfl
  have x26 : x 2 6 = 0 := (hx 2 6 (by omega) (by omega) rfl).trans rfl
  have x27 : x 2 7 = 0 := (hx 2 7 (by omega) (by omega) rfl).trans rfl
  have x28 : x 2 8 = 0 := (hx 2 8 (by omega) (by omega) rfl).trans rfl
  have x30 : x 3 0 = 0 := (hx 3 0 (by omega) (by omega) rfl).trans rfl
  have x31 : x 3 1 = 0 := (hx 3 1 (by omega) (by omega) rfl).trans rfl
  have x32 : x 3 2 = 0 := (hx 3 2 (by omega) (by omega) rfl).trans rfl
  have x33 : x 3 3 = 0 := (hx 3 3 (by omega) (by omega) rfl).trans rfl
  have x34 : x 3 4 = 0 := (hx 3 4 (by omega) (by omega) rfl).trans rfl
  have x35 : x 3 5 = 0 := (hx 3 5 (by omega) (by omega) rfl).trans rfl
  have x36 : x 3 6 = 0 := (hx 3 6 (by omega) (by omega) rfl).trans rfl
  have x37 : x 3 7 = d := (hx 3 7 (by omega) (by omega) rfl).trans rfl
  have x38 : x 3 8 = h := (hx 3 8 (by omega) (by omega) rfl).trans rfl
  have x40 : x 4 0 = 0 := (hx 4 0 (by omega) (by omega) rfl).trans rfl
  have x41 : x 4 1 = h + κ := (hx 4 1 (by omega) (by omega) rfl).trans rfl
  have x42 : x 4 2 = h + κ + d := (hx 4 2 (by omega) (by omega) rfl).trans rfl
  have x43 : x 4 3 = 0 := (hx 4 3 (by omega) (by omega) rfl).trans rfl
  have x50 : x 5 0 = 0 := (hx 5 0 (by omega) (by omega) rfl).trans rfl
  have x51 : x 5 1 = 0 := (hx 5 1 (by omega) (by omega) rfl).trans rfl
  have x52 : x 5 2 = 0 := (hx 5 2 (by omega) (by omega) rfl).trans rfl
  have x53 : x 5 3 = 0 := (hx 5 3 (by omega) (by omega) rfl).trans rfl
  have x54 : x 5 4 = 0 := (hx 5 4 (by omega) (by omega) rfl).trans rfl
  have x55 : x 5 5 = 0 := (hx 5 5 (by omega) (by omega) rfl).trans rfl
  have x56 : x 5 6 = 0 := (hx 5 6 (by omega) (by omega) rfl).trans rfl
  have x57 : x 5 7 = h + κ := (hx 5 7 (by omega) (by omega) rfl).trans rfl
  have x58 : x 5 8 = 0 := (hx 5 8 (by omega) (by omega) rfl).trans rfl
  have x60 : x 6 0 = 0 := (hx 6 0 (by omega) (by omega) rfl).trans rfl
  have x61 : x 6 1 = 0 := (hx 6 1 (by omega) (by omega) rfl).trans rfl
  have x62 : x 6 2 = 0 := (hx 6 2 (by omega) (by omega) rfl).trans rfl
  have x63 : x 6 3 = 0 := (hx 6 3 (by omega) (by omega) rfl).trans rfl
  have x64 : x 6 4 = 0 := (hx 6 4 (by omega) (by omega) rfl).trans rfl
  have x65 : x 6 5 = 0 := (hx 6 5 (by omega) (by omega) rfl).trans rfl
  have x66 : x 6 6 = 0 := (hx 6 6 (by omega) (by omega) rfl).trans rfl
  have x67 : x 6 7 = 0 := (hx 6 7 (by omega) (by omega) rfl).trans rfl
  have x68 : x 6 8 = 0 := (hx 6 8 (by omega) (by omega) rfl).trans rfl
  have x70 : x 7 0 = 0 := (hx 7 0 (by omega) (by omega) rfl).trans rfl
  have x71 : x 7 1 = 0 := (hx 7 1 (by omega) (by omega) rfl).trans rfl
  have x72 : x 7 2 = 0 := (hx 7 2 (by omega) (by omega) rfl).trans rfl
  have x73 : x 7 3 = 0 := (hx 7 3 (by omega) (by omega) rfl).trans rfl
  have x74 : x 7 4 = 0 := (hx 7 4 (by omega) (by omega) rfl).trans rfl
  have x75 : x 7 5 = 0 := (hx 7 5 (by omega) (by omega) rfl).trans rfl
  have x76 : x 7 6 = 0 := (hx 7 6 (by omega) (by omega) rfl).trans rfl
  have x77 : x 7 7 = 0 := (hx 7 7 (by omega) (by omega) rfl).trans rfl
  have x78 : x 7 8 = 0 := (hx 7 8 (by omega) (by omega) rfl).trans rfl
  have x80 : x 8 0 = a := (hx 8 0 (by omega) (by omega) rfl).trans rfl
  have x81 : x 8 1 = 0 := (hx 8 1 (by omega) (by omega) rfl).trans rfl
  have x82 : x 8 2 = 0 := (hx 8 2 (by omega) (by omega) rfl).trans rfl
  have x83 : x 8 3 = 0 := (hx 8 3 (by omega) (by omega) rfl).trans rfl
  have x84 : x 8 4 = 0 := (hx 8 4 (by omega) (by omega) rfl).trans rfl
  have x85 : x 8 5 = 0 := (hx 8 5 (by omega) (by omega) rfl).trans rfl
  have x86 : x 8 6 = a * (2 ^ 53)⁻¹ := (hx 8 6 (by omega) (by omega) rfl).trans rfl
  have x87 : x 8 7 = 0 := (hx 8 7 (by omega) (by omega) rfl).trans rfl
  have x88 : x 8 8 = 0 := (hx 8 8 (by omega) (by omega) rfl).trans rfl
  unfold RoundBlock BigSigma1OK BigSigma0OK ChOK MajOK EOK AOK
  simp only [Int.reduceAdd, Int.reduceNeg, x00, x01, x02, x03, x04, x05, x06, x07, x08, x10, x11, x12, x13, x14, x15, x16, x17, x18, x20, x21, x22, x23, x24, x25, x26, x27, x28, x30, x31, x32, x33, x34, x35, x36, x37, x38, x40, x41, x42, x43, x50, x51, x52, x53, x54, x55, x56, x57, x58, x60, x61, x62, x63, x64, x65, x66, x67, x68, x70, x71, x72, x73, x74, x75, x76, x77, x78, x80, x81, x82, x83, x84, x85, x86, x87, x88]
  have e55 : e * (2 ^ 55)⁻¹ * ((2 ^ 55 : ℕ) : F) = e := by
    rw [Nat.cast_pow, Nat.cast_ofNat]; exact inv_mul_cancel_right₀ (pow_ne_zero _ h2) _
  have e53 : a * (2 ^ 53)⁻¹ * ((2 ^ 53 : ℕ) : F) = a := by
    rw [Nat.cast_pow, Nat.cast_ofNat]; exact inv_mul_cancel_right₀ (pow_ne_zero _ h2) _
  rw [e55, e53]
  refine ⟨⟨?_, ?_, ?_⟩, ⟨?_, ?_⟩, ?_, ?_, ⟨?_, ?_, ?_⟩, ?_, ?_⟩ <;> ring

theorem fakeOut_ok (st out : ℕ → F) {x : ℤ → ℤ → F}
    (hx : ∀ m j : ℕ, m < 4 → j < 8 → x (m : ℤ) (j : ℤ) = fakeOut st out m j) : OutBlock x := by
  have x00 : x 0 0 = st 0 := (hx 0 0 (by omega) (by omega)).trans rfl
  have x01 : x 0 1 = st 1 := (hx 0 1 (by omega) (by omega)).trans rfl
  have x02 : x 0 2 = st 2 := (hx 0 2 (by omega) (by omega)).trans rfl
  have x03 : x 0 3 = st 3 := (hx 0 3 (by omega) (by omega)).trans rfl
  have x04 : x 0 4 = out 0 - st 0 := (hx 0 4 (by omega) (by omega)).trans rfl
  have x05 : x 0 5 = out 1 - st 1 := (hx 0 5 (by omega) (by omega)).trans rfl
  have x06 : x 0 6 = out 2 - st 2 := (hx 0 6 (by omega) (by omega)).trans rfl
  have x07 : x 0 7 = out 3 - st 3 := (hx 0 7 (by omega) (by omega)).trans rfl
  have x10 : x 1 0 = out 0 := (hx 1 0 (by omega) (by omega)).trans rfl
  have x11 : x 1 1 = out 1 := (hx 1 1 (by omega) (by omega)).trans rfl
  have x12 : x 1 2 = out 2 := (hx 1 2 (by omega) (by omega)).trans rfl
  have x13 : x 1 3 = out 3 := (hx 1 3 (by omega) (by omega)).trans rfl
  have x14 : x 1 4 = 0 := (hx 1 4 (by omega) (by omega)).trans rfl
  have x15 : x 1 5 = 0 := (hx 1 5 (by omega) (by omega)).trans rfl
  have x16 : x 1 6 = 0 := (hx 1 6 (by omega) (by omega)).trans rfl
  have x17 : x 1 7 = 0 := (hx 1 7 (by omega) (by omega)).trans rfl
  have x20 : x 2 0 = st 4 := (hx 2 0 (by omega) (by omega)).trans rfl
  have x21 : x 2 1 = st 5 := (hx 2 1 (by omega) (by omega)).trans rfl
  have x22 : x 2 2 = st 6 := (hx 2 2 (by omega) (by omega)).trans rfl
  have x23 : x 2 3 = st 7 := (hx 2 3 (by omega) (by omega)).trans rfl
  have x24 : x 2 4 = out 4 - st 4 := (hx 2 4 (by omega) (by omega)).trans rfl
  have x25 : x 2 5 = out 5 - st 5 := (hx 2 5 (by omega) (by omega)).trans rfl
  have x26 : x 2 6 = out 6 - st 6 := (hx 2 6 (by omega) (by omega)).trans rfl
  have x27 : x 2 7 = out 7 - st 7 := (hx 2 7 (by omega) (by omega)).trans rfl
  have x30 : x 3 0 = out 4 := (hx 3 0 (by omega) (by omega)).trans rfl
  have x31 : x 3 1 = out 5 := (hx 3 1 (by omega) (by omega)).trans rfl
  have x32 : x 3 2 = out 6 := (hx 3 2 (by omega) (by omega)).trans rfl
  have x33 : x 3 3 = out 7 := (hx 3 3 (by omega) (by omega)).trans rfl
  have x34 : x 3 4 = 0 := (hx 3 4 (by omega) (by omega)).trans rfl
  have x35 : x 3 5 = 0 := (hx 3 5 (by omega) (by omega)).trans rfl
  have x36 : x 3 6 = 0 := (hx 3 6 (by omega) (by omega)).trans rfl
  have x37 : x 3 7 = 0 := (hx 3 7 (by omega) (by omega)).trans rfl
  unfold OutBlock OutOK
  simp only [Int.reduceAdd, x00, x01, x02, x03, x04, x05, x06, x07, x10, x11, x12, x13, x14, x15, x16, x17, x20, x21, x22, x23, x24, x25, x26, x27, x30, x31, x32, x33, x34, x35, x36, x37]
  refine ⟨⟨?_, ?_, ?_, ?_⟩, ?_, ?_, ?_, ?_⟩ <;> ring

/-- The forged table, for a table that holds the round constants. -/
theorem forged (h2 : (2 : F) ≠ 0) (hc : c.OK 9) (st ws out : ℕ → F) (t₁ : Table F)
    (hk : ∀ n : ℕ, n < 80 → t₁ .constant (c.k 0) (srow + 389 + 9 * (n : ℤ)) = ((roundConstant.getD n 0 : ℕ) : F))
    (hst : ∀ i < 8, (inp.state i).Outside srow 1110 ∧ (inp.state i).value t₁ = st i)
    (hws : ∀ i < 16, (inp.words i).Outside srow 1110 ∧ (inp.words i).value t₁ = ws i) :
    ∃ t', Sat t' (circuit c inp srow) ∧ Frame c srow 1110 t₁ t' ∧
      (∀ i < 8, (inp.state i).value t' = st i) ∧ (∀ i < 16, (inp.words i).value t' = ws i) ∧
      ∀ i < 8, (result c srow i).value t' = out i := by
  obtain ⟨κ, hκ⟩ : ∃ κ : ℕ → F, ∀ n : ℕ, t₁ .constant (c.w 0) (srow + 389 + 9 * (n : ℤ)) = κ n := ⟨_, fun _ => rfl⟩
  obtain ⟨T, hT⟩ : ∃ T, T = fill c srow (grid (fun _ _ => 0) (fakeSched ws)
    (fun n => if n = 0 then fakeRound (st 0) (st 3) (st 4) (st 7) (κ n) else fakeRound 0 0 0 0 (κ n)) (fakeOut st out)) t₁ := ⟨_, rfl⟩
  have hf : Frame c srow 1110 t₁ T := hT ▸ fill_frame hc _
  have rI : ∀ m j : ℕ, m < 2 → j < 8 → T .witness (c.w (j : ℤ)) (srow + (m : ℤ)) = 0 := fun m j hm hj => by
    rw [hT]; exact read_in _ _ _ _ hc m j hm hj
  have rS : ∀ n m j : ℕ, n < 64 → m < 6 → j < 9 → written (2 + m) j = true →
      cells T c (srow + 2 + 6 * (n : ℤ)) (m : ℤ) (j : ℤ) = fakeSched ws n m j := fun n m j hn hm hj hw => by
    rw [hT]; exact read_sched _ _ _ _ hc n m j hn hm hj hw
  have rR : ∀ n m j : ℕ, n < 80 → m < 9 → j < 9 → written (386 + m) j = true →
      cells T c (srow + 386 + 9 * (n : ℤ)) (m : ℤ) (j : ℤ) =
        (if n = 0 then fakeRound (st 0) (st 3) (st 4) (st 7) (κ n) else fakeRound 0 0 0 0 (κ n)) m j := fun n m j hn hm hj hw => by
    rw [hT]; exact read_round _ _ _ _ hc n m j hn hm hj hw
  have rO : ∀ m j : ℕ, m < 4 → j < 8 → cells T c (srow + 1106) (m : ℤ) (j : ℤ) = fakeOut st out m j := fun m j hm hj => by
    rw [hT]; exact read_out _ _ _ _ hc m j hm hj
  clear hT
  have hwv : ∀ i < 16, (inp.words i).value T = ws i := fun i hi => by rw [hf.outside (hws i hi).1, (hws i hi).2]
  have hsv : ∀ i < 8, (inp.state i).value T = st i := fun i hi => by rw [hf.outside (hst i hi).1, (hst i hi).2]
  have z : ∀ n m j : ℕ, n < 80 → m < 9 → j < 9 → written (386 + m) j = true → (∀ a d e h k : F, fakeRound a d e h k m j = 0) →
      T .witness (c.w (j : ℤ)) (srow + 386 + 9 * (n : ℤ) + (m : ℤ)) = 0 := fun n m j hn hm hj hw hz => by
    refine (rR n m j hn hm hj hw).trans ?_
    by_cases h : n = 0
    · rw [if_pos h]; exact hz _ _ _ _ _
    · rw [if_neg h]; exact hz _ _ _ _ _
  have z26 : ∀ n : ℕ, n < 80 → T .witness (c.w 6) (srow + 386 + 9 * (n : ℤ) + 2) = 0 := fun n hn => z n 2 6 hn (by omega) (by omega) rfl fun _ _ _ _ _ => rfl
  have z25 : ∀ n : ℕ, n < 80 → T .witness (c.w 5) (srow + 386 + 9 * (n : ℤ) + 2) = 0 := fun n hn => z n 2 5 hn (by omega) (by omega) rfl fun _ _ _ _ _ => rfl
  have z36 : ∀ n : ℕ, n < 80 → T .witness (c.w 6) (srow + 386 + 9 * (n : ℤ) + 3) = 0 := fun n hn => z n 3 6 hn (by omega) (by omega) rfl fun _ _ _ _ _ => rfl
  have z56 : ∀ n : ℕ, n < 80 → T .witness (c.w 6) (srow + 386 + 9 * (n : ℤ) + 5) = 0 := fun n hn => z n 5 6 hn (by omega) (by omega) rfl fun _ _ _ _ _ => rfl
  have z66 : ∀ n : ℕ, n < 80 → T .witness (c.w 6) (srow + 386 + 9 * (n : ℤ) + 6) = 0 := fun n hn => z n 6 6 hn (by omega) (by omega) rfl fun _ _ _ _ _ => rfl
  have z65 : ∀ n : ℕ, n < 80 → T .witness (c.w 5) (srow + 386 + 9 * (n : ℤ) + 6) = 0 := fun n hn => z n 6 5 hn (by omega) (by omega) rfl fun _ _ _ _ _ => rfl
  refine ⟨T, sat_iff.2 ⟨?_, ?_, ?_, ?_, ?_, ?_, ?_⟩, hf, hsv, hwv, ?_⟩
  · intro n hn
    exact fakeSched_ok h2 ws n fun m j hm hj hw => rS n m j hn hm hj hw
  · intro n hn; exact (hf.const _ _).trans (hk n hn)
  · intro n hn
    rw [(hf.const _ _).trans (hκ n)]
    by_cases h : n = 0
    · exact fakeRound_ok h2 (st 0) (st 3) (st 4) (st 7) (κ n) fun m j hm hj hw => (rR n m j hn hm hj hw).trans (by rw [if_pos h])
    · exact fakeRound_ok h2 0 0 0 0 (κ n) fun m j hm hj hw => (rR n m j hn hm hj hw).trans (by rw [if_neg h])
  · exact fakeOut_ok st out rO
  · refine sat_schedCopies.2 ⟨?_, ?_, ?_, ?_⟩
    · intro i hi
      have := rS i 0 0 (by omega) (by omega) (by omega) rfl
      simp only [cells, Nat.cast_zero, add_zero] at this
      rw [this, hwv _ (by omega)]; rfl
    · intro i hi; rw [hwv _ (by omega)]; exact rS i 2 7 (by omega) (by omega) (by omega) rfl
    · intro i hi; rw [hwv _ (by omega)]; exact rS i 2 8 (by omega) (by omega) (by omega) rfl
    · intro i hi; rw [hwv _ (by omega)]; exact rS i 5 0 (by omega) (by omega) (by omega) rfl
  · have r0 : ∀ m j : ℕ, m < 9 → j < 9 → written (386 + m) j = true → T .witness (c.w (j : ℤ)) (srow + 386 + (m : ℤ)) =
        fakeRound (st 0) (st 3) (st 4) (st 7) (κ 0) m j := fun m j hm hj hw => by
      have := rR 0 m j (by omega) hm hj hw
      simp only [cells, Nat.cast_zero, mul_zero, add_zero, if_true] at this; exact this
    refine sat_roundCopies.2 ⟨⟨?_, ?_, ?_, ?_⟩, ?_, ?_, ?_, ?_, ?_⟩
    · exact (r0 2 6 (by omega) (by omega) rfl).trans (rI 1 5 (by omega) (by omega)).symm
    · exact (r0 3 6 (by omega) (by omega) rfl).trans (rI 1 6 (by omega) (by omega)).symm
    · exact (r0 6 6 (by omega) (by omega) rfl).trans (rI 1 1 (by omega) (by omega)).symm
    · exact (r0 5 6 (by omega) (by omega) rfl).trans (rI 1 2 (by omega) (by omega)).symm
    · intro r hr
      have e : ∀ k : ℤ, srow + 386 + 9 * (r : ℤ) + k + 9 = srow + 386 + 9 * ((r + 1 : ℕ) : ℤ) + k := fun k => by push_cast; ring
      rw [e 2, e 3, e 5, e 6, z26 _ (by omega), z25 _ (by omega), z36 _ (by omega), z26 _ (by omega), z56 _ (by omega), z66 _ (by omega), z66 _ (by omega),
        z65 _ (by omega)]
      exact ⟨rfl, rfl, rfl, rfl⟩
    · rw [hsv _ (by omega)]; exact r0 8 0 (by omega) (by omega) rfl
    · rw [hsv _ (by omega)]; exact r0 3 7 (by omega) (by omega) rfl
    · have := r0 0 0 (by omega) (by omega) rfl
      simp only [Nat.cast_zero, add_zero] at this
      rw [hsv _ (by omega), this]; rfl
    · rw [hsv _ (by omega)]; exact r0 3 8 (by omega) (by omega) rfl
  · refine sat_outCopies.2 fun i hi => ?_
    rw [hsv _ (by omega), hsv _ (by omega)]
    have h0 := rO 0 i (by omega) (by omega)
    have h1 := rO 2 i (by omega) (by omega)
    simp only [cells, Nat.cast_zero, add_zero, Nat.cast_ofNat] at h0 h1
    rw [h0, h1]
    interval_cases i <;> exact ⟨rfl, rfl⟩
  · intro i hi
    unfold result
    by_cases h : i < 4
    · rw [if_pos h, Cols.value_wa, show srow + 1110 - 3 = srow + 1106 + ((1 : ℕ) : ℤ) by push_cast; ring]
      refine (rO 1 i (by omega) (by omega)).trans ?_
      interval_cases i <;> rfl
    · obtain ⟨q, rfl⟩ : ∃ q, i = q + 4 := ⟨i - 4, by omega⟩
      rw [if_neg h, Cols.value_wa, show srow + 1110 - 1 = srow + 1106 + ((3 : ℕ) : ℤ) by push_cast; ring,
        show (((q + 4 : ℕ) : ℤ) - 4) = (q : ℤ) by push_cast; ring]
      refine (rO 3 q (by omega) (by omega)).trans ?_
      have hq : q < 4 := by omega
      interval_cases q <;> rfl

/-- **C124, the circuit does not compute SHA-512.** Over every field with `2 ≠ 0`, for every state, every block and *every* eight outputs there
is a table with that input, accepted by the circuit, whose result is that output. It differs from the table before only inside the
component. -/
theorem sha512_any_output (h2 : (2 : F) ≠ 0) (hc : c.OK 9) (st ws out : ℕ → F) (t₀ : Table F)
    (hst : ∀ i < 8, (inp.state i).Outside srow 1110 ∧ (inp.state i).value (writeConsts (circuit c inp srow) t₀) = st i)
    (hws : ∀ i < 16, (inp.words i).Outside srow 1110 ∧ (inp.words i).value (writeConsts (circuit c inp srow) t₀) = ws i) :
    ∃ t', Sat t' (circuit c inp srow) ∧ Frame c srow 1110 (writeConsts (circuit c inp srow) t₀) t' ∧
      (∀ i < 8, (inp.state i).value t' = st i) ∧ (∀ i < 16, (inp.words i).value t' = ws i) ∧
      ∀ i < 8, (result c srow i).value t' = out i := by
  exact forged h2 hc st ws out _ (fun n hn => circuit_consts n hn) hst hws

end Sha512
end Verif
