import Verif.Props.Sha256Complete

/-!
# `sha256_process`: what an accepted table says
-/

set_option linter.unusedSimpArgs false
set_option linter.unusedSectionVars false

namespace Verif
namespace Sha256

open Digits
open Sha256Spec (Word)

/-! ## From table rows to digits -/

theorem exists_digits (b n : ℕ) (hb : 0 < b) (x : ℕ) (hx : x < b ^ n) : ∃ d : ℕ → ℕ, (∀ i, d i < b) ∧ x = val b n d := by
  induction n generalizing x with
  | zero => exact ⟨fun _ => 0, fun _ => hb, by simp at hx; simp [val, hx]⟩
  | succ n ih =>
    obtain ⟨d, hd, he⟩ := ih (x / b) (by rw [pow_succ] at hx; exact Nat.div_lt_of_lt_mul (by rwa [mul_comm] at hx))
    refine ⟨fun i => if i = 0 then x % b else d (i - 1), fun i => ?_, ?_⟩
    · dsimp only
      split
      · exact Nat.mod_lt _ hb
      · exact hd _
    · rw [val_succ']
      simp only [if_true, Nat.add_sub_cancel, Nat.add_eq_zero_iff, one_ne_zero, and_false, if_false]
      rw [← he, Nat.mod_add_div]

section
variable {p : ℕ} [Fact p.Prime]

theorem cast_inj {a b : ℕ} (ha : a < p) (hb : b < p) (h : (a : ZMod p) = (b : ZMod p)) : a = b := by
  have := congrArg ZMod.val h
  rwa [ZMod.val_natCast_of_lt ha, ZMod.val_natCast_of_lt hb] at this

theorem col_inv {x : ZMod p} (h : firstColumn (ZMod p) [x]) : ∃ n < 16384, x = (n : ℕ) := by
  obtain ⟨i, hi, he⟩ := h
  refine ⟨i, hi, ?_⟩
  rw [split_bits_two i hi] at he
  simpa using he

theorem col_mul_inv (H : Large p) {n k m : ℕ} (hn : n < 16384) (hk : 0 < k) (hkm : m * k = 16384)
    (h : firstColumn (ZMod p) [(n : ZMod p) * ((k : ℕ) : ZMod p)]) : n < m := by
  obtain ⟨i, hi, he⟩ := col_inv h
  rw [← Nat.cast_mul] at he
  have h40 := H.h40
  have hk2 : k ≤ 16384 := Nat.le_of_dvd (by norm_num) ⟨m, by rw [mul_comm]; exact hkm.symm⟩
  have hnk : n * k < 16384 * 16384 := lt_of_lt_of_le (Nat.mul_lt_mul_of_pos_right hn hk) (Nat.mul_le_mul_left _ hk2)
  have := cast_inj (by omega) (by omega) he
  rw [← this, ← hkm] at hi
  exact Nat.lt_of_mul_lt_mul_right hi

theorem sparse_inv {b : ℕ} {x y : ZMod p} (h : sparseTable (ZMod p) b [x, y]) :
    ∃ n < 16384, x = (n : ℕ) ∧ y = ((val b 14 fun j => (n.testBit j).toNat : ℕ) : ZMod p) := by
  obtain ⟨i, hi, he⟩ := h
  rw [split_bits_two i hi, split_bits] at he
  simp only [List.cons.injEq, and_true] at he
  exact ⟨i, hi, he.1, he.2⟩

/-- Only the bits below the bound count. -/
theorem val_bits_short (b s n : ℕ) (hs : s ≤ 14) (hn : n < 2 ^ s) :
    (val b 14 fun j => (n.testBit j).toNat) = val b s fun j => (n.testBit j).toNat := by
  obtain ⟨r, hr⟩ : ∃ r, 14 = s + r := ⟨14 - s, by omega⟩
  rw [hr, val_split]
  have h0 : (val b r fun i => (n.testBit (s + i)).toNat) = 0 := by
    unfold val
    refine Finset.sum_eq_zero fun i _ => ?_
    dsimp only
    rw [Nat.testBit_lt_two_pow (lt_of_lt_of_le hn (Nat.pow_le_pow_right (by omega) (by omega)))]
    simp
  rw [h0, mul_zero, add_zero]

theorem rev4_inv {x y : ZMod p} (h : reverse4Table (ZMod p) [x, y]) :
    ∃ d : ℕ → ℕ, (∀ j < 8, d j ≤ 3) ∧ x = ((val 2 8 fun j => parity (d j) : ℕ) : ZMod p) ∧ y = ((val 4 8 d : ℕ) : ZMod p) := by
  obtain ⟨d, hd, he⟩ := h
  simp only [List.cons.injEq, and_true] at he
  refine ⟨d, hd, he.1.trans (congrArg _ ?_), he.2.trans (congrArg _ ?_)⟩
  · simp only [val, Finset.sum_range_succ, Finset.sum_range_zero, List.range_succ, List.range_zero, List.map_append, List.map_cons, List.map_nil,
      List.sum_append, List.sum_cons, List.sum_nil, List.nil_append, parity, add_zero, zero_add]
  · simp only [val, Finset.sum_range_succ, Finset.sum_range_zero, List.range_succ, List.range_zero, List.map_append, List.map_cons, List.map_nil,
      List.sum_append, List.sum_cons, List.sum_nil, List.nil_append, parity, add_zero, zero_add]

theorem rev7_inv {x y : ZMod p} (h : reverse7Table (ZMod p) [x, y]) :
    ∃ d : ℕ → ℕ, (∀ j < 8, d j ≤ 3) ∧ x = ((val 2 8 fun j => parity (d j) : ℕ) : ZMod p) ∧ y = ((val 7 8 d : ℕ) : ZMod p) := by
  obtain ⟨d, hd, -, he⟩ := h
  simp only [List.cons.injEq, and_true] at he
  refine ⟨d, hd, he.1.trans (congrArg _ ?_), he.2.trans (congrArg _ ?_)⟩
  · simp only [val, Finset.sum_range_succ, Finset.sum_range_zero, List.range_succ, List.range_zero, List.map_append, List.map_cons, List.map_nil,
      List.sum_append, List.sum_cons, List.sum_nil, List.nil_append, parity, add_zero, zero_add]
  · simp only [val, Finset.sum_range_succ, Finset.sum_range_zero, List.range_succ, List.range_zero, List.map_append, List.map_cons, List.map_nil,
      List.sum_append, List.sum_cons, List.sum_nil, List.nil_append, parity, add_zero, zero_add]

theorem maj_inv (hp : 4 ^ 8 ≤ p) {x y : ZMod p} (h : majTable (ZMod p) p [x, y]) :
    ∃ d : ℕ → ℕ, (∀ j < 8, d j ≤ 3) ∧ x = ((val 2 8 fun j => majVal (d j) : ℕ) : ZMod p) ∧ y = ((val 4 8 d : ℕ) : ZMod p) := by
  obtain ⟨i, hi, he⟩ := h
  obtain ⟨d, hd, rfl⟩ := exists_digits 4 8 (by omega) i hi
  simp only [List.cons.injEq, and_true] at he
  rw [revBin_one p 4 majVal d (fun i _ => hd i) hp (by omega), revSparse_one p 4 d (fun i _ => hd i) hp (by omega)] at he
  exact ⟨d, fun j _ => by have := hd j; omega, he⟩

theorem ch_inv (hp : 7 ^ 8 ≤ p) {x y : ZMod p} (h : chTable (ZMod p) p [x, y]) :
    ∃ d : ℕ → ℕ, (∀ j < 8, d j < 7) ∧ x = ((val 2 8 fun j => chVal (d j) : ℕ) : ZMod p) ∧ y = ((val 7 8 d : ℕ) : ZMod p) := by
  obtain ⟨i, hi, he⟩ := h
  obtain ⟨d, hd, rfl⟩ := exists_digits 7 8 (by omega) i hi
  simp only [List.cons.injEq, and_true] at he
  rw [revBin_one p 7 chVal d (fun i _ => hd i) hp (by omega), revSparse_one p 7 d (fun i _ => hd i) hp (by omega)] at he
  exact ⟨d, fun j _ => hd j, he⟩

/-- Four groups of eight digits of a known number. -/
theorem bytes_known (b : ℕ) (hp : b ^ 32 ≤ p) (g : ℕ → ℕ) (D : ℕ → ℕ) (x : Word) (hD : ∀ i < 32, D i < b) (hx : ∀ i < 32, g (D i) = bt x i)
    (d0 d1 d2 d3 : ℕ → ℕ) (h0 : ∀ j < 8, d0 j < b) (h1 : ∀ j < 8, d1 j < b) (h2 : ∀ j < 8, d2 j < b) (h3 : ∀ j < 8, d3 j < b)
    (he : ((val b 8 d0 : ℕ) : ZMod p) + ((val b 8 d1 : ℕ) : ZMod p) * ((b ^ 8 : ℕ) : ZMod p) + ((val b 8 d2 : ℕ) : ZMod p) * ((b ^ 16 : ℕ) : ZMod p) +
      ((val b 8 d3 : ℕ) : ZMod p) * ((b ^ 24 : ℕ) : ZMod p) = ((val b 32 D : ℕ) : ZMod p)) :
    (val 2 8 fun j => g (d0 j)) = byte x 0 ∧ (val 2 8 fun j => g (d1 j)) = byte x 1 ∧ (val 2 8 fun j => g (d2 j)) = byte x 2 ∧
      (val 2 8 fun j => g (d3 j)) = byte x 3 := by
  let E : ℕ → ℕ := fun i => if i < 8 then d0 i else if i < 16 then d1 (i - 8) else if i < 24 then d2 (i - 16) else d3 (i - 24)
  have hE : ∀ i < 32, E i < b := by
    intro i hi
    simp only [E]
    split
    · exact h0 _ (by omega)
    · split
      · exact h1 _ (by omega)
      · split
        · exact h2 _ (by omega)
        · exact h3 _ (by omega)
  have e0 : ∀ j < 8, E j = d0 j := fun j hj => by simp [E, hj]
  have e1 : ∀ j < 8, E (8 + j) = d1 j := fun j hj => by simp [E, show ¬ (8 + j < 8) by omega, show 8 + j < 16 by omega]
  have e2 : ∀ j < 8, E (16 + j) = d2 j := fun j hj => by
    simp [E, show ¬ (16 + j < 8) by omega, show ¬ (16 + j < 16) by omega, show 16 + j < 24 by omega]
  have e3 : ∀ j < 8, E (24 + j) = d3 j := fun j hj => by
    simp [E, show ¬ (24 + j < 8) by omega, show ¬ (24 + j < 16) by omega, show ¬ (24 + j < 24) by omega]
  clear_value E
  have v0 : dg b E 0 = val b 8 d0 := val_congr fun j hj => by rw [← e0 j hj]; congr 1; omega
  have v1 : dg b E 1 = val b 8 d1 := val_congr fun j hj => by rw [← e1 j hj]
  have v2 : dg b E 2 = val b 8 d2 := val_congr fun j hj => by rw [← e2 j hj]
  have v3 : dg b E 3 = val b 8 d3 := val_congr fun j hj => by rw [← e3 j hj]
  have hval : val b 32 E = val b 8 d0 + val b 8 d1 * b ^ 8 + val b 8 d2 * b ^ 16 + val b 8 d3 * b ^ 24 := by
    rw [dg_all, v0, v1, v2, v3]
  rw [← Nat.cast_mul, ← Nat.cast_mul, ← Nat.cast_mul, ← Nat.cast_add, ← Nat.cast_add, ← Nat.cast_add, ← hval] at he
  have lE : val b 32 E < p := lt_of_lt_of_le (val_lt (n := 32) hE) hp
  have lD : val b 32 D < p := lt_of_lt_of_le (val_lt (n := 32) hD) hp
  have hn : val b 32 E = val b 32 D := by
    generalize val b 32 E = u at *
    generalize val b 32 D = v at *
    exact cast_inj lE lD he
  have hd := val_inj (n := 32) hE hD hn
  clear he hn lE lD hval v0 v1 v2 v3 hp
  refine ⟨?_, ?_, ?_, ?_⟩ <;> refine val_congr fun j hj => ?_
  · rw [← e0 j hj, hd j (by omega), hx j (by omega)]; congr 1; omega
  · rw [← e1 j hj, hd _ (by omega), hx _ (by omega)]
  · rw [← e2 j hj, hd _ (by omega), hx _ (by omega)]
  · rw [← e3 j hj, hd _ (by omega), hx _ (by omega)]

/-- Four chunks make a word. -/
theorem chunks_word (o1 o2 o3 s1 s2 s3 s4 n0 n1 n2 n3 : ℕ) (h1 : o1 = s1) (h2 : o2 = s1 + s2) (h3 : o3 = s1 + s2 + s3) (h4 : s1 + s2 + s3 + s4 = 32)
    (b0 : n0 < 2 ^ s1) (b1 : n1 < 2 ^ s2) (b2 : n2 < 2 ^ s3) (b3 : n3 < 2 ^ s4) :
    ∃ x : Word, x.toNat = n0 + n1 * 2 ^ o1 + n2 * 2 ^ o2 + n3 * 2 ^ o3 ∧
      (∀ b, (val b s1 fun j => (n0.testBit j).toNat) = ck b 0 s1 x) ∧ (∀ b, (val b s2 fun j => (n1.testBit j).toNat) = ck b o1 s2 x) ∧
      (∀ b, (val b s3 fun j => (n2.testBit j).toNat) = ck b o2 s3 x) ∧ (∀ b, (val b s4 fun j => (n3.testBit j).toNat) = ck b o3 s4 x) := by
  subst h1 h2 h3
  let f : ℕ → Bool := fun i => if i < o1 then n0.testBit i else if i < o1 + s2 then n1.testBit (i - o1)
    else if i < o1 + s2 + s3 then n2.testBit (i - (o1 + s2)) else n3.testBit (i - (o1 + s2 + s3))
  have f0 : ∀ j < o1, f j = n0.testBit j := fun j hj => by simp [f, hj]
  have f1 : ∀ j < s2, f (o1 + j) = n1.testBit j := fun j hj => by simp [f, hj]
  have f2 : ∀ j < s3, f (o1 + s2 + j) = n2.testBit j := fun j hj => by
    simp only [f, show ¬ (o1 + s2 + j < o1) by omega, show ¬ (o1 + s2 + j < o1 + s2) by omega, show o1 + s2 + j < o1 + s2 + s3 by omega, if_true, if_false]
    congr 1; omega
  have f3 : ∀ j < s4, f (o1 + s2 + s3 + j) = n3.testBit j := fun j hj => by
    simp only [f, show ¬ (o1 + s2 + s3 + j < o1) by omega, show ¬ (o1 + s2 + s3 + j < o1 + s2) by omega,
      show ¬ (o1 + s2 + s3 + j < o1 + s2 + s3) by omega, if_false]
    congr 1; omega
  have hlt : (val 2 32 fun j => (f j).toNat) < 2 ^ 32 := val_lt fun i _ => by have := Bool.toNat_le (f i); omega
  have hbt : ∀ i < 32, bt (BitVec.ofNat 32 (val 2 32 fun j => (f j).toNat)) i = (f i).toNat := fun i hi => by
    unfold bt
    rw [BitVec.getLsbD_ofNat, testBit_val]
    simp [hi]
  have g0 : ∀ b, (val b o1 fun j => (n0.testBit j).toNat) = ck b 0 o1 (BitVec.ofNat 32 (val 2 32 fun j => (f j).toNat)) := fun b =>
    val_congr fun j hj => by rw [hbt _ (by omega), show 0 + j = j by omega, f0 j hj]
  have g1 : ∀ b, (val b s2 fun j => (n1.testBit j).toNat) = ck b o1 s2 (BitVec.ofNat 32 (val 2 32 fun j => (f j).toNat)) := fun b =>
    val_congr fun j hj => by rw [hbt _ (by omega), f1 j hj]
  have g2 : ∀ b, (val b s3 fun j => (n2.testBit j).toNat) = ck b (o1 + s2) s3 (BitVec.ofNat 32 (val 2 32 fun j => (f j).toNat)) := fun b =>
    val_congr fun j hj => by rw [hbt _ (by omega), f2 j hj]
  have g3 : ∀ b, (val b s4 fun j => (n3.testBit j).toNat) = ck b (o1 + s2 + s3) s4 (BitVec.ofNat 32 (val 2 32 fun j => (f j).toNat)) := fun b =>
    val_congr fun j hj => by rw [hbt _ (by omega), f3 j hj]
  refine ⟨_, ?_, g0, g1, g2, g3⟩
  rw [toNat_eq_val, ck_all 2 o1 (o1 + s2) (o1 + s2 + s3) o1 s2 s3 s4 _ rfl rfl rfl h4, ← g0, ← g1, ← g2, ← g3,
    val_testBit _ _ b0, val_testBit _ _ b1, val_testBit _ _ b2, val_testBit _ _ b3]

theorem inv8 {x : ZMod p} (h : (x - ((7 : ℕ) : ZMod p)) * (x - ((6 : ℕ) : ZMod p)) * (x - ((5 : ℕ) : ZMod p)) * (x - ((4 : ℕ) : ZMod p)) *
    (x - ((3 : ℕ) : ZMod p)) * (x - ((2 : ℕ) : ZMod p)) * (x - ((1 : ℕ) : ZMod p)) * x = 0) : ∃ n < 8, x = (n : ℕ) := by
  simp only [mul_eq_zero, sub_eq_zero] at h
  rcases h with ((((((h | h) | h) | h) | h) | h) | h) | h
  · exact ⟨7, by omega, h⟩
  · exact ⟨6, by omega, h⟩
  · exact ⟨5, by omega, h⟩
  · exact ⟨4, by omega, h⟩
  · exact ⟨3, by omega, h⟩
  · exact ⟨2, by omega, h⟩
  · exact ⟨1, by omega, h⟩
  · exact ⟨0, by omega, by simpa using h⟩

theorem inv7 {x : ZMod p} (h : (x - ((6 : ℕ) : ZMod p)) * (x - ((5 : ℕ) : ZMod p)) * (x - ((4 : ℕ) : ZMod p)) *
    (x - ((3 : ℕ) : ZMod p)) * (x - ((2 : ℕ) : ZMod p)) * (x - ((1 : ℕ) : ZMod p)) * x = 0) : ∃ n < 7, x = (n : ℕ) := by
  simp only [mul_eq_zero, sub_eq_zero] at h
  rcases h with (((((h | h) | h) | h) | h) | h) | h
  · exact ⟨6, by omega, h⟩
  · exact ⟨5, by omega, h⟩
  · exact ⟨4, by omega, h⟩
  · exact ⟨3, by omega, h⟩
  · exact ⟨2, by omega, h⟩
  · exact ⟨1, by omega, h⟩
  · exact ⟨0, by omega, by simpa using h⟩

theorem inv6 {x : ZMod p} (h : (x - ((5 : ℕ) : ZMod p)) * (x - ((4 : ℕ) : ZMod p)) *
    (x - ((3 : ℕ) : ZMod p)) * (x - ((2 : ℕ) : ZMod p)) * (x - ((1 : ℕ) : ZMod p)) * x = 0) : ∃ n < 6, x = (n : ℕ) := by
  simp only [mul_eq_zero, sub_eq_zero] at h
  rcases h with ((((h | h) | h) | h) | h) | h
  · exact ⟨5, by omega, h⟩
  · exact ⟨4, by omega, h⟩
  · exact ⟨3, by omega, h⟩
  · exact ⟨2, by omega, h⟩
  · exact ⟨1, by omega, h⟩
  · exact ⟨0, by omega, by simpa using h⟩

theorem inv4 {x : ZMod p} (h : (x - ((3 : ℕ) : ZMod p)) * (x - ((2 : ℕ) : ZMod p)) * (x - ((1 : ℕ) : ZMod p)) * x = 0) : ∃ n < 4, x = (n : ℕ) := by
  simp only [mul_eq_zero, sub_eq_zero] at h
  rcases h with ((h | h) | h) | h
  · exact ⟨3, by omega, h⟩
  · exact ⟨2, by omega, h⟩
  · exact ⟨1, by omega, h⟩
  · exact ⟨0, by omega, by simpa using h⟩

/-- Three limbs make a word. -/
theorem limbs_word {x a b c : ZMod p} {na nb nc : ℕ} (ha : na < 16384) (hb : nb < 16384) (hc : nc < 16) (ea : a = (na : ℕ)) (eb : b = (nb : ℕ)) (ec : c = (nc : ℕ))
    (h : ((0 : ℕ) : ZMod p) - x + a + b * ((2 ^ 14 : ℕ) : ZMod p) + c * ((2 ^ 28 : ℕ) : ZMod p) = 0) : ∃ w : Word, x = W p w := by
  refine ⟨BitVec.ofNat 32 (na + nb * 2 ^ 14 + nc * 2 ^ 28), ?_⟩
  unfold W
  rw [BitVec.toNat_ofNat, Nat.mod_eq_of_lt (by omega)]
  simp only [Nat.cast_add, Nat.cast_mul]
  rw [← ea, ← eb, ← ec]
  rw [Nat.cast_zero] at h
  linear_combination -h

/-! ## A step of the schedule -/

theorem sched_inv (H : Large p) {x : ℤ → ℤ → ZMod p} (hx : SchedBlock x) (w0 w9 : Word) (h9 : x 1 0 = W p w9) (h0 : x 1 1 = W p w0) (hcopy : x 2 0 = x 4 8) :
    ∃ w1 w14 : Word, x 0 0 = W p w1 ∧ x 4 0 = W p w14 ∧ x 2 0 = W p (Sha256Spec.smallSigma1 w14 + w9 + Sha256Spec.smallSigma0 w1 + w0) := by
  obtain ⟨hA, hB, hC⟩ := hx
  unfold Sigma0OK at hA
  unfold SchedOK at hB
  unfold Sigma1OK at hC
  simp only [Int.reduceAdd, Int.reduceNeg] at hA hB hC
  obtain ⟨a1, a2, a3, l1, l2, l3, l4, l5, l6, r0, r1, r2, r3⟩ := hA
  obtain ⟨b1, b2, q0, q1, q2, q3⟩ := hB
  obtain ⟨c1, c2, c3, c4, m1, m2, m3, m4, m5, m6, m7, k1, k2, k3, k4, -, -⟩ := hC
  -- sigma0
  obtain ⟨n0, hn0, e0, s0⟩ := sparse_inv l1
  obtain ⟨n0', hn0', e0'⟩ := inv8 a2
  have h40 := H.h40
  have : n0 = n0' := cast_inj (by omega) (by omega) (e0.symm.trans e0')
  subst this
  obtain ⟨n1, hn1, e1, s1⟩ := sparse_inv l3
  rw [e1] at l2
  have hn1 := col_mul_inv H (m := 2 ^ 4) hn1 (by omega) (by norm_num) l2
  obtain ⟨n2, hn2, e2, s2⟩ := sparse_inv l5
  rw [e2] at l4
  have hn2 := col_mul_inv H (m := 2 ^ 11) hn2 (by omega) (by norm_num) l4
  obtain ⟨n3, hn3, e3, s3⟩ := sparse_inv l6
  obtain ⟨w1, hw1, g0, g1, g2, g3⟩ := chunks_word 3 7 18 3 4 11 14 n0 n1 n2 n3 rfl rfl rfl rfl (by omega) (by omega) (by omega) (by omega)
  rw [val_bits_short 4 3 n0 (by omega) (by omega), g0 4] at s0
  rw [val_bits_short 4 4 n1 (by omega) (by omega), g1 4] at s1
  rw [val_bits_short 4 11 n2 (by omega) (by omega), g2 4] at s2
  rw [g3 4] at s3
  have hx00 : x 0 0 = W p w1 := by
    unfold W; rw [hw1]; simp only [Nat.cast_add, Nat.cast_mul]; rw [← e0, ← e1, ← e2, ← e3]; linear_combination a1
  obtain ⟨d0, hd0, x21, x15⟩ := rev4_inv r0
  obtain ⟨d1, hd1, x22, x16⟩ := rev4_inv r1
  obtain ⟨d2, hd2, x23, x17⟩ := rev4_inv r2
  obtain ⟨d3, hd3, x24, x18⟩ := rev4_inv r3
  obtain ⟨y0, y1, y2, y3⟩ := bytes_known (p := p) 4 H.h4 parity (dig0 w1) (Sha256Spec.smallSigma0 w1) (fun i _ => by have := dig0_le w1 i; omega)
    (parity_dig0 w1) d0 d1 d2 d3 (fun j hj => by have := hd0 j hj; omega) (fun j hj => by have := hd1 j hj; omega)
    (fun j hj => by have := hd2 j hj; omega) (fun j hj => by have := hd3 j hj; omega) (by
      rw [← x15, ← x16, ← x17, ← x18, ← sigma0_combine]
      rw [s0, s1, s2, s3] at a3
      unfold ck at a3
      simp only [Nat.cast_add, Nat.cast_mul, Nat.cast_pow, Nat.cast_ofNat, Nat.cast_one] at a3 ⊢
      linear_combination a3)
  rw [y0] at x21; rw [y1] at x22; rw [y2] at x23; rw [y3] at x24
  -- sigma1
  obtain ⟨n4, hn4, e4, s4⟩ := sparse_inv m2
  rw [e4] at m1
  have hn4 := col_mul_inv H (m := 2 ^ 10) hn4 (by omega) (by norm_num) m1
  obtain ⟨n5, hn5, e5, s5⟩ := sparse_inv m4
  rw [e5] at m3
  have hn5 := col_mul_inv H (m := 2 ^ 7) hn5 (by omega) (by norm_num) m3
  obtain ⟨n6, hn6, e6, s6⟩ := sparse_inv m6
  obtain ⟨n6', hn6', e6'⟩ := inv4 c2
  have : n6 = n6' := cast_inj (by omega) (by omega) (e6.symm.trans e6')
  subst this
  obtain ⟨n7, hn7, e7, s7⟩ := sparse_inv m7
  rw [e7] at m5
  have hn7 := col_mul_inv H (m := 2 ^ 13) hn7 (by omega) (by norm_num) m5
  obtain ⟨w14, hw14, g4, g5, g6, g7⟩ := chunks_word 10 17 19 10 7 2 13 n4 n5 n6 n7 rfl rfl rfl rfl (by omega) (by omega) (by omega) (by omega)
  rw [val_bits_short 4 10 n4 (by omega) (by omega), g4 4] at s4
  rw [val_bits_short 4 7 n5 (by omega) (by omega), g5 4] at s5
  rw [val_bits_short 4 2 n6 (by omega) (by omega), g6 4] at s6
  rw [val_bits_short 4 13 n7 (by omega) (by omega), g7 4] at s7
  have hx40 : x 4 0 = W p w14 := by
    unfold W; rw [hw14]; simp only [Nat.cast_add, Nat.cast_mul]; rw [← e4, ← e5, ← e6, ← e7]; linear_combination c1
  obtain ⟨d4, hd4, x25, x35⟩ := rev4_inv q0
  obtain ⟨d5, hd5, x26, x36⟩ := rev4_inv q1
  obtain ⟨d6, hd6, x27, x37⟩ := rev4_inv q2
  obtain ⟨d7, hd7, x28, x38⟩ := rev4_inv q3
  obtain ⟨z0, z1, z2, z3⟩ := bytes_known (p := p) 4 H.h4 parity (dig1 w14) (Sha256Spec.smallSigma1 w14) (fun i _ => by have := dig1_le w14 i; omega)
    (parity_dig1 w14) d4 d5 d6 d7 (fun j hj => by have := hd4 j hj; omega) (fun j hj => by have := hd5 j hj; omega)
    (fun j hj => by have := hd6 j hj; omega) (fun j hj => by have := hd7 j hj; omega) (by
      rw [← x35, ← x36, ← x37, ← x38, ← sigma1_combine]
      rw [s4, s5, s6, s7] at c3
      unfold ck at c3
      simp only [Nat.cast_add, Nat.cast_mul, Nat.cast_pow, Nat.cast_ofNat, Nat.cast_one] at c3 ⊢
      linear_combination c3)
  rw [z0] at x25; rw [z1] at x26; rw [z2] at x27; rw [z3] at x28
  -- the new word
  obtain ⟨na, hna, ea⟩ := col_inv k1
  obtain ⟨nb, hnb, eb⟩ := col_inv k2
  obtain ⟨nc, hnc, ec⟩ := col_inv k3
  rw [ec] at k4
  have hnc := col_mul_inv H (m := 16) hnc (by norm_num) (by norm_num) k4
  obtain ⟨new, hnew⟩ := limbs_word hna hnb hnc ea eb ec c4
  obtain ⟨q, hq, eq⟩ := inv4 b2
  refine ⟨w1, w14, hx00, hx40, ?_⟩
  rw [hcopy, hnew] at b1 ⊢
  rw [eq, h9, h0, x21, x22, x23, x24, x25, x26, x27, x28] at b1
  have hb1 : ((new.toNat + 2 ^ 32 * q : ℕ) : ZMod p) =
      ((w9.toNat + w0.toNat + (Sha256Spec.smallSigma0 w1).toNat + (Sha256Spec.smallSigma1 w14).toNat : ℕ) : ZMod p) := by
    simp only [Nat.cast_add, Nat.cast_mul]
    rw [cast_byte (Sha256Spec.smallSigma0 w1), cast_byte (Sha256Spec.smallSigma1 w14)]
    unfold W at b1
    linear_combination b1
  have i1 := new.isLt
  have i2 := w9.isLt
  have i3 := w0.isLt
  have i4 := (Sha256Spec.smallSigma0 w1).isLt
  have i5 := (Sha256Spec.smallSigma1 w14).isLt
  have hnat := cast_inj (by omega) (by omega) hb1
  congr 1
  apply BitVec.eq_of_toNat_eq
  simp only [BitVec.toNat_add]
  omega


/-! ## A round -/

/-- What `RoundBlock` says once the two missing range checks are added. -/
theorem round_inv (H : Large p) {x : ℤ → ℤ → ZMod p} (s : Sha256Spec.State) (k w : Word) (hx : RoundBlock x (W p k))
    (hchunk : ∃ n < 64, x 0 2 = ((n : ℕ) : ZMod p)) (hlimb : ∃ n < 16, x 1 8 = ((n : ℕ) : ZMod p))
    (ha : x 7 0 = W p s.a) (he : x 0 0 = W p s.e) (hb : x 5 1 = (spread 4 s.b : ZMod p)) (hc : x 5 4 = (spread 4 s.c : ZMod p))
    (hf : x 1 1 = (spread 7 s.f : ZMod p)) (hg : x 3 0 = (spread 7 s.g : ZMod p))
    (hd : x 3 1 = W p s.d) (hh : x 3 2 = W p s.h) (hw : x 3 3 = W p w) :
    x 5 2 = W p (Sha256Spec.round s k w).a ∧ x 3 4 = W p (Sha256Spec.round s k w).e ∧
      x 5 0 = (spread 4 s.a : ZMod p) ∧ x 1 0 = (spread 7 s.e : ZMod p) := by
  obtain ⟨hA, hB, hC, hD, hE, hF⟩ := hx
  unfold BigSigma1OK at hA
  unfold BigSigma0OK at hB
  unfold EOK at hC
  unfold AOK at hD
  unfold MajOK at hE
  unfold ChOK at hF
  simp only [Int.reduceAdd, Int.reduceNeg] at hA hB hC hD hE hF
  obtain ⟨a1, a2, a3, -, l1, l2, l3, l4, l5, l6, r0, r1, r2, r3⟩ := hA
  obtain ⟨b1, b2, b3, b4, b5, k1, k2, k3, k4, k5, k6, k7, q0, q1, q2, q3, i1, i2, i3, i4, -, -⟩ := hB
  obtain ⟨c1, c2, c3⟩ := hC
  obtain ⟨d1, d2⟩ := hD
  obtain ⟨e1, j0, j1, j2, j3⟩ := hE
  obtain ⟨f1, f2, u0, u1, u2, u3, v1, v2, v3, -, -⟩ := hF
  have h40 := H.h40
  -- e and Sigma1
  obtain ⟨n0, hn0, x02, s0⟩ := sparse_inv l1
  obtain ⟨n0', hn0', x02'⟩ := hchunk
  have : n0 = n0' := cast_inj (by omega) (by omega) (x02.symm.trans x02')
  subst this
  obtain ⟨n1, hn1, x03, s1⟩ := sparse_inv l3
  rw [x03] at l2
  have hn1 := col_mul_inv H (m := 2 ^ 5) hn1 (by omega) (by norm_num) l2
  obtain ⟨n2, hn2, x04, s2⟩ := sparse_inv l5
  obtain ⟨n3, hn3, x05, s3⟩ := sparse_inv l6
  rw [x05] at l4
  have hn3 := col_mul_inv H (m := 2 ^ 7) hn3 (by omega) (by norm_num) l4
  obtain ⟨we, hwe, g0, g1, g2, g3⟩ := chunks_word 6 11 25 6 5 14 7 n0 n1 n2 n3 rfl rfl rfl rfl (by omega) (by omega) (by omega) (by omega)
  rw [val_bits_short 7 6 n0 (by omega) (by omega), g0 7] at s0
  rw [val_bits_short 7 5 n1 (by omega) (by omega), g1 7] at s1
  rw [g2 7] at s2
  rw [val_bits_short 7 7 n3 (by omega) (by omega), g3 7] at s3
  have hee : W p we = W p s.e := by
    rw [← he]; unfold W; rw [hwe]; simp only [Nat.cast_add, Nat.cast_mul]; rw [← x02, ← x03, ← x04, ← x05]; linear_combination -a1
  have := W_inj H.h2 hee
  subst this
  have hx10 : x 1 0 = (spread 7 s.e : ZMod p) := by
    rw [cast_spread 7 6 11 25 6 5 14 7 s.e rfl rfl rfl rfl, ← s0, ← s1, ← s2, ← s3]; linear_combination a2
  obtain ⟨d0, hd0, x25, x15⟩ := rev7_inv r0
  obtain ⟨d1', hd1, x26, x06⟩ := rev7_inv r1
  obtain ⟨d2', hd2, x27, x07⟩ := rev7_inv r2
  obtain ⟨d3, hd3, x28, x08⟩ := rev7_inv r3
  obtain ⟨y0, y1, y2, y3⟩ := bytes_known (p := p) 7 H.h7 parity (Dig1 s.e) (Sha256Spec.bigSigma1 s.e) (fun i _ => by have := Dig1_le s.e i; omega)
    (parity_Dig1 s.e) d0 d1' d2' d3 (fun j hj => by have := hd0 j hj; omega) (fun j hj => by have := hd1 j hj; omega)
    (fun j hj => by have := hd2 j hj; omega) (fun j hj => by have := hd3 j hj; omega) (by
      rw [← x15, ← x06, ← x07, ← x08, ← bigSigma1_combine]
      rw [s0, s1, s2, s3] at a3
      unfold ck at a3
      simp only [Nat.cast_add, Nat.cast_mul, Nat.cast_pow, Nat.cast_ofNat, Nat.cast_one] at a3 ⊢
      linear_combination a3)
  rw [y0] at x25; rw [y1] at x26; rw [y2] at x27; rw [y3] at x28
  -- a and Sigma0
  obtain ⟨m0, hm0, x72, t0⟩ := sparse_inv k2
  obtain ⟨m0', hm0', x72'⟩ := inv4 b3
  have : m0 = m0' := cast_inj (by omega) (by omega) (x72.symm.trans x72')
  subst this
  obtain ⟨m1, hm1, x73, t1⟩ := sparse_inv k4
  rw [x73] at k1
  have hm1 := col_mul_inv H (m := 2 ^ 11) hm1 (by omega) (by norm_num) k1
  obtain ⟨m2, hm2, x74, t2⟩ := sparse_inv k6
  rw [x74] at k3
  have hm2 := col_mul_inv H (m := 2 ^ 9) hm2 (by omega) (by norm_num) k3
  obtain ⟨m3, hm3, x75, t3⟩ := sparse_inv k7
  rw [x75] at k5
  have hm3 := col_mul_inv H (m := 2 ^ 10) hm3 (by omega) (by norm_num) k5
  obtain ⟨wa, hwa, o0, o1, o2, o3⟩ := chunks_word 2 13 22 2 11 9 10 m0 m1 m2 m3 rfl rfl rfl rfl (by omega) (by omega) (by omega) (by omega)
  rw [val_bits_short 4 2 m0 (by omega) (by omega), o0 4] at t0
  rw [val_bits_short 4 11 m1 (by omega) (by omega), o1 4] at t1
  rw [val_bits_short 4 9 m2 (by omega) (by omega), o2 4] at t2
  rw [val_bits_short 4 10 m3 (by omega) (by omega), o3 4] at t3
  have haa : W p wa = W p s.a := by
    rw [← ha]; unfold W; rw [hwa]; simp only [Nat.cast_add, Nat.cast_mul]; rw [← x72, ← x73, ← x74, ← x75]; linear_combination -b1
  have := W_inj H.h2 haa
  subst this
  have hx50 : x 5 0 = (spread 4 s.a : ZMod p) := by
    rw [cast_spread 4 2 13 22 2 11 9 10 s.a rfl rfl rfl rfl, ← t0, ← t1, ← t2, ← t3]
    simp only [Nat.cast_pow, Nat.cast_ofNat] at b2 ⊢
    linear_combination b2
  obtain ⟨z0, hz0, x55, x60⟩ := rev4_inv q0
  obtain ⟨z1, hz1, x56, x61⟩ := rev4_inv q1
  obtain ⟨z2, hz2, x57, x66⟩ := rev4_inv q2
  obtain ⟨z3, hz3, x58, x67⟩ := rev4_inv q3
  obtain ⟨w0, w1, w2, w3⟩ := bytes_known (p := p) 4 H.h4 parity (Dig0 s.a) (Sha256Spec.bigSigma0 s.a) (fun i _ => by have := Dig0_le s.a i; omega)
    (parity_Dig0 s.a) z0 z1 z2 z3 (fun j hj => by have := hz0 j hj; omega) (fun j hj => by have := hz1 j hj; omega)
    (fun j hj => by have := hz2 j hj; omega) (fun j hj => by have := hz3 j hj; omega) (by
      rw [← x60, ← x61, ← x66, ← x67, ← bigSigma0_combine]
      rw [t0, t1, t2, t3] at b4
      unfold ck at b4
      simp only [Nat.cast_add, Nat.cast_mul, Nat.cast_pow, Nat.cast_ofNat, Nat.cast_one] at b4 ⊢
      linear_combination b4)
  rw [w0] at x55; rw [w1] at x56; rw [w2] at x57; rw [w3] at x58
  -- Maj
  have h48 : 4 ^ 8 ≤ p := le_trans (by norm_num) h40
  have h78 : 7 ^ 8 ≤ p := le_trans (by norm_num) h40
  obtain ⟨c0', hc0, x45, x40⟩ := maj_inv h48 j0
  obtain ⟨c1', hc1, x46, x41⟩ := maj_inv h48 j1
  obtain ⟨c2', hc2, x47, x42⟩ := maj_inv h48 j2
  obtain ⟨c3', hc3, x48, x43⟩ := maj_inv h48 j3
  obtain ⟨p0, p1, p2, p3⟩ := bytes_known (p := p) 4 H.h4 majVal (mjd s) (Sha256Spec.maj s.a s.b s.c)
    (fun i _ => by have := bt_le s.a i; have := bt_le s.b i; have := bt_le s.c i; unfold mjd; omega)
    (fun i _ => majVal_bt s.a s.b s.c i) c0' c1' c2' c3' (fun j hj => by have := hc0 j hj; omega) (fun j hj => by have := hc1 j hj; omega)
    (fun j hj => by have := hc2 j hj; omega) (fun j hj => by have := hc3 j hj; omega) (by
      rw [← x40, ← x41, ← x42, ← x43, mjd_val]
      rw [hx50, hb, hc] at e1
      simp only [Nat.cast_add, Nat.cast_mul, Nat.cast_pow, Nat.cast_ofNat, Nat.cast_one] at e1 ⊢
      linear_combination e1)
  rw [p0] at x45; rw [p1] at x46; rw [p2] at x47; rw [p3] at x48
  -- Ch
  obtain ⟨h0', hh0, x35, x20⟩ := ch_inv h78 u0
  obtain ⟨h1', hh1, x36, x21⟩ := ch_inv h78 u1
  obtain ⟨h2', hh2, x37, x22⟩ := ch_inv h78 u2
  obtain ⟨h3', hh3, x38, x23⟩ := ch_inv h78 u3
  obtain ⟨o0', o1', o2', o3'⟩ := bytes_known (p := p) 7 H.h7 chVal (chd s) (Sha256Spec.ch s.e s.f s.g)
    (fun i _ => by have := bt_le s.e i; have := bt_le s.f i; have := bt_le s.g i; unfold chd; omega)
    (fun i hi => chVal_bt s.e s.f s.g i hi) h0' h1' h2' h3' hh0 hh1 hh2 hh3 (by
      rw [← x20, ← x21, ← x22, ← x23, chd_val]
      rw [hx10, hf, hg] at f1
      simp only [Nat.cast_add, Nat.cast_mul, Nat.cast_pow, Nat.cast_ofNat, Nat.cast_one] at f1 ⊢
      linear_combination f1)
  rw [o0'] at x35; rw [o1'] at x36; rw [o2'] at x37; rw [o3'] at x38
  -- the sums
  obtain ⟨na, hna, ea⟩ := col_inv v1
  obtain ⟨nb, hnb, eb⟩ := col_inv v2
  obtain ⟨nc, hnc, ec⟩ := hlimb
  obtain ⟨en, hen⟩ := limbs_word hna hnb hnc ea eb ec f2
  obtain ⟨ma, hma, fa⟩ := col_inv i1
  obtain ⟨mb, hmb, fb⟩ := col_inv i2
  obtain ⟨mc, hmc, fc⟩ := col_inv i3
  rw [fc] at i4
  have hmc := col_mul_inv H (m := 16) hmc (by norm_num) (by norm_num) i4
  obtain ⟨an, han⟩ := limbs_word hma hmb hmc fa fb fc b5
  obtain ⟨q, hq, eq⟩ := inv6 c3
  obtain ⟨r, hr, er⟩ := inv7 d2
  have sum1 : x 4 4 = ((s.h.toNat + (Sha256Spec.bigSigma1 s.e).toNat + (Sha256Spec.ch s.e s.f s.g).toNat + k.toNat + w.toNat : ℕ) : ZMod p) := by
    simp only [Nat.cast_add]
    rw [cast_byte (Sha256Spec.bigSigma1 s.e), cast_byte (Sha256Spec.ch s.e s.f s.g)]
    rw [hh, hw, x25, x26, x27, x28, x35, x36, x37, x38] at c1
    unfold W at c1
    linear_combination c1
  have sumE : ((en.toNat + 2 ^ 32 * q : ℕ) : ZMod p) =
      ((s.d.toNat + (s.h.toNat + (Sha256Spec.bigSigma1 s.e).toNat + (Sha256Spec.ch s.e s.f s.g).toNat + k.toNat + w.toNat) : ℕ) : ZMod p) := by
    rw [Nat.cast_add s.d.toNat, ← sum1]
    rw [hen, hd, eq] at c2
    unfold W at c2
    simp only [Nat.cast_add, Nat.cast_mul]
    linear_combination c2
  have sumA : ((an.toNat + 2 ^ 32 * r : ℕ) : ZMod p) =
      ((s.h.toNat + (Sha256Spec.bigSigma1 s.e).toNat + (Sha256Spec.ch s.e s.f s.g).toNat + k.toNat + w.toNat +
        ((Sha256Spec.bigSigma0 s.a).toNat + (Sha256Spec.maj s.a s.b s.c).toNat) : ℕ) : ZMod p) := by
    rw [Nat.cast_add (_ + _ + _ + _ + _), ← sum1]
    rw [han, er, x55, x56, x57, x58, x45, x46, x47, x48] at d1
    unfold W at d1
    simp only [Nat.cast_add, Nat.cast_mul]
    rw [cast_byte (Sha256Spec.bigSigma0 s.a), cast_byte (Sha256Spec.maj s.a s.b s.c)]
    linear_combination d1
  have i1 := an.isLt
  have i2 := en.isLt
  have i3 := s.h.isLt
  have i4 := (Sha256Spec.bigSigma1 s.e).isLt
  have i5 := (Sha256Spec.ch s.e s.f s.g).isLt
  have i6 := k.isLt
  have i7 := w.isLt
  have i8 := s.d.isLt
  have i9 := (Sha256Spec.bigSigma0 s.a).isLt
  have i10 := (Sha256Spec.maj s.a s.b s.c).isLt
  have natE := cast_inj (by omega) (by omega) sumE
  have natA := cast_inj (by omega) (by omega) sumA
  refine ⟨?_, ?_, hx50, hx10⟩
  · rw [han]
    congr 1
    apply BitVec.eq_of_toNat_eq
    simp only [Sha256Spec.round, BitVec.toNat_add]
    omega
  · rw [hen]
    congr 1
    apply BitVec.eq_of_toNat_eq
    simp only [Sha256Spec.round, BitVec.toNat_add]
    omega

/-! ## The schedule -/

variable {c : Cols} {inp : In} {srow : ℤ} {t : Table (ZMod p)}

/-- **C81, schedule.** In an accepted table the cells of the schedule hold the words of the standard, for some block `m` that the input words
encode. Words 1 to 15 need not be assumed to be 32-bit words, word 0 must be: the circuit does not check it. -/
theorem schedule_sound (hp : 7 ^ 32 ≤ p) (ht : Sat t (circuit p c inp srow)) (h0 : ∃ x, (inp.words 0).value t = W p x) :
    ∃ m : ℕ → Word, (∀ i < 16, (inp.words i).value t = W p (m i)) ∧
      ∀ n : ℕ, n < 48 → t .witness (c.w 0) (srow + 2 + 5 * (n : ℤ) + 2) = W p (Sha256Spec.schedule m (n + 16)) := by
  have H := large hp
  obtain ⟨hS, -, -, hC, -, -⟩ := sat_iff.1 ht
  obtain ⟨c1, c2, c3, c4, c5⟩ := sat_schedCopies.1 hC
  have hword : ∀ i < 16, ∃ x, (inp.words i).value t = W p x := by
    intro i hi
    rcases Nat.eq_zero_or_pos i with rfl | hpos
    · exact h0
    · obtain ⟨i, rfl⟩ : ∃ k, i = k + 1 := ⟨i - 1, by omega⟩
      have hA := (hS i (by omega)).1
      unfold Sigma0OK at hA
      simp only [Int.reduceAdd, Int.reduceNeg] at hA
      obtain ⟨a1, a2, -, l1, l2, l3, l4, l5, l6, -⟩ := hA
      have h40 := H.h40
      obtain ⟨n0, hn0, e0, -⟩ := sparse_inv l1
      obtain ⟨n0', hn0', e0'⟩ := inv8 a2
      obtain ⟨n1, hn1, e1, -⟩ := sparse_inv l3
      rw [e1] at l2
      have hn1 := col_mul_inv H (m := 2 ^ 4) hn1 (by omega) (by norm_num) l2
      obtain ⟨n2, hn2, e2, -⟩ := sparse_inv l5
      rw [e2] at l4
      have hn2 := col_mul_inv H (m := 2 ^ 11) hn2 (by omega) (by norm_num) l4
      obtain ⟨n3, hn3, e3, -⟩ := sparse_inv l6
      obtain ⟨w, hw, -⟩ := chunks_word 3 7 18 3 4 11 14 n0' n1 n2 n3 rfl rfl rfl rfl (by omega) (by omega) (by omega) (by omega)
      refine ⟨w, ?_⟩
      rw [← c1 i (by omega)]
      have : t .witness (c.w 0) (srow + 2 + 5 * (i : ℤ)) = cells t c (srow + 2 + 5 * (i : ℤ)) 0 0 := by unfold cells; rw [add_zero]
      rw [this]
      unfold W; rw [hw]; simp only [Nat.cast_add, Nat.cast_mul]; rw [← e0', ← e1, ← e2, ← e3]; linear_combination a1
  let m : ℕ → Word := fun i => if h : i < 16 then (hword i h).choose else 0
  have hm : ∀ i < 16, (inp.words i).value t = W p (m i) := fun i hi => by
    simp only [m, dif_pos hi]; exact (hword i hi).choose_spec
  clear_value m
  have hm' : ∀ i < 16, (inp.words i).value t = W p (Sha256Spec.schedule m i) := fun i hi => by
    rw [Sha256Spec.schedule, if_pos hi]; exact hm i hi
  refine ⟨m, hm, fun n => ?_⟩
  induction n using Nat.strong_induction_on with
  | _ n ih =>
    intro hn
    obtain ⟨k2, k7, k15, k16, kn⟩ := c5 n hn
    have e1 : cells t c (srow + 2 + 5 * (n : ℤ)) 0 0 = W p (Sha256Spec.schedule m (n + 1)) := by
      unfold cells
      rw [add_zero]
      by_cases h : n < 15
      · rw [c1 n h, hm' _ (by omega)]
      · have := ih (n - 15) (by omega) (by omega)
        rw [k15 (by omega), show (n : ℤ) - 15 = ((n - 15 : ℕ) : ℤ) by omega, this]
        congr 2; omega
    have e9 : cells t c (srow + 2 + 5 * (n : ℤ)) 1 0 = W p (Sha256Spec.schedule m (n + 9)) := by
      unfold cells
      by_cases h : n < 7
      · rw [c2 n h, hm' _ (by omega)]
      · have := ih (n - 7) (by omega) (by omega)
        rw [k7 (by omega), show (n : ℤ) - 7 = ((n - 7 : ℕ) : ℤ) by omega, this]
        congr 2; omega
    have e0 : cells t c (srow + 2 + 5 * (n : ℤ)) 1 1 = W p (Sha256Spec.schedule m n) := by
      unfold cells
      by_cases h : n < 16
      · rw [c3 n h, hm' _ (by omega)]
      · have := ih (n - 16) (by omega) (by omega)
        rw [k16 (by omega), show (n : ℤ) - 16 = ((n - 16 : ℕ) : ℤ) by omega, this]
        congr 2; omega
    have e14 : cells t c (srow + 2 + 5 * (n : ℤ)) 4 0 = W p (Sha256Spec.schedule m (n + 14)) := by
      unfold cells
      by_cases h : n < 2
      · rw [c4 n h, hm' _ (by omega)]
      · have := ih (n - 2) (by omega) (by omega)
        rw [k2 (by omega), show (n : ℤ) - 2 = ((n - 2 : ℕ) : ℤ) by omega, this]
        congr 2; omega
    obtain ⟨w1, w14, h1, h14, hnew⟩ := sched_inv H (hS n hn) _ _ e9 e0 kn
    have q1 := W_inj H.h2 (h1.symm.trans e1)
    have q14 := W_inj H.h2 (h14.symm.trans e14)
    subst q1 q14
    refine hnew.trans ?_
    rw [Sha256Spec.schedule.eq_1 m (n + 16), if_neg (by omega), show n + 16 - 2 = n + 14 by omega, show n + 16 - 7 = n + 9 by omega,
      show n + 16 - 15 = n + 1 by omega, show n + 16 - 16 = n by omega]

/-! ## The rounds, given the constraints the circuit lacks -/

/-- The constraints that `generate_circuit` lacks, as equations between cells (`cells t c (srow + 242 + 8 n)` is round `n`). -/
structure Missing (c : Cols) (inp : In) (srow : ℤ) (t : Table (ZMod p)) (s : Sha256Spec.State) : Prop where
  /-- round 0 starts from the input state; `b`, `c`, `f` and `g` are held in sparse form -/
  a0 : cells t c (srow + 242) 7 0 = (inp.state 0).value t
  e0 : cells t c (srow + 242) 0 0 = (inp.state 4).value t
  b0 : cells t c (srow + 242) 5 1 = (spread 4 s.b : ZMod p)
  c0 : cells t c (srow + 242) 5 4 = (spread 4 s.c : ZMod p)
  f0 : cells t c (srow + 242) 1 1 = (spread 7 s.f : ZMod p)
  g0 : cells t c (srow + 242) 3 0 = (spread 7 s.g : ZMod p)
  /-- `d` and `h` are the `a` and `e` of three rounds before, `w` is the word of the schedule -/
  d : ∀ n : ℕ, n < 64 → cells t c (srow + 242 + 8 * (n : ℤ)) 3 1 =
    if n < 3 then (inp.state (3 - n)).value t else cells t c (srow + 242 + 8 * ((n - 3 : ℕ) : ℤ)) 7 0
  h : ∀ n : ℕ, n < 64 → cells t c (srow + 242 + 8 * (n : ℤ)) 3 2 =
    if n < 3 then (inp.state (7 - n)).value t else cells t c (srow + 242 + 8 * ((n - 3 : ℕ) : ℤ)) 0 0
  w : ∀ n : ℕ, n < 64 → cells t c (srow + 242 + 8 * (n : ℤ)) 3 3 =
    if n < 16 then (inp.words n).value t else t .witness (c.w 0) (srow + 2 + 5 * ((n - 16 : ℕ) : ℤ) + 2)
  /-- the lookup meant by line 915 -/
  chunk : ∀ n : ℕ, n < 64 → ∃ v < 64, cells t c (srow + 242 + 8 * (n : ℤ)) 0 2 = ((v : ℕ) : ZMod p)
  /-- the top limb of the new `e` -/
  limb : ∀ n : ℕ, n < 64 → ∃ v < 16, cells t c (srow + 242 + 8 * (n : ℤ)) 1 8 = ((v : ℕ) : ZMod p)
  /-- the final `a` and `e` -/
  aOut : cells t c (srow + 754) 0 4 = cells t c (srow + 242 + 8 * ((63 : ℕ) : ℤ)) 5 2
  eOut : cells t c (srow + 754) 2 4 = cells t c (srow + 242 + 8 * ((63 : ℕ) : ℤ)) 3 4
  /-- results are 32-bit words -/
  range : ∀ i < 8, ∃ x, (result c srow i).value t = W p x

theorem rounds_shift_d (w : ℕ → Word) (s : Sha256Spec.State) (n : ℕ) :
    (Sha256Spec.rounds w s (n + 3)).d = (Sha256Spec.rounds w s n).a ∧ (Sha256Spec.rounds w s (n + 3)).h = (Sha256Spec.rounds w s n).e := ⟨rfl, rfl⟩

theorem out_inv (H : Large p) {y st u : ZMod p} {carry : ZMod p} {sw uw r : Word} (h1 : y + ((2 ^ 32 : ℕ) : ZMod p) * carry - (st + u) = 0)
    (h2 : carry * (carry - ((1 : ℕ) : ZMod p)) = 0) (hs : st = W p sw) (hu : u = W p uw) (hy : y = W p r) : y = W p (sw + uw) := by
  rw [hy]
  obtain ⟨q, hq, eq⟩ : ∃ q < 2, carry = ((q : ℕ) : ZMod p) := by
    rcases mul_eq_zero.1 h2 with h | h
    · exact ⟨0, by omega, by simpa using h⟩
    · exact ⟨1, by omega, sub_eq_zero.1 h⟩
  have h40 := H.h40
  have i1 := sw.isLt
  have i2 := uw.isLt
  have i3 := r.isLt
  have : ((r.toNat + 2 ^ 32 * q : ℕ) : ZMod p) = ((sw.toNat + uw.toNat : ℕ) : ZMod p) := by
    rw [hs, hu, hy, eq] at h1
    unfold W at h1
    simp only [Nat.cast_add, Nat.cast_mul]
    linear_combination h1
  have hn := cast_inj (by omega) (by omega) this
  congr 1
  apply BitVec.eq_of_toNat_eq
  rw [BitVec.toNat_add]
  omega

/-- **C81, rounds.** With the missing constraints added, the circuit forces the compression function. -/
theorem sha256_sound_partial (hp : 7 ^ 32 ≤ p) (s : Sha256Spec.State) (ws : ℕ → Word)
    (hst : ∀ i < 8, (inp.state i).value t = W p (s.get i)) (hws : ∀ i < 16, (inp.words i).value t = W p (ws i))
    (ht : Sat t (circuit p c inp srow)) (hM : Missing c inp srow t s) :
    ∀ i < 8, (result c srow i).value t = W p ((Sha256Spec.compress s ws).get i) := by
  have H := large hp
  obtain ⟨m, hm, hsch⟩ := schedule_sound hp ht ⟨ws 0, hws 0 (by omega)⟩
  obtain ⟨-, hR, hO, -, hRC, hOC⟩ := sat_iff.1 ht
  have hRC := sat_roundCopies.1 hRC
  obtain ⟨⟨u5, u6, u7, u5', u6', u7'⟩, ust, -⟩ := sat_outCopies.1 hOC
  have hmw : ∀ i < 16, m i = ws i := fun i hi => W_inj H.h2 ((hm i hi).symm.trans (hws i hi))
  have hsched : ∀ n, Sha256Spec.schedule m n = Sha256Spec.schedule ws n := fun n => by
    induction n using Nat.strong_induction_on with
    | _ n ih =>
      rw [Sha256Spec.schedule, Sha256Spec.schedule.eq_1 ws]
      by_cases h : n < 16
      · rw [if_pos h, if_pos h, hmw n h]
      · rw [if_neg h, if_neg h, ih (n - 15) (by omega), ih (n - 2) (by omega), ih (n - 7) (by omega), ih (n - 16) (by omega)]
  have hword : ∀ n < 64, cells t c (srow + 242 + 8 * ((n : ℕ) : ℤ)) 3 3 = W p (Sha256Spec.schedule ws n) := fun n hn => by
    rw [hM.w n hn]
    split
    · rename_i h; rw [hws n h, Sha256Spec.schedule, if_pos h]
    · rename_i h; rw [hsch (n - 16) (by omega), hsched]; congr 2; omega
  let S := Sha256Spec.rounds (Sha256Spec.schedule ws) s
  have hS0 : S 0 = s := rfl
  have hS1 : ∀ n, S (n + 1) = Sha256Spec.round (S n) (Sha256Spec.k n) (Sha256Spec.schedule ws n) := fun n => rfl
  have hSd : ∀ n, (S (n + 3)).d = (S n).a ∧ (S (n + 3)).h = (S n).e := rounds_shift_d _ _
  have hcomp : Sha256Spec.compress s ws = Sha256Spec.addState s (S 64) := rfl
  clear_value S
  -- the invariant, with the outcome of the round
  have main : ∀ n : ℕ, n < 64 →
      cells t c (srow + 242 + 8 * (n : ℤ)) 7 0 = W p (S n).a ∧ cells t c (srow + 242 + 8 * (n : ℤ)) 0 0 = W p (S n).e ∧
      cells t c (srow + 242 + 8 * (n : ℤ)) 5 1 = (spread 4 (S n).b : ZMod p) ∧ cells t c (srow + 242 + 8 * (n : ℤ)) 1 1 = (spread 7 (S n).f : ZMod p) ∧
      cells t c (srow + 242 + 8 * (n : ℤ)) 5 2 = W p (S (n + 1)).a ∧ cells t c (srow + 242 + 8 * (n : ℤ)) 3 4 = W p (S (n + 1)).e ∧
      cells t c (srow + 242 + 8 * (n : ℤ)) 5 0 = (spread 4 (S n).a : ZMod p) ∧ cells t c (srow + 242 + 8 * (n : ℤ)) 1 0 = (spread 7 (S n).e : ZMod p) := by
    intro n
    induction n using Nat.strong_induction_on with
    | _ n ih =>
      intro hn
      have hstart : cells t c (srow + 242 + 8 * (n : ℤ)) 7 0 = W p (S n).a ∧ cells t c (srow + 242 + 8 * (n : ℤ)) 0 0 = W p (S n).e ∧
          cells t c (srow + 242 + 8 * (n : ℤ)) 5 1 = (spread 4 (S n).b : ZMod p) ∧ cells t c (srow + 242 + 8 * (n : ℤ)) 5 4 = (spread 4 (S n).c : ZMod p) ∧
          cells t c (srow + 242 + 8 * (n : ℤ)) 1 1 = (spread 7 (S n).f : ZMod p) ∧ cells t c (srow + 242 + 8 * (n : ℤ)) 3 0 = (spread 7 (S n).g : ZMod p) := by
        rcases Nat.eq_zero_or_pos n with rfl | hpos
        · rw [Nat.cast_zero, mul_zero, add_zero, hS0]
          exact ⟨hM.a0.trans (hst 0 (by omega)), hM.e0.trans (hst 4 (by omega)), hM.b0, hM.c0, hM.f0, hM.g0⟩
        · obtain ⟨n, rfl⟩ : ∃ k, n = k + 1 := ⟨n - 1, by omega⟩
          obtain ⟨i1, i2, i3, i4, i5, i6, i7, i8⟩ := ih n (by omega) (by omega)
          obtain ⟨k1, k2, k3, k4, k5, k6⟩ := hRC n (by omega)
          rw [Nat.cast_succ, hS1]
          unfold cells at *
          rw [add_zero, k1, k2, k3, k4, k5, k6]
          exact ⟨i5.trans (by rw [hS1]), i6.trans (by rw [hS1]), i7, i3, i8, i4⟩
      obtain ⟨p1, p2, p3, p4, p5, p6⟩ := hstart
      have hd : cells t c (srow + 242 + 8 * (n : ℤ)) 3 1 = W p (S n).d := by
        rw [hM.d n hn]
        split
        · rename_i h
          rw [hst _ (by omega)]
          interval_cases n
          · rw [hS0]; rfl
          · rw [hS1, hS0]; rfl
          · rw [hS1, hS1, hS0]; rfl
        · rename_i h
          rw [(ih (n - 3) (by omega) (by omega)).1, ← (hSd (n - 3)).1, show n - 3 + 3 = n by omega]
      have hh : cells t c (srow + 242 + 8 * (n : ℤ)) 3 2 = W p (S n).h := by
        rw [hM.h n hn]
        split
        · rename_i h
          rw [hst _ (by omega)]
          interval_cases n
          · rw [hS0]; rfl
          · rw [hS1, hS0]; rfl
          · rw [hS1, hS1, hS0]; rfl
        · rename_i h
          rw [(ih (n - 3) (by omega) (by omega)).2.1, ← (hSd (n - 3)).2, show n - 3 + 3 = n by omega]
      have hblock := (hR n hn).2
      rw [kc_eq n hn] at hblock
      obtain ⟨r1, r2, r3, r4⟩ := round_inv H (S n) (Sha256Spec.k n) (Sha256Spec.schedule ws n) hblock (hM.chunk n hn) (hM.limb n hn) p1 p2 p3 p4 p5 p6 hd hh (hword n hn)
      rw [← hS1] at r1 r2
      exact ⟨p1, p2, p3, p5, r1, r2, r3, r4⟩
  have m63 := main 63 (by omega)
  have m62 := main 62 (by omega)
  have m61 := main 61 (by omega)
  obtain ⟨hOa, hOb, -⟩ := hO
  unfold OutOK at hOa hOb
  simp only [Int.reduceAdd, Int.reduceNeg] at hOa hOb
  obtain ⟨o0, o1, o2, o3, v0, v1, v2, v3⟩ := hOa
  obtain ⟨o4, o5, o6, o7, v4, v5, v6, v7⟩ := hOb
  have ust0 := ust 0 (by omega)
  have ust1 := ust 1 (by omega)
  have ust2 := ust 2 (by omega)
  have ust3 := ust 3 (by omega)
  have E : ∀ m j : ℤ, cells t c (srow + 754) m j = t .witness (c.w j) (srow + 754 + m) := fun _ _ => rfl
  have q0 : cells t c (srow + 754) 0 4 = W p (S 64).a := hM.aOut.trans m63.2.2.2.2.1
  have q4 : cells t c (srow + 754) 2 4 = W p (S 64).e := hM.eOut.trans m63.2.2.2.2.2.1
  have q1 : cells t c (srow + 754) 0 5 = W p (S 64).b := by
    rw [E, add_zero, ← u5]; refine Eq.trans ?_ (m63.1.trans (by rw [hS1 63]; rfl)); unfold cells; congr 1; push_cast; ring
  have q2 : cells t c (srow + 754) 0 6 = W p (S 64).c := by
    rw [E, add_zero, ← u6]; refine Eq.trans ?_ (m62.1.trans (by rw [hS1 63, hS1 62]; rfl)); unfold cells; congr 1; push_cast; ring
  have q3 : cells t c (srow + 754) 0 7 = W p (S 64).d := by
    rw [E, add_zero, ← u7]; refine Eq.trans ?_ (m61.1.trans (by rw [hS1 63, hS1 62, hS1 61]; rfl)); unfold cells; congr 1; push_cast; ring
  have q5 : cells t c (srow + 754) 2 5 = W p (S 64).f := by
    rw [E, ← u5']; refine Eq.trans ?_ (m63.2.1.trans (by rw [hS1 63]; rfl)); unfold cells; congr 1; push_cast; ring
  have q6 : cells t c (srow + 754) 2 6 = W p (S 64).g := by
    rw [E, ← u6']; refine Eq.trans ?_ (m62.2.1.trans (by rw [hS1 63, hS1 62]; rfl)); unfold cells; congr 1; push_cast; ring
  have q7 : cells t c (srow + 754) 2 7 = W p (S 64).h := by
    rw [E, ← u7']; refine Eq.trans ?_ (m61.2.1.trans (by rw [hS1 63, hS1 62, hS1 61]; rfl)); unfold cells; congr 1; push_cast; ring
  have s0 : cells t c (srow + 754) 0 0 = W p s.a := by rw [E, add_zero]; exact ust0.1.trans (hst 0 (by omega))
  have s1 : cells t c (srow + 754) 0 1 = W p s.b := by rw [E, add_zero]; exact ust1.1.trans (hst 1 (by omega))
  have s2 : cells t c (srow + 754) 0 2 = W p s.c := by rw [E, add_zero]; exact ust2.1.trans (hst 2 (by omega))
  have s3 : cells t c (srow + 754) 0 3 = W p s.d := by rw [E, add_zero]; exact ust3.1.trans (hst 3 (by omega))
  have s4 : cells t c (srow + 754) 2 0 = W p s.e := by rw [E]; exact ust0.2.trans (hst 4 (by omega))
  have s5 : cells t c (srow + 754) 2 1 = W p s.f := by rw [E]; exact ust1.2.trans (hst 5 (by omega))
  have s6 : cells t c (srow + 754) 2 2 = W p s.g := by rw [E]; exact ust2.2.trans (hst 6 (by omega))
  have s7 : cells t c (srow + 754) 2 3 = W p s.h := by rw [E]; exact ust3.2.trans (hst 7 (by omega))
  have hres : ∀ i : ℕ, i < 4 → (result c srow i).value t = cells t c (srow + 754) 1 (i : ℤ) := fun i hi => by
    unfold result; rw [if_pos hi, Cols.value_wa]; unfold cells; congr 1; ring
  have hres' : ∀ i : ℕ, ¬ i < 4 → (result c srow i).value t = cells t c (srow + 754) 3 ((i : ℤ) - 4) := fun i hi => by
    unfold result; rw [if_neg hi, Cols.value_wa]; unfold cells; congr 1; ring
  intro i hi
  obtain ⟨r, hr⟩ := hM.range i hi
  rw [hcomp]
  interval_cases i
  · rw [hres 0 (by omega)] at hr ⊢; exact out_inv H o0 v0 s0 q0 hr
  · rw [hres 1 (by omega)] at hr ⊢; exact out_inv H o1 v1 s1 q1 hr
  · rw [hres 2 (by omega)] at hr ⊢; exact out_inv H o2 v2 s2 q2 hr
  · rw [hres 3 (by omega)] at hr ⊢; exact out_inv H o3 v3 s3 q3 hr
  · rw [hres' 4 (by omega)] at hr ⊢; exact out_inv H o4 v4 s4 q4 hr
  · rw [hres' 5 (by omega)] at hr ⊢; exact out_inv H o5 v5 s5 q5 hr
  · rw [hres' 6 (by omega)] at hr ⊢; exact out_inv H o6 v6 s6 q6 hr
  · rw [hres' 7 (by omega)] at hr ⊢; exact out_inv H o7 v7 s7 q7 hr

/-- The missing constraints hold in the table of the honest prover, so adding them would cost nothing. -/
theorem missing_honest (hp : 7 ^ 32 ≤ p) (hc : c.OK 9) (s : Sha256Spec.State) (ws : ℕ → Word)
    (hk : ∀ n : ℕ, n < 64 → t .constant (c.k 0) (srow + 245 + 8 * (n : ℤ)) = kc p n)
    (hst : ∀ i < 8, (inp.state i).Outside srow 762 ∧ (inp.state i).value t = W p (s.get i))
    (hws : ∀ i < 16, (inp.words i).Outside srow 762 ∧ (inp.words i).value t = W p (ws i)) :
    Missing c inp srow (assign c inp srow t) s := by
  have H := large hp
  rw [assign_eq (c := c) H s ws hst hws]
  have hsat := forged_sat (t := t) (inp := inp) H hc s s ws (Sha256Spec.schedule ws) hk hst hws
  have hf := hsat.2.1
  have hrun : ∀ n ≤ 64, (emb p s).run (fun i => W p (Sha256Spec.schedule ws i)) n = emb p (Sha256Spec.rounds (Sha256Spec.schedule ws) s n) :=
    fun n hn => run_emb H s _ n hn
  have rR : ∀ n m j : ℕ, n < 64 → m < 8 → j < 9 → written (242 + m) j = true →
      cells (forged c srow s s ws (Sha256Spec.schedule ws) t) c (srow + 242 + 8 * (n : ℤ)) (m : ℤ) (j : ℤ) =
        roundCell (emb p (Sha256Spec.rounds (Sha256Spec.schedule ws) s n)) (W p (Sha256Spec.k n)) (W p (Sha256Spec.schedule ws n)) m j := fun n m j hn hm hj hw => by
    rw [← hrun n (by omega), ← kc_eq n hn]; exact read_round _ _ _ _ hc n m j hn hm hj hw
  have rO : ∀ m j : ℕ, m < 8 → j < 8 → cells (forged c srow s s ws (Sha256Spec.schedule ws) t) c (srow + 754) (m : ℤ) (j : ℤ) =
      outCell (fun i => W p (s.get i)) (fun i => W p ((Sha256Spec.rounds (Sha256Spec.schedule ws) s 64).get i)) m j := fun m j hm hj => by
    refine (read_out _ _ _ _ hc m j hm hj).trans ?_
    rw [hrun 64 le_rfl]
    simp only [emb_get]
  have hsv : ∀ i < 8, (inp.state i).value (forged c srow s s ws (Sha256Spec.schedule ws) t) = W p (s.get i) := fun i hi => by
    rw [hf.outside (hst i hi).1, (hst i hi).2]
  have hwv : ∀ i < 16, (inp.words i).value (forged c srow s s ws (Sha256Spec.schedule ws) t) = W p (ws i) := fun i hi => by
    rw [hf.outside (hws i hi).1, (hws i hi).2]
  have hsched := schedule_sound (inp := inp) hp hsat.1 ⟨ws 0, hwv 0 (by omega)⟩
  have hres := hsat.2.2
  obtain ⟨m, hm, hm2⟩ := hsched
  have hmw : ∀ i < 16, m i = ws i := fun i hi => W_inj H.h2 ((hm i hi).symm.trans (hwv i hi))
  have hms : ∀ n, Sha256Spec.schedule m n = Sha256Spec.schedule ws n := fun n => by
    induction n using Nat.strong_induction_on with
    | _ n ih =>
      rw [Sha256Spec.schedule, Sha256Spec.schedule.eq_1 ws]
      by_cases h : n < 16
      · rw [if_pos h, if_pos h, hmw n h]
      · rw [if_neg h, if_neg h, ih (n - 15) (by omega), ih (n - 2) (by omega), ih (n - 7) (by omega), ih (n - 16) (by omega)]
  let S := Sha256Spec.rounds (Sha256Spec.schedule ws) s
  have hS0 : S 0 = s := rfl
  have hS1 : ∀ n, S (n + 1) = Sha256Spec.round (S n) (Sha256Spec.k n) (Sha256Spec.schedule ws n) := fun n => rfl
  have hSd : ∀ n, (S (n + 3)).d = (S n).a ∧ (S (n + 3)).h = (S n).e := rounds_shift_d _ _
  change ∀ n m j : ℕ, n < 64 → m < 8 → j < 9 → written (242 + m) j = true →
      cells (forged c srow s s ws (Sha256Spec.schedule ws) t) c (srow + 242 + 8 * (n : ℤ)) (m : ℤ) (j : ℤ) =
        roundCell (emb p (S n)) (W p (Sha256Spec.k n)) (W p (Sha256Spec.schedule ws n)) m j at rR
  change ∀ m j : ℕ, m < 8 → j < 8 → cells (forged c srow s s ws (Sha256Spec.schedule ws) t) c (srow + 754) (m : ℤ) (j : ℤ) =
      outCell (fun i => W p (s.get i)) (fun i => W p ((S 64).get i)) m j at rO
  clear_value S
  have h0 : srow + 242 = srow + 242 + 8 * ((0 : ℕ) : ℤ) := by simp
  refine ⟨?_, ?_, ?_, ?_, ?_, ?_, fun n hn => ?_, fun n hn => ?_, fun n hn => ?_, fun n hn => ?_, fun n hn => ?_, ?_, ?_, fun i hi => ⟨_, hres i hi⟩⟩
  · rw [h0, hsv 0 (by omega)]; exact (rR 0 7 0 (by omega) (by omega) (by omega) rfl).trans (by rw [hS0]; rfl)
  · rw [h0, hsv 4 (by omega)]; exact (rR 0 0 0 (by omega) (by omega) (by omega) rfl).trans (by rw [hS0]; rfl)
  · rw [h0]; exact (rR 0 5 1 (by omega) (by omega) (by omega) rfl).trans (by rw [hS0]; rfl)
  · rw [h0]; exact (rR 0 5 4 (by omega) (by omega) (by omega) rfl).trans (by rw [hS0]; rfl)
  · rw [h0]; exact (rR 0 1 1 (by omega) (by omega) (by omega) rfl).trans (by rw [hS0]; rfl)
  · rw [h0]; exact (rR 0 3 0 (by omega) (by omega) (by omega) rfl).trans (by rw [hS0]; rfl)
  · refine (rR n 3 1 hn (by omega) (by omega) rfl).trans ?_
    split
    · rename_i h
      rw [hsv _ (by omega)]
      interval_cases n
      · rw [hS0]; rfl
      · rw [hS1, hS0]; rfl
      · rw [hS1, hS1, hS0]; rfl
    · rename_i h
      refine Eq.trans ?_ (rR (n - 3) 7 0 (by omega) (by omega) (by omega) rfl).symm
      obtain ⟨k, rfl⟩ : ∃ k, n = k + 3 := ⟨n - 3, by omega⟩
      rw [show k + 3 - 3 = k by omega]
      exact congrArg (W p) (hSd k).1
  · refine (rR n 3 2 hn (by omega) (by omega) rfl).trans ?_
    split
    · rename_i h
      rw [hsv _ (by omega)]
      interval_cases n
      · rw [hS0]; rfl
      · rw [hS1, hS0]; rfl
      · rw [hS1, hS1, hS0]; rfl
    · rename_i h
      refine Eq.trans ?_ (rR (n - 3) 0 0 (by omega) (by omega) (by omega) rfl).symm
      obtain ⟨k, rfl⟩ : ∃ k, n = k + 3 := ⟨n - 3, by omega⟩
      rw [show k + 3 - 3 = k by omega]
      exact congrArg (W p) (hSd k).2
  · refine (rR n 3 3 hn (by omega) (by omega) rfl).trans ?_
    change W p (Sha256Spec.schedule ws n) = _
    split
    · rename_i h; rw [hwv n h, Sha256Spec.schedule, if_pos h]
    · rename_i h; rw [hm2 (n - 16) (by omega), hms]; congr 2; omega
  · exact ⟨ck 2 0 6 (S n).e, ck_lt 0 6 _, (rR n 0 2 hn (by omega) (by omega) rfl).trans (congrArg _ (eChunk H.h2 2 (S n).e).1)⟩
  · exact ⟨lb (Sha256Spec.round (S n) (Sha256Spec.k n) (Sha256Spec.schedule ws n)).e 2, lb_top _,
      (rR n 1 8 hn (by omega) (by omega) rfl).trans ((congrArg (fun v => limb v 2) (eNew_emb H (S n) _ _)).trans (limb_W H _ 2))⟩
  · refine (rO 0 4 (by omega) (by omega)).trans (Eq.trans ?_ (rR 63 5 2 (by omega) (by omega) (by omega) rfl).symm)
    refine Eq.trans ?_ (aNew_emb H (S 63) _ _).symm
    rw [← hS1]; rfl
  · refine (rO 2 4 (by omega) (by omega)).trans (Eq.trans ?_ (rR 63 3 4 (by omega) (by omega) (by omega) rfl).symm)
    refine Eq.trans ?_ (eNew_emb H (S 63) _ _).symm
    rw [← hS1]; rfl

end

/-! ## A case -/

/-- The hypotheses are met by the honest table for `abc`. -/
example : Sat (assign exCols exIn 0 (writeConsts (circuit pallasP exCols exIn 0) exTable)) (circuit pallasP exCols exIn 0) ∧
    Missing exCols exIn 0 (assign exCols exIn 0 (writeConsts (circuit pallasP exCols exIn 0) exTable)) Sha256Spec.iv :=
  ⟨(sha256_complete pallas_large exCols_ok Sha256Spec.iv exBlock exTable (fun i _ => exState i) fun i _ => exWords i).1,
    missing_honest pallas_large exCols_ok Sha256Spec.iv exBlock (fun n hn => circuit_consts n hn) (fun i _ => exState i) fun i _ => exWords i⟩

end Sha256
end Verif
