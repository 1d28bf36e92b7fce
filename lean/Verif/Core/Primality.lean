import Mathlib.NumberTheory.LucasPrimality
import Mathlib.Data.ZMod.Basic
import Mathlib.Tactic.NormNum.Prime

/-!
# Primality of the base field of Pallas

Lucas certificates, checked by evaluation in the kernel. The two pasta fields are the native fields of the components
for curves and for foreign fields.
-/

set_option linter.unusedSimpArgs false

namespace Verif

/-- Modular power by squaring, for checking the next facts in the kernel. -/
def powMod (m : ℕ) : ℕ → ℕ → ℕ → ℕ
  | 0, _, _ => 1 % m
  | f + 1, a, e =>
    if e = 0 then 1 % m
    else if e % 2 = 1 then a * powMod m f (a * a % m) (e / 2) % m else powMod m f (a * a % m) (e / 2)

theorem powMod_eq (m f a e : ℕ) (h : e < 2 ^ f) : powMod m f a e = a ^ e % m := by
  induction f generalizing a e with
  | zero =>
    have : e = 0 := by simpa using h
    subst this; rfl
  | succ f ih =>
    rw [powMod]
    have hlt : e / 2 < 2 ^ f := by rw [pow_succ] at h; omega
    have he : a ^ e = (a * a) ^ (e / 2) * a ^ (e % 2) := by
      rw [← pow_two, ← pow_mul, ← pow_add, Nat.div_add_mod]
    split_ifs with h0 h1
    · subst h0; rfl
    · rw [ih _ _ hlt, he, h1, pow_one, ← Nat.pow_mod, Nat.mul_mod, Nat.mod_mod, ← Nat.mul_mod, mul_comm]
    · have h2 : e % 2 = 0 := by omega
      rw [ih _ _ hlt, he, h2, pow_zero, mul_one, ← Nat.pow_mod]

/-- A complete factorisation of `p - 1` and a generator. -/
def certOk (p a : ℕ) (fs : List ℕ) : Bool :=
  fs.foldr (· * ·) 1 = p - 1 && powMod p 256 a (p - 1) = 1 && fs.all fun q => powMod p 256 a ((p - 1) / q) ≠ 1

theorem prime_of_cert (p a : ℕ) (fs : List ℕ) (h1 : 1 < p) (h256 : p < 2 ^ 256) (hok : certOk p a fs = true)
    (hp : ∀ q ∈ fs, q.Prime) : p.Prime := by
  simp only [certOk, Bool.and_eq_true, decide_eq_true_eq, List.all_eq_true] at hok
  obtain ⟨⟨hf, ho⟩, hq⟩ := hok
  have hf' : fs.prod = p - 1 := by rw [← hf]; rfl
  have key : ∀ e, e < 2 ^ 256 → (((a : ℕ) : ZMod p) ^ e = 1 ↔ powMod p 256 a e = 1) := by
    intro e he
    rw [powMod_eq _ _ _ _ he, ← Nat.cast_pow, ← Nat.cast_one, ZMod.natCast_eq_natCast_iff', Nat.mod_eq_of_lt h1]
  refine lucas_primality p (a : ZMod p) ((key _ (by omega)).2 ho) fun q hqp hd => ?_
  have hm : q ∈ fs := by
    rw [← hf'] at hd
    obtain ⟨r, hr, hdr⟩ := (Prime.dvd_prod_iff hqp.prime).1 hd
    rwa [(Nat.prime_dvd_prime_iff_eq hqp (hp r hr)).1 hdr]
  rw [Ne, key _ (lt_of_le_of_lt (Nat.div_le_self _ _) (by omega))]
  exact hq q hm

private theorem prime_149503 : Nat.Prime 149503 := by
  refine prime_of_cert 149503 3 [2, 3, 24917] (by decide +kernel) (by decide +kernel) (by decide +kernel)
    (fun q hq => ?_)
  have hq' : q ∈ [2, 3, 24917] := by
    simp only [List.mem_cons, List.not_mem_nil, or_false, or_self_left, or_self] at hq ⊢; tauto
  simp only [List.mem_cons, List.not_mem_nil, or_false] at hq'
  rcases hq' with rfl | rfl | rfl
  · norm_num
  · norm_num
  · norm_num

private theorem prime_897019 : Nat.Prime 897019 := by
  refine prime_of_cert 897019 2 [2, 3, 149503] (by decide +kernel) (by decide +kernel) (by decide +kernel)
    (fun q hq => ?_)
  have hq' : q ∈ [2, 3, 149503] := by
    simp only [List.mem_cons, List.not_mem_nil, or_false, or_self_left, or_self] at hq ⊢; tauto
  simp only [List.mem_cons, List.not_mem_nil, or_false] at hq'
  rcases hq' with rfl | rfl | rfl
  · norm_num
  · norm_num
  · exact prime_149503

private theorem prime_417677162933 : Nat.Prime 417677162933 := by
  refine prime_of_cert 417677162933 2 [2, 2, 59, 1973, 897019] (by decide +kernel) (by decide +kernel) (by decide +kernel)
    (fun q hq => ?_)
  have hq' : q ∈ [2, 59, 1973, 897019] := by
    simp only [List.mem_cons, List.not_mem_nil, or_false, or_self_left, or_self] at hq ⊢; tauto
  simp only [List.mem_cons, List.not_mem_nil, or_false] at hq'
  rcases hq' with rfl | rfl | rfl | rfl
  · norm_num
  · norm_num
  · norm_num
  · exact prime_897019

private theorem prime_539204044132271846773 : Nat.Prime 539204044132271846773 := by
  refine prime_of_cert 539204044132271846773 5 [2, 2, 3, 3, 3, 3, 3, 89, 14923, 417677162933] (by decide +kernel) (by decide +kernel) (by decide +kernel)
    (fun q hq => ?_)
  have hq' : q ∈ [2, 3, 89, 14923, 417677162933] := by
    simp only [List.mem_cons, List.not_mem_nil, or_false, or_self_left, or_self] at hq ⊢; tauto
  simp only [List.mem_cons, List.not_mem_nil, or_false] at hq'
  rcases hq' with rfl | rfl | rfl | rfl | rfl
  · norm_num
  · norm_num
  · norm_num
  · norm_num
  · exact prime_417677162933

private theorem prime_115603 : Nat.Prime 115603 := by
  refine prime_of_cert 115603 2 [2, 3, 19267] (by decide +kernel) (by decide +kernel) (by decide +kernel)
    (fun q hq => ?_)
  have hq' : q ∈ [2, 3, 19267] := by
    simp only [List.mem_cons, List.not_mem_nil, or_false, or_self_left, or_self] at hq ⊢; tauto
  simp only [List.mem_cons, List.not_mem_nil, or_false] at hq'
  rcases hq' with rfl | rfl | rfl
  · norm_num
  · norm_num
  · norm_num

private theorem prime_1197907 : Nat.Prime 1197907 := by
  refine prime_of_cert 1197907 3 [2, 3, 53, 3767] (by decide +kernel) (by decide +kernel) (by decide +kernel)
    (fun q hq => ?_)
  have hq' : q ∈ [2, 3, 53, 3767] := by
    simp only [List.mem_cons, List.not_mem_nil, or_false, or_self_left, or_self] at hq ⊢; tauto
  simp only [List.mem_cons, List.not_mem_nil, or_false] at hq'
  rcases hq' with rfl | rfl | rfl | rfl
  · norm_num
  · norm_num
  · norm_num
  · norm_num

private theorem prime_6942563 : Nat.Prime 6942563 := by
  refine prime_of_cert 6942563 2 [2, 11, 17, 19, 977] (by decide +kernel) (by decide +kernel) (by decide +kernel)
    (fun q hq => ?_)
  have hq' : q ∈ [2, 11, 17, 19, 977] := by
    simp only [List.mem_cons, List.not_mem_nil, or_false, or_self_left, or_self] at hq ⊢; tauto
  simp only [List.mem_cons, List.not_mem_nil, or_false] at hq'
  rcases hq' with rfl | rfl | rfl | rfl | rfl
  · norm_num
  · norm_num
  · norm_num
  · norm_num
  · norm_num

private theorem prime_41655379 : Nat.Prime 41655379 := by
  refine prime_of_cert 41655379 2 [2, 3, 6942563] (by decide +kernel) (by decide +kernel) (by decide +kernel)
    (fun q hq => ?_)
  have hq' : q ∈ [2, 3, 6942563] := by
    simp only [List.mem_cons, List.not_mem_nil, or_false, or_self_left, or_self] at hq ⊢; tauto
  simp only [List.mem_cons, List.not_mem_nil, or_false] at hq'
  rcases hq' with rfl | rfl | rfl
  · norm_num
  · norm_num
  · exact prime_6942563

private theorem prime_22160661629 : Nat.Prime 22160661629 := by
  refine prime_of_cert 22160661629 3 [2, 2, 7, 19, 41655379] (by decide +kernel) (by decide +kernel) (by decide +kernel)
    (fun q hq => ?_)
  have hq' : q ∈ [2, 7, 19, 41655379] := by
    simp only [List.mem_cons, List.not_mem_nil, or_false, or_self_left, or_self] at hq ⊢; tauto
  simp only [List.mem_cons, List.not_mem_nil, or_false] at hq'
  rcases hq' with rfl | rfl | rfl | rfl
  · norm_num
  · norm_num
  · norm_num
  · exact prime_41655379

private theorem prime_413527 : Nat.Prime 413527 := by
  refine prime_of_cert 413527 3 [2, 3, 41, 41, 41] (by decide +kernel) (by decide +kernel) (by decide +kernel)
    (fun q hq => ?_)
  have hq' : q ∈ [2, 3, 41] := by
    simp only [List.mem_cons, List.not_mem_nil, or_false, or_self_left, or_self] at hq ⊢; tauto
  simp only [List.mem_cons, List.not_mem_nil, or_false] at hq'
  rcases hq' with rfl | rfl | rfl
  · norm_num
  · norm_num
  · norm_num

private theorem prime_772231 : Nat.Prime 772231 := by
  refine prime_of_cert 772231 6 [2, 3, 5, 25741] (by decide +kernel) (by decide +kernel) (by decide +kernel)
    (fun q hq => ?_)
  have hq' : q ∈ [2, 3, 5, 25741] := by
    simp only [List.mem_cons, List.not_mem_nil, or_false, or_self_left, or_self] at hq ⊢; tauto
  simp only [List.mem_cons, List.not_mem_nil, or_false] at hq'
  rcases hq' with rfl | rfl | rfl | rfl
  · norm_num
  · norm_num
  · norm_num
  · norm_num

private theorem prime_325086459374267 : Nat.Prime 325086459374267 := by
  refine prime_of_cert 325086459374267 2 [2, 509, 413527, 772231] (by decide +kernel) (by decide +kernel) (by decide +kernel)
    (fun q hq => ?_)
  have hq' : q ∈ [2, 509, 413527, 772231] := by
    simp only [List.mem_cons, List.not_mem_nil, or_false, or_self_left, or_self] at hq ⊢; tauto
  simp only [List.mem_cons, List.not_mem_nil, or_false] at hq'
  rcases hq' with rfl | rfl | rfl | rfl
  · norm_num
  · norm_num
  · exact prime_413527
  · exact prime_772231

private theorem prime_8999194758858563409123804352480028797519453 : Nat.Prime 8999194758858563409123804352480028797519453 := by
  refine prime_of_cert 8999194758858563409123804352480028797519453 2 [2, 2, 3, 3, 3, 3, 11, 2531, 115603, 1197907, 22160661629, 325086459374267] (by decide +kernel) (by decide +kernel) (by decide +kernel)
    (fun q hq => ?_)
  have hq' : q ∈ [2, 3, 11, 2531, 115603, 1197907, 22160661629, 325086459374267] := by
    simp only [List.mem_cons, List.not_mem_nil, or_false, or_self_left, or_self] at hq ⊢; tauto
  simp only [List.mem_cons, List.not_mem_nil, or_false] at hq'
  rcases hq' with rfl | rfl | rfl | rfl | rfl | rfl | rfl | rfl
  · norm_num
  · norm_num
  · norm_num
  · norm_num
  · exact prime_115603
  · exact prime_1197907
  · exact prime_22160661629
  · exact prime_325086459374267

theorem pallas_prime : Nat.Prime 28948022309329048855892746252171976963363056481941560715954676764349967630337 := by
  refine prime_of_cert 28948022309329048855892746252171976963363056481941560715954676764349967630337 5 [2, 2, 2, 2, 2, 2, 2, 2, 2, 2, 2, 2, 2, 2, 2, 2, 2, 2, 2, 2, 2, 2, 2, 2, 2, 2, 2, 2, 2, 2, 2, 2, 3, 463, 539204044132271846773, 8999194758858563409123804352480028797519453] (by decide +kernel) (by decide +kernel) (by decide +kernel)
    (fun q hq => ?_)
  have hq' : q ∈ [2, 3, 463, 539204044132271846773, 8999194758858563409123804352480028797519453] := by
    simp only [List.mem_cons, List.not_mem_nil, or_false, or_self_left, or_self] at hq ⊢; tauto
  simp only [List.mem_cons, List.not_mem_nil, or_false] at hq'
  rcases hq' with rfl | rfl | rfl | rfl | rfl
  · norm_num
  · norm_num
  · norm_num
  · exact prime_539204044132271846773
  · exact prime_8999194758858563409123804352480028797519453

/-- Modulus of the base field of Pallas. -/
def pallasP : ℕ := 0x40000000000000000000000000000000224698fc094cf91b992d30ed00000001

instance : Fact pallasP.Prime := ⟨pallas_prime⟩

private theorem prime_958679 : Nat.Prime 958679 := by
  refine prime_of_cert 958679 7 [2, 7, 68477] (by decide +kernel) (by decide +kernel) (by decide +kernel)
    (fun q hq => ?_)
  have hq' : q ∈ [2, 7, 68477] := by
    simp only [List.mem_cons, List.not_mem_nil, or_false, or_self_left, or_self] at hq ⊢; tauto
  simp only [List.mem_cons, List.not_mem_nil, or_false] at hq'
  rcases hq' with rfl | rfl | rfl
  · norm_num
  · norm_num
  · norm_num

private theorem prime_4129989133 : Nat.Prime 4129989133 := by
  refine prime_of_cert 4129989133 5 [2, 2, 3, 359, 958679] (by decide +kernel) (by decide +kernel) (by decide +kernel)
    (fun q hq => ?_)
  have hq' : q ∈ [2, 3, 359, 958679] := by
    simp only [List.mem_cons, List.not_mem_nil, or_false, or_self_left, or_self] at hq ⊢; tauto
  simp only [List.mem_cons, List.not_mem_nil, or_false] at hq'
  rcases hq' with rfl | rfl | rfl | rfl
  · norm_num
  · norm_num
  · norm_num
  · exact prime_958679

private theorem prime_125803 : Nat.Prime 125803 := by
  refine prime_of_cert 125803 3 [2, 3, 3, 29, 241] (by decide +kernel) (by decide +kernel) (by decide +kernel)
    (fun q hq => ?_)
  have hq' : q ∈ [2, 3, 29, 241] := by
    simp only [List.mem_cons, List.not_mem_nil, or_false, or_self_left, or_self] at hq ⊢; tauto
  simp only [List.mem_cons, List.not_mem_nil, or_false] at hq'
  rcases hq' with rfl | rfl | rfl | rfl
  · norm_num
  · norm_num
  · norm_num
  · norm_num

private theorem prime_2012849 : Nat.Prime 2012849 := by
  refine prime_of_cert 2012849 3 [2, 2, 2, 2, 125803] (by decide +kernel) (by decide +kernel) (by decide +kernel)
    (fun q hq => ?_)
  have hq' : q ∈ [2, 125803] := by
    simp only [List.mem_cons, List.not_mem_nil, or_false, or_self_left, or_self] at hq ⊢; tauto
  simp only [List.mem_cons, List.not_mem_nil, or_false] at hq'
  rcases hq' with rfl | rfl
  · norm_num
  · exact prime_125803

private theorem prime_4025699 : Nat.Prime 4025699 := by
  refine prime_of_cert 4025699 2 [2, 2012849] (by decide +kernel) (by decide +kernel) (by decide +kernel)
    (fun q hq => ?_)
  have hq' : q ∈ [2, 2012849] := by
    simp only [List.mem_cons, List.not_mem_nil, or_false, or_self_left, or_self] at hq ⊢; tauto
  simp only [List.mem_cons, List.not_mem_nil, or_false] at hq'
  rcases hq' with rfl | rfl
  · norm_num
  · exact prime_2012849

private theorem prime_80513981 : Nat.Prime 80513981 := by
  refine prime_of_cert 80513981 2 [2, 2, 5, 4025699] (by decide +kernel) (by decide +kernel) (by decide +kernel)
    (fun q hq => ?_)
  have hq' : q ∈ [2, 5, 4025699] := by
    simp only [List.mem_cons, List.not_mem_nil, or_false, or_self_left, or_self] at hq ⊢; tauto
  simp only [List.mem_cons, List.not_mem_nil, or_false] at hq'
  rcases hq' with rfl | rfl | rfl
  · norm_num
  · norm_num
  · exact prime_4025699

private theorem prime_5247740253619 : Nat.Prime 5247740253619 := by
  refine prime_of_cert 5247740253619 2 [2, 3, 3, 3, 17, 71, 80513981] (by decide +kernel) (by decide +kernel) (by decide +kernel)
    (fun q hq => ?_)
  have hq' : q ∈ [2, 3, 17, 71, 80513981] := by
    simp only [List.mem_cons, List.not_mem_nil, or_false, or_self_left, or_self] at hq ⊢; tauto
  simp only [List.mem_cons, List.not_mem_nil, or_false] at hq'
  rcases hq' with rfl | rfl | rfl | rfl | rfl
  · norm_num
  · norm_num
  · norm_num
  · norm_num
  · exact prime_80513981

private theorem prime_1690502597179744445941507 : Nat.Prime 1690502597179744445941507 := by
  refine prime_of_cert 1690502597179744445941507 2 [2, 3, 13, 4129989133, 5247740253619] (by decide +kernel) (by decide +kernel) (by decide +kernel)
    (fun q hq => ?_)
  have hq' : q ∈ [2, 3, 13, 4129989133, 5247740253619] := by
    simp only [List.mem_cons, List.not_mem_nil, or_false, or_self_left, or_self] at hq ⊢; tauto
  simp only [List.mem_cons, List.not_mem_nil, or_false] at hq'
  rcases hq' with rfl | rfl | rfl | rfl | rfl
  · norm_num
  · norm_num
  · norm_num
  · exact prime_4129989133
  · exact prime_5247740253619

private theorem prime_294793 : Nat.Prime 294793 := by
  refine prime_of_cert 294793 10 [2, 2, 2, 3, 71, 173] (by decide +kernel) (by decide +kernel) (by decide +kernel)
    (fun q hq => ?_)
  have hq' : q ∈ [2, 3, 71, 173] := by
    simp only [List.mem_cons, List.not_mem_nil, or_false, or_self_left, or_self] at hq ⊢; tauto
  simp only [List.mem_cons, List.not_mem_nil, or_false] at hq'
  rcases hq' with rfl | rfl | rfl | rfl
  · norm_num
  · norm_num
  · norm_num
  · norm_num

private theorem prime_4229279 : Nat.Prime 4229279 := by
  refine prime_of_cert 4229279 13 [2, 827, 2557] (by decide +kernel) (by decide +kernel) (by decide +kernel)
    (fun q hq => ?_)
  have hq' : q ∈ [2, 827, 2557] := by
    simp only [List.mem_cons, List.not_mem_nil, or_false, or_self_left, or_self] at hq ⊢; tauto
  simp only [List.mem_cons, List.not_mem_nil, or_false] at hq'
  rcases hq' with rfl | rfl | rfl
  · norm_num
  · norm_num
  · norm_num

private theorem prime_5701177 : Nat.Prime 5701177 := by
  refine prime_of_cert 5701177 7 [2, 2, 2, 3, 3, 13, 6091] (by decide +kernel) (by decide +kernel) (by decide +kernel)
    (fun q hq => ?_)
  have hq' : q ∈ [2, 3, 13, 6091] := by
    simp only [List.mem_cons, List.not_mem_nil, or_false, or_self_left, or_self] at hq ⊢; tauto
  simp only [List.mem_cons, List.not_mem_nil, or_false] at hq'
  rcases hq' with rfl | rfl | rfl | rfl
  · norm_num
  · norm_num
  · norm_num
  · norm_num

private theorem prime_399082391 : Nat.Prime 399082391 := by
  refine prime_of_cert 399082391 7 [2, 5, 7, 5701177] (by decide +kernel) (by decide +kernel) (by decide +kernel)
    (fun q hq => ?_)
  have hq' : q ∈ [2, 5, 7, 5701177] := by
    simp only [List.mem_cons, List.not_mem_nil, or_false, or_self_left, or_self] at hq ⊢; tauto
  simp only [List.mem_cons, List.not_mem_nil, or_false] at hq'
  rcases hq' with rfl | rfl | rfl | rfl
  · norm_num
  · norm_num
  · norm_num
  · exact prime_5701177

private theorem prime_5239247429827 : Nat.Prime 5239247429827 := by
  refine prime_of_cert 5239247429827 2 [2, 3, 3, 757, 12149, 31649] (by decide +kernel) (by decide +kernel) (by decide +kernel)
    (fun q hq => ?_)
  have hq' : q ∈ [2, 3, 757, 12149, 31649] := by
    simp only [List.mem_cons, List.not_mem_nil, or_false, or_self_left, or_self] at hq ⊢; tauto
  simp only [List.mem_cons, List.not_mem_nil, or_false] at hq'
  rcases hq' with rfl | rfl | rfl | rfl | rfl
  · norm_num
  · norm_num
  · norm_num
  · norm_num
  · norm_num

private theorem prime_10427374428728808478656897599072717 : Nat.Prime 10427374428728808478656897599072717 := by
  refine prime_of_cert 10427374428728808478656897599072717 2 [2, 2, 294793, 4229279, 399082391, 5239247429827] (by decide +kernel) (by decide +kernel) (by decide +kernel)
    (fun q hq => ?_)
  have hq' : q ∈ [2, 294793, 4229279, 399082391, 5239247429827] := by
    simp only [List.mem_cons, List.not_mem_nil, or_false, or_self_left, or_self] at hq ⊢; tauto
  simp only [List.mem_cons, List.not_mem_nil, or_false] at hq'
  rcases hq' with rfl | rfl | rfl | rfl | rfl
  · norm_num
  · exact prime_294793
  · exact prime_4229279
  · exact prime_399082391
  · exact prime_5239247429827

theorem vesta_prime : Nat.Prime 28948022309329048855892746252171976963363056481941647379679742748393362948097 := by
  refine prime_of_cert 28948022309329048855892746252171976963363056481941647379679742748393362948097 5 [2, 2, 2, 2, 2, 2, 2, 2, 2, 2, 2, 2, 2, 2, 2, 2, 2, 2, 2, 2, 2, 2, 2, 2, 2, 2, 2, 2, 2, 2, 2, 2, 3, 3, 1709, 24859, 1690502597179744445941507, 10427374428728808478656897599072717] (by decide +kernel) (by decide +kernel) (by decide +kernel)
    (fun q hq => ?_)
  have hq' : q ∈ [2, 3, 1709, 24859, 1690502597179744445941507, 10427374428728808478656897599072717] := by
    simp only [List.mem_cons, List.not_mem_nil, or_false, or_self_left, or_self] at hq ⊢; tauto
  simp only [List.mem_cons, List.not_mem_nil, or_false] at hq'
  rcases hq' with rfl | rfl | rfl | rfl | rfl | rfl
  · norm_num
  · norm_num
  · norm_num
  · norm_num
  · exact prime_1690502597179744445941507
  · exact prime_10427374428728808478656897599072717

/-- Modulus of the base field of Vesta. -/
def vestaP : ℕ := 0x40000000000000000000000000000000224698fc0994a8dd8c46eb2100000001

instance : Fact vestaP.Prime := ⟨vesta_prime⟩

end Verif
