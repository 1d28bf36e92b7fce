import Verif.Core.Primality

/-!
# Primality of `2^255 - 19`

Lucas certificates, checked by evaluation in the kernel.
-/

set_option linter.unusedSimpArgs false

namespace Verif

private theorem prime_132049 : Nat.Prime 132049 := by
  refine prime_of_cert 132049 26 [2, 2, 2, 2, 3, 3, 7, 131] (by decide +kernel) (by decide +kernel) (by decide +kernel)
    (fun q hq => ?_)
  have hq' : q ∈ [2, 3, 7, 131] := by
    simp only [List.mem_cons, List.not_mem_nil, or_false, or_self_left, or_self] at hq ⊢; tauto
  simp only [List.mem_cons, List.not_mem_nil, or_false] at hq'
  rcases hq' with rfl | rfl | rfl | rfl
  · norm_num
  · norm_num
  · norm_num
  · norm_num

private theorem prime_1923133 : Nat.Prime 1923133 := by
  refine prime_of_cert 1923133 2 [2, 2, 3, 43, 3727] (by decide +kernel) (by decide +kernel) (by decide +kernel)
    (fun q hq => ?_)
  have hq' : q ∈ [2, 3, 43, 3727] := by
    simp only [List.mem_cons, List.not_mem_nil, or_false, or_self_left, or_self] at hq ⊢; tauto
  simp only [List.mem_cons, List.not_mem_nil, or_false] at hq'
  rcases hq' with rfl | rfl | rfl | rfl
  · norm_num
  · norm_num
  · norm_num
  · norm_num

private theorem prime_430751 : Nat.Prime 430751 := by
  refine prime_of_cert 430751 17 [2, 5, 5, 5, 1723] (by decide +kernel) (by decide +kernel) (by decide +kernel)
    (fun q hq => ?_)
  have hq' : q ∈ [2, 5, 1723] := by
    simp only [List.mem_cons, List.not_mem_nil, or_false, or_self_left, or_self] at hq ⊢; tauto
  simp only [List.mem_cons, List.not_mem_nil, or_false] at hq'
  rcases hq' with rfl | rfl | rfl
  · norm_num
  · norm_num
  · norm_num

private theorem prime_31757755568855353 : Nat.Prime 31757755568855353 := by
  refine prime_of_cert 31757755568855353 10 [2, 2, 2, 3, 31, 107, 223, 4153, 430751] (by decide +kernel) (by decide +kernel) (by decide +kernel)
    (fun q hq => ?_)
  have hq' : q ∈ [2, 3, 31, 107, 223, 4153, 430751] := by
    simp only [List.mem_cons, List.not_mem_nil, or_false, or_self_left, or_self] at hq ⊢; tauto
  simp only [List.mem_cons, List.not_mem_nil, or_false] at hq'
  rcases hq' with rfl | rfl | rfl | rfl | rfl | rfl | rfl
  · norm_num
  · norm_num
  · norm_num
  · norm_num
  · norm_num
  · norm_num
  · exact prime_430751

private theorem prime_569003 : Nat.Prime 569003 := by
  refine prime_of_cert 569003 2 [2, 7, 97, 419] (by decide +kernel) (by decide +kernel) (by decide +kernel)
    (fun q hq => ?_)
  have hq' : q ∈ [2, 7, 97, 419] := by
    simp only [List.mem_cons, List.not_mem_nil, or_false, or_self_left, or_self] at hq ⊢; tauto
  simp only [List.mem_cons, List.not_mem_nil, or_false] at hq'
  rcases hq' with rfl | rfl | rfl | rfl
  · norm_num
  · norm_num
  · norm_num
  · norm_num

private theorem prime_2773320623 : Nat.Prime 2773320623 := by
  refine prime_of_cert 2773320623 5 [2, 2437, 569003] (by decide +kernel) (by decide +kernel) (by decide +kernel)
    (fun q hq => ?_)
  have hq' : q ∈ [2, 2437, 569003] := by
    simp only [List.mem_cons, List.not_mem_nil, or_false, or_self_left, or_self] at hq ⊢; tauto
  simp only [List.mem_cons, List.not_mem_nil, or_false] at hq'
  rcases hq' with rfl | rfl | rfl
  · norm_num
  · norm_num
  · exact prime_569003

private theorem prime_72106336199 : Nat.Prime 72106336199 := by
  refine prime_of_cert 72106336199 7 [2, 13, 2773320623] (by decide +kernel) (by decide +kernel) (by decide +kernel)
    (fun q hq => ?_)
  have hq' : q ∈ [2, 13, 2773320623] := by
    simp only [List.mem_cons, List.not_mem_nil, or_false, or_self_left, or_self] at hq ⊢; tauto
  simp only [List.mem_cons, List.not_mem_nil, or_false] at hq'
  rcases hq' with rfl | rfl | rfl
  · norm_num
  · norm_num
  · exact prime_2773320623

private theorem prime_8574133 : Nat.Prime 8574133 := by
  refine prime_of_cert 8574133 2 [2, 2, 3, 7, 103, 991] (by decide +kernel) (by decide +kernel) (by decide +kernel)
    (fun q hq => ?_)
  have hq' : q ∈ [2, 3, 7, 103, 991] := by
    simp only [List.mem_cons, List.not_mem_nil, or_false, or_self_left, or_self] at hq ⊢; tauto
  simp only [List.mem_cons, List.not_mem_nil, or_false] at hq'
  rcases hq' with rfl | rfl | rfl | rfl | rfl
  · norm_num
  · norm_num
  · norm_num
  · norm_num
  · norm_num

private theorem prime_1919519569386763 : Nat.Prime 1919519569386763 := by
  refine prime_of_cert 1919519569386763 2 [2, 3, 7, 19, 47, 47, 127, 8574133] (by decide +kernel) (by decide +kernel) (by decide +kernel)
    (fun q hq => ?_)
  have hq' : q ∈ [2, 3, 7, 19, 47, 127, 8574133] := by
    simp only [List.mem_cons, List.not_mem_nil, or_false, or_self_left, or_self] at hq ⊢; tauto
  simp only [List.mem_cons, List.not_mem_nil, or_false] at hq'
  rcases hq' with rfl | rfl | rfl | rfl | rfl | rfl | rfl
  · norm_num
  · norm_num
  · norm_num
  · norm_num
  · norm_num
  · norm_num
  · exact prime_8574133

private theorem prime_75445702479781427272750846543864801 : Nat.Prime 75445702479781427272750846543864801 := by
  refine prime_of_cert 75445702479781427272750846543864801 7 [2, 2, 2, 2, 2, 3, 3, 5, 5, 75707, 72106336199, 1919519569386763] (by decide +kernel) (by decide +kernel) (by decide +kernel)
    (fun q hq => ?_)
  have hq' : q ∈ [2, 3, 5, 75707, 72106336199, 1919519569386763] := by
    simp only [List.mem_cons, List.not_mem_nil, or_false, or_self_left, or_self] at hq ⊢; tauto
  simp only [List.mem_cons, List.not_mem_nil, or_false] at hq'
  rcases hq' with rfl | rfl | rfl | rfl | rfl | rfl
  · norm_num
  · norm_num
  · norm_num
  · norm_num
  · exact prime_72106336199
  · exact prime_1919519569386763

private theorem prime_74058212732561358302231226437062788676166966415465897661863160754340907 : Nat.Prime 74058212732561358302231226437062788676166966415465897661863160754340907 := by
  refine prime_of_cert 74058212732561358302231226437062788676166966415465897661863160754340907 2 [2, 3, 353, 57467, 132049, 1923133, 31757755568855353, 75445702479781427272750846543864801] (by decide +kernel) (by decide +kernel) (by decide +kernel)
    (fun q hq => ?_)
  have hq' : q ∈ [2, 3, 353, 57467, 132049, 1923133, 31757755568855353, 75445702479781427272750846543864801] := by
    simp only [List.mem_cons, List.not_mem_nil, or_false, or_self_left, or_self] at hq ⊢; tauto
  simp only [List.mem_cons, List.not_mem_nil, or_false] at hq'
  rcases hq' with rfl | rfl | rfl | rfl | rfl | rfl | rfl | rfl
  · norm_num
  · norm_num
  · norm_num
  · norm_num
  · exact prime_132049
  · exact prime_1923133
  · exact prime_31757755568855353
  · exact prime_75445702479781427272750846543864801

theorem p25519_prime : Nat.Prime 57896044618658097711785492504343953926634992332820282019728792003956564819949 := by
  refine prime_of_cert 57896044618658097711785492504343953926634992332820282019728792003956564819949 2 [2, 2, 3, 65147, 74058212732561358302231226437062788676166966415465897661863160754340907] (by decide +kernel) (by decide +kernel) (by decide +kernel)
    (fun q hq => ?_)
  have hq' : q ∈ [2, 3, 65147, 74058212732561358302231226437062788676166966415465897661863160754340907] := by
    simp only [List.mem_cons, List.not_mem_nil, or_false, or_self_left, or_self] at hq ⊢; tauto
  simp only [List.mem_cons, List.not_mem_nil, or_false] at hq'
  rcases hq' with rfl | rfl | rfl | rfl
  · norm_num
  · norm_num
  · norm_num
  · exact prime_74058212732561358302231226437062788676166966415465897661863160754340907

/-- `2^255 - 19` in decimal. -/
theorem p25519_val : 2 ^ 255 - 19 = 57896044618658097711785492504343953926634992332820282019728792003956564819949 := by norm_num

end Verif
