import Verif.Model.Kimchi
import Verif.Props.KimchiProg
import Mathlib.Algebra.BigOperators.Ring.Finset
import Mathlib.Algebra.Field.ZMod

/-!
# Components of the kimchi verifier: what they compute
-/

set_option linter.unusedSectionVars false
set_option linter.unusedVariables false

namespace Verif
namespace Kimchi

variable {p : ℕ} [hp : Fact p.Prime] {base : ℤ} {K : Set Arg} {F D : (Arg → ZMod p) → Prop}

/-! ### Proof steps -/

theorem emit_last (c : Call p) (hc : c.Size) (hK : c.args ⊆ K) (hD : ∀ V, F V → D V → c.Def V) {Q : (Arg → ZMod p) → Arg → Prop}
    (hQ : ∀ V a, F V → V a = c.sem V → c.Def V → Q V a) : Tri base K F D (emit c) (fun a => {a}) Q :=
  (emit_tri c hc hK hD).weaken (fun _ h => h) (fun _ h => h) (fun _ _ h => h) (fun _ _ h => Or.inl h) fun V a hF h => hQ V a hF h.1 h.2

theorem emit_seq {α : Type} {c : Call p} {f : Arg → Bld p α} {O' : α → Set Arg} {Q' : (Arg → ZMod p) → α → Prop} (hc : c.Size) (hK : c.args ⊆ K)
    (hD : ∀ V, F V → D V → c.Def V) (h : ∀ a, Tri base ({a} ∪ K) (fun V => (V a = c.sem V ∧ c.Def V) ∧ F V) D (f a) O' Q') :
    Tri base K F D (emit c >>= f) O' Q' := (emit_tri c hc hK hD).seq h

/-- The operands are known. -/
macro "known" : tactic => `(tactic| (
  intro z hz
  simp only [Call.args, Set.mem_insert_iff, Set.mem_singleton_iff, Set.mem_empty_iff_false] at hz <;>
  first
    | (rcases hz with rfl | rfl <;> simp [*])
    | (subst hz; simp [*])))

/-- One call that is always defined. -/
macro "step" : tactic => `(tactic| refine emit_seq (by exact trivial) (by known) (by exact fun _ _ _ => trivial) fun _ => ?_)

theorem usub_eq {n k : ℕ} (h : k ≤ n) (hn : n < 2 ^ 64) : usub n k = n - k := by
  unfold usub; omega

theorem konst_val {k : ℕ} (hk : k < 2 ^ 64) (h64 : 2 ^ 64 ≤ p) : ((k : ℕ) : ZMod p).val = k := ZMod.val_cast_of_lt (by omega)

theorem padded60 : Exponentiation.padded 60 = 64 := by decide
theorem padded64 : Exponentiation.padded 64 = 64 := by decide

/-! ### Powers of the generator of the domain -/

theorem zkW3_tri {n : ℕ} {g : Arg} (hg : g ∈ K) (h3 : 3 ≤ n) (hn : n < 2 ^ 64) (h64 : 2 ^ 64 ≤ p) :
    Tri base K F D (zkW3 n g) (fun a => {a}) fun V a => V a = V g ^ (n - 3) := by
  have e := usub_eq h3 hn
  unfold zkW3
  step
  refine emit_last _ (by exact ⟨by norm_num, by rw [padded64]; exact h64⟩) (by known) (fun V h _ => ?_) fun V a h e2 _ => ?_
  · show (V _).val < _
    rw [h.1.1, padded64]
    show ((usub n 3 : ℕ) : ZMod p).val < 2 ^ 64
    rw [e, konst_val (by omega) h64]; omega
  · rw [e2]
    show V g ^ (V _).val = _
    rw [h.1.1]
    show V g ^ ((usub n 3 : ℕ) : ZMod p).val = _
    rw [e, konst_val (by omega) h64]

theorem zkpm_tri {n : ℕ} {g x : Arg} (hg : g ∈ K) (hx : x ∈ K) (h3 : 3 ≤ n) (hn : n < 2 ^ 64) (h64 : 2 ^ 64 ≤ p) :
    Tri base K F D (zkpm n g x) (fun a => {a}) fun V a => V a = (V x - V g ^ (n - 3)) * (V x - V g ^ (n - 2)) * (V x - V g ^ (n - 1)) := by
  have e := usub_eq h3 hn
  unfold zkpm
  step
  refine emit_seq (by exact ⟨by norm_num, by rw [padded60]; exact h64⟩) (by known) (fun V h _ => ?_) fun w1 => ?_
  · show (V _).val < _
    rw [h.1.1, padded60]
    show ((usub n 3 : ℕ) : ZMod p).val < 2 ^ 64
    rw [e, konst_val (by omega) h64]; omega
  iterate 6 step
  refine emit_last _ (by exact trivial) (by known) (by exact fun _ _ _ => trivial) fun V a h e2 _ => ?_
  simp only [Call.sem] at h e2
  obtain ⟨⟨q1, -⟩, ⟨q2, -⟩, ⟨q3, -⟩, ⟨q4, -⟩, ⟨q5, -⟩, ⟨q6, -⟩, ⟨q7, -⟩, ⟨q8, -⟩, -⟩ := h
  rw [q8, e, konst_val (by omega) h64] at q7
  rw [e2, q1, q2, q3, q4, q5, q6, q7]
  obtain ⟨m, rfl⟩ := Nat.exists_eq_add_of_le h3
  rw [show 3 + m - 3 = m by omega, show 3 + m - 2 = m + 1 by omega, show 3 + m - 1 = m + 2 by omega]
  ring

theorem vanishes4_tri {n : ℕ} {g x : Arg} (hg : g ∈ K) (hx : x ∈ K) (h4 : 4 ≤ n) (hn : n < 2 ^ 64) (h64 : 2 ^ 64 ≤ p) :
    Tri base K F D (vanishes4 n g x) (fun a => {a})
      fun V a => V a = (V x - V g ^ (n - 4)) * (V x - V g ^ (n - 3)) * (V x - V g ^ (n - 2)) * (V x - V g ^ (n - 1)) := by
  have e : usub (usub n 3) 1 = n - 4 := by rw [usub_eq (by omega) hn, usub_eq (by omega) (by omega)]; omega
  unfold vanishes4
  step
  refine emit_seq (by exact ⟨by norm_num, by rw [padded60]; exact h64⟩) (by known) (fun V h _ => ?_) fun w1 => ?_
  · show (V _).val < _
    rw [h.1.1, padded60]
    show ((usub (usub n 3) 1 : ℕ) : ZMod p).val < 2 ^ 64
    rw [e, konst_val (by omega) h64]; omega
  iterate 9 step
  refine emit_last _ (by exact trivial) (by known) (by exact fun _ _ _ => trivial) fun V a h e2 _ => ?_
  simp only [Call.sem] at h e2
  obtain ⟨⟨q1, -⟩, ⟨q2, -⟩, ⟨q3, -⟩, ⟨q4, -⟩, ⟨q5, -⟩, ⟨q6, -⟩, ⟨q7, -⟩, ⟨q8, -⟩, ⟨q9, -⟩, ⟨q10, -⟩, ⟨q11, -⟩, -⟩ := h
  rw [q11, e, konst_val (by omega) h64] at q10
  rw [e2, q1, q2, q3, q4, q5, q6, q7, q8, q9, q10]
  obtain ⟨m, rfl⟩ := Nat.exists_eq_add_of_le h4
  rw [show 4 + m - 4 = m by omega, show 4 + m - 3 = m + 1 by omega, show 4 + m - 2 = m + 2 by omega, show 4 + m - 1 = m + 3 by omega]
  ring

/-- The exponent `i`, counted from the end if negative. -/
def basisIndex (n : ℕ) (i : ℤ) : ℕ := if 0 ≤ i then i.toNat else (n + i).toNat

theorem lagrangeBasis_tri {n : ℕ} {i : ℤ} {g x : Arg} (hg : g ∈ K) (hx : x ∈ K) (hi : -n ≤ i) (hi2 : i < 2 ^ 31) (hn : n < 2 ^ 64) (h64 : 2 ^ 64 ≤ p)
    (hD : ∀ V, D V → V x ≠ V g ^ basisIndex n i) :
    Tri base K F D (lagrangeBasis n i g x) (fun a => {a})
      fun V a => V x ≠ V g ^ basisIndex n i ∧ V a * (V x - V g ^ basisIndex n i) = V x ^ n - 1 := by
  have e : (if 0 ≤ i then i.toNat else usub n (-i).toNat : ℕ) = basisIndex n i := by
    unfold basisIndex
    split_ifs
    · rfl
    · rw [usub_eq (by omega) hn]; omega
  have el : basisIndex n i < 2 ^ 64 := by
    unfold basisIndex
    split_ifs <;> omega
  unfold lagrangeBasis
  rw [e]
  iterate 3 step
  refine emit_seq (by exact ⟨by norm_num, by rw [padded64]; exact h64⟩) (by known) (fun V h _ => ?_) fun w1 => ?_
  · show (V _).val < _
    rw [h.2.1.1, padded64]
    show ((basisIndex n i : ℕ) : ZMod p).val < 2 ^ 64
    rw [konst_val el h64]; exact el
  step
  refine emit_seq (by exact ⟨by norm_num, by rw [padded64]; exact h64⟩) (by known) (fun V h _ => ?_) fun w1 => ?_
  · show (V _).val < _
    rw [h.2.2.2.2.1.1, padded64]
    show ((n : ℕ) : ZMod p).val < 2 ^ 64
    rw [konst_val hn h64]; exact hn
  step
  have key : ∀ V : Arg → ZMod p, ∀ {a : Arg} {y z : ZMod p}, V a = y - z → (V a ≠ 0 ↔ y ≠ z) := fun V a y z h => by rw [h, ne_eq, sub_eq_zero]
  refine emit_last _ (by exact trivial) (by known) (fun V h hd => ?_) fun V a h e2 e3 => ?_
  · simp only [Call.sem] at h
    obtain ⟨⟨q1, -⟩, ⟨q2, -⟩, ⟨q3, -⟩, ⟨q4, -⟩, ⟨q5, -⟩, ⟨q6, -⟩, ⟨q7, -⟩, -⟩ := h
    rw [q6, konst_val el h64] at q4
    rw [q4] at q3
    exact (key V q3).2 (hD V hd)
  · simp only [Call.sem] at h e2
    obtain ⟨⟨q1, -⟩, ⟨q2, -⟩, ⟨q3, -⟩, ⟨q4, -⟩, ⟨q5, -⟩, ⟨q6, -⟩, ⟨q7, -⟩, -⟩ := h
    rw [q6, konst_val el h64] at q4
    rw [q7, konst_val hn h64] at q2
    rw [q4] at q3
    have hne := (key V q3).1 e3
    refine ⟨hne, ?_⟩
    rw [e2, q1, q2, q3, q5, div_mul_cancel₀ _ (sub_ne_zero.2 hne)]

/-! ### The polynomial of the challenges -/

/-- `b(x) = (1 + c_0 x^(2^(n-1))) ... (1 + c_(n-1) x)`. -/
def bAt (n : ℕ) (c : ℕ → ZMod p) (x : ZMod p) : ZMod p := ∏ i ∈ Finset.range n, (1 + c i * x ^ 2 ^ (n - 1 - i))

/-- The coefficient of `x^j`: the product of the challenges of the bits of `j`. -/
def bCoef (n : ℕ) (c : ℕ → ZMod p) (j : ℕ) : ZMod p := ∏ b ∈ Finset.range n, if j.testBit b then c (n - 1 - b) else 1

theorem bCoef_lt {n : ℕ} (c : ℕ → ZMod p) {j : ℕ} (hj : j < 2 ^ n) : bCoef (n + 1) c j = bCoef n (fun i => c (i + 1)) j := by
  rw [bCoef, Finset.prod_range_succ, Nat.testBit_lt_two_pow hj, bCoef]
  simp only [Bool.false_eq_true, if_false, mul_one]
  refine Finset.prod_congr rfl fun b hb => ?_
  rw [Finset.mem_range] at hb
  rw [show n + 1 - 1 - b = n - 1 - b + 1 by omega]

theorem bCoef_ge {n : ℕ} (c : ℕ → ZMod p) {j : ℕ} (hj : j < 2 ^ n) : bCoef (n + 1) c (2 ^ n + j) = c 0 * bCoef n (fun i => c (i + 1)) j := by
  rw [bCoef, Finset.prod_range_succ, mul_comm, bCoef, Nat.testBit_two_pow_add_eq, Nat.testBit_lt_two_pow hj]
  simp only [Bool.not_false, if_true, show n + 1 - 1 - n = 0 by omega]
  congr 1
  refine Finset.prod_congr rfl fun b hb => ?_
  rw [Finset.mem_range] at hb
  rw [show n + 1 - 1 - b = n - 1 - b + 1 by omega, Nat.testBit_two_pow_add_gt hb]

/-- The coefficients are those of the polynomial. -/
theorem bAt_eq (n : ℕ) (c : ℕ → ZMod p) (x : ZMod p) : bAt n c x = ∑ j ∈ Finset.range (2 ^ n), bCoef n c j * x ^ j := by
  induction n generalizing c with
  | zero => simp [bAt, bCoef]
  | succ n ih =>
    have e1 : bAt (n + 1) c x = (1 + c 0 * x ^ 2 ^ n) * bAt n (fun i => c (i + 1)) x := by
      rw [bAt, Finset.prod_range_succ', mul_comm, bAt]
      congr 1
      refine Finset.prod_congr rfl fun i hi => ?_
      rw [Finset.mem_range] at hi
      rw [show n + 1 - 1 - (i + 1) = n - 1 - i by omega]
    rw [e1, ih, pow_succ, mul_two, Finset.sum_range_add, add_mul, one_mul, Finset.mul_sum]
    congr 1
    · exact Finset.sum_congr rfl fun j hj => by rw [bCoef_lt c (Finset.mem_range.1 hj)]
    · refine Finset.sum_congr rfl fun j hj => ?_
      rw [bCoef_ge c (Finset.mem_range.1 hj), pow_add]
      ring

theorem powTwos_tri {n : ℕ} {x : Arg} (hx : x ∈ K) :
    Tri base K F D (powTwos n x) (fun pw => {a | ∃ j ≤ n - 1, a = pw j}) fun V pw => ∀ j ≤ n - 1, V (pw j) = V x ^ 2 ^ j := by
  unfold powTwos
  refine loop_tri (fun i (pw : ℕ → Arg) => {a | ∃ j ≤ i, a = pw j}) (fun i V (pw : ℕ → Arg) => ∀ j ≤ i, V (pw j) = V x ^ 2 ^ j) ?_ ?_ ?_
  · rintro a ⟨j, -, rfl⟩; exact hx
  · intro V _ j hj
    rw [Nat.le_zero.1 hj]; simp
  · intro i hi pw
    refine emit_seq (by exact trivial) ?_ (by exact fun _ _ _ => trivial) fun r => ?_
    · intro z hz
      rcases hz with rfl | rfl <;> exact Or.inl ⟨i, le_rfl, rfl⟩
    · refine Tri.ret ?_ ?_
      · rintro a ⟨j, hj, rfl⟩
        by_cases h : j = i + 1
        · subst h; rw [Function.update_self]; exact Or.inl rfl
        · rw [Function.update_of_ne h]; exact Or.inr (Or.inl ⟨j, by omega, rfl⟩)
      · rintro V ⟨⟨e, -⟩, q, -⟩ j hj
        by_cases h : j = i + 1
        · subst h
          rw [Function.update_self, e]
          show V (pw i) * V (pw i) = _
          rw [q i le_rfl, pow_succ, pow_mul, sq]
        · rw [Function.update_of_ne h]; exact q j (by omega)

theorem bPoly_tri {n : ℕ} {ch : ℕ → Arg} {x one : Arg} (hc : ∀ i < n, ch i ∈ K) (hx : x ∈ K) (h1 : one ∈ K) (hF : ∀ V, F V → V one = 1) :
    Tri base K F D (bPoly n ch x one) (fun a => {a}) fun V a => V a = bAt n (fun i => V (ch i)) (V x) := by
  unfold bPoly
  refine (powTwos_tri hx).seq fun pw => ?_
  refine (loop_tri (N := n) (fun i (a : Arg) => {a}) (fun i V (a : Arg) => V a = ∏ j ∈ Finset.range i, (1 + V (ch j) * V x ^ 2 ^ (n - 1 - j))) ?_ ?_ ?_)
  · rintro a rfl; exact Or.inr h1
  · intro V h
    simpa using hF V h.2
  · intro i hi a
    have hci := hc i hi
    refine emit_seq (by exact trivial) ?_ (by exact fun _ _ _ => trivial) fun r => ?_
    · rintro z (rfl | rfl)
      · exact Or.inr (Or.inr hci)
      · exact Or.inr (Or.inl ⟨n - 1 - i, by omega, rfl⟩)
    step
    refine emit_last _ (by exact trivial) (by known) (by exact fun _ _ _ => trivial) fun V b h e _ => ?_
    simp only [Call.sem] at h e
    obtain ⟨⟨q1, -⟩, ⟨q2, -⟩, q3, q4, q5⟩ := h
    rw [e, q1, q2, q3, q4 _ (by omega), hF V q5, Finset.prod_range_succ]

/-- `k` is the number of bits of `j`. -/
def CoefInv (j : ℕ) (s : Coef) : Prop := s.pow = 2 ^ s.k ∧ j < 2 ^ s.k ∧ (0 < s.k → 2 ^ (s.k - 1) ≤ j)

theorem bCoef_bit {n : ℕ} (c : ℕ → ZMod p) {b m : ℕ} (hb : b < n) (hm : m < 2 ^ b) : bCoef n c (2 ^ b + m) = bCoef n c m * c (n - 1 - b) := by
  rw [bCoef, bCoef, ← Finset.mul_prod_erase _ _ (Finset.mem_range.2 hb), ← Finset.mul_prod_erase (Finset.range n) (fun b => if m.testBit b then _ else _) (Finset.mem_range.2 hb),
    Nat.testBit_two_pow_add_eq, Nat.testBit_lt_two_pow hm]
  simp only [Bool.not_false, if_true, Bool.false_eq_true, if_false, one_mul]
  rw [mul_comm]
  congr 1
  refine Finset.prod_congr rfl fun i hi => ?_
  have hne := Finset.ne_of_mem_erase hi
  rcases Nat.lt_or_gt_of_ne hne with h | h
  · rw [Nat.testBit_two_pow_add_gt h]
  · have h2 : 2 ^ b + m < 2 ^ i := by
      have : 2 ^ (b + 1) ≤ 2 ^ i := Nat.pow_le_pow_right (by norm_num) h
      rw [pow_succ] at this; omega
    rw [Nat.testBit_lt_two_pow h2, Nat.testBit_lt_two_pow (by omega)]

theorem coef_next {j : ℕ} {s : Coef} (h : CoefInv j s) (o : ℕ → Arg) :
    let shift := if j + 1 = s.pow then 1 else 0
    let k := s.k + shift
    CoefInv (j + 1) ⟨o, k, s.pow <<< shift⟩ ∧ 0 < k ∧ (s.pow <<< shift) >>> 1 = 2 ^ (k - 1) := by
  obtain ⟨h1, h2, h3⟩ := h
  intro shift k
  by_cases hj : j + 1 = s.pow
  · have hs : shift = 1 := if_pos hj
    have hk : k = s.k + 1 := by show s.k + shift = _; rw [hs]
    have hp : s.pow <<< shift = 2 ^ (s.k + 1) := by rw [hs, Nat.shiftLeft_eq, h1, ← pow_add]
    rw [hp, hk]
    refine ⟨⟨rfl, ?_, fun _ => ?_⟩, by omega, ?_⟩
    · show j + 1 < 2 ^ (s.k + 1)
      rw [pow_succ]; have := Nat.two_pow_pos s.k; omega
    · show 2 ^ (s.k + 1 - 1) ≤ j + 1
      rw [Nat.add_sub_cancel]; omega
    · rw [Nat.shiftRight_eq_div_pow, pow_succ, pow_one, Nat.mul_div_cancel _ (by norm_num), Nat.add_sub_cancel]
  · have hs : shift = 0 := if_neg hj
    have hk : k = s.k := by show s.k + shift = _; rw [hs, Nat.add_zero]
    have hp : s.pow <<< shift = 2 ^ s.k := by rw [hs, Nat.shiftLeft_zero, h1]
    have h0 : 0 < s.k := by
      by_contra h0
      have : s.k = 0 := by omega
      rw [this, pow_zero] at h1 h2
      omega
    rw [hp, hk]
    refine ⟨⟨rfl, ?_, fun h => ?_⟩, h0, ?_⟩
    · show j + 1 < 2 ^ s.k
      omega
    · exact (h3 h).trans (Nat.le_succ j)
    · obtain ⟨m, hm⟩ := Nat.exists_eq_succ_of_ne_zero (show s.k ≠ 0 by omega)
      rw [hm, Nat.succ_eq_add_one, Nat.shiftRight_eq_div_pow, pow_succ, pow_one, Nat.mul_div_cancel _ (by norm_num), Nat.add_sub_cancel]

theorem bPolyCoeffs_tri {n : ℕ} {ch : ℕ → Arg} {one : Arg} (hc : ∀ i < n, ch i ∈ K) (h1 : one ∈ K) (hF : ∀ V, F V → V one = 1) :
    Tri base K F D (bPolyCoeffs n ch one) (fun c => {a | ∃ j < 2 ^ n, a = c.out j}) fun V c => ∀ j < 2 ^ n, V (c.out j) = bCoef n (fun i => V (ch i)) j := by
  have hpos := Nat.two_pow_pos n
  unfold bPolyCoeffs
  refine (loop_tri (F := F) (D := D) (fun i (s : Coef) => {a | CoefInv i s → ∃ j ≤ i, a = s.out j})
    (fun i V (s : Coef) => CoefInv i s ∧ ∀ j ≤ i, V (s.out j) = bCoef n (fun i => V (ch i)) j) ?_ ?_ ?_).weaken
      (fun _ h => h) (fun _ h => h) (fun _ _ h => h) ?_ ?_
  · intro a ha
    obtain ⟨j, -, rfl⟩ := ha ⟨rfl, by norm_num, fun h => absurd h (by norm_num)⟩
    exact h1
  · intro V h
    refine ⟨⟨rfl, by norm_num, fun h => absurd h (by norm_num)⟩, fun j hj => ?_⟩
    rw [Nat.le_zero.1 hj]
    simpa [bCoef] using hF V h
  · intro i hi s
    have kn : CoefInv i s → s.k + (if i + 1 = s.pow then 1 else 0) ≤ n := fun h => by
      have := (coef_next h s.out).1.2.2 (coef_next h s.out).2.1
      by_contra hk
      have h2 : 2 ^ n ≤ 2 ^ (s.k + (if i + 1 = s.pow then 1 else 0) - 1) := Nat.pow_le_pow_right (by norm_num) (by omega)
      simp only at this
      omega
    refine emit_seq (by exact trivial) ?_ (by exact fun _ _ _ => trivial) fun r => ?_
    · rintro z (rfl | rfl)
      · refine Or.inl fun h => ⟨_, ?_, rfl⟩
        have := (coef_next h s.out).2.2
        rw [this]
        have := Nat.two_pow_pos (s.k + (if i + 1 = s.pow then 1 else 0) - 1)
        omega
      · by_cases h : CoefInv i s
        · refine Or.inr (hc _ ?_)
          have h5 := kn h
          have h6 := (coef_next h s.out).2.1
          omega
        · exact Or.inl fun h' => absurd h' h
    · refine Tri.ret ?_ ?_
      · intro a ha
        by_cases h : CoefInv i s
        · obtain ⟨j, hj, rfl⟩ := ha (coef_next h _).1
          by_cases hji : j = i + 1
          · subst hji; exact Or.inl (Function.update_self ..)
          · simp only
            rw [Function.update_of_ne hji]
            exact Or.inr (Or.inl fun _ => ⟨j, by omega, rfl⟩)
        · exact Or.inr (Or.inl fun h' => absurd h' h)
      · rintro V ⟨⟨e, -⟩, ⟨h, q⟩, -⟩
        refine ⟨(coef_next h _).1, fun j hj => ?_⟩
        by_cases hji : j = i + 1
        · subst hji
          simp only
          rw [Function.update_self, e]
          show V (s.out _) * V (ch _) = _
          obtain ⟨⟨-, h3, h4⟩, h5, h6⟩ := coef_next h s.out
          have h7 := kn h
          simp only at h3 h4 h5 h6
          rw [h6]
          generalize s.k + (if i + 1 = s.pow then 1 else 0) = k at *
          have h4 := h4 h5
          have h8 := Nat.two_pow_pos (k - 1)
          have h9 : 2 ^ k = 2 ^ (k - 1) * 2 := by rw [← pow_succ, Nat.sub_add_cancel h5]
          rw [q _ (by omega)]
          conv_rhs => rw [show i + 1 = 2 ^ (k - 1) + (i + 1 - 2 ^ (k - 1)) by omega]
          rw [bCoef_bit _ (by omega) (by omega)]
        · simp only
          rw [Function.update_of_ne hji]; exact q j (by omega)
  · rintro c a ⟨j, hj, rfl⟩
    exact Or.inl fun _ => ⟨j, by omega, rfl⟩
  · rintro V c - ⟨-, q⟩ j hj
    exact q j (by omega)

theorem highPart_tri {n M : ℕ} {b : ℕ → Arg} {x one zero : Arg} (hb : ∀ j, M ≤ j → j < 2 ^ n → b j ∈ K) (hx : x ∈ K) (h1 : one ∈ K) (h0 : zero ∈ K)
    (hF : ∀ V, F V → V one = 1 ∧ V zero = 0) :
    Tri base K F D (highPart n M b x one zero) (fun s => {s.2}) fun V s => V s.2 = ∑ j ∈ Finset.range (2 ^ n - M), V (b (M + j)) * V x ^ j := by
  unfold highPart
  refine (loop_tri (F := F) (D := D) (fun i (s : Arg × Arg) => {s.1, s.2})
    (fun i V (s : Arg × Arg) => V s.1 = V x ^ i ∧ V s.2 = ∑ j ∈ Finset.range i, V (b (M + j)) * V x ^ j) ?_ ?_ ?_).weaken
      (fun _ h => h) (fun _ h => h) (fun _ _ h => h) ?_ ?_
  · rintro a (rfl | rfl)
    · exact h1
    · exact h0
  · intro V h
    simpa using hF V h
  · intro i hi s
    have hbi := hb (M + i) (by omega) (by omega)
    iterate 3 step
    refine Tri.ret ?_ ?_
    · rintro a (rfl | rfl) <;> simp
    · rintro V ⟨⟨e1, -⟩, ⟨e2, -⟩, ⟨e3, -⟩, ⟨q1, q2⟩, -⟩
      simp only [Call.sem] at e1 e2 e3
      refine ⟨?_, ?_⟩
      · simp only; rw [e2, q1, pow_succ]
      · simp only; rw [e1, e3, q1, q2, Finset.sum_range_succ, mul_comm (V x ^ i)]
  · rintro s a rfl; exact Or.inl (Or.inr rfl)
  · rintro V s - ⟨-, q⟩; exact q

theorem splitEval_tri {n M : ℕ} {b : ℕ → Arg} {full x pw one zero : Arg} (hb : ∀ j, M ≤ j → j < 2 ^ n → b j ∈ K) (hx : x ∈ K) (h1 : one ∈ K) (h0 : zero ∈ K)
    (hf : full ∈ K) (hw : pw ∈ K) (hF : ∀ V, F V → V one = 1 ∧ V zero = 0) :
    Tri base K F D (splitEval n M b full x pw one zero) (fun s => {s.1, s.2}) fun V s =>
      V s.2 = (∑ j ∈ Finset.range (2 ^ n - M), V (b (M + j)) * V x ^ j) ∧ V s.1 = V full - V s.2 * V pw := by
  unfold splitEval
  refine (highPart_tri hb hx h1 h0 hF).seq fun s => ?_
  iterate 2 step
  refine Tri.ret ?_ ?_
  · rintro a (rfl | rfl) <;> simp
  · rintro V ⟨⟨e1, -⟩, ⟨e2, -⟩, q, -⟩
    simp only [Call.sem] at e1 e2
    refine ⟨q, ?_⟩
    simp only
    rw [e1, e2]

/-- The evaluations of the low and of the high part of the polynomial of the challenges. -/
def lowAt (n M : ℕ) (c : ℕ → ZMod p) (x : ZMod p) : ZMod p := ∑ j ∈ (Finset.range (2 ^ n)).filter (· < M), bCoef n c j * x ^ j
def highAt (n M : ℕ) (c : ℕ → ZMod p) (x : ZMod p) : ZMod p := ∑ j ∈ (Finset.range (2 ^ n)).filter (M ≤ ·), bCoef n c j * x ^ (j - M)

theorem highAt_eq (n M : ℕ) (c : ℕ → ZMod p) (x : ZMod p) : highAt n M c x = ∑ j ∈ Finset.range (2 ^ n - M), bCoef n c (M + j) * x ^ j := by
  unfold highAt
  refine (Finset.sum_bij (fun j _ => M + j) ?_ ?_ ?_ ?_).symm
  · intro j hj
    rw [Finset.mem_range] at hj
    rw [Finset.mem_filter, Finset.mem_range]; omega
  · intro a _ b _ h; omega
  · intro j hj
    rw [Finset.mem_filter, Finset.mem_range] at hj
    exact ⟨j - M, Finset.mem_range.2 (by omega), by omega⟩
  · intro j _
    rw [Nat.add_sub_cancel_left]

theorem low_high (n M : ℕ) (c : ℕ → ZMod p) (x : ZMod p) : bAt n c x = lowAt n M c x + highAt n M c x * x ^ M := by
  rw [bAt_eq, ← Finset.sum_filter_add_sum_filter_not _ (· < M), lowAt, highAt, Finset.sum_mul]
  congr 1
  refine Finset.sum_congr (by ext; simp) fun j hj => ?_
  rw [Finset.mem_filter] at hj
  rw [mul_assoc, ← pow_add, Nat.sub_add_cancel hj.2]

theorem prevChalEvals_tri {n M : ℕ} {ch : ℕ → Arg} {x pw : Fin 2 → Arg} {one zero : Arg} (hc : ∀ i < n, ch i ∈ K) (hx : ∀ i, x i ∈ K) (hw : ∀ i, pw i ∈ K)
    (h1 : one ∈ K) (h0 : zero ∈ K) (hF : ∀ V, F V → V one = 1 ∧ V zero = 0 ∧ ∀ i, V (pw i) = V (x i) ^ M) :
    Tri base K F D (prevChalEvals n M ch x pw one zero) (fun s => {a | ∃ i, a = (s i).1 ∨ a = (s i).2}) fun V s => ∀ i,
      V (s i).1 = lowAt n M (fun i => V (ch i)) (V (x i)) ∧ V (s i).2 = highAt n M (fun i => V (ch i)) (V (x i)) := by
  unfold prevChalEvals
  refine (bPoly_tri hc (hx 0) h1 fun V h => (hF V h).1).seq fun full0 => ?_
  refine (Tri.seq (O := fun b : ℕ → Arg => {a | ∃ j, M ≤ j ∧ j < 2 ^ n ∧ a = b j}) (Q := fun (V : Arg → ZMod p) (b : ℕ → Arg) => ∀ j, M ≤ j → j < 2 ^ n → V (b j) = bCoef n (fun i => V (ch i)) j) ?_ fun b => ?_)
  · unfold coefficients
    split_ifs with hM
    · refine (bPolyCoeffs_tri (fun i hi => Or.inr (hc i hi)) (Or.inr h1) fun V h => (hF V h.2).1).seq fun c => ?_
      refine Tri.ret ?_ ?_
      · rintro a ⟨j, -, hj, rfl⟩; exact Or.inl ⟨j, hj, rfl⟩
      · rintro V ⟨q, -⟩ j - hj; exact q j hj
    · refine Tri.ret ?_ ?_
      · rintro a ⟨j, h, hj, rfl⟩; omega
      · intro V _ j h hj; omega
  have hb : ∀ j, M ≤ j → j < 2 ^ n → b j ∈ {a | ∃ j, M ≤ j ∧ j < 2 ^ n ∧ a = b j} := fun j h1 h2 => ⟨j, h1, h2, rfl⟩
  refine (splitEval_tri (fun j h h' => Or.inl (hb j h h')) (Or.inr (Or.inr (hx 0))) (Or.inr (Or.inr h1)) (Or.inr (Or.inr h0)) (Or.inr (Or.inl rfl))
    (Or.inr (Or.inr (hw 0))) fun V h => ⟨(hF V h.2.2).1, (hF V h.2.2).2.1⟩).seq fun r0 => ?_
  refine (bPoly_tri (fun i hi => Or.inr (Or.inr (Or.inr (hc i hi)))) (Or.inr (Or.inr (Or.inr (hx 1)))) (Or.inr (Or.inr (Or.inr h1)))
    fun V h => (hF V h.2.2.2).1).seq fun full1 => ?_
  refine (splitEval_tri (fun j h h' => Or.inr (Or.inr (Or.inl (hb j h h')))) (Or.inr (Or.inr (Or.inr (Or.inr (hx 1))))) (Or.inr (Or.inr (Or.inr (Or.inr h1))))
    (Or.inr (Or.inr (Or.inr (Or.inr h0)))) (Or.inl rfl) (Or.inr (Or.inr (Or.inr (Or.inr (hw 1))))) fun V h => ⟨(hF V h.2.2.2.2).1, (hF V h.2.2.2.2).2.1⟩).seq fun r1 => ?_
  refine Tri.ret ?_ ?_
  · rintro a ⟨i, h⟩
    fin_cases i
    · exact Or.inr (Or.inr (Or.inl h))
    · exact Or.inl h
  · rintro V ⟨⟨a1, a2⟩, b1, ⟨c1, c2⟩, d1, e1, f⟩
    obtain ⟨-, -, hF⟩ := hF V f
    have key : ∀ (i : Fin 2) (r : Arg × Arg) (full : Arg), V full = bAt n (fun i => V (ch i)) (V (x i)) →
        V r.2 = ∑ j ∈ Finset.range (2 ^ n - M), V (b (M + j)) * V (x i) ^ j → V r.1 = V full - V r.2 * V (pw i) →
        V r.1 = lowAt n M (fun i => V (ch i)) (V (x i)) ∧ V r.2 = highAt n M (fun i => V (ch i)) (V (x i)) := by
      intro i r full h1 h2 h3
      have h4 : V r.2 = highAt n M (fun i => V (ch i)) (V (x i)) := by
        rw [h2, highAt_eq]
        refine Finset.sum_congr rfl fun j hj => ?_
        rw [Finset.mem_range] at hj
        rw [d1 (M + j) (by omega) (by omega)]
      refine ⟨?_, h4⟩
      rw [h3, h4, h1, hF i, low_high n M]
      ring
    intro i
    fin_cases i
    · exact key 0 r0 full0 e1 c1 c2
    · exact key 1 r1 full1 b1 a1 a2

theorem prevChalEval1_tri {n : ℕ} {ch : ℕ → Arg} {x : Fin 2 → Arg} {one : Arg} (hc : ∀ i < n, ch i ∈ K) (hx : ∀ i, x i ∈ K) (h1 : one ∈ K) (hF : ∀ V, F V → V one = 1) :
    Tri base K F D (prevChalEval1 n ch x one) (fun s => {a | ∃ i, a = s i}) fun V s => ∀ i, V (s i) = bAt n (fun i => V (ch i)) (V (x i)) := by
  unfold prevChalEval1
  refine (bPoly_tri hc (hx 0) h1 hF).seq fun full0 => ?_
  refine (bPoly_tri (fun i hi => Or.inr (hc i hi)) (Or.inr (hx 1)) (Or.inr h1) fun V h => hF V h.2).seq fun full1 => ?_
  refine Tri.ret ?_ ?_
  · rintro a ⟨i, h⟩
    fin_cases i
    · exact Or.inr (Or.inl h)
    · exact Or.inl h
  · rintro V ⟨a, b, -⟩ i
    fin_cases i
    · exact b
    · exact a

/-! ### Public input -/

theorem denominators_tri {N off : ℕ} {z one : Arg} {om out : ℕ → Arg} (hz : z ∈ K) (h1 : one ∈ K) (ho : ∀ i < N, om i ∈ K) (hout : ∀ i < off, out i ∈ K)
    (hF : ∀ V, F V → V one = 1) (hD : ∀ V, D V → ∀ i < N, V z ≠ V (om i)) :
    Tri base K F D (denominators N off z om one out) (fun o => {a | ∃ j < off + N, a = o j}) fun V o => (∀ i < off, o i = out i) ∧
      ∀ i < N, V z ≠ V (om i) ∧ V (o (off + i)) * (V z - V (om i)) = 1 := by
  unfold denominators
  refine loop_tri (fun n (o : ℕ → Arg) => {a | ∃ j < off + n, a = o j}) (fun n V (o : ℕ → Arg) => (∀ i < off, o i = out i) ∧
      ∀ i < n, V z ≠ V (om i) ∧ V (o (off + i)) * (V z - V (om i)) = 1) ?_ ?_ ?_
  · rintro a ⟨j, hj, rfl⟩; exact hout j (by omega)
  · exact fun V _ => ⟨fun _ _ => rfl, fun i hi => absurd hi (by omega)⟩
  · intro i hi o
    have hoi := ho i hi
    step
    refine emit_seq (by exact trivial) (by known) (fun V h hd => ?_) fun r => ?_
    · show V _ ≠ 0
      rw [h.1.1]
      exact sub_ne_zero.2 (hD V hd i hi)
    · refine Tri.ret ?_ ?_
      · rintro a ⟨j, hj, rfl⟩
        by_cases h : j = off + i
        · subst h; rw [Function.update_self]; exact Or.inl rfl
        · rw [Function.update_of_ne h]; exact Or.inr (Or.inr (Or.inl ⟨j, by omega, rfl⟩))
      · rintro V ⟨⟨e1, d1⟩, ⟨e2, -⟩, ⟨q1, q2⟩, hf⟩
        simp only [Call.sem, Call.Def] at e1 d1 e2
        rw [e2] at e1 d1
        refine ⟨fun j hj => by rw [Function.update_of_ne (by omega)]; exact q1 j hj, fun j hj => ?_⟩
        by_cases h : j = i
        · subst h
          rw [Function.update_self, e1, hF V hf]
          exact ⟨sub_ne_zero.1 d1, div_mul_cancel₀ _ d1⟩
        · rw [Function.update_of_ne (by omega)]; exact q2 j (by omega)

theorem lagrangeDenominators_tri {N : ℕ} {z zo one : Arg} {om : ℕ → Arg} (hz : z ∈ K) (hzo : zo ∈ K) (h1 : one ∈ K) (ho : ∀ i < N, om i ∈ K)
    (hF : ∀ V, F V → V one = 1) (hD : ∀ V, D V → ∀ i < N, V z ≠ V (om i) ∧ V zo ≠ V (om i)) :
    Tri base K F D (lagrangeDenominators N z zo om one) (fun o => {a | ∃ j < N + N, a = o j}) fun V o =>
      ∀ i < N, (V z ≠ V (om i) ∧ V (o i) * (V z - V (om i)) = 1) ∧ V zo ≠ V (om i) ∧ V (o (N + i)) * (V zo - V (om i)) = 1 := by
  unfold lagrangeDenominators
  refine (denominators_tri hz h1 ho (by simp) hF fun V hd i hi => (hD V hd i hi).1).seq fun o => ?_
  refine (denominators_tri (Or.inr hzo) (Or.inr h1) (fun i hi => Or.inr (ho i hi)) (fun i hi => Or.inl ⟨i, by omega, rfl⟩) (fun V h => hF V h.2)
    fun V hd i hi => (hD V hd i hi).2).weaken (fun _ h => h) (fun _ h => h) (fun _ _ h => h) (fun _ _ h => Or.inl h) ?_
  rintro V o2 ⟨⟨-, q1⟩, -⟩ ⟨q2, q3⟩ i hi
  refine ⟨?_, q3 i hi⟩
  have := q1 i hi
  rw [Nat.zero_add] at this
  rw [q2 i hi]
  exact this

theorem publicEval_tri {N off : ℕ} {zn acc size one : Arg} {pub lag om : ℕ → Arg} (hz : zn ∈ K) (ha : acc ∈ K) (hs : size ∈ K) (h1 : one ∈ K) (hp : ∀ i < N, pub i ∈ K)
    (hl : ∀ i < N, lag (off + i) ∈ K) (ho : ∀ i < N, om i ∈ K) (hF : ∀ V, F V → V one = 1) (hD : ∀ V, D V → V size ≠ 0) :
    Tri base K F D (publicEval N off zn acc pub lag om size one) (fun a => {a}) fun V a => V size ≠ 0 ∧
      V a = (V acc + ∑ i ∈ Finset.range N, -(V (lag (off + i)) * V (pub i) * V (om i))) * ((V zn - 1) / V size) := by
  unfold publicEval
  refine (loop_tri (fun n (a : Arg) => {a}) (fun n V (a : Arg) => V a = V acc + ∑ i ∈ Finset.range n, -(V (lag (off + i)) * V (pub i) * V (om i)))
    ?_ ?_ ?_).seq fun s => ?_
  · rintro a rfl; exact ha
  · intro V _; simp
  · intro i hi a
    have hpi := hp i hi
    have hli := hl i hi
    have hoi := ho i hi
    iterate 3 step
    refine emit_last _ (by exact trivial) (by known) (by exact fun _ _ _ => trivial) fun V b h e _ => ?_
    obtain ⟨⟨e1, -⟩, ⟨e2, -⟩, ⟨e3, -⟩, q, -⟩ := h
    simp only [Call.sem] at e e1 e2 e3
    rw [e, q, e1, e2, e3, Finset.sum_range_succ]
    ring
  · step
    refine emit_seq (by exact trivial) (by known) (fun V h hd => hD V hd) fun r => ?_
    refine emit_last _ (by exact trivial) (by known) (by exact fun _ _ _ => trivial) fun V b h e _ => ?_
    obtain ⟨⟨e1, d1⟩, ⟨e2, -⟩, q, hf⟩ := h
    simp only [Call.sem] at e e1 e2 q
    refine ⟨d1, ?_⟩
    rw [e, q, e1, e2, hF V hf]

theorem publicCalls_tri {N : ℕ} {srow : ℤ} {zn zon size one : Arg} {pub lag om : ℕ → Arg} (hz : zn ∈ K) (hzo : zon ∈ K) (hs : size ∈ K) (h1 : one ∈ K)
    (ha : ∀ i : ℕ, Arg.ext ⟨i, srow, false, .witness⟩ ∈ K) (hp : ∀ i < N, pub i ∈ K) (hl : ∀ i < N + N, lag i ∈ K) (ho : ∀ i < N, om i ∈ K)
    (hF : ∀ V, F V → V one = 1 ∧ V (.ext ⟨0, srow, false, .witness⟩) = 0 ∧ V (.ext ⟨1, srow, false, .witness⟩) = 0) (hD : ∀ V, D V → V size ≠ 0) :
    Tri base K F D (publicCalls N srow zn zon pub lag om size one) (fun a => {a.1, a.2}) fun V a => V size ≠ 0 ∧
      V a.1 = (∑ i ∈ Finset.range N, -(V (lag i) * V (pub i) * V (om i))) * ((V zn - 1) / V size) ∧
      V a.2 = (∑ i ∈ Finset.range N, -(V (lag (N + i)) * V (pub i) * V (om i))) * ((V zon - 1) / V size) := by
  unfold publicCalls
  refine (publicEval_tri hz (ha 0) hs h1 hp (fun i hi => hl _ (by omega)) ho (fun V h => (hF V h).1) hD).seq fun r0 => ?_
  refine (publicEval_tri (Or.inr hzo) (Or.inr (ha 1)) (Or.inr hs) (Or.inr h1) (fun i hi => Or.inr (hp i hi)) (fun i hi => Or.inr (hl _ (by omega)))
    (fun i hi => Or.inr (ho i hi)) (fun V h => (hF V h.2).1) hD).seq fun r1 => ?_
  refine Tri.ret ?_ ?_
  · rintro a (rfl | rfl) <;> simp
  · rintro V ⟨⟨d, q1⟩, ⟨-, q0⟩, f⟩
    obtain ⟨-, f0, f1⟩ := hF V f
    rw [f0, zero_add] at q0
    rw [f1, zero_add] at q1
    simp only [Nat.zero_add] at q0
    exact ⟨d, q0, q1⟩

theorem powerCalls_tri {n : ℕ} {srow : ℤ} (ha : ∀ i : ℕ, Arg.ext ⟨i, srow, false, .witness⟩ ∈ K) (hF : ∀ V, F V → V (.ext ⟨0, srow, false, .witness⟩) = 1) :
    Tri base K F D (powerCalls n srow) (fun o => {a | ∃ j < n, a = o j}) fun V o => ∀ j < n, V (o j) = V (.ext ⟨1, srow, false, .witness⟩) ^ j := by
  unfold powerCalls
  refine (loop_tri (F := F) (D := D) (fun i (o : ℕ → Arg) => {a | ∃ j < i + 2, a = o j})
    (fun i V (o : ℕ → Arg) => ∀ j < i + 2, V (o j) = V (.ext ⟨1, srow, false, .witness⟩) ^ j) ?_ ?_ ?_).weaken
      (fun _ h => h) (fun _ h => h) (fun _ _ h => h) ?_ ?_
  · rintro a ⟨j, -, rfl⟩
    split_ifs
    · exact ha 0
    · exact ha 1
  · intro V h j hj
    rcases (show j = 0 ∨ j = 1 by omega) with rfl | rfl
    · simpa using hF V h
    · simp
  · intro i hi o
    refine emit_seq (by exact trivial) ?_ (by exact fun _ _ _ => trivial) fun r => ?_
    · rintro z (rfl | rfl)
      · exact Or.inr (ha 1)
      · exact Or.inl ⟨i + 1, by omega, rfl⟩
    · refine Tri.ret ?_ ?_
      · rintro a ⟨j, hj, rfl⟩
        by_cases h : j = i + 2
        · subst h; rw [Function.update_self]; exact Or.inl rfl
        · rw [Function.update_of_ne h]; exact Or.inr (Or.inl ⟨j, by omega, rfl⟩)
      · rintro V ⟨⟨e, -⟩, q, -⟩ j hj
        by_cases h : j = i + 2
        · subst h
          rw [Function.update_self, e]
          show V _ * V (o (i + 1)) = _
          rw [q _ (by omega), pow_succ _ (i + 1), mul_comm]
        · rw [Function.update_of_ne h]; exact q j (by omega)
  · rintro o a ⟨j, hj, rfl⟩; exact Or.inl ⟨j, by omega, rfl⟩
  · exact fun V o _ q j hj => q j (by omega)

/-! ### Scalars of the linearization -/

theorem permScalars_tri {m : ℕ} {w s : ℕ → Arg} {z alpha beta gamma zkp : Arg} (hw : ∀ i < m, w i ∈ K) (hs : ∀ i < m, s i ∈ K) (hz : z ∈ K) (ha : alpha ∈ K)
    (hb : beta ∈ K) (hg : gamma ∈ K) (hk : zkp ∈ K) :
    Tri base K F D (permScalars m w s z alpha beta gamma zkp) (fun a => {a}) fun V a =>
      V a = -(V z * V beta * V alpha * V zkp * ∏ i ∈ Finset.range m, (V gamma + V beta * V (s i) + V (w i))) := by
  unfold permScalars
  iterate 3 step
  refine (loop_tri (fun n (a : Arg) => {a}) (fun n V (a : Arg) => V a = V z * V beta * V alpha * V zkp * ∏ i ∈ Finset.range n, (V gamma + V beta * V (s i) + V (w i)))
    ?_ ?_ ?_).seq fun s => ?_
  · rintro a rfl; exact Or.inl rfl
  · rintro V ⟨⟨e1, -⟩, ⟨e2, -⟩, ⟨e3, -⟩, -⟩
    simp only [Call.sem] at e1 e2 e3
    rw [Finset.prod_range_zero, mul_one, e1, e2, e3]
  · intro i hi a
    have hwi := hw i hi
    have hsi := hs i hi
    iterate 3 step
    refine emit_last _ (by exact trivial) (by known) (by exact fun _ _ _ => trivial) fun V b h e _ => ?_
    obtain ⟨⟨e1, -⟩, ⟨e2, -⟩, ⟨e3, -⟩, q, -⟩ := h
    simp only [Call.sem] at e e1 e2 e3
    rw [e, q, e1, e2, e3, Finset.prod_range_succ]
    ring
  · refine emit_last _ (by exact trivial) (by known) (by exact fun _ _ _ => trivial) fun V b h e _ => ?_
    rw [e]
    show -1 * V _ = _
    rw [h.1, neg_one_mul]

theorem genericScalars_tri {w alpha : ℕ → Arg} {sel : Arg} (hw : ∀ i < 6, w i ∈ K) (ha : ∀ i < 2, alpha i ∈ K) (hs : sel ∈ K) :
    Tri base K F D (genericScalars w alpha sel) (fun o => {a | ∃ j < 10, a = o j}) fun V o => ∀ i < 2,
      (∀ j < 3, V (o (5 * i + j)) = V (alpha i) * V sel * V (w (3 * i + j))) ∧
      V (o (5 * i + 3)) = V (alpha i) * V sel * (V (w (3 * i)) * V (w (3 * i + 1))) ∧ V (o (5 * i + 4)) = V (alpha i) * V sel := by
  unfold genericScalars
  refine (loop_tri (F := F) (D := D) (fun n (o : ℕ → Arg) => {a | ∃ j < 5 * n, a = o j}) (fun n V (o : ℕ → Arg) => ∀ i < n,
      (∀ j < 3, V (o (5 * i + j)) = V (alpha i) * V sel * V (w (3 * i + j))) ∧
      V (o (5 * i + 3)) = V (alpha i) * V sel * (V (w (3 * i)) * V (w (3 * i + 1))) ∧ V (o (5 * i + 4)) = V (alpha i) * V sel) ?_ ?_ ?_).weaken
      (fun _ h => h) (fun _ h => h) (fun _ _ h => h) ?_ ?_
  · rintro a ⟨j, hj, -⟩; exact absurd hj (by omega)
  · exact fun V _ i hi => absurd hi (by omega)
  · intro i hi o
    have hai := ha i hi
    have hw0 := hw (3 * i) (by omega)
    have hw1 := hw (3 * i + 1) (by omega)
    have hw2 := hw (3 * i + 2) (by omega)
    iterate 6 step
    refine Tri.ret ?_ ?_
    · rintro a ⟨j, hj, rfl⟩
      simp only
      split_ifs
      · exact Or.inr (Or.inr (Or.inr (Or.inr (Or.inr (Or.inr (Or.inl ⟨j, ‹_›, rfl⟩))))))
      all_goals simp
    · rintro V ⟨⟨e1, -⟩, ⟨e2, -⟩, ⟨e3, -⟩, ⟨e4, -⟩, ⟨e5, -⟩, ⟨e6, -⟩, q, -⟩
      simp only [Call.sem] at e1 e2 e3 e4 e5 e6
      intro j hj
      by_cases h : j = i
      · subst h
        refine ⟨fun k hk => ?_, ?_, ?_⟩
        · rcases (show k = 0 ∨ k = 1 ∨ k = 2 by omega) with rfl | rfl | rfl
          · simp only [Nat.add_zero, lt_self_iff_false, if_false, if_true]; rw [e5, e6]
          · beta_reduce; rw [if_neg (by omega), if_neg (by omega), if_pos rfl, e4, e6]
          · beta_reduce; rw [if_neg (by omega), if_neg (by omega), if_neg (by omega), if_pos rfl, e3, e6]
        · beta_reduce; rw [if_neg (by omega), if_neg (by omega), if_neg (by omega), if_neg (by omega), if_pos rfl, e1, e2, e6]
        · beta_reduce; rw [if_neg (by omega), if_neg (by omega), if_neg (by omega), if_neg (by omega), if_neg (by omega), e6]
      · obtain ⟨q1, q2, q3⟩ := q j (by omega)
        refine ⟨fun k hk => ?_, ?_, ?_⟩
        · beta_reduce; rw [if_pos (by omega)]; exact q1 k hk
        · beta_reduce; rw [if_pos (by omega)]; exact q2
        · beta_reduce; rw [if_pos (by omega)]; exact q3
  · rintro o a h; exact Or.inl h
  · exact fun V o _ q => q

theorem combineEvals_tri {N : ℕ} {e : ℕ → Arg} {x : Arg} (he : ∀ i < N, e i ∈ K) (hx : x ∈ K) :
    Tri base K F D (combineEvals N e x) (fun o => {a | ∃ j < N, a = o j}) fun V o => ∀ i < N, V (o i) = V (e i) * V x := by
  unfold combineEvals
  refine loop_tri (fun n (o : ℕ → Arg) => {a | ∃ j < n, a = o j}) (fun n V (o : ℕ → Arg) => ∀ i < n, V (o i) = V (e i) * V x) ?_ ?_ ?_
  · rintro a ⟨j, hj, -⟩; exact absurd hj (by omega)
  · exact fun V _ i hi => absurd hi (by omega)
  · intro i hi o
    have hei := he i hi
    step
    refine Tri.ret ?_ ?_
    · rintro a ⟨j, hj, rfl⟩
      by_cases h : j = i
      · subst h; rw [Function.update_self]; exact Or.inl rfl
      · rw [Function.update_of_ne h]; exact Or.inr (Or.inl ⟨j, by omega, rfl⟩)
    · rintro V ⟨⟨e1, -⟩, q, -⟩ j hj
      by_cases h : j = i
      · subst h; rw [Function.update_self, e1]; rfl
      · rw [Function.update_of_ne h]; exact q j (by omega)


end Kimchi
end Verif
