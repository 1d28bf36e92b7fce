import Verif.Model.Zkevm
import Verif.Props.ZkevmSelector
import Mathlib.Data.Nat.Bitwise

/-!
# zkEVM word chunking (C36) and ISZERO (C37)
-/

set_option linter.unusedSimpArgs false
set_option linter.unusedVariables false
set_option linter.unusedSectionVars false

namespace Verif
namespace Zkevm

/-- Specification: the number with base-`2^16` digits `a 0, a 1, ..., a (n-1)`, least significant first. -/
def digits (a : ℕ → ℕ) (n : ℕ) : ℕ := ∑ i ∈ Finset.range n, a i * 2 ^ (16 * i)

theorem digits_succ' (a : ℕ → ℕ) (n : ℕ) : digits a (n + 1) = a 0 + 2 ^ 16 * digits (fun i => a (i + 1)) n := by
  unfold digits
  have h : ∀ i ∈ Finset.range n, a (i + 1) * 2 ^ (16 * (i + 1)) = 2 ^ 16 * (a (i + 1) * 2 ^ (16 * i)) := by
    intro i _
    rw [mul_add, pow_add, mul_one]; ring
  rw [Finset.sum_range_succ', Finset.mul_sum, Finset.sum_congr rfl h, mul_zero, pow_zero, mul_one, add_comm]

theorem digits_lt (a : ℕ → ℕ) (n : ℕ) (h : ∀ i < n, a i < 2 ^ 16) : digits a n < 2 ^ (16 * n) := by
  induction n with
  | zero => simp [digits]
  | succ n ih =>
    have h1 := ih (fun i hi => h i (by omega))
    have h2 := h n (by omega)
    have h3 : digits a (n + 1) = digits a n + a n * 2 ^ (16 * n) := by simp [digits, Finset.sum_range_succ]
    have h4 : (2 : ℕ) ^ (16 * (n + 1)) = 2 ^ 16 * 2 ^ (16 * n) := by rw [← pow_add]; congr 1; ring
    rw [h3, h4]
    have : a n * 2 ^ (16 * n) ≤ (2 ^ 16 - 1) * 2 ^ (16 * n) := Nat.mul_le_mul_right _ (by omega)
    have h5 : (2 ^ 16 - 1) * 2 ^ (16 * n) + 2 ^ (16 * n) = 2 ^ 16 * 2 ^ (16 * n) := by
      rw [Nat.sub_mul]; omega
    omega

/-- The digits of a number are unique. -/
theorem digits_unique (n : ℕ) : ∀ (a b : ℕ → ℕ), (∀ i < n, a i < 2 ^ 16) → (∀ i < n, b i < 2 ^ 16) →
    digits a n = digits b n → ∀ i < n, a i = b i := by
  induction n with
  | zero => intro a b _ _ _ i hi; omega
  | succ n ih =>
    intro a b ha hb h i hi
    rw [digits_succ', digits_succ'] at h
    have h0 := ha 0 (by omega)
    have h1 := hb 0 (by omega)
    have e0 : a 0 = b 0 := by omega
    have e1 : digits (fun i => a (i + 1)) n = digits (fun i => b (i + 1)) n := by omega
    cases i with
    | zero => exact e0
    | succ i => exact ih _ _ (fun i hi => ha _ (by omega)) (fun i hi => hb _ (by omega)) e1 i (by omega)

theorem digits_eq_zero (a : ℕ → ℕ) (n : ℕ) : digits a n = 0 ↔ ∀ i < n, a i = 0 := by
  unfold digits
  rw [Finset.sum_eq_zero_iff]
  simp

@[simp] theorem chunkLoop_length (n w : ℕ) : (chunkLoop n w).length = n := by
  induction n generalizing w with
  | zero => rfl
  | succ n ih => simp [chunkLoop, ih]

theorem chunkLoop_getD (n w i : ℕ) (hi : i < n) : (chunkLoop n w).getD i 0 = w / 2 ^ (16 * i) % 2 ^ 16 := by
  induction n generalizing w i with
  | zero => omega
  | succ n ih =>
    rw [chunkLoop]
    cases i with
    | zero => simpa using Nat.and_two_pow_sub_one_eq_mod w 16
    | succ i =>
      rw [List.getD_cons_succ, ih _ _ (by omega), Nat.shiftRight_eq_div_pow, Nat.div_div_eq_div_mul, ← pow_add]
      congr 3; ring

theorem chunkLoop_lt (n w i : ℕ) : (chunkLoop n w).getD i 0 < 2 ^ 16 := by
  by_cases hi : i < n
  · rw [chunkLoop_getD n w i hi]; exact Nat.mod_lt _ (by norm_num)
  · rw [List.getD_eq_default _ _ (by simp; omega)]; norm_num

/-- The chunking loop is lossless modulo `2^(16 n)`. -/
theorem chunkLoop_digits (n w : ℕ) : digits (fun i => (chunkLoop n w).getD i 0) n = w % 2 ^ (16 * n) := by
  induction n generalizing w with
  | zero => simp [digits, Nat.mod_one]
  | succ n ih =>
    rw [digits_succ']
    have h0 : (chunkLoop (n + 1) w).getD 0 0 = w % 2 ^ 16 := by
      rw [chunkLoop_getD _ _ _ (by omega)]; simp
    have h1 : ∀ i, (chunkLoop (n + 1) w).getD (i + 1) 0 = (chunkLoop n (w >>> 16)).getD i 0 := by
      intro i; simp [chunkLoop]
    simp only [h1]
    rw [ih, h0, Nat.shiftRight_eq_div_pow]
    have h4 : (2 : ℕ) ^ (16 * (n + 1)) = 2 ^ 16 * 2 ^ (16 * n) := by rw [← pow_add]; congr 1; ring
    rw [h4, Nat.mod_mul]

theorem getD_map_cast {F : Type*} [AddMonoidWithOne F] (l : List ℕ) (i : ℕ) :
    (l.map fun n : ℕ => (n : F)).getD i 0 = ((l.getD i 0 : ℕ) : F) := by
  simp only [List.getD, List.getElem?_map]
  cases l[i]? <;> simp

theorem wordChunks_getD {F : Type*} [AddMonoidWithOne F] (w : BitVec 256) (i : ℕ) :
    (wordChunks w : List F).getD i 0 = (((chunkLoop 16 w.toNat).getD i 0 : ℕ) : F) := getD_map_cast _ _

theorem chunk64_getD {p : ℕ} (v : ZMod p) (i : ℕ) :
    (chunk64 v).getD i 0 = (((chunkLoop 4 v.val).getD i 0 : ℕ) : ZMod p) := getD_map_cast _ _

theorem word_digits (w : BitVec 256) : digits (fun i => (chunkLoop 16 w.toNat).getD i 0) 16 = w.toNat := by
  rw [chunkLoop_digits]; exact Nat.mod_eq_of_lt w.isLt

end Zkevm

open Zkevm

/-- C36: chunking a word gives 16 field elements whose representatives are 16-bit digits recombining to the
word; no other list of 16-bit digits does. -/
theorem zkevm_word_chunks {p : ℕ} (hp : 2 ^ 16 ≤ p) (w : BitVec 256) :
    let ch : List (ZMod p) := wordChunks w
    ch.length = 16 ∧ (∀ x ∈ ch, x.val < 2 ^ 16) ∧ digits (fun i => (ch.getD i 0).val) 16 = w.toNat ∧
      ∀ l : List (ZMod p), l.length = 16 → (∀ x ∈ l, x.val < 2 ^ 16) →
        digits (fun i => (l.getD i 0).val) 16 = w.toNat → l = ch := by
  intro ch
  have : NeZero p := ⟨(lt_of_lt_of_le (by norm_num) hp).ne'⟩
  have hlen : ch.length = 16 := by simp [ch, wordChunks]
  have hval : ∀ i, (ch.getD i 0).val = (chunkLoop 16 w.toNat).getD i 0 := by
    intro i
    rw [show ch.getD i 0 = _ from wordChunks_getD w i, ZMod.val_cast_of_lt]
    exact lt_of_lt_of_le (chunkLoop_lt 16 _ i) hp
  have hlt : ∀ x ∈ ch, x.val < 2 ^ 16 := by
    intro x hx
    obtain ⟨i, hi, rfl⟩ := List.getElem_of_mem hx
    have := hval i
    simp only [List.getD, List.getElem?_eq_getElem hi, Option.getD_some] at this
    rw [this]; exact chunkLoop_lt 16 w.toNat i
  have hdig : digits (fun i => (ch.getD i 0).val) 16 = w.toNat := by
    simp only [hval]; exact word_digits w
  refine ⟨hlen, hlt, hdig, ?_⟩
  intro l hl hlr hld
  have hget : ∀ (m : List (ZMod p)), m.length = 16 → (∀ x ∈ m, x.val < 2 ^ 16) → ∀ i < 16, (m.getD i 0).val < 2 ^ 16 := by
    intro m hm hmr i hi
    have : i < m.length := by omega
    rw [List.getD, List.getElem?_eq_getElem this]
    exact hmr _ (List.getElem_mem this)
  have hu := digits_unique 16 _ _ (hget l hl hlr) (hget ch hlen hlt) (by rw [hld, hdig])
  apply List.ext_getElem (by rw [hl, hlen])
  intro i h1 h2
  have := hu i (by omega)
  simp only [List.getD, List.getElem?_eq_getElem h1, List.getElem?_eq_getElem h2, Option.getD_some] at this
  exact ZMod.val_injective p this

/-- C36: splitting a carry: for every field element the four digits recombine to its value modulo `2^64`, hence
to the value itself if it has at most 64 bits. -/
theorem zkevm_chunk64 {p : ℕ} (hp : 2 ^ 16 ≤ p) (v : ZMod p) :
    (chunk64 v).length = 4 ∧ (∀ x ∈ chunk64 v, x.val < 2 ^ 16) ∧
      digits (fun i => ((chunk64 v).getD i 0).val) 4 = v.val % 2 ^ 64 := by
  have : NeZero p := ⟨(lt_of_lt_of_le (by norm_num) hp).ne'⟩
  have hlen : (chunk64 v).length = 4 := by simp [chunk64]
  have hval : ∀ i, ((chunk64 v).getD i 0).val = (chunkLoop 4 v.val).getD i 0 := by
    intro i
    rw [chunk64_getD v i, ZMod.val_cast_of_lt]
    exact lt_of_lt_of_le (chunkLoop_lt 4 _ i) hp
  refine ⟨hlen, ?_, ?_⟩
  · intro x hx
    obtain ⟨i, hi, rfl⟩ := List.getElem_of_mem hx
    have := hval i
    simp only [List.getD, List.getElem?_eq_getElem hi, Option.getD_some] at this
    rw [this]; exact chunkLoop_lt 4 v.val i
  · simp only [hval]; exact chunkLoop_digits 4 v.val

/-! ## ISZERO -/

namespace Zkevm

theorem eval_chunkSum {F : Type*} [Field F] (c : Cols) (rot : ℤ) (t : Table F) (row : ℤ) (n : ℕ) :
    (chunkSum c rot n : Expr F).eval t row = ∑ i ∈ Finset.range n, t .witness (c.w (i : ℤ)) (row + rot) := by
  induction n with
  | zero => simp [chunkSum]
  | succ n ih => rw [Finset.sum_range_succ, ← ih]; simp [chunkSum]

/-- Guarded constraints vanish iff the constraints do, when the guard is non-zero. -/
theorem guarded_iff {F : Type*} [Field F] (opt : Expr F) (cs : List (Expr F)) (t : Table F) (row : ℤ)
    (h : opt.eval t row ≠ 0) :
    (∀ e ∈ guarded opt cs, e.eval t row = 0) ↔ ∀ e ∈ cs, e.eval t row = 0 := by
  simp [guarded, h]

/-- With a vanishing guard the constraints hold whatever the row contains. -/
theorem guarded_of_zero {F : Type*} [Field F] (opt : Expr F) (cs : List (Expr F)) (t : Table F) (row : ℤ)
    (h : opt.eval t row = 0) : ∀ e ∈ guarded opt cs, e.eval t row = 0 := by
  simp [guarded, h]

theorem iszero_iff {F : Type*} [Field F] (c : Cols) (t : Table F) (row : ℤ) :
    (∀ e ∈ iszeroGates c, e.eval t row = 0) ↔
      (∀ i < 15, t .witness (c.w ((17 + i : ℕ) : ℤ)) row = 0) ∧
      (∑ i ∈ Finset.range 16, t .witness (c.w (i : ℤ)) row) * t .witness (c.w 32) row + t .witness (c.w 16) row = 1 ∧
      (∑ i ∈ Finset.range 16, t .witness (c.w (i : ℤ)) row) * t .witness (c.w 16) row = 0 := by
  simp only [iszeroGates, List.mem_append, or_imp, forall_and, List.mem_map, List.mem_range,
    forall_exists_index, and_imp, List.mem_cons, List.not_mem_nil, or_false, forall_eq,
    forall_apply_eq_imp_iff₂, Expr.eval_mul, Expr.eval_sub, Expr.eval_add, Cols.eval_wv, Expr.eval_one,
    eval_chunkSum, add_zero, sub_eq_zero]

/-- The decision made by the gate without any range assumption: the result is 1 iff the *field* sum of the
chunk cells is zero, 0 otherwise. -/
theorem iszero_field {F : Type*} [Field F] (c : Cols) (t : Table F) (row : ℤ)
    (h : ∀ e ∈ iszeroGates c, e.eval t row = 0) :
    ((∑ i ∈ Finset.range 16, t .witness (c.w (i : ℤ)) row) = 0 → t .witness (c.w 16) row = 1) ∧
    ((∑ i ∈ Finset.range 16, t .witness (c.w (i : ℤ)) row) ≠ 0 → t .witness (c.w 16) row = 0) := by
  obtain ⟨-, h1, h2⟩ := (iszero_iff c t row).1 h
  constructor
  · intro h0; rwa [h0, zero_mul, zero_add] at h1
  · intro h0; exact (mul_eq_zero.1 h2).resolve_left h0

theorem sum_cast_eq_zero {p : ℕ} (a : ℕ → ℕ) (ha : ∀ i < 16, a i < 2 ^ 16) (hp : 2 ^ 20 ≤ p) :
    (∑ i ∈ Finset.range 16, (a i : ZMod p)) = 0 ↔ ∀ i < 16, a i = 0 := by
  rw [← Nat.cast_sum, ZMod.natCast_eq_zero_iff]
  have hle : (∑ i ∈ Finset.range 16, a i) < p := by
    have : (∑ i ∈ Finset.range 16, a i) ≤ ∑ i ∈ Finset.range 16, (2 ^ 16 - 1) :=
      Finset.sum_le_sum fun i hi => by have := ha i (Finset.mem_range.1 hi); omega
    simp only [Finset.sum_const, Finset.card_range] at this
    norm_num at this hp
    omega
  constructor
  · intro h i hi
    have h0 := Nat.eq_zero_of_dvd_of_lt h hle
    exact (Finset.sum_eq_zero_iff.1 h0) i (Finset.mem_range.2 hi)
  · intro h
    rw [Finset.sum_eq_zero fun i hi => h i (Finset.mem_range.1 hi)]
    exact dvd_zero _

end Zkevm

/-- C37 (soundness): on any row where the ISZERO detection expression is non-zero, if the constraints hold and
the chunk cells are 16-bit digits, the second word (columns 16..31) encodes 1 if the word is zero and 0
otherwise. -/
theorem iszero_sound {p : ℕ} [Fact p.Prime] (hp : 2 ^ 20 ≤ p) (c : Cols) (opt : Expr (ZMod p)) (t : Table (ZMod p))
    (row : ℤ) (hopt : opt.eval t row ≠ 0) (h : ∀ e ∈ guarded opt (iszeroGates c), e.eval t row = 0) (a : ℕ → ℕ)
    (ha : ∀ i < 16, a i < 2 ^ 16) (hcell : ∀ i : ℕ, i < 16 → t .witness (c.w (i : ℤ)) row = (a i : ZMod p)) :
    (∀ i < 16, t .witness (c.w ((16 + i : ℕ) : ℤ)) row = ((if i = 0 ∧ digits a 16 = 0 then 1 else 0 : ℕ) : ZMod p)) := by
  rw [guarded_iff _ _ _ _ hopt] at h
  obtain ⟨h1, h2⟩ := iszero_field c t row h
  have hz := ((iszero_iff c t row).1 h).1
  rw [Finset.sum_congr rfl fun i hi => hcell i (Finset.mem_range.1 hi)] at h1 h2
  rw [sum_cast_eq_zero a ha hp, ← digits_eq_zero] at h1
  rw [ne_eq, sum_cast_eq_zero a ha hp, ← digits_eq_zero] at h2
  intro i hi
  cases i with
  | zero =>
    by_cases hd : digits a 16 = 0
    · simpa [hd] using h1 hd
    · simpa [hd] using h2 hd
  | succ i =>
    have := hz i (by omega)
    rw [show 16 + (i + 1) = 17 + i by ring, this]; simp

/-- C37 (disagreement): without a range assumption on the chunk cells, which no constraint enforces
(the code has a TODO for range checks), a non-zero word is accepted as zero. -/
theorem iszero_refuted_unranged {p : ℕ} [Fact p.Prime] (hp : 2 < p) (c : Cols) (hc : c.OK 64) (opt : Expr (ZMod p))
    (row : ℤ) : ∃ t : Table (ZMod p), (∀ e ∈ guarded opt (iszeroGates c), e.eval t row = 0) ∧
      t .witness (c.w 0) row = 1 ∧ t .witness (c.w 16) row = 1 := by
  let t : Table (ZMod p) := writeAll [⟨.witness, c.w 0, row, 1⟩, ⟨.witness, c.w 1, row, -1⟩, ⟨.witness, c.w 16, row, 1⟩]
    (fun _ _ _ => 0)
  have hv : ∀ j : ℤ, 0 ≤ j → j < 64 → t .witness (c.w j) row = if j = 0 then 1 else if j = 1 then -1 else if j = 16 then 1 else 0 := by
    intro j h1 h2
    simp only [t, writeAll_cons, writeAll_nil, Table.set_apply, true_and, and_true]
    have e0 := hc.inj (i := j) (j := 0) ⟨h1, h2⟩ ⟨by norm_num, by norm_num⟩
    have e1 := hc.inj (i := j) (j := 1) ⟨h1, h2⟩ ⟨by norm_num, by norm_num⟩
    have e2 := hc.inj (i := j) (j := 16) ⟨h1, h2⟩ ⟨by norm_num, by norm_num⟩
    simp only [e0, e1, e2]
    split_ifs <;> first | rfl | omega
  refine ⟨t, ?_, ?_, ?_⟩
  · have : ∀ e ∈ iszeroGates c, e.eval t row = 0 := by
      rw [iszero_iff]
      have hsum : (∑ i ∈ Finset.range 16, t .witness (c.w (i : ℤ)) row) = 0 := by
        rw [Finset.sum_congr rfl fun (i : ℕ) hi => hv (i : ℤ) (by omega) (by have := Finset.mem_range.1 hi; omega)]
        simp [Finset.sum_range_succ]
      rw [hsum]
      refine ⟨?_, ?_, ?_⟩
      · intro i hi
        rw [hv _ (by omega) (by omega), if_neg (by omega), if_neg (by omega), if_neg (by omega)]
      · rw [hv 16 (by norm_num) (by norm_num)]; norm_num
      · ring
    intro e he
    simp only [guarded, List.mem_map] at he
    obtain ⟨e', he', rfl⟩ := he
    rw [Expr.eval_mul, this e' he', mul_zero]
  · rw [hv 0 (by norm_num) (by norm_num)]; norm_num
  · rw [hv 16 (by norm_num) (by norm_num)]; norm_num

namespace Zkevm

/-- The contents of the row written by ISZERO. -/
def iszeroCell {F : Type*} [Field F] [DecidableEq F] (a : BitVec 256) (_r j : ℕ) : F :=
  if j < 16 then (wordChunks a : List F).getD j 0
  else if j = 16 then (if a = 0 then 1 else 0)
  else if j = 32 then (if (wordChunks a : List F).sum = 0 then 0 else 1 * (wordChunks a : List F).sum⁻¹)
  else 0

theorem iszero_grid {F : Type*} [Field F] [DecidableEq F] (c : Cols) (a : BitVec 256) (row : ℤ) :
    GridWrites c row 64 1 (iszeroCell (F := F) a) (iszeroWrites c a row) := by
  intro x hx
  simp only [iszeroWrites, List.mem_append, List.mem_map, List.mem_range, List.mem_singleton] at hx
  rcases hx with ((⟨i, hi, rfl⟩ | rfl) | ⟨i, hi, rfl⟩) | rfl
  · refine ⟨0, by omega, i, by omega, ?_⟩
    have : iszeroCell (F := F) a 0 i = (wordChunks a : List F).getD i 0 := by rw [iszeroCell, if_pos hi]
    rw [this]; simp
  · refine ⟨0, by omega, 16, by omega, ?_⟩
    have : iszeroCell (F := F) a 0 16 = (if a = 0 then 1 else 0) := by rw [iszeroCell, if_neg (by omega), if_pos rfl]
    rw [this]; simp
  · refine ⟨0, by omega, 17 + i, by omega, ?_⟩
    have : iszeroCell (F := F) a 0 (17 + i) = 0 := by
      rw [iszeroCell, if_neg (by omega), if_neg (by omega), if_neg (by omega)]
    rw [this]; simp
  · refine ⟨0, by omega, 32, by omega, ?_⟩
    have : iszeroCell (F := F) a 0 32 = (if (wordChunks a : List F).sum = 0 then 0 else 1 * (wordChunks a : List F).sum⁻¹) := by
      rw [iszeroCell, if_neg (by omega), if_neg (by omega), if_pos rfl]
    rw [this]; simp

theorem wordChunks_sum {F : Type*} [Field F] (a : BitVec 256) :
    (wordChunks a : List F).sum = ∑ i ∈ Finset.range 16, (((chunkLoop 16 a.toNat).getD i 0 : ℕ) : F) := by
  have h : (wordChunks a : List F) = (List.range 16).map fun i => (((chunkLoop 16 a.toNat).getD i 0 : ℕ) : F) := by
    apply List.ext_getElem (by simp [wordChunks])
    intro i h1 h2
    simp only [wordChunks, List.getElem_map, List.getElem_range]
    simp only [wordChunks, List.length_map] at h1
    rw [List.getD, List.getElem?_eq_getElem h1]; rfl
  rw [h]; rfl

end Zkevm

/-- C37 (completeness): for every word the generated row holds the word's digits and satisfies the gate. -/
theorem iszero_complete {p : ℕ} [Fact p.Prime] (hp : 2 ^ 20 ≤ p) (c : Cols) (hc : c.OK 64) (opt : Expr (ZMod p))
    (a : BitVec 256) (row : ℤ) (t : Table (ZMod p)) :
    let t' := writeAll (iszeroWrites c a row) t
    (∀ e ∈ guarded opt (iszeroGates c), e.eval t' row = 0) ∧
      (∀ i : ℕ, i < 16 → t' .witness (c.w (i : ℤ)) row = (((chunkLoop 16 a.toNat).getD i 0 : ℕ) : ZMod p)) ∧
      t' .witness (c.w 16) row = if a = 0 then 1 else 0 := by
  intro t'
  have hread : ∀ j : ℕ, j < 64 → ∀ v : ZMod p, iszeroCell (F := ZMod p) a 0 j = v →
      (⟨.witness, c.w (j : ℤ), row, v⟩ : Write (ZMod p)) ∈ iszeroWrites c a row → t' .witness (c.w (j : ℤ)) row = v := by
    intro j hj v hv hm
    have := (iszero_grid (F := ZMod p) c a row).read hc t (r := 0) hj (by rw [hv]; simpa using hm)
    simpa [hv] using this
  have h0 : ∀ i : ℕ, i < 16 → t' .witness (c.w (i : ℤ)) row = (((chunkLoop 16 a.toNat).getD i 0 : ℕ) : ZMod p) := by
    intro i hi
    refine (hread i (by omega) _ rfl ?_).trans ?_
    · have : iszeroCell (F := ZMod p) a 0 i = (wordChunks a : List (ZMod p)).getD i 0 := by rw [iszeroCell, if_pos hi]
      rw [this]
      simp only [iszeroWrites, List.mem_append]
      exact Or.inl (Or.inl (Or.inl (List.mem_map.2 ⟨i, List.mem_range.2 hi, rfl⟩)))
    · rw [iszeroCell, if_pos hi, wordChunks_getD]
  have h16 : t' .witness (c.w 16) row = if a = 0 then 1 else 0 := by
    refine hread 16 (by omega) _ ?_ ?_
    · rw [iszeroCell, if_neg (by omega), if_pos rfl]
    · simp [iszeroWrites]
  have h17 : ∀ i < 15, t' .witness (c.w ((17 + i : ℕ) : ℤ)) row = 0 := by
    intro i hi
    refine hread (17 + i) (by omega) _ ?_ ?_
    · rw [iszeroCell, if_neg (by omega), if_neg (by omega), if_neg (by omega)]
    · simp only [iszeroWrites, List.mem_append]
      exact Or.inl (Or.inr (List.mem_map.2 ⟨i, List.mem_range.2 hi, rfl⟩))
  have h32 : t' .witness (c.w 32) row =
      if (wordChunks a : List (ZMod p)).sum = 0 then 0 else 1 * (wordChunks a : List (ZMod p)).sum⁻¹ := by
    refine hread 32 (by omega) _ ?_ ?_
    · rw [iszeroCell, if_neg (by omega), if_neg (by omega), if_pos rfl]
    · simp [iszeroWrites]
  refine ⟨?_, h0, h16⟩
  have hsum : (∑ i ∈ Finset.range 16, t' .witness (c.w (i : ℤ)) row) = (wordChunks a : List (ZMod p)).sum := by
    rw [wordChunks_sum]; exact Finset.sum_congr rfl fun i hi => h0 i (Finset.mem_range.1 hi)
  have hzero : (wordChunks a : List (ZMod p)).sum = 0 ↔ a = 0 := by
    rw [wordChunks_sum, sum_cast_eq_zero _ (fun i _ => chunkLoop_lt 16 _ i) hp, ← digits_eq_zero, word_digits]
    constructor
    · intro h; exact BitVec.eq_of_toNat_eq (by simpa using h)
    · intro h; rw [h]; rfl
  have key : ∀ e ∈ iszeroGates c, e.eval t' row = 0 := by
    rw [iszero_iff, hsum, h16, h32]
    refine ⟨h17, ?_, ?_⟩
    · by_cases h : a = 0
      · rw [hzero.2 h, if_pos h, zero_mul, zero_add]
      · have := mt hzero.1 h
        rw [if_neg this, if_neg h, one_mul, mul_inv_cancel₀ this, add_zero]
    · by_cases h : a = 0
      · rw [hzero.2 h, zero_mul]
      · rw [if_neg h, mul_zero]
  intro e he
  simp only [guarded, List.mem_map] at he
  obtain ⟨e', he', rfl⟩ := he
  rw [Expr.eval_mul, key e' he', mul_zero]

/-- Non-vacuity: the row generated for the word 5 meets the hypotheses of `iszero_sound`. -/
example {p : ℕ} [Fact p.Prime] (hp : 2 ^ 20 ≤ p) : ∃ (t : Table (ZMod p)) (a : ℕ → ℕ),
    (∀ e ∈ guarded (1 : Expr (ZMod p)) (iszeroGates ⟨List.range 64, [], []⟩), e.eval t 0 = 0) ∧
    (1 : Expr (ZMod p)).eval t 0 ≠ 0 ∧ (∀ i < 16, a i < 2 ^ 16) ∧ a 0 = 5 ∧
    (∀ i : ℕ, i < 16 → t .witness ((⟨List.range 64, [], []⟩ : Cols).w (i : ℤ)) 0 = (a i : ZMod p)) := by
  obtain ⟨h1, h2, -⟩ := iszero_complete hp ⟨List.range 64, [], []⟩ ⟨List.nodup_range, by simp⟩ 1 5#256 0 (fun _ _ _ => 0)
  exact ⟨_, fun i => (chunkLoop 16 (5#256).toNat).getD i 0, h1, by simp, fun i _ => chunkLoop_lt _ _ i, by decide, h2⟩

end Verif
