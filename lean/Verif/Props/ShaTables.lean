import Verif.Model.ShaTables
import Verif.Props.Sha256Complete

/-!
# C174: the generated tables of reversed sparse bytes

Whatever the number of threads (up to `2^30`) and the interleaving, the finished set is the table that the lookups of
`sha256_process` are modelled with (C81), without repetitions.
-/

set_option linter.unusedSimpArgs false
set_option linter.unusedVariables false

namespace Verif
namespace ShaTables

open Sha256 Digits
open Sha256Spec (Word)

/-! ### Specification -/

/-- Eight digits up to 3: the byte of their parities and the number they make to the base `b`. -/
def Reversed (b : ℕ) (ok : (ℕ → ℕ) → Prop) (q : ℕ × ℕ) : Prop :=
  ∃ d : ℕ → ℕ, (∀ j < 8, d j ≤ 3) ∧ ok d ∧ q.1 = ((List.range 8).map fun j => d j % 2 * 2 ^ j).sum ∧
    q.2 = ((List.range 8).map fun j => d j * b ^ j).sum

/-- All digits. -/
def Table4 : ℕ × ℕ → Prop := Reversed 4 fun _ => True

/-- Digits that share a bit with the digit five places up: 0 and 3 do not go together. -/
def Table7 : ℕ × ℕ → Prop :=
  Reversed 7 fun d => ∀ j < 3, ¬ (d j = 0 ∧ d (j + 5) = 3) ∧ ¬ (d j = 3 ∧ d (j + 5) = 0)

/-! ### Interleaving -/

theorem mem_insert {s : List (ℕ × ℕ)} {q r : ℕ × ℕ} : r ∈ insert s q ↔ r = q ∨ r ∈ s := by
  unfold insert
  split
  · constructor
    · exact .inr
    · rintro (rfl | h) <;> assumption
  · exact List.mem_cons

theorem mem_foldl {l s : List (ℕ × ℕ)} {r : ℕ × ℕ} : r ∈ l.foldl insert s ↔ r ∈ l ∨ r ∈ s := by
  induction l generalizing s with
  | nil => simp
  | cons a l ih => rw [List.foldl_cons, ih, mem_insert, List.mem_cons]; tauto

theorem nodup_foldl {l s : List (ℕ × ℕ)} (h : s.Nodup) : (l.foldl insert s).Nodup := by
  induction l generalizing s with
  | nil => exact h
  | cons a l ih =>
    refine ih ?_
    unfold insert
    split
    · exact h
    · exact List.nodup_cons.2 ⟨by assumption, h⟩

section threads
variable {f : ℕ → List (ℕ × ℕ)} {T : ℕ}

/-- What holds after any number of passes. -/
structure Inv (f : ℕ → List (ℕ × ℕ)) (T : ℕ) (s : State) : Prop where
  lo : ∀ k < T, bound T k ≤ s.cur k
  hi : ∀ k < T, s.cur k ≤ bound T (k + 1)
  mem : ∀ r, r ∈ s.set ↔ r ∈ f 0 ∨ ∃ k < T, ∃ i, bound T k ≤ i ∧ i < s.cur k ∧ r ∈ f i
  nodup : s.set.Nodup

theorem bound_mono (k : ℕ) : bound T k ≤ bound T (k + 1) := Nat.mul_le_mul_left _ (by omega)

theorem init_inv : Inv f T (init f T) :=
  ⟨fun k _ => le_rfl, fun k _ => bound_mono k, fun r => by
    rw [init, mem_foldl]
    constructor
    · rintro (h | h)
      · exact .inl h
      · cases h
    · rintro (h | ⟨k, -, i, h1, h2, -⟩)
      · exact .inl h
      · exact absurd h1 (not_le.2 h2), nodup_foldl List.nodup_nil⟩

theorem step_inv {s s' : State} (h : Inv f T s) (hs : Step f T s s') : Inv f T s' := by
  cases hs with
  | pass k hk hlt =>
  have hlt : s.cur k < bound T (k + 1) := hlt
  refine ⟨fun j hj => ?_, fun j hj => ?_, fun r => ?_, nodup_foldl h.nodup⟩
  · show bound T j ≤ Function.update s.cur k (s.cur k + 1) j
    rcases eq_or_ne j k with rfl | hne
    · rw [Function.update_self]; exact (h.lo j hj).trans (Nat.le_succ _)
    · rw [Function.update_of_ne hne]; exact h.lo j hj
  · show Function.update s.cur k (s.cur k + 1) j ≤ _
    rcases eq_or_ne j k with rfl | hne
    · rw [Function.update_self]; exact hlt
    · rw [Function.update_of_ne hne]; exact h.hi j hj
  · show r ∈ (f (s.cur k)).foldl insert s.set ↔ r ∈ f 0 ∨ ∃ j < T, ∃ i, bound T j ≤ i ∧
      i < Function.update s.cur k (s.cur k + 1) j ∧ r ∈ f i
    rw [mem_foldl, h.mem]
    constructor
    · rintro (h1 | h1 | ⟨j, hj, i, h1, h2, h3⟩)
      · exact .inr ⟨k, hk, s.cur k, h.lo k hk, by rw [Function.update_self]; omega, h1⟩
      · exact .inl h1
      · refine .inr ⟨j, hj, i, h1, ?_, h3⟩
        rcases eq_or_ne j k with rfl | hne
        · rw [Function.update_self]; omega
        · rwa [Function.update_of_ne hne]
    · rintro (h1 | ⟨j, hj, i, h1, h2, h3⟩)
      · exact .inr (.inl h1)
      · rcases eq_or_ne j k with rfl | hne
        · rw [Function.update_self] at h2
          rcases (Nat.lt_succ_iff.1 h2).eq_or_lt with rfl | h2
          · exact .inl h3
          · exact .inr (.inr ⟨j, hj, i, h1, h2, h3⟩)
        · rw [Function.update_of_ne hne] at h2
          exact .inr (.inr ⟨j, hj, i, h1, h2, h3⟩)

theorem run_inv {s : State} (h : Relation.ReflTransGen (Step f T) (init f T) s) : Inv f T s := by
  induction h with
  | refl => exact init_inv
  | tail _ hs ih => exact step_inv ih hs

/-- The words below `bound T T`, each of them in the range of a thread. -/
theorem covered {i : ℕ} : (∃ k < T, bound T k ≤ i ∧ i < bound T (k + 1)) ↔ i < bound T T := by
  unfold bound
  constructor
  · rintro ⟨k, hk, -, h⟩
    exact h.trans_le (Nat.mul_le_mul_left _ hk)
  · intro h
    have hw : 0 < 2 ^ 32 / T := Nat.pos_of_ne_zero fun h0 => by rw [h0, zero_mul] at h; omega
    refine ⟨i / (2 ^ 32 / T), ?_, Nat.mul_div_le _ _, Nat.lt_mul_div_succ _ hw⟩
    rw [Nat.div_lt_iff_lt_mul hw, mul_comm]
    exact h

/-- The finished set, whatever the order of the passes. -/
theorem done_mem {s : State} (h : Relation.ReflTransGen (Step f T) (init f T) s) (hd : Done T s) (r : ℕ × ℕ) :
    r ∈ s.set ↔ r ∈ f 0 ∨ ∃ i < bound T T, r ∈ f i := by
  have hi := run_inv h
  rw [hi.mem]
  refine or_congr_right ⟨?_, ?_⟩
  · rintro ⟨k, hk, i, h1, h2, h3⟩
    exact ⟨i, covered.1 ⟨k, hk, h1, h2.trans_le (hi.hi k hk)⟩, h3⟩
  · rintro ⟨i, h1, h3⟩
    obtain ⟨k, hk, h1, h2⟩ := covered.2 h1
    exact ⟨k, hk, i, h1, h2.trans_le (not_lt.1 (hd k hk)), h3⟩

/-- The threads come to an end: from every state reached, a finished one can be reached. -/
theorem finishes (s : State) : ∃ s', Relation.ReflTransGen (Step f T) s s' ∧ Done T s' := by
  induction hm : ∑ k ∈ Finset.range T, (bound T (k + 1) - s.cur k) using Nat.strong_induction_on generalizing s with
  | _ m ih =>
    by_cases hd : Done T s
    · exact ⟨s, .refl, hd⟩
    · unfold Done at hd
      push Not at hd
      obtain ⟨k, hk, hlt⟩ := hd
      obtain ⟨s', h1, h2⟩ := ih _ (by
        rw [← hm]
        refine Finset.sum_lt_sum (fun j _ => ?_) ⟨k, Finset.mem_range.2 hk, ?_⟩
        · show bound T (j + 1) - Function.update s.cur k (s.cur k + 1) j ≤ _
          rcases eq_or_ne j k with rfl | hne
          · rw [Function.update_self]; omega
          · rw [Function.update_of_ne hne]
        · show bound T (k + 1) - Function.update s.cur k (s.cur k + 1) k < _
          rw [Function.update_self]; omega) ⟨(f (s.cur k)).foldl insert s.set, _⟩ rfl
      exact ⟨s', .head (.pass s k hk hlt) h1, h2⟩

end threads

/-! ### The pairs of a word -/

section words
variable {p : ℕ}

theorem sigma0_word (H : Large p) (x : Word) : sigma0 (bits 32 x.toNat) = val 4 32 (dig0 x) := by
  have h := sparseSigma0_W H x
  rw [sparseSigma0, word_W H.h2] at h
  exact h

theorem sigma1_word (H : Large p) (x : Word) : sigma1 (bits 32 x.toNat) = val 4 32 (dig1 x) := by
  have h := sparseSigma1_W H x
  rw [sparseSigma1, word_W H.h2] at h
  exact h

theorem bigSigma0_word (H : Large p) (x : Word) : bigSigma0 (bits 32 x.toNat) = val 4 32 (Dig0 x) := by
  have h := sparseBigSigma0_W H x
  rw [sparseBigSigma0, word_W H.h2] at h
  exact h

theorem bigSigma1_word (H : Large p) (x : Word) : bigSigma1 p (bits 32 x.toNat) = val 7 32 (Dig1 x) := by
  obtain ⟨h0, h1, h2, h3⟩ := eChunk H.h2 7 x
  rw [word_W H.h2] at h0 h1 h2 h3
  have v : ∀ n : ℕ, n < 7 ^ 32 → ((n : ℕ) : ZMod p).val = n := fun n hn => ZMod.val_natCast_of_lt (hn.trans_le H.h7)
  have v1 := v (7 ^ 27 + 7 ^ 13 + 1) (by norm_num)
  have v2 := v (7 ^ 5 + 7 ^ 18 + 1) (by norm_num)
  have v3 := v (7 ^ 19 + 7 ^ 14 + 1) (by norm_num)
  have v0 := v (7 ^ 26 + 7 ^ 21 + 7 ^ 7) (by norm_num)
  simp only [Nat.cast_add, Nat.cast_pow, Nat.cast_ofNat, Nat.cast_one] at v0 v1 v2 v3
  rw [← bigSigma1_combine, bigSigma1]
  simp only [v0, v1, v2, v3]
  simp only [eSizes] at h0 h1 h2 h3
  simp only [h0, h1, h2, h3]

theorem mem_chunks {b : ℕ} (hb : 1 < b) (hp : b ^ 32 ≤ p) {d : ℕ → ℕ} (hd : ∀ i, d i < b) {q : ℕ × ℕ} :
    q ∈ chunks p b (val b 32 d) ↔
      ∃ c < 4, q = (val 2 8 fun j => parity (d (8 * c + j)), val b 8 fun j => d (8 * c + j)) := by
  simp only [chunks, List.mem_map, List.mem_range]
  refine exists_congr fun c => and_congr_right fun hc => ?_
  rw [revBin_bytes p b parity d (fun i _ => hd i) hp hb c hc, revSparse_bytes p b d (fun i _ => hd i) hp hb c hc]
  exact eq_comm

theorem val_list (b : ℕ) (f : ℕ → ℕ) : val b 8 f = ((List.range 8).map fun j => f j * b ^ j).sum := by
  simp only [val, Finset.sum_range_succ, Finset.sum_range_zero, List.range_succ, List.range_zero, List.map_append, List.map_cons,
    List.map_nil, List.sum_append, List.sum_cons, List.sum_nil, List.nil_append, add_zero, zero_add]

theorem reversed_mk {b : ℕ} {ok : (ℕ → ℕ) → Prop} {d : ℕ → ℕ} (hd : ∀ j < 8, d j ≤ 3) (h : ok d) :
    Reversed b ok (val 2 8 fun j => parity (d j), val b 8 d) :=
  ⟨d, hd, h, val_list 2 fun j => parity (d j), val_list b d⟩

theorem reversed_inv {b : ℕ} {ok : (ℕ → ℕ) → Prop} {q : ℕ × ℕ} (h : Reversed b ok q) :
    ∃ d : ℕ → ℕ, (∀ j < 8, d j ≤ 3) ∧ ok d ∧ q = (val 2 8 fun j => parity (d j), val b 8 d) := by
  obtain ⟨d, hd, ho, h1, h2⟩ := h
  exact ⟨d, hd, ho, Prod.ext (h1.trans (val_list 2 fun j => parity (d j)).symm) (h2.trans (val_list b d).symm)⟩

theorem ofNat_word {i : ℕ} (hi : i < 2 ^ 32) : (BitVec.ofNat 32 i).toNat = i := by
  rw [BitVec.toNat_ofNat, Nat.mod_eq_of_lt hi]

theorem iter4_sub (H : Large p) {i : ℕ} (hi : i < 2 ^ 32) {q : ℕ × ℕ} (h : q ∈ iter4 p i) : Table4 q := by
  rw [← ofNat_word hi] at h
  simp only [iter4, List.mem_append, sigma0_word H, sigma1_word H, bigSigma0_word H] at h
  rcases h with h | h | h
  · obtain ⟨c, -, rfl⟩ := (mem_chunks (by norm_num) H.h4 fun i => Nat.lt_succ_of_le (dig0_le _ i)).1 h
    exact reversed_mk (d := fun j => dig0 _ (8 * c + j)) (fun j _ => dig0_le _ _) trivial
  · obtain ⟨c, -, rfl⟩ := (mem_chunks (by norm_num) H.h4 fun i => Nat.lt_succ_of_le (dig1_le _ i)).1 h
    exact reversed_mk (d := fun j => dig1 _ (8 * c + j)) (fun j _ => dig1_le _ _) trivial
  · obtain ⟨c, -, rfl⟩ := (mem_chunks (by norm_num) H.h4 fun i => Nat.lt_succ_of_le (Dig0_le _ i)).1 h
    exact reversed_mk (d := fun j => Dig0 _ (8 * c + j)) (fun j _ => Dig0_le _ _) trivial

theorem Dig1_shared (x : Word) (c j : ℕ) : ¬ (Dig1 x (8 * c + j) = 0 ∧ Dig1 x (8 * c + (j + 5)) = 3) ∧
    ¬ (Dig1 x (8 * c + j) = 3 ∧ Dig1 x (8 * c + (j + 5)) = 0) := by
  have e1 : (8 * c + (j + 5) + 6) % 32 = (8 * c + j + 11) % 32 := by congr 1
  have h1 := bt_le x ((8 * c + j + 11) % 32)
  have h2 := bt_le x ((8 * c + j + 6) % 32)
  have h3 := bt_le x ((8 * c + j + 25) % 32)
  have h4 := bt_le x ((8 * c + (j + 5) + 11) % 32)
  have h5 := bt_le x ((8 * c + (j + 5) + 25) % 32)
  simp only [Dig1, e1]
  omega

theorem iter7_sub (H : Large p) {i : ℕ} (hi : i < 2 ^ 32) {q : ℕ × ℕ} (h : q ∈ iter7 p i) : Table7 q := by
  rw [← ofNat_word hi] at h
  simp only [iter7, bigSigma1_word H] at h
  obtain ⟨c, -, rfl⟩ := (mem_chunks (by norm_num) H.h7 fun j => by have := Dig1_le (BitVec.ofNat 32 i) j; omega).1 h
  exact reversed_mk (d := fun j => Dig1 _ (8 * c + j)) (fun j _ => Dig1_le _ _) fun j _ => Dig1_shared _ c j

/-! ### A word for given digits -/

/-- The word with the bits `f` below `n`. -/
def wordOf (n : ℕ) (f : ℕ → Bool) : ℕ := val 2 n fun i => (f i).toNat

theorem wordOf_lt (n : ℕ) (f : ℕ → Bool) : wordOf n f < 2 ^ n := val_lt fun i _ => by have := Bool.toNat_le (f i); omega

theorem bt_wordOf {n : ℕ} (hn : n ≤ 32) (f : ℕ → Bool) {i : ℕ} (hi : i < n) :
    bt (BitVec.ofNat 32 (wordOf n f)) i = (f i).toNat := by
  rw [bt, ← BitVec.testBit_toNat, ofNat_word ((wordOf_lt n f).trans_le (Nat.pow_le_pow_right (by norm_num) hn)), wordOf,
    testBit_val]
  simp [hi]

theorem digit3 {d : ℕ} (h : d ≤ 3) : (decide (1 ≤ d)).toNat + (decide (2 ≤ d)).toNat + (decide (3 ≤ d)).toNat = d := by
  interval_cases d <;> rfl

/-- The bits for the lowest byte of `Σ₀`. -/
def bits4 (d : ℕ → ℕ) (i : ℕ) : Bool :=
  if i < 13 then decide (1 ≤ d (i - 2)) else if i < 22 then decide (2 ≤ d (i - 13)) else decide (3 ≤ d (i - 22))

theorem bits4_digits {d : ℕ → ℕ} (hd : ∀ j < 8, d j ≤ 3) {j : ℕ} (hj : j < 8) :
    Dig0 (BitVec.ofNat 32 (wordOf 30 (bits4 d))) j = d j := by
  rw [Dig0, Nat.mod_eq_of_lt (by omega), Nat.mod_eq_of_lt (by omega), Nat.mod_eq_of_lt (by omega),
    bt_wordOf (by norm_num) _ (by omega), bt_wordOf (by norm_num) _ (by omega), bt_wordOf (by norm_num) _ (by omega)]
  simp only [bits4]
  rw [if_pos (by omega), if_neg (by omega), if_pos (by omega), if_neg (by omega), if_neg (by omega)]
  simp only [Nat.add_sub_cancel]
  exact digit3 (hd j hj)

theorem iter4_sup (H : Large p) {q : ℕ × ℕ} (h : Table4 q) : ∃ i < 2 ^ 30, q ∈ iter4 p i := by
  obtain ⟨d, hd, -, rfl⟩ := reversed_inv h
  refine ⟨wordOf 30 (bits4 d), wordOf_lt _ _, ?_⟩
  have hlt : wordOf 30 (bits4 d) < 2 ^ 32 := (wordOf_lt _ _).trans (by norm_num)
  have key := (mem_chunks (p := p) (by norm_num) H.h4 (d := Dig0 (BitVec.ofNat 32 (wordOf 30 (bits4 d))))
    fun i => Nat.lt_succ_of_le (Dig0_le _ i)).2 ⟨0, by norm_num, rfl⟩
  rw [← bigSigma0_word H, ofNat_word hlt] at key
  simp only [iter4, List.mem_append]
  refine .inr (.inr ?_)
  convert key using 2
  · exact val_congr fun j hj => by rw [Nat.mul_zero, zero_add, bits4_digits hd hj]
  · exact val_congr fun j hj => by rw [Nat.mul_zero, zero_add, bits4_digits hd hj]

/-- The bit that the digits `j` and `j + 5` share. -/
def shared (d : ℕ → ℕ) (j : ℕ) : ℕ := if d j = 3 ∨ d (j + 5) = 3 then 1 else 0

/-- The bits for the second byte of `Σ₁`. -/
def bits7 (d : ℕ → ℕ) (i : ℕ) : Bool :=
  if i < 4 then decide (2 ≤ d (i - 1) - shared d (i - 1)) else
  if i < 6 then decide (3 ≤ d (i - 1)) else
  if i < 9 then decide (2 ≤ d (i - 1) - shared d (i - 6)) else
  if i < 17 then decide (1 ≤ d (i - 14) - shared d (i - 14)) else
  if i < 19 then decide (1 ≤ d (i - 14)) else
  if i < 22 then decide (shared d (i - 19) = 1) else
  if i < 24 then decide (2 ≤ d (i - 19)) else
  decide (1 ≤ d (i - 19) - shared d (i - 24))

theorem digit2 {d s : ℕ} (h : d ≤ 3) (hs : s ≤ 1) (h0 : s ≤ d) (h1 : d - s ≤ 2) :
    (decide (1 ≤ d - s)).toNat + (decide (s = 1)).toNat + (decide (2 ≤ d - s)).toNat = d := by
  interval_cases d <;> interval_cases s <;> simp_all

theorem bits7_digits {d : ℕ → ℕ} (hd : ∀ j < 8, d j ≤ 3)
    (ho : ∀ j < 3, ¬ (d j = 0 ∧ d (j + 5) = 3) ∧ ¬ (d j = 3 ∧ d (j + 5) = 0)) {j : ℕ} (hj : j < 8) :
    Dig1 (BitVec.ofNat 32 (wordOf 27 (bits7 d))) (8 * 1 + j) = d j := by
  rw [Dig1, show (8 * 1 + j + 6) % 32 = j + 14 by omega, show (8 * 1 + j + 11) % 32 = j + 19 by omega,
    show (8 * 1 + j + 25) % 32 = j + 1 by omega,
    bt_wordOf (by norm_num) _ (by omega), bt_wordOf (by norm_num) _ (by omega), bt_wordOf (by norm_num) _ (by omega)]
  have sh : ∀ i < 3, shared d i ≤ 1 ∧ shared d i ≤ d i ∧ d i - shared d i ≤ 2 ∧ shared d i ≤ d (i + 5) ∧
      d (i + 5) - shared d i ≤ 2 := by
    intro i hi
    have h1 := hd i (by omega)
    have h2 := hd (i + 5) (by omega)
    have h3 := ho i hi
    unfold shared
    split <;> omega
  have lowd : ∀ i < 3, (bits7 d (i + 14)).toNat + (bits7 d (i + 19)).toNat + (bits7 d (i + 1)).toNat = d i := by
    intro i hi
    obtain ⟨s1, s2, s3, -, -⟩ := sh i hi
    have e1 : bits7 d (i + 14) = decide (1 ≤ d i - shared d i) := by
      unfold bits7
      rw [if_neg (by omega), if_neg (by omega), if_neg (by omega), if_pos (by omega)]
      simp only [Nat.add_sub_cancel]
    have e2 : bits7 d (i + 19) = decide (shared d i = 1) := by
      unfold bits7
      rw [if_neg (by omega), if_neg (by omega), if_neg (by omega), if_neg (by omega), if_neg (by omega), if_pos (by omega)]
      simp only [Nat.add_sub_cancel]
    have e3 : bits7 d (i + 1) = decide (2 ≤ d i - shared d i) := by
      unfold bits7
      rw [if_pos (by omega)]
      simp only [Nat.add_sub_cancel]
    rw [e1, e2, e3]
    exact digit2 (hd i (by omega)) s1 s2 s3
  have highd : ∀ i < 3, (bits7 d (i + 5 + 14)).toNat + (bits7 d (i + 5 + 19)).toNat + (bits7 d (i + 5 + 1)).toNat = d (i + 5) := by
    intro i hi
    obtain ⟨s1, -, -, s2, s3⟩ := sh i hi
    have e1 : bits7 d (i + 5 + 14) = decide (shared d i = 1) := by
      unfold bits7
      rw [if_neg (by omega), if_neg (by omega), if_neg (by omega), if_neg (by omega), if_neg (by omega), if_pos (by omega)]
      rw [show i + 5 + 14 - 19 = i by omega]
    have e2 : bits7 d (i + 5 + 19) = decide (1 ≤ d (i + 5) - shared d i) := by
      unfold bits7
      rw [if_neg (by omega), if_neg (by omega), if_neg (by omega), if_neg (by omega), if_neg (by omega), if_neg (by omega),
        if_neg (by omega)]
      rw [show i + 5 + 19 - 19 = i + 5 by omega, show i + 5 + 19 - 24 = i by omega]
    have e3 : bits7 d (i + 5 + 1) = decide (2 ≤ d (i + 5) - shared d i) := by
      unfold bits7
      rw [if_neg (by omega), if_neg (by omega), if_pos (by omega)]
      rw [show i + 5 + 1 - 1 = i + 5 by omega, show i + 5 + 1 - 6 = i by omega]
    rw [e1, e2, e3]
    have := digit2 (hd (i + 5) (by omega)) s1 s2 s3
    omega
  rcases lt_or_ge j 3 with h | h
  · exact lowd j h
  · rcases lt_or_ge j 5 with h' | h'
    · have e1 : bits7 d (j + 14) = decide (1 ≤ d j) := by
        unfold bits7
        rw [if_neg (by omega), if_neg (by omega), if_neg (by omega), if_neg (by omega), if_pos (by omega)]
        simp only [Nat.add_sub_cancel]
      have e2 : bits7 d (j + 19) = decide (2 ≤ d j) := by
        unfold bits7
        rw [if_neg (by omega), if_neg (by omega), if_neg (by omega), if_neg (by omega), if_neg (by omega), if_neg (by omega),
          if_pos (by omega)]
        simp only [Nat.add_sub_cancel]
      have e3 : bits7 d (j + 1) = decide (3 ≤ d j) := by
        unfold bits7
        rw [if_neg (by omega), if_pos (by omega)]
        simp only [Nat.add_sub_cancel]
      rw [e1, e2, e3]
      exact digit3 (hd j hj)
    · have := highd (j - 5) (by omega)
      rwa [show j - 5 + 5 = j by omega] at this

theorem iter7_sup (H : Large p) {q : ℕ × ℕ} (h : Table7 q) : ∃ i < 2 ^ 30, q ∈ iter7 p i := by
  obtain ⟨d, hd, ho, rfl⟩ := reversed_inv h
  refine ⟨wordOf 27 (bits7 d), (wordOf_lt _ _).trans (by norm_num), ?_⟩
  have hlt : wordOf 27 (bits7 d) < 2 ^ 32 := (wordOf_lt _ _).trans (by norm_num)
  have key := (mem_chunks (p := p) (by norm_num) H.h7 (d := Dig1 (BitVec.ofNat 32 (wordOf 27 (bits7 d))))
    fun i => by have := Dig1_le (BitVec.ofNat 32 (wordOf 27 (bits7 d))) i; omega).2 ⟨1, by norm_num, rfl⟩
  rw [← bigSigma1_word H, ofNat_word hlt] at key
  unfold iter7
  convert key using 2
  · exact val_congr fun j hj => by rw [bits7_digits hd ho hj]
  · exact val_congr fun j hj => by rw [bits7_digits hd ho hj]

/-! ### The tables -/

theorem bound_le (T : ℕ) : bound T T ≤ 2 ^ 32 := Nat.div_mul_le_self _ _

theorem bound_ge {T : ℕ} (h0 : 0 < T) (hT : T ≤ 2 ^ 30) : 2 ^ 30 ≤ bound T T := by
  unfold bound
  have h := Nat.div_add_mod (2 ^ 32) T
  have h1 := Nat.mod_lt (2 ^ 32) h0
  rw [mul_comm] at h
  omega

/-- **C174**: the finished set of the generator of base 4, for every number of threads and every interleaving. -/
theorem table4 (hp : 7 ^ 32 ≤ p) {T : ℕ} (h0 : 0 < T) (hT : T ≤ 2 ^ 30) {s : State}
    (h : Relation.ReflTransGen (Step (iter4 p) T) (init (iter4 p) T) s) (hd : Done T s) :
    (∀ q, q ∈ s.set ↔ Table4 q) ∧ s.set.Nodup := by
  refine ⟨fun q => ?_, (run_inv h).nodup⟩
  rw [done_mem h hd]
  constructor
  · rintro (h1 | ⟨i, hi, h1⟩)
    · exact iter4_sub (large hp) (by norm_num) h1
    · exact iter4_sub (large hp) (hi.trans_le (bound_le T)) h1
  · intro h1
    obtain ⟨i, hi, h2⟩ := iter4_sup (large hp) h1
    exact .inr ⟨i, hi.trans_le (bound_ge h0 hT), h2⟩

/-- **C174**: the same for base 7. -/
theorem table7 (hp : 7 ^ 32 ≤ p) {T : ℕ} (h0 : 0 < T) (hT : T ≤ 2 ^ 30) {s : State}
    (h : Relation.ReflTransGen (Step (iter7 p) T) (init (iter7 p) T) s) (hd : Done T s) :
    (∀ q, q ∈ s.set ↔ Table7 q) ∧ s.set.Nodup := by
  refine ⟨fun q => ?_, (run_inv h).nodup⟩
  rw [done_mem h hd]
  constructor
  · rintro (h1 | ⟨i, hi, h1⟩)
    · exact iter7_sub (large hp) (by norm_num) h1
    · exact iter7_sub (large hp) (hi.trans_le (bound_le T)) h1
  · intro h1
    obtain ⟨i, hi, h2⟩ := iter7_sup (large hp) h1
    exact .inr ⟨i, hi.trans_le (bound_ge h0 hT), h2⟩

/-- **C174**: the rows of the lookup tables of `sha256_process` (C81) are the pairs of the generated sets. -/
theorem table4_lookup {F : Type*} [Field F] (l : List F) :
    reverse4Table F l ↔ ∃ q, Table4 q ∧ l = [(q.1 : F), (q.2 : F)] := by
  constructor
  · rintro ⟨d, hd, rfl⟩
    exact ⟨(_, _), ⟨d, hd, trivial, rfl, rfl⟩, rfl⟩
  · rintro ⟨⟨a, b⟩, ⟨d, hd, -, h1, h2⟩, rfl⟩
    exact ⟨d, hd, by rw [← h1, ← h2]⟩

@[inherit_doc table4_lookup] theorem table7_lookup {F : Type*} [Field F] (l : List F) :
    reverse7Table F l ↔ ∃ q, Table7 q ∧ l = [(q.1 : F), (q.2 : F)] := by
  constructor
  · rintro ⟨d, hd, ho, rfl⟩
    exact ⟨(_, _), ⟨d, hd, ho, rfl, rfl⟩, rfl⟩
  · rintro ⟨⟨a, b⟩, ⟨d, hd, ho, h1, h2⟩, rfl⟩
    exact ⟨d, hd, ho, by rw [← h1, ← h2]⟩

end words

/-- With a number of threads that `static_assert` lets pass and that is no power of two, words are left out; by
`table4` and `table7` the pairs are there all the same. -/
example : ¬ 2 ^ 32 - 1 < bound 6 6 := by decide

/-- The hypotheses are met: six threads over the Pallas base field come to an end. -/
example : ∃ s, Relation.ReflTransGen (Step (iter7 pallasP) 6) (init (iter7 pallasP) 6) s ∧ Done 6 s ∧
    (255, 3 * (1 + 7 + 7 ^ 2 + 7 ^ 3 + 7 ^ 4 + 7 ^ 5 + 7 ^ 6 + 7 ^ 7)) ∈ s.set := by
  obtain ⟨s, h1, h2⟩ := finishes (f := iter7 pallasP) (T := 6) (init (iter7 pallasP) 6)
  refine ⟨s, h1, h2, ((table7 pallas_large (by norm_num) (by norm_num) h1 h2).1 _).2 ?_⟩
  exact ⟨fun _ => 3, fun _ _ => le_rfl, fun j _ => by simp, by decide, by decide⟩

/-- A pair that is in neither table. -/
example : ¬ Table4 (1, 0) := by
  rintro ⟨d, -, -, h1, h2⟩
  simp only [List.range_succ, List.range_zero, List.map_append, List.map_cons, List.map_nil, List.sum_append, List.sum_cons,
    List.sum_nil, List.nil_append] at h1 h2
  omega

end ShaTables
end Verif
