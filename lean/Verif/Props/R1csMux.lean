import Verif.Props.R1csBasic
import Mathlib.Algebra.BigOperators.Group.Finset.Basic
import Mathlib.Algebra.BigOperators.Intervals
import Mathlib.Tactic.NormNum.Prime

/-!
# C86, C87: inner product, multiplexer and lookups with constants (r1cs)
-/

set_option linter.unusedSimpArgs false
set_option linter.unusedSectionVars false

namespace Verif
namespace R1cs

section
variable {p : ℕ} [hp : Fact p.Prime]

/-! ### Inner product -/

/-- Specification: the inner product of the first `m` elements. -/
def dot (s : Asg (ZMod p)) (A B : List (Lc (ZMod p))) (m : ℕ) : ZMod p :=
  ∑ i ∈ Finset.range m, (A.getD i []).eval s * (B.getD i []).eval s

theorem dot_succ (s : Asg (ZMod p)) (A B : List (Lc (ZMod p))) (m : ℕ) :
    dot s A B (m + 1) = dot s A B m + (A.getD m []).eval s * (B.getD m []).eval s := Finset.sum_range_succ _ _

theorem inner_sat_iff (k : InnerProduct (ZMod p)) (s : Asg (ZMod p)) : Sat s k.gates ↔ ∀ i < k.A.length,
    (k.A.getD i []).eval s * (k.B.getD i []).eval s = val s (k.acc i) - if i = 0 then 0 else val s (k.base + (i - 1)) := by
  simp only [InnerProduct.gates, sat_map, List.mem_range, Constraint.Holds, eval_add, eval_var]
  refine forall₂_congr fun i _ => ?_
  split_ifs with h
  · simp
  · simp only [eval_cons, eval_nil, add_zero, neg_mul, one_mul]
    rw [← sub_eq_add_neg]

/-- Every accumulator is the inner product so far. -/
theorem inner_acc (k : InnerProduct (ZMod p)) (s : Asg (ZMod p)) (h : Sat s k.gates) (i : ℕ) (hi : i < k.A.length) :
    val s (k.acc i) = dot s k.A k.B (i + 1) := by
  rw [inner_sat_iff] at h
  induction i with
  | zero =>
    have := h 0 hi
    rw [if_pos rfl, sub_zero] at this
    rw [← this, dot_succ]; simp [dot]
  | succ i ih =>
    have h1 := h (i + 1) hi
    rw [if_neg (Nat.succ_ne_zero i), Nat.add_sub_cancel] at h1
    have h2 := ih (by omega)
    rw [InnerProduct.acc, if_neg (by omega)] at h2
    rw [dot_succ, ← h2, h1]; ring

/-- The result is the inner product. -/
theorem inner_product_sound (k : InnerProduct (ZMod p)) (s : Asg (ZMod p)) (h0 : k.A ≠ []) (h : Sat s k.gates) :
    val s k.result = dot s k.A k.B k.A.length := by
  have hl : 0 < k.A.length := List.length_pos_iff.2 h0
  have := inner_acc k s h (k.A.length - 1) (by omega)
  rwa [InnerProduct.acc, if_pos (by omega), Nat.sub_add_cancel hl] at this

/-- The inputs use neither the result nor variables allocated later. -/
structure InnerProduct.WF (k : InnerProduct (ZMod p)) : Prop where
  res0 : k.result ≠ 0
  res : k.result < k.base
  A : ∀ l ∈ k.A, l.Uses fun i => i < k.base ∧ i ≠ k.result
  B : ∀ l ∈ k.B, l.Uses fun i => i < k.base ∧ i ≠ k.result

theorem getD_uses {L : List (Lc (ZMod p))} {P : ℕ → Prop} (h : ∀ l ∈ L, l.Uses P) (i : ℕ) : (L.getD i []).Uses P := by
  by_cases hi : i < L.length
  · rw [List.getD_eq_getElem _ _ hi]; exact h _ (List.getElem_mem hi)
  · rw [List.getD_eq_default _ _ (not_lt.1 hi)]; intro t ht; cases ht

theorem dot_congr (k : InnerProduct (ZMod p)) (hk : k.WF) {s s' : Asg (ZMod p)} (h : ∀ i, i < k.base → i ≠ k.result → s i = s' i) (m : ℕ) :
    dot s k.A k.B m = dot s' k.A k.B m := by
  apply Finset.sum_congr rfl
  intro i _
  rw [Lc.eval_congr (getD_uses hk.A i) fun j hj => h j hj.1 hj.2, Lc.eval_congr (getD_uses hk.B i) fun j hj => h j hj.1 hj.2]

theorem acc_inj (k : InnerProduct (ZMod p)) (hk : k.WF) {i j : ℕ} (h : k.acc i = k.acc j) : i = j := by
  have := hk.res
  unfold InnerProduct.acc at h
  split_ifs at h <;> omega

theorem acc_old (k : InnerProduct (ZMod p)) {i j : ℕ} (h : j < k.base) (hr : j ≠ k.result) : j ≠ k.acc i := by
  unfold InnerProduct.acc; split_ifs <;> omega

theorem loop_spec (k : InnerProduct (ZMod p)) (hk : k.WF) (m : ℕ) : ∀ (s : Asg (ZMod p)) (i : ℕ),
    (∀ j, (∀ a, i ≤ a → a < i + m → j ≠ k.acc a) → k.loop s (dot s k.A k.B i) i m j = s j) ∧
      ∀ a, i ≤ a → a < i + m → k.loop s (dot s k.A k.B i) i m (k.acc a) = dot s k.A k.B (a + 1) := by
  induction m with
  | zero => intro s i; exact ⟨fun j _ => rfl, fun a h1 h2 => by omega⟩
  | succ m ih =>
    intro s i
    set s' := s.set (k.acc i) (dot s k.A k.B (i + 1)) with hs'
    have hc : ∀ n, dot s' k.A k.B n = dot s k.A k.B n := fun n =>
      dot_congr k hk (fun j h1 h2 => Asg.set_ne s _ (acc_old k h1 h2)) n
    have hl : k.loop s (dot s k.A k.B i) i (m + 1) = k.loop s' (dot s' k.A k.B (i + 1)) (i + 1) m := by
      rw [hc, InnerProduct.loop, ← dot_succ]
    obtain ⟨h1, h2⟩ := ih s' (i + 1)
    rw [hl]
    refine ⟨fun j hj => ?_, fun a ha ha' => ?_⟩
    · rw [h1 j fun a h3 h4 => hj a (by omega) (by omega)]
      exact Asg.set_ne s _ (hj i (le_refl _) (by omega))
    · rcases Nat.eq_or_lt_of_le ha with e | e
      · subst e
        rw [h1 _ fun b h3 h4 e => by have := acc_inj k hk e; omega]
        exact Asg.set_same _ _ _
      · rw [h2 a (by omega) (by omega), hc]

theorem inner_assign_ne (k : InnerProduct (ZMod p)) (hk : k.WF) (s : Asg (ZMod p)) {j : ℕ} (h : j < k.base) (hr : j ≠ k.result) :
    k.assign s j = s j := by
  have := (loop_spec k hk k.A.length s 0).1 j fun a _ _ => acc_old k h hr
  rwa [show dot s k.A k.B 0 = 0 from rfl] at this

theorem inner_assign_acc (k : InnerProduct (ZMod p)) (hk : k.WF) (s : Asg (ZMod p)) {i : ℕ} (h : i < k.A.length) :
    k.assign s (k.acc i) = dot s k.A k.B (i + 1) := by
  have := (loop_spec k hk k.A.length s 0).2 i (Nat.zero_le _) (by omega)
  rwa [show dot s k.A k.B 0 = 0 from rfl] at this

/-- The honest assignment satisfies the inner product constraints. -/
theorem inner_product_complete (k : InnerProduct (ZMod p)) (hk : k.WF) (s : Asg (ZMod p)) : Sat (k.assign s) k.gates := by
  rw [inner_sat_iff]
  intro i hi
  have h0 : ∀ i, k.acc i ≠ 0 := by
    intro i; have := hk.res0; have := hk.res; unfold InnerProduct.acc; split_ifs <;> omega
  have hag : ∀ j, j < k.base ∧ j ≠ k.result → k.assign s j = s j := fun j hj => inner_assign_ne k hk s hj.1 hj.2
  rw [Lc.eval_congr (getD_uses hk.A i) hag, Lc.eval_congr (getD_uses hk.B i) hag, val_pos _ (h0 i), inner_assign_acc k hk s hi]
  split_ifs with h
  · subst h; rw [dot_succ]; simp [dot]
  · have e : k.base + (i - 1) = k.acc (i - 1) := by rw [InnerProduct.acc, if_neg (by omega)]
    rw [e, val_pos _ (h0 _), inner_assign_acc k hk s (by omega), Nat.sub_add_cancel (by omega), dot_succ]
    ring

/-! ### Multiplexer -/

theorem mux_sat_iff (k : Multiplexer (ZMod p)) (s : Asg (ZMod p)) : Sat s k.gates ↔
    (∀ i < k.arr.length, val s (k.base + i) * (val s k.index - (i : ZMod p)) = 0) ∧
      (∑ i ∈ Finset.range k.arr.length, val s (k.base + i)) = val s k.flag ∧ IsBit (val s k.flag) ∧ Sat s k.inner.gates := by
  simp only [Multiplexer.gates, sat_append, sat_cons, sat_nil, and_true, boolean_iff, sat_map, List.mem_range, eval_var]
  rw [and_assoc]
  refine and_congr (forall₂_congr fun i _ => by simp [Constraint.Holds]) ?_
  rw [and_assoc]
  refine and_congr ?_ Iff.rfl
  simp only [Constraint.Holds, eval_map_const, eval_cons, eval_nil, val_zero, one_mul, mul_one, add_zero]
  rw [Multiplexer.alpha, List.map_map, ← List.sum_toFinset _ List.nodup_range, List.toFinset_range]
  rfl

/-- The documentation of the component: an index out of bounds forces the flag to 0, flag 1 makes the result correct, flag 0 makes it 0. -/
theorem multiplexer_sound (k : Multiplexer (ZMod p)) (s : Asg (ZMod p)) (h0 : k.arr ≠ []) (hn : k.arr.length ≤ p) (h : Sat s k.gates) :
    (val s k.flag = 0 ∧ val s k.result = 0) ∨
      (val s k.flag = 1 ∧ ∃ hi : (val s k.index).val < k.arr.length, val s k.result = (k.arr[(val s k.index).val]).eval s) := by
  rw [mux_sat_iff] at h
  obtain ⟨ha, hf, hb, hin⟩ := h
  have hr := inner_product_sound k.inner s (by simpa [Multiplexer.inner, Multiplexer.alpha] using h0) hin
  have hr : val s k.result = ∑ i ∈ Finset.range k.arr.length, val s (k.base + i) * (k.arr.getD i []).eval s := by
    have e : k.inner.A.length = k.arr.length := by simp [Multiplexer.inner, Multiplexer.alpha]
    rw [e] at hr
    rw [show val s k.result = _ from hr]
    apply Finset.sum_congr rfl
    intro i hi
    have hi := Finset.mem_range.1 hi
    have : k.inner.A.getD i [] = Lc.var (k.base + i) := by
      simp [Multiplexer.inner, Multiplexer.alpha, hi]
    rw [this, eval_var]
    rfl
  by_cases hi : (val s k.index).val < k.arr.length
  · have hz : ∀ j < k.arr.length, j ≠ (val s k.index).val → val s (k.base + j) = 0 := by
      intro j hj hne
      rcases mul_eq_zero.1 (ha j hj) with e | e
      · exact e
      · exfalso
        apply hne
        rw [sub_eq_zero.1 e, ZMod.val_natCast_of_lt (lt_of_lt_of_le hj hn)]
    have hsum : val s (k.base + (val s k.index).val) = val s k.flag := by
      rw [← hf, Finset.sum_eq_single_of_mem _ (Finset.mem_range.2 hi)]
      intro j hj hne
      exact hz j (Finset.mem_range.1 hj) hne
    rw [Finset.sum_eq_single_of_mem _ (Finset.mem_range.2 hi) fun j hj hne => by rw [hz j (Finset.mem_range.1 hj) hne, zero_mul], hsum,
      List.getD_eq_getElem _ _ hi] at hr
    rcases hb with e | e
    · left; exact ⟨e, by rw [hr, e, zero_mul]⟩
    · right; exact ⟨e, hi, by rw [hr, e, one_mul]⟩
  · left
    have hz : ∀ j ∈ Finset.range k.arr.length, val s (k.base + j) = 0 := by
      intro j hj
      have hj := Finset.mem_range.1 hj
      rcases mul_eq_zero.1 (ha j hj) with e | e
      · exact e
      · exfalso
        apply hi
        rw [sub_eq_zero.1 e, ZMod.val_natCast_of_lt (lt_of_lt_of_le hj hn)]
        exact hj
    exact ⟨by rw [← hf, Finset.sum_eq_zero hz], by rw [hr, Finset.sum_eq_zero fun j hj => by rw [hz j hj, zero_mul]]⟩

/-- The variables of the multiplexer are different and were allocated before. -/
structure Multiplexer.WF (k : Multiplexer (ZMod p)) : Prop where
  res0 : k.result ≠ 0
  flag0 : k.flag ≠ 0
  ne : k.flag ≠ k.result
  res : k.result < k.base
  flag : k.flag < k.base
  index : k.index < k.base
  iflag : k.index ≠ k.flag
  ires : k.index ≠ k.result
  arr : ∀ l ∈ k.arr, l.Uses fun i => i < k.base ∧ i ≠ k.result ∧ i ≠ k.flag

theorem mux_inner_wf (k : Multiplexer (ZMod p)) (hk : k.WF) : k.inner.WF := by
  have hr := hk.res
  refine ⟨hk.res0, ?_, ?_, ?_⟩
  · show k.result < k.base + k.arr.length; omega
  · intro l hl t ht
    simp only [Multiplexer.inner, Multiplexer.alpha, List.mem_map, List.mem_range] at hl
    obtain ⟨_, ⟨i, hi, rfl⟩, rfl⟩ := hl
    simp only [Lc.var, List.mem_singleton] at ht
    subst ht
    right
    show k.base + i < k.base + k.arr.length ∧ k.base + i ≠ k.result
    omega
  · intro l hl t ht
    rcases hk.arr l hl t ht with h | h
    · exact Or.inl h
    · right
      show t.1 < k.base + k.arr.length ∧ t.1 ≠ k.result
      omega

/-- The writes of the multiplexer before the inner product. -/
theorem mux_setAll (k : Multiplexer (ZMod p)) (s : Asg (ZMod p)) (g : ℕ → ZMod p) :
    (∀ j, j < k.base → s.setAll ((List.range k.arr.length).map fun i => (k.base + i, g i)) j = s j) ∧
      ∀ i < k.arr.length, s.setAll ((List.range k.arr.length).map fun i => (k.base + i, g i)) (k.base + i) = g i := by
  constructor
  · intro j hj
    apply Asg.setAll_ne
    intro t ht
    obtain ⟨i, -, rfl⟩ := List.mem_map.1 ht
    show k.base + i ≠ j
    omega
  · intro i hi
    apply Asg.setAll_mem
    · exact List.mem_map.2 ⟨i, List.mem_range.2 hi, rfl⟩
    · intro t ht e
      obtain ⟨j, -, rfl⟩ := List.mem_map.1 ht
      have : j = i := by simpa using e
      rw [this]

/-- The honest assignment satisfies the constraints and sets the flag if and only if the index is in bounds. -/
theorem multiplexer_complete (k : Multiplexer (ZMod p)) (hk : k.WF) (s : Asg (ZMod p)) (hn : k.arr.length < 2 ^ 64) :
    Sat (k.assign s) k.gates ∧ val (k.assign s) k.index = val s k.index ∧
      val (k.assign s) k.flag = b2f (decide ((val s k.index).val < k.arr.length)) := by
  have hr := hk.res
  have hf := hk.flag
  have hi := hk.index
  have hr0 := hk.res0
  have hf0 := hk.flag0
  have hne := hk.ne
  have hw := mux_inner_wf k hk
  set v := (val s k.index).val with hv
  -- both branches write a unit vector or zero and the flag
  have hform : ∃ (g : ℕ → ZMod p), (∀ i, g i = if v < k.arr.length ∧ i = v then 1 else 0) ∧
      k.assign s = k.inner.assign ((s.setAll ((List.range k.arr.length).map fun i => (k.base + i, g i))).set k.flag
        (b2f (decide (v < k.arr.length)))) := by
    by_cases h : v < k.arr.length
    · refine ⟨fun i => if i = v then 1 else 0, fun i => by simp [h], ?_⟩
      have e : v % 2 ^ 64 = v := Nat.mod_eq_of_lt (by omega)
      unfold Multiplexer.assign
      simp only [← hv]
      rw [e, if_neg (by omega), decide_eq_true h]
      rfl
    · refine ⟨fun i => 0, fun i => by simp [h], ?_⟩
      unfold Multiplexer.assign
      simp only [← hv]
      rw [if_pos (Or.inr (not_lt.1 h)), decide_eq_false h, Multiplexer.alpha, List.map_map]
      rfl
  obtain ⟨g, hg, hasg⟩ := hform
  obtain ⟨m1, m2⟩ := mux_setAll k s g
  set s1 := (s.setAll ((List.range k.arr.length).map fun i => (k.base + i, g i))).set k.flag (b2f (decide (v < k.arr.length))) with hs1
  have hin := inner_product_complete k.inner hw s1
  have hkeep : ∀ j, j < k.base + k.arr.length → j ≠ k.result → val (k.assign s) j = val s1 j := by
    intro j h1 h2
    rw [hasg]
    exact val_congr (inner_assign_ne k.inner hw s1 h1 h2)
  have hfl : val (k.assign s) k.flag = b2f (decide (v < k.arr.length)) := by
    rw [hkeep _ (by omega) hne, hs1, val_set_same _ _ hf0]
  have hidx : val (k.assign s) k.index = val s k.index := by
    rw [hkeep _ (by omega) hk.ires, hs1, val_set_ne _ _ hk.iflag]
    exact val_congr (m1 _ hi)
  have hal : ∀ i < k.arr.length, val (k.assign s) (k.base + i) = g i := by
    intro i hi'
    rw [hkeep _ (by omega) (by omega), hs1, val_set_ne _ _ (by omega), val_pos _ (by omega), m2 i hi']
  refine ⟨?_, hidx, hfl⟩
  rw [mux_sat_iff]
  refine ⟨?_, ?_, by rw [hfl]; exact isBit_b2f _, by rw [hasg]; exact hin⟩
  · intro i hi'
    rw [hal i hi', hidx, hg]
    split_ifs with h
    · rw [h.2, hv, ZMod.natCast_zmod_val]; simp
    · simp
  · rw [hfl]
    rw [Finset.sum_congr rfl fun i hi' => by rw [hal i (Finset.mem_range.1 hi'), hg]]
    by_cases h : v < k.arr.length
    · simp [h]
    · simp [h]

/-! ### Lookups with constants -/

/-- The bit selects one of the two constants; the constraint accepts exactly that value. -/
theorem lookup1_iff (c : ℕ → ZMod p) (bit result : ℕ) (s : Asg (ZMod p)) (b : Bool) (hb : val s bit = b2f b) :
    Sat s (lookup1Gates c bit result) ↔ val s result = c b.toNat := by
  simp only [lookup1Gates, sat_cons, sat_nil, and_true, Constraint.Holds, eval_sub, eval_add, eval_const, eval_cons, eval_nil, eval_var, hb]
  cases b <;> simp [eq_comm]

theorem lookup1_complete (c : ℕ → ZMod p) (bit result : ℕ) (s : Asg (ZMod p)) (b : Bool) (hb : val s bit = b2f b) (h0 : result ≠ 0)
    (hne : bit ≠ result) : Sat (lookup1Assign c bit result s) (lookup1Gates c bit result) := by
  have hv : val (lookup1Assign c bit result s) bit = b2f b := by rw [lookup1Assign, val_set_ne _ _ hne, hb]
  rw [lookup1_iff c bit result _ b hv, lookup1Assign, val_set_same _ _ h0, hb]
  cases b
  · simp
  · simp [ZMod.val_one]

/-- Specification of the signed lookup: two bits select, the third negates. -/
def signed3 (c : ℕ → ZMod p) (b0 b1 b2 : Bool) : ZMod p :=
  let v := c (b0.toNat + 2 * b1.toNat)
  if b2 then -v else v

theorem lookup3_sound (c : ℕ → ZMod p) (b : ℕ → ℕ) (b0b1 result : ℕ) (s : Asg (ZMod p)) (x0 x1 x2 : Bool) (h0 : val s (b 0) = b2f x0)
    (h1 : val s (b 1) = b2f x1) (h2 : val s (b 2) = b2f x2) (h : Sat s (lookup3Gates c b b0b1 result)) :
    val s result = signed3 c x0 x1 x2 ∧ val s b0b1 = b2f (x0 && x1) := by
  simp only [lookup3Gates, sat_cons, sat_nil, and_true, Constraint.Holds, eval_sub, eval_add, eval_const, eval_cons, eval_nil, eval_var, h0, h1, h2,
    val_zero, mul_one, add_zero] at h
  obtain ⟨e1, e2⟩ := h
  rw [← e1] at e2 ⊢
  refine ⟨?_, by cases x0 <;> cases x1 <;> simp⟩
  cases x0 <;> cases x1 <;> cases x2 <;> simp only [b2f_true, b2f_false, mul_one, mul_zero, add_zero, signed3, Bool.toNat_true, Bool.toNat_false, if_true,
    if_false, Bool.false_eq_true, zero_add] at e2 ⊢ <;> linear_combination e2

theorem lookup3_complete (c : ℕ → ZMod p) (b : ℕ → ℕ) (b0b1 result : ℕ) (s : Asg (ZMod p)) (hp8 : 8 ≤ p) (x0 x1 x2 : Bool) (h0 : val s (b 0) = b2f x0)
    (h1 : val s (b 1) = b2f x1) (h2 : val s (b 2) = b2f x2) (hr : result ≠ 0) (hb : b0b1 ≠ 0) (hne : b0b1 ≠ result)
    (hd : ∀ i < 3, b i ≠ b0b1 ∧ b i ≠ result) : Sat (lookup3Assign c b b0b1 result s) (lookup3Gates c b b0b1 result) := by
  have hv : ∀ i < 3, val (lookup3Assign c b b0b1 result s) (b i) = val s (b i) := by
    intro i hi
    rw [lookup3Assign, val_set_ne _ _ (hd i hi).2, val_set_ne _ _ (hd i hi).1]
  have hprod : val (lookup3Assign c b b0b1 result s) b0b1 = b2f x0 * b2f x1 := by
    rw [lookup3Assign, val_set_ne _ _ hne, val_set_same _ _ hb, h0, h1]
  have hi : ((0 + (0 + val s (b 2)) + (0 + (0 + val s (b 2)) + val s (b 1)) + (0 + (0 + val s (b 2)) + (0 + (0 + val s (b 2)) + val s (b 1)) + val s (b 0)) :
      ZMod p)).val = x0.toNat + 2 * x1.toNat + 4 * x2.toNat := by
    have : (0 + (0 + val s (b 2)) + (0 + (0 + val s (b 2)) + val s (b 1)) + (0 + (0 + val s (b 2)) + (0 + (0 + val s (b 2)) + val s (b 1)) + val s (b 0)) :
        ZMod p) = ((x0.toNat + 2 * x1.toNat + 4 * x2.toNat : ℕ) : ZMod p) := by
      rw [h0, h1, h2]
      push_cast
      cases x0 <;> cases x1 <;> cases x2 <;> simp <;> ring
    rw [this, ZMod.val_natCast_of_lt]
    have h3 := Bool.toNat_lt x0
    have h4 := Bool.toNat_lt x1
    have h5 := Bool.toNat_lt x2
    omega
  have hres : val (lookup3Assign c b b0b1 result s) result = signed3 c x0 x1 x2 := by
    rw [lookup3Assign, val_set_same _ _ hr]
    simp only [hi, signed3]
    cases x0 <;> cases x1 <;> cases x2 <;> simp
  simp only [lookup3Gates, sat_cons, sat_nil, and_true, Constraint.Holds, eval_sub, eval_add, eval_const, eval_cons, eval_nil, eval_var, hv 0 (by norm_num),
    hv 1 (by norm_num), hv 2 (by norm_num), h0, h1, h2, val_zero, mul_one, add_zero, hprod, hres, true_and]
  cases x0 <;> cases x1 <;> cases x2 <;> simp only [b2f_true, b2f_false, mul_one, mul_zero, add_zero, signed3, Bool.toNat_true, Bool.toNat_false, if_true,
    if_false, Bool.false_eq_true, zero_add] <;> ring

end

/-! ### Concrete cases -/

section
local instance : Fact (Nat.Prime 101) := ⟨by norm_num⟩

/-- Variables 1 to 3 hold 5, 6, 7; 4 is the index (2), 5 the result, 6 the flag. -/
def mux0 : Multiplexer (ZMod 101) := ⟨[Lc.var 1, Lc.var 2, Lc.var 3], 4, 5, 6, 7⟩
def muxState : Asg (ZMod 101) := fun i => if i = 4 then 2 else (i : ZMod 101) + 4

theorem mux0_wf : mux0.WF :=
  ⟨by decide, by decide, by decide, by decide, by decide, by decide, by decide, by decide, by
    intro l hl t ht
    simp only [mux0, List.mem_cons, List.not_mem_nil, or_false] at hl
    rcases hl with rfl | rfl | rfl <;> (simp only [Lc.var, List.mem_singleton] at ht; subst ht; right; simp [mux0])⟩

example : Sat (mux0.assign muxState) mux0.gates ∧ val (mux0.assign muxState) mux0.flag = 1 := by
  obtain ⟨h1, -, h2⟩ := multiplexer_complete mux0 mux0_wf muxState (by decide)
  exact ⟨h1, by rw [h2]; decide⟩

example : val (mux0.assign muxState) mux0.result = 7 := by
  obtain ⟨h1, -, h2⟩ := multiplexer_complete mux0 mux0_wf muxState (by decide)
  rcases multiplexer_sound mux0 _ (by decide) (by decide) h1 with ⟨h, -⟩ | ⟨-, h, h'⟩
  · rw [h2] at h; exact absurd h (by decide)
  · rw [h']; revert h; decide

/-- The documented looseness: the flag may be 0 although the index is in bounds. -/
example : Sat (fun i => if i = 4 then 2 else if i < 4 then (i : ZMod 101) + 4 else 0) mux0.gates := by
  intro k hk
  simp only [mux0, Multiplexer.gates, Multiplexer.inner, Multiplexer.alpha, InnerProduct.gates, List.length_cons, List.length_nil, List.length_map, List.length_range,
    List.range_succ, List.range_zero, List.map_cons, List.map_nil, List.mem_cons, List.mem_append, List.nil_append, List.cons_append, List.not_mem_nil, or_false] at hk
  rcases hk with rfl | rfl | rfl | rfl | rfl | rfl | rfl | rfl <;> unfold Constraint.Holds <;> decide

/-- Comparison of 3 and 9 with 4 bits: variables 1 and 2 are the inputs, 3 `less`, 4 `less_or_eq`. -/
def cmp0 : Comparison (ZMod 101) := ⟨4, Lc.var 1, Lc.var 2, 3, 4, 5⟩
def cmpState : Asg (ZMod 101) := fun i => if i = 1 then 3 else 9

theorem cmp0_wf : cmp0.WF :=
  ⟨by decide, by decide, by decide, by decide, by decide, by
    intro t ht; simp only [cmp0, Lc.var, List.mem_singleton] at ht; subst ht; right; simp [cmp0], by
    intro t ht; simp only [cmp0, Lc.var, List.mem_singleton] at ht; subst ht; right; simp [cmp0]⟩

example : Sat (cmp0.assign cmpState) cmp0.gates ∧ val (cmp0.assign cmpState) cmp0.less = 1 := by
  obtain ⟨h, hA, hB⟩ := comparison_complete cmp0 cmp0_wf cmpState (by decide) (by decide) (by decide)
  refine ⟨h, ?_⟩
  rw [(comparison_sound cmp0 _ (by decide) (by rw [hA]; decide) (by rw [hB]; decide) h).2, hA, hB]
  decide

/-- Without the bound on the inputs the comparison is wrong: 3 bits in the field of 101 elements, `A = 100`, `B = 0`; `2^3 + 0 - 100 = 9` has the
bits 1001, so `less` is 1 although 100 is not less than 0. -/
theorem comparison_needs_bound : ∃ (k : Comparison (ZMod 101)) (s : Asg (ZMod 101)), 2 ^ (k.n + 1) ≤ 101 ∧ (k.B.eval s).val < 2 ^ k.n ∧ Sat s k.gates ∧
    (k.B.eval s).val < (k.A.eval s).val ∧ val s k.less = 1 := by
  refine ⟨⟨3, Lc.var 1, Lc.var 2, 3, 4, 5⟩, fun i => if i = 1 then 100 else if i = 2 then 0 else if i = 6 ∨ i = 7 then 0 else if i = 8 then 9 else 1, by decide,
    by decide, ?_, by decide, by decide⟩
  simp only [Comparison.gates, List.cons_append, sat_cons, sat_append, sat_nil, and_true, boolean_iff, disjunction_sat_iff]
  refine ⟨Or.inr (by decide), ⟨⟨?_, by unfold Constraint.Holds; decide⟩, by decide, by decide⟩, by unfold Constraint.Holds; decide⟩
  apply packing_complete <;> decide

/-- Three inputs, one of them 1. -/
def or0 : Disjunction := ⟨[1, 2, 3], 4, 5⟩
def and0 : Conjunction := ⟨[1, 2, 3], 4, 5⟩
def bitState : Asg (ZMod 101) := fun i => if i = 2 then 1 else 0

example : Sat (or0.assign bitState) or0.gates ∧ Sat (and0.assign bitState) and0.gates :=
  ⟨disjunction_complete or0 ⟨by decide, by decide, by decide, by decide, by decide⟩ _,
    conjunction_complete and0 ⟨by decide, by decide, by decide, by decide, by decide⟩ _⟩

example : or0.inputs.length < 101 ∧ ∀ i ∈ or0.inputs, IsBit (val (or0.assign bitState) i) := by
  refine ⟨by decide, fun i hi => ?_⟩
  rw [disjunction_assign_ne or0 bitState (fun e => by rw [e] at hi; revert hi; decide) (fun e => by rw [e] at hi; revert hi; decide)]
  simp only [or0, List.mem_cons, List.not_mem_nil, or_false] at hi
  rcases hi with rfl | rfl | rfl
  · exact Or.inl (by decide)
  · exact Or.inr (by decide)
  · exact Or.inl (by decide)

/-- The value 5 in three bits. -/
example : Sat (packAssign [2, 3, 4] (val (fun _ => (5 : ZMod 101)) 1) fun _ => 5) (packGates ([2, 3, 4].map Lc.var) (Lc.var 1) true) :=
  packing_assign_complete [2, 3, 4] (by decide) (by decide) 1 (by decide) _ true (by decide)

example : val (lookup1Assign (fun i => (i : ZMod 101) + 10) 1 2 (fun _ => 1)) 2 = 11 := by decide
example : Sat (lookup3Assign (fun i => (i : ZMod 101) + 10) (fun i => i + 1) 4 5 (fun _ => 1)) (lookup3Gates (fun i => (i : ZMod 101) + 10) (fun i => i + 1) 4 5) :=
  lookup3_complete _ _ 4 5 _ (by norm_num) true true true (by decide) (by decide) (by decide) (by decide) (by decide) (by decide)
    (by intro i hi; constructor <;> omega)

end

end R1cs
end Verif
