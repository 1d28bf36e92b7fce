import Verif.Model.R1csBasic
import Mathlib.Tactic.IntervalCases
import Mathlib.Data.Nat.Bitwise

/-!
# C84, C85: boolean r1cs components
-/

set_option linter.unusedSimpArgs false
set_option linter.unusedSectionVars false

namespace Verif
namespace R1cs

section
variable {p : ℕ} [hp : Fact p.Prime]

/-- A truth value as a field element. -/
def b2f (b : Bool) : ZMod p := if b then 1 else 0

/-- A field element is 0 or 1. -/
def IsBit (x : ZMod p) : Prop := x = 0 ∨ x = 1

theorem isBit_b2f (b : Bool) : IsBit (b2f b : ZMod p) := by cases b <;> simp [b2f, IsBit]

theorem IsBit.eq_b2f {x : ZMod p} (h : IsBit x) : x = b2f (decide (x = 1)) := by
  rcases h with h | h <;> simp [h, b2f]

theorem b2f_inj {a b : Bool} (h : (b2f a : ZMod p) = b2f b) : a = b := by
  cases a <;> cases b <;> simp [b2f] at h ⊢

@[simp] theorem b2f_true : (b2f true : ZMod p) = 1 := rfl
@[simp] theorem b2f_false : (b2f false : ZMod p) = 0 := rfl

theorem boolean_iff (s : Asg (ZMod p)) (l : Lc (ZMod p)) : (boolean l).Holds s ↔ IsBit (l.eval s) := by
  simp only [Constraint.Holds, boolean, eval_sub, eval_const, IsBit, mul_eq_zero, sub_eq_zero]
  exact or_congr Iff.rfl eq_comm

/-- The sum of a list of bits is the number of ones. -/
theorem sum_bits {l : List (ZMod p)} (h : ∀ x ∈ l, IsBit x) : l.sum = ((l.countP (· = 1) : ℕ) : ZMod p) := by
  induction l with
  | nil => simp
  | cons x l ih =>
    rw [List.sum_cons, ih fun y hy => h y (List.mem_cons_of_mem _ hy), List.countP_cons]
    rcases h x List.mem_cons_self with e | e <;> simp [e, add_comm]

theorem natCast_eq_zero_iff_of_lt {n : ℕ} (h : n < p) : (n : ZMod p) = 0 ↔ n = 0 := by
  rw [ZMod.natCast_eq_zero_iff]
  exact ⟨fun hd => Nat.eq_zero_of_dvd_of_lt hd h, fun e => e ▸ dvd_zero _⟩

theorem foldl_add (s : Asg (ZMod p)) (l : List ℕ) (x : ZMod p) : l.foldl (fun x i => x + val s i) x = x + (l.map (val s)).sum := by
  induction l generalizing x with
  | nil => simp
  | cons i l ih => rw [List.foldl_cons, ih, List.map_cons, List.sum_cons]; ring

theorem foldl_sub (s : Asg (ZMod p)) (l : List ℕ) (x : ZMod p) : l.foldl (fun x i => x - val s i) x = x - (l.map (val s)).sum := by
  induction l generalizing x with
  | nil => simp
  | cons i l ih => rw [List.foldl_cons, ih, List.map_cons, List.sum_cons]; ring

/-- The disjunction constraints in terms of values. -/
theorem disjunction_sat_iff (k : Disjunction) (s : Asg (ZMod p)) : Sat s k.gates ↔
    val s k.inv * (k.inputs.map (val s)).sum = val s k.output ∧ (1 - val s k.output) * (k.inputs.map (val s)).sum = 0 := by
  simp only [Disjunction.gates, sat_cons, sat_nil, Constraint.Holds, eval_cons, eval_nil, eval_map_const, and_true, one_mul, add_zero, zero_mul, val_zero,
    mul_one]
  rw [show (1 : ZMod p) + -1 * val s k.output = 1 - val s k.output by ring]

theorem conjunction_sat_iff (k : Conjunction) (s : Asg (ZMod p)) : Sat s k.gates ↔
    val s k.inv * ((k.inputs.length : ZMod p) - (k.inputs.map (val s)).sum) = 1 - val s k.output ∧
      val s k.output * ((k.inputs.length : ZMod p) - (k.inputs.map (val s)).sum) = 0 := by
  simp only [Conjunction.gates, sat_cons, sat_nil, Constraint.Holds, eval_cons, eval_nil, eval_map_const, and_true, one_mul, add_zero, zero_mul, val_zero,
    mul_one]
  rw [show (1 : ZMod p) + -1 * val s k.output = 1 - val s k.output by ring,
    show (k.inputs.length : ZMod p) + -1 * (k.inputs.map (val s)).sum = (k.inputs.length : ZMod p) - (k.inputs.map (val s)).sum by ring]

theorem sum_zero_iff {s : Asg (ZMod p)} {l : List ℕ} (hn : l.length < p) (hb : ∀ i ∈ l, IsBit (val s i)) :
    (l.map (val s)).sum = 0 ↔ ¬ ∃ i ∈ l, val s i = 1 := by
  rw [sum_bits (by simpa using hb), natCast_eq_zero_iff_of_lt (lt_of_le_of_lt List.countP_le_length (by simpa using hn)), List.countP_eq_zero]
  simp

theorem sum_length_iff {s : Asg (ZMod p)} {l : List ℕ} (hn : l.length < p) (hb : ∀ i ∈ l, IsBit (val s i)) :
    (l.length : ZMod p) - (l.map (val s)).sum = 0 ↔ ∀ i ∈ l, val s i = 1 := by
  have hle : (l.map (val s)).countP (· = 1) ≤ l.length := by
    simpa using (List.countP_le_length (l := l.map (val s)) (p := fun x => decide (x = 1)))
  rw [sum_bits (by simpa using hb), ← Nat.cast_sub hle, natCast_eq_zero_iff_of_lt (lt_of_le_of_lt (Nat.sub_le _ _) hn)]
  have : l.length - (l.map (val s)).countP (· = 1) = 0 ↔ (l.map (val s)).countP (· = 1) = (l.map (val s)).length := by
    rw [List.length_map]; omega
  rw [this, List.countP_eq_length]
  simp

open Classical in
/-- The disjunction of bits: the output is 1 if some input is 1, and 0 otherwise. -/
theorem disjunction_sound (k : Disjunction) (s : Asg (ZMod p)) (hn : k.inputs.length < p) (hb : ∀ i ∈ k.inputs, IsBit (val s i))
    (h : Sat s k.gates) : val s k.output = b2f (decide (∃ i ∈ k.inputs, val s i = 1)) := by
  rw [disjunction_sat_iff] at h
  obtain ⟨h1, h2⟩ := h
  have key := sum_zero_iff hn hb
  by_cases hx : ∃ i ∈ k.inputs, val s i = 1
  · rw [decide_eq_true hx]
    have : (k.inputs.map (val s)).sum ≠ 0 := fun e => (key.1 e) hx
    rcases mul_eq_zero.1 h2 with e | e
    · exact (sub_eq_zero.1 e).symm
    · exact absurd e this
  · rw [decide_eq_false hx, ← h1, key.2 hx, mul_zero]; rfl

open Classical in
/-- The conjunction of bits: the output is 1 if all inputs are 1, and 0 otherwise. -/
theorem conjunction_sound (k : Conjunction) (s : Asg (ZMod p)) (hn : k.inputs.length < p) (hb : ∀ i ∈ k.inputs, IsBit (val s i))
    (h : Sat s k.gates) : val s k.output = b2f (decide (∀ i ∈ k.inputs, val s i = 1)) := by
  rw [conjunction_sat_iff] at h
  obtain ⟨h1, h2⟩ := h
  have key := sum_length_iff hn hb
  by_cases hx : ∀ i ∈ k.inputs, val s i = 1
  · rw [decide_eq_true hx]
    rw [key.2 hx, mul_zero] at h1
    exact (sub_eq_zero.1 h1.symm).symm
  · rw [decide_eq_false hx]
    rcases mul_eq_zero.1 h2 with e | e
    · exact e
    · exact absurd (key.1 e) hx

/-- The variables of a disjunction are different. -/
structure Disjunction.WF (k : Disjunction) : Prop where
  inv0 : k.inv ≠ 0
  out0 : k.output ≠ 0
  ne : k.inv ≠ k.output
  inv : k.inv ∉ k.inputs
  out : k.output ∉ k.inputs

/-- The variables of a conjunction are different. -/
structure Conjunction.WF (k : Conjunction) : Prop where
  inv0 : k.inv ≠ 0
  out0 : k.output ≠ 0
  ne : k.inv ≠ k.output
  inv : k.inv ∉ k.inputs
  out : k.output ∉ k.inputs

theorem map_val_set {s : Asg (ZMod p)} {l : List ℕ} {i : ℕ} (v : ZMod p) (h : i ∉ l) : l.map (val (s.set i v)) = l.map (val s) := by
  apply List.map_congr_left
  intro j hj
  exact val_set_ne s v fun e => h (e ▸ hj)

/-- The assignment of a disjunction writes two variables. -/
theorem disjunction_assign_ne (k : Disjunction) (s : Asg (ZMod p)) {i : ℕ} (h1 : i ≠ k.inv) (h2 : i ≠ k.output) : val (k.assign s) i = val s i := by
  unfold Disjunction.assign
  simp only
  split_ifs <;> rw [val_set_ne _ _ h2, val_set_ne _ _ h1]

/-- The honest assignment satisfies the disjunction constraints, whatever the inputs. -/
theorem disjunction_complete (k : Disjunction) (hk : k.WF) (s : Asg (ZMod p)) : Sat (k.assign s) k.gates := by
  rw [disjunction_sat_iff]
  have hm : k.inputs.map (val (k.assign s)) = k.inputs.map (val s) := by
    apply List.map_congr_left
    intro j hj
    exact disjunction_assign_ne k s (fun e => hk.inv (e ▸ hj)) (fun e => hk.out (e ▸ hj))
  rw [hm]
  unfold Disjunction.assign
  simp only [foldl_add, zero_add]
  split_ifs with h
  · rw [val_set_ne _ _ hk.ne, val_set_same _ _ hk.out0, val_set_same _ _ hk.inv0, h]; simp
  · rw [val_set_ne _ _ hk.ne, val_set_same _ _ hk.out0, val_set_same _ _ hk.inv0, inv_mul_cancel₀ h]; simp

theorem conjunction_assign_ne (k : Conjunction) (s : Asg (ZMod p)) {i : ℕ} (h1 : i ≠ k.inv) (h2 : i ≠ k.output) : val (k.assign s) i = val s i := by
  unfold Conjunction.assign
  simp only
  split_ifs <;> rw [val_set_ne _ _ h2, val_set_ne _ _ h1]

/-- The honest assignment satisfies the conjunction constraints, whatever the inputs. -/
theorem conjunction_complete (k : Conjunction) (hk : k.WF) (s : Asg (ZMod p)) : Sat (k.assign s) k.gates := by
  rw [conjunction_sat_iff]
  have hm : k.inputs.map (val (k.assign s)) = k.inputs.map (val s) := by
    apply List.map_congr_left
    intro j hj
    exact conjunction_assign_ne k s (fun e => hk.inv (e ▸ hj)) (fun e => hk.out (e ▸ hj))
  rw [hm]
  unfold Conjunction.assign
  simp only [foldl_sub]
  split_ifs with h
  · rw [val_set_ne _ _ hk.ne, val_set_same _ _ hk.out0, val_set_same _ _ hk.inv0, h]; simp
  · rw [val_set_ne _ _ hk.ne, val_set_same _ _ hk.out0, val_set_same _ _ hk.inv0, inv_mul_cancel₀ h]; simp

/-- With as many inputs as the characteristic the disjunction of ones is 0: the bound on the number of inputs is needed. -/
theorem disjunction_wraps (k : Disjunction) (s : Asg (ZMod p)) (hn : k.inputs.length = p) (hb : ∀ i ∈ k.inputs, val s i = 1)
    (h : Sat s k.gates) : val s k.output = 0 := by
  rw [disjunction_sat_iff] at h
  have e : (k.inputs.map (val s)).sum = 0 := by
    rw [List.map_congr_left hb, List.map_const', List.sum_replicate, hn]
    simp
  rw [← h.1, e, mul_zero]

/-! ### Packing -/

/-- Specification: the number with given bits, least significant first. -/
def bnat : List Bool → ℕ
  | [] => 0
  | b :: l => b.toNat + 2 * bnat l

theorem bnat_lt (l : List Bool) : bnat l < 2 ^ l.length := by
  induction l with
  | nil => simp [bnat]
  | cons b l ih =>
    rw [bnat, List.length_cons, pow_succ]
    cases b <;> simp <;> omega

theorem bnat_append (l : List Bool) (b : Bool) : bnat (l ++ [b]) = bnat l + 2 ^ l.length * b.toNat := by
  induction l with
  | nil => simp [bnat]
  | cons c l ih => rw [List.cons_append, bnat, ih, bnat, List.length_cons, pow_succ]; ring

theorem bnat_testBit (l : List Bool) (i : ℕ) : (bnat l).testBit i = l.getD i false := by
  induction l generalizing i with
  | nil => simp [bnat]
  | cons b l ih =>
    cases i with
    | zero => simp [bnat, Nat.testBit_zero]; cases b <;> simp
    | succ i =>
      rw [Nat.testBit_succ, List.getD_cons_succ, ← ih, bnat]
      congr 1
      cases b <;> simp <;> omega

theorem bnat_zero_iff (l : List Bool) : bnat l = 0 ↔ ¬ ∃ b ∈ l, b = true := by
  induction l with
  | nil => simp [bnat]
  | cons b l ih =>
    rw [bnat]
    cases b
    · simpa using ih
    · simp

/-- Bits of a number. -/
theorem bnat_bits (x n : ℕ) (h : x < 2 ^ n) : bnat ((List.range n).map x.testBit) = x := by
  apply Nat.eq_of_testBit_eq
  intro i
  rw [bnat_testBit]
  by_cases hi : i < n
  · simp [List.getD, hi]
  · rw [Nat.testBit_eq_false_of_lt (lt_of_lt_of_le h (Nat.pow_le_pow_right (by norm_num) (not_lt.1 hi)))]
    simp [List.getD, hi]

theorem eval_packSum (s : Asg (ZMod p)) (w : ZMod p) (l : List (Lc (ZMod p))) (bs : List Bool) (h : l.map (Lc.eval s) = bs.map b2f) :
    (packSum w l).eval s = w * ((bnat bs : ℕ) : ZMod p) := by
  induction l generalizing w bs with
  | nil =>
    have : bs = [] := by simpa using h.symm
    subst this; simp [packSum, bnat]
  | cons a l ih =>
    match bs, h with
    | b :: bs, h =>
      rw [List.map_cons, List.map_cons, List.cons.injEq] at h
      rw [packSum, eval_append, eval_smul, ih _ bs h.2, h.1, bnat]
      cases b <;> simp [b2f] <;> ring

theorem bits_exist {l : List (ZMod p)} (h : ∀ x ∈ l, IsBit x) : ∃ bs : List Bool, l = bs.map b2f := by
  refine ⟨l.map fun x => decide (x = 1), ?_⟩
  rw [List.map_map]
  conv_lhs => rw [← List.map_id l]
  apply List.map_congr_left
  intro x hx
  exact (h x hx).eq_b2f

/-- Packing with enforced bitness: the bits are the binary digits of the packed value, which has no more bits than there are variables. -/
theorem packing_sound (bits : List (Lc (ZMod p))) (packed : Lc (ZMod p)) (s : Asg (ZMod p)) (hn : 2 ^ bits.length ≤ p)
    (h : Sat s (packGates bits packed true)) :
    (packed.eval s).val < 2 ^ bits.length ∧ bits.map (Lc.eval s) = (List.range bits.length).map fun i => b2f ((packed.eval s).val.testBit i) := by
  simp only [packGates, if_true, sat_cons, sat_map, boolean_iff] at h
  obtain ⟨h1, h2⟩ := h
  simp only [Constraint.Holds, eval_const, one_mul] at h1
  obtain ⟨bs, hbs⟩ := bits_exist (l := bits.map (Lc.eval s)) (by simpa using h2)
  have hl : bs.length = bits.length := by simpa using (congrArg List.length hbs).symm
  rw [eval_packSum s 1 bits bs hbs, one_mul] at h1
  have hlt := bnat_lt bs
  rw [hl] at hlt
  have hv : (packed.eval s).val = bnat bs := by rw [← h1, ZMod.val_natCast_of_lt (lt_of_lt_of_le hlt hn)]
  refine ⟨by rw [hv]; exact hlt, ?_⟩
  rw [hbs, hv, ← hl]
  apply List.ext_getElem (by simp)
  intro i h1 h2
  have hi : i < bs.length := by simpa using h1
  simp only [List.getElem_map, List.getElem_range, bnat_testBit, List.getD_eq_getElem bs false hi]

/-- Packing is complete: bits of a number that fits satisfy the constraints. -/
theorem packing_complete (bits : List (Lc (ZMod p))) (packed : Lc (ZMod p)) (s : Asg (ZMod p)) (e : Bool)
    (hx : (packed.eval s).val < 2 ^ bits.length)
    (h : bits.map (Lc.eval s) = (List.range bits.length).map fun i => b2f ((packed.eval s).val.testBit i)) :
    Sat s (packGates bits packed e) := by
  have h1 : (packSum 1 bits).eval s = packed.eval s := by
    rw [eval_packSum s 1 bits ((List.range bits.length).map (packed.eval s).val.testBit) (by rw [h, List.map_map]; rfl), bnat_bits _ _ hx, one_mul,
      ZMod.natCast_zmod_val]
  unfold packGates
  rw [sat_cons]
  refine ⟨by simpa [Constraint.Holds] using h1, ?_⟩
  cases e
  · simp
  · simp only [if_true, sat_map, boolean_iff]
    intro l hl
    have : l.eval s ∈ bits.map (Lc.eval s) := List.mem_map_of_mem hl
    rw [h] at this
    obtain ⟨i, -, hi⟩ := List.mem_map.1 this
    rw [← hi]
    exact isBit_b2f _

/-! ### Comparison -/

theorem pow_lt_of {n : ℕ} (h : 2 ^ (n + 1) ≤ p) : n < p :=
  lt_of_lt_of_le (lt_of_lt_of_le Nat.lt_two_pow_self (Nat.pow_le_pow_right (by norm_num) (Nat.le_succ n))) h

/-- What is compared: `2^n + B - A` as a number. -/
theorem diff_val {n : ℕ} (hp' : 2 ^ (n + 1) ≤ p) {a b : ZMod p} (ha : a.val < 2 ^ n) (hb : b.val < 2 ^ n) :
    ((2 : ZMod p) ^ n + b - a).val = 2 ^ n + b.val - a.val := by
  have e : (2 : ZMod p) ^ n + b - a = ((2 ^ n + b.val - a.val : ℕ) : ZMod p) := by
    rw [Nat.cast_sub (by omega)]; simp
  rw [e, ZMod.val_natCast_of_lt]
  rw [pow_succ] at hp'
  omega

theorem top_bit {n x : ℕ} (h : x < 2 ^ (n + 1)) : x.testBit n = decide (2 ^ n ≤ x) := by
  by_cases hx : 2 ^ n ≤ x
  · rw [decide_eq_true hx, Nat.testBit_eq_decide_div_mod_eq]
    have : x / 2 ^ n = 1 := by
      apply Nat.div_eq_of_lt_le
      · omega
      · rw [pow_succ] at h; omega
    rw [this]; rfl
  · rw [decide_eq_false hx]; exact Nat.testBit_eq_false_of_lt (not_le.1 hx)

theorem low_bits {n x : ℕ} : (∃ i < n, x.testBit i = true) ↔ x % 2 ^ n ≠ 0 := by
  constructor
  · rintro ⟨i, hi, h⟩ e
    have := congrArg (fun y => Nat.testBit y i) e
    simp [Nat.testBit_mod_two_pow, hi, h] at this
  · intro h
    obtain ⟨i, hi⟩ := Nat.exists_testBit_of_ne_zero h
    rw [Nat.testBit_mod_two_pow] at hi
    simp at hi
    exact ⟨i, hi.1, hi.2⟩

/-- What the two outputs must be. -/
theorem compare_spec {n a b : ℕ} (ha : a < 2 ^ n) (hb : b < 2 ^ n) :
    (2 ^ n + b - a).testBit n = decide (a ≤ b) ∧ ((2 ^ n + b - a).testBit n && decide ((2 ^ n + b - a) % 2 ^ n ≠ 0)) = decide (a < b) := by
  have hlt : 2 ^ n + b - a < 2 ^ (n + 1) := by rw [pow_succ]; omega
  have e1 : (2 ^ n + b - a).testBit n = decide (a ≤ b) := by
    rw [top_bit hlt]; apply decide_eq_decide.2; omega
  refine ⟨e1, ?_⟩
  rw [e1]
  by_cases h : a ≤ b
  · have : (2 ^ n + b - a) % 2 ^ n = b - a := by
      rw [Nat.add_sub_assoc h, Nat.add_mod_left, Nat.mod_eq_of_lt (by omega)]
    rw [this, decide_eq_true h, Bool.true_and]
    apply decide_eq_decide.2; omega
  · rw [decide_eq_false h, Bool.false_and, eq_comm, decide_eq_false_iff_not]; omega

theorem map_var_eval (s : Asg (ZMod p)) (l : List ℕ) : (l.map (Lc.var (F := ZMod p))).map (Lc.eval s) = l.map (val s) := by
  rw [List.map_map]; exact List.map_congr_left fun i _ => eval_var s i

/-- Comparison of two `n`-bit numbers: `less_or_eq` and `less` are what their names say. -/
theorem comparison_sound (k : Comparison (ZMod p)) (s : Asg (ZMod p)) (hn : 2 ^ (k.n + 1) ≤ p) (hA : (k.A.eval s).val < 2 ^ k.n)
    (hB : (k.B.eval s).val < 2 ^ k.n) (h : Sat s k.gates) :
    val s k.lessOrEq = b2f (decide ((k.A.eval s).val ≤ (k.B.eval s).val)) ∧ val s k.less = b2f (decide ((k.A.eval s).val < (k.B.eval s).val)) := by
  simp only [Comparison.gates, List.cons_append, sat_cons, sat_append, sat_nil, and_true] at h
  obtain ⟨-, ⟨⟨hpk, hd⟩, hz⟩, hl⟩ := h
  simp only [Constraint.Holds, eval_const, eval_sub, eval_add, eval_var, one_mul] at hd hl
  obtain ⟨hlt, hbits⟩ := packing_sound _ _ s (by simpa [Comparison.alpha] using hn) hpk
  have hlen : ((k.alpha ++ [k.lessOrEq]).map (Lc.var (F := ZMod p))).length = k.n + 1 := by simp [Comparison.alpha]
  rw [hlen] at hlt hbits
  rw [map_var_eval, eval_var, ← hd, diff_val hn hA hB, List.range_succ, List.map_append, List.map_append, Comparison.alpha, List.map_map] at hbits
  obtain ⟨hb1, hb2⟩ := List.append_inj hbits (by simp)
  simp only [List.map_cons, List.map_nil, List.cons.injEq, and_true] at hb2
  have hal : ∀ i < k.n, val s (k.base + i) = b2f ((2 ^ k.n + (k.B.eval s).val - (k.A.eval s).val).testBit i) := by
    intro i hi
    have := congrArg (fun l => l[i]?) hb1
    simpa [hi] using this
  classical
  have hor := disjunction_sound k.zeroTest s (by simpa [Comparison.zeroTest, Comparison.alpha] using pow_lt_of hn)
    (by
      intro i hi
      simp only [Comparison.zeroTest, Comparison.alpha, List.mem_map, List.mem_range] at hi
      obtain ⟨j, hj, rfl⟩ := hi
      rw [hal j hj]; exact isBit_b2f _) hz
  have hex : (∃ i ∈ k.zeroTest.inputs, val s i = 1) ↔ (2 ^ k.n + (k.B.eval s).val - (k.A.eval s).val) % 2 ^ k.n ≠ 0 := by
    rw [← low_bits]
    simp only [Comparison.zeroTest, Comparison.alpha, List.mem_map, List.mem_range]
    constructor
    · rintro ⟨-, ⟨i, hi, rfl⟩, h⟩
      rw [hal i hi] at h
      exact ⟨i, hi, b2f_inj (p := p) (by rw [h]; rfl)⟩
    · rintro ⟨i, hi, h⟩
      exact ⟨_, ⟨i, hi, rfl⟩, by rw [hal i hi, h]; rfl⟩
  obtain ⟨c1, c2⟩ := compare_spec hA hB
  refine ⟨by rw [hb2, c1], ?_⟩
  have hdec : decide (∃ i ∈ k.zeroTest.inputs, val s i = 1) = decide ((2 ^ k.n + (k.B.eval s).val - (k.A.eval s).val) % 2 ^ k.n ≠ 0) :=
    decide_eq_decide.2 hex
  rw [← hl, hb2, show val s k.notAllZeros = _ from hor, ← c2, hdec]
  cases (2 ^ k.n + (k.B.eval s).val - (k.A.eval s).val).testBit k.n <;> simp

/-- Only variables before `base` and different from the outputs are used by the inputs. -/
structure Comparison.WF (k : Comparison (ZMod p)) : Prop where
  less0 : k.less ≠ 0
  le0 : k.lessOrEq ≠ 0
  ne : k.less ≠ k.lessOrEq
  less : k.less < k.base
  le : k.lessOrEq < k.base
  A : k.A.Uses fun i => i < k.base ∧ i ≠ k.less ∧ i ≠ k.lessOrEq
  B : k.B.Uses fun i => i < k.base ∧ i ≠ k.less ∧ i ≠ k.lessOrEq

theorem packAssign_ne (bits : List ℕ) (x : ZMod p) (s : Asg (ZMod p)) {j : ℕ} (h : j ∉ bits) : packAssign bits x s j = s j := by
  apply Asg.setAll_ne
  intro t ht e
  obtain ⟨i, hi, rfl⟩ := List.mem_map.1 ht
  apply h
  rw [← e]
  have hi := List.mem_range.1 hi
  simp only [List.getD_eq_getElem bits 0 hi]
  exact List.getElem_mem hi

theorem packAssign_get (bits : List ℕ) (hd : bits.Nodup) (x : ZMod p) (s : Asg (ZMod p)) {i : ℕ} (h : i < bits.length) :
    packAssign bits x s bits[i] = b2f (x.val.testBit i) := by
  apply Asg.setAll_mem
  · apply List.mem_map.2
    exact ⟨i, List.mem_range.2 h, by simp only [List.getD_eq_getElem bits 0 h]; rfl⟩
  · intro t ht e
    obtain ⟨j, hj, rfl⟩ := List.mem_map.1 ht
    have hj := List.mem_range.1 hj
    simp only [List.getD_eq_getElem bits 0 hj] at e
    have := (List.Nodup.getElem_inj_iff hd).1 e
    subst this; rfl

/-- Unpacking a value that fits gives bits which satisfy the constraints. -/
theorem packing_assign_complete (bits : List ℕ) (hd : bits.Nodup) (h0 : 0 ∉ bits) (packed : ℕ) (hpk : packed ∉ bits) (s : Asg (ZMod p)) (e : Bool)
    (hx : (val s packed).val < 2 ^ bits.length) :
    Sat (packAssign bits (val s packed) s) (packGates (bits.map Lc.var) (Lc.var packed) e) := by
  have hv : val (packAssign bits (val s packed) s) packed = val s packed := val_congr (packAssign_ne _ _ _ hpk)
  apply packing_complete
  · rw [eval_var, hv, List.length_map]; exact hx
  · rw [eval_var, hv, List.length_map, map_var_eval]
    apply List.ext_getElem (by simp)
    intro i h1 h2
    have hi : i < bits.length := by simpa using h1
    rw [List.getElem_map, List.getElem_map, List.getElem_range, val_pos _ fun e => h0 (e ▸ List.getElem_mem hi), packAssign_get bits hd _ _ hi]

/-- The honest assignment of the comparison satisfies the constraints. -/
theorem comparison_complete (k : Comparison (ZMod p)) (hk : k.WF) (s : Asg (ZMod p)) (hn : 2 ^ (k.n + 1) ≤ p) (hA : (k.A.eval s).val < 2 ^ k.n)
    (hB : (k.B.eval s).val < 2 ^ k.n) :
    Sat (k.assign s) k.gates ∧ k.A.eval (k.assign s) = k.A.eval s ∧ k.B.eval (k.assign s) = k.B.eval s := by
  have hl := hk.less
  have hle := hk.le
  have hl0 := hk.less0
  have hle0 := hk.le0
  have hne := hk.ne
  set x : ZMod p := 2 ^ k.n + k.B.eval s - k.A.eval s with hx
  set s1 := s.set k.packed x with hs1
  set s2 := packAssign (k.alpha ++ [k.lessOrEq]) (val s1 k.packed) s1 with hs2
  set s3 := k.zeroTest.assign s2 with hs3
  have hs4 : k.assign s = s3.set k.less (val s3 k.lessOrEq * val s3 k.notAllZeros) := rfl
  have hmem : ∀ j, j ∈ k.alpha ++ [k.lessOrEq] ↔ (k.base ≤ j ∧ j < k.base + k.n) ∨ j = k.lessOrEq := by
    intro j
    simp only [Comparison.alpha, List.mem_append, List.mem_map, List.mem_range, List.mem_singleton]
    refine or_congr ⟨?_, fun h => ⟨j - k.base, by omega, by omega⟩⟩ Iff.rfl
    rintro ⟨i, hi, rfl⟩; omega
  have hpk : val s1 k.packed = x := val_set_same _ _ (by unfold Comparison.packed; omega)
  have e3 : ∀ j, j ≠ k.notAllZeros → j ≠ k.base + k.n + 2 → val s3 j = val s2 j := fun j h1 h2 => disjunction_assign_ne k.zeroTest s2 h2 h1
  have e4 : ∀ j, j ≠ k.less → val (k.assign s) j = val s3 j := fun j h => by rw [hs4, val_set_ne _ _ h]
  have e2 : ∀ j, ¬ ((k.base ≤ j ∧ j < k.base + k.n) ∨ j = k.lessOrEq) → val s2 j = val s1 j := fun j h =>
    val_congr (packAssign_ne _ _ _ fun hm => h ((hmem j).1 hm))
  have e0 : ∀ j, j < k.base → j ≠ k.less → j ≠ k.lessOrEq → val (k.assign s) j = val s j := by
    intro j h1 h2 h3
    rw [e4 j h2, e3 j (by unfold Comparison.notAllZeros; omega) (by omega), e2 j (by omega), hs1, val_set_ne _ _ (by unfold Comparison.packed; omega)]
  have hcong : ∀ l : Lc (ZMod p), l.Uses (fun i => i < k.base ∧ i ≠ k.less ∧ i ≠ k.lessOrEq) → l.eval (k.assign s) = l.eval s := by
    intro l hl
    induction l with
    | nil => rfl
    | cons t l ih =>
      rw [eval_cons, eval_cons, ih fun u hu => hl u (List.mem_cons_of_mem _ hu)]
      rcases hl t List.mem_cons_self with h0 | h0
      · rw [h0]; rfl
      · rw [e0 _ h0.1 h0.2.1 h0.2.2]
  refine ⟨?_, hcong _ hk.A, hcong _ hk.B⟩
  have hxv : x.val = 2 ^ k.n + (k.B.eval s).val - (k.A.eval s).val := diff_val hn hA hB
  have hlen : (k.alpha ++ [k.lessOrEq]).length = k.n + 1 := by simp [Comparison.alpha]
  -- the packing constraints hold after the unpacking and the later writes do not touch them
  have hsat2 : Sat s2 (packGates ((k.alpha ++ [k.lessOrEq]).map Lc.var) (Lc.var k.packed) true) := by
    apply packing_assign_complete
    · rw [List.nodup_append]
      refine ⟨?_, by simp, ?_⟩
      · exact List.Nodup.map (fun a b h => by simpa using h) List.nodup_range
      · intro a ha b hb
        simp only [Comparison.alpha, List.mem_map, List.mem_range, List.mem_singleton] at ha hb
        obtain ⟨i, hi, rfl⟩ := ha
        omega
    · intro h; have := (hmem 0).1 h; omega
    · intro h; have := (hmem _).1 h; unfold Comparison.packed at this; omega
    · rw [hpk, hxv, hlen, pow_succ]; omega
  have hpk4 : val (k.assign s) k.packed = x := by
    rw [e4 _ (by unfold Comparison.packed; omega), e3 _ (by unfold Comparison.notAllZeros Comparison.packed; omega) (by unfold Comparison.packed; omega),
      e2 _ (by unfold Comparison.packed; omega), hpk]
  have hpk2 : val s2 k.packed = x := by rw [e2 _ (by unfold Comparison.packed; omega), hpk]
  have e42 : ∀ j ∈ k.alpha ++ [k.lessOrEq], val (k.assign s) j = val s2 j := by
    intro j hj
    have := (hmem j).1 hj
    rw [e4 j (by omega), e3 j (by unfold Comparison.notAllZeros; omega) (by omega)]
  have hpack : Sat (k.assign s) (packGates ((k.alpha ++ [k.lessOrEq]).map Lc.var) (Lc.var k.packed) true) := by
    obtain ⟨g1, g2⟩ := packing_sound _ _ s2 (by rw [List.length_map, hlen]; exact hn) hsat2
    have hm : (k.alpha ++ [k.lessOrEq]).map (val (k.assign s)) = (k.alpha ++ [k.lessOrEq]).map (val s2) := List.map_congr_left e42
    apply packing_complete
    · rw [eval_var, hpk4]; rw [eval_var, hpk2] at g1; exact g1
    · rw [map_var_eval, hm, ← map_var_eval, g2, eval_var, eval_var, hpk4, hpk2]
  have hz : Sat (k.assign s) k.zeroTest.gates := by
    have hz3 : Sat s3 k.zeroTest.gates := by
      apply disjunction_complete
      refine ⟨by simp [Comparison.zeroTest], by simp [Comparison.zeroTest, Comparison.notAllZeros], ?_, ?_, ?_⟩
      · simp only [Comparison.zeroTest, Comparison.notAllZeros]; omega
      · simp only [Comparison.zeroTest, Comparison.alpha, List.mem_map, List.mem_range]; rintro ⟨i, hi, h⟩; omega
      · simp only [Comparison.zeroTest, Comparison.alpha, Comparison.notAllZeros, List.mem_map, List.mem_range]; rintro ⟨i, hi, h⟩; omega
    rw [disjunction_sat_iff] at hz3 ⊢
    have hm : k.zeroTest.inputs.map (val (k.assign s)) = k.zeroTest.inputs.map (val s3) := by
      apply List.map_congr_left
      intro j hj
      have := (hmem j).1 (List.mem_append_left _ hj)
      have hj' : k.base ≤ j := by
        simp only [Comparison.zeroTest, Comparison.alpha, List.mem_map, List.mem_range] at hj
        obtain ⟨i, hi, rfl⟩ := hj; omega
      exact e4 j (by omega)
    rw [hm, e4 _ (by simp only [Comparison.zeroTest]; omega), e4 _ (by simp only [Comparison.zeroTest, Comparison.notAllZeros]; omega)]
    exact hz3
  simp only [Comparison.gates, List.cons_append, sat_cons, sat_append, sat_nil, and_true]
  refine ⟨?_, ⟨⟨hpack, ?_⟩, hz⟩, ?_⟩
  · rw [boolean_iff, eval_var]
    classical
    have hb := packing_sound _ _ (k.assign s) (by rw [List.length_map, hlen]; exact hn) hpack
    have hbit : ∀ i ∈ k.zeroTest.inputs, IsBit (val (k.assign s) i) := by
      intro i hi
      have hm : val (k.assign s) i ∈ ((k.alpha ++ [k.lessOrEq]).map (Lc.var (F := ZMod p))).map (Lc.eval (k.assign s)) := by
        rw [map_var_eval]; exact List.mem_map_of_mem (List.mem_append_left _ hi)
      rw [hb.2] at hm
      obtain ⟨j, -, hj⟩ := List.mem_map.1 hm
      rw [← hj]; exact isBit_b2f _
    have := disjunction_sound k.zeroTest _ (by simpa [Comparison.zeroTest, Comparison.alpha] using pow_lt_of hn) hbit hz
    rw [show val (k.assign s) k.notAllZeros = _ from this]
    exact isBit_b2f _
  · simp only [Constraint.Holds, eval_const, eval_sub, eval_add, eval_var, one_mul]
    rw [hcong _ hk.A, hcong _ hk.B, hpk4]
  · simp only [Constraint.Holds, eval_var]
    rw [e4 _ hne.symm, e4 k.notAllZeros (by unfold Comparison.notAllZeros; omega), hs4, val_set_same _ _ hl0]

end

end R1cs
end Verif
