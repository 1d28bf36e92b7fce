import Verif.Model.Manifest
import Mathlib.Data.Nat.ModEq
import Mathlib.Tactic.Ring
import Mathlib.Tactic.LinearCombination
import Mathlib.Tactic.NormNum
import Mathlib.Tactic.IntervalCases
import Mathlib.Algebra.Order.Ring.Int

/-!
# C45, C54, C55: manifest parameters
-/

set_option linter.unusedSimpArgs false
set_option linter.unusedVariables false

namespace Verif
namespace Manifest

open Param

/-- The amounts a parameter denotes. -/
def Allowed : Param → ℕ → Prop
  | unsat, _ => False
  | single a, v => v = a
  | range a f d, v => ∃ k, v = a + k * d ∧ v < f
  | ofSet s, v => v ∈ s

/-- Ranges have a positive step. -/
def WF : Param → Prop
  | range _ _ d => 0 < d
  | _ => True

/-- The number is at least one allowed amount: what the non-strict check is for. -/
def Enough (p : Param) (v : ℕ) : Prop := ∃ x, Allowed p x ∧ x ≤ v

theorem allowed_range (a f d v : ℕ) : Allowed (range a f d) v ↔ a ≤ v ∧ v < f ∧ (d : ℤ) ∣ (v : ℤ) - a := by
  constructor
  · rintro ⟨k, rfl, h⟩
    exact ⟨Nat.le_add_right _ _, h, ⟨k, by push_cast; ring⟩⟩
  · rintro ⟨h1, h2, h3⟩
    rw [← Nat.cast_sub h1, Int.natCast_dvd_natCast] at h3
    obtain ⟨k, hk⟩ := h3
    exact ⟨k, by rw [Nat.mul_comm, ← hk]; omega, h2⟩

/-- **C45**, strict check: exactly the denoted amounts. -/
theorem check_iff (p : Param) (v : ℕ) : check p v = true ↔ Allowed p v := by
  cases p with
  | unsat => simp [check, Allowed]
  | single a => simp [check, Allowed, eq_comm]
  | range a f d =>
    rw [allowed_range]
    simp only [check, Bool.and_eq_true, decide_eq_true_eq, and_assoc]
    constructor
    · rintro ⟨h1, h2, h3⟩
      exact ⟨h1, h2, by rw [← Nat.cast_sub h1, Int.natCast_dvd_natCast]; exact Nat.dvd_of_mod_eq_zero h3⟩
    · rintro ⟨h1, h2, h3⟩
      rw [← Nat.cast_sub h1, Int.natCast_dvd_natCast] at h3
      exact ⟨h1, h2, Nat.mod_eq_zero_of_dvd h3⟩
  | ofSet s => simp [check, Allowed]

theorem allowed_rangeOf (s f : ℤ) (d : ℕ) (hs : 0 ≤ s) (hd : 0 < d) (v : ℕ) :
    Allowed (rangeOf s f d) v ↔ s ≤ v ∧ (v : ℤ) < f ∧ (d : ℤ) ∣ (v : ℤ) - s := by
  unfold rangeOf
  split
  · constructor
    · intro h; exact h.elim
    · rintro ⟨h1, h2, _⟩; omega
  · split
    · constructor
      · intro h
        have h' : v = s.toNat := h
        have : (v : ℤ) = s := by omega
        exact ⟨by omega, by omega, by rw [this, sub_self]; exact dvd_zero _⟩
      · rintro ⟨h1, h2, _⟩
        show v = s.toNat
        omega
    · rw [allowed_range]
      have e1 : ((s.toNat : ℕ) : ℤ) = s := Int.toNat_of_nonneg hs
      rw [e1]
      constructor
      · rintro ⟨h1, h2, h3⟩; exact ⟨by omega, by omega, h3⟩
      · rintro ⟨h1, h2, h3⟩; exact ⟨by omega, by omega, h3⟩

theorem tmod_fix (y n : ℤ) (hn : 0 < n) : (n + y.tmod n).tmod n = y % n := by
  have h1 : -n < y.tmod n := by
    have := Int.lt_tmod_of_pos y hn
    omega
  rw [Int.tmod_eq_emod_of_nonneg (by omega), Int.add_emod_left]
  conv_rhs => rw [← Int.mul_tdiv_add_tmod y n]
  rw [Int.mul_add_emod_self_left]

/-- What the intersection of two ranges needs to come out right: neither range is mistaken for an empty one, and
ranges of the same step are aligned. -/
def RangesOK (a f d a' f' d' : ℕ) : Prop :=
  (a < f → a % d ≤ f - a) ∧ (a' < f' → a' % d' ≤ f' - a') ∧ (d = d' → a % d = a' % d)

/-- `extended_euclidean` returns Bézout coefficients. -/
def Bezout (bez : ℕ → ℕ → ℤ × ℤ) : Prop :=
  ∀ a b : ℕ, 0 < a → 0 < b → (a : ℤ) * (bez a b).1 + (b : ℤ) * (bez a b).2 = (Nat.gcd a b : ℤ)

theorem emod_eq_iff_dvd (a a' g : ℕ) : a % g = a' % g ↔ (g : ℤ) ∣ (a' : ℤ) - a := by
  rw [← Nat.modEq_iff_dvd]; rfl

theorem interRange_iff (bez : ℕ → ℕ → ℤ × ℤ) (hb : Bezout bez) (a f d a' f' d' : ℕ) (hd : 0 < d) (hd' : 0 < d')
    (hok : RangesOK a f d a' f' d') (v : ℕ) :
    Allowed (interRange bez a f d a' f' d') v ↔ Allowed (range a f d) v ∧ Allowed (range a' f' d') v := by
  obtain ⟨ho1, ho2, ho3⟩ := hok
  rw [allowed_range, allowed_range]
  unfold interRange
  split
  · rename_i h
    simp only [Bool.or_eq_true, Bool.not_eq_true', rangeSat, Bool.and_eq_false_iff, decide_eq_false_iff_not] at h
    constructor
    · intro h; exact h.elim
    · rintro ⟨⟨h1, h2, _⟩, h3, h4, _⟩
      have := ho1 (by omega)
      have := ho2 (by omega)
      rcases h with (h | h) | (h | h)
      all_goals omega
  · split
    · rename_i _ hdd
      subst hdd
      have hcong := (emod_eq_iff_dvd _ _ _).1 (ho3 rfl)
      rw [allowed_rangeOf _ _ _ (by omega) hd]
      rcases le_total a a' with hle | hle
      · rw [max_eq_right hle]
        constructor
        · rintro ⟨h1, h2, h3⟩
          exact ⟨⟨by omega, by omega, by simpa using Int.dvd_add h3 hcong⟩, by omega, by omega, h3⟩
        · rintro ⟨⟨h1, h2, h3⟩, h4, h5, h6⟩
          exact ⟨by omega, by omega, h6⟩
      · rw [max_eq_left hle]
        constructor
        · rintro ⟨h1, h2, h3⟩
          exact ⟨⟨by omega, by omega, h3⟩, by omega, by omega, by simpa using Int.dvd_sub h3 hcong⟩
        · rintro ⟨⟨h1, h2, h3⟩, h4, h5, h6⟩
          exact ⟨by omega, by omega, h3⟩
    · rename_i _ hdd
      have hg : 0 < Nat.gcd d d' := Nat.gcd_pos_of_pos_left _ hd
      obtain ⟨e, he⟩ := Nat.gcd_dvd_left d d'
      obtain ⟨e', he'⟩ := Nat.gcd_dvd_right d d'
      have hbz := hb d d' hd hd'
      have hlcm : d * (d' / Nat.gcd d d') = Nat.lcm d d' := by
        rw [Nat.lcm, Nat.mul_div_assoc _ (Nat.gcd_dvd_right d d')]
      simp only []
      split
      · rename_i h
        constructor
        · intro h; exact h.elim
        · rintro ⟨⟨h1, h2, h3⟩, h4, h5, h6⟩
          exfalso
          apply h
          rw [emod_eq_iff_dvd]
          have g1 : ((Nat.gcd d d' : ℕ) : ℤ) ∣ d := Int.natCast_dvd_natCast.2 (Nat.gcd_dvd_left d d')
          have g2 : ((Nat.gcd d d' : ℕ) : ℤ) ∣ d' := Int.natCast_dvd_natCast.2 (Nat.gcd_dvd_right d d')
          have := Int.dvd_sub (g1.trans h3) (g2.trans h6)
          rw [show (v : ℤ) - a - (v - a') = a' - a by ring] at this
          exact this
      · rename_i h
        rw [ne_eq, not_not, emod_eq_iff_dvd] at h
        obtain ⟨t, ht⟩ := h
        rw [hlcm]
        have hL : 0 < Nat.lcm d d' := Nat.lcm_pos hd hd'
        generalize hg0 : Nat.gcd d d' = g at *
        generalize hl0 : Nat.lcm d d' = L at *
        generalize (bez d d').1 = m at *
        generalize (bez d d').2 = n at *
        have hgz : (g : ℤ) ≠ 0 := by exact_mod_cast hg.ne'
        have hdz : (d : ℤ) = g * e := by exact_mod_cast he
        have hdz' : (d' : ℤ) = g * e' := by exact_mod_cast he'
        have hone : (e : ℤ) * m + e' * n = 1 := by
          have : (g : ℤ) * ((e : ℤ) * m + e' * n) = g * 1 := by
            linear_combination hbz - m * hdz - n * hdz'
          exact mul_left_cancel₀ hgz this
        have hx : ((a' : ℤ) * d * m + a * d' * n).tdiv g = a' * e * m + a * e' * n := by
          rw [hdz, hdz', show (a' : ℤ) * (g * e) * m + a * (g * e') * n = g * (a' * e * m + a * e' * n) by ring]
          exact Int.mul_tdiv_cancel_left _ hgz
        rw [hx]
        set x : ℤ := a' * e * m + a * e' * n with hxd
        have hLz : (0 : ℤ) < L := by exact_mod_cast hL
        rw [tmod_fix _ _ hLz, tmod_fix _ _ hLz]
        have hxa : (d : ℤ) ∣ x - a := ⟨m * t, by
          rw [hxd, hdz]; linear_combination (a : ℤ) * hone + (e : ℤ) * m * ht⟩
        have hxa' : (d' : ℤ) ∣ x - a' := ⟨-(n * t), by
          rw [hxd, hdz']; linear_combination (a' : ℤ) * hone - (e' : ℤ) * n * ht⟩
        set s0 : ℤ := ((max a a' : ℕ) : ℤ) with hs0
        have hr0 := Int.emod_nonneg (x % L - s0) hLz.ne'
        have hr1 := Int.emod_lt_of_pos (x % L - s0) hLz
        have hr2 : (L : ℤ) ∣ (x % L - s0) % L - (x - s0) := by
          have e1 : (L : ℤ) ∣ (x % L - s0) % L - (x % L - s0) := by
            rw [← Int.dvd_neg, neg_sub]; exact Int.dvd_self_sub_emod
          have e2 : (L : ℤ) ∣ x % L - x := by
            rw [← Int.dvd_neg, neg_sub]; exact Int.dvd_self_sub_emod
          have := Int.dvd_add e1 e2
          rw [show (x % L - s0) % L - (x % L - s0) + (x % L - x) = (x % L - s0) % L - (x - s0) by ring] at this
          exact this
        generalize (x % L - s0) % L = r at *
        rw [allowed_rangeOf _ _ _ (by omega) hL]
        have hdL : (d : ℤ) ∣ L := Int.natCast_dvd_natCast.2 (hl0 ▸ Nat.dvd_lcm_left d d')
        have hdL' : (d' : ℤ) ∣ L := Int.natCast_dvd_natCast.2 (hl0 ▸ Nat.dvd_lcm_right d d')
        constructor
        · rintro ⟨h1, h2, h3⟩
          have hvx : (L : ℤ) ∣ v - x := by
            have := Int.dvd_add h3 hr2
            rw [show (v : ℤ) - (s0 + r) + (r - (x - s0)) = v - x by ring] at this
            exact this
          refine ⟨⟨by omega, by omega, ?_⟩, by omega, by omega, ?_⟩
          · simpa using Int.dvd_add (hdL.trans hvx) hxa
          · simpa using Int.dvd_add (hdL'.trans hvx) hxa'
        · rintro ⟨⟨h1, h2, h3⟩, h4, h5, h6⟩
          have k1 : (d : ℤ) ∣ v - x := by simpa using Int.dvd_sub h3 hxa
          have k2 : (d' : ℤ) ∣ v - x := by simpa using Int.dvd_sub h6 hxa'
          have k3 : (L : ℤ) ∣ v - x := by
            have := Int.coe_lcm_dvd k1 k2
            rw [Int.lcm_natCast_natCast, hl0] at this
            exact this
          have k4 : (L : ℤ) ∣ v - (s0 + r) := by
            have := Int.dvd_sub k3 hr2
            rw [show (v : ℤ) - x - (r - (x - s0)) = v - (s0 + r) by ring] at this
            exact this
          refine ⟨?_, by omega, k4⟩
          obtain ⟨q, hq⟩ := k4
          by_contra hlt
          have : (v : ℤ) - (s0 + r) < 0 := by omega
          have h7 : (L : ℤ) * q < 0 := by omega
          have h8 : q < 0 := by
            by_contra hge
            have := mul_nonneg hLz.le (not_lt.1 hge)
            omega
          have h9 : (L : ℤ) * q ≤ -L := by
            have := mul_le_mul_of_nonneg_left (show q ≤ -1 by omega) hLz.le
            omega
          omega

/-- Both parameters ranges: the side condition; otherwise nothing. -/
def Compatible : Param → Param → Prop
  | range a f d, range a' f' d' => RangesOK a f d a' f' d'
  | _, _ => True

/-- **C45** (partial): the intersection denotes the intersection of the denoted sets, for every pair of parameters
except misaligned ranges of equal step and ranges the code takes for empty. -/
theorem intersect_iff_partial (bez : ℕ → ℕ → ℤ × ℤ) (hb : Bezout bez) (p q : Param) (hp : WF p) (hq : WF q)
    (hc : Compatible p q) (v : ℕ) : Allowed (intersect bez p q) v ↔ Allowed p v ∧ Allowed q v := by
  have key : ∀ (r : Param) (b : ℕ), (Allowed (if check r b = true then single b else unsat) v ↔ Allowed r v ∧ v = b) := by
    intro r b
    by_cases h : check r b = true
    · rw [if_pos h]
      constructor
      · intro h'; have e : v = b := h'; subst e; exact ⟨(check_iff _ _).1 h, rfl⟩
      · rintro ⟨_, rfl⟩; exact rfl
    · rw [if_neg h]
      constructor
      · intro h'; exact h'.elim
      · rintro ⟨h1, rfl⟩; exact absurd ((check_iff _ _).2 h1) h
  have emp : ∀ n : Finset ℕ, (Allowed (if n = ∅ then unsat else ofSet n) v ↔ v ∈ n) := by
    intro n
    split
    · rename_i h; subst h; simp [Allowed]
    · rfl
  cases p with
  | unsat => simp [intersect, Allowed]
  | single a => rw [intersect, key]; exact And.comm
  | range a f d =>
    cases q with
    | unsat => simp [intersect, Allowed]
    | single b => rw [intersect, key]; exact Iff.rfl
    | range a' f' d' => exact interRange_iff bez hb a f d a' f' d' hp hq hc v
    | ofSet s =>
      rw [intersect]
      show v ∈ Finset.filter _ s ↔ _
      rw [Finset.mem_filter, check_iff]
      exact And.comm
  | ofSet s =>
    cases q with
    | unsat => simp [intersect, Allowed]
    | single b => rw [intersect, key]; exact Iff.rfl
    | range a' f' d' => rw [intersect]; rw [emp, Finset.mem_filter, check_iff]; exact Iff.rfl
    | ofSet s' => rw [intersect]; rw [emp, Finset.mem_filter, check_iff]; exact And.comm

/-- Bézout coefficients as Mathlib computes them. -/
def bez0 (a b : ℕ) : ℤ × ℤ := (Nat.gcdA a b, Nat.gcdB a b)

theorem bez0_spec : Bezout bez0 := fun a b _ _ => (Nat.gcd_eq_gcd_ab a b).symm

/-- Refuted: ranges with the same step and different remainders. `0, 2, 4, …` and `1, 3, 5, …` have no common amount,
yet the intersection allows the odd ones. -/
theorem intersect_refuted_aligned (bez : ℕ → ℕ → ℤ × ℤ) :
    Allowed (intersect bez (range 0 10 2) (range 1 11 2)) 3 ∧ ¬ Allowed (range 0 10 2) 3 := by
  constructor
  · show Allowed (interRange bez 0 10 2 1 11 2) 3
    have : interRange bez 0 10 2 1 11 2 = range 1 10 2 := rfl
    rw [this]
    exact ⟨1, by norm_num, by norm_num⟩
  · rintro ⟨k, h, _⟩; omega

/-- Refuted: a non-empty range taken for an empty one. `range 10 11 8` (the manifest of `pow_factor` for powers below
six) allows ten columns, and so does a compiler with up to fifteen, but the intersection is empty. -/
theorem intersect_refuted_empty (bez : ℕ → ℕ → ℤ × ℤ) :
    Allowed (range 10 11 8) 10 ∧ Allowed (range 0 16 1) 10 ∧ intersect bez (range 10 11 8) (range 0 16 1) = unsat :=
  ⟨⟨0, by norm_num, by norm_num⟩, ⟨10, by norm_num, by norm_num⟩, rfl⟩

/-- The hypotheses are met by ranges of different steps. -/
example (v : ℕ) : Allowed (intersect bez0 (range 9 300 5) (range 6 200 3)) v ↔
    Allowed (range 9 300 5) v ∧ Allowed (range 6 200 3) v :=
  intersect_iff_partial bez0 bez0_spec _ _ (by norm_num [WF]) (by norm_num [WF])
    (by refine ⟨?_, ?_, ?_⟩ <;> norm_num) v

/-- **C45**, compiler manifests: a fresh compiler manifest keeps exactly the component's amounts up to its maximum. -/
theorem compiler_intersect_partial (bez : ℕ → ℕ → ℤ × ℤ) (hb : Bezout bez) (m : ℕ) (b : Bool) (c : Comp)
    (hw : WF c.witness) (hc : Compatible c.witness (range 0 (m + 1) 1)) (w k : ℕ) :
    ((Compiler.make m b).intersect bez c).check w k = true ↔
      c.check w k = true ∧ w ≤ m ∧ (c.constant = .required → b = true) := by
  have h := intersect_iff_partial bez hb c.witness (range 0 (m + 1) 1) hw (by norm_num [WF]) hc w
  have hr : Allowed (range 0 (m + 1) 1) w ↔ w ≤ m := by
    rw [allowed_range]; simp; omega
  rw [hr] at h
  simp only [Comp.check, Compiler.intersect, Compiler.make, Bool.and_eq_true, check_iff, h, Const.inter]
  rcases c with ⟨cw, cc⟩
  cases cc <;> cases b <;> simp <;> tauto

/-- After `set_max_witness_amount(m)` the amount `m` itself is no longer accepted, although the constructor with the
same maximum accepts it. -/
theorem setMax_refuted (bez : ℕ → ℕ → ℤ × ℤ) (m n : ℕ) (b : Bool) :
    ((Compiler.make m b).intersect bez ⟨single m, .none⟩).check m 0 = true ∧
      (((Compiler.make n b).setMax m).intersect bez ⟨single m, .none⟩).check m 0 = false := by
  constructor <;> simp [Compiler.make, Compiler.setMax, Compiler.intersect, intersect, Comp.check, check, Const.inter, Nat.mod_one]

example (w : ℕ) : ((Compiler.make 15 true).intersect bez0 ⟨range 3 300 3, .required⟩).check w 1 = true ↔
    (⟨range 3 300 3, .required⟩ : Comp).check w 1 = true ∧ w ≤ 15 ∧ (Const.required = .required → true = true) :=
  compiler_intersect_partial bez0 bez0_spec _ _ _ (by norm_num [WF]) (by refine ⟨?_, ?_, ?_⟩ <;> norm_num) w 1

/-! ## C54: removing amounts, satisfiability, the maximum, iteration -/

theorem mem_progr (i f d v : ℕ) (hd : 0 < d) : v ∈ progr i f d ↔ ∃ k, v = i + k * d ∧ v < f := by
  induction hn : f - i using Nat.strong_induction_on generalizing i with
  | _ n ih =>
    rw [progr]
    split
    · rename_i h
      rw [List.mem_cons, ih _ (by omega) (i + d) rfl]
      constructor
      · rintro (rfl | ⟨k, hk, hf⟩)
        · exact ⟨0, by simp, h.1⟩
        · exact ⟨k + 1, by rw [hk]; ring, hf⟩
      · rintro ⟨k, hk, hf⟩
        cases k with
        | zero => left; simpa using hk
        | succ k => right; exact ⟨k, by rw [hk]; ring, hf⟩
    · rename_i h
      simp only [List.not_mem_nil, false_iff]
      rintro ⟨k, hk, hf⟩
      exact h ⟨by have := Nat.le_add_right i (k * d); omega, hd⟩

theorem progr_sorted (i f d : ℕ) : (progr i f d).Pairwise (· < ·) := by
  induction hn : f - i using Nat.strong_induction_on generalizing i with
  | _ n ih =>
    rw [progr]
    split
    · rename_i h
      refine List.pairwise_cons.2 ⟨fun v hv => ?_, ih _ (by omega) _ rfl⟩
      obtain ⟨k, rfl, _⟩ := (mem_progr _ _ _ _ h.2).1 hv
      have := Nat.zero_le (k * d)
      omega
    · exact List.Pairwise.nil

/-- **C54**, iteration: the loop over a parameter visits exactly the denoted amounts, in increasing order. Ranges that
finish before they start are excluded (there the loop visits the start). -/
theorem iterate_spec_partial (p : Param) (hp : WF p) (hr : ∀ a f d, p = range a f d → a ≤ f) :
    (iterate p).Pairwise (· < ·) ∧ ∀ v, v ∈ iterate p ↔ Allowed p v := by
  cases p with
  | unsat => simp [iterate, Allowed]
  | single a => simp [iterate, Allowed]
  | range a f d =>
    have h := hr a f d rfl
    simp only [iterate]
    rw [if_neg (by omega)]
    exact ⟨progr_sorted _ _ _, fun v => mem_progr a f d v hp⟩
  | ofSet s =>
    exact ⟨s.sortedLT_sort.pairwise, fun v => by simp [iterate, Allowed]⟩

theorem iterate_refuted : 5 ∈ iterate (range 5 3 1) ∧ ¬ Allowed (range 5 3 1) 5 := by
  refine ⟨by simp [iterate], ?_⟩
  rintro ⟨k, h1, h2⟩; omega

/-- **C54**, satisfiability: claimed exactly when an amount exists, for ranges that contain enough room. -/
theorem isSat_iff_partial (p : Param) (hr : ∀ a f d, p = range a f d → a < f → a % d ≤ f - a) :
    isSat p = true ↔ ∃ v, Allowed p v := by
  cases p with
  | unsat => simp [isSat, Allowed]
  | single a => simp [isSat, Allowed]
  | range a f d =>
    have h := hr a f d rfl
    simp only [isSat, rangeSat, Bool.and_eq_true, decide_eq_true_eq]
    constructor
    · rintro ⟨h1, _⟩; exact ⟨a, 0, by simp, h1⟩
    · rintro ⟨v, k, rfl, hv⟩
      have := Nat.zero_le (k * d)
      exact ⟨by omega, h (by omega)⟩
  | ofSet s => simp only [isSat, decide_eq_true_eq]; exact Iff.rfl

theorem isSat_refuted : isSat (range 10 11 8) = false ∧ Allowed (range 10 11 8) 10 :=
  ⟨rfl, 0, by norm_num, by norm_num⟩

/-- **C54**, maximum: for satisfiable parameters `max_value_if_sat` is the largest allowed amount, for ranges that start
at a multiple of their step. -/
theorem maxValue_partial (p : Param) (hp : WF p) (hs : ∃ v, Allowed p v)
    (hr : ∀ a f d, p = range a f d → a % d = 0) :
    ∃ m, maxValue p = some m ∧ Allowed p m ∧ ∀ v, Allowed p v → v ≤ m := by
  cases p with
  | unsat => obtain ⟨v, hv⟩ := hs; exact hv.elim
  | single a => exact ⟨a, rfl, rfl, fun v hv => le_of_eq hv⟩
  | range a f d =>
    have hd : 0 < d := hp
    have ha := hr a f d rfl
    obtain ⟨v0, k0, hk0, hv0⟩ := hs
    have hz := Nat.zero_le (k0 * d)
    obtain ⟨e, he⟩ := Nat.dvd_of_mod_eq_zero ha
    have hdm := Nat.div_add_mod f d
    have hml := Nat.mod_lt f hd
    refine ⟨_, rfl, ?_, ?_⟩
    · rw [allowed_range]
      split
      · rename_i h
        have e1 : f - f % d = d * (f / d) := by omega
        rw [e1]
        have h2 : e ≤ f / d := by
          by_contra hlt
          have := Nat.mul_le_mul_left d (show f / d + 1 ≤ e by omega)
          rw [Nat.mul_add] at this
          omega
        refine ⟨by rw [he]; exact Nat.mul_le_mul_left d h2, by omega, ⟨(f / d : ℕ) - e, ?_⟩⟩
        rw [he]; push_cast; ring
      · rename_i h
        have hf0 : f % d = 0 := by omega
        have e1 : f = d * (f / d) := by omega
        have h2 : e + 1 ≤ f / d := by
          by_contra hlt
          have := Nat.mul_le_mul_left d (show f / d ≤ e by omega)
          omega
        have e2 : f - d = d * (f / d - 1) := by
          rw [Nat.mul_sub]; omega
        rw [e2]
        refine ⟨by rw [he]; exact Nat.mul_le_mul_left d (by omega), by rw [← e2]; omega, ⟨((f / d - 1 : ℕ) : ℤ) - e, ?_⟩⟩
        rw [he]; push_cast; ring
    · rintro v ⟨k, rfl, hv⟩
      rw [he] at hv ⊢
      rw [Nat.mul_comm k d, ← Nat.mul_add] at hv ⊢
      have h2 : e + k ≤ f / d := by
        by_contra hlt
        have := Nat.mul_le_mul_left d (show f / d + 1 ≤ e + k by omega)
        rw [Nat.mul_add] at this
        omega
      split
      · have := Nat.mul_le_mul_left d h2
        omega
      · have h3 : e + k + 1 ≤ f / d := by
          by_contra hlt
          have := Nat.mul_le_mul_left d (show f / d ≤ e + k by omega)
          omega
        have := Nat.mul_le_mul_left d h3
        rw [Nat.mul_add] at this
        omega
  | ofSet s =>
    obtain ⟨v, hv⟩ := hs
    have h : s.Nonempty := ⟨v, hv⟩
    refine ⟨s.max' h, by simp [maxValue, h], s.max'_mem h, fun v hv => s.le_max' v hv⟩

/-- The manifest of `colinear_checks` is `range 9 300 5`: it reports 295, which is not allowed. -/
theorem maxValue_refuted : maxValue (range 9 300 5) = some 295 ∧ ¬ Allowed (range 9 300 5) 295 := by
  refine ⟨rfl, ?_⟩
  rintro ⟨k, h, _⟩; omega

theorem runUp_spec (d cur : ℕ) (l : List ℕ) (hd : 0 < d) (h : (runUp d cur l).1 = l.length) :
    (runUp d cur l).2 = cur + l.length * d ∧ ∀ v, v ∈ l ↔ ∃ k, k < l.length ∧ v = cur + k * d := by
  induction l generalizing cur with
  | nil => simp [runUp]
  | cons v l ih =>
    simp only [runUp] at h ⊢
    split at h
    · simp at h
    · rename_i hv
      rw [if_neg hv]
      rw [ne_eq, not_not] at hv
      subst hv
      simp only [List.length_cons, Nat.add_right_cancel_iff] at h
      obtain ⟨h1, h2⟩ := ih (v + d) h
      refine ⟨by simp only [h1, List.length_cons]; ring, fun w => ?_⟩
      rw [List.mem_cons, h2]
      constructor
      · rintro (rfl | ⟨k, hk, rfl⟩)
        · exact ⟨0, by simp, by simp⟩
        · exact ⟨k + 1, by simpa using hk, by ring⟩
      · rintro ⟨k, hk, rfl⟩
        cases k with
        | zero => left; simp
        | succ k => right; exact ⟨k, by simpa using hk, by ring⟩

theorem runDown_length (d : ℕ) (cur : ℤ) (v : ℕ) (l : List ℕ) (h : (v : ℤ) ≠ cur) : (runDown d cur (v :: l)).1 = 0 := by
  simp [runDown, h]

/-- **C54**, removal: exactly the denoted amounts outside the removed set. For ranges the last allowed amount must not
be `finish - finish % step`; ranges of step one qualify, and so do all others whose largest allowed amount stays. -/
theorem subtract_iff_partial (p : Param) (hp : WF p) (values : Finset ℕ)
    (hr : ∀ a f d, p = range a f d → f - f % d ∉ values ∨ ¬ Allowed p (f - f % d)) (v : ℕ) :
    Allowed (subtract p values) v ↔ Allowed p v ∧ v ∉ values := by
  cases p with
  | unsat => simp [subtract, Allowed]
  | single a =>
    simp only [subtract]
    split
    · rename_i h
      constructor
      · intro h'; exact h'.elim
      · rintro ⟨h1, h2⟩; have e : v = a := h1; subst e; exact absurd h h2
    · rename_i h
      constructor
      · intro h1; have e : v = a := h1; subst e; exact ⟨rfl, h⟩
      · rintro ⟨h1, _⟩; exact h1
  | range a f d =>
    have hd : 0 < d := hp
    have hnd := hr a f d rfl
    simp only [subtract, subtractRange]
    set fs := values.filter fun v => check (range a f d) v = true with hfs
    have hmem : ∀ w, w ∈ fs ↔ w ∈ values ∧ Allowed (range a f d) w := by
      intro w; rw [hfs, Finset.mem_filter, check_iff]
    split
    · rename_i h
      constructor
      · intro h1
        refine ⟨h1, fun h2 => ?_⟩
        have := (hmem v).2 ⟨h2, h1⟩
        rw [h] at this; simp at this
      · exact fun h1 => h1.1
    · rename_i hne
      split
      · rename_i h
        have hlen : (fs.sort (· ≤ ·)).length = fs.card := Finset.length_sort _
        obtain ⟨h1, h2⟩ := runUp_spec d a (fs.sort (· ≤ ·)) hd (by rw [hlen]; exact h)
        rw [hlen] at h1 h2
        simp only [Finset.mem_sort] at h2
        have key : (Allowed (range a f d) v ∧ v ∉ values) ↔ ∃ k, v = a + fs.card * d + k * d ∧ v < f := by
          constructor
          · rintro ⟨⟨k, rfl, hf⟩, hv⟩
            have hk : fs.card ≤ k := by
              by_contra hlt
              exact hv ((hmem _).1 ((h2 _).2 ⟨k, by omega, rfl⟩)).1
            obtain ⟨j, rfl⟩ := Nat.exists_eq_add_of_le hk
            exact ⟨j, by ring, hf⟩
          · rintro ⟨k, rfl, hf⟩
            refine ⟨⟨fs.card + k, by ring, hf⟩, fun hv => ?_⟩
            obtain ⟨j, hj, he⟩ := (h2 _).1 ((hmem _).2 ⟨hv, fs.card + k, by ring, hf⟩)
            have : (fs.card + k) * d = j * d := by rw [Nat.add_mul]; omega
            have := Nat.eq_of_mul_eq_mul_right hd this
            omega
        rw [key, h1]
        split
        · exact Iff.rfl
        · rename_i hlt
          constructor
          · intro h'; exact h'.elim
          · rintro ⟨k, rfl, hf⟩
            have := Nat.zero_le (k * d)
            omega
      · have hdown : (runDown d ((f - f % d : ℕ) : ℤ) (fs.sort (· ≤ ·)).reverse).1 ≠ fs.card := by
          intro h
          cases hl : (fs.sort (· ≤ ·)).reverse with
          | nil =>
            have : (fs.sort (· ≤ ·)).length = 0 := by rw [← List.length_reverse, hl]; rfl
            rw [Finset.length_sort, Finset.card_eq_zero] at this
            exact hne this
          | cons w l =>
            rw [hl] at h
            have hw : w ∈ fs := by
              have : w ∈ (fs.sort (· ≤ ·)).reverse := by rw [hl]; simp
              simpa using this
            by_cases he : (w : ℤ) = ((f - f % d : ℕ) : ℤ)
            · have he' : w = f - f % d := by exact_mod_cast he
              have := (hmem w).1 hw
              rw [he'] at this
              rcases hnd with h3 | h3
              · exact h3 this.1
              · exact h3 this.2
            · rw [runDown_length _ _ _ _ he] at h
              exact hne (Finset.card_eq_zero.1 h.symm)
        rw [if_neg hdown]
        have hn : ∀ w, w ∈ ((progr a f d).filter fun v => decide (v ∉ fs)).toFinset ↔ Allowed (range a f d) w ∧ w ∉ values := by
          intro w
          rw [List.mem_toFinset, List.mem_filter, mem_progr _ _ _ _ hd, decide_eq_true_iff, hmem]
          constructor
          · rintro ⟨h1, h2⟩; exact ⟨h1, fun h3 => h2 ⟨h3, h1⟩⟩
          · rintro ⟨h1, h2⟩; exact ⟨h1, fun h3 => h2 h3.1⟩
        generalize ((progr a f d).filter fun v => decide (v ∉ fs)).toFinset = n at *
        rw [← hn]
        split
        · rename_i h; subst h; simp [Allowed]
        · split
          · rename_i h
            obtain ⟨x, rfl⟩ := Finset.card_eq_one.1 h
            simp [Allowed]
          · exact Iff.rfl
  | ofSet s =>
    have : Allowed (subtract (ofSet s) values) v ↔ v ∈ s \ values := by
      simp only [subtract]
      split
      · rename_i h; rw [h]; simp [Allowed]
      · exact Iff.rfl
    rw [this, Finset.mem_sdiff]; exact Iff.rfl

/-- Ranges of step one always qualify. -/
theorem subtract_step_one (a f : ℕ) (values : Finset ℕ) (v : ℕ) :
    Allowed (subtract (range a f 1) values) v ↔ Allowed (range a f 1) v ∧ v ∉ values := by
  refine subtract_iff_partial (range a f 1) Nat.one_pos values ?_ v
  rintro a' f' d' h
  cases h
  right
  rintro ⟨k, _, h⟩
  rw [Nat.mod_one] at h
  omega

/-- Refuted: taking 10 out of `0, 5, 10` loses 5 as well. -/
theorem subtract_refuted : Allowed (range 0 11 5) 5 ∧ ¬ Allowed (subtract (range 0 11 5) {10}) 5 := by
  refine ⟨⟨1, by norm_num, by norm_num⟩, ?_⟩
  have h : subtract (range 0 11 5) {10} = range 0 5 5 := by
    have hf : ({10} : Finset ℕ).filter (fun v => check (range 0 11 5) v = true) = {10} := by decide
    simp only [subtract, subtractRange, hf, Finset.sort_singleton, List.reverse_cons, List.reverse_nil, List.nil_append]
    rfl
  rw [h]
  rintro ⟨k, _, h⟩
  omega

/-- A case off the step-one path: taking 4 out of `1, 4, 7, 10`. -/
example (v : ℕ) : Allowed (subtract (range 1 12 3) {4}) v ↔ Allowed (range 1 12 3) v ∧ v ∉ ({4} : Finset ℕ) :=
  subtract_iff_partial _ (by norm_num [WF]) _ (by rintro a f d h; cases h; left; decide) v

/-! ## C55: merging -/

theorem roundUp_le (v d : ℕ) : v ≤ roundUp v d := Nat.le_add_right _ _

theorem roundUp_least (v d m : ℕ) (hd : 0 < d) (h : v ≤ m) (hm : m % d = 0) : roundUp v d ≤ m := by
  unfold roundUp
  obtain ⟨q, rfl⟩ := Nat.dvd_of_mod_eq_zero hm
  have hv := Nat.div_add_mod v d
  have hl := Nat.mod_lt v hd
  by_cases h0 : v % d = 0
  · rw [h0, Nat.sub_zero, Nat.mod_self]; omega
  · rw [Nat.mod_eq_of_lt (by omega)]
    have : v / d + 1 ≤ q := by
      by_contra hlt
      have := Nat.mul_le_mul_left d (show q ≤ v / d by omega)
      omega
    have := Nat.mul_le_mul_left d this
    rw [Nat.mul_add] at this
    omega

theorem enough_range (a f d v : ℕ) : Enough (range a f d) v ↔ a < f ∧ a ≤ v := by
  constructor
  · rintro ⟨x, ⟨k, rfl, h⟩, hx⟩
    have := Nat.zero_le (k * d)
    omega
  · rintro ⟨h1, h2⟩; exact ⟨a, ⟨0, by simp, h1⟩, h2⟩

theorem enough_single (a v : ℕ) : Enough (single a) v ↔ a ≤ v :=
  ⟨fun ⟨x, h, hx⟩ => by have e : x = a := h; omega, fun h => ⟨a, rfl, h⟩⟩

/-- What merging needs besides well-formedness: parameters allow something, and a range merged with a single value
starts at a multiple of its step. -/
def Mergeable : Param → Param → Prop
  | single _, range a _ d => a % d = 0
  | range a _ d, single _ => a % d = 0
  | _, _ => True

theorem mergeSingleRange_enough (b a f d v : ℕ) (hd : 0 < d) (hm : a % d = 0) (ha : a < f)
    (h : Enough (mergeSingleRange b a f d) v) : b ≤ v ∧ a ≤ v := by
  unfold mergeSingleRange at h
  simp only [] at h
  have := roundUp_le b d
  split at h
  · rw [enough_range] at h; omega
  · rw [enough_single] at h
    rename_i hlt
    refine ⟨h, ?_⟩
    by_contra hc
    have := roundUp_least b d a hd (by omega) hm
    omega

theorem mergeSingleSet_enough (b v : ℕ) (s : Finset ℕ) (hs : s.Nonempty) (h : Enough (mergeSingleSet b s) v) :
    b ≤ v ∧ Enough (ofSet s) v := by
  unfold mergeSingleSet at h
  simp only [] at h
  obtain ⟨x, hx, hxv⟩ := h
  split at hx
  · rename_i he
    have e : x = b := by simpa [Allowed] using hx
    subst e
    refine ⟨hxv, ?_⟩
    obtain ⟨y, hy⟩ := hs
    refine ⟨y, hy, ?_⟩
    by_contra hlt
    have : y ∈ s.filter fun z => x ≤ z := Finset.mem_filter.2 ⟨hy, by omega⟩
    rw [he] at this; simp at this
  · have hx' : x ∈ s.filter fun z => b ≤ z := hx
    rw [Finset.mem_filter] at hx'
    exact ⟨by omega, x, hx'.1, hxv⟩

theorem mergeSetRange_enough (s : Finset ℕ) (a f d v : ℕ) (hd : 0 < d) (r : Param) (hr : mergeSetRange s a f d = some r)
    (ha : a < f) (h : Enough r v) : Enough (ofSet s) v ∧ Enough (range a f d) v := by
  unfold mergeSetRange at hr
  split at hr
  · rename_i hne
    simp only [Option.some.injEq] at hr
    have hmin := Finset.min'_mem _ hne
    generalize (s.filter fun x => a ≤ x).min' hne = m at hr hmin
    rw [Finset.mem_filter] at hmin
    have hmax : max m a = m := max_eq_left hmin.2
    rw [hmax] at hr
    subst hr
    obtain ⟨x, hx, hxv⟩ := h
    have hmx : m ≤ x := by
      have hx' : x ∈ ({m} ∪ (s.filter fun x => m ≤ x) ∪ (progr (roundUp m d) f d).toFinset : Finset ℕ) := hx
      simp only [Finset.mem_union, Finset.mem_singleton, Finset.mem_filter, List.mem_toFinset] at hx'
      rcases hx' with (rfl | ⟨_, h⟩) | h
      · exact le_rfl
      · exact h
      · obtain ⟨k, rfl, _⟩ := (mem_progr _ _ _ _ hd).1 h
        have := roundUp_le m d
        have := Nat.zero_le (k * d)
        omega
    exact ⟨⟨m, hmin.1, by omega⟩, (enough_range _ _ _ _).2 ⟨ha, by omega⟩⟩
  · cases hr

/-- **C55** (partial): an amount that is enough for the merged manifest is enough for both parts. -/
theorem merge_enough_partial (p q r : Param) (hp : WF p) (hq : WF q) (sp : ∃ x, Allowed p x) (sq : ∃ x, Allowed q x)
    (hm : Mergeable p q) (hr : merge p q = some r) (v : ℕ) (h : Enough r v) : Enough p v ∧ Enough q v := by
  have rng : ∀ a f d, (∃ x, Allowed (range a f d) x) → a < f := by
    rintro a f d ⟨x, k, rfl, h⟩
    have := Nat.zero_le (k * d)
    omega
  cases p with
  | unsat => obtain ⟨x, hx⟩ := sp; exact hx.elim
  | single a =>
    cases q with
    | unsat => obtain ⟨x, hx⟩ := sq; exact hx.elim
    | single b =>
      simp only [merge, Option.some.injEq] at hr
      subst hr
      rw [enough_single, enough_single]
      split at h
      · rw [enough_single] at h; omega
      · rw [enough_single] at h; omega
    | range a' f' d' =>
      simp only [merge, Option.some.injEq] at hr
      subst hr
      have := mergeSingleRange_enough a a' f' d' v hq hm (rng _ _ _ sq) h
      exact ⟨(enough_single _ _).2 this.1, (enough_range _ _ _ _).2 ⟨rng _ _ _ sq, this.2⟩⟩
    | ofSet s =>
      simp only [merge, Option.some.injEq] at hr
      subst hr
      have := mergeSingleSet_enough a v s sq h
      exact ⟨(enough_single _ _).2 this.1, this.2⟩
  | range a f d =>
    have ha := rng _ _ _ sp
    cases q with
    | unsat => obtain ⟨x, hx⟩ := sq; exact hx.elim
    | single b =>
      simp only [merge, Option.some.injEq] at hr
      subst hr
      have := mergeSingleRange_enough b a f d v hp hm (rng _ _ _ sp) h
      exact ⟨(enough_range _ _ _ _).2 ⟨rng _ _ _ sp, this.2⟩, (enough_single _ _).2 this.1⟩
    | range a' f' d' =>
      have ha' := rng _ _ _ sq
      simp only [merge, Option.some.injEq] at hr
      subst hr
      rw [enough_range, enough_range]
      unfold mergeRange at h
      simp only [] at h
      split at h
      · split at h
        · rw [enough_range] at h; omega
        · rw [enough_single] at h; omega
      · split at h
        · rw [enough_range] at h; omega
        · split at h
          · rw [enough_range] at h; omega
          · obtain ⟨x, hx, hxv⟩ := h
            have hx' : x ∈ ({max a a'} ∪ ((iterate (range a f d)).filter fun x => decide (max a a' < x)).toFinset ∪
              ((iterate (range a' f' d')).filter fun x => decide (max a a' < x)).toFinset : Finset ℕ) := hx
            simp only [Finset.mem_union, Finset.mem_singleton, List.mem_toFinset, List.mem_filter, decide_eq_true_eq] at hx'
            omega
    | ofSet s =>
      exact (mergeSetRange_enough s a f d v hp r hr ha h).symm
  | ofSet s =>
    cases q with
    | unsat => obtain ⟨x, hx⟩ := sq; exact hx.elim
    | single b =>
      simp only [merge, Option.some.injEq] at hr
      subst hr
      have := mergeSingleSet_enough b v s sp h
      exact ⟨this.2, (enough_single _ _).2 this.1⟩
    | range a' f' d' => exact mergeSetRange_enough s a' f' d' v hq r hr (rng _ _ _ sq) h
    | ofSet s' =>
      simp only [merge, Option.some.injEq] at hr
      rw [dif_pos ⟨sp, sq⟩] at hr
      subst hr
      have m1 := Finset.min'_mem s sp
      have m2 := Finset.min'_mem s' sq
      generalize s.min' sp = m at h m1
      generalize s'.min' sq = m' at h m2
      obtain ⟨x, hx, hxv⟩ := h
      split at hx
      · exact hx.elim
      · have hx' : x ∈ (s.filter fun x => max m m' ≤ x) ∪ (s'.filter fun x => max m m' ≤ x) := hx
        rw [Finset.mem_union, Finset.mem_filter, Finset.mem_filter] at hx'
        have : max m m' ≤ x := by rcases hx' with h | h <;> exact h.2
        exact ⟨⟨m, m1, by omega⟩, m', m2, by omega⟩

/-- Refuted: a single value merged with a range that does not start at a multiple of its step. Seven columns are
declared enough for something that needs eight. -/
theorem merge_refuted : merge (single 7) (range 8 9 5) = some (single 7) ∧ ¬ Enough (range 8 9 5) 7 := by
  refine ⟨rfl, ?_⟩
  rw [enough_range]; omega

/-- Refuted: merging a set with a range that starts above it dereferences the end iterator. -/
theorem merge_oob : merge (ofSet {3}) (range 8 20 1) = none := by decide

/-- **C55**, the non-strict check: right for everything but sets (and ranges taken for empty). -/
theorem checkLoose_iff_partial (p : Param) (hs : ∀ s, p ≠ ofSet s)
    (hr : ∀ a f d, p = range a f d → a < f → a % d ≤ f - a) (v : ℕ) : checkLoose p v = true ↔ Enough p v := by
  cases p with
  | unsat => simp [checkLoose, Enough, Allowed]
  | single a => rw [enough_single]; simp [checkLoose]
  | range a f d =>
    rw [enough_range]
    simp only [checkLoose, rangeSat, Bool.and_eq_true, decide_eq_true_eq]
    have := hr a f d rfl
    constructor
    · rintro ⟨h1, h2, h3⟩; exact ⟨h2, h1⟩
    · rintro ⟨h1, h2⟩; exact ⟨h2, h1, this h1⟩
  | ofSet s => exact absurd rfl (hs s)

/-- Refuted for sets, both ways: three columns pass for something that needs five, and seven do not. -/
theorem checkLoose_refuted : checkLoose (ofSet {5}) 3 = true ∧ ¬ Enough (ofSet {5}) 3 ∧
    checkLoose (ofSet {5}) 7 = false ∧ Enough (ofSet {5}) 7 := by
  refine ⟨by decide, ?_, by decide, 5, by simp [Allowed], by norm_num⟩
  rintro ⟨x, hx, hxv⟩
  have : x = 5 := by simpa [Allowed] using hx
  omega

/-- Merging component manifests: constants are asked for exactly when one part asks, and an unsatisfiable part stays
unsatisfiable. -/
theorem compMerge_constant (m n r : Comp) (h : m.merge n = some r) (c : ℕ) :
    (r.constant ≠ .unsat ∧ (r.constant = .required → 0 < c)) ↔
      ((m.constant ≠ .unsat ∧ (m.constant = .required → 0 < c)) ∧ (n.constant ≠ .unsat ∧ (n.constant = .required → 0 < c))) := by
  obtain ⟨mw, mc⟩ := m
  obtain ⟨nw, nc⟩ := n
  simp only [Comp.merge, Option.map_eq_some_iff] at h
  obtain ⟨w, _, rfl⟩ := h
  cases mc <;> cases nc <;> simp [Const.merge]

/-- A component manifest accepts `w` witness and `c` constant columns: the amount is allowed, and a required constant
column is there. -/
def Accepts (m : Comp) (w c : ℕ) : Prop := Allowed m.witness w ∧ m.constant ≠ .unsat ∧ (m.constant = .required → 0 < c)

/-- **C55**: the strict check of a component manifest accepts exactly those numbers of columns. -/
theorem comp_check_iff (m : Comp) (w c : ℕ) : m.check w c = true ↔ Accepts m w c := by
  obtain ⟨p, k⟩ := m
  unfold Comp.check Accepts
  rw [Bool.and_eq_true, check_iff]
  cases k <;> simp [Nat.pos_iff_ne_zero]

/-- **C55**: the non-strict check of a component manifest, for everything but sets. -/
theorem comp_checkLoose_iff_partial (m : Comp) (hs : ∀ s, m.witness ≠ ofSet s)
    (hr : ∀ a f d, m.witness = range a f d → a < f → a % d ≤ f - a) (w c : ℕ) :
    m.checkLoose w c = true ↔ Enough m.witness w ∧ m.constant ≠ .unsat ∧ (m.constant = .required → 0 < c) := by
  obtain ⟨p, k⟩ := m
  unfold Comp.checkLoose
  rw [Bool.and_eq_true, checkLoose_iff_partial p hs hr]
  cases k <;> simp [Nat.pos_iff_ne_zero]

/-- **C54**: a component manifest is called satisfiable exactly when some numbers of columns are accepted. -/
theorem comp_isSat_iff_partial (m : Comp) (hr : ∀ a f d, m.witness = range a f d → a < f → a % d ≤ f - a) :
    m.isSat = true ↔ ∃ w c, Accepts m w c := by
  obtain ⟨p, k⟩ := m
  unfold Comp.isSat Accepts
  rw [Bool.and_eq_true, isSat_iff_partial p hr]
  constructor
  · rintro ⟨⟨v, hv⟩, h⟩
    exact ⟨v, 1, hv, by simpa using h, fun _ => one_pos⟩
  · rintro ⟨w, c, h1, h2, -⟩
    exact ⟨⟨w, h1⟩, by simpa using h2⟩

/-- **C55**: merging two parameters that allow something gives one that allows something. -/
theorem merge_sat (p q r : Param) (sp : ∃ x, Allowed p x) (sq : ∃ x, Allowed q x) (hr : merge p q = some r) :
    ∃ x, Allowed r x := by
  have rng : ∀ a f d, (∃ x, Allowed (range a f d) x) → a < f := by
    rintro a f d ⟨x, k, rfl, h⟩
    have := Nat.zero_le (k * d)
    omega
  have first : ∀ a f d, a < f → ∃ x, Allowed (range a f d) x := fun a f d h => ⟨a, 0, by simp, h⟩
  have sr : ∀ v a f d, ∃ x, Allowed (mergeSingleRange v a f d) x := by
    intro v a f d
    unfold mergeSingleRange
    simp only []
    split
    · rename_i h; exact first _ _ _ h
    · exact ⟨v, rfl⟩
  have ss : ∀ v s, ∃ x, Allowed (mergeSingleSet v s) x := by
    intro v s
    unfold mergeSingleSet
    simp only []
    split
    · exact ⟨v, by simp [Allowed]⟩
    · rename_i h
      obtain ⟨x, hx⟩ := Finset.nonempty_iff_ne_empty.2 h
      exact ⟨x, hx⟩
  have st : ∀ s a f d, mergeSetRange s a f d = some r → ∃ x, Allowed r x := by
    intro s a f d h
    unfold mergeSetRange at h
    split at h
    · rename_i hne
      simp only [Option.some.injEq] at h
      rw [← h]
      exact ⟨max ((s.filter fun x => a ≤ x).min' hne) a, by simp [Allowed]⟩
    · cases h
  cases p <;> cases q <;> try (simp [Allowed] at sp sq; done)
  all_goals simp only [merge, Option.some.injEq] at hr
  · rw [← hr]; split
    · exact ⟨_, rfl⟩
    · exact ⟨_, rfl⟩
  · rw [← hr]; exact sr _ _ _ _
  · rw [← hr]; exact ss _ _
  · rw [← hr]; exact sr _ _ _ _
  · rw [← hr]
    have h1 := rng _ _ _ sp
    have h2 := rng _ _ _ sq
    unfold mergeRange
    simp only []
    split_ifs
    · rename_i h; exact first _ _ _ h
    · exact ⟨_, rfl⟩
    · exact sp
    · exact sq
    · exact ⟨_, Finset.mem_union_left _ (Finset.mem_union_left _ (Finset.mem_singleton_self _))⟩
  · exact st _ _ _ _ hr
  · rw [← hr]; exact ss _ _
  · exact st _ _ _ _ hr
  · rw [← hr]
    rename_i s s'
    have h1 : s.Nonempty := sp
    have h2 : s'.Nonempty := sq
    rw [dif_pos ⟨h1, h2⟩]
    have hne : (s.filter (fun x => max (s.min' h1) (s'.min' h2) ≤ x)) ∪ (s'.filter fun x => max (s.min' h1) (s'.min' h2) ≤ x) ≠ ∅ := by
      apply Finset.Nonempty.ne_empty
      rcases le_total (s.min' h1) (s'.min' h2) with h | h
      · exact ⟨s'.min' h2, Finset.mem_union_right _ (Finset.mem_filter.2 ⟨Finset.min'_mem _ _, by rw [max_eq_right h]⟩)⟩
      · exact ⟨s.min' h1, Finset.mem_union_left _ (Finset.mem_filter.2 ⟨Finset.min'_mem _ _, by rw [max_eq_left h]⟩)⟩
    rw [if_neg hne]
    obtain ⟨x, hx⟩ := Finset.nonempty_iff_ne_empty.2 hne
    exact ⟨x, hx⟩

example : ∃ x, Allowed ((merge (range 9 28 3) (single 27)).getD unsat) x :=
  merge_sat (range 9 28 3) (single 27) _ ⟨9, 0, by norm_num, by norm_num⟩ ⟨27, rfl⟩ (by rfl)

example (r : Param) (hr : merge (range 9 28 3) (range 10 20 2) = some r) (v : ℕ) (h : Enough r v) :
    Enough (range 9 28 3) v ∧ Enough (range 10 20 2) v :=
  merge_enough_partial (range 9 28 3) (range 10 20 2) r (by norm_num [WF]) (by norm_num [WF]) ⟨9, 0, by norm_num, by norm_num⟩
    ⟨10, 0, by norm_num, by norm_num⟩ trivial hr v h

end Manifest
end Verif
