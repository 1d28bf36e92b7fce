import Verif.Model.R1csFinalExp
import Verif.Props.R1csExp
import Mathlib.FieldTheory.Finite.Basic

/-!
# C161: Frobenius maps and the final exponentiation
-/

set_option linter.unusedSectionVars false

namespace Verif
namespace R1cs
namespace Ext

variable {q : ℕ} [Fact q.Prime] {n : ℕ}

/-! ### Constants -/

/-- `W^q = ζ W`. -/
def zeta (β : ZMod q) (n : ℕ) : ZMod q := β ^ ((q - 1) / n)

theorem frobC_eq (β : ZMod q) {d j : ℕ} (hd : d ∣ q - 1) (m : ℕ) : frobC β q d j m = (β ^ ((q - 1) / d)) ^ (j * m) := by
  have hq : 1 ≤ q := (Fact.out : q.Prime).one_lt.le
  have key : ∀ m, β ^ ((q ^ m - 1) / d) = (β ^ ((q - 1) / d)) ^ m := by
    intro m
    induction m with
    | zero => simp
    | succ m ih =>
      have hm : d ∣ q ^ m - 1 := hd.trans (by simpa using Nat.sub_dvd_pow_sub_pow q 1 m)
      have h1 : 1 ≤ q ^ m := Nat.one_le_pow _ _ hq
      have e : q ^ (m + 1) - 1 = q * (q ^ m - 1) + (q - 1) := by
        obtain ⟨x, hx⟩ := Nat.exists_eq_add_of_le h1
        rw [pow_succ, hx, Nat.add_sub_cancel_left]
        have : (1 + x) * q = q * x + q := by ring
        omega
      rw [e, Nat.add_div_of_dvd_left hd, Nat.mul_div_assoc _ hm, pow_add, mul_comm q, pow_mul, ZMod.pow_card, ih, pow_succ]
  unfold frobC
  rw [mul_comm j, pow_mul, key, ← pow_mul, mul_comm m]

theorem zeta_div (β : ZMod q) {n d e : ℕ} (hn : n ∣ q - 1) (hd : n = d * e) (he : 0 < e) (hd0 : 0 < d) : β ^ ((q - 1) / d) = zeta β n ^ e := by
  unfold zeta
  rw [← pow_mul]
  congr 1
  obtain ⟨c, hc⟩ := hn
  rw [hc, hd, Nat.mul_div_cancel_left _ (Nat.mul_pos hd0 he), mul_assoc, Nat.mul_div_cancel_left _ hd0, mul_comm]

theorem zeta_pow (β : ZMod q) (hβ : β ≠ 0) (hn : n ∣ q - 1) : zeta β n ^ n = 1 := by
  unfold zeta
  rw [← pow_mul, Nat.div_mul_cancel hn, ZMod.pow_card_sub_one_eq_one hβ]

/-! ### Frobenius -/

/-- Coefficients of the `q^m`-th power. -/
def twist (z : ZMod q) (m : ℕ) (a : Fin n → ZMod q) : Fin n → ZMod q := fun i => z ^ ((i : ℕ) * m) * a i

section
variable {K : Type*} [CommRing K] [Algebra (ZMod q) K] {W : K} {β : ZMod q}

theorem pow_q (hK : CharP K q) (hn : n ∣ q - 1) (hW : W ^ n = algebraMap (ZMod q) K β) (a : Fin n → ZMod q) :
    toRing W a ^ q = toRing W (twist (zeta β n) 1 a) := by
  have hq : 1 ≤ q := (Fact.out : q.Prime).one_lt.le
  unfold toRing
  rw [sum_pow_char q]
  refine Finset.sum_congr rfl fun i _ => ?_
  have hWq : W ^ q = algebraMap (ZMod q) K (zeta β n) * W := by
    have : q = n * ((q - 1) / n) + 1 := by rw [Nat.mul_div_cancel' hn]; omega
    conv_lhs => rw [this]
    rw [pow_succ, pow_mul, hW, ← map_pow]
    rfl
  rw [mul_pow, ← map_pow, ZMod.pow_card, ← pow_mul, mul_comm (i : ℕ) q, pow_mul, hWq, mul_pow, ← map_pow, ← mul_assoc, ← map_mul]
  congr 2
  unfold twist
  rw [mul_one, mul_comm]

theorem pow_qm (hK : CharP K q) (hn : n ∣ q - 1) (hW : W ^ n = algebraMap (ZMod q) K β) (m : ℕ) (a : Fin n → ZMod q) :
    toRing W a ^ q ^ m = toRing W (twist (zeta β n) m a) := by
  induction m generalizing a with
  | zero =>
    rw [pow_zero, pow_one]
    congr 1
    funext i
    unfold twist
    rw [mul_zero, pow_zero, one_mul]
  | succ m ih =>
    rw [pow_succ, pow_mul, ih, pow_q hK hn hW]
    congr 1
    funext i
    unfold twist
    rw [mul_one, ← mul_assoc, ← pow_add]
    congr 2
    ring

/-- The `q^n`-th power is the identity. -/
theorem pow_qn (hK : CharP K q) (hn : n ∣ q - 1) (hβ : β ≠ 0) (hW : W ^ n = algebraMap (ZMod q) K β) (a : Fin n → ZMod q) :
    toRing W a ^ q ^ n = toRing W a := by
  rw [pow_qm hK hn hW]
  congr 1
  funext i
  unfold twist
  rw [mul_comm, mul_comm (i : ℕ), pow_mul, zeta_pow β hβ hn, one_pow, mul_one]

theorem ev_frob4 (hn : 4 ∣ q - 1) (hβ : β ≠ 0) (m : ℕ) (A : Elt (ZMod q) 4) (s : Asg (ZMod q)) :
    ev s (frob4 β q m A) = twist (zeta β 4) m (ev s A) := by
  have h2 : 2 ∣ q - 1 := Nat.dvd_trans (by decide) hn
  have z4 : zeta β 4 ^ 4 = 1 := zeta_pow β hβ hn
  have c4 : frobC β q 4 1 (m % 4) = zeta β 4 ^ m := by
    rw [frobC_eq β hn, one_mul]
    show zeta β 4 ^ (m % 4) = _
    conv_rhs => rw [← Nat.div_add_mod m 4, pow_add, pow_mul, z4, one_pow, one_mul]
  have c2 : frobC β q 2 1 (m % 2) = zeta β 4 ^ (2 * m) := by
    rw [frobC_eq β h2, one_mul, zeta_div β hn (d := 2) (e := 2) rfl (by decide) (by decide), ← pow_mul]
    conv_rhs => rw [← Nat.div_add_mod m 2, mul_add, ← mul_assoc, pow_add, pow_mul, show 2 * 2 = 4 from rfl, z4, one_pow, one_mul]
  funext i
  fin_cases i
  · show (A 0).lc.eval s = zeta β 4 ^ (0 * m) * (A 0).lc.eval s
    rw [Nat.zero_mul, pow_zero, one_mul]
  · show (Lc.smul (frobC β q 4 1 (m % 4)) (A 1).lc).eval s = zeta β 4 ^ (1 * m) * (A 1).lc.eval s
    rw [eval_smul, c4, one_mul]
  · show (Lc.smul (frobC β q 2 1 (m % 2)) (A 2).lc).eval s = zeta β 4 ^ (2 * m) * (A 2).lc.eval s
    rw [eval_smul, c2]
  · show (Lc.smul (frobC β q 2 1 (m % 2)) (Lc.smul (frobC β q 4 1 (m % 4)) (A 3).lc)).eval s = zeta β 4 ^ (3 * m) * (A 3).lc.eval s
    rw [eval_smul, eval_smul, c2, c4, ← mul_assoc, ← pow_add]
    congr 2
    ring

theorem ev_frob6 (hn : 6 ∣ q - 1) (hβ : β ≠ 0) (m : ℕ) (A : Elt (ZMod q) 6) (s : Asg (ZMod q)) :
    ev s (frob6 β q m A) = twist (zeta β 6) m (ev s A) := by
  have h3 : 3 ∣ q - 1 := Nat.dvd_trans (by decide) hn
  have z6 : zeta β 6 ^ 6 = 1 := zeta_pow β hβ hn
  have c6 : frobC β q 6 1 (m % 6) = zeta β 6 ^ m := by
    rw [frobC_eq β hn, one_mul]
    show zeta β 6 ^ (m % 6) = _
    conv_rhs => rw [← Nat.div_add_mod m 6, pow_add, pow_mul, z6, one_pow, one_mul]
  have c3 : ∀ j, frobC β q 3 j (m % 3) = zeta β 6 ^ (2 * j * m) := by
    intro j
    rw [frobC_eq β h3, zeta_div β hn (d := 3) (e := 2) rfl (by decide) (by decide), ← pow_mul]
    have : 2 * j * m = 6 * (j * (m / 3)) + 2 * (j * (m % 3)) := by
      conv_lhs => rw [← Nat.div_add_mod m 3]
      ring
    rw [this, pow_add, pow_mul _ 6, z6, one_pow, one_mul]
  funext i
  fin_cases i
  · show (A 0).lc.eval s = zeta β 6 ^ (0 * m) * (A 0).lc.eval s
    rw [Nat.zero_mul, pow_zero, one_mul]
  · show (Lc.smul (frobC β q 6 1 (m % 6)) (A 1).lc).eval s = zeta β 6 ^ (1 * m) * (A 1).lc.eval s
    rw [eval_smul, c6, one_mul]
  · show (Lc.smul (frobC β q 3 1 (m % 3)) (A 2).lc).eval s = zeta β 6 ^ (2 * m) * (A 2).lc.eval s
    rw [eval_smul, c3]
  · show (Lc.smul (frobC β q 6 1 (m % 6) * frobC β q 3 1 (m % 3)) (A 3).lc).eval s = zeta β 6 ^ (3 * m) * (A 3).lc.eval s
    rw [eval_smul, c3, c6, ← pow_add]
    congr 2
    ring
  · show (Lc.smul (frobC β q 3 2 (m % 3)) (A 4).lc).eval s = zeta β 6 ^ (4 * m) * (A 4).lc.eval s
    rw [eval_smul, c3]
  · show (Lc.smul (frobC β q 6 1 (m % 6) * frobC β q 3 2 (m % 3)) (A 5).lc).eval s = zeta β 6 ^ (5 * m) * (A 5).lc.eval s
    rw [eval_smul, c3, c6, ← pow_add]
    congr 2
    ring

/-- **C161**, Fp4: `Frobenius_map(m)` is the power `q^m`. -/
theorem frob4_pow (hK : CharP K q) (hn : 4 ∣ q - 1) (hβ : β ≠ 0) (hW : W ^ 4 = algebraMap (ZMod q) K β) (m : ℕ) (A : Elt (ZMod q) 4) (s : Asg (ZMod q)) :
    toRing W (ev s (frob4 β q m A)) = toRing W (ev s A) ^ q ^ m := by
  rw [ev_frob4 hn hβ, pow_qm hK hn hW]

/-- **C161**, Fp6: `Frobenius_map(m)` is the power `q^m`. -/
theorem frob6_pow (hK : CharP K q) (hn : 6 ∣ q - 1) (hβ : β ≠ 0) (hW : W ^ 6 = algebraMap (ZMod q) K β) (m : ℕ) (A : Elt (ZMod q) 6) (s : Asg (ZMod q)) :
    toRing W (ev s (frob6 β q m A)) = toRing W (ev s A) ^ q ^ m := by
  rw [ev_frob6 hn hβ, pow_qm hK hn hW]

end

/-! ### Exponentiation with a squaring for a subgroup -/

section
variable {F : Type*} [Field F] {K : Type*} [CommRing K] [Algebra F K] {W : K} {β : F}

/-- The multiplication is sound, the squaring for elements whose order divides `N`. -/
structure Gadgets.SoundOn (g : Gadgets F n) (β : F) (W : K) (N : ℕ) : Prop where
  mul : ∀ b A B R s, Sat s (g.mul b A B R) → ev s R = school n β (ev s A) (ev s B)
  sqr : ∀ b A R s, toRing W (ev s A) ^ N = 1 → Sat s (g.sqr b A R) → ev s R = school n β (ev s A) (ev s A)

theorem expGates_soundOn {N : ℕ} (hW : W ^ n = algebraMap F K β) {g : Gadgets F n} (hg : g.SoundOn β W N) (A : Elt F n) (nd : ℕ → Elt F n) (s : Asg F)
    (u : Kˣ) (hN : u ^ N = 1) (hu : toRing W (ev s A) = u) (l : List Step) (k aux : ℕ) (e : ℤ)
    (hk : toRing W (ev s (nd k)) = ((u ^ e : Kˣ) : K)) (hs : Sat s (expGates g A nd k aux l)) :
    toRing W (ev s (nd (k + l.length))) = ((u ^ runExp e l : Kˣ) : K) := by
  induction l generalizing k aux e with
  | nil => exact hk
  | cons a l ih =>
    cases a
    · obtain ⟨h1, h2⟩ := (sat_append _ _ _).1 hs
      have := ih (k + 1) _ (2 * e) (by
        have hn' : toRing W (ev s (nd k)) ^ N = 1 := by
          rw [hk, ← Units.val_pow_eq_pow_val, ← zpow_natCast, ← zpow_mul, mul_comm, zpow_mul, zpow_natCast, hN, one_zpow, Units.val_one]
        rw [hg.sqr _ _ _ _ hn' h1, school_ring W β hW, hk, two_mul, zpow_add, Units.val_mul]) h2
      rwa [show k + 1 + l.length = k + (l.length + 1) by omega] at this
    · obtain ⟨h1, h2⟩ := (sat_append _ _ _).1 hs
      have := ih (k + 1) _ (e + 1) (by
        rw [hg.mul _ _ _ _ _ h1, school_ring W β hW, hk, hu, zpow_add, Units.val_mul, zpow_one]) h2
      rwa [show k + 1 + l.length = k + (l.length + 1) by omega] at this
    · obtain ⟨h1, h2⟩ := (sat_append _ _ _).1 hs
      have := ih (k + 1) _ (e - 1) (by
        have h := hg.mul _ _ _ _ _ h1
        have h := congrArg (toRing W) h
        rw [school_ring W β hW, hk, hu] at h
        rw [zpow_sub, zpow_one, Units.val_mul, h, mul_assoc, Units.mul_inv, mul_one]) h2
      rwa [show k + 1 + l.length = k + (l.length + 1) by omega] at this

theorem expComp_soundOn {N : ℕ} (hn : n ≠ 0) (hW : W ^ n = algebraMap F K β) {g : Gadgets F n} (hg : g.SoundOn β W N) (inter : ℕ → Elt F n) (aux power : ℕ)
    (A R : Elt F n) (s : Asg F) (cs : List (Constraint F)) (hc : expComp g inter aux (naf power) A R = some cs) (u : Kˣ) (hN : u ^ N = 1)
    (hu : toRing W (ev s A) = u) (hs : Sat s cs) : toRing W (ev s R) = ((u ^ power : Kˣ) : K) := by
  unfold expComp at hc
  simp only at hc
  split_ifs at hc with h0
  obtain rfl := Option.some.inj hc
  set l := steps false (naf power).reverse with hl
  have hlen : l.length ≠ 0 := fun h => h0 (List.length_eq_zero_iff.1 h)
  have key := expGates_soundOn hW hg A (node inter R l.length) s u hN hu l 0 aux 0 (by
    rw [node, if_neg (Ne.symm hlen), if_pos rfl, ev_oneElt W hn]; simp) hs
  rw [Nat.zero_add, node, if_pos rfl, hl,
    runExp_steps _ (fun d hd => (naf_value power).2 d (List.mem_reverse.1 hd)) false 0 (fun _ => rfl), horner_reverse,
    (naf_value power).1, zpow_natCast] at key
  exact key

theorem equalsConst_iff (s : Asg F) (A : Elt F n) (c : Fin n → F) : Sat s (equalsConst A c) ↔ ev s A = c := by
  simp only [Sat, equalsConst, List.mem_ofFn, forall_exists_index, forall_apply_eq_imp_iff, Constraint.Holds, eval_const, one_mul]
  constructor
  · intro h; funext i; exact (h i).symm
  · intro h i; rw [← h]; rfl

theorem toRing_one (W : K) (hn : n ≠ 0) : toRing W (oneVal n : Fin n → F) = 1 := by
  have := ev_oneElt (F := F) (n := n) W hn (fun _ => 0)
  rw [← this]; congr 1; funext i; simp [ev, oneElt, oneVal, Ent.lc]

theorem isOne_iff (s : Asg F) (v : ℕ) (R : Elt F n) : Sat s (isOneGates v R) ↔ val s v = 0 ∨ (val s v = 1 ∧ ev s R = oneVal n) := by
  have hR : Sat s (List.ofFn fun i : Fin n => (⟨Lc.var v, if (i : ℕ) = 0 then (Lc.const 1).sub (R i).lc else (R i).lc, Lc.const 0⟩ : Constraint F)) ↔
      ∀ i : Fin n, val s v * (if (i : ℕ) = 0 then 1 - ev s R i else ev s R i) = 0 := by
    simp only [Sat, List.mem_ofFn, forall_exists_index, forall_apply_eq_imp_iff, Constraint.Holds, eval_const, eval_var]
    refine forall_congr' fun i => ?_
    split <;> simp only [eval_sub, eval_const, ev]
  unfold isOneGates
  rw [sat_cons, hR]
  simp only [Constraint.Holds, eval_var, eval_sub, eval_const]
  constructor
  · rintro ⟨h1, h2⟩
    rcases mul_eq_zero.1 h1 with h | h
    · exact Or.inl h
    · have e : val s v = 1 := (sub_eq_zero.1 h).symm
      refine Or.inr ⟨e, funext fun i => ?_⟩
      have := h2 i
      rw [e, one_mul] at this
      unfold oneVal
      split at this <;> rename_i h0
      · rw [if_pos h0]; exact (sub_eq_zero.1 this).symm
      · rw [if_neg h0]; exact this
  · rintro (h | ⟨h1, h2⟩)
    · rw [h]; exact ⟨by ring, fun i => by ring⟩
    · rw [h1, h2]
      refine ⟨by ring, fun i => ?_⟩
      unfold oneVal
      split <;> simp

end

/-! ### The cyclotomic squarings -/

open Polynomial

/-- The extension field as a ring. -/
abbrev Ring (n : ℕ) (β : ZMod q) : Type := AdjoinRoot (X ^ n - C β : (ZMod q)[X])
/-- Its generator. -/
noncomputable abbrev gen (n : ℕ) (β : ZMod q) : Ring n β := AdjoinRoot.root (X ^ n - C β : (ZMod q)[X])

theorem ring_char (hn : n ≠ 0) (β : ZMod q) : CharP (Ring n β) q := by
  have hd : (X ^ n - C β : (ZMod q)[X]).degree ≠ 0 := by
    rw [degree_X_pow_sub_C (Nat.pos_of_ne_zero hn)]
    exact_mod_cast hn
  haveI : Nontrivial (Ring n β) := AdjoinRoot.nontrivial _ hd
  exact charP_of_injective_algebraMap (algebraMap (ZMod q) (Ring n β)).injective q

/-- Fp4 with direct multiplication and cyclotomic squaring. -/
def g4c (β : ZMod q) : Gadgets (ZMod q) 4 := ⟨fun b => fp4Direct β b (b + 1) (b + 2), 3, fun _ => fp4Cyc β, 0⟩
/-- Fp6 with cyclotomic squaring. -/
def g6c (β : ZMod q) : Gadgets (ZMod q) 6 := ⟨fun b => fp6Mul β b, 9, fun _ => fp6Cyc β, 0⟩

theorem g4c_sound (h2 : (2 : ZMod q) ≠ 0) (h3 : (3 : ZMod q) ≠ 0) (h5 : (5 : ZMod q) ≠ 0) {β : ZMod q} (hβ : β ≠ 0) (hβ1 : β ≠ 1) (hn : 4 ∣ q - 1)
    (hz : zeta β 4 ^ 2 = -1) : (g4c β).SoundOn β (gen 4 β) (q ^ 2 + 1) := by
  refine ⟨fun _ A B R s h => ((fp4Direct_iff h2 h3 h5 hβ1 _ _ _ A B R s).1 h).2.2.2, fun _ A R s hN h => ?_⟩
  refine (fp4Cyc_iff h2 hβ A R s (toRing_inj (by decide) β ?_)).1 h
  show toRing (gen 4 β) _ = toRing (gen 4 β) _
  have e1 : (![1, 0, 0, 0] : Fin 4 → ZMod q) = oneVal 4 := by funext i; fin_cases i <;> rfl
  have e2 : conj4 (ev s A) = twist (zeta β 4) 2 (ev s A) := by
    have z4 : zeta β 4 ^ 4 = 1 := zeta_pow β hβ hn
    funext i
    fin_cases i
    · show ev s A 0 = zeta β 4 ^ (0 * 2) * ev s A 0; rw [Nat.zero_mul, pow_zero, one_mul]
    · show -ev s A 1 = zeta β 4 ^ (1 * 2) * ev s A 1; rw [one_mul, hz, neg_one_mul]
    · show ev s A 2 = zeta β 4 ^ (2 * 2) * ev s A 2; rw [show 2 * 2 = 4 from rfl, z4, one_mul]
    · show -ev s A 3 = zeta β 4 ^ (3 * 2) * ev s A 3; rw [show 3 * 2 = 4 + 2 from rfl, pow_add, z4, hz, one_mul, neg_one_mul]
  rw [e1, e2, school_ring _ β (root_pow β), toRing_one _ (by decide), ← pow_qm (ring_char (by decide) β) hn (root_pow β), ← pow_succ', hN]

theorem g6c_sound (h2 : (2 : ZMod q) ≠ 0) (h3 : (3 : ZMod q) ≠ 0) {β : ZMod q} (hβ : β ≠ 0) (hn : 6 ∣ q - 1)
    (hz : zeta β 6 ^ 2 - zeta β 6 + 1 = 0) : (g6c β).SoundOn β (gen 6 β) (q ^ 2 - q + 1) := by
  refine ⟨fun b A B R s h => ((fp6Mul_iff h2 h3 hβ b A B R s).1 h).2, fun _ A R s hN h => ?_⟩
  refine (fp6Cyc_square h2 h3 hβ hz A R s (toRing_inj (by decide) β ?_)).1 h
  show toRing (gen 6 β) _ = toRing (gen 6 β) _
  have e1 : frob (zeta β 6) (ev s A) = twist (zeta β 6) 1 (ev s A) := by
    funext i; show _ * _ = _ ^ (_ * 1) * _; rw [mul_one]
  have e2 : frob (zeta β 6) (frob (zeta β 6) (ev s A)) = twist (zeta β 6) 2 (ev s A) := by
    funext i; show _ * (_ * _) = _ ^ (_ * 2) * _; rw [← mul_assoc, ← pow_add, mul_two]
  have hle : q ≤ q ^ 2 := Nat.le_self_pow (by decide) q
  rw [e2, e1, school_ring _ β (root_pow β), ← pow_qm (ring_char (by decide) β) hn (root_pow β), ← pow_q (ring_char (by decide) β) hn (root_pow β), ← pow_succ',
    show q ^ 2 + 1 = (q ^ 2 - q + 1) + q by omega, pow_add, hN, one_mul]

/-! ### C161 -/

/-- **C161**, embedding degree 4: what is accepted is the power of an invertible element, and the flag is 1 only if it is 1. -/
theorem finalExp4_sound (h2 : (2 : ZMod q) ≠ 0) (h3 : (3 : ZMod q) ≠ 0) (h5 : (5 : ZMod q) ≠ 0) {β : ZMod q} (hβ : β ≠ 0) (hβ1 : β ≠ 1) (hn : 4 ∣ q - 1)
    (hz : zeta β 4 ^ 2 = -1) (k : FinalExp (ZMod q) 4) (s : Asg (ZMod q)) (cs : List (Constraint (ZMod q))) (hc : k.gates4 (g4c β) β q = some cs) (hs : Sat s cs) :
    ∃ u : (Ring 4 β)ˣ, toRing (gen 4 β) (ev s k.el) = u ∧
      toRing (gen 4 β) (ev s k.result) = ((u ^ (((q : ℤ) ^ 2 - 1) * (q * k.pow1 + (if k.neg then -1 else 1) * k.pow0)) : (Ring 4 β)ˣ) : Ring 4 β) ∧
      (val s k.isOne = 0 ∨ (val s k.isOne = 1 ∧ toRing (gen 4 β) (ev s k.result) = 1)) := by
  have hW := root_pow (n := 4) β
  have hK := ring_char (n := 4) (by decide) β
  have hg := g4c_sound h2 h3 h5 hβ hβ1 hn hz
  unfold FinalExp.gates4 at hc
  obtain ⟨c1, hc1, hc⟩ := Option.bind_eq_some_iff.1 hc
  obtain ⟨c0, hc0, hc⟩ := Option.bind_eq_some_iff.1 hc
  obtain rfl := Option.some.inj hc
  simp only [sat_append] at hs
  obtain ⟨⟨⟨⟨⟨⟨⟨s1, s2⟩, s3⟩, s4⟩, s5⟩, s6⟩, s7⟩, s8⟩ := hs
  rw [equalsConst_iff] at s1
  have m2 := congrArg (toRing (gen 4 β)) (hg.mul _ _ _ _ _ s2)
  have m3 := congrArg (toRing (gen 4 β)) (hg.mul _ _ _ _ _ s3)
  have m4 := congrArg (toRing (gen 4 β)) (hg.mul _ _ _ _ _ s4)
  have m7 := congrArg (toRing (gen 4 β)) (hg.mul _ _ _ _ _ s7)
  rw [school_ring _ β hW] at m2 m3 m4 m7
  rw [s1, toRing_one _ (by decide)] at m2
  rw [frob4_pow hK hn hβ hW] at m3 m4
  have hx4 := pow_qn hK hn hβ hW (ev s k.el)
  obtain ⟨u, hu, hui⟩ : ∃ u : (Ring 4 β)ˣ, toRing (gen 4 β) (ev s k.el) = u ∧ toRing (gen 4 β) (ev s k.elInv) = ((u⁻¹ : (Ring 4 β)ˣ) : Ring 4 β) :=
    ⟨⟨_, _, m2.symm, by rw [mul_comm]; exact m2.symm⟩, rfl, rfl⟩
  have hu4 : u ^ ((q : ℤ) ^ 4) = u := by
    rw [hu, ← Units.val_pow_eq_pow_val] at hx4
    have := Units.ext hx4
    rw [show (q : ℤ) ^ 4 = ((q ^ 4 : ℕ) : ℤ) by push_cast; rfl, zpow_natCast]
    exact this
  have hv : ∀ z : (Ring 4 β)ˣ, (z : Ring 4 β) ^ q ^ 2 = ((z ^ ((q : ℤ) ^ 2) : (Ring 4 β)ˣ) : Ring 4 β) := fun z => by
    rw [← Units.val_pow_eq_pow_val, ← zpow_natCast]; push_cast; rfl
  have he : toRing (gen 4 β) (ev s k.e) = ((u ^ ((q : ℤ) ^ 2 - 1) : (Ring 4 β)ˣ) : Ring 4 β) := by
    rw [m3, hu, hui, hv, ← Units.val_mul, zpow_sub_one]
  have hei : toRing (gen 4 β) (ev s k.eInv) = ((u ^ (-((q : ℤ) ^ 2 - 1)) : (Ring 4 β)ˣ) : Ring 4 β) := by
    rw [m4, hu, hui, hv, ← Units.val_mul, neg_sub, zpow_sub, inv_zpow, mul_comm, zpow_one]
  have hN : ∀ z : ℤ, (u ^ (((q : ℤ) ^ 2 - 1) * z)) ^ (q ^ 2 + 1) = 1 := by
    intro z
    rw [← zpow_natCast, ← zpow_mul, show ((q : ℤ) ^ 2 - 1) * z * ((q ^ 2 + 1 : ℕ) : ℤ) = ((q : ℤ) ^ 4 - 1) * z by push_cast; ring, zpow_mul, zpow_sub_one, hu4,
      mul_inv_cancel, one_zpow]
  have w1 := expComp_soundOn (by decide) hW hg _ _ _ _ _ s c1 hc1 (u ^ (((q : ℤ) ^ 2 - 1) * q)) (hN _) (by
    rw [frob4_pow hK hn hβ hW, he, pow_one, ← Units.val_pow_eq_pow_val, ← zpow_natCast, ← zpow_mul]) s5
  have w0 := expComp_soundOn (by decide) hW hg _ _ _ _ _ s c0 hc0 (u ^ (((q : ℤ) ^ 2 - 1) * (if k.neg then -1 else 1))) (hN _) (by
    cases k.neg
    · rw [if_neg (by decide), if_neg (by decide), mul_one]; exact he
    · rw [if_pos rfl, if_pos rfl, mul_neg_one]; exact hei) s6
  refine ⟨u, hu, ?_, ?_⟩
  · rw [m7, w1, w0, ← Units.val_mul, ← zpow_natCast, ← zpow_natCast, ← zpow_mul, ← zpow_mul, ← zpow_add]
    congr 2
    ring
  · rcases (isOne_iff s k.isOne k.result).1 s8 with h | ⟨h, h'⟩
    · exact Or.inl h
    · exact Or.inr ⟨h, by rw [h', toRing_one _ (by decide)]⟩

/-- **C161**, embedding degree 6. -/
theorem finalExp6_sound (h2 : (2 : ZMod q) ≠ 0) (h3 : (3 : ZMod q) ≠ 0) {β : ZMod q} (hβ : β ≠ 0) (hn : 6 ∣ q - 1)
    (hz : zeta β 6 ^ 2 - zeta β 6 + 1 = 0) (k : FinalExp (ZMod q) 6) (s : Asg (ZMod q)) (cs : List (Constraint (ZMod q))) (hc : k.gates6 (g6c β) β q = some cs)
    (hs : Sat s cs) :
    ∃ u : (Ring 6 β)ˣ, toRing (gen 6 β) (ev s k.el) = u ∧
      toRing (gen 6 β) (ev s k.result) =
        ((u ^ (((q : ℤ) ^ 3 - 1) * (q + 1) * (q * k.pow1 + (if k.neg then -1 else 1) * k.pow0)) : (Ring 6 β)ˣ) : Ring 6 β) ∧
      (val s k.isOne = 0 ∨ (val s k.isOne = 1 ∧ toRing (gen 6 β) (ev s k.result) = 1)) := by
  have hW := root_pow (n := 6) β
  have hK := ring_char (n := 6) (by decide) β
  have hg := g6c_sound h2 h3 hβ hn hz
  unfold FinalExp.gates6 at hc
  obtain ⟨c1, hc1, hc⟩ := Option.bind_eq_some_iff.1 hc
  obtain ⟨c0, hc0, hc⟩ := Option.bind_eq_some_iff.1 hc
  obtain rfl := Option.some.inj hc
  simp only [sat_append] at hs
  obtain ⟨⟨⟨⟨⟨⟨⟨⟨⟨s1, s2⟩, s3⟩, s4⟩, s5⟩, s6⟩, s7⟩, s8⟩, s9⟩, s10⟩ := hs
  rw [equalsConst_iff] at s1
  have m2 := congrArg (toRing (gen 6 β)) (hg.mul _ _ _ _ _ s2)
  have m3 := congrArg (toRing (gen 6 β)) (hg.mul _ _ _ _ _ s3)
  have m4 := congrArg (toRing (gen 6 β)) (hg.mul _ _ _ _ _ s4)
  have m5 := congrArg (toRing (gen 6 β)) (hg.mul _ _ _ _ _ s5)
  have m6 := congrArg (toRing (gen 6 β)) (hg.mul _ _ _ _ _ s6)
  have m9 := congrArg (toRing (gen 6 β)) (hg.mul _ _ _ _ _ s9)
  rw [school_ring _ β hW] at m2 m3 m4 m5 m6 m9
  rw [s1, toRing_one _ (by decide)] at m2
  rw [frob6_pow hK hn hβ hW] at m3 m4 m5 m6
  rw [pow_one] at m4 m6
  have hx6 := pow_qn hK hn hβ hW (ev s k.el)
  obtain ⟨u, hu, hui⟩ : ∃ u : (Ring 6 β)ˣ, toRing (gen 6 β) (ev s k.el) = u ∧ toRing (gen 6 β) (ev s k.elInv) = ((u⁻¹ : (Ring 6 β)ˣ) : Ring 6 β) :=
    ⟨⟨_, _, m2.symm, by rw [mul_comm]; exact m2.symm⟩, rfl, rfl⟩
  have hu6 : u ^ ((q : ℤ) ^ 6) = u := by
    rw [hu, ← Units.val_pow_eq_pow_val] at hx6
    have := Units.ext hx6
    rw [show (q : ℤ) ^ 6 = ((q ^ 6 : ℕ) : ℤ) by push_cast; rfl, zpow_natCast]
    exact this
  have hv : ∀ (z : (Ring 6 β)ˣ) (m : ℕ), (z : Ring 6 β) ^ q ^ m = ((z ^ ((q : ℤ) ^ m) : (Ring 6 β)ˣ) : Ring 6 β) := fun z m => by
    rw [← Units.val_pow_eq_pow_val, ← zpow_natCast]; push_cast; rfl
  have hv1 : ∀ (z : (Ring 6 β)ˣ), (z : Ring 6 β) ^ q = ((z ^ (q : ℤ) : (Ring 6 β)ˣ) : Ring 6 β) := fun z => by
    rw [← Units.val_pow_eq_pow_val, ← zpow_natCast]
  have he : toRing (gen 6 β) (ev s k.e) = ((u ^ ((q : ℤ) ^ 3 - 1) : (Ring 6 β)ˣ) : Ring 6 β) := by
    rw [m3, hu, hui, hv, ← Units.val_mul, zpow_sub_one]
  have hei : toRing (gen 6 β) (ev s k.eInv) = ((u ^ (-((q : ℤ) ^ 3 - 1)) : (Ring 6 β)ˣ) : Ring 6 β) := by
    rw [m5, hu, hui, hv, ← Units.val_mul, neg_sub, zpow_sub, inv_zpow, mul_comm, zpow_one]
  have hb : toRing (gen 6 β) (ev s k.beta) = ((u ^ (((q : ℤ) ^ 3 - 1) * (q + 1)) : (Ring 6 β)ˣ) : Ring 6 β) := by
    rw [m4, he, hv1, ← Units.val_mul, ← zpow_mul, ← zpow_add]
    congr 2
    ring
  have hbi : toRing (gen 6 β) (ev s k.betaInv) = ((u ^ (-(((q : ℤ) ^ 3 - 1) * (q + 1))) : (Ring 6 β)ˣ) : Ring 6 β) := by
    rw [m6, hei, hv1, ← Units.val_mul, ← zpow_mul, ← zpow_add]
    congr 2
    ring
  have hle : q ≤ q ^ 2 := Nat.le_self_pow (by decide) q
  have hN : ∀ z : ℤ, (u ^ (((q : ℤ) ^ 3 - 1) * (q + 1) * z)) ^ (q ^ 2 - q + 1) = 1 := by
    intro z
    rw [← zpow_natCast, ← zpow_mul, show ((q : ℤ) ^ 3 - 1) * (q + 1) * z * ((q ^ 2 - q + 1 : ℕ) : ℤ) = ((q : ℤ) ^ 6 - 1) * z by push_cast [hle]; ring, zpow_mul,
      zpow_sub_one, hu6, mul_inv_cancel, one_zpow]
  have w1 := expComp_soundOn (by decide) hW hg _ _ _ _ _ s c1 hc1 (u ^ (((q : ℤ) ^ 3 - 1) * (q + 1) * q)) (hN _) (by
    rw [frob6_pow hK hn hβ hW, hb, pow_one, hv1, ← zpow_mul]) s8
  have w0 := expComp_soundOn (by decide) hW hg _ _ _ _ _ s c0 hc0 (u ^ (((q : ℤ) ^ 3 - 1) * (q + 1) * (if k.neg then -1 else 1))) (hN _) (by
    cases k.neg
    · rw [if_neg (by decide), if_neg (by decide), mul_one]; exact hb
    · rw [if_pos rfl, if_pos rfl, mul_neg_one]; exact hbi) s7
  refine ⟨u, hu, ?_, ?_⟩
  · rw [m9, w1, w0, ← Units.val_mul, ← zpow_natCast, ← zpow_natCast, ← zpow_mul, ← zpow_mul, ← zpow_add]
    congr 2
    ring
  · rcases (isOne_iff s k.isOne k.result).1 s10 with h | ⟨h, h'⟩
    · exact Or.inl h
    · exact Or.inr ⟨h, by rw [h', toRing_one _ (by decide)]⟩

/-! ### Cases -/

theorem naf_1 : naf 1 = [1] := by
  have n0 : naf 0 = [] := by rw [naf]; rfl
  rw [naf]; simp [n0]

private instance : Fact (Nat.Prime 13) := ⟨by decide⟩
private instance : Fact (Nat.Prime 7) := ⟨by decide⟩

/-- Embedding degree 4, both exponents 1. -/
def fe4 : FinalExp (ZMod 13) 4 :=
  ⟨fresh 4 1, fresh 4 5, fresh 4 9, fresh 4 13, fresh 4 17, fresh 4 0, fresh 4 0, fresh 4 21, fresh 4 25, fresh 4 29, 33, fun i => 34 + 3 * i, fun _ => fresh 4 0,
    fun _ => fresh 4 0, 46, 49, 1, 1, false⟩

/-- Its constraints. -/
def fe4Gates : List (Constraint (ZMod 13)) :=
  let k := fe4
  let g := g4c (2 : ZMod 13)
  equalsConst k.one (oneVal 4) ++ g.mul (k.aux 0) k.el k.elInv k.one ++ g.mul (k.aux 1) (frob4 2 13 2 k.el) k.elInv k.e ++
    g.mul (k.aux 2) (frob4 2 13 2 k.elInv) k.el k.eInv ++ (g.mul 46 (oneElt 4) (frob4 2 13 1 k.e) k.w1 ++ []) ++ (g.mul 49 (oneElt 4) k.e k.w0 ++ []) ++
    g.mul (k.aux 3) k.w1 k.w0 k.result ++ isOneGates k.isOne k.result

theorem fe4_gates : fe4.gates4 (g4c 2) 2 13 = some fe4Gates := by
  have e1 : fe4.pow1 = 1 := rfl
  have e0 : fe4.pow0 = 1 := rfl
  unfold FinalExp.gates4
  rw [e1, e0, naf_1]
  rfl

/-- The hypotheses can be met: `(2 + W)` with `W^4 = 2` over 13 elements. -/
example : (2 : ZMod 13) ≠ 0 ∧ (3 : ZMod 13) ≠ 0 ∧ (5 : ZMod 13) ≠ 0 ∧ (2 : ZMod 13) ≠ 1 ∧ 4 ∣ 13 - 1 ∧ zeta (2 : ZMod 13) 4 ^ 2 = -1 := by decide +kernel
example : Sat (ofList [2, 1, 0, 0, 1, 0, 0, 0, 8, 9, 2, 12, 5, 10, 8, 9, 5, 3, 8, 4, 5, 2, 5, 6, 5, 10, 8, 9, 1, 12, 11, 11, 0, 2, 2, 0, 5, 6, 0, 6, 5, 0, 4, 1, 2, 5, 2, 0, 6, 7, 0]) fe4Gates := by
  unfold Sat Constraint.Holds; decide +kernel

/-- **C162**, the direction that holds, for both components: the flag is a bit, and if it is 1 the result is 1. -/
theorem finalExp_flag_partial {F : Type*} [Field F] (s : Asg F) (v : ℕ) (R : Elt F n) (h : Sat s (isOneGates v R)) :
    (val s v = 0 ∨ val s v = 1) ∧ (val s v = 1 → ev s R = oneVal n) := by
  rcases (isOne_iff s v R).1 h with h | ⟨h1, h2⟩
  · exact ⟨Or.inl h, fun h' => absurd (h.symm.trans h') zero_ne_one⟩
  · exact ⟨Or.inr h1, fun _ => h2⟩

/-- **C162** is false of the code: the result is 1 and the flag is 0. -/
theorem finalExp4_flag_forged : ∃ s cs, fe4.gates4 (g4c 2) 2 13 = some cs ∧ Sat s cs ∧ ev s fe4.result = oneVal 4 ∧ val s fe4.isOne = 0 :=
  ⟨ofList [1, 0, 0, 0, 1, 0, 0, 0, 1, 0, 0, 0, 1, 0, 0, 0, 1, 0, 0, 0, 1, 0, 0, 0, 1, 0, 0, 0, 1, 0, 0, 0, 0, 1, 1, 0, 1, 1, 0, 1, 1, 0, 1, 1, 0, 1, 1, 0, 1, 1, 0], fe4Gates, fe4_gates, by
    unfold Sat Constraint.Holds; decide +kernel, by decide +kernel, by decide +kernel⟩

/-- Embedding degree 6, both exponents 1, the second negative. -/
def fe6 : FinalExp (ZMod 7) 6 :=
  ⟨fresh 6 1, fresh 6 7, fresh 6 13, fresh 6 19, fresh 6 25, fresh 6 31, fresh 6 37, fresh 6 43, fresh 6 49, fresh 6 55, 61, fun i => 62 + 9 * i, fun _ => fresh 6 0,
    fun _ => fresh 6 0, 116, 125, 1, 1, true⟩

/-- Its constraints. -/
def fe6Gates : List (Constraint (ZMod 7)) :=
  let k := fe6
  let g := g6c (3 : ZMod 7)
  equalsConst k.one (oneVal 6) ++ g.mul (k.aux 0) k.el k.elInv k.one ++ g.mul (k.aux 1) (frob6 3 7 3 k.el) k.elInv k.e ++
    g.mul (k.aux 2) (frob6 3 7 1 k.e) k.e k.beta ++ g.mul (k.aux 3) (frob6 3 7 3 k.elInv) k.el k.eInv ++
    g.mul (k.aux 4) (frob6 3 7 1 k.eInv) k.eInv k.betaInv ++ (g.mul 125 (oneElt 6) k.betaInv k.w0 ++ []) ++
    (g.mul 116 (oneElt 6) (frob6 3 7 1 k.beta) k.w1 ++ []) ++ g.mul (k.aux 5) k.w1 k.w0 k.result ++ isOneGates k.isOne k.result

theorem fe6_gates : fe6.gates6 (g6c 3) 3 7 = some fe6Gates := by
  have e1 : fe6.pow1 = 1 := rfl
  have e0 : fe6.pow0 = 1 := rfl
  unfold FinalExp.gates6
  rw [e1, e0, naf_1]
  rfl

/-- The hypotheses can be met: `(2 + W)` with `W^6 = 3` over 7 elements. -/
example : (2 : ZMod 7) ≠ 0 ∧ (3 : ZMod 7) ≠ 0 ∧ 6 ∣ 7 - 1 ∧ zeta (3 : ZMod 7) 6 ^ 2 - zeta (3 : ZMod 7) 6 + 1 = 0 := by decide +kernel
example : Sat (ofList [2, 1, 0, 0, 0, 0, 1, 0, 0, 0, 0, 0, 5, 1, 3, 2, 6, 4, 5, 4, 5, 1, 3, 2, 5, 3, 5, 6, 3, 5, 1, 2, 3, 3, 4, 2, 1, 5, 3, 4, 4, 5, 1, 6, 6, 4, 2, 3, 1, 5, 3, 4, 4, 5, 1, 4, 5, 3, 1, 1, 0, 1, 2, 4, 1, 0, 3, 0, 4, 0, 6, 5, 3, 6, 0, 3, 0, 6, 0, 2, 5, 0, 6, 6, 4, 1, 6, 5, 6, 5, 3, 6, 0, 3, 0, 5, 0, 2, 5, 0, 6, 6, 4, 1, 0, 2, 0, 5, 5, 2, 1, 1, 1, 0, 3, 0, 0, 0, 0, 0, 1, 0, 0, 0, 0, 0, 0, 0, 0, 1, 0, 6, 0]) fe6Gates := by
  unfold Sat Constraint.Holds; decide +kernel

end Ext
end R1cs
end Verif
