import Verif.Model.R1csExp
import Verif.Props.R1csExt
import Mathlib.RingTheory.AdjoinRoot

/-!
# The exponentiation component

Specification: powers in a commutative ring over `F` with an element `W`, `W^n = β` (`toRing`); in `F[X]/(X^n - β)` the coefficients are
determined by the value (`toRing_inj`).
-/

set_option linter.unusedSectionVars false

namespace Verif
namespace R1cs
namespace Ext

variable {F : Type*} [Field F] {n : ℕ}

/-- The number with the given digits, least significant first. -/
def ofDigits : List ℤ → ℤ
  | [] => 0
  | d :: ds => d + 2 * ofDigits ds

/-- C121: the signed digits represent the exponent. -/
theorem naf_value (c : ℕ) : ofDigits (naf c) = c ∧ ∀ d ∈ naf c, d = 0 ∨ d = 1 ∨ d = -1 := by
  induction c using Nat.strong_induction_on with
  | _ c ih =>
    unfold naf
    split_ifs with h0 h2 h4
    · subst h0; exact ⟨rfl, by simp⟩
    · obtain ⟨i1, i2⟩ := ih (c / 2) (by omega)
      refine ⟨?_, ?_⟩
      · show 0 + 2 * ofDigits _ = _; rw [i1]; omega
      · intro d hd; rcases List.mem_cons.1 hd with rfl | hd
        · exact Or.inl rfl
        · exact i2 d hd
    · obtain ⟨i1, i2⟩ := ih ((c - 1) / 2) (by omega)
      refine ⟨?_, ?_⟩
      · show 1 + 2 * ofDigits _ = _; rw [i1]; omega
      · intro d hd; rcases List.mem_cons.1 hd with rfl | hd
        · exact Or.inr (Or.inl rfl)
        · exact i2 d hd
    · obtain ⟨i1, i2⟩ := ih ((c + 1) / 2) (by omega)
      refine ⟨?_, ?_⟩
      · show -1 + 2 * ofDigits _ = _; rw [i1]; omega
      · intro d hd; rcases List.mem_cons.1 hd with rfl | hd
        · exact Or.inr (Or.inr rfl)
        · exact i2 d hd

/-- The exponent that a chain of steps computes from the exponent `e`. -/
def runExp : ℤ → List Step → ℤ
  | e, [] => e
  | e, .dbl :: l => runExp (2 * e) l
  | e, .add :: l => runExp (e + 1) l
  | e, .sub :: l => runExp (e - 1) l

theorem runExp_append (e : ℤ) (l m : List Step) : runExp e (l ++ m) = runExp (runExp e l) m := by
  induction l generalizing e with
  | nil => rfl
  | cons a l ih => cases a <;> exact ih _

/-- Horner, most significant digit first. -/
def horner (e : ℤ) (ds : List ℤ) : ℤ := ds.foldl (fun e d => 2 * e + d) e

theorem horner_reverse (ds : List ℤ) : horner 0 ds.reverse = ofDigits ds := by
  unfold horner
  induction ds with
  | nil => rfl
  | cons d ds ih =>
    rw [List.reverse_cons, List.foldl_append, ih]
    show 2 * ofDigits ds + d = d + 2 * ofDigits ds
    ring

theorem runExp_steps (ds : List ℤ) (hd : ∀ d ∈ ds, d = 0 ∨ d = 1 ∨ d = -1) (found : Bool) (e : ℤ) (he : found = false → e = 0) :
    runExp e (steps found ds) = horner e ds := by
  induction ds generalizing found e with
  | nil => rfl
  | cons d ds ih =>
    have ih := ih fun x hx => hd x (List.mem_cons_of_mem _ hx)
    have hd0 := hd d List.mem_cons_self
    rw [steps, runExp_append, runExp_append]
    have h1 : runExp e (if found then [Step.dbl] else []) = 2 * e := by
      cases found
      · rw [he rfl]; rfl
      · rfl
    rw [h1]
    show _ = horner (2 * e + d) ds
    rcases hd0 with rfl | rfl | rfl
    · have : ((found || decide ((0 : ℤ) ≠ 0)) : Bool) = found := by simp
      rw [this, if_pos rfl]
      show runExp (2 * e) (steps found ds) = _
      rw [ih found (2 * e) (fun h => by rw [he h]; rfl), add_zero]
    · rw [if_neg (by decide), if_pos (by decide)]
      show runExp (2 * e + 1) _ = _
      exact ih _ _ (by simp)
    · rw [if_neg (by decide), if_neg (by decide)]
      show runExp (2 * e - 1) _ = _
      rw [ih _ _ (by simp)]; rfl

theorem steps_nil (ds : List ℤ) : steps false ds = [] ↔ ∀ d ∈ ds, d = 0 := by
  induction ds with
  | nil => simp [steps]
  | cons d ds ih =>
    by_cases h : d = 0
    · subst h
      rw [steps]
      simp [ih]
    · rw [steps]
      constructor
      · intro e
        by_cases hp : 0 < d
        · simp [h, hp] at e
        · simp [h, hp] at e
      · intro e; exact absurd (e d List.mem_cons_self) h

/-- The multiplication and the squaring are sound. -/
structure Gadgets.Sound (g : Gadgets F n) (β : F) : Prop where
  mul : ∀ b A B R s, Sat s (g.mul b A B R) → ev s R = school n β (ev s A) (ev s B)
  sqr : ∀ b A R s, Sat s (g.sqr b A R) → ev s R = school n β (ev s A) (ev s A)

theorem ev_oneElt {K : Type*} [CommRing K] [Algebra F K] (W : K) (hn : n ≠ 0) (s : Asg F) : toRing W (ev s (oneElt n)) = 1 := by
  obtain ⟨m, rfl⟩ := Nat.exists_eq_succ_of_ne_zero hn
  unfold toRing
  rw [Finset.sum_eq_single 0]
  · simp [ev, oneElt, Ent.lc]
  · intro i _ hi
    have : (i : ℕ) ≠ 0 := fun h => hi (Fin.ext h)
    simp [ev, oneElt, Ent.lc, this]
  · simp

theorem expGates_sound {K : Type*} [CommRing K] [Algebra F K] {W : K} {β : F} (hW : W ^ n = algebraMap F K β) {g : Gadgets F n}
    (hg : g.Sound β) (A : Elt F n) (nd : ℕ → Elt F n) (s : Asg F) (u : Kˣ) (hu : toRing W (ev s A) = u) (l : List Step) (k aux : ℕ) (e : ℤ)
    (hk : toRing W (ev s (nd k)) = ((u ^ e : Kˣ) : K)) (hs : Sat s (expGates g A nd k aux l)) :
    toRing W (ev s (nd (k + l.length))) = ((u ^ runExp e l : Kˣ) : K) := by
  induction l generalizing k aux e with
  | nil => exact hk
  | cons a l ih =>
    cases a
    · obtain ⟨h1, h2⟩ := (sat_append _ _ _).1 hs
      have := ih (k + 1) _ (2 * e) (by
        rw [hg.sqr _ _ _ _ h1, school_ring W β hW, hk, two_mul, zpow_add, Units.val_mul]) h2
      rwa [show k + 1 + l.length = k + (l.length + 1) by omega] at this
    · obtain ⟨h1, h2⟩ := (sat_append _ _ _).1 hs
      have := ih (k + 1) _ (e + 1) (by
        rw [hg.mul _ _ _ _ _ h1, school_ring W β hW, hk, hu, zpow_add, Units.val_mul, zpow_one]) h2
      rwa [show k + 1 + l.length = k + (l.length + 1) by omega] at this
    · obtain ⟨h1, h2⟩ := (sat_append _ _ _).1 hs
      have := ih (k + 1) _ (e - 1) (by
        have h := hg.mul _ _ _ _ _ h1
        have h := congrArg (toRing W) h
        rw [school_ring W β hW, hk, hu] at h
        rw [zpow_sub, zpow_one, Units.val_mul, h, mul_assoc, Units.mul_inv, mul_one]) h2
      rwa [show k + 1 + l.length = k + (l.length + 1) by omega] at this

/-- C121: for a base that is invertible the constraints force the power. -/
theorem expComp_partial {K : Type*} [CommRing K] [Algebra F K] {W : K} {β : F} (hn : n ≠ 0) (hW : W ^ n = algebraMap F K β)
    {g : Gadgets F n} (hg : g.Sound β) (inter : ℕ → Elt F n) (aux power : ℕ) (A R : Elt F n) (s : Asg F) (cs : List (Constraint F))
    (hc : expComp g inter aux (naf power) A R = some cs) (hA : IsUnit (toRing W (ev s A))) (hs : Sat s cs) :
    toRing W (ev s R) = toRing W (ev s A) ^ power := by
  obtain ⟨u, hu⟩ := hA
  unfold expComp at hc
  simp only at hc
  split_ifs at hc with h0
  obtain rfl := Option.some.inj hc
  set l := steps false (naf power).reverse with hl
  have hlen : l.length ≠ 0 := fun h => h0 (List.length_eq_zero_iff.1 h)
  have key := expGates_sound hW hg A (node inter R l.length) s u hu.symm l 0 aux 0 (by
    rw [node, if_neg (Ne.symm hlen), if_pos rfl, ev_oneElt W hn]; simp) hs
  rw [Nat.zero_add, node, if_pos rfl, hl,
    runExp_steps _ (fun d hd => (naf_value power).2 d (List.mem_reverse.1 hd)) false 0 (fun _ => rfl), horner_reverse,
    (naf_value power).1, zpow_natCast, Units.val_pow_eq_pow_val, hu] at key
  exact key

/-- C121: the component can be built exactly for positive exponents. -/
theorem expComp_isSome (g : Gadgets F n) (inter : ℕ → Elt F n) (aux power : ℕ) (A R : Elt F n) :
    (expComp g inter aux (naf power) A R).isSome ↔ 0 < power := by
  unfold expComp
  simp only
  split_ifs with h0
  · rw [steps_nil] at h0
    have : ∀ l : List ℤ, (∀ d ∈ l, d = 0) → ofDigits l = 0 := by
      intro l; induction l with
      | nil => intro _; rfl
      | cons d l ih => intro h; rw [ofDigits, h d List.mem_cons_self, ih fun x hx => h x (List.mem_cons_of_mem _ hx)]; rfl
    have h := this (naf power) fun d hd => h0 d (List.mem_reverse.2 hd)
    rw [(naf_value power).1] at h
    simp only [Option.isSome_none, Bool.false_eq_true, false_iff]
    omega
  · simp only [Option.isSome_some, true_iff]
    rcases Nat.eq_zero_or_pos power with rfl | h
    · exact absurd (by rw [naf]; rfl) h0
    · exact h

/-! ### The coefficients are determined -/

open Polynomial in
/-- In `F[X]/(X^n - β)` an element has one vector of coefficients. -/
theorem toRing_inj (hn : n ≠ 0) (β : F) :
    Function.Injective fun a : Fin n → F => toRing (AdjoinRoot.root (X ^ n - C β : F[X])) a := by
  intro a b hab
  have hm : (X ^ n - C β : F[X]).Monic := monic_X_pow_sub_C β hn
  have key : AdjoinRoot.mk (X ^ n - C β : F[X]) (∑ i : Fin n, C (a i - b i) * X ^ (i : ℕ)) = 0 := by
    have h : ∀ c : Fin n → F, AdjoinRoot.mk (X ^ n - C β : F[X]) (∑ i : Fin n, C (c i) * X ^ (i : ℕ)) =
        toRing (AdjoinRoot.root (X ^ n - C β : F[X])) c := fun c => by
      rw [map_sum]
      unfold toRing
      refine Finset.sum_congr rfl fun i _ => ?_
      rw [map_mul, map_pow, AdjoinRoot.mk_X, AdjoinRoot.mk_C]
      rfl
    rw [show (∑ i : Fin n, C (a i - b i) * X ^ (i : ℕ) : F[X]) = (∑ i : Fin n, C (a i) * X ^ (i : ℕ)) - ∑ i : Fin n, C (b i) * X ^ (i : ℕ) by
      rw [← Finset.sum_sub_distrib]; exact Finset.sum_congr rfl fun i _ => by rw [C_sub, sub_mul], map_sub, h, h, sub_eq_zero]
    exact hab
  have h0 := eq_zero_of_dvd_of_degree_lt (AdjoinRoot.mk_eq_zero.1 key) (by
    rw [degree_eq_natDegree hm.ne_zero, natDegree_X_pow_sub_C]; exact degree_sum_fin_lt _)
  funext i
  have hc := congrArg (fun p => coeff p (i : ℕ)) h0
  simp only [finsetSum_coeff, coeff_C_mul, coeff_X_pow, coeff_zero] at hc
  rw [Finset.sum_eq_single i] at hc
  · simpa [sub_eq_zero] using hc
  · intro k _ hk
    rw [if_neg fun e => hk (Fin.ext e.symm), mul_zero]
  · simp

open Polynomial in
theorem root_pow (β : F) : (AdjoinRoot.root (X ^ n - C β : F[X])) ^ n = algebraMap F _ β := by
  have h := AdjoinRoot.eval₂_root (X ^ n - C β : F[X])
  rw [eval₂_sub, eval₂_X_pow, eval₂_C, sub_eq_zero] at h
  exact h

/-! ### The components it is used with -/

/-- Fp2. -/
def g2 (β : F) : Gadgets F 2 := ⟨fun b => fp2Mul β b, 1, fun _ => fp2Sq β, 0⟩
/-- Fp4 with the tower multiplication. -/
def g4 (β : F) : Gadgets F 4 := ⟨fun b => fp4Tower β b, 5, fun b => fp4Sq β b, 2⟩
/-- Fp4 with the direct multiplication. -/
def g4d (β : F) : Gadgets F 4 := ⟨fun b => fp4Direct β b (b + 1) (b + 2), 3, fun b => fp4Sq β b, 2⟩
/-- Fp6. -/
def g6 (β : F) : Gadgets F 6 := ⟨fun b => fp6Mul β b, 9, fun b A => fp6Mul β b A A, 9⟩

theorem g2_sound (h2 : (2 : F) ≠ 0) (β : F) : (g2 β).Sound β :=
  ⟨fun b A B R s h => ((fp2Mul_iff β b A B R s).1 h).2, fun _ A R s h => (fp2Sq_iff h2 β A R s).1 h⟩
theorem g4_sound (h2 : (2 : F) ≠ 0) (β : F) : (g4 β).Sound β :=
  ⟨fun b A B R s h => ((fp4Tower_iff β b A B R s).1 h).2.2.2.2.2, fun b A R s h => ((fp4Sq_iff h2 β b A R s).1 h).2.2⟩
theorem g4d_sound (h2 : (2 : F) ≠ 0) (h3 : (3 : F) ≠ 0) (h5 : (5 : F) ≠ 0) {β : F} (hβ : β ≠ 1) : (g4d β).Sound β :=
  ⟨fun _ A B R s h => ((fp4Direct_iff h2 h3 h5 hβ _ _ _ A B R s).1 h).2.2.2, fun b A R s h => ((fp4Sq_iff h2 β b A R s).1 h).2.2⟩
theorem g6_sound (h2 : (2 : F) ≠ 0) (h3 : (3 : F) ≠ 0) {β : F} (hβ : β ≠ 0) : (g6 β).Sound β :=
  ⟨fun b A B R s h => ((fp6Mul_iff h2 h3 hβ b A B R s).1 h).2, fun b A R s h => ((fp6Mul_iff h2 h3 hβ b A A R s).1 h).2⟩

open Polynomial in
/-- C121: for an invertible base the result is determined, coefficient by coefficient. -/
theorem expComp_unique_partial {β : F} (hn : n ≠ 0) {g : Gadgets F n} (hg : g.Sound β) (inter inter' : ℕ → Elt F n) (aux aux' power : ℕ)
    (A A' R R' : Elt F n) (s s' : Asg F) (cs cs' : List (Constraint F)) (hc : expComp g inter aux (naf power) A R = some cs)
    (hc' : expComp g inter' aux' (naf power) A' R' = some cs') (hAA : ev s A = ev s' A')
    (hA : IsUnit (toRing (AdjoinRoot.root (X ^ n - C β : F[X])) (ev s A))) (hs : Sat s cs) (hs' : Sat s' cs') : ev s R = ev s' R' := by
  refine toRing_inj hn β ?_
  show toRing _ _ = toRing _ _
  rw [expComp_partial hn (root_pow β) hg inter aux power A R s cs hc hA hs,
    expComp_partial hn (root_pow β) hg inter' aux' power A' R' s' cs' hc' (hAA ▸ hA) hs', hAA]

/-! ### The base zero -/

theorem naf_3 : naf 3 = [-1, 0, 1] := by
  have n0 : naf 0 = [] := by rw [naf]; rfl
  have n1 : naf 1 = [1] := by rw [naf]; simp [n0]
  have n2 : naf 2 = [0, 1] := by rw [naf]; simp [n1]
  rw [naf]; simp [n2]

/-- C121 is false of the code for the base 0: the exponent 3 is `4 - 1`, the division by the base accepts every result. -/
theorem expComp_zero_forged (h2 : (2 : F) ≠ 0) (β x y : F) :
    ∃ (s : Asg F) (cs : List (Constraint F)),
      expComp (g2 β) (fun k => fresh 2 (3 + 2 * k)) 11 (naf 3) (fresh 2 1) (fresh 2 3) = some cs ∧
      ev s (fresh 2 1) = (fun _ => 0) ∧ Sat s cs ∧ ev s (fresh 2 3) = ![x, y] := by
  have hst : steps false [1, 0, -1] = [.add, .dbl, .dbl, .sub] := by decide
  refine ⟨ofList [0, 0, x, y], expGates (g2 β) (fresh 2 1) (node (fun k => fresh 2 (3 + 2 * k)) (fresh 2 3) 4) 0 11 [.add, .dbl, .dbl, .sub],
    ?_, ?_, ?_, ?_⟩
  · rw [expComp, naf_3]
    show (if steps false [1, 0, -1] = [] then none else some _) = _
    simp only [hst, List.reverse_cons, List.reverse_nil, List.nil_append, List.cons_append, reduceCtorEq, if_false]
    rfl
  · funext i; rw [ev_fresh]; fin_cases i <;> rfl
  · simp only [expGates, sat_append, g2, fp2Mul_iff, fp2Sq_iff h2, school2, eq_vec2, node, ev_fresh]
    simp [val, ofList, ev_fresh, sat_nil]
  · rw [eq_vec2]; exact ⟨by rw [ev_fresh]; rfl, by rw [ev_fresh]; rfl⟩

/-! ### Cases -/

private instance : Fact (Nat.Prime 7) := ⟨by decide⟩

theorem isUnit_of_school {K : Type*} [CommRing K] [Algebra F K] (W : K) {β : F} (hn : n ≠ 0) (hW : W ^ n = algebraMap F K β)
    (a b : Fin n → F) (h : school n β a b = fun i : Fin n => if (i : ℕ) = 0 then 1 else 0) : IsUnit (toRing W a) := by
  have h1 := school_ring W β hW a b
  have h2 : toRing W (school n β a b) = 1 := by
    rw [h]
    have := ev_oneElt (F := F) (n := n) W hn (fun _ => 0)
    rw [← this]; congr 1; funext i; simp [ev, oneElt, Ent.lc]
  exact IsUnit.of_mul_eq_one _ (h1.symm.trans h2)

/-- `(2 + W)^3 = 5 + W` with `W^2 = 3` over `ZMod 7`: the constraints are satisfiable and the base is invertible. -/
example : ∃ (s : Asg (ZMod 7)) (cs : List (Constraint (ZMod 7))),
    expComp (g2 3) (fun k => fresh 2 (3 + 2 * k)) 11 (naf 3) (fresh 2 1) (fresh 2 3) = some cs ∧ Sat s cs ∧
      ev s (fresh 2 1) = ![2, 1] ∧ ev s (fresh 2 3) = ![5, 1] := by
  have hst : steps false [1, 0, -1] = [.add, .dbl, .dbl, .sub] := by decide
  refine ⟨ofList [2, 1, 5, 1, 2, 1, 0, 4, 6, 0, 0, 1],
    expGates (g2 3) (fresh 2 1) (node (fun k => fresh 2 (3 + 2 * k)) (fresh 2 3) 4) 0 11 [.add, .dbl, .dbl, .sub], ?_, ?_, ?_, ?_⟩
  · rw [expComp, naf_3]
    show (if steps false [1, 0, -1] = [] then none else some _) = _
    simp only [hst, List.reverse_cons, List.reverse_nil, List.nil_append, List.cons_append, reduceCtorEq, if_false]
    rfl
  · have h2 : (2 : ZMod 7) ≠ 0 := by decide
    simp only [expGates, sat_append, g2, fp2Mul_iff, fp2Sq_iff h2, school2, eq_vec2, node, ev_fresh, sat_nil]
    simp [val, ofList, oneElt, ev, Ent.lc]
    decide
  · rw [eq_vec2]; exact ⟨by rw [ev_fresh]; rfl, by rw [ev_fresh]; rfl⟩
  · rw [eq_vec2]; exact ⟨by rw [ev_fresh]; rfl, by rw [ev_fresh]; rfl⟩

open Polynomial in
example : IsUnit (toRing (AdjoinRoot.root (X ^ 2 - C 3 : (ZMod 7)[X])) (![2, 1] : Fin 2 → ZMod 7)) :=
  isUnit_of_school _ (by decide) (root_pow 3) ![2, 1] ![2, -1] (by decide +kernel)

end Ext
end R1cs
end Verif
