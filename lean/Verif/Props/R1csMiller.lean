import Verif.Model.R1csMiller
import Verif.Props.R1csFinalExp
import Verif.Core.Weierstrass

/-!
# Miller loop of the pairings in r1cs

C163 (precomputation of the multiples of `Q`), C164 (the Miller loop), C165 (points of the twist).
-/

namespace Verif
namespace R1cs
namespace Ext

open Weierstrass

variable {F : Type*} [Field F] {m : ℕ}

/-! ### Elements in the ring -/

section
variable {K : Type*} [CommRing K] [Algebra F K] (W : K)

theorem toRing_add (a b : Fin m → F) : toRing W (fun i => a i + b i) = toRing W a + toRing W b := by
  unfold toRing; rw [← Finset.sum_add_distrib]; exact Finset.sum_congr rfl fun i _ => by rw [map_add, add_mul]

theorem toRing_smul (c : F) (a : Fin m → F) : toRing W (fun i => c * a i) = algebraMap F K c * toRing W a := by
  unfold toRing; rw [Finset.mul_sum]; exact Finset.sum_congr rfl fun i _ => by rw [map_mul, mul_assoc]

/-- The value of an element in the ring. -/
def rv (s : Asg F) (A : Elt F m) : K := toRing W (ev s A)

theorem rv_add (s : Asg F) (A B : Elt F m) : rv W s (addElt A B) = rv W s A + rv W s B := by
  rw [rv, rv, rv, ← toRing_add]; congr 1; funext i; exact ev_addElt s A B i

theorem rv_smul (s : Asg F) (c : F) (A : Elt F m) : rv W s (smulElt c A) = algebraMap F K c * rv W s A := by
  rw [rv, rv, ← toRing_smul]; congr 1; funext i; simp [ev, smulElt, Ent.lc]

theorem rv_addConst (s : Asg F) (A : Elt F m) (c : Fin m → F) : rv W s (addConst A c) = rv W s A + toRing W c := by
  rw [rv, rv, ← toRing_add]; congr 1; funext i; simp [ev, addConst, Ent.lc]

theorem rv_pyTwist (s : Asg F) (y : Lc F) (tw : Fin m → F) : rv W s (pyTwist y tw) = algebraMap F K (y.eval s) * toRing W tw := by
  rw [rv, ← toRing_smul]; congr 1; funext i; simp [ev, pyTwist, Ent.lc, mul_comm]

/-- Two halves make an element of `Fqk`. -/
theorem rv_join (V : K) (s : Asg F) (c0 c1 : Elt F m) : rv V s (joinElt c0 c1) = rv (V ^ 2) s c0 + V * rv (V ^ 2) s c1 := by
  unfold rv toRing
  rw [← Equiv.sum_comp finProdFinEquiv, Fintype.sum_prod_type]
  rw [Finset.mul_sum, ← Finset.sum_add_distrib]
  refine Finset.sum_congr rfl fun i _ => ?_
  rw [Fin.sum_univ_two]
  have h0 : ev s (joinElt c0 c1) (finProdFinEquiv (i, 0)) = ev s c0 i := by
    unfold ev joinElt
    have e : ((finProdFinEquiv (i, (0 : Fin 2)) : Fin (m * 2)) : ℕ) = 2 * i := by simp [finProdFinEquiv]
    rw [if_pos (by rw [e]; omega)]
    congr 3
    exact Fin.ext (by show ((finProdFinEquiv (i, (0 : Fin 2)) : Fin (m * 2)) : ℕ) / 2 = i; rw [e]; omega)
  have h1 : ev s (joinElt c0 c1) (finProdFinEquiv (i, 1)) = ev s c1 i := by
    unfold ev joinElt
    have e : ((finProdFinEquiv (i, (1 : Fin 2)) : Fin (m * 2)) : ℕ) = 1 + 2 * i := by simp [finProdFinEquiv]
    rw [if_neg (by rw [e]; omega)]
    congr 3
    exact Fin.ext (by show ((finProdFinEquiv (i, (1 : Fin 2)) : Fin (m * 2)) : ℕ) / 2 = i; rw [e]; omega)
  rw [h0, h1]
  have e0 : ((finProdFinEquiv (i, (0 : Fin 2)) : Fin (m * 2)) : ℕ) = 2 * i := by simp [finProdFinEquiv]
  have e1 : ((finProdFinEquiv (i, (1 : Fin 2)) : Fin (m * 2)) : ℕ) = 1 + 2 * i := by simp [finProdFinEquiv]
  rw [e0, e1, ← pow_mul, pow_add, pow_one]
  ring

variable {W}

theorem rv_mul {β : F} (hW : W ^ m = algebraMap F K β) {g : Gadgets F m} (hg : g.Sound β) {b : ℕ} {A B R : Elt F m} {s : Asg F}
    (h : Sat s (g.mul b A B R)) : rv W s R = rv W s A * rv W s B := by
  rw [rv, hg.mul b A B R s h, school_ring W β hW]; rfl

theorem rv_sqr {β : F} (hW : W ^ m = algebraMap F K β) {g : Gadgets F m} (hg : g.Sound β) {b : ℕ} {A R : Elt F m} {s : Asg F}
    (h : Sat s (g.sqr b A R)) : rv W s R = rv W s A ^ 2 := by
  rw [rv, hg.sqr b A R s h, school_ring W β hW, pow_two]; rfl

end

/-! ### The steps of the precomputation -/

section
variable {K : Type*} [Field K] [Algebra F K] {W : K} {β : F}

/-- What a doubling step says. -/
theorem dblStep_eqs (hW : W ^ m = algebraMap F K β) {g : Gadgets F m} (hg : g.Sound β) {a : Fin m → F} {aux : ℕ} {q : Elt F m}
    {cur next : Coeff F m} {s : Asg F} (h : Sat s (dblStep g a aux q cur next)) :
    2 * rv W s cur.RY * rv W s cur.gamma = 3 * rv W s cur.RX ^ 2 + toRing W a ∧
    rv W s cur.gammaX = rv W s cur.gamma * rv W s cur.RX ∧
    rv W s next.RX = rv W s cur.gamma ^ 2 - rv W s cur.RX - rv W s cur.RX ∧
    rv W s next.RY = rv W s cur.gamma * (rv W s cur.RX - rv W s next.RX) - rv W s cur.RY := by
  unfold dblStep at h
  simp only [sat_append] at h
  obtain ⟨⟨⟨⟨h1, h2⟩, h3⟩, h4⟩, h5⟩ := h
  have h1 := rv_sqr hW hg h1
  have h2 := rv_mul hW hg h2
  have h3 := rv_mul hW hg h3
  have h4 := rv_sqr hW hg h4
  have h5 := rv_mul hW hg h5
  simp only [rv_add, rv_smul, rv_addConst, map_ofNat, map_neg, map_one] at h2 h4 h5
  refine ⟨?_, h3, ?_, ?_⟩
  · rw [h1] at h2; linear_combination -h2
  · linear_combination h4
  · linear_combination h5

/-- What an addition step says. -/
theorem addStep_eqs (hW : W ^ m = algebraMap F K β) {g : Gadgets F m} (hg : g.Sound β) {inv : Bool} {aux : ℕ}
    {cur next : Coeff F m} {QX QY : Elt F m} {s : Asg F} (h : Sat s (addStep g inv aux cur next QX QY)) (ty : K)
    (hty : ty = if inv then - rv W s QY else rv W s QY) :
    rv W s cur.gamma * (rv W s cur.RX - rv W s QX) = rv W s cur.RY - ty ∧
    rv W s cur.gammaX = rv W s cur.gamma * rv W s QX ∧
    rv W s next.RX = rv W s cur.gamma ^ 2 - rv W s cur.RX - rv W s QX ∧
    rv W s next.RY = rv W s cur.gamma * (rv W s cur.RX - rv W s next.RX) - rv W s cur.RY := by
  unfold addStep at h
  simp only [sat_append] at h
  obtain ⟨⟨⟨h2, h3⟩, h4⟩, h5⟩ := h
  have h2 := rv_mul hW hg h2
  have h3 := rv_mul hW hg h3
  have h4 := rv_sqr hW hg h4
  have h5 := rv_mul hW hg h5
  simp only [rv_add, rv_smul, map_neg, map_one] at h2 h4 h5
  refine ⟨?_, h3, ?_, ?_⟩
  · subst hty
    cases inv
    · simp at h2 ⊢; linear_combination -h2
    · simp at h2 ⊢; linear_combination -h2
  · linear_combination h4
  · linear_combination h5

variable [DecidableEq K] {A B : K}

/-- The coefficient holds the point. -/
def At (W : K) (s : Asg F) (c : Coeff F m) (P : (curve A B).Point) : Prop :=
  ∃ h : (curve A B).Nonsingular (rv W s c.RX) (rv W s c.RY), P = .some _ _ h

/-- A doubling step doubles; the slope is that of the tangent, and the ordinate is not zero. -/
theorem dblStep_point (hW : W ^ m = algebraMap F K β) {g : Gadgets F m} (hg : g.Sound β) {a : Fin m → F} {aux : ℕ} {q : Elt F m}
    {cur next : Coeff F m} {s : Asg F} (h : Sat s (dblStep g a aux q cur next)) {P : (curve (toRing W a) B).Point} (hP : At W s cur P) :
    At W s next (P + P) ∧ 2 * rv W s cur.RY ≠ 0 := by
  obtain ⟨hn, rfl⟩ := hP
  obtain ⟨e1, -, e3, e4⟩ := dblStep_eqs hW hg h
  have h2 : 2 * rv W s cur.RY ≠ 0 := by
    rcases (nonsingular_iff'.1 hn).2 with h3 | h3
    · intro h0; rw [h0, zero_mul] at e1; exact h3 e1.symm
    · exact h3
  obtain ⟨h', e⟩ := add_cases hn hn (rv W s cur.gamma) (Or.inr ⟨rfl, fun e => h2 (by linear_combination e), e1⟩)
  refine ⟨?_, h2⟩
  rw [e3] at e4
  unfold At
  rw [e3, e4]
  exact ⟨h', e⟩

/-- An addition step adds, unless the points are equal; the abscissas differ. -/
theorem addStep_point (hW : W ^ m = algebraMap F K β) {g : Gadgets F m} (hg : g.Sound β) {inv : Bool} {aux : ℕ}
    {cur next : Coeff F m} {QX QY : Elt F m} {s : Asg F} (h : Sat s (addStep g inv aux cur next QX QY)) {P T : (curve A B).Point}
    (hP : At W s cur P) {ty : K} (hty : ty = if inv then - rv W s QY else rv W s QY)
    (hT : ∃ h : (curve A B).Nonsingular (rv W s QX) ty, T = .some _ _ h) (hne : P ≠ T) :
    At W s next (P + T) ∧ rv W s cur.RX - rv W s QX ≠ 0 := by
  obtain ⟨hn, rfl⟩ := hP
  obtain ⟨ht, rfl⟩ := hT
  obtain ⟨e1, -, e3, e4⟩ := addStep_eqs hW hg h ty hty
  have hx : rv W s cur.RX ≠ rv W s QX := by
    intro hx
    rw [hx, sub_self, mul_zero] at e1
    apply hne
    have : rv W s cur.RY = ty := by linear_combination -e1
    simp only [WeierstrassCurve.Affine.Point.some.injEq]
    exact ⟨hx, this⟩
  obtain ⟨h', e⟩ := add_cases hn ht (rv W s cur.gamma) (Or.inl ⟨hx, by linear_combination -e1⟩)
  refine ⟨?_, sub_ne_zero.2 hx⟩
  rw [e3] at e4
  unfold At
  rw [e3, e4]
  exact ⟨h', e⟩

/-- The multiples that a chain adds `Q` to (or subtracts it from) are different from `Q` (from `-Q`). -/
def Distinct {G : Type*} [AddCommGroup G] (Q : G) : ℤ → List Step → Prop
  | _, [] => True
  | e, .dbl :: l => Distinct Q (2 * e) l
  | e, .add :: l => e • Q ≠ Q ∧ Distinct Q (e + 1) l
  | e, .sub :: l => e • Q ≠ -Q ∧ Distinct Q (e - 1) l

omit [DecidableEq K] in
theorem neg_some {x y : K} (h : (curve A B).Nonsingular x y) (h' : (curve A B).Nonsingular x (-y)) :
    -(WeierstrassCurve.Affine.Point.some x y h : (curve A B).Point) = .some x (-y) h' := by
  rw [WeierstrassCurve.Affine.Point.neg_some]
  simp [WeierstrassCurve.Affine.negY, curve]

omit [DecidableEq K] in
theorem nonsingular_neg {x y : K} (h : (curve A B).Nonsingular x y) : (curve A B).Nonsingular x (-y) := by
  rw [nonsingular_iff'] at h ⊢
  refine ⟨by rw [neg_sq]; exact h.1, ?_⟩
  rcases h.2 with h | h
  · exact Or.inl h
  · right; intro e; apply h; linear_combination -e

/-- The two addition steps of a chain. -/
theorem addStep_mult (hW : W ^ m = algebraMap F K β) {g : Gadgets F m} (hg : g.Sound β) {inv : Bool} {aux : ℕ}
    {cur next : Coeff F m} {QX QY : Elt F m} {s : Asg F} (h : Sat s (addStep g inv aux cur next QX QY))
    (hQ : (curve A B).Nonsingular (rv W s QX) (rv W s QY)) {e : ℤ}
    (hP : At W s cur (e • (.some _ _ hQ : (curve A B).Point)))
    (hne : e • (.some _ _ hQ : (curve A B).Point) ≠ if inv then -(.some _ _ hQ) else .some _ _ hQ) :
    At W s next ((e + if inv then -1 else 1) • (.some _ _ hQ : (curve A B).Point)) ∧ rv W s cur.RX - rv W s QX ≠ 0 := by
  have hQ' := nonsingular_neg hQ
  cases inv
  · obtain ⟨r1, r2⟩ := addStep_point hW hg h hP (ty := rv W s QY) (by simp) ⟨hQ, rfl⟩ (by simpa using hne)
    exact ⟨by simpa [add_zsmul] using r1, r2⟩
  · obtain ⟨r1, r2⟩ := addStep_point hW hg h hP (ty := - rv W s QY) (by simp) ⟨hQ', rfl⟩ (by rw [← neg_some hQ hQ']; simpa using hne)
    rw [← neg_some hQ hQ'] at r1
    exact ⟨by simpa [add_zsmul] using r1, r2⟩

/-- C163: the coefficients hold the multiples of `Q`. -/
theorem precGates_sound (hW : W ^ m = algebraMap F K β) {g : Gadgets F m} (hg : g.Sound β) {a : Fin m → F} {QX QY : Elt F m}
    {sq : ℕ → Elt F m} {co : ℕ → Coeff F m} {s : Asg F} (hQ : (curve (toRing W a) B).Nonsingular (rv W s QX) (rv W s QY)) (l : List Step) :
    ∀ (k aux : ℕ) (e : ℤ), At W s (co k) (e • (.some _ _ hQ : (curve (toRing W a) B).Point)) →
      Distinct (.some _ _ hQ : (curve (toRing W a) B).Point) e l → Sat s (precGates g a QX QY sq co k aux l) →
      ∀ j ≤ l.length, At W s (co (k + j)) (runExp e (l.take j) • (.some _ _ hQ : (curve (toRing W a) B).Point)) := by
  induction l with
  | nil =>
    intro k aux e hP _ _ j hj
    have : j = 0 := by simpa using hj
    subst this
    exact hP
  | cons x l ih =>
    intro k aux e hP hd hs j hj
    cases j with
    | zero => exact hP
    | succ j =>
      have hj' : j ≤ l.length := by simpa using hj
      rw [show k + (j + 1) = k + 1 + j by ring]
      cases x with
      | dbl =>
        rw [precGates, sat_append] at hs
        have := (dblStep_point hW hg hs.1 hP).1
        rw [← two_zsmul, ← mul_zsmul'] at this
        exact ih (k + 1) _ (2 * e) (by rw [mul_comm]; exact this) hd hs.2 j hj'
      | add =>
        rw [precGates, sat_append] at hs
        exact ih (k + 1) _ (e + 1) (addStep_mult hW hg hs.1 hQ hP (by simpa using hd.1)).1 hd.2 hs.2 j hj'
      | sub =>
        rw [precGates, sat_append] at hs
        exact ih (k + 1) _ (e - 1) (addStep_mult hW hg hs.1 hQ hP (by simpa using hd.1)).1 hd.2 hs.2 j hj'

end

/-! ### The digits of the loop count -/

theorem naf_top (c : ℕ) (hc : 0 < c) : ∃ ds, (naf c).reverse = 1 :: ds := by
  induction c using Nat.strong_induction_on with
  | _ c ih =>
    rw [naf, dif_neg (by omega)]
    split_ifs with h2 h4
    · obtain ⟨ds, e⟩ := ih (c / 2) (by omega) (by omega)
      exact ⟨ds ++ [0], by rw [List.reverse_cons, e]; rfl⟩
    · by_cases h1 : c = 1
      · subst h1
        refine ⟨[], ?_⟩
        rw [show (1 - 1) / 2 = 0 from rfl, naf]; rfl
      · obtain ⟨ds, e⟩ := ih ((c - 1) / 2) (by omega) (by omega)
        exact ⟨ds ++ [1], by rw [List.reverse_cons, e]; rfl⟩
    · obtain ⟨ds, e⟩ := ih ((c + 1) / 2) (by omega) (by omega)
      exact ⟨ds ++ [-1], by rw [List.reverse_cons, e]; rfl⟩

/-- The chain that starts with `Q` ends with the loop count. -/
theorem loopSteps_naf (c : ℕ) (hc : 0 < c) : runExp 1 (loopSteps (naf c)) = c := by
  obtain ⟨ds, e⟩ := naf_top c hc
  have hd : ∀ d ∈ ds, d = 0 ∨ d = 1 ∨ d = -1 := fun d h =>
    (naf_value c).2 d (List.mem_reverse.1 (by rw [e]; exact List.mem_cons_of_mem _ h))
  have hl : loopSteps (naf c) = steps true ds := by
    unfold loopSteps
    rw [e, List.dropWhile_cons_of_neg (by decide)]
  rw [hl, runExp_steps ds hd true 1 (by simp)]
  have h := horner_reverse (naf c)
  rw [e, (naf_value c).1] at h
  exact h

section
variable {K : Type*} [Field K] [Algebra F K] [DecidableEq K] {W : K} {β : F} {B : K}

/-- C163: the precomputation of a point of the twist. All coefficients hold multiples of `Q`, the last one holds `loop_count * Q`; for
points that meet no multiple equal to the summand. -/
theorem precComp_partial (hW : W ^ m = algebraMap F K β) {g : Gadgets F m} (hg : g.Sound β) {a : Fin m → F} {QX QY : Elt F m}
    {sq : ℕ → Elt F m} {fr : ℕ → Coeff F m} {aux c : ℕ} (hc : 0 < c) {s : Asg F}
    (hQ : (curve (toRing W a) B).Nonsingular (rv W s QX) (rv W s QY))
    (hd : Distinct (.some _ _ hQ : (curve (toRing W a) B).Point) 1 (loopSteps (naf c)))
    (hs : Sat s (precComp g a QX QY sq fr aux (naf c))) :
    (∀ j ≤ (loopSteps (naf c)).length, At W s (coeffAt QX QY fr j) (runExp 1 ((loopSteps (naf c)).take j) • (.some _ _ hQ : (curve (toRing W a) B).Point))) ∧
      At W s (coeffAt QX QY fr (loopSteps (naf c)).length) (c • (.some _ _ hQ : (curve (toRing W a) B).Point)) := by
  have h := precGates_sound (co := coeffAt QX QY fr) hW hg hQ (loopSteps (naf c)) 0 aux 1 (by rw [one_zsmul]; exact ⟨hQ, rfl⟩) hd hs
  simp only [zero_add] at h
  refine ⟨h, ?_⟩
  have := h _ le_rfl
  rw [List.take_length, loopSteps_naf c hc, natCast_zsmul] at this
  exact this

end

/-- C163 is false of the code when the point to add equals the current one: the slope is not constrained, every value of it is accepted. -/
theorem addStep_forged (h2 : (2 : F) ≠ 0) (β x0 x1 y0 y1 c0 c1 : F) :
    ∃ s : Asg F, ev s (fresh 2 1) = ![x0, x1] ∧ ev s (fresh 2 3) = ![y0, y1] ∧ ev s (fresh 2 5) = ![c0, c1] ∧
      Sat s (precGates (g2 β) (fun _ => 0) (fresh 2 1) (fresh 2 3) (fun _ => fresh 2 20)
        (coeffAt (fresh 2 1) (fresh 2 3) fun k => if k = 0 then ⟨fresh 2 20, fresh 2 20, fresh 2 5, fresh 2 7⟩ else
          ⟨fresh 2 9, fresh 2 11, fresh 2 20, fresh 2 20⟩) 0 13 [.add]) := by
  let n0 := c0 * c0 + β * (c1 * c1) - 2 * x0
  let n1 := 2 * (c0 * c1) - 2 * x1
  refine ⟨ofList [x0, x1, y0, y1, c0, c1, c0 * x0 + β * (c1 * x1), c0 * x1 + c1 * x0, n0, n1,
    c0 * (x0 - n0) + β * (c1 * (x1 - n1)) - y0, c0 * (x1 - n1) + c1 * (x0 - n0) - y1, 0, c1 * x1, c1 * (x1 - n1)], ?_, ?_, ?_, ?_⟩
  · rw [eq_vec2]; simp only [ev_fresh]; exact ⟨rfl, rfl⟩
  · rw [eq_vec2]; simp only [ev_fresh]; exact ⟨rfl, rfl⟩
  · rw [eq_vec2]; simp only [ev_fresh]; exact ⟨rfl, rfl⟩
  · simp only [precGates, addStep, coeffAt, sat_append, g2, fp2Mul_iff, fp2Sq_iff h2, school2, eq_vec2, sat_nil, and_true, if_true,
      Nat.reduceAdd, Nat.reduceMul, if_neg one_ne_zero, Bool.false_eq_true, if_false, ev_addElt]
    have es : ∀ (c : F) (A : Elt F 2) (s : Asg F) i, ev s (smulElt c A) i = c * ev s A i := fun c A s i => by simp [ev, smulElt, Ent.lc]
    simp only [es, ev_fresh]
    simp [val, ofList, n0, n1]
    refine ⟨⟨?_, ?_⟩, Or.inl ?_, ?_, ?_⟩ <;> ring

/-! ### The Miller loop -/

section
variable {K : Type*} [Field K]

/-- The line through `T` with slope `l` at the point `(x, y)`. -/
def lineAt (l : K) (T : K × K) (x y : K) : K := y - T.2 - l * (x - T.1)

/-- The Miller loop with affine points of the twist `y^2 = x^3 + A x + B`, and the point `P = (px, py)` at `(px V^2, py V^3)` on the twist.
Every line is multiplied by `V`. -/
def millerRef (A V px py : K) (Q : K × K) : List Step → K × K → K → K
  | [], _, f => f
  | .dbl :: l, R, f =>
    let γ := (3 * R.1 ^ 2 + A) / (2 * R.2)
    let x := γ ^ 2 - 2 * R.1
    millerRef A V px py Q l (x, γ * (R.1 - x) - R.2) (f ^ 2 * (V * lineAt γ R (px * V ^ 2) (py * V ^ 3)))
  | .add :: l, R, f =>
    let γ := (R.2 - Q.2) / (R.1 - Q.1)
    let x := γ ^ 2 - R.1 - Q.1
    millerRef A V px py Q l (x, γ * (R.1 - x) - R.2) (f * (V * lineAt γ Q (px * V ^ 2) (py * V ^ 3)))
  | .sub :: l, R, f =>
    let γ := (R.2 + Q.2) / (R.1 - Q.1)
    let x := γ ^ 2 - R.1 - Q.1
    millerRef A V px py Q l (x, γ * (R.1 - x) - R.2) (f * (V * lineAt γ (Q.1, -Q.2) (px * V ^ 2) (py * V ^ 3)))

variable [Algebra F K]

/-- The components of the two fields are sound. -/
structure Tower.Sound (t : Tower F m) (β : F) (V : K) : Prop where
  root : V ^ (m * 2) = algebraMap F K β
  e : t.e.Sound β
  k : t.k.Sound β
  mulX : ∀ A s, rv (V ^ 2) s (t.mulX A) = V ^ 2 * rv (V ^ 2) s A

theorem lineGates_eq {t : Tower F m} {β : F} {V : K} (ht : t.Sound β V) {px : Lc F} {c : Coeff F m} {sY c1 : Elt F m} {s : Asg F}
    (h : Sat s (lineGates t px c sY c1)) :
    rv (V ^ 2) s c1 = rv (V ^ 2) s c.gammaX + rv (V ^ 2) s sY - algebraMap F K (px.eval s) * V ^ 2 * rv (V ^ 2) s c.gamma := by
  have h := (mulByLc_iff _ _ _ s).1 h
  have h1 : rv (V ^ 2) s (addElt (addElt c.gammaX sY) (smulElt (-1) c1)) = algebraMap F K (px.eval s) * rv (V ^ 2) s (t.mulX c.gamma) := by
    rw [rv, rv, ← toRing_smul]; congr 1; funext i; rw [h]; ring
  rw [ht.mulX] at h1
  simp only [rv_add, rv_smul, map_neg, map_one] at h1
  linear_combination -h1

variable [DecidableEq K] {B : K}

theorem millerGates_sound {t : Tower F m} {β : F} {V : K} (ht : t.Sound β V) {a tw : Fin m → F} (htw : toRing (V ^ 2) tw = V ^ 4)
    {px py : Lc F} {QX QY : Elt F m} {sq c1 : ℕ → Elt F m} {co : ℕ → Coeff F m} {f : ℕ → Elt F (m * 2)} {s : Asg F}
    (hQ : (curve (toRing (V ^ 2) a) B).Nonsingular (rv (V ^ 2) s QX) (rv (V ^ 2) s QY)) (l : List Step) :
    ∀ (k i aux aux' : ℕ) (e : ℤ), At (V ^ 2) s (co k) (e • (.some _ _ hQ : (curve (toRing (V ^ 2) a) B).Point)) →
      Distinct (.some _ _ hQ : (curve (toRing (V ^ 2) a) B).Point) e l → Sat s (precGates t.e a QX QY sq co k aux l) →
      Sat s (millerGates t px (pyTwist py tw) QY co c1 f k i aux' l) →
      rv V s (f (i + fCount l)) = millerRef (toRing (V ^ 2) a) V (algebraMap F K (px.eval s)) (algebraMap F K (py.eval s))
        (rv (V ^ 2) s QX, rv (V ^ 2) s QY) l (rv (V ^ 2) s (co k).RX, rv (V ^ 2) s (co k).RY) (rv V s (f i)) := by
  have hW : (V ^ 2) ^ m = algebraMap F K β := by rw [← pow_mul, mul_comm]; exact ht.root
  induction l with
  | nil => intro k i aux aux' e _ _ _ _; rfl
  | cons x l ih =>
    intro k i aux aux' e hP hd hs hm
    cases x with
    | dbl =>
      rw [precGates, sat_append] at hs
      simp only [millerGates, sat_append] at hm
      obtain ⟨⟨⟨hl, hq⟩, hk⟩, hm⟩ := hm
      obtain ⟨hp, hne⟩ := dblStep_point hW ht.e hs.1 hP
      obtain ⟨e1, e2, e3, e4⟩ := dblStep_eqs hW ht.e hs.1
      rw [← two_zsmul, ← mul_zsmul', mul_comm] at hp
      have r := ih (k + 1) (i + 2) _ _ (2 * e) hp hd hs.2 hm
      have hγ : rv (V ^ 2) s (co k).gamma = (3 * rv (V ^ 2) s (co k).RX ^ 2 + toRing (V ^ 2) a) / (2 * rv (V ^ 2) s (co k).RY) := by
        rw [eq_div_iff hne, ← e1]; ring
      have hL := lineGates_eq ht hl
      rw [rv_smul, map_neg, map_one, e2] at hL
      have hf : rv V s (f (i + 2)) = rv V s (f i) ^ 2 * (V * lineAt (rv (V ^ 2) s (co k).gamma)
          (rv (V ^ 2) s (co k).RX, rv (V ^ 2) s (co k).RY) (algebraMap F K (px.eval s) * V ^ 2) (algebraMap F K (py.eval s) * V ^ 3)) := by
        rw [rv_mul ht.root ht.k hk, rv_sqr ht.root ht.k hq, rv_join, rv_pyTwist, htw, hL, lineAt]; ring
      rw [show i + fCount (Step.dbl :: l) = i + 2 + fCount l by simp only [fCount]; ring, r, millerRef]
      simp only [← hγ]
      rw [← hf, e4, e3, show rv (V ^ 2) s (co k).gamma ^ 2 - rv (V ^ 2) s (co k).RX - rv (V ^ 2) s (co k).RX =
        rv (V ^ 2) s (co k).gamma ^ 2 - 2 * rv (V ^ 2) s (co k).RX by ring]
    | add =>
      rw [precGates, sat_append] at hs
      simp only [millerGates, sat_append] at hm
      obtain ⟨⟨hl, hk⟩, hm⟩ := hm
      obtain ⟨hp, hne⟩ := addStep_mult hW ht.e hs.1 hQ hP (by simpa using hd.1)
      obtain ⟨e1, e2, e3, e4⟩ := addStep_eqs hW ht.e hs.1 (rv (V ^ 2) s QY) (by simp)
      have r := ih (k + 1) (i + 1) _ _ (e + 1) hp hd.2 hs.2 hm
      have hγ : rv (V ^ 2) s (co k).gamma = (rv (V ^ 2) s (co k).RY - rv (V ^ 2) s QY) / (rv (V ^ 2) s (co k).RX - rv (V ^ 2) s QX) := by
        rw [eq_div_iff hne, ← e1]
      have hL := lineGates_eq ht hl
      rw [rv_smul, map_neg, map_one, e2] at hL
      have hf : rv V s (f (i + 1)) = rv V s (f i) * (V * lineAt (rv (V ^ 2) s (co k).gamma)
          (rv (V ^ 2) s QX, rv (V ^ 2) s QY) (algebraMap F K (px.eval s) * V ^ 2) (algebraMap F K (py.eval s) * V ^ 3)) := by
        rw [rv_mul ht.root ht.k hk, rv_join, rv_pyTwist, htw, hL, lineAt]; ring
      rw [show i + fCount (Step.add :: l) = i + 1 + fCount l by simp only [fCount]; ring, r, millerRef]
      simp only [← hγ]
      rw [← hf, e4, e3]
    | sub =>
      rw [precGates, sat_append] at hs
      simp only [millerGates, sat_append] at hm
      obtain ⟨⟨hl, hk⟩, hm⟩ := hm
      obtain ⟨hp, hne⟩ := addStep_mult hW ht.e hs.1 hQ hP (by simpa using hd.1)
      obtain ⟨e1, e2, e3, e4⟩ := addStep_eqs hW ht.e hs.1 (- rv (V ^ 2) s QY) (by simp)
      have r := ih (k + 1) (i + 1) _ _ (e - 1) hp hd.2 hs.2 hm
      have hγ : rv (V ^ 2) s (co k).gamma = (rv (V ^ 2) s (co k).RY + rv (V ^ 2) s QY) / (rv (V ^ 2) s (co k).RX - rv (V ^ 2) s QX) := by
        rw [eq_div_iff hne, e1]; ring
      have hL := lineGates_eq ht hl
      rw [rv_smul, map_one, e2] at hL
      have hf : rv V s (f (i + 1)) = rv V s (f i) * (V * lineAt (rv (V ^ 2) s (co k).gamma)
          (rv (V ^ 2) s QX, -rv (V ^ 2) s QY) (algebraMap F K (px.eval s) * V ^ 2) (algebraMap F K (py.eval s) * V ^ 3)) := by
        rw [rv_mul ht.root ht.k hk, rv_join, rv_pyTwist, htw, hL, lineAt]; ring
      rw [show i + fCount (Step.sub :: l) = i + 1 + fCount l by simp only [fCount]; ring, r, millerRef]
      simp only [← hγ]
      rw [← hf, e4, e3]

/-- C164: the Miller loop on the precomputed coefficients gives the value of the reference loop. -/
theorem millerComp_partial {t : Tower F m} {β : F} {V : K} (ht : t.Sound β V) {a tw : Fin m → F} (htw : toRing (V ^ 2) tw = V ^ 4)
    (hm : m ≠ 0) {px py : Lc F} {QX QY : Elt F m} {sq c1 : ℕ → Elt F m} {fr : ℕ → Coeff F m} {fs : ℕ → Elt F (m * 2)} {R : Elt F (m * 2)}
    {aux aux' c : ℕ} {s : Asg F} (hQ : (curve (toRing (V ^ 2) a) B).Nonsingular (rv (V ^ 2) s QX) (rv (V ^ 2) s QY))
    (hd : Distinct (.some _ _ hQ : (curve (toRing (V ^ 2) a) B).Point) 1 (loopSteps (naf c)))
    (hs : Sat s (precComp t.e a QX QY sq fr aux (naf c))) {cs : List (Constraint F)}
    (hcs : millerComp t px (pyTwist py tw) QY (coeffAt QX QY fr) c1 fs R aux' (naf c) = some cs) (hm' : Sat s cs) :
    rv V s R = millerRef (toRing (V ^ 2) a) V (algebraMap F K (px.eval s)) (algebraMap F K (py.eval s))
        (rv (V ^ 2) s QX, rv (V ^ 2) s QY) (loopSteps (naf c)) (rv (V ^ 2) s QX, rv (V ^ 2) s QY) 1 := by
  simp only [millerComp] at hcs
  split_ifs at hcs with h0
  rw [Option.some.injEq] at hcs
  subst hcs
  rw [sat_append, equalsConst_iff] at hm'
  have h := millerGates_sound ht htw (co := coeffAt QX QY fr) hQ (loopSteps (naf c)) 0 0 aux aux' 1 (by rw [one_zsmul]; exact ⟨hQ, rfl⟩) hd hs hm'.2
  rw [zero_add] at h
  simp only [if_true] at h
  have hc0 : 0 ≠ fCount (loopSteps (naf c)) := by
    intro e
    apply h0
    cases hl : loopSteps (naf c) with
    | nil => rfl
    | cons x l => rw [hl] at e; cases x <;> simp [fCount] at e
  rw [if_neg hc0] at h
  rw [h]
  congr 1
  rw [rv, hm'.1, toRing_one V (by omega)]

/-! ### The fields of the code -/

/-- Fp3. -/
def g3 (β : F) : Gadgets F 3 := ⟨fun b => fp3Mul β b (b + 1), 2, fun b A => fp3Mul β b (b + 1) A A, 2⟩

/-- Fp4 over Fp2 (curves/detail/r1cs/mnt6.hpp:63-72). -/
def tower4 (β : F) : Tower F 2 := ⟨g2 β, fp2MulX β, g4d β⟩

/-- Fp6 over Fp3 (curves/detail/r1cs/mnt4.hpp:63-72): the special multiplication is `element_fp6_2over3_mul_by_2345`. -/
def tower6 (β : F) : Tower F 3 := ⟨g3 β, fp3MulX β, ⟨fun b => fp6Mul2345 β b, 10, fun b A => fp6Mul β b A A, 9⟩⟩

omit [DecidableEq K] in
theorem tower4_sound {V : K} (h2 : (2 : F) ≠ 0) (h3 : (3 : F) ≠ 0) (h5 : (5 : F) ≠ 0) {β : F} (hβ : β ≠ 1) (hV : V ^ 4 = algebraMap F K β) :
    (tower4 β).Sound β V := by
  refine ⟨hV, g2_sound h2 β, g4d_sound h2 h3 h5 hβ, fun A s => ?_⟩
  show rv (V ^ 2) s (fp2MulX β A) = _
  rw [rv, fp2MulX_eq, school_ring (V ^ 2) β (by rw [← pow_mul]; exact hV)]
  congr 1
  simp [toRing, Fin.sum_univ_two]

/-- C164 for Fp4 over Fp2: no hypothesis on the components is left. `twist.squared()` is `β`, and `g2_coeff_a` is `a β`. -/
theorem miller4_partial {V : K} (h2 : (2 : F) ≠ 0) (h3 : (3 : F) ≠ 0) (h5 : (5 : F) ≠ 0) {β : F} (hβ : β ≠ 1) (hV : V ^ 4 = algebraMap F K β)
    {a1 : F} {px py : Lc F} {QX QY : Elt F 2} {sq c1 : ℕ → Elt F 2} {fr : ℕ → Coeff F 2} {fs : ℕ → Elt F 4} {R : Elt F 4} {aux aux' c : ℕ} {s : Asg F}
    (hQ : (curve (algebraMap F K a1 * V ^ 4) B).Nonsingular (rv (V ^ 2) s QX) (rv (V ^ 2) s QY))
    (hd : Distinct (.some _ _ hQ : (curve (algebraMap F K a1 * V ^ 4) B).Point) 1 (loopSteps (naf c)))
    (hs : Sat s (precComp (g2 β) ![a1 * β, 0] QX QY sq fr aux (naf c))) {cs : List (Constraint F)}
    (hcs : millerComp (tower4 β) px (pyTwist py ![β, 0]) QY (coeffAt QX QY fr) c1 fs R aux' (naf c) = some cs) (hm' : Sat s cs) :
    rv V s R = millerRef (algebraMap F K a1 * V ^ 4) V (algebraMap F K (px.eval s)) (algebraMap F K (py.eval s))
        (rv (V ^ 2) s QX, rv (V ^ 2) s QY) (loopSteps (naf c)) (rv (V ^ 2) s QX, rv (V ^ 2) s QY) 1 := by
  have ea : toRing (V ^ 2) ![a1 * β, 0] = algebraMap F K a1 * V ^ 4 := by simp [toRing, Fin.sum_univ_two, hV]
  have et : toRing (V ^ 2) ![β, 0] = V ^ 4 := by simp [toRing, Fin.sum_univ_two, hV]
  revert hQ
  rw [← ea]
  intro hQ hd
  exact millerComp_partial (tower4_sound h2 h3 h5 hβ hV) et (by decide) hQ hd hs hcs hm'

end

/-! ### Cases -/

theorem naf_2 : naf 2 = [0, 1] := by
  have n0 : naf 0 = [] := by rw [naf]; rfl
  have n1 : naf 1 = [1] := by rw [naf]; simp [n0]
  rw [naf]; simp [n1]

private instance : Fact (Nat.Prime 13) := ⟨by decide⟩
private instance : Fact (Nat.Prime 7) := ⟨by decide⟩

/-- The elements of the case for Fp4. -/
def mc4 (k : ℕ) : Coeff (ZMod 13) 2 := ⟨fresh 2 (5 + 8 * k), fresh 2 (7 + 8 * k), fresh 2 (9 + 8 * k), fresh 2 (11 + 8 * k)⟩

/-- An assignment for loop count 3. -/
def ms4 : Asg (ZMod 13) := ofList
  [1, 1, 1, 1, 0, 0, 0, 0, 4, 12, 1, 3, 4, 3, 6, 7, 5, 11, 2, 7, 3, 0, 7, 6, 11, 9, 12, 7, 9, 2, 3, 9, 0, 0, 0, 0, 4, 2, 4, 11,
    0, 0, 11, 12, 2, 11, 7, 7, 4, 9, 8, 2, 8, 0, 1, 8, 5, 1, 0, 0, 0, 1, 0, 0, 0, 5, 2, 0, 8, 4, 7, 1, 2, 2, 12, 11, 1, 6, 7, 10,
    12, 0, 0, 2, 8, 0, 1, 6, 6, 10, 2, 0, 0, 5, 5, 6]

/-- The constraints of the precomputation with the loop count 3, from the step `k` on. -/
def prec4 (l : List Step) : List (Constraint (ZMod 13)) :=
  precGates (g2 3) ![1 * 3, 0] (fresh 2 1) (fresh 2 3) (fun k => fresh 2 (37 + 2 * k)) (coeffAt (fresh 2 1) (fresh 2 3) mc4) 0 43 l

theorem loop3 : loopSteps (naf 3) = [.dbl, .dbl, .sub] := by rw [naf_3]; decide

theorem mQ4' : (curve (toRing ((2 : ZMod 13) ^ 2) ![(1 : ZMod 13) * 3, 0]) 2).Nonsingular (rv (2 ^ 2) ms4 (fresh 2 1)) (rv (2 ^ 2) ms4 (fresh 2 3)) := by
  have hx : rv ((2 : ZMod 13) ^ 2) ms4 (fresh 2 1) = 5 := by decide +kernel
  have hy : rv ((2 : ZMod 13) ^ 2) ms4 (fresh 2 3) = 5 := by decide +kernel
  rw [hx, hy, nonsingular_iff']
  decide +kernel

/-- The hypothesis about the multiples holds: `4 Q ≠ -Q`. -/
theorem mD4' : Distinct (.some _ _ mQ4' : (curve (toRing ((2 : ZMod 13) ^ 2) ![(1 : ZMod 13) * 3, 0]) 2).Point) 1 (loopSteps (naf 3)) := by
  rw [loop3]
  refine ⟨?_, trivial⟩
  have hs : Sat ms4 (prec4 [.dbl, .dbl]) := by unfold Sat Constraint.Holds; decide +kernel
  have h := precGates_sound (W := (2 : ZMod 13) ^ 2) (β := 3) (by decide +kernel) (g2_sound (by decide) 3) mQ4' [.dbl, .dbl] 0 43 1
    (by rw [one_zsmul]; exact ⟨mQ4', rfl⟩) trivial hs 2 le_rfl
  obtain ⟨hn, e⟩ := h
  intro e'
  have e4 : runExp 1 (List.take 2 [Step.dbl, Step.dbl]) = 2 * (2 * 1) := rfl
  rw [e4, e', neg_some mQ4' (nonsingular_neg mQ4')] at e
  rw [WeierstrassCurve.Affine.Point.some.injEq] at e
  exact absurd e.1 (by decide +kernel)

/-- The constraints of the Miller loop with loop count 3 over Fp4. -/
def miller4 : List (Constraint (ZMod 13)) :=
  equalsConst (fresh 4 58) (oneVal 4) ++ millerGates (tower4 3) (Lc.var 95) (pyTwist (Lc.var 96) ![3, 0]) (fresh 2 3)
    (coeffAt (fresh 2 1) (fresh 2 3) mc4) (fun k => fresh 2 (52 + 2 * k)) (fun i => if i = 5 then fresh 4 78 else fresh 4 (58 + 4 * i)) 0 0 82
    [.dbl, .dbl, .sub]

/-- Points and an assignment that satisfy all hypotheses of `precComp_partial` and `millerComp_partial`, with a subtraction step. -/
example : (tower4 (3 : ZMod 13)).Sound 3 (2 : ZMod 13) ∧ Sat ms4 (precComp (g2 3) ![1 * 3, 0] (fresh 2 1) (fresh 2 3) (fun k => fresh 2 (37 + 2 * k)) mc4 43 (naf 3)) ∧
    millerComp (tower4 3) (Lc.var 95) (pyTwist (Lc.var 96) ![3, 0]) (fresh 2 3) (coeffAt (fresh 2 1) (fresh 2 3) mc4)
      (fun k => fresh 2 (52 + 2 * k)) (fun i => fresh 4 (58 + 4 * i)) (fresh 4 78) 82 (naf 3) = some miller4 ∧ Sat ms4 miller4 ∧
    toRing (2 ^ 2) ![(3 : ZMod 13), 0] = (2 : ZMod 13) ^ 4 := by
  refine ⟨tower4_sound (by decide) (by decide) (by decide) (by decide) (by decide +kernel), ?_, ?_, ?_, by decide +kernel⟩
  · unfold precComp; rw [loop3]; unfold Sat Constraint.Holds; decide +kernel
  · unfold millerComp; rw [loop3]; rfl
  · unfold Sat Constraint.Holds; decide +kernel

/-- The elements of the case for Fp6. -/
def mc6 (k : ℕ) : Coeff (ZMod 7) 3 := ⟨fresh 3 (7 + 12 * k), fresh 3 (10 + 12 * k), fresh 3 (13 + 12 * k), fresh 3 (16 + 12 * k)⟩

/-- The honest assignment for loop count 2. -/
def ms6 : Asg (ZMod 7) := ofList
  [1, 1, 1, 1, 1, 1, 0, 0, 0, 0, 0, 0, 3, 5, 1, 0, 4, 2, 2, 3, 1, 4, 2, 2, 0, 0, 0, 0, 0, 0, 0, 5, 3, 0, 0, 0, 0, 0, 0, 1, 1, 6,
    2, 3, 1, 2, 1, 4, 0, 0, 0, 0, 0, 0, 0, 5, 2, 4, 0, 0, 0, 1, 0, 0, 0, 0, 0, 1, 0, 0, 0, 0, 0, 0, 0, 0, 0, 0, 0, 0, 5, 0, 2, 6,
    4, 0, 0, 0, 0, 0, 0, 0, 0, 0, 1, 0, 1, 0, 0, 0, 0, 0, 0, 0, 0, 6, 5, 0, 0, 0, 0, 0, 0, 0, 0, 0, 0, 0, 0, 5, 6]

/-- Another one, with a different result. -/
def ms6' : Asg (ZMod 7) := ofList
  [1, 1, 1, 1, 1, 1, 0, 0, 0, 0, 0, 0, 3, 5, 1, 0, 4, 2, 2, 3, 1, 4, 2, 2, 0, 0, 0, 0, 0, 0, 0, 5, 3, 0, 0, 0, 0, 0, 0, 1, 1, 6,
    2, 3, 1, 2, 1, 4, 0, 0, 0, 0, 0, 0, 0, 5, 2, 4, 0, 0, 0, 1, 0, 0, 0, 0, 0, 1, 0, 0, 0, 0, 0, 0, 0, 0, 0, 0, 0, 0, 6, 0, 4, 6,
    0, 0, 0, 0, 0, 0, 0, 0, 0, 0, 1, 0, 1, 0, 0, 0, 0, 0, 0, 6, 5, 3, 5, 0, 0, 0, 0, 0, 0, 0, 0, 0, 0, 0, 0, 5, 6]

/-- The constraints of the Miller loop with loop count 2 over Fp6. -/
def miller6 : List (Constraint (ZMod 7)) :=
  equalsConst (fresh 6 62) (oneVal 6) ++ millerGates (tower6 3) (Lc.var 120) (pyTwist (Lc.var 121) ![0, 0, 1]) (fresh 3 4)
    (coeffAt (fresh 3 1) (fresh 3 4) mc6) (fun k => fresh 3 (56 + 3 * k)) (fun i => if i = 2 then fresh 6 80 else fresh 6 (62 + 6 * i)) 0 0 90 [.dbl]

/-- C164 is false of the code over Fp6, where the special multiplication leaves half of the product free: the same points, two results. -/
theorem miller6_forged :
    millerComp (tower6 (3 : ZMod 7)) (Lc.var 120) (pyTwist (Lc.var 121) ![0, 0, 1]) (fresh 3 4) (coeffAt (fresh 3 1) (fresh 3 4) mc6)
      (fun k => fresh 3 (56 + 3 * k)) (fun i => fresh 6 (62 + 6 * i)) (fresh 6 80) 90 (naf 2) = some miller6 ∧
    (∀ v ∈ [1, 2, 3, 4, 5, 6, 120, 121], val ms6 v = val ms6' v) ∧
    (∀ s ∈ [ms6, ms6'], Sat s (precComp (g3 3) ![0, 0, 2] (fresh 3 1) (fresh 3 4) (fun k => fresh 3 (31 + 3 * k)) mc6 40 (naf 2)) ∧ Sat s miller6) ∧
    ev ms6 (fresh 6 80) ≠ ev ms6' (fresh 6 80) := by
  have hl : loopSteps [0, 1] = [.dbl] := by decide
  refine ⟨?_, by decide +kernel, ?_, by decide +kernel⟩
  · unfold millerComp; rw [naf_2, hl]; rfl
  · unfold precComp
    rw [naf_2, hl]
    intro s hs
    simp only [List.mem_cons, List.not_mem_nil, or_false] at hs
    rcases hs with rfl | rfl
    · unfold Sat Constraint.Holds; decide +kernel
    · unfold Sat Constraint.Holds; decide +kernel

/-! ### Points of the twist -/

section
variable {K : Type*} [Field K] [Algebra F K] {W : K} {β : F}

/-- What the component says about a point. -/
theorem g2WellFormed_sound (hW : W ^ m = algebraMap F K β) {g : Gadgets F m} (hg : g.Sound β) {a b : Fin m → F} {aux : ℕ} {X Y X2 Y2 : Elt F m}
    {s : Asg F} (h : Sat s (g2WellFormed g a b aux X Y X2 Y2)) :
    rv W s Y ^ 2 = rv W s X ^ 3 + toRing W a * rv W s X + toRing W b := by
  unfold g2WellFormed at h
  simp only [sat_append] at h
  obtain ⟨⟨h1, h2⟩, h3⟩ := h
  have h1 := rv_sqr hW hg h1
  have h2 := rv_sqr hW hg h2
  have h3 := rv_mul hW hg h3
  have hn : toRing W (fun i => -b i) = -toRing W b := by
    have := toRing_smul W (-1) b
    simpa using this
  rw [rv_addConst, rv_addConst, hn, h1, h2] at h3
  linear_combination h3

/-- C165 holds with the coefficients of the twist: an accepted point lies on the twist `y^2 = x^3 + a W^2 x + b W^3`. -/
theorem g2WellFormed_twist_partial (hW : W ^ m = algebraMap F K β) {g : Gadgets F m} (hg : g.Sound β) {a b : Fin m → F} {a1 b1 : F}
    (ha : toRing W a = algebraMap F K a1 * W ^ 2) (hb : toRing W b = algebraMap F K b1 * W ^ 3) {aux : ℕ} {X Y X2 Y2 : Elt F m}
    {s : Asg F} (h : Sat s (g2WellFormed g a b aux X Y X2 Y2)) :
    rv W s Y ^ 2 = rv W s X ^ 3 + algebraMap F K a1 * W ^ 2 * rv W s X + algebraMap F K b1 * W ^ 3 := by
  rw [g2WellFormed_sound hW hg h, ha, hb]

/-- C165 is false of the code, which adds the coefficients of the curve of G1: of all the points of the twist only those with one
particular abscissa are accepted. -/
theorem g2WellFormed_rejects (hW : W ^ m = algebraMap F K β) (hm : m ≠ 0) {g : Gadgets F m} (hg : g.Sound β) {a1 b1 : F} (ha : a1 ≠ 0) (hW1 : W ^ 2 ≠ 1)
    {aux : ℕ} {X Y X2 Y2 : Elt F m} {s : Asg F} (h : Sat s (g2WellFormed g (fun i => a1 * oneVal m i) (fun i => b1 * oneVal m i) aux X Y X2 Y2))
    (ht : rv W s Y ^ 2 = rv W s X ^ 3 + algebraMap F K a1 * W ^ 2 * rv W s X + algebraMap F K b1 * W ^ 3) :
    rv W s X = algebraMap F K b1 * (W ^ 3 - 1) / (algebraMap F K a1 * (1 - W ^ 2)) := by
  have e := g2WellFormed_sound hW hg h
  rw [toRing_smul, toRing_smul, toRing_one W hm, ht] at e
  have hne : algebraMap F K a1 * (1 - W ^ 2) ≠ 0 :=
    mul_ne_zero (by simpa using ha) (sub_ne_zero.2 (Ne.symm hW1))
  rw [eq_div_iff hne]
  linear_combination -e

end

/-- Accepted points: one for arbitrary constants, and the one abscissa of the twist (`W = 4` in `ZMod 13`, `a = b = 1`) that the code accepts. -/
example : Sat (ofList [1, 1, 1, 1, 4, 2, 4, 2, 2]) (g2WellFormed (g2 (3 : ZMod 13)) ![3, 0] ![4, 6] 9 (fresh 2 1) (fresh 2 3) (fresh 2 5) (fresh 2 7)) ∧
    Sat (ofList [1, 0, 4, 0, 1, 0, 3, 0, 0]) (g2WellFormed (g2 (3 : ZMod 13)) (fun i => 1 * oneVal 2 i) (fun i => 1 * oneVal 2 i) 9 (fresh 2 1) (fresh 2 3)
      (fresh 2 5) (fresh 2 7)) ∧
    rv (4 : ZMod 13) (ofList [(1 : ZMod 13), 0, 4, 0, 1, 0, 3, 0, 0]) (fresh 2 3) ^ 2 = rv (4 : ZMod 13) (ofList [(1 : ZMod 13), 0, 4, 0, 1, 0, 3, 0, 0]) (fresh 2 1) ^ 3 +
      1 * 4 ^ 2 * rv (4 : ZMod 13) (ofList [(1 : ZMod 13), 0, 4, 0, 1, 0, 3, 0, 0]) (fresh 2 1) + 1 * 4 ^ 3 := by
  refine ⟨?_, ?_, by decide +kernel⟩ <;> · unfold Sat Constraint.Holds; decide +kernel

end Ext
end R1cs
end Verif
