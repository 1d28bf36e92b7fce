import Verif.Model.R1csPairing
import Verif.Props.R1csMiller
import Mathlib.FieldTheory.IsAlgClosed.AlgebraicClosure

/-!
# Products of Miller loops and pairing checks in r1cs

C166 (products of Miller loops), C167 (pairing checks).
-/

namespace Verif
namespace R1cs
namespace Ext

open Weierstrass

section

variable {F : Type*} [Field F] {m : ℕ} {K : Type*} [Field K] [Algebra F K] [DecidableEq K]

/-- The value of the reference Miller loop of the pair, from the point `R` and the value `f` on. -/
def Pairing.miller (P : Pairing F m) (a : Fin m → F) (V : K) (s : Asg F) (l : List Step) (R : K × K) (f : K) : K :=
  millerRef (toRing (V ^ 2) a) V (algebraMap F K (P.px.eval s)) (algebraMap F K (P.py.eval s)) (rv (V ^ 2) s P.QX, rv (V ^ 2) s P.QY) l R f

/-- `Q` is a point of the twist with constant coefficient `B`, coefficient `k` holds the multiple `e Q`, the multiples of the steps `l` are
distinct from the summands, and the precomputation from there on is accepted. -/
def Pairing.Ok (P : Pairing F m) (t : Tower F m) (a : Fin m → F) (V B : K) (s : Asg F) (k : ℕ) (l : List Step) : Prop :=
  ∃ (hQ : (curve (toRing (V ^ 2) a) B).Nonsingular (rv (V ^ 2) s P.QX) (rv (V ^ 2) s P.QY)) (e : ℤ) (aux : ℕ),
    At (V ^ 2) s (P.co k) (e • (.some _ _ hQ : (curve (toRing (V ^ 2) a) B).Point)) ∧
    Distinct (.some _ _ hQ : (curve (toRing (V ^ 2) a) B).Point) e l ∧ Sat s (precGates t.e a P.QX P.QY P.sq P.co k aux l)

/-- The point of coefficient `k`. -/
def Pairing.pt (P : Pairing F m) (V : K) (s : Asg F) (k : ℕ) : K × K := (rv (V ^ 2) s (P.co k).RX, rv (V ^ 2) s (P.co k).RY)

variable {t : Tower F m} {β : F} {V B : K} {a tw : Fin m → F} {s : Asg F}

/-- One step of one pair. -/
theorem Pairing.step (ht : t.Sound β V) (htw : toRing (V ^ 2) tw = V ^ 4) {P : Pairing F m} {k : ℕ} {x : Step} {l : List Step}
    (h : P.Ok t a V B s k (x :: l)) (hl : Sat s (P.lineCs t k x)) :
    P.Ok t a V B s (k + 1) l ∧ ∀ f, P.miller a V s (x :: l) (P.pt V s k) f =
      P.miller a V s l (P.pt V s (k + 1)) ((if x = .dbl then f ^ 2 else f) * rv V s (P.line tw k)) := by
  have hW : (V ^ 2) ^ m = algebraMap F K β := by rw [← pow_mul, mul_comm]; exact ht.root
  obtain ⟨hQ, e, aux, hP, hd, hs⟩ := h
  cases x with
  | dbl =>
    rw [precGates, sat_append] at hs
    obtain ⟨hp, hne⟩ := dblStep_point hW ht.e hs.1 hP
    obtain ⟨e1, e2, e3, e4⟩ := dblStep_eqs hW ht.e hs.1
    rw [← two_zsmul, ← mul_zsmul', mul_comm] at hp
    refine ⟨⟨hQ, 2 * e, _, hp, hd, hs.2⟩, fun f => ?_⟩
    have hγ : rv (V ^ 2) s (P.co k).gamma = (3 * rv (V ^ 2) s (P.co k).RX ^ 2 + toRing (V ^ 2) a) / (2 * rv (V ^ 2) s (P.co k).RY) := by
      rw [eq_div_iff hne, ← e1]; ring
    have hL := lineGates_eq ht hl
    rw [rv_smul, map_neg, map_one, e2] at hL
    have hf : rv V s (P.line tw k) = V * lineAt (rv (V ^ 2) s (P.co k).gamma)
        (rv (V ^ 2) s (P.co k).RX, rv (V ^ 2) s (P.co k).RY) (algebraMap F K (P.px.eval s) * V ^ 2) (algebraMap F K (P.py.eval s) * V ^ 3) := by
      rw [Pairing.line, rv_join, rv_pyTwist, htw, hL, lineAt]; ring
    rw [Pairing.miller, millerRef, Pairing.miller, Pairing.pt, Pairing.pt, if_pos rfl, hf]
    simp only [← hγ]
    rw [e4, e3, show rv (V ^ 2) s (P.co k).gamma ^ 2 - rv (V ^ 2) s (P.co k).RX - rv (V ^ 2) s (P.co k).RX =
      rv (V ^ 2) s (P.co k).gamma ^ 2 - 2 * rv (V ^ 2) s (P.co k).RX by ring]
  | add =>
    rw [precGates, sat_append] at hs
    obtain ⟨hp, hne⟩ := addStep_mult hW ht.e hs.1 hQ hP (by simpa using hd.1)
    obtain ⟨e1, e2, e3, e4⟩ := addStep_eqs hW ht.e hs.1 (rv (V ^ 2) s P.QY) (by simp)
    refine ⟨⟨hQ, e + 1, _, hp, hd.2, hs.2⟩, fun f => ?_⟩
    have hγ : rv (V ^ 2) s (P.co k).gamma = (rv (V ^ 2) s (P.co k).RY - rv (V ^ 2) s P.QY) / (rv (V ^ 2) s (P.co k).RX - rv (V ^ 2) s P.QX) := by
      rw [eq_div_iff hne, ← e1]
    have hL := lineGates_eq ht hl
    rw [rv_smul, map_neg, map_one, e2] at hL
    have hf : rv V s (P.line tw k) = V * lineAt (rv (V ^ 2) s (P.co k).gamma)
        (rv (V ^ 2) s P.QX, rv (V ^ 2) s P.QY) (algebraMap F K (P.px.eval s) * V ^ 2) (algebraMap F K (P.py.eval s) * V ^ 3) := by
      rw [Pairing.line, rv_join, rv_pyTwist, htw, hL, lineAt]; ring
    rw [Pairing.miller, millerRef, Pairing.miller, Pairing.pt, Pairing.pt, if_neg (by decide), hf]
    simp only [← hγ]
    rw [e4, e3]
  | sub =>
    rw [precGates, sat_append] at hs
    obtain ⟨hp, hne⟩ := addStep_mult hW ht.e hs.1 hQ hP (by simpa using hd.1)
    obtain ⟨e1, e2, e3, e4⟩ := addStep_eqs hW ht.e hs.1 (- rv (V ^ 2) s P.QY) (by simp)
    refine ⟨⟨hQ, e - 1, _, hp, hd.2, hs.2⟩, fun f => ?_⟩
    have hγ : rv (V ^ 2) s (P.co k).gamma = (rv (V ^ 2) s (P.co k).RY + rv (V ^ 2) s P.QY) / (rv (V ^ 2) s (P.co k).RX - rv (V ^ 2) s P.QX) := by
      rw [eq_div_iff hne, e1]; ring
    have hL := lineGates_eq ht hl
    rw [rv_smul, map_one, e2] at hL
    have hf : rv V s (P.line tw k) = V * lineAt (rv (V ^ 2) s (P.co k).gamma)
        (rv (V ^ 2) s P.QX, -rv (V ^ 2) s P.QY) (algebraMap F K (P.px.eval s) * V ^ 2) (algebraMap F K (P.py.eval s) * V ^ 3) := by
      rw [Pairing.line, rv_join, rv_pyTwist, htw, hL, lineAt]; ring
    rw [Pairing.miller, millerRef, Pairing.miller, Pairing.pt, Pairing.pt, if_neg (by decide), hf]
    simp only [← hγ]
    rw [e4, e3]

omit [DecidableEq K] in
theorem mulChain_sound (ht : t.Sound β V) {f : ℕ → Elt F (m * 2)} {k : ℕ} (l : List (Pairing F m)) :
    ∀ i aux, Sat s (mulChain t tw f k i aux l) → rv V s (f (i + l.length)) = rv V s (f i) * (l.map fun P => rv V s (P.line tw k)).prod := by
  induction l with
  | nil => intro i aux _; simp
  | cons P l ih =>
    intro i aux h
    rw [mulChain, sat_append] at h
    have h1 := ih (i + 1) _ h.2
    rw [rv_mul ht.root ht.k h.1] at h1
    rw [List.length_cons, show i + (l.length + 1) = i + 1 + l.length by ring, h1, List.map_cons, List.prod_cons]
    ring

theorem prodGates_sound (ht : t.Sound β V) (htw : toRing (V ^ 2) tw = V ^ 4) {nums : List (Pairing F m)} {den : Pairing F m}
    {f : ℕ → Elt F (m * 2)} (l : List Step) :
    ∀ (k i aux : ℕ) (N : Pairing F m → K), (∀ P ∈ nums, P.Ok t a V B s k l) → den.Ok t a V B s k l →
      rv V s (f i) * N den = (nums.map N).prod → Sat s (prodGates t tw nums den f k i aux l) →
      rv V s (f (i + fCountN nums.length l)) * den.miller a V s l (den.pt V s k) (N den) =
        (nums.map fun P => P.miller a V s l (P.pt V s k) (N P)).prod := by
  induction l with
  | nil => intro k i aux N _ _ hN _; exact hN
  | cons x l ih =>
    intro k i aux N hn hden hN hs
    rw [prodGates] at hs
    simp only [sat_append] at hs
    obtain ⟨⟨⟨⟨⟨h1, h2⟩, h3⟩, h4⟩, h5⟩, h6⟩ := hs
    have hline : ∀ P ∈ nums, Sat s (P.lineCs t k x) := fun P hP c hc => h1 c (List.mem_flatMap.2 ⟨P, hP, hc⟩)
    have hstep := fun P hP => Pairing.step (tw := tw) ht htw (hn P hP) (hline P hP)
    obtain ⟨d1, d2⟩ := Pairing.step (tw := tw) ht htw hden h2
    set sq : K → K := fun y => if x = .dbl then y ^ 2 else y with hsq
    set i' := if x = .dbl then i + 1 else i with hi'
    have hmul : ∀ y z, sq (y * z) = sq y * sq z := fun y z => by
      simp only [hsq]; split_ifs
      · exact mul_pow y z 2
      · rfl
    have hone : sq 1 = 1 := by simp [hsq]
    have hf1 : rv V s (f i') = sq (rv V s (f i)) := by
      by_cases hx : x = .dbl
      · rw [if_pos hx] at h3
        simp only [hi', hsq, if_pos hx]
        exact rv_sqr ht.root ht.k h3
      · simp only [hi', hsq, if_neg hx]
    have hc := mulChain_sound ht nums _ _ h4
    have hd := rv_mul ht.root ht.k h5
    have hprod : sq (nums.map N).prod = (nums.map fun P => sq (N P)).prod := by
      generalize nums = L
      induction L with
      | nil => simpa using hone
      | cons P L ih => simp only [List.map_cons, List.prod_cons, hmul, ih]
    have r := ih (k + 1) (i' + nums.length + 1) _ (fun P => sq (N P) * rv V s (P.line tw k)) (fun P hP => (hstep P hP).1) d1 (by
      rw [List.prod_map_mul, ← hprod, ← hN, hmul, ← hf1]
      linear_combination (-sq (N den)) * hd + sq (N den) * hc) h6
    have hi : i + fCountN nums.length (x :: l) = i' + nums.length + 1 + fCountN nums.length l := by
      simp only [fCountN, hi']; split_ifs <;> ring
    rw [hi, d2]
    rw [show (nums.map fun P => P.miller a V s (x :: l) (P.pt V s k) (N P)) =
      nums.map fun P => P.miller a V s l (P.pt V s (k + 1)) (sq (N P) * rv V s (P.line tw k)) from
        List.map_congr_left fun P hP => (hstep P hP).2 (N P)]
    exact r

/-- What is assumed of a pair: `Q` is a point of the twist whose multiples are distinct from the summands, and the precomputation is accepted. -/
structure Pairing.Good (P : Pairing F m) (t : Tower F m) (a : Fin m → F) (V B : K) (s : Asg F) (c : ℕ) : Prop where
  on : (curve (toRing (V ^ 2) a) B).Nonsingular (rv (V ^ 2) s P.QX) (rv (V ^ 2) s P.QY)
  distinct : Distinct (.some _ _ on : (curve (toRing (V ^ 2) a) B).Point) 1 (loopSteps (naf c))
  prec : Sat s (P.prec t a (naf c))

/-- The Miller loop of the pair. -/
def Pairing.loop (P : Pairing F m) (a : Fin m → F) (V : K) (s : Asg F) (c : ℕ) : K :=
  millerRef (toRing (V ^ 2) a) V (algebraMap F K (P.px.eval s)) (algebraMap F K (P.py.eval s)) (rv (V ^ 2) s P.QX, rv (V ^ 2) s P.QY)
    (loopSteps (naf c)) (rv (V ^ 2) s P.QX, rv (V ^ 2) s P.QY) 1

theorem Pairing.Good.ok {P : Pairing F m} {c : ℕ} (h : P.Good t a V B s c) : P.Ok t a V B s 0 (loopSteps (naf c)) :=
  ⟨h.on, 1, P.aux, by rw [one_zsmul]; exact ⟨h.on, rfl⟩, h.distinct, h.prec⟩

/-- C166: the result times the Miller loop of the denominator is the product of the Miller loops of the numerator. -/
theorem prodComp_partial (ht : t.Sound β V) (htw : toRing (V ^ 2) tw = V ^ 4) (hm : m ≠ 0) {nums : List (Pairing F m)} {den : Pairing F m}
    {fs : ℕ → Elt F (m * 2)} {R : Elt F (m * 2)} {aux c : ℕ} (hn : ∀ P ∈ nums, P.Good t a V B s c) (hden : den.Good t a V B s c)
    {cs : List (Constraint F)} (hcs : prodComp t tw nums den fs R aux (naf c) = some cs) (hs : Sat s cs) :
    rv V s R * den.loop a V s c = (nums.map fun P => P.loop a V s c).prod := by
  simp only [prodComp] at hcs
  split_ifs at hcs with h0
  rw [Option.some.injEq] at hcs
  subst hcs
  rw [sat_append, equalsConst_iff] at hs
  have hc0 : 0 ≠ fCountN nums.length (loopSteps (naf c)) := by
    intro e
    apply h0
    cases hl : loopSteps (naf c) with
    | nil => rfl
    | cons x l => rw [hl] at e; simp only [fCountN] at e; omega
  have h1 : rv V s (fs 0) = 1 := by rw [rv, hs.1, toRing_one V (by omega)]
  have h := prodGates_sound ht htw (a := a) (B := B) (loopSteps (naf c)) 0 0 aux (fun _ => 1) (fun P hP => (hn P hP).ok) hden.ok
    (by rw [if_neg hc0, h1]; simp) hs.2
  rw [zero_add] at h
  simp only [if_true] at h
  exact h

end

/-! ### Pairing checks -/

section

open Polynomial

variable {q : ℕ} [Fact q.Prime] {K : Type*} [Field K] [Algebra (ZMod q) K] [DecidableEq K]

omit [DecidableEq K] in
/-- The ring of C161 maps to every field with a root. -/
theorem ring_hom {n : ℕ} {β : ZMod q} {V : K} (hV : V ^ n = algebraMap (ZMod q) K β) :
    ∃ φ : Ring n β →+* K, ∀ a : Fin n → ZMod q, φ (toRing (gen n β) a) = toRing V a := by
  refine ⟨AdjoinRoot.lift (algebraMap (ZMod q) K) V (by simp [hV]), fun a => ?_⟩
  unfold toRing
  rw [map_sum]
  refine Finset.sum_congr rfl fun i _ => ?_
  rw [map_mul, map_pow, AdjoinRoot.algebraMap_eq, AdjoinRoot.lift_of, AdjoinRoot.lift_root]

/-- The exponent of the final exponentiation for embedding degree 4. -/
def FinalExp.exponent (k : FinalExp (ZMod q) 4) : ℤ := ((q : ℤ) ^ 2 - 1) * (q * k.pow1 + (if k.neg then -1 else 1) * k.pow0)

/-- The pairing: the Miller loop to the power of the final exponentiation. -/
noncomputable def Pairing.e (P : Pairing (ZMod q) 2) (a : Fin 2 → ZMod q) (V : K) (s : Asg (ZMod q)) (c : ℕ) (fe : FinalExp (ZMod q) 4) : K :=
  P.loop a V s c ^ fe.exponent

/-- C167: the flag is a bit, and if it is 1, the pairing of the denominator is the product of the pairings of the numerator. -/
theorem checkE4_partial (h2 : (2 : ZMod q) ≠ 0) (h3 : (3 : ZMod q) ≠ 0) (h5 : (5 : ZMod q) ≠ 0) {β : ZMod q} (hβ : β ≠ 0) (hβ1 : β ≠ 1) (hn : 4 ∣ q - 1)
    (hz : zeta β 4 ^ 2 = -1) {V B : K} (hV : V ^ 4 = algebraMap (ZMod q) K β) {a : Fin 2 → ZMod q} {nums : List (Pairing (ZMod q) 2)}
    {den : Pairing (ZMod q) 2} {fs : ℕ → Elt (ZMod q) 4} {fe : FinalExp (ZMod q) 4} {aux c : ℕ} {s : Asg (ZMod q)}
    (hP : ∀ P ∈ nums, P.Good (tower4 β) a V B s c) (hden : den.Good (tower4 β) a V B s c) {cs : List (Constraint (ZMod q))}
    (hcs : checkE4 (tower4 β) (g4c β) β q ![β, 0] nums den fs fe aux (naf c) = some cs) (hs : Sat s cs) :
    (val s fe.isOne = 0 ∨ val s fe.isOne = 1) ∧
      (val s fe.isOne = 1 → (nums.map fun P => P.e a V s c fe).prod = den.e a V s c fe) := by
  unfold checkE4 at hcs
  obtain ⟨c1, hc1, hcs⟩ := Option.bind_eq_some_iff.1 hcs
  obtain ⟨c2, hc2, hcs⟩ := Option.bind_eq_some_iff.1 hcs
  obtain rfl := Option.some.inj hcs
  rw [sat_append] at hs
  have et : toRing (V ^ 2) ![β, 0] = V ^ 4 := by simp [toRing, Fin.sum_univ_two, hV]
  have hr := prodComp_partial (tower4_sound h2 h3 h5 hβ1 hV) et (by decide) hP hden hc1 hs.1
  obtain ⟨u, hu, hres, hf⟩ := finalExp4_sound h2 h3 h5 hβ hβ1 hn hz fe s c2 hc2 hs.2
  refine ⟨hf.imp id And.left, fun h1 => ?_⟩
  rcases hf with h | ⟨_, h⟩
  · exact absurd (h.symm.trans h1) zero_ne_one
  obtain ⟨φ, hφ⟩ := ring_hom hV
  have hR : rv V s fe.el = ((Units.map φ.toMonoidHom u : Kˣ) : K) := by
    rw [rv, ← hφ, hu]; rfl
  have hone : rv V s fe.el ^ fe.exponent = 1 := by
    rw [h] at hres
    have : u ^ fe.exponent = 1 := Units.ext hres.symm
    rw [hR, ← Units.val_zpow_eq_zpow_val, ← map_zpow, this, map_one]; rfl
  have hp : (nums.map fun P => P.e a V s c fe).prod = (nums.map fun P => P.loop a V s c).prod ^ fe.exponent := by
    generalize nums = L
    induction L with
    | nil => simp
    | cons P l ih => rw [List.map_cons, List.prod_cons, ih, List.map_cons, List.prod_cons, mul_zpow, Pairing.e]
  rw [hp, ← hr, mul_zpow, hone, one_mul]; rfl

/-- C167 for `check_e_equals_e_component`: `e(P1, Q1) = e(P2, Q2)`. -/
theorem check_e_equals_e_partial (h2 : (2 : ZMod q) ≠ 0) (h3 : (3 : ZMod q) ≠ 0) (h5 : (5 : ZMod q) ≠ 0) {β : ZMod q} (hβ : β ≠ 0) (hβ1 : β ≠ 1)
    (hn : 4 ∣ q - 1) (hz : zeta β 4 ^ 2 = -1) {V B : K} (hV : V ^ 4 = algebraMap (ZMod q) K β) {a : Fin 2 → ZMod q} {lhs rhs : Pairing (ZMod q) 2}
    {fs : ℕ → Elt (ZMod q) 4} {fe : FinalExp (ZMod q) 4} {aux c : ℕ} {s : Asg (ZMod q)} (hl : lhs.Good (tower4 β) a V B s c)
    (hr : rhs.Good (tower4 β) a V B s c) {cs : List (Constraint (ZMod q))}
    (hcs : checkE4 (tower4 β) (g4c β) β q ![β, 0] [lhs] rhs fs fe aux (naf c) = some cs) (hs : Sat s cs) (h1 : val s fe.isOne = 1) :
    lhs.e a V s c fe = rhs.e a V s c fe := by
  simpa using (checkE4_partial h2 h3 h5 hβ hβ1 hn hz hV (by simpa using hl) hr hcs hs).2 h1

/-- C167 for `check_e_equals_ee_component`: `e(P1, Q1) = e(P2, Q2) * e(P3, Q3)`. -/
theorem check_e_equals_ee_partial (h2 : (2 : ZMod q) ≠ 0) (h3 : (3 : ZMod q) ≠ 0) (h5 : (5 : ZMod q) ≠ 0) {β : ZMod q} (hβ : β ≠ 0) (hβ1 : β ≠ 1)
    (hn : 4 ∣ q - 1) (hz : zeta β 4 ^ 2 = -1) {V B : K} (hV : V ^ 4 = algebraMap (ZMod q) K β) {a : Fin 2 → ZMod q}
    {lhs rhs1 rhs2 : Pairing (ZMod q) 2} {fs : ℕ → Elt (ZMod q) 4} {fe : FinalExp (ZMod q) 4} {aux c : ℕ} {s : Asg (ZMod q)}
    (hl : lhs.Good (tower4 β) a V B s c) (hr1 : rhs1.Good (tower4 β) a V B s c) (hr2 : rhs2.Good (tower4 β) a V B s c)
    {cs : List (Constraint (ZMod q))} (hcs : checkE4 (tower4 β) (g4c β) β q ![β, 0] [rhs1, rhs2] lhs fs fe aux (naf c) = some cs) (hs : Sat s cs)
    (h1 : val s fe.isOne = 1) : lhs.e a V s c fe = rhs1.e a V s c fe * rhs2.e a V s c fe := by
  have := (checkE4_partial h2 h3 h5 hβ hβ1 hn hz hV (by simp [hr1, hr2]) hl hcs hs).2 h1
  simpa using this.symm

end

/-! ### Cases -/

private instance : Fact (Nat.Prime 13) := ⟨by decide⟩

/-- A pair with its variables from `b + 1` on. -/
def pairAt (b : ℕ) : Pairing (ZMod 13) 2 :=
  ⟨Lc.var (b + 5), Lc.var (b + 6), fresh 2 (b + 1), fresh 2 (b + 3), fun _ => fresh 2 (b + 23),
    fun k => ⟨fresh 2 (b + 7 + 8 * k), fresh 2 (b + 9 + 8 * k), fresh 2 (b + 11 + 8 * k), fresh 2 (b + 13 + 8 * k)⟩, fun _ => fresh 2 (b + 28), b + 25⟩

/-- The final exponentiation with both exponents 1, with its variables from 81 on. -/
def feP : FinalExp (ZMod 13) 4 :=
  ⟨fresh 4 81, fresh 4 85, fresh 4 89, fresh 4 93, fresh 4 97, fresh 4 0, fresh 4 0, fresh 4 101, fresh 4 105, fresh 4 109, 113, fun i => 114 + 3 * i, fun _ => fresh 4 0,
    fun _ => fresh 4 0, 126, 129, 1, 1, false⟩

/-- The constraints of `check_e_equals_e_component` with loop count 2 over 13 elements. -/
def checkP : List (Constraint (ZMod 13)) :=
  let k := feP
  let g := g4c (2 : ZMod 13)
  (equalsConst (fresh 4 61) (oneVal 4) ++ prodGates (tower4 2) ![2, 0] [pairAt 0] (pairAt 30)
    (fun i => if i = 3 then fresh 4 81 else fresh 4 (61 + 4 * i)) 0 0 73 [.dbl]) ++
  (equalsConst k.one (oneVal 4) ++ g.mul (k.aux 0) k.el k.elInv k.one ++ g.mul (k.aux 1) (frob4 2 13 2 k.el) k.elInv k.e ++
    g.mul (k.aux 2) (frob4 2 13 2 k.elInv) k.el k.eInv ++ (g.mul 126 (oneElt 4) (frob4 2 13 1 k.e) k.w1 ++ []) ++ (g.mul 129 (oneElt 4) k.e k.w0 ++ []) ++
    g.mul (k.aux 3) k.w1 k.w0 k.result ++ isOneGates k.isOne k.result)

/-- An assignment with two different pairs of equal pairing; the flag is `b`. -/
def msP (b : ZMod 13) : Asg (ZMod 13) := ofList
  [2, 9, 2, 0, 5, 2, 0, 0, 0, 0, 8, 1, 8, 9, 10, 11, 8, 2, 0, 0, 0, 0, 10, 10, 0, 9, 11, 9, 8, 0, 11, 9, 8, 0, 3, 3, 0, 0, 0, 0, 2, 3, 11, 12, 0, 7,
    0, 11, 0, 0, 0, 0, 10, 3, 0, 1, 6, 11, 6, 0, 1, 0, 0, 0, 1, 0, 0, 0, 4, 9, 0, 8, 0, 0, 8, 0, 0, 11, 3, 8, 0, 8, 0, 10, 1, 0, 0, 0, 0, 6, 0, 8, 12, 0,
    0, 0, 12, 0, 0, 0, 12, 0, 0, 0, 12, 0, 0, 0, 1, 0, 0, 0, b, 5, 5, 2, 8, 8, 11, 8, 8, 11, 1, 1, 0, 12, 12, 0, 12, 12, 0]

theorem loop2 : loopSteps (naf 2) = [.dbl] := by rw [naf_2]; decide

theorem checkP_gates : checkE4 (tower4 (2 : ZMod 13)) (g4c 2) 2 13 ![2, 0] [pairAt 0] (pairAt 30) (fun i => fresh 4 (61 + 4 * i)) feP 73 (naf 2) =
    some checkP := by
  have e1 : feP.pow1 = 1 := rfl
  have e0 : feP.pow0 = 1 := rfl
  unfold checkE4 prodComp FinalExp.gates4
  rw [e1, e0, naf_1, loop2]
  rfl

theorem checkP_sat1 : Sat (msP 1) checkP := by unfold Sat Constraint.Holds; decide +kernel
theorem checkP_sat0 : Sat (msP 0) checkP := by unfold Sat Constraint.Holds; decide +kernel

section

open Classical

/-- The algebraic closure of the field with 13 elements. -/
abbrev K13 : Type := AlgebraicClosure (ZMod 13)

theorem exists_V : ∃ V : K13, V ^ 4 = algebraMap (ZMod 13) K13 2 := IsAlgClosed.exists_pow_nat_eq _ (by decide)

/-- Both pairs meet the hypotheses. -/
theorem pairAt_good {V : K13} (hV : V ^ 4 = algebraMap (ZMod 13) K13 2) {f : ZMod 13} (hf : f = 0 ∨ f = 1) {b : ℕ} (hb : b = 0 ∨ b = 30) :
    (pairAt b).Good (tower4 2) ![1 * 2, 0] V (8 + 2 * V ^ 2) (msP f) 2 := by
  have h13 : (13 : K13) = 0 := by exact_mod_cast CharP.cast_eq_zero K13 13
  have h4 : (V ^ 2) ^ 2 = 2 := by rw [← pow_mul, hV]; rfl
  have key : ∀ x0 x1 y : ZMod 13, rv (V ^ 2) (msP f) (pairAt b).QX = algebraMap _ _ x0 + algebraMap _ _ x1 * V ^ 2 →
      rv (V ^ 2) (msP f) (pairAt b).QY = algebraMap _ _ y → (2 : ZMod 13) * y ≠ 0 →
      y ^ 2 = x0 ^ 3 + 6 * x0 * x1 ^ 2 + 2 * x0 + 8 → 0 = 3 * x0 ^ 2 * x1 + 2 * x1 ^ 3 + 2 * x1 + 2 →
      (curve (toRing (V ^ 2) ![(1 : ZMod 13) * 2, 0]) (8 + 2 * V ^ 2)).Nonsingular (rv (V ^ 2) (msP f) (pairAt b).QX) (rv (V ^ 2) (msP f) (pairAt b).QY) := by
    intro x0 x1 y hx hy h0 e1 e2
    rw [hx, hy, nonsingular_iff']
    have e1' := congrArg (algebraMap (ZMod 13) K13) e1
    have e2' := congrArg (algebraMap (ZMod 13) K13) e2
    have h0' : algebraMap (ZMod 13) K13 (2 * y) ≠ 0 := fun h => h0 ((algebraMap (ZMod 13) K13).injective (by rw [h, map_zero]))
    simp only [map_add, map_mul, map_pow, map_ofNat, map_zero] at e1' e2' h0'
    refine ⟨?_, Or.inr h0'⟩
    have ea : toRing (V ^ 2) ![(1 : ZMod 13) * 2, 0] = (2 : K13) := by simp only [toRing, Fin.sum_univ_two]; simp; exact map_ofNat _ 2
    rw [ea]
    generalize algebraMap (ZMod 13) K13 x0 = X0 at *
    generalize algebraMap (ZMod 13) K13 x1 = X1 at *
    generalize algebraMap (ZMod 13) K13 y = Y at *
    generalize V ^ 2 = W at *
    linear_combination e1' + W * e2' - (3 * X0 * X1 ^ 2 + X1 ^ 3 * W) * h4
  refine ⟨?_, by rw [loop2]; trivial, ?_⟩
  · rcases hb with rfl | rfl <;> rcases hf with rfl | rfl
    · exact key 2 9 2 (by simp [rv, toRing, Fin.sum_univ_two, show ev (msP 0) (pairAt 0).QX = ![2, 9] by decide +kernel])
        (by simp [rv, toRing, Fin.sum_univ_two, show ev (msP 0) (pairAt 0).QY = ![2, 0] by decide +kernel]) (by decide) (by decide) (by decide)
    · exact key 2 9 2 (by simp [rv, toRing, Fin.sum_univ_two, show ev (msP 1) (pairAt 0).QX = ![2, 9] by decide +kernel])
        (by simp [rv, toRing, Fin.sum_univ_two, show ev (msP 1) (pairAt 0).QY = ![2, 0] by decide +kernel]) (by decide) (by decide) (by decide)
    · exact key 11 9 8 (by simp [rv, toRing, Fin.sum_univ_two, show ev (msP 0) (pairAt 30).QX = ![11, 9] by decide +kernel])
        (by simp [rv, toRing, Fin.sum_univ_two, show ev (msP 0) (pairAt 30).QY = ![8, 0] by decide +kernel]) (by decide) (by decide) (by decide)
    · exact key 11 9 8 (by simp [rv, toRing, Fin.sum_univ_two, show ev (msP 1) (pairAt 30).QX = ![11, 9] by decide +kernel])
        (by simp [rv, toRing, Fin.sum_univ_two, show ev (msP 1) (pairAt 30).QY = ![8, 0] by decide +kernel]) (by decide) (by decide) (by decide)
  · unfold Pairing.prec precComp
    rw [loop2]
    rcases hb with rfl | rfl <;> rcases hf with rfl | rfl <;> (unfold Sat Constraint.Holds; decide +kernel)

/-- All hypotheses of `check_e_equals_e_partial` are met by two different pairs: their pairings are equal. -/
theorem checkP_equal : ∃ V : K13, V ^ 4 = algebraMap (ZMod 13) K13 2 ∧
    (pairAt 0).e ![1 * 2, 0] V (msP 1) 2 feP = (pairAt 30).e ![1 * 2, 0] V (msP 1) 2 feP := by
  obtain ⟨V, hV⟩ := exists_V
  exact ⟨V, hV, check_e_equals_e_partial (by decide) (by decide) (by decide) (by decide) (by decide) (by decide) (by decide +kernel) hV
    (pairAt_good hV (Or.inr rfl) (Or.inl rfl)) (pairAt_good hV (Or.inr rfl) (Or.inr rfl)) checkP_gates checkP_sat1 (by decide +kernel)⟩

/-- C167 is false of the code as an equivalence: the pairings of the same two pairs are accepted with the flag 0. -/
theorem checkE4_flag_forged : ∃ (V : K13) (s s' : Asg (ZMod 13)), V ^ 4 = algebraMap (ZMod 13) K13 2 ∧
    checkE4 (tower4 (2 : ZMod 13)) (g4c 2) 2 13 ![2, 0] [pairAt 0] (pairAt 30) (fun i => fresh 4 (61 + 4 * i)) feP 73 (naf 2) = some checkP ∧
    Sat s checkP ∧ Sat s' checkP ∧ (∀ v, v ≠ feP.isOne → val s v = val s' v) ∧ val s feP.isOne = 1 ∧ val s' feP.isOne = 0 ∧
    (pairAt 0).e ![1 * 2, 0] V s 2 feP = (pairAt 30).e ![1 * 2, 0] V s 2 feP := by
  obtain ⟨V, hV, h⟩ := checkP_equal
  refine ⟨V, msP 1, msP 0, hV, checkP_gates, checkP_sat1, checkP_sat0, ?_, by decide +kernel, by decide +kernel, h⟩
  have hlt : ∀ v < 132, v ≠ 113 → val (msP 1) v = val (msP 0) v := by decide +kernel
  intro v hv
  by_cases h' : v < 132
  · exact hlt v h' hv
  · have h1 : ∀ b, (msP b) v = 0 := fun b => by
      unfold msP ofList
      rw [List.getD_eq_getElem?_getD, List.getElem?_eq_none (by simp only [List.length_cons, List.length_nil]; omega)]; rfl
    have h0 : v ≠ 0 := by omega
    rw [val, val, if_neg h0, if_neg h0, h1, h1]

end

end Ext
end R1cs
end Verif
