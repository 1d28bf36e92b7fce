import Verif.Model.R1csFinalExp

/-!
# Miller loop of the pairings in r1cs

`components/algebra/pairing/weierstrass/r1cs/{precomputation,miller_loop}.hpp` and `element_g2_is_well_formed` of
`components/algebra/curves/weierstrass/r1cs/element_g2.hpp`.

`Fqe` is `F[W]/(W^m - β)` with `m = 2` (`pair_curve_type` mnt4) or `m = 3` (mnt6), `Fqk` is `Fqe[V]/(V^2 - W)`; the components of the two
fields are parameters. `generate_assignments` is not modelled, and the points are variables, not constants (the branches
miller_loop.hpp:88-104, 176-193 for constant points are not modelled).
-/

namespace Verif
namespace R1cs
namespace Ext

section
variable {F : Type*} [Field F] {m : ℕ}

/-- `A * coeff` with a constant (element_fp2.hpp:145-150, element_fp3.hpp:160-166). -/
def smulElt (c : F) (A : Elt F m) : Elt F m := fun i => .lin (Lc.smul c (A i).lc)

/-- `A + other` with a constant of the extension field (element_fp2.hpp:159-164, element_fp3.hpp:176-182). -/
def addConst (A : Elt F m) (c : Fin m → F) : Elt F m := fun i => .lin ((A i).lc.add (Lc.const (c i)))

/-- `precompute_G2_component_coeffs` (precomputation.hpp:155-184). -/
structure Coeff (F : Type*) (m : ℕ) where
  RX : Elt F m
  RY : Elt F m
  gamma : Elt F m
  gammaX : Elt F m

/-- `precompute_G2_component_doubling_step` (precomputation.hpp:266-307): `a` is `g2_coeff_a`, `rxsq` the fresh `RXsquared`. -/
def dblStep (g : Gadgets F m) (a : Fin m → F) (aux : ℕ) (rxsq : Elt F m) (cur next : Coeff F m) : List (Constraint F) :=
  g.sqr aux cur.RX rxsq ++
  g.mul (aux + g.sqrAux) cur.gamma (smulElt 2 cur.RY) (addConst (smulElt 3 rxsq) a) ++
  g.mul (aux + g.sqrAux + g.mulAux) cur.gamma cur.RX cur.gammaX ++
  g.sqr (aux + g.sqrAux + 2 * g.mulAux) cur.gamma (addElt next.RX (smulElt 2 cur.RX)) ++
  g.mul (aux + 2 * g.sqrAux + 2 * g.mulAux) cur.gamma (addElt cur.RX (smulElt (-1) next.RX)) (addElt cur.RY next.RY)

/-- `precompute_G2_component_addition_step` (precomputation.hpp:383-421); `inv` is `invert_Q`. -/
def addStep (g : Gadgets F m) (inv : Bool) (aux : ℕ) (cur next : Coeff F m) (QX QY : Elt F m) : List (Constraint F) :=
  g.mul aux cur.gamma (addElt cur.RX (smulElt (-1) QX)) (addElt cur.RY (smulElt (if inv then 1 else -1) QY)) ++
  g.mul (aux + g.mulAux) cur.gamma QX cur.gammaX ++
  g.sqr (aux + 2 * g.mulAux) cur.gamma (addElt (addElt next.RX cur.RX) QX) ++
  g.mul (aux + g.sqrAux + 2 * g.mulAux) cur.gamma (addElt cur.RX (smulElt (-1) next.RX)) (addElt cur.RY next.RY)

/-- The steps of the loops over the digits from the most significant one: leading zeros and the first non-zero digit are skipped, every
other digit gives a doubling and, if it is not zero, an addition (precomputation.hpp:484-499, 514-533, miller_loop.hpp:290-305, 326-354). -/
def loopSteps (digits : List ℤ) : List Step :=
  match digits.reverse.dropWhile (· = 0) with
  | [] => []
  | _ :: ds => steps true ds

/-- The coefficients: `coeffs[0]` starts with the point, the others are fresh (precomputation.hpp:505-508, 178-183). -/
def coeffAt (QX QY : Elt F m) (fr : ℕ → Coeff F m) (k : ℕ) : Coeff F m := if k = 0 then { fr 0 with RX := QX, RY := QY } else fr k

/-- The constraints of `precompute_G2_component` from step `k` on (precomputation.hpp:514-546), in the order of the construction. -/
def precGates (g : Gadgets F m) (a : Fin m → F) (QX QY : Elt F m) (sq : ℕ → Elt F m) (co : ℕ → Coeff F m) :
    ℕ → ℕ → List Step → List (Constraint F)
  | _, _, [] => []
  | k, aux, .dbl :: l => dblStep g a aux (sq k) (co k) (co (k + 1)) ++
      precGates g a QX QY sq co (k + 1) (aux + 2 * g.sqrAux + 3 * g.mulAux) l
  | k, aux, .add :: l => addStep g false aux (co k) (co (k + 1)) QX QY ++
      precGates g a QX QY sq co (k + 1) (aux + g.sqrAux + 3 * g.mulAux) l
  | k, aux, .sub :: l => addStep g true aux (co k) (co (k + 1)) QX QY ++
      precGates g a QX QY sq co (k + 1) (aux + g.sqrAux + 3 * g.mulAux) l

/-- `precompute_G2_component` (precomputation.hpp:467-546). -/
def precComp (g : Gadgets F m) (a : Fin m → F) (QX QY : Elt F m) (sq : ℕ → Elt F m) (fr : ℕ → Coeff F m) (aux : ℕ) (digits : List ℤ) :
    List (Constraint F) := precGates g a QX QY sq (coeffAt QX QY fr) 0 aux (loopSteps digits)

/-! ### The Miller loop -/

/-- The element `c0 + c1 V` of `Fqk` (element_fp4.hpp:71-76, element_fp6_2over3.hpp:72-77), in the order of the powers of `V`. -/
def joinElt (c0 c1 : Elt F m) : Elt F (m * 2) := fun i =>
  if (i : ℕ) % 2 = 0 then c0 ⟨i / 2, by omega⟩ else c1 ⟨i / 2, by omega⟩

/-- `PY_twist_squared` (precomputation.hpp:107-115, 128-138): `tw` is `twist.squared()`, `y` the ordinate of `P`. -/
def pyTwist (y : Lc F) (tw : Fin m → F) : Elt F m := fun i => .lin (Lc.smul (tw i) y)

/-- The fields of the pairing: components of `Fqe`, `mul_by_X`, components of `Fqk` (`k.mul` is `Fqk_special_mul_component_type`). -/
structure Tower (F : Type*) (m : ℕ) where
  e : Gadgets F m
  mulX : Elt F m → Elt F m
  k : Gadgets F (m * 2)

/-- `mnt_miller_loop_dbl_line_eval` and `mnt_miller_loop_add_line_eval` for variable points (miller_loop.hpp:105-117, 194-209): `sY` is
`-c.RY`, `-Q.Y` or `Q.Y` (`invert_Q`), `c1` the fresh `g_RR_at_P_c1`. -/
def lineGates (t : Tower F m) (px : Lc F) (c : Coeff F m) (sY c1 : Elt F m) : List (Constraint F) :=
  mulByLc (t.mulX c.gamma) px (addElt (addElt c.gammaX sY) (smulElt (-1) c1))

/-- The constraints of `mnt_miller_loop_component` from coefficient `k` and element `i` on (miller_loop.hpp:326-372), in the order of the
construction; `f i` is `*fs[i]`, or the result behind the last one, `c1 k` the fresh element of the line. -/
def millerGates (t : Tower F m) (px : Lc F) (pyt QY : Elt F m) (co : ℕ → Coeff F m) (c1 : ℕ → Elt F m) (f : ℕ → Elt F (m * 2)) :
    ℕ → ℕ → ℕ → List Step → List (Constraint F)
  | _, _, _, [] => []
  | k, i, aux, .dbl :: l => lineGates t px (co k) (smulElt (-1) (co k).RY) (c1 k) ++ t.k.sqr aux (f i) (f (i + 1)) ++
      t.k.mul (aux + t.k.sqrAux) (f (i + 1)) (joinElt pyt (c1 k)) (f (i + 2)) ++
      millerGates t px pyt QY co c1 f (k + 1) (i + 2) (aux + t.k.sqrAux + t.k.mulAux) l
  | k, i, aux, .add :: l => lineGates t px (co k) (smulElt (-1) QY) (c1 k) ++ t.k.mul aux (f i) (joinElt pyt (c1 k)) (f (i + 1)) ++
      millerGates t px pyt QY co c1 f (k + 1) (i + 1) (aux + t.k.mulAux) l
  | k, i, aux, .sub :: l => lineGates t px (co k) (smulElt 1 QY) (c1 k) ++ t.k.mul aux (f i) (joinElt pyt (c1 k)) (f (i + 1)) ++
      millerGates t px pyt QY co c1 f (k + 1) (i + 1) (aux + t.k.mulAux) l

/-- `f_count` (miller_loop.hpp:290-305). -/
def fCount : List Step → ℕ
  | [] => 0
  | .dbl :: l => fCount l + 2
  | .add :: l => fCount l + 1
  | .sub :: l => fCount l + 1

/-- `mnt_miller_loop_component` (miller_loop.hpp:277-372). `none` when there is no step: `fs[0]` of an empty vector (358). -/
def millerComp (t : Tower F m) (px : Lc F) (pyt QY : Elt F m) (co : ℕ → Coeff F m) (c1 : ℕ → Elt F m) (fs : ℕ → Elt F (m * 2)) (R : Elt F (m * 2))
    (aux : ℕ) (digits : List ℤ) : Option (List (Constraint F)) :=
  let l := loopSteps digits
  if l = [] then none
  else some (equalsConst (fs 0) (oneVal (m * 2)) ++ millerGates t px pyt QY co c1 (fun i => if i = fCount l then R else fs i) 0 0 aux l)

/-! ### Points of the twist -/

/-- `element_g2_is_well_formed` (element_g2.hpp:110-160): `a`, `b` are the constants that the code adds. -/
def g2WellFormed (g : Gadgets F m) (a b : Fin m → F) (aux : ℕ) (X Y X2 Y2 : Elt F m) : List (Constraint F) :=
  g.sqr aux X X2 ++ g.sqr (aux + g.sqrAux) Y Y2 ++ g.mul (aux + 2 * g.sqrAux) X (addConst X2 a) (addConst Y2 (fun i => - b i))

end
end Ext
end R1cs
end Verif
