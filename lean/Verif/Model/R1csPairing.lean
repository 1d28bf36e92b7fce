import Verif.Model.R1csMiller

/-!
# Products of Miller loops and pairing checks in r1cs

`mnt_e_over_e_miller_loop_component`, `mnt_e_times_e_over_e_miller_loop_component` (pairing/weierstrass/r1cs/miller_loop.hpp) and
`check_e_equals_e_component`, `check_e_equals_ee_component` (pairing/weierstrass/r1cs/pairing_checks.hpp).

The two products are modelled as one: a list of pairs in the numerator (one or two in the code), and one in the denominator.
-/

namespace Verif
namespace R1cs
namespace Ext

variable {F : Type*} [Field F] {m : ℕ}

/-- `g1_precomputation` and `g2_precomputation` of a pair, with the fresh elements of its precomputation and its lines. -/
structure Pairing (F : Type*) (m : ℕ) where
  px : Lc F
  py : Lc F
  QX : Elt F m
  QY : Elt F m
  sq : ℕ → Elt F m
  fr : ℕ → Coeff F m
  c1 : ℕ → Elt F m
  aux : ℕ

/-- `prec_Q.coeffs[k]`. -/
def Pairing.co (P : Pairing F m) (k : ℕ) : Coeff F m := coeffAt P.QX P.QY P.fr k

/-- `precompute_G2_component` of the pair (precomputation.hpp:467-546). -/
def Pairing.prec (P : Pairing F m) (t : Tower F m) (a : Fin m → F) (digits : List ℤ) : List (Constraint F) :=
  precComp t.e a P.QX P.QY P.sq P.fr P.aux digits

/-- The line component of the pair for a step (miller_loop.hpp:481-484, 499-504, 703-708, 726-734). -/
def Pairing.lineCs (P : Pairing F m) (t : Tower F m) (k : ℕ) : Step → List (Constraint F)
  | .dbl => lineGates t P.px (P.co k) (smulElt (-1) (P.co k).RY) (P.c1 k)
  | .add => lineGates t P.px (P.co k) (smulElt (-1) P.QY) (P.c1 k)
  | .sub => lineGates t P.px (P.co k) (smulElt 1 P.QY) (P.c1 k)

/-- `g_RR_at_P`, `g_RQ_at_P` (miller_loop.hpp:118, 210). -/
def Pairing.line (P : Pairing F m) (tw : Fin m → F) (k : ℕ) : Elt F (m * 2) := joinElt (pyTwist P.py tw) (P.c1 k)

/-- `dbl_muls1`, `dbl_muls2`, `add_muls1`, `add_muls2` of the numerator (miller_loop.hpp:490-491, 506-507, 714-718, 736-740). -/
def mulChain (t : Tower F m) (tw : Fin m → F) (f : ℕ → Elt F (m * 2)) (k : ℕ) : ℕ → ℕ → List (Pairing F m) → List (Constraint F)
  | _, _, [] => []
  | i, aux, P :: l => t.k.mul aux (f i) (P.line tw k) (f (i + 1)) ++ mulChain t tw f k (i + 1) (aux + t.k.mulAux) l

/-- The constraints of the loop from coefficient `k` and element `i` on (miller_loop.hpp:467-531, 688-767), in the order of the
construction. The multiplication with the line of the denominator has the next element as factor and the current one as result. -/
def prodGates (t : Tower F m) (tw : Fin m → F) (nums : List (Pairing F m)) (den : Pairing F m) (f : ℕ → Elt F (m * 2)) :
    ℕ → ℕ → ℕ → List Step → List (Constraint F)
  | _, _, _, [] => []
  | k, i, aux, x :: l =>
    let i' := if x = .dbl then i + 1 else i
    let aux' := if x = .dbl then aux + t.k.sqrAux else aux
    let n := nums.length
    nums.flatMap (fun P => P.lineCs t k x) ++ den.lineCs t k x ++ (if x = .dbl then t.k.sqr aux (f i) (f (i + 1)) else []) ++
      mulChain t tw f k i' aux' nums ++ t.k.mul (aux' + n * t.k.mulAux) (f (i' + n + 1)) (den.line tw k) (f (i' + n)) ++
      prodGates t tw nums den f (k + 1) (i' + n + 1) (aux' + (n + 1) * t.k.mulAux) l

/-- `f_count` with `n` pairs in the numerator (miller_loop.hpp:440-446, 655-661). -/
def fCountN (n : ℕ) : List Step → ℕ
  | [] => 0
  | x :: l => (if x = .dbl then 1 else 0) + (n + 1) + fCountN n l

/-- The component (miller_loop.hpp:417-531, 630-767). `none` when there is no step. -/
def prodComp (t : Tower F m) (tw : Fin m → F) (nums : List (Pairing F m)) (den : Pairing F m) (fs : ℕ → Elt F (m * 2)) (R : Elt F (m * 2))
    (aux : ℕ) (digits : List ℤ) : Option (List (Constraint F)) :=
  let l := loopSteps digits
  if l = [] then none
  else some (equalsConst (fs 0) (oneVal (m * 2)) ++
    prodGates t tw nums den (fun i => if i = fCountN nums.length l then R else fs i) 0 0 aux l)

/-- `check_e_equals_e_component` (`nums` is the left pair, `den` the right one, pairing_checks.hpp:69-86) and `check_e_equals_ee_component`
(`nums` are the two right pairs, `den` the left one, pairing_checks.hpp:117-137) for embedding degree 4: the product with the ratio as result,
and the final exponentiation of it. -/
def checkE4 (t : Tower F 2) (g : Gadgets F 4) (β : F) (q : ℕ) (tw : Fin 2 → F) (nums : List (Pairing F 2)) (den : Pairing F 2) (fs : ℕ → Elt F 4)
    (fe : FinalExp F 4) (aux : ℕ) (digits : List ℤ) : Option (List (Constraint F)) :=
  (prodComp t tw nums den fs fe.el aux digits).bind fun c => (fe.gates4 g β q).bind fun c' => some (c ++ c')

end Ext
end R1cs
end Verif
