import Verif.Model.R1csExt

/-!
# Exponentiation in extension fields in r1cs

`components/algebra/fields/r1cs/exponentiation.hpp`. The component is a template over the multiplication and the squaring component; the
model takes their constraints as parameters.
-/

namespace Verif
namespace R1cs
namespace Ext

/-- `find_wnaf(1, power)`, least significant digit first (a function of the multiprecision library, called at exponentiation.hpp:84;
digits above the highest non-zero one are not modelled, the component skips them). -/
def naf (c : ℕ) : List ℤ :=
  if h : c = 0 then []
  else if c % 2 = 0 then 0 :: naf (c / 2)
  else if c % 4 = 1 then 1 :: naf ((c - 1) / 2)
  else -1 :: naf ((c + 1) / 2)
termination_by c
decreasing_by all_goals omega

/-- One step of the chain. -/
inductive Step
  | dbl
  | add
  | sub
  deriving DecidableEq

/-- The loop over the digits from the most significant one with the flag `found_nonzero` (exponentiation.hpp:91-108, 124-157). -/
def steps : Bool → List ℤ → List Step
  | _, [] => []
  | found, d :: ds =>
    (if found then [.dbl] else []) ++ (if d = 0 then [] else if 0 < d then [.add] else [.sub]) ++ steps (found || decide (d ≠ 0)) ds

/-- The component multiplication and squaring: constraints in terms of the first auxiliary variable, and number of auxiliary variables. -/
structure Gadgets (F : Type*) (n : ℕ) where
  mul : ℕ → Elt F n → Elt F n → Elt F n → List (Constraint F)
  mulAux : ℕ
  sqr : ℕ → Elt F n → Elt F n → List (Constraint F)
  sqrAux : ℕ

section
variable {F : Type*} [Field F] {n : ℕ}

/-- The element with the constant value 1 (exponentiation.hpp:111, element_fp2.hpp:84-99). -/
def oneElt (n : ℕ) : Elt F n := fun i => .lin (Lc.const (if (i : ℕ) = 0 then 1 else 0))

/-- `*intermediate[k]`, or `result` behind the last one (exponentiation.hpp:128, 141, 149); `inter` are the fresh elements. -/
def node (inter : ℕ → Elt F n) (R : Elt F n) (count k : ℕ) : Elt F n :=
  if k = count then R else if k = 0 then oneElt n else inter k

/-- The constraints of the steps from number `k` on, with the auxiliary variables from `aux` (exponentiation.hpp:124-173). The order of
the constraints is that of the construction, not additions, subtractions, doublings. -/
def expGates (g : Gadgets F n) (A : Elt F n) (nd : ℕ → Elt F n) : ℕ → ℕ → List Step → List (Constraint F)
  | _, _, [] => []
  | k, aux, .dbl :: l => g.sqr aux (nd k) (nd (k + 1)) ++ expGates g A nd (k + 1) (aux + g.sqrAux) l
  | k, aux, .add :: l => g.mul aux (nd k) A (nd (k + 1)) ++ expGates g A nd (k + 1) (aux + g.mulAux) l
  | k, aux, .sub :: l => g.mul aux (nd (k + 1)) A (nd k) ++ expGates g A nd (k + 1) (aux + g.mulAux) l

/-- The component (exponentiation.hpp:77-173). `none` when no digit is non-zero: `intermediate[0]` of an empty vector (111). -/
def expComp (g : Gadgets F n) (inter : ℕ → Elt F n) (aux : ℕ) (digits : List ℤ) (A R : Elt F n) : Option (List (Constraint F)) :=
  let l := steps false digits.reverse
  if l = [] then none else some (expGates g A (node inter R l.length) 0 aux l)

end
end Ext
end R1cs
end Verif
