import Verif.Model.R1csExp
import Verif.Model.R1csBasic

/-!
# Final exponentiation of the pairings of MNT4 and MNT6 in r1cs

`components/algebra/pairing/weierstrass/r1cs/final_exponentiation.hpp` and `Frobenius_map` of
`components/algebra/fields/r1cs/{element_fp4,element_fp6_2over3}.hpp`.

The elements allocated by the constructors are fields of the structures; their variables are arbitrary. `q` is the order of the base field,
`β` the non-residue. The model follows the intention at final_exponentiation.hpp:278-292, where the closing brackets are one too many.
-/

namespace Verif
namespace R1cs
namespace Ext

section
variable {F : Type*} [Field F]

/-- The constants `Frobenius_coeffs_c1[m]` (`j = 1`) and `Frobenius_coeffs_c2[m]` (`j = 2`) of the extension of degree `d`: tables of the algebra
library, modelled from their definition. -/
def frobC (β : F) (q d j m : ℕ) : F := β ^ (j * ((q ^ m - 1) / d))

/-- `element_fp4::Frobenius_map` (element_fp4.hpp:95-108). -/
def frob4 (β : F) (q m : ℕ) (A : Elt F 4) : Elt F 4 :=
  ![.lin (A 0).lc, .lin (Lc.smul (frobC β q 4 1 (m % 4)) (A 1).lc), .lin (Lc.smul (frobC β q 2 1 (m % 2)) (A 2).lc),
    .lin (Lc.smul (frobC β q 2 1 (m % 2)) (Lc.smul (frobC β q 4 1 (m % 4)) (A 3).lc))]

/-- `element_fp6_2over3::Frobenius_map` (element_fp6_2over3.hpp:97-123). -/
def frob6 (β : F) (q m : ℕ) (A : Elt F 6) : Elt F 6 :=
  ![.lin (A 0).lc, .lin (Lc.smul (frobC β q 6 1 (m % 6)) (A 1).lc), .lin (Lc.smul (frobC β q 3 1 (m % 3)) (A 2).lc),
    .lin (Lc.smul (frobC β q 6 1 (m % 6) * frobC β q 3 1 (m % 3)) (A 3).lc), .lin (Lc.smul (frobC β q 3 2 (m % 3)) (A 4).lc),
    .lin (Lc.smul (frobC β q 6 1 (m % 6) * frobC β q 3 2 (m % 3)) (A 5).lc)]

/-- `generate_r1cs_equals_const_constraints` (element_fp2.hpp:128-131, element_fp3.hpp:140-144, element_fp4.hpp:78-81). -/
def equalsConst {n : ℕ} (A : Elt F n) (c : Fin n → F) : List (Constraint F) := List.ofFn fun i => ⟨Lc.const 1, Lc.const (c i), (A i).lc⟩

/-- The coefficients of one. -/
def oneVal (n : ℕ) : Fin n → F := fun i => if (i : ℕ) = 0 then 1 else 0

/-- Constraints of `result_is_one` (final_exponentiation.hpp:171-183, 305-313). -/
def isOneGates {n : ℕ} (v : ℕ) (R : Elt F n) : List (Constraint F) :=
  ⟨Lc.var v, (Lc.const 1).sub (Lc.var v), Lc.const 0⟩ ::
    List.ofFn fun i : Fin n => ⟨Lc.var v, if (i : ℕ) = 0 then (Lc.const 1).sub (R i).lc else (R i).lc, Lc.const 0⟩

/-- The elements, the auxiliary variables of the multiplications and the parameters common to both components; `el_q` is `el_q_2` or
`el_q_3` (final_exponentiation.hpp:67-101, 222-256). -/
structure FinalExp (F : Type*) (n : ℕ) where
  el : Elt F n
  one : Elt F n
  elInv : Elt F n
  /-- `el_q_2_minus_1`, `el_q_3_minus_1`. -/
  e : Elt F n
  /-- `el_inv_q_2_minus_1`, `el_inv_q_3_minus_1`. -/
  eInv : Elt F n
  /-- `beta` (embedding degree 6 only). -/
  beta : Elt F n
  /-- `inv_beta` (embedding degree 6 only). -/
  betaInv : Elt F n
  w1 : Elt F n
  w0 : Elt F n
  result : Elt F n
  isOne : ℕ
  /-- First auxiliary variable of multiplication `i`. -/
  aux : ℕ → ℕ
  /-- Intermediate elements and first auxiliary variable of the two exponentiations. -/
  inter1 : ℕ → Elt F n
  inter0 : ℕ → Elt F n
  aux1 : ℕ
  aux0 : ℕ
  /-- `final_exponent_last_chunk_w1`, `final_exponent_last_chunk_abs_of_w0`, `final_exponent_last_chunk_is_w0_neg`. -/
  pow1 : ℕ
  pow0 : ℕ
  neg : Bool

/-- `final_exp_component<mnt6>::generate_gates` with the wiring of the constructor (final_exponentiation.hpp:260-313); `none` if an exponent
is 0. -/
def FinalExp.gates4 (k : FinalExp F 4) (g : Gadgets F 4) (β : F) (q : ℕ) : Option (List (Constraint F)) :=
  (expComp g k.inter1 k.aux1 (naf k.pow1) (frob4 β q 1 k.e) k.w1).bind fun c1 =>
  (expComp g k.inter0 k.aux0 (naf k.pow0) (if k.neg then k.eInv else k.e) k.w0).bind fun c0 =>
  some (equalsConst k.one (oneVal 4) ++ g.mul (k.aux 0) k.el k.elInv k.one ++ g.mul (k.aux 1) (frob4 β q 2 k.el) k.elInv k.e ++
    g.mul (k.aux 2) (frob4 β q 2 k.elInv) k.el k.eInv ++ c1 ++ c0 ++ g.mul (k.aux 3) k.w1 k.w0 k.result ++ isOneGates k.isOne k.result)

/-- `final_exp_component<mnt4>::generate_gates` with the wiring of the constructor (final_exponentiation.hpp:110-183). -/
def FinalExp.gates6 (k : FinalExp F 6) (g : Gadgets F 6) (β : F) (q : ℕ) : Option (List (Constraint F)) :=
  (expComp g k.inter1 k.aux1 (naf k.pow1) (frob6 β q 1 k.beta) k.w1).bind fun c1 =>
  (expComp g k.inter0 k.aux0 (naf k.pow0) (if k.neg then k.betaInv else k.beta) k.w0).bind fun c0 =>
  some (equalsConst k.one (oneVal 6) ++ g.mul (k.aux 0) k.el k.elInv k.one ++ g.mul (k.aux 1) (frob6 β q 3 k.el) k.elInv k.e ++
    g.mul (k.aux 2) (frob6 β q 1 k.e) k.e k.beta ++ g.mul (k.aux 3) (frob6 β q 3 k.elInv) k.el k.eInv ++
    g.mul (k.aux 4) (frob6 β q 1 k.eInv) k.eInv k.betaInv ++ c0 ++ c1 ++ g.mul (k.aux 5) k.w1 k.w0 k.result ++ isOneGates k.isOne k.result)

end
end Ext
end R1cs
end Verif
