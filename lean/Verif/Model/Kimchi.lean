import Verif.Model.KimchiProg

/-!
# Components of the kimchi verifier: scalar field side

Paths are relative to `include/nil/blueprint/components/systems/snark/plonk/kimchi/detail`. An `std::array` is a function on indices; indices past the end are
never read by the code modelled here.
-/

namespace Verif
namespace Kimchi

section
variable {p : ℕ} [Fact p.Prime]

/-- `a - b` in `std::size_t`. -/
def usub (a b : ℕ) : ℕ := (a + 2 ^ 64 - b) % 2 ^ 64

/-- zk_w3.hpp:93-141: `exponent` is a constant, and the power of `omega` is taken with 64 bit exponents. -/
def zkW3 (n : ℕ) (omega : Arg) : Bld p Arg := do
  let exponent ← emit (.konst (usub n 3 : ℕ))
  emit (.exp 64 omega exponent)

/-- zkpm_evaluate.hpp:98-141, 147-178, 195-202. -/
def zkpm (n : ℕ) (g x : Arg) : Bld p Arg := do
  let size ← emit (.konst (usub n 3 : ℕ))
  let w1 ← emit (.exp 60 g size)
  let w2 ← emit (.mul 0 w1 g)
  let w3 ← emit (.mul 0 w2 g)
  let a1 ← emit (.sub x w1)
  let a2 ← emit (.sub x w2)
  let a3 ← emit (.sub x w3)
  let ans1 ← emit (.mul 0 a1 a2)
  emit (.mul 0 ans1 a3)

/-- constraints/vanishes_on_last_4_rows.hpp:98-203. -/
def vanishes4 (n : ℕ) (g x : Arg) : Bld p Arg := do
  let size ← emit (.konst (usub (usub n 3) 1 : ℕ))
  let w1 ← emit (.exp 60 g size)
  let w2 ← emit (.mul 0 w1 g)
  let w3 ← emit (.mul 0 w2 g)
  let w4 ← emit (.mul 0 w3 g)
  let a1 ← emit (.sub x w1)
  let a2 ← emit (.sub x w2)
  let a3 ← emit (.sub x w3)
  let a4 ← emit (.sub x w4)
  let ans1 ← emit (.mul 0 a1 a2)
  let ans2 ← emit (.mul 0 ans1 a3)
  emit (.mul 0 ans2 a4)

/-- constraints/unnormalized_lagrange_basis.hpp:100-186; `i` is an `int`. -/
def lagrangeBasis (n : ℕ) (i : ℤ) (g x : Arg) : Bld p Arg := do
  let size ← emit (.konst (n : ℕ))
  let basis ← emit (.konst ((if 0 ≤ i then i.toNat else usub n (-i).toNat : ℕ)))
  let one ← emit (.konst 1)
  let d ← emit (.exp 64 g basis)
  let denominator ← emit (.sub x d)
  let m ← emit (.exp 64 x size)
  let numerator ← emit (.sub m one)
  emit (.div numerator denominator)

/-- `pow_twos`, oracles_scalar/b_poly.hpp:113-120. -/
def powTwos (n : ℕ) (x : Arg) : Bld p (ℕ → Arg) :=
  loop (fun i pw => do
    let r ← emit (.mul 0 (pw i) (pw i))
    pure (Function.update pw (i + 1) r)) (fun _ => x) (n - 1)

/-- oracles_scalar/b_poly.hpp:105-144. -/
def bPoly (n : ℕ) (ch : ℕ → Arg) (x one : Arg) : Bld p Arg := do
  let pw ← powTwos n x
  loop (fun i res => do
    let r ← emit (.mul 0 (ch i) (pw (n - 1 - i)))
    let s ← emit (.add one r)
    emit (.mul 0 res s)) one n

/-- The loop state of `b_poly_coefficients`: `output`, `k`, `pow`. -/
structure Coef where
  out : ℕ → Arg
  k : ℕ
  pow : ℕ

/-- oracles_scalar/b_poly_coefficients.hpp:86-108. `rows_amount` (line 71) is `polynomial_len` while the loop makes `polynomial_len - 1` multiplications, so one
row stays free after the last. -/
def bPolyCoeffs (n : ℕ) (ch : ℕ → Arg) (one : Arg) : Bld p Coef :=
  loop (fun j s => do
    let shift := if j + 1 = s.pow then 1 else 0
    let k := s.k + shift
    let pow := s.pow <<< shift
    let r ← emit (.mul (if j + 2 = 2 ^ n then 1 else 0) (s.out (j + 1 - (pow >>> 1))) (ch (n - 1 - (k - 1))))
    pure ⟨Function.update s.out (j + 1) r, k, pow⟩) ⟨fun _ => one, 0, 1⟩ (2 ^ n - 1)

/-- The loop over the high coefficients, oracles_scalar/prev_chal_evals.hpp:157-180: the state is `betaacc`, `diff`. -/
def highPart (n M : ℕ) (b : ℕ → Arg) (x one zero : Arg) : Bld p (Arg × Arg) :=
  loop (fun j s => do
    let ret ← emit (.mul 0 s.1 (b (M + j)))
    let betaacc ← emit (.mul 0 s.1 x)
    let diff ← emit (.add s.2 ret)
    pure (betaacc, diff)) (one, zero) (2 ^ n - M)

/-- One evaluation point, oracles_scalar/prev_chal_evals.hpp:146-192, when the polynomial is split in two. -/
def splitEval (n M : ℕ) (b : ℕ → Arg) (full x pow one zero : Arg) : Bld p (Arg × Arg) := do
  let s ← highPart n M b x one zero
  let r ← emit (.mul 0 s.2 pow)
  let res0 ← emit (.sub full r)
  pure (res0, s.2)

/-- oracles_scalar/prev_chal_evals.hpp:160-165: the coefficients are made if the loop has a first step. -/
def coefficients (n M : ℕ) (ch : ℕ → Arg) (one : Arg) : Bld p (ℕ → Arg) :=
  if M < 2 ^ n then (bPolyCoeffs n ch one >>= fun c => pure c.out) else pure fun _ => one

/-- oracles_scalar/prev_chal_evals.hpp:135-196 with `split_poly_eval_size = 2`. The coefficients are made at the first step of the first loop. -/
def prevChalEvals (n M : ℕ) (ch : ℕ → Arg) (x pow : Fin 2 → Arg) (one zero : Arg) : Bld p (Fin 2 → Arg × Arg) := do
  let full0 ← bPoly n ch (x 0) one
  let b ← coefficients n M ch one
  let r0 ← splitEval n M b full0 (x 0) (pow 0) one zero
  let full1 ← bPoly n ch (x 1) one
  let r1 ← splitEval n M b full1 (x 1) (pow 1) one zero
  pure fun i => if i = 0 then r0 else r1

/-- oracles_scalar/prev_chal_evals.hpp:135-156 with `split_poly_eval_size = 1`. -/
def prevChalEval1 (n : ℕ) (ch : ℕ → Arg) (x : Fin 2 → Arg) (one : Arg) : Bld p (Fin 2 → Arg) := do
  let full0 ← bPoly n ch (x 0) one
  let full1 ← bPoly n ch (x 1) one
  pure fun i => if i = 0 then full0 else full1

/-- One loop of lagrange_denominators.hpp: 1 divided by the difference of `z` and each power of omega, into `output` from index `off` on. -/
def denominators (N off : ℕ) (z : Arg) (om : ℕ → Arg) (one : Arg) (out : ℕ → Arg) : Bld p (ℕ → Arg) :=
  loop (fun i out => do
    let s ← emit (.sub z (om i))
    let d ← emit (.div one s)
    pure (Function.update out (off + i) d)) out N

/-- oracles_scalar/lagrange_denominators.hpp:105-171. -/
def lagrangeDenominators (N : ℕ) (z zo : Arg) (om : ℕ → Arg) (one : Arg) : Bld p (ℕ → Arg) := do
  let o ← denominators N 0 z om one fun _ => one
  denominators N N zo om one o

/-- One pass of the loop over `j` in oracles_scalar/public_evaluations.hpp:138-177: `acc` is the cell of the first row. -/
def publicEval (N off : ℕ) (zn acc : Arg) (pub lag om : ℕ → Arg) (size one : Arg) : Bld p Arg := do
  let s ← loop (fun i acc => do
    let t1 ← emit (.mulc (-1) (lag (off + i)))
    let t2 ← emit (.mul 0 t1 (pub i))
    let t3 ← emit (.mul 0 t2 (om i))
    emit (.add acc t3)) acc N
  let m1 ← emit (.sub zn one)
  let m2 ← emit (.div m1 size)
  emit (.mul 0 s m2)

/-- The calls of oracles_scalar/public_evaluations.hpp:126-177. They start on the row after `srow`. -/
def publicCalls (N : ℕ) (srow : ℤ) (zn zon : Arg) (pub lag om : ℕ → Arg) (size one : Arg) : Bld p (Arg × Arg) := do
  let r0 ← publicEval N 0 zn (.ext ⟨0, srow, false, .witness⟩) pub lag om size one
  let r1 ← publicEval N N zon (.ext ⟨1, srow, false, .witness⟩) pub lag om size one
  pure (r0, r1)

/-- The copy constraints of oracles_scalar/public_evaluations.hpp:229-236. -/
def publicCopies (srow : ℤ) (zero : Var) : List (Op (ZMod p)) :=
  [.copy ⟨0, srow, false, .witness⟩ zero, .copy ⟨1, srow, false, .witness⟩ zero]

/-- The first row of `generate_assignments`, oracles_scalar/public_evaluations.hpp:193-194. -/
def publicRow (srow : ℤ) (t : Table (ZMod p)) : Table (ZMod p) := (t.set .witness 0 srow 0).set .witness 1 srow 0

/-- The calls of oracles_scalar/element_powers.hpp:93-108: `base` is the cell `W1` of the first row. -/
def powerCalls (n : ℕ) (srow : ℤ) : Bld p (ℕ → Arg) :=
  loop (fun i out => do
    let r ← emit (.mul 0 (.ext ⟨1, srow, false, .witness⟩) (out (i + 1)))
    pure (Function.update out (i + 2) r))
    (fun i => if i = 0 then .ext ⟨0, srow, false, .witness⟩ else .ext ⟨1, srow, false, .witness⟩) (n - 2)

/-- The copy constraints of oracles_scalar/element_powers.hpp:141-148. -/
def powerCopies (srow : ℤ) (base one : Var) : List (Op (ZMod p)) :=
  [.copy ⟨0, srow, false, .witness⟩ one, .copy ⟨1, srow, false, .witness⟩ base]

/-- The first row of `generate_assignments`, oracles_scalar/element_powers.hpp:117-118. -/
def powerRow (srow : ℤ) (base : Var) (t : Table (ZMod p)) : Table (ZMod p) :=
  let t1 := t.set .witness 0 srow 1
  t1.set .witness 1 srow (base.value t1)

/-- constraints/perm_scalars.hpp:99-148; `m` is `permut_size - 1`. -/
def permScalars (m : ℕ) (w s : ℕ → Arg) (z alpha beta gamma zkp : Arg) : Bld p Arg := do
  let r1 ← emit (.mul 0 z beta)
  let r2 ← emit (.mul 0 r1 alpha)
  let r3 ← emit (.mul 0 r2 zkp)
  let r ← loop (fun i res => do
    let tmp ← emit (.mul 0 (s i) beta)
    let a1 ← emit (.add tmp gamma)
    let a2 ← emit (.add a1 (w i))
    emit (.mul 0 a2 res)) r3 m
  emit (.mulc (-1) r)

/-- constraints/generic_scalars.hpp:116-165: `alpha i` is `alphas[start_idx + i]`. -/
def genericScalars (w : ℕ → Arg) (alpha : ℕ → Arg) (selector : Arg) : Bld p (ℕ → Arg) :=
  loop (fun i out => do
    let ag ← emit (.mul 0 (alpha i) selector)
    let o0 ← emit (.mul 0 ag (w (3 * i)))
    let o1 ← emit (.mul 0 ag (w (3 * i + 1)))
    let o2 ← emit (.mul 0 ag (w (3 * i + 2)))
    let tmp ← emit (.mul 0 (w (3 * i)) (w (3 * i + 1)))
    let o3 ← emit (.mul 0 ag tmp)
    pure fun j => if j < 5 * i then out j else if j = 5 * i then o0 else if j = 5 * i + 1 then o1 else if j = 5 * i + 2 then o2
      else if j = 5 * i + 3 then o3 else ag) (fun _ => selector) 2

/-- oracles_scalar/combine_proof_evals.hpp:147-205: the evaluations, in the order `w`, `z`, `s`, `lookup`, `generic_selector`, `poseidon_selector`, are multiplied
by `x` one by one. -/
def combineEvals (N : ℕ) (e : ℕ → Arg) (x : Arg) : Bld p (ℕ → Arg) :=
  loop (fun i out => do
    let r ← emit (.mul 0 (e i) x)
    pure (Function.update out i r)) e N

end

end Kimchi
end Verif
