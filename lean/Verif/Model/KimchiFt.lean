import Verif.Model.Kimchi

/-!
# rpn_expression and ft_eval of the kimchi verifier

Paths are relative to `include/nil/blueprint/components/systems/snark/plonk/kimchi/detail`.
-/

namespace Verif
namespace Kimchi

section
variable {p : ℕ} [Fact p.Prime]

/-- `token_value_type`, constraints/rpn_expression.hpp:212-238, as made by `rpn_from_string` (240-372); the parsing of the string is not modelled, except for
the column numbers. -/
inductive Tok (p : ℕ)
  | alpha | beta | gamma | joint | endo
  | mds (r c : ℕ)
  | lit (k : ZMod p)
  | cell (col row : ℕ)
  | dup
  | pow (e : ℕ)
  | add | mul | sub
  | vanish
  | basis (i : ℤ)
  | store
  | load (i : ℕ)

/-- `kimchi_proof_evaluations`, types/proof.hpp. -/
structure Evals where
  w : ℕ → Arg
  z : Arg
  poseidon : Arg
  generic : Arg
  aggreg : Arg
  table : Arg
  runtime : Arg
  sorted : ℕ → Arg

/-- `var_from_evals`, constraints/rpn_expression.hpp:171-210; `wc` is `witness_columns`. Column number `wc` itself, which no token has, would read
`sorted[-7]`. -/
def varFromEvals (wc : ℕ) (ev : ℕ → Evals) (col row : ℕ) : Arg :=
  let e := ev row
  if col < wc then e.w col
  else if col = wc + 1 then e.z
  else if col = wc + 2 then e.poseidon
  else if col = wc + 3 then e.generic
  else if col = wc + 4 then e.aggreg
  else if col = wc + 5 then e.table
  else if col = wc + 6 then e.runtime
  else e.sorted (col - wc - 7)

/-- What a cell token names. -/
inductive Column
  | witness (i : ℕ)
  | z | poseidon | generic | aggreg | table | runtime
  | sorted (i : ℕ)

/-- The column number given by the parser, constraints/rpn_expression.hpp:295-327. -/
def colNum (wc : ℕ) : Column → ℕ
  | .witness i => i
  | .z => wc + 0 + 1
  | .poseidon => wc + 1 + 1
  | .generic => wc + 2 + 1
  | .aggreg => wc + 3 + 1
  | .table => wc + 4 + 1
  | .runtime => wc + 5 + 1
  | .sorted i => wc + 7 + i

/-- `params_type` of rpn_expression, constraints/rpn_expression.hpp:378-393, with the constants of the first rows. -/
structure RpnIn where
  x : Arg
  alpha : Arg
  beta : Arg
  gamma : Arg
  joint : Arg
  wc : ℕ
  ev : ℕ → Evals
  g : Arg
  n : ℕ
  endo : Arg
  mds : ℕ → ℕ → Arg

/-- `stack` (its back first) and `cache`. -/
structure Rpn where
  stack : List Arg
  cache : List Arg

/-- One token, constraints/rpn_expression.hpp:428-558. `back` of an empty stack and `cache[idx]` past the end are undefined behaviour; the model reads
`eval_point`, and the theorems suppose that this does not happen. -/
def rpnStep (i : RpnIn) : Tok p → Rpn → Bld p Rpn
  | .alpha, s => pure ⟨i.alpha :: s.stack, s.cache⟩
  | .beta, s => pure ⟨i.beta :: s.stack, s.cache⟩
  | .gamma, s => pure ⟨i.gamma :: s.stack, s.cache⟩
  | .joint, s => pure ⟨i.joint :: s.stack, s.cache⟩
  | .endo, s => pure ⟨i.endo :: s.stack, s.cache⟩
  | .mds r c, s => pure ⟨i.mds r c :: s.stack, s.cache⟩
  | .lit k, s => do
    let l ← emit (.konst k)
    pure ⟨l :: s.stack, s.cache⟩
  | .cell col row, s => pure ⟨varFromEvals i.wc i.ev col row :: s.stack, s.cache⟩
  | .dup, s => pure ⟨s.stack.headD i.x :: s.stack, s.cache⟩
  | .pow e, s => do
    let ex ← emit (.konst (e : ℕ))
    let r ← emit (.exp 64 (s.stack.headD i.x) ex)
    pure ⟨r :: s.stack.tail, s.cache⟩
  | .add, s => do
    let r ← emit (.add (s.stack.headD i.x) (s.stack.tail.headD i.x))
    pure ⟨r :: s.stack.tail.tail, s.cache⟩
  | .mul, s => do
    let r ← emit (.mul 0 (s.stack.headD i.x) (s.stack.tail.headD i.x))
    pure ⟨r :: s.stack.tail.tail, s.cache⟩
  | .sub, s => do
    let r ← emit (.sub (s.stack.tail.headD i.x) (s.stack.headD i.x))
    pure ⟨r :: s.stack.tail.tail, s.cache⟩
  | .vanish, s => do
    let r ← vanishes4 i.n i.g i.x
    pure ⟨r :: s.stack, s.cache⟩
  | .basis j, s => do
    let r ← lagrangeBasis i.n j i.g i.x
    pure ⟨r :: s.stack, s.cache⟩
  | .store, s => pure ⟨s.stack, s.cache ++ [s.stack.headD i.x]⟩
  | .load j, s => pure ⟨s.cache.getD j i.x :: s.stack, s.cache⟩

/-- The loop over the tokens. -/
def rpnRun (i : RpnIn) : List (Tok p) → Rpn → Bld p Rpn
  | [], s => pure s
  | t :: ts, s => do
    let s' ← rpnStep i t s
    rpnRun i ts s'

/-- constraints/rpn_expression.hpp:408-566 with the constants of 680-698: `endo`, then the matrix, a row each. -/
def rpnExpr (i : RpnIn) (endo : ZMod p) (mds : ℕ → ℕ → ZMod p) (ts : List (Tok p)) : Bld p Arg := do
  let e ← emit (.konst endo)
  let m ← loop (fun k (m : ℕ → Arg) => do
    let r ← emit (.konst (mds (k / 3) (k % 3)))
    pure (Function.update m k r)) (fun _ => e) 9
  let s ← rpnRun { i with endo := e, mds := fun r c => m (3 * r + c) } ts ⟨[], []⟩
  pure (s.stack.headD i.x)

/-- `params_type` of ft_eval, oracles_scalar/ft_eval.hpp:143-155: the evaluations at `zeta` (`w`, `s`, `z`), that of `z` at `zeta * omega`, the three powers of
`alpha` of the permutation argument, the shifts. -/
structure FtIn where
  w : ℕ → Arg
  s : ℕ → Arg
  shift : ℕ → Arg
  z0 : Arg
  z1 : Arg
  alpha0 : Arg
  alpha1 : Arg
  alpha2 : Arg
  beta : Arg
  gamma : Arg
  zeta : Arg
  zetaN : Arg
  omega : Arg
  pub : Arg
  n : ℕ

/-- oracles_scalar/ft_eval.hpp:211-229: the product over the columns. -/
def ftPerm (i : FtIn) (m : ℕ) (init : Arg) : Bld p Arg :=
  loop (fun k acc => do
    let b ← emit (.mul 0 i.beta (i.s k))
    let wb ← emit (.add (i.w k) b)
    let wbg ← emit (.add wb i.gamma)
    emit (.mul 0 acc wbg)) init m

/-- oracles_scalar/ft_eval.hpp:231-236. The result is held by a new variable `ft_eval0` of the inner block, whose initializer also names that new variable:
`undef` stands for its indeterminate value. The outer `ft_eval0` does not change. -/
def ftPublic (i : FtIn) (present : Bool) (undef : Arg) : Bld p Unit :=
  if present then (emit (.sub undef i.pub) >>= fun _ => pure ()) else pure ()

/-- oracles_scalar/ft_eval.hpp:248-284. -/
def ftShift (i : FtIn) (P : ℕ) (zkp : Arg) : Bld p Arg := do
  let a ← emit (.mul 0 i.alpha0 zkp)
  let b ← emit (.mul 0 a i.z0)
  loop (fun k acc => do
    let bs ← emit (.mul 0 i.beta (i.shift k))
    let zb ← emit (.mul 0 i.zeta bs)
    let gz ← emit (.add i.gamma zb)
    let wg ← emit (.add (i.w k) gz)
    emit (.mul 0 acc wg)) b P

/-- oracles_scalar/ft_eval.hpp:291-357: the boundary terms of the permutation argument. -/
def ftBoundary (i : FtIn) (one zeta1m1 : Arg) : Bld p Arg := do
  let off ← zkW3 i.n i.omega
  let zw ← emit (.sub i.zeta off)
  let zo ← emit (.sub i.zeta one)
  let oz ← emit (.sub one i.z0)
  let n1 ← emit (.mul 0 zeta1m1 i.alpha1)
  let n2 ← emit (.mul 0 n1 zw)
  let t1 ← emit (.mul 0 zeta1m1 i.alpha2)
  let t2 ← emit (.mul 0 t1 zo)
  let n3 ← emit (.add n2 t2)
  let n4 ← emit (.mul 0 n3 oz)
  let d ← emit (.mul 0 zw zo)
  let di ← emit (.div one d)
  emit (.mul 0 n4 di)

/-- oracles_scalar/ft_eval.hpp:166-382; `P` is `permut_size`, `ct` the constant term component. -/
def ftEval (i : FtIn) (P : ℕ) (present : Bool) (undef : Arg) (ct : Bld p Arg) : Bld p Arg := do
  let _zero ← emit (.konst 0)
  let one ← emit (.konst 1)
  let zkp ← zkpm i.n i.omega i.zeta
  let zeta1m1 ← emit (.sub i.zetaN one)
  let i1 ← emit (.add (i.w (P - 1)) i.gamma)
  let i2 ← emit (.mul 0 i1 i.z1)
  let i3 ← emit (.mul 0 i2 i.alpha0)
  let init ← emit (.mul 0 i3 zkp)
  let ft ← ftPerm i (P - 1) init
  let _ ← ftPublic i present undef
  let fs ← ftShift i P zkp
  let ft1 ← emit (.sub ft fs)
  let nd ← ftBoundary i one zeta1m1
  let ft2 ← emit (.add ft1 nd)
  let pt ← ct
  emit (.sub ft2 pt)

end

end Kimchi
end Verif
