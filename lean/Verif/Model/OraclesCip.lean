import Verif.Model.CombinedInnerProduct

/-!
# The combined inner product of the oracles

`components/systems/snark/plonk/kimchi/detail/oracles_scalar/oracles_cip.hpp`.
-/

namespace Verif
namespace OraclesCip
open Cip

/-- The template arguments: `prev_challenges_size`, `split_poly_eval_size`, whether `public_input_size > 0`, `ec_arithmetic_gates`, `poseidon_gate`,
`witness_columns`, `permut_size`. -/
structure Config where
  prev : ℕ
  split : ℕ
  pub : Bool
  ec : Bool
  poseidon : Bool
  wires : ℕ
  permut : ℕ

/-- `params_type`, oracles_cip.hpp:110-124; the evaluation points are 0 and 1. -/
structure Params where
  v : Var
  u : Var
  ft : ℕ → Var
  polys : ℕ → ℕ → ℕ → Var
  pEval : ℕ → Var
  z : ℕ → Var
  generic : ℕ → Var
  poseidon : ℕ → Var
  w : ℕ → ℕ → Var
  s : ℕ → ℕ → Var

/-- `cip_size`, oracles_cip.hpp:89-95. -/
def Config.size (c : Config) : ℕ :=
  c.prev + (if c.pub then 1 else 0) + 1 + 1 + (if c.ec then 1 else 0) + (if c.poseidon then 1 else 0) + c.wires + c.permut - 1

/-- oracles_cip.hpp:147-155: every chunk of a polynomial is written to the same place; `undef` is what is there before. -/
def polyAt (c : Config) (q : Params) (undef : Var) (k i : ℕ) : Var := (List.range c.split).foldl (fun _ j => q.polys i k j) undef

/-- `prepare_cip_input`, oracles_cip.hpp:139-206, for the evaluation point `k`; the writes go to consecutive places. -/
def prepare (c : Config) (q : Params) (undef : Var) (k : ℕ) : List Var :=
  (List.range c.prev).map (polyAt c q undef k) ++ (if c.pub then [q.pEval k] else []) ++ [q.ft k] ++ [q.z k] ++ (if c.ec then [q.generic k] else []) ++
    (if c.poseidon then [q.poseidon k] else []) ++ (List.range c.wires).map (q.w k) ++ (List.range (c.permut - 1)).map (q.s k)

/-- The call of combined_inner_product, oracles_cip.hpp:215-220. -/
def toCip (c : Config) (q : Params) (undef : Var) : Cip.Params where
  f1 i := (prepare c q undef 0).getD i undef
  f2 i := (prepare c q undef 1).getD i undef
  xi := q.v
  r := q.u

variable {F : Type*} [Field F]

/-- oracles_cip.hpp:208-228. -/
def circuit (cols : Cols) (c : Config) (q : Params) (undef : Var) (srow : ℤ) : List (Op F) := Cip.circuit cols c.size (toCip c q undef) srow

/-- oracles_cip.hpp:230-247. -/
def assign (cols : Cols) (c : Config) (q : Params) (undef : Var) (srow : ℤ) (t : Table F) : Table F := Cip.assign cols c.size (toCip c q undef) srow t

/-- The output of both generators. -/
def out (cols : Cols) (c : Config) (srow : ℤ) : Var := Cip.out cols c.size srow

end OraclesCip
end Verif
