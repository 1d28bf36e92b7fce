import Verif.Model.KimchiProg
import Verif.Model.Poseidon
import Verif.Model.Limbs

/-!
# The sponge and the transcripts of kimchi

`components/systems/snark/plonk/kimchi/detail/sponge.hpp` (`kimchi_sponge`), `transcript_fr.hpp`, `transcript_fq.hpp` (without `digest`, which is in
Model/KimchiCompare) and `batch_scalar/random.hpp`. These classes keep variables and counters while the circuit is generated. The functions come in pairs,
`..._circuit` and `..._assignment`, which change the object in the same way and call `generate_circuit` or `generate_assignments` of the same components
on the same rows; so one function here gives the new object and the list of calls. The wires are 0 to 14 and the constant column is 0.
-/

namespace Verif
namespace KimchiSponge
open Kimchi (c3 c15)

/-- A call of a component at a row. -/
inductive Prim
  | add (x y : Var) (row : ℤ)
  | perm (x : ℕ → Var) (row : ℤ)
  | unpack (x : Var) (row : ℤ)
  | pack (lo hi : Var) (row : ℤ)

variable {p : ℕ} [Fact p.Prime]

/-- The matrix and the round constants of Poseidon. -/
structure Par (p : ℕ) where
  mds : ℕ → ℕ → ZMod p
  rc : ℕ → ℕ → ZMod p

/-- `generate_circuit` of the component. -/
def Prim.ops (P : Par p) : Prim → List (Op (ZMod p))
  | .add x y row => Addition.circuit c3 ⟨x, y⟩ row
  | .perm x row => Poseidon.circuit c15 P.mds P.rc x row
  | .unpack x row => ToLimbs.circuit c15 x row
  | .pack lo hi row => FromLimbs.circuit c3 lo hi row

/-- `generate_assignments` of the component. -/
def Prim.assign (P : Par p) : Prim → Table (ZMod p) → Table (ZMod p)
  | .add x y row => Addition.assign c3 ⟨x, y⟩ row
  | .perm x row => Poseidon.assign c15 P.mds P.rc x row
  | .unpack x row => ToLimbs.assign c15 x row
  | .pack lo hi row => FromLimbs.assign c3 lo hi row

/-- `poseidon_component::rate`. -/
def rate : ℕ := 2

/-- `permute_rows` (sponge.hpp:114). -/
def permuteRows : ℕ := Poseidon.rows
/-- `absorb_rows` (sponge.hpp:119): the permutation and the addition. -/
def absorbRows : ℕ := permuteRows + 1
/-- `squeeze_rows` (sponge.hpp:120). -/
def squeezeRows : ℕ := permuteRows

/-- The members of the sponge (sponge.hpp:65-68). -/
structure Sponge where
  count : ℕ
  absorbed : Bool
  state : ℕ → Var

/-- A new object after `init_*` (sponge.hpp:65-66, 129-146). -/
def Sponge.init (zero : Var) : Sponge := ⟨0, true, fun _ => zero⟩

/-- `init_*` on an object already in use sets the state only (sponge.hpp:129-146). -/
def Sponge.reinit (s : Sponge) (zero : Var) : Sponge := { s with state := fun _ => zero }

/-- `permute_*` (sponge.hpp:70-79, 91-101). -/
def Sponge.permute (s : Sponge) (row : ℤ) : Sponge × List Prim :=
  ({ s with state := fun j => Poseidon.result c15 row j }, [.perm s.state row])

/-- `add_input_*` (sponge.hpp:81-89, 103-112): the input is the left operand. -/
def Sponge.addInput (s : Sponge) (x : Var) (i : ℕ) (row : ℤ) : Sponge × List Prim :=
  ({ s with state := Function.update s.state i (c3.wa 2 row) }, [.add x (s.state i) row])

/-- `absorb_*` (sponge.hpp:148-204). -/
def Sponge.absorb (s : Sponge) (x : Var) (row : ℤ) : Sponge × List Prim :=
  if s.absorbed then
    if s.count = rate then
      let a := s.permute row
      let b := a.1.addInput x 0 (row + (permuteRows : ℤ))
      ({ b.1 with count := 1 }, a.2 ++ b.2)
    else
      let b := s.addInput x s.count row
      ({ b.1 with count := s.count + 1 }, b.2)
  else
    let b := s.addInput x 0 row
    ({ b.1 with absorbed := true, count := 1 }, b.2)

/-- `squeeze_*` (sponge.hpp:206-246). -/
def Sponge.squeeze (s : Sponge) (row : ℤ) : Sponge × List Prim × Var :=
  if s.absorbed then
    let a := s.permute row
    ({ a.1 with absorbed := false, count := 1 }, a.2, a.1.state 0)
  else if s.count = rate then
    let a := s.permute row
    ({ a.1 with count := 1 }, a.2, a.1.state 0)
  else ({ s with count := s.count + 1 }, [], s.state s.count)

/-- `challenge_rows` (transcript_fr.hpp:125-126, transcript_fq.hpp:156-157). -/
def challengeRows : ℕ := squeezeRows + ToLimbs.rows + 1

/-- A transcript: the sponge and `last_squeezed`. -/
structure Transcript where
  sponge : Sponge
  last : List Var

/-- `init_*`. -/
def Transcript.init (zero : Var) : Transcript := ⟨Sponge.init zero, []⟩

/-- `absorb_*`; `absorb_g` and `absorb_fr` (transcript_fq.hpp:177-221) and `absorb_evaluations` (transcript_fr.hpp:165-238) are sequences of it. -/
def Transcript.absorb (t : Transcript) (x : Var) (row : ℤ) : Transcript × List Prim :=
  let a := t.sponge.absorb x row
  (⟨a.1, []⟩, a.2)

/-- `challenge_fq_*` (transcript_fq.hpp:242-253). -/
def Transcript.squeeze (t : Transcript) (row : ℤ) : Transcript × List Prim × Var :=
  let a := t.sponge.squeeze row
  (⟨a.1, []⟩, a.2.1, a.2.2)

/-- `challenge_*`: transcript_fr.hpp:240-279, and transcript_fq.hpp:108-149 with 223-240. The function calls itself once, with two limbs more, and then ends.
If two limbs were left the two classes would pack them on different rows. -/
def Transcript.challenge (fq : Bool) (t : Transcript) (row : ℤ) : Transcript × List Prim × Var :=
  let packRow := row + ((squeezeRows + ToLimbs.rows : ℕ) : ℤ)
  if 2 ≤ t.last.length then
    let row' := if fq then packRow else row
    (⟨t.sponge, t.last.drop 2⟩, [.pack (t.last.getD 0 default) (t.last.getD 1 default) row'], FromLimbs.result c3 row')
  else
    let a := t.sponge.squeeze row
    let row1 := row + (squeezeRows : ℤ)
    let last := t.last ++ [ToLimbs.result c15 row1 0, ToLimbs.result c15 row1 1]
    (⟨a.1, last.drop 2⟩, a.2.1 ++ [.unpack a.2.2 row1, .pack (last.getD 0 default) (last.getD 1 default) packRow], FromLimbs.result c3 packRow)

/-- What a user of a transcript does. -/
inductive Act
  | absorb (x : Var)
  | squeeze
  | challenge

/-- The rows reserved for it. -/
def Act.rows : Act → ℕ
  | .absorb _ => absorbRows
  | .squeeze => squeezeRows
  | .challenge => challengeRows

/-- One action at a row: object, calls, outputs. -/
def Transcript.act (fq : Bool) (t : Transcript) (row : ℤ) : Act → Transcript × List Prim × List Var
  | .absorb x => let a := t.absorb x row; (a.1, a.2, [])
  | .squeeze => let a := t.squeeze row; (a.1, a.2.1, [a.2.2])
  | .challenge => let a := t.challenge fq row; (a.1, a.2.1, [a.2.2])

/-- Actions one after the other, each on the rows reserved for it. -/
def Transcript.run (fq : Bool) : Transcript → ℤ → List Act → Transcript × List Prim × List Var
  | t, _, [] => (t, [], [])
  | t, row, a :: as =>
    let r := t.act fq row a
    let q := r.1.run fq (row + (a.rows : ℤ)) as
    (q.1, r.2.1 ++ q.2.1, r.2.2 ++ q.2.2)

/-- The constraints of a sequence of calls. -/
def circuit (P : Par p) (l : List Prim) : List (Op (ZMod p)) := l.flatMap (Prim.ops P)

/-- The table a sequence of calls generates. -/
def assign (P : Par p) (l : List Prim) (t : Table (ZMod p)) : Table (ZMod p) := l.foldl (fun t c => c.assign P t) t

/-- A proof of the batch as `random` sees it: the state of its transcript and three scalars (random.hpp:114-129). -/
structure BatchProof where
  state : ℕ → Var
  cip : Var
  z1 : Var
  z2 : Var

/-- What is absorbed for a proof (random.hpp:114-129). -/
def BatchProof.inputs (b : BatchProof) : List Var := [b.state 0, b.state 1, b.state 2, b.cip, b.z1, b.z2]

/-- `random` (random.hpp:100-139): the actions. -/
def randomActs (bs : List BatchProof) : List Act := (bs.flatMap BatchProof.inputs).map .absorb ++ [.challenge]

/-- `zero` of `random` (random.hpp:108). -/
def zeroVar (row : ℤ) : Var := ⟨0, row, false, .constant⟩

/-- `rows_amount` of `random` (random.hpp:85-89). -/
def randomRows (n : ℕ) : ℕ := n * (3 * absorbRows + 3 * absorbRows) + challengeRows

/-- `generate_circuit` of `random`, with the constant of 180-187. -/
def randomCircuit (P : Par p) (bs : List BatchProof) (row : ℤ) : List (Op (ZMod p)) :=
  circuit P ((Transcript.init (zeroVar row)).run false row (randomActs bs)).2.1 ++ [.constant 0 row 0]

/-- The output of `random`. -/
def randomOut (bs : List BatchProof) (row : ℤ) : Var :=
  (((Transcript.init (zeroVar row)).run false row (randomActs bs)).2.2).getD 0 default

/-- The variables `absorb_evaluations` absorbs, in order (transcript_fr.hpp:172-194): the public evaluation, `z`, the two selectors, `w`, `s`. -/
def evalInputs (pub z gen pos : Var) (w s : ℕ → Var) : List Var :=
  [pub, z, gen, pos] ++ (List.range 15).map w ++ (List.range 6).map s

end KimchiSponge
end Verif
