import Verif.Model.R1csPack
import Verif.Core.Sha256Spec

/-!
# The r1cs circuit of the SHA-256 compression function

`include/nil/blueprint/components/hashes/sha2/r1cs/sha256_aux.hpp`, `sha256_construction.hpp`, `sha256_component.hpp`.

Constraint generation gives a list of constraints. Assignment is a list of steps: a variable and how its value is computed from the values so far;
the steps are executed in order. A vector of bits is a function from the index; index 0 is the least significant bit.
-/

set_option linter.unusedSectionVars false

namespace Verif
namespace R1cs

/-- One assignment `bp.val(v) = ...`. -/
abbrev Step (F : Type*) := ℕ × (Asg F → F)

/-- Assignments in order. -/
def run {F : Type*} : List (Step F) → Asg F → Asg F
  | [], s => s
  | t :: l, s => run l (s.set t.1 (t.2 s))

namespace Sha

section
variable {p : ℕ} [Fact p.Prime]

/-- A vector of 32 linear combinations. -/
abbrev LWord (p : ℕ) := ℕ → Lc (ZMod p)

/-- The list of the 32 bits. -/
def LWord.list (w : LWord p) : List (Lc (ZMod p)) := (List.range 32).map w

/-- A vector of variables as linear combinations. -/
def vars (v : ℕ → ℕ) : LWord p := fun i => Lc.var (v i)

/-- `packing::generate_assignments_from_bits` (`packing.hpp:97-100`). -/
def packStep (w : LWord p) (packed : ℕ) : List (Step (ZMod p)) := [(packed, fun s => horner (w.list.map (Lc.eval s)))]

/-! ### `lastbits_component` -/

/-- `lastbits_component` (`sha256_aux.hpp:40-79`): `base` is the first variable of the overflow bits. -/
structure LastBits where
  X : ℕ
  n : ℕ
  result : ℕ
  bits : ℕ → ℕ
  base : ℕ

namespace LastBits
variable (k : LastBits)

/-- `full_bits` (59-64). -/
def full : List ℕ := (List.range k.n).map fun i => if i < 32 then k.bits i else k.base + (i - 32)

/-- `generate_gates` (70-73). -/
def gates : List (Constraint (ZMod p)) :=
  packGates (k.full.map Lc.var) (Lc.var k.X) true ++ packGates (LWord.list (vars k.bits)) (Lc.var k.result) false

/-- `generate_assignments` (75-78). -/
def steps : List (Step (ZMod p)) :=
  ((List.range k.n).map fun i => ((if i < 32 then k.bits i else k.base + (i - 32) : ℕ), fun s => if (val s k.X).val.testBit i then 1 else 0)) ++
    packStep (vars k.bits) k.result

end LastBits

/-! ### `XOR3_component` -/

/-- `XOR3_component::generate_gates` (`sha256_aux.hpp:106-117`). -/
def xor3Gates (A B C : Lc (ZMod p)) (zero : Bool) (tmp : ℕ) (out : Lc (ZMod p)) : List (Constraint (ZMod p)) :=
  if zero then [⟨Lc.smul 2 A, B, (A.add B).sub out⟩]
  else [⟨Lc.smul 2 A, B, (A.add B).sub (Lc.var tmp)⟩, ⟨Lc.smul 2 (Lc.var tmp), C, ((Lc.var tmp).add C).sub out⟩]

/-- `XOR3_component::generate_assignments` (119-132) with a variable as output. -/
def xor3Steps (A B C : Lc (ZMod p)) (zero : Bool) (tmp out : ℕ) : List (Step (ZMod p)) :=
  if zero then [(out, fun s => A.eval s + B.eval s - 2 * A.eval s * B.eval s)]
  else [(tmp, fun s => A.eval s + B.eval s - 2 * A.eval s * B.eval s), (out, fun s => val s tmp + C.eval s - 2 * val s tmp * C.eval s)]

/-! ### The sigma functions -/

/-- What `small_sigma_component` (`sha256_aux.hpp:139-185`) and `big_sigma_component` (188-234) have in common: the result bits are the variables
from `base`, the variables `tmp` of the `XOR3_component`s follow. -/
structure Sigma (p : ℕ) where
  A : LWord p
  B : LWord p
  C : LWord p
  zero : ℕ → Bool
  result : ℕ
  base : ℕ

namespace Sigma
variable (k : Sigma p)

/-- `result_bits` (158, 207). -/
def bits (i : ℕ) : ℕ := k.base + i
/-- `generate_gates` (169-175, 218-224). -/
def gates : List (Constraint (ZMod p)) :=
  (List.range 32).flatMap (fun i => xor3Gates (k.A i) (k.B i) (k.C i) (k.zero i) (k.base + 32 + i) (Lc.var (k.bits i))) ++
    packGates (LWord.list (vars k.bits)) (Lc.var k.result) false
/-- `generate_assignments` (177-183, 226-232). -/
def steps : List (Step (ZMod p)) :=
  (List.range 32).flatMap (fun i => xor3Steps (k.A i) (k.B i) (k.C i) (k.zero i) (k.base + 32 + i) (k.bits i)) ++ packStep (vars k.bits) k.result

end Sigma

/-- `SHA256_COMPONENT_ROTR` (`sha256_aux.hpp:135`). -/
def rotr (w : LWord p) (r : ℕ) : LWord p := fun i => w ((i + r) % 32)

/-- `small_sigma_component` (`sha256_aux.hpp:148-167`). -/
def smallSigma (w : LWord p) (result r1 r2 sh base : ℕ) : Sigma p :=
  ⟨rotr w r1, rotr w r2, fun i => if i + sh < 32 then w (i + sh) else Lc.var 0, fun i => decide (32 ≤ i + sh), result, base⟩

/-- `big_sigma_component` (`sha256_aux.hpp:197-216`). -/
def bigSigma (w : LWord p) (result r1 r2 r3 base : ℕ) : Sigma p := ⟨rotr w r1, rotr w r2, rotr w r3, fun _ => false, result, base⟩

/-! ### Choice and majority -/

/-- `choice_component` and `majority_component` (`sha256_aux.hpp:237-281`, `284-338`): the result bits are the variables from `base`. -/
structure Ter (p : ℕ) where
  X : LWord p
  Y : LWord p
  Z : LWord p
  result : ℕ
  base : ℕ

namespace Ter
variable (k : Ter p)

/-- `result_bits`. -/
def bits (i : ℕ) : ℕ := k.base + i

/-- `choice_component::generate_gates` (260-270). -/
def chGates : List (Constraint (ZMod p)) :=
  ((List.range 32).map fun i => (⟨k.X i, (k.Y i).sub (k.Z i), (Lc.var (k.bits i)).sub (k.Z i)⟩ : Constraint (ZMod p))) ++
    packGates (LWord.list (vars k.bits)) (Lc.var k.result) false

/-- `choice_component::generate_assignments` (272-279). -/
def chSteps : List (Step (ZMod p)) :=
  ((List.range 32).map fun i => (k.bits i, fun s => (k.X i).eval s * (k.Y i).eval s + (1 - (k.X i).eval s) * (k.Z i).eval s)) ++
    packStep (vars k.bits) k.result

/-- `aux` (308-316). -/
def aux (i : ℕ) : Lc (ZMod p) := (((k.X i).add (k.Y i)).add (k.Z i)).sub (Lc.smul 2 (Lc.var (k.bits i)))

/-- `majority_component::generate_gates` (306-319). -/
def majGates : List (Constraint (ZMod p)) :=
  ((List.range 32).flatMap fun i => [boolean (Lc.var (k.bits i)), ⟨k.aux i, (Lc.const 1).sub (k.aux i), Lc.const 0⟩]) ++
    packGates (LWord.list (vars k.bits)) (Lc.var k.result) false

/-- `majority_component::generate_assignments` (321-337). -/
def majSteps : List (Step (ZMod p)) :=
  ((List.range 32).map fun i => (k.bits i, fun s => ((((k.X i).eval s + (k.Y i).eval s + (k.Z i).eval s).val / 2 : ℕ) : ZMod p))) ++
    packStep (vars k.bits) k.result

end Ter

/-! ### Message schedule -/

/-- `sha256_compression_function_component` (`sha256_component.hpp:44-143`) with its message schedule and rounds: the previous output and the
output are given as eight words (`rbegin() + ...`, see `Sha.mk`), the block as sixteen. `base` is `next_free_var` at construction. -/
structure Compress (p : ℕ) where
  prev : ℕ → LWord p
  block : ℕ → ℕ → ℕ
  out : ℕ → ℕ → ℕ
  base : ℕ

namespace Compress
variable (k : Compress p)

/-- `packed_W[i]` (`sha256_component.hpp:77`). -/
def packedW (i : ℕ) : ℕ := k.base + i
/-- First variable of schedule step `i ≥ 16` (`sha256_construction.hpp:84-106`): 2 results, 61 and 54 variables of the small sigmas, the unreduced
word, 32 bits and 2 overflow bits. -/
def sBase (i : ℕ) : ℕ := k.base + 64 + 152 * (i - 16)
/-- `W_bits[i]` (68-74, 101). -/
def wBits (i j : ℕ) : ℕ := if i < 16 then k.block i j else k.sBase i + 118 + j
/-- `sigma0[i]`, `sigma1[i]`, `unreduced_W[i]` (86, 87, 98). -/
def sig0 (i : ℕ) : ℕ := k.sBase i
def sig1 (i : ℕ) : ℕ := k.sBase i + 1
def unreducedW (i : ℕ) : ℕ := k.sBase i + 117
/-- `compute_sigma0[i]`, `compute_sigma1[i]` (90-93). -/
def compSig0 (i : ℕ) : Sigma p := smallSigma (vars (k.wBits (i - 15))) (k.sig0 i) 7 18 3 (k.sBase i + 2)
def compSig1 (i : ℕ) : Sigma p := smallSigma (vars (k.wBits (i - 2))) (k.sig1 i) 17 19 10 (k.sBase i + 63)
/-- `mod_reduce_W[i]` (104-105). -/
def reduceW (i : ℕ) : LastBits := ⟨k.unreducedW i, 34, k.packedW i, k.wBits i, k.sBase i + 150⟩

/-- Schedule step `i ≥ 16` of `generate_gates` (115-123). -/
def sGates (i : ℕ) : List (Constraint (ZMod p)) :=
  (k.compSig0 i).gates ++ (k.compSig1 i).gates ++
    [⟨Lc.const 1, (((Lc.var (k.sig0 i)).add (Lc.var (k.sig1 i))).add (Lc.var (k.packedW (i - 16)))).add (Lc.var (k.packedW (i - 7))),
      Lc.var (k.unreducedW i)⟩] ++ (k.reduceW i).gates

/-- `sha256_message_schedule_component::generate_gates` (109-124). -/
def scheduleGates : List (Constraint (ZMod p)) :=
  (List.range 16).flatMap (fun i => packGates (LWord.list (vars (k.wBits i))) (Lc.var (k.packedW i)) false) ++
    (List.range 48).flatMap fun i => k.sGates (i + 16)

/-- Schedule step `i ≥ 16` of `generate_assignments` (131-140). -/
def sSteps (i : ℕ) : List (Step (ZMod p)) :=
  (k.compSig0 i).steps ++ (k.compSig1 i).steps ++
    [(k.unreducedW i, fun s => val s (k.sig0 i) + val s (k.sig1 i) + val s (k.packedW (i - 16)) + val s (k.packedW (i - 7)))] ++ (k.reduceW i).steps

/-- `sha256_message_schedule_component::generate_assignments` (126-141). -/
def scheduleSteps : List (Step (ZMod p)) :=
  (List.range 16).flatMap (fun i => packStep (vars (k.wBits i)) (k.packedW i)) ++ (List.range 48).flatMap fun i => k.sSteps (i + 16)

/-! ### Rounds -/

/-- First variable of round `i`: the 64 variables of the new words (`sha256_component.hpp:116-122`) and the 208 variables of
`sha256_round_function_component` (`sha256_construction.hpp:196-229`). -/
def rBase (i : ℕ) : ℕ := k.base + 64 + 152 * 48 + 272 * i
/-- `new_round_a_variables`, `new_round_e_variables` (`sha256_component.hpp:116-122`). -/
def newA (i j : ℕ) : ℕ := k.rBase i + j
def newE (i j : ℕ) : ℕ := k.rBase i + 32 + j

/-- The words at the beginning of a round. -/
structure Regs (p : ℕ) where
  a : LWord p
  b : LWord p
  c : LWord p
  d : LWord p
  e : LWord p
  f : LWord p
  g : LWord p
  h : LWord p

/-- `round_a[i]`, ..., `round_h[i]` (`sha256_component.hpp:82-123`). -/
def regs : ℕ → Regs p
  | 0 => ⟨k.prev 0, k.prev 1, k.prev 2, k.prev 3, k.prev 4, k.prev 5, k.prev 6, k.prev 7⟩
  | i + 1 => let r := regs i; ⟨vars (k.newA i), r.a, r.b, r.c, vars (k.newE i), r.e, r.f, r.g⟩

/-- The variables of round `i` in the order of allocation (`sha256_construction.hpp:196-229`). -/
def rSig0 (i : ℕ) : ℕ := k.rBase i + 64
def rSig1 (i : ℕ) : ℕ := k.rBase i + 65
def rComp0 (i : ℕ) : Sigma p := bigSigma (k.regs i).a (k.rSig0 i) 2 13 22 (k.rBase i + 66)
def rComp1 (i : ℕ) : Sigma p := bigSigma (k.regs i).e (k.rSig1 i) 6 11 25 (k.rBase i + 130)
def rCh (i : ℕ) : ℕ := k.rBase i + 194
def rCompCh (i : ℕ) : Ter p := ⟨(k.regs i).e, (k.regs i).f, (k.regs i).g, k.rCh i, k.rBase i + 195⟩
def rMaj (i : ℕ) : ℕ := k.rBase i + 227
def rCompMaj (i : ℕ) : Ter p := ⟨(k.regs i).a, (k.regs i).b, (k.regs i).c, k.rMaj i, k.rBase i + 228⟩
def packedD (i : ℕ) : ℕ := k.rBase i + 260
def packedH (i : ℕ) : ℕ := k.rBase i + 261
def unreducedA (i : ℕ) : ℕ := k.rBase i + 262
def unreducedE (i : ℕ) : ℕ := k.rBase i + 263
def packedA (i : ℕ) : ℕ := k.rBase i + 264
def packedE (i : ℕ) : ℕ := k.rBase i + 265
def reduceA (i : ℕ) : LastBits := ⟨k.unreducedA i, 35, k.packedA i, k.newA i, k.rBase i + 266⟩
def reduceE (i : ℕ) : LastBits := ⟨k.unreducedE i, 35, k.packedE i, k.newE i, k.rBase i + 269⟩

/-- The round constant (`shacal2_policy<256>::constants`, outside the repository: FIPS 180-4, 4.2.2). -/
def K (i : ℕ) : ZMod p := ((Sha256Spec.k i).toNat : ZMod p)

/-- `sha256_round_function_component::generate_gates` (`sha256_construction.hpp:231-249`). -/
def rGates (i : ℕ) : List (Constraint (ZMod p)) :=
  let V := fun v => (Lc.var v : Lc (ZMod p))
  (k.rComp0 i).gates ++ (k.rComp1 i).gates ++ (k.rCompCh i).chGates ++ (k.rCompMaj i).majGates ++
    packGates (LWord.list (k.regs i).d) (V (k.packedD i)) false ++ packGates (LWord.list (k.regs i).h) (V (k.packedH i)) false ++
    [⟨Lc.const 1, ((((((V (k.packedH i)).add (V (k.rSig1 i))).add (V (k.rCh i))).add (Lc.const (K i))).add (V (k.packedW i))).add (V (k.rSig0 i))).add
        (V (k.rMaj i)), V (k.unreducedA i)⟩,
      ⟨Lc.const 1, (((((V (k.packedD i)).add (V (k.packedH i))).add (V (k.rSig1 i))).add (V (k.rCh i))).add (Lc.const (K i))).add (V (k.packedW i)),
        V (k.unreducedE i)⟩] ++ (k.reduceA i).gates ++ (k.reduceE i).gates

/-- `sha256_round_function_component::generate_assignments` (251-269). -/
def rSteps (i : ℕ) : List (Step (ZMod p)) :=
  (k.rComp0 i).steps ++ (k.rComp1 i).steps ++ (k.rCompCh i).chSteps ++ (k.rCompMaj i).majSteps ++
    packStep (k.regs i).d (k.packedD i) ++ packStep (k.regs i).h (k.packedH i) ++
    [(k.unreducedA i, fun s => val s (k.packedH i) + val s (k.rSig1 i) + val s (k.rCh i) + K i + val s (k.packedW i) + val s (k.rSig0 i) + val s (k.rMaj i)),
      (k.unreducedE i, fun s => val s (k.packedD i) + val s (k.packedH i) + val s (k.rSig1 i) + val s (k.rCh i) + K i + val s (k.packedW i))] ++
    (k.reduceA i).steps ++ (k.reduceE i).steps

/-! ### Output -/

/-- First variable after the rounds. -/
def oBase : ℕ := k.rBase 64
/-- `unreduced_output[i]`, `reduced_output[i]` (`sha256_component.hpp:131-132`). -/
def unreducedOut (i : ℕ) : ℕ := k.oBase + i
def reducedOut (i : ℕ) : ℕ := k.oBase + 8 + i
/-- `reduce_output[i]` (133-142). -/
def reduceOut (i : ℕ) : LastBits := ⟨k.unreducedOut i, 33, k.reducedOut i, k.out i, k.oBase + 16 + i⟩

/-- The constraints of step `i` of the first loop after the rounds (150-160). -/
def sumGates (i : ℕ) : List (Constraint (ZMod p)) :=
  [⟨Lc.const 1, (Lc.var (k.packedD (3 - i))).add (Lc.var (k.packedA (63 - i))), Lc.var (k.unreducedOut i)⟩,
    ⟨Lc.const 1, (Lc.var (k.packedH (3 - i))).add (Lc.var (k.packedE (63 - i))), Lc.var (k.unreducedOut (4 + i))⟩]

/-- `sha256_compression_function_component::generate_gates` (144-165). -/
def gates : List (Constraint (ZMod p)) :=
  k.scheduleGates ++ (List.range 64).flatMap k.rGates ++ (List.range 4).flatMap k.sumGates ++ (List.range 8).flatMap fun i => (k.reduceOut i).gates

/-- Assignments of step `i` of the first loop after the rounds (173-178). -/
def sumSteps (i : ℕ) : List (Step (ZMod p)) :=
  [(k.unreducedOut i, fun s => val s (k.packedD (3 - i)) + val s (k.packedA (63 - i))),
    (k.unreducedOut (4 + i), fun s => val s (k.packedH (3 - i)) + val s (k.packedE (63 - i)))]

/-- `sha256_compression_function_component::generate_assignments` (166-184). -/
def steps : List (Step (ZMod p)) :=
  k.scheduleSteps ++ (List.range 64).flatMap k.rSteps ++ (List.range 4).flatMap k.sumSteps ++ (List.range 8).flatMap fun i => (k.reduceOut i).steps

/-- `generate_assignments`. -/
def assign (s : Asg (ZMod p)) : Asg (ZMod p) := run k.steps s

end Compress

/-- The constructor (`sha256_component.hpp:67-143`, `sha256_construction.hpp:68-74`) on vectors: bit 0 of word `i` is the last bit of the `i`-th
group of 32. -/
def Compress.mk' (prev : List (Lc (ZMod p))) (block out : List ℕ) (base : ℕ) : Compress p :=
  ⟨fun i j => prev.getD (255 - ((7 - i) * 32 + j)) [], fun i j => block.getD (511 - ((15 - i) * 32 + j)) 0,
    fun i j => out.getD (255 - ((7 - i) * 32 + j)) 0, base⟩

/-! ### The hash functions -/

/-- Number of variables that the compression component allocates. -/
def Compress.size : ℕ := 24792

/-- `SHA256_default_IV` (`sha256_construction.hpp:272-293`): multiples of the constant 1. The initial value (`sha2_policy<256>::iv_generator`) is
outside the repository: FIPS 180-4, 5.3.3. -/
def defaultIV : List (Lc (ZMod p)) :=
  (List.range 256).map fun q => Lc.smul ((((Sha256Spec.iv.get (q / 32)).toNat >>> (31 - q % 32) % 2 : ℕ)) : ZMod p) (Lc.var 0)

/-- `sha256_two_to_one_hash_component` (`sha256_component.hpp:201-236`): the digests are concatenated. -/
def twoToOne (left right out : List ℕ) (base : ℕ) : Compress p := Compress.mk' defaultIV (left ++ right) out base

/-- `padding_length` (`hash_io.hpp:145-147`). -/
def paddingLength (len lenBits blockBits : ℕ) : ℕ := (2 * blockBits - len % blockBits - lenBits) % blockBits

/-- `merkle_damagard_padding::bits` (`hash_io.hpp:137-163`). That the length fits is a precondition (162). -/
def padVars (len lenBits blockBits one zero : ℕ) : List ℕ :=
  (if 0 < paddingLength len lenBits blockBits then one :: List.replicate (paddingLength len lenBits blockBits - 1) zero else []) ++
    (List.range lenBits).map fun i => if (len >>> (lenBits - 1 - i)) % 2 = 1 then one else zero

/-- `sha256_hash_component` (`sha256_component.hpp:269-330`): `base` is `next_free_var` at construction. -/
structure HashC where
  input : List ℕ
  out : List ℕ
  base : ℕ

namespace HashC
variable (k : HashC)

/-- `padding->one`, `padding->zero` (`hash_io.hpp:143-144`). -/
def one : ℕ := k.base
def zero : ℕ := k.base + 1
/-- `bits` (`sha256_component.hpp:292-293`). -/
def bits : List ℕ := k.input ++ padVars k.input.length 64 512 k.one k.zero
/-- `num_blocks` (295). -/
def numBlocks : ℕ := k.bits.length / 512
/-- `blocks_bits[i]` (303-306). -/
def block (i : ℕ) : List ℕ := (k.bits.drop (i * 512)).take 512
/-- `intermediate_outputs[i]` (308-311). -/
def inter (i : ℕ) : List ℕ := (List.range 256).map fun q => k.base + 2 + 256 * i + q
/-- The first variable of component `i`. -/
def cBase (i : ℕ) : ℕ := k.base + 2 + 256 * (k.numBlocks - 1) + Compress.size * i
/-- `blocks_components[i]` (313-329). -/
def comp (i : ℕ) : Compress p :=
  Compress.mk' (if i = 0 then defaultIV else (k.inter (i - 1)).map Lc.var) (k.block i) (if i = k.numBlocks - 1 then k.out else k.inter i) (k.cBase i)

/-- Number of variables that the component allocates: `one`, `zero`, the intermediate outputs and the compression components. -/
def size : ℕ := 2 + 256 * (k.numBlocks - 1) + Compress.size * k.numBlocks

/-- `generate_gates` (332-337), with the padding's (`hash_io.hpp:165-168`). -/
def gates : List (Constraint (ZMod p)) :=
  [⟨Lc.const 1, Lc.var k.one, Lc.const 1⟩, ⟨Lc.const 1, Lc.var k.zero, Lc.const 0⟩] ++ (List.range k.numBlocks).flatMap fun i => (k.comp i).gates

/-- `generate_assignments` (339-344), with the padding's (`hash_io.hpp:170-173`). -/
def steps : List (Step (ZMod p)) :=
  [(k.one, fun _ => 1), (k.zero, fun _ => 0)] ++ (List.range k.numBlocks).flatMap fun i => (k.comp i).steps

def assign (s : Asg (ZMod p)) : Asg (ZMod p) := run k.steps s

end HashC

end
end Sha
end R1cs
end Verif
