import Verif.Core.R1cs
import Mathlib.Data.ZMod.Basic
import Mathlib.FieldTheory.Finite.Basic

/-!
# Basic r1cs components

`components/boolean/r1cs/{conjunction,disjunction,comparison,inner_product}.hpp`,
`components/detail/r1cs/{packing,loose_multiplexing,lookup_1bit,lookup_signed_3bit}.hpp`.

Variables that a component allocates are numbered from the value of `next_free_var` at the time of construction (`allocate_var_index`,
`circuit.hpp:156-160`).
-/

namespace Verif
namespace R1cs

section
variable {F : Type*} [Field F]

/-- `generate_boolean_r1cs_constraint` (`packing.hpp:43-48`). -/
def boolean (l : Lc F) : Constraint F := ⟨l, (Lc.const 1).sub l, Lc.const 0⟩

/-! ### Conjunction and disjunction -/

/-- `conjunction` (`conjunction.hpp:51-66`). -/
structure Conjunction where
  inputs : List ℕ
  output : ℕ
  inv : ℕ

/-- `generate_gates` (`conjunction.hpp:68-90`). -/
def Conjunction.gates (k : Conjunction) : List (Constraint F) :=
  let b : Lc F := (0, (k.inputs.length : F)) :: k.inputs.map fun i => (i, -1)
  [⟨[(k.inv, 1)], b, [(0, 1), (k.output, -1)]⟩, ⟨[(k.output, 1)], b, [(0, 0)]⟩]

/-- `generate_assignments` (`conjunction.hpp:92-107`). -/
def Conjunction.assign [DecidableEq F] (k : Conjunction) (s : Asg F) : Asg F :=
  let sum := k.inputs.foldl (fun x i => x - val s i) (k.inputs.length : F)
  if sum = 0 then (s.set k.inv 0).set k.output 1 else (s.set k.inv sum⁻¹).set k.output 0

/-- `disjunction` (`disjunction.hpp:52-67`). -/
structure Disjunction where
  inputs : List ℕ
  output : ℕ
  inv : ℕ

/-- `generate_gates` (`disjunction.hpp:69-90`). -/
def Disjunction.gates (k : Disjunction) : List (Constraint F) :=
  let b : Lc F := k.inputs.map fun i => (i, 1)
  [⟨[(k.inv, 1)], b, [(k.output, 1)]⟩, ⟨[(0, 1), (k.output, -1)], b, [(0, 0)]⟩]

/-- `generate_assignments` (`disjunction.hpp:92-107`). -/
def Disjunction.assign [DecidableEq F] (k : Disjunction) (s : Asg F) : Asg F :=
  let sum := k.inputs.foldl (fun x i => x + val s i) 0
  if sum = 0 then (s.set k.inv 0).set k.output 0 else (s.set k.inv sum⁻¹).set k.output 1

/-! ### Packing -/

/-- `blueprint_packing_sum` (`blueprint_linear_combination.hpp:245-261`); `w` is `twoi`. -/
def packSum (w : F) : List (Lc F) → Lc F
  | [] => []
  | l :: r => Lc.smul w l ++ packSum (w + w) r

/-- `packing::generate_gates` (`packing.hpp:75-84`). -/
def packGates (bits : List (Lc F)) (packed : Lc F) (enforce : Bool) : List (Constraint F) :=
  ⟨Lc.const 1, packSum 1 bits, packed⟩ :: if enforce then bits.map boolean else []

end

/-- `generate_assignments_from_packed` for bits that are variables (`packing.hpp:86-95`, `blueprint_linear_combination.hpp:193-199`). The
assertion is a precondition. -/
def packAssign {p : ℕ} (bits : List ℕ) (packed : ZMod p) (s : Asg (ZMod p)) : Asg (ZMod p) :=
  s.setAll ((List.range bits.length).map fun i => (bits.getD i 0, if packed.val.testBit i then 1 else 0))

/-! ### Comparison -/

/-- `comparison` (`comparison.hpp:53-87`); `base` is `next_free_var` at construction. -/
structure Comparison (F : Type*) where
  n : ℕ
  A : Lc F
  B : Lc F
  less : ℕ
  lessOrEq : ℕ
  base : ℕ

namespace Comparison
variable {F : Type*} [Field F] (k : Comparison F)

/-- `alpha` without its last element, which is `less_or_eq` (77-78). -/
def alpha : List ℕ := (List.range k.n).map fun i => k.base + i
/-- `alpha_packed` (80). -/
def packed : ℕ := k.base + k.n
/-- `not_all_zeros` (81). -/
def notAllZeros : ℕ := k.base + k.n + 1
/-- `all_zeros_test` (85-86). -/
def zeroTest : Disjunction := ⟨k.alpha, k.notAllZeros, k.base + k.n + 2⟩

/-- `generate_gates` (89-117). -/
def gates : List (Constraint F) :=
  boolean (Lc.var k.notAllZeros) :: packGates ((k.alpha ++ [k.lessOrEq]).map Lc.var) (Lc.var k.packed) true ++
    [⟨Lc.const 1, ((Lc.const ((2 : F) ^ k.n)).add k.B).sub k.A, Lc.var k.packed⟩] ++ k.zeroTest.gates ++
    [⟨Lc.var k.lessOrEq, Lc.var k.notAllZeros, Lc.var k.less⟩]

end Comparison

/-- `generate_assignments` (`comparison.hpp:119-131`). -/
def Comparison.assign {p : ℕ} [Fact p.Prime] (k : Comparison (ZMod p)) (s : Asg (ZMod p)) : Asg (ZMod p) :=
  let s := s.set k.packed (2 ^ k.n + k.B.eval s - k.A.eval s)
  let s := packAssign (k.alpha ++ [k.lessOrEq]) (val s k.packed) s
  let s := k.zeroTest.assign s
  s.set k.less (val s k.lessOrEq * val s k.notAllZeros)

/-! ### Inner product and multiplexing -/

/-- `inner_product` (`inner_product.hpp:51-71`); `S` is allocated from `base`. -/
structure InnerProduct (F : Type*) where
  A : List (Lc F)
  B : List (Lc F)
  result : ℕ
  base : ℕ

namespace InnerProduct
variable {F : Type*} [Field F] (k : InnerProduct F)

/-- `i == A.size() - 1 ? result : S[i]` (82, 94). -/
def acc (i : ℕ) : ℕ := if i + 1 = k.A.length then k.result else k.base + i

/-- `generate_gates` (73-85). -/
def gates : List (Constraint F) :=
  (List.range k.A.length).map fun i =>
    ⟨k.A.getD i [], k.B.getD i [], (Lc.var (k.acc i)).add (if i = 0 then [(0, 0)] else [(k.base + (i - 1), -1)])⟩

/-- `generate_assignments` (87-96): the loop from index `i` with the total so far; `m` steps. -/
def loop (s : Asg F) (total : F) (i : ℕ) : ℕ → Asg F
  | 0 => s
  | m + 1 =>
    let total := total + (k.A.getD i []).eval s * (k.B.getD i []).eval s
    loop (s.set (k.acc i) total) total (i + 1) m

/-- `generate_assignments` (87-96). -/
def assign (s : Asg F) : Asg F := k.loop s 0 0 k.A.length

end InnerProduct

/-- `loose_multiplexing` (`loose_multiplexing.hpp:52-74`); `base` is `next_free_var` at construction. -/
structure Multiplexer (F : Type*) where
  arr : List (Lc F)
  index : ℕ
  result : ℕ
  flag : ℕ
  base : ℕ

namespace Multiplexer
variable {F : Type*} [Field F] (k : Multiplexer F)

/-- `alpha` (72). -/
def alpha : List ℕ := (List.range k.arr.length).map fun i => k.base + i
/-- `compute_result` (73). -/
def inner : InnerProduct F := ⟨k.alpha.map Lc.var, k.arr, k.result, k.base + k.arr.length⟩

/-- `generate_gates` (76-97). -/
def gates : List (Constraint F) :=
  ((List.range k.arr.length).map fun (i : ℕ) => (⟨Lc.var (k.base + i), (Lc.var k.index).sub (Lc.const (i : F)), Lc.const 0⟩ : Constraint F)) ++
    [⟨[(0, 1)], k.alpha.map fun i => (i, 1), [(k.flag, 1)]⟩, boolean (Lc.var k.flag)] ++ k.inner.gates

end Multiplexer

/-- `generate_assignments` (`loose_multiplexing.hpp:99-124`). `idx` is truncated to 64 bits; the second comparison is with the whole number. -/
def Multiplexer.assign {p : ℕ} [Fact p.Prime] (k : Multiplexer (ZMod p)) (s : Asg (ZMod p)) : Asg (ZMod p) :=
  let v := (val s k.index).val
  let idx := v % 2 ^ 64
  let s :=
    if idx ≥ k.arr.length ∨ v ≥ k.arr.length then (s.setAll (k.alpha.map fun i => (i, 0))).set k.flag 0
    else (s.setAll ((List.range k.arr.length).map fun i => (k.base + i, if i = idx then 1 else 0))).set k.flag 1
  k.inner.assign s

/-! ### Lookups with constants -/

section
variable {F : Type*} [Field F]

/-- `lookup_1bit::generate_gates` (`lookup_1bit.hpp:73-78`). -/
def lookup1Gates (c : ℕ → F) (bit result : ℕ) : List (Constraint F) :=
  [⟨((Lc.const (c 0)).add [(bit, c 1)]).sub [(bit, c 0)], Lc.const 1, Lc.var result⟩]

/-- `lookup_signed_3bit::generate_gates` (`lookup_signed_3bit.hpp:94-113`): bits `b0 b1 b2`, the product variable `b0b1`. -/
def lookup3Gates (c : ℕ → F) (b : ℕ → ℕ) (b0b1 result : ℕ) : List (Constraint F) :=
  let y : Lc F := [(0, c 0), (b 0, c 1 - c 0), (b 1, c 2 - c 0), (b0b1, c 3 - c 2 - c 1 + c 0)]
  [⟨Lc.var (b 0), Lc.var (b 1), Lc.var b0b1⟩, ⟨y.add y, Lc.var (b 2), y.sub (Lc.var result)⟩]

end

/-- `lookup_1bit::generate_assignments` (`lookup_1bit.hpp:80-84`); reading the vector of two constants out of range is a precondition. -/
def lookup1Assign {p : ℕ} (c : ℕ → ZMod p) (bit result : ℕ) (s : Asg (ZMod p)) [Fact p.Prime] : Asg (ZMod p) :=
  s.set result (c (val s bit).val)

/-- `lookup_signed_3bit::generate_assignments` (`lookup_signed_3bit.hpp:115-124`) with `get_field_element_from_bits`
(`blueprint_linear_combination.hpp:219-230`). -/
def lookup3Assign {p : ℕ} [Fact p.Prime] (c : ℕ → ZMod p) (b : ℕ → ℕ) (b0b1 result : ℕ) (s : Asg (ZMod p)) : Asg (ZMod p) :=
  let e := ((0 : ZMod p) + (0 + val s (b 2)))
  let e := e + (e + val s (b 1))
  let e := e + (e + val s (b 0))
  let i := e.val % 2 ^ 64
  let r := c (i % 4)
  let r := if i > 3 then r * (-1) else r
  (s.set b0b1 (val s (b 0) * val s (b 1))).set result r

end R1cs
end Verif
