import Mathlib.Data.Finset.Sort
import Mathlib.Data.Finset.Max
import Mathlib.Data.Int.GCD
import Mathlib.Data.Finset.Lattice.Fold

/-!
# Manifest parameters (`manifest.hpp`)

Amounts are natural numbers. `start` and `finish` of a range are `int32_t` in the code; every range built in the code
base starts at a non-negative number, so they are naturals here, and the casts between `int32_t` and `uint32_t` are the
identity below `2 ^ 31` (above it `check_manifest_param` sees a negative number and says no, which is what comparing
with `finish` says as well). Overflow of the `int32_t` products of the intersection (740-745) is not modelled.
-/

namespace Verif
namespace Manifest

/-- `manifest_unsat_param` (276), `manifest_single_value_param` (326), `manifest_range_param` (390),
`manifest_set_param` (448). -/
inductive Param where
  | unsat
  | single (value : ℕ)
  | range (start finish step : ℕ)
  | ofSet (s : Finset ℕ)

open Param

/-- `manifest_range_param::is_satisfiable` (403-405). -/
def rangeSat (start finish step : ℕ) : Bool := decide (start < finish) && decide (start % step ≤ finish - start)

/-- `is_satisfiable` (284, 342, 403, 468). -/
def isSat : Param → Bool
  | unsat => false
  | single _ => true
  | range a f d => rangeSat a f d
  | ofSet s => decide s.Nonempty

/-- `check_manifest_param(value, strict = true)` (280, 334-337, 407-410, 460-462). -/
def check (p : Param) (v : ℕ) : Bool :=
  match p with
  | unsat => false
  | single a => decide (a = v)
  | range a f d => decide (a ≤ v) && decide (v < f) && decide ((v - a) % d = 0)
  | ofSet s => decide (v ∈ s)

/-- `check_manifest_param(value, strict = false)` (280, 338, 412, 464). -/
def checkLoose (p : Param) (v : ℕ) : Bool :=
  match p with
  | unsat => false
  | single a => decide (a ≤ v)
  | range a f d => decide (a ≤ v) && rangeSat a f d
  | ofSet s => decide (∃ x ∈ s, v ≤ x)

/-- The tail shared by both branches of range with range (748-754). -/
def rangeOf (start finish : ℤ) (step : ℕ) : Param :=
  if start ≥ finish then unsat
  else if start = finish - 1 then single start.toNat
  else range start.toNat finish.toNat step

/-- Range with range (721-754). `bez` is `boost::integer::extended_euclidean`; `/` and `%` of C++ truncate. -/
def interRange (bez : ℕ → ℕ → ℤ × ℤ) (a f d a' f' d' : ℕ) : Param :=
  if !rangeSat a f d || !rangeSat a' f' d' then unsat
  else if d = d' then rangeOf (max a a' : ℕ) (min f f' : ℕ) d
  else
    let g := Nat.gcd d d'
    if a % g ≠ a' % g then unsat
    else
      let ns := d * (d' / g)
      let md : ℤ := ((ns : ℤ) + (((a' : ℤ) * d * (bez d d').1 + (a : ℤ) * d' * (bez d d').2).tdiv g).tmod ns).tmod ns
      let s0 : ℤ := (max a a' : ℕ)
      let s1 := s0 + ((ns : ℤ) + (md - s0).tmod ns).tmod ns
      rangeOf s1 (min f f' : ℕ) ns

/-- `intersect` (288, 346-352, 709-768, 843-884). -/
def intersect (bez : ℕ → ℕ → ℤ × ℤ) : Param → Param → Param
  | unsat, _ => unsat
  | single a, q => if check q a then single a else unsat
  | range _ _ _, unsat => unsat
  | range a f d, single b => if check (range a f d) b then single b else unsat
  | range a f d, range a' f' d' => interRange bez a f d a' f' d'
  | range a f d, ofSet s => ofSet (s.filter fun v => check (range a f d) v)
  | ofSet _, unsat => unsat
  | ofSet s, single b => if check (ofSet s) b then single b else unsat
  | ofSet s, range a f d =>
    let n := s.filter fun v => check (range a f d) v
    if n = ∅ then unsat else ofSet n
  | ofSet s, ofSet s' =>
    let n := s'.filter fun v => check (ofSet s) v
    if n = ∅ then unsat else ofSet n

/-- The values `i, i + step, …` below `finish`: loops 624, 661, 828 and the iterator 425-436. A zero step (an endless
loop in the code) gives nothing. -/
def progr (i finish step : ℕ) : List ℕ :=
  if i < finish ∧ 0 < step then i :: progr (i + step) finish step else []
  termination_by finish - i

/-- The counting loops of `subtract` (786-795): how far the list runs along `cur, cur + step, …`, and where it stops. -/
def runUp (step : ℕ) : ℕ → List ℕ → ℕ × ℕ
  | cur, [] => (0, cur)
  | cur, v :: l => if v ≠ cur then (0, cur) else let r := runUp step (cur + step) l; (r.1 + 1, r.2)

/-- The same downwards (806-815); `curr_value` is an `int32_t`. -/
def runDown (step : ℕ) : ℤ → List ℕ → ℕ × ℤ
  | cur, [] => (0, cur)
  | cur, v :: l => if (v : ℤ) ≠ cur then (0, cur) else let r := runDown step (cur - step) l; (r.1 + 1, r.2)

/-- `manifest_range_param::subtract` (770-841). -/
def subtractRange (a f d : ℕ) (values : Finset ℕ) : Param :=
  let fs := values.filter fun v => check (range a f d) v
  if fs = ∅ then range a f d
  else
    let up := runUp d a (fs.sort (· ≤ ·))
    if up.1 = fs.card then (if up.2 < f then range up.2 f d else unsat)
    else
      let down := runDown d ((f - f % d : ℕ) : ℤ) (fs.sort (· ≤ ·)).reverse
      if down.1 = fs.card then
        if down.2 > a then range a down.2.toNat d
        else if down.2 = a then single a
        else unsat
      else
        let n := ((progr a f d).filter fun v => v ∉ fs).toFinset
        if n = ∅ then unsat
        else if n.card = 1 then single (n.sup id)
        else ofSet n

/-- `subtract` (292, 354-360, 473-482, 770-841). -/
def subtract (p : Param) (values : Finset ℕ) : Param :=
  match p with
  | unsat => unsat
  | single a => if a ∈ values then unsat else single a
  | range a f d => subtractRange a f d values
  | ofSet s => let n := s \ values; if n = ∅ then unsat else ofSet n

/-- `max_value_if_sat` (317, 381, 438-440, 511-513); `none` is `*rbegin()` of an empty set. -/
def maxValue : Param → Option ℕ
  | unsat => some 0
  | single a => some a
  | range _ f d => some (f - (if f % d ≠ 0 then f % d else d))
  | ofSet s => if h : s.Nonempty then some (s.max' h) else none

/-- Iteration with `begin`, `next`, `end` (305-315, 369-379, 425-436, 498-509). For a range whose start is not below
its finish the C++ loop visits `start` when `start > finish`. -/
def iterate : Param → List ℕ
  | unsat => []
  | single a => [a]
  | range a f d => if a > f then [a] else progr a f d
  | ofSet s => s.sort (· ≤ ·)

/-- Round `v` up to a multiple of `d` (567, 644, 624, 661). -/
def roundUp (v d : ℕ) : ℕ := v + (d - v % d) % d

/-- Single value with range, either way round (564-574, 641-651). -/
def mergeSingleRange (v a f d : ℕ) : Param :=
  let n := max (roundUp v d) a
  if n < f then range n f d else single v

/-- Single value with set, either way round (554-563, 584-593). -/
def mergeSingleSet (v : ℕ) (s : Finset ℕ) : Param :=
  let n := s.filter fun x => v ≤ x
  ofSet (if n = ∅ then {v} else n)

/-- Set with range, either way round (614-632, 652-668); `none` is the dereferenced `end()` at 617 and 655. -/
def mergeSetRange (s : Finset ℕ) (a f d : ℕ) : Option Param :=
  if h : (s.filter fun x => a ≤ x).Nonempty then
    let n := max ((s.filter fun x => a ≤ x).min' h) a
    some (ofSet ({n} ∪ (s.filter fun x => n ≤ x) ∪ (progr (roundUp n d) f d).toFinset))
  else none

/-- Range with range (669-705). -/
def mergeRange (a f d a' f' d' : ℕ) : Param :=
  let n := max a a'
  if d = d' then
    let f1 := max f f'
    if n < f1 then range n f1 d else single n
  else if n ≥ f' then range a f d
  else if n ≥ f then range a' f' d'
  else ofSet ({n} ∪ ((iterate (range a f d)).filter fun x => n < x).toFinset ∪
    ((iterate (range a' f' d')).filter fun x => n < x).toFinset)

/-- `merge_with` (296, 540-577, 579-634, 636-707). -/
def merge : Param → Param → Option Param
  | unsat, _ => some unsat
  | single _, unsat => some unsat
  | single a, single b => some (if b = a then single a else single (max a b))
  | single a, ofSet s => some (mergeSingleSet a s)
  | single v, range a f d => some (mergeSingleRange v a f d)
  | ofSet _, unsat => some unsat
  | ofSet s, single b => some (mergeSingleSet b s)
  | ofSet s, ofSet s' =>
    some (if h : s.Nonempty ∧ s'.Nonempty then
        let m := max (s.min' h.1) (s'.min' h.2)
        let n := (s.filter fun x => m ≤ x) ∪ (s'.filter fun x => m ≤ x)
        if n = ∅ then unsat else ofSet n
      else unsat)
  | ofSet s, range a f d => mergeSetRange s a f d
  | range _ _ _, unsat => some unsat
  | range a f d, single v => some (mergeSingleRange v a f d)
  | range a f d, ofSet s => mergeSetRange s a f d
  | range a f d, range a' f' d' => some (mergeRange a f d a' f' d')

/-- `manifest_constant_type` (138-147). -/
inductive Const where
  | none
  | unsat
  | required
  deriving DecidableEq

/-- `plonk_component_manifest` (891-906). -/
structure Comp where
  witness : Param
  constant : Const

/-- `compiler_manifest` (961-991): maximum and constant flag. `upTo` is the exclusive end of `witness_amount`. -/
structure Compiler where
  maxWitness : ℕ
  upTo : ℕ
  hasConstant : Bool

/-- The constructor (986-991). -/
def Compiler.make (m : ℕ) (b : Bool) : Compiler := ⟨m, m + 1, b⟩

/-- `set_max_witness_amount` (971-974). -/
def Compiler.setMax (c : Compiler) (m : ℕ) : Compiler := { c with maxWitness := m, upTo := m }

/-- `manifest_constant_type::intersect` (1002-1012). -/
def Const.inter (t : Const) (has : Bool) : Const :=
  if t = .unsat ∨ (t = .required ∧ has = false) then .unsat
  else if t = .required ∧ has = true then .required
  else .none

/-- `manifest_constant_type::merge_with` (163-173). -/
def Const.merge (t u : Const) : Const :=
  if t = .unsat ∨ u = .unsat then .unsat
  else if t = .required ∨ u = .required then .required
  else .none

/-- `compiler_manifest::intersect` (994-999). -/
def Compiler.intersect (bez : ℕ → ℕ → ℤ × ℤ) (c : Compiler) (m : Comp) : Comp :=
  ⟨Manifest.intersect bez m.witness (range 0 c.upTo 1), m.constant.inter c.hasConstant⟩

/-- `plonk_component_manifest::check_manifest` (914-924), with the strict check of the witness amount. -/
def Comp.check (m : Comp) (w c : ℕ) : Bool :=
  Manifest.check m.witness w && !(decide (m.constant = .unsat) || (decide (m.constant = .required) && decide (c = 0)))

/-- `plonk_component_manifest::check_manifest` (914-924) with `strict = false`, the default. -/
def Comp.checkLoose (m : Comp) (w c : ℕ) : Bool :=
  Manifest.checkLoose m.witness w && !(decide (m.constant = .unsat) || (decide (m.constant = .required) && decide (c = 0)))

/-- `plonk_component_manifest::is_satisfiable` (948-951). -/
def Comp.isSat (m : Comp) : Bool := Manifest.isSat m.witness && !decide (m.constant = .unsat)

/-- `plonk_component_manifest::merge_with` (940-945). -/
def Comp.merge (m n : Comp) : Option Comp := (Manifest.merge m.witness n.witness).map fun w => ⟨w, m.constant.merge n.constant⟩

end Manifest
end Verif
