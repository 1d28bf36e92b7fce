import Verif.Model.GateComponent
import Verif.Model.F1Loop
import Verif.Model.F3Loop
import Verif.Model.Arith

/-!
# Model of `lookup_verifier`

`components/systems/snark/plonk/placeholder/lookup_argument_verifier.hpp`: the lookup argument of the Placeholder verifier.
-/

namespace Verif
namespace LookupVerifier
variable {F : Type*} [Field F]

/-- The sizes given to the constructor (lookup_argument_verifier.hpp:117-122), vectors by index, and the length of the
vector `sorted`. -/
structure Par where
  nT : ℕ
  opts : ℕ → ℕ
  cols : ℕ → ℕ
  nG : ℕ
  csz : ℕ → ℕ
  isz : ℕ → ℕ
  nS : ℕ

/-- `input_type` (lookup_argument_verifier.hpp:179-199), vectors by index. -/
structure In where
  theta : Var
  beta : Var
  gamma : Var
  alphas : ℕ → Var
  vl : ℕ → Var
  qlast : ℕ → Var
  qblind : ℕ → Var
  l0 : Var
  gsel : ℕ → Var
  gtid : ℕ → Var
  ginp : ℕ → Var
  tsel : ℕ → Var
  topt : ℕ → Var
  tsel' : ℕ → Var
  topt' : ℕ → Var
  sorted : ℕ → Var

/-- The turns of a loop over `i < n` with an inner loop over `j < sz i`, by the value of `i`. -/
def turns (n : ℕ) (sz : ℕ → ℕ) : List ℕ := (List.range n).flatMap fun i => List.replicate (sz i) i

/-- Table of the `o`-th turn of the loop over tables and options (lookup_argument_verifier.hpp:392-397, 769-774). -/
def Par.tab (p : Par) (o : ℕ) : ℕ := (turns p.nT p.opts).getD o 0

/-- `lu_value_size`, `lookup_values.size()` (lookup_argument_verifier.hpp:70, 683). -/
def Par.nV (p : Par) : ℕ := (turns p.nT p.opts).length

/-- Gate of the `k`-th turn of the loop over gates and constraints (lookup_argument_verifier.hpp:453-456, 830-833). -/
def Par.gid (p : Par) (k : ℕ) : ℕ := (turns p.nG p.csz).getD k 0

/-- `lu_input_size`, `lookup_input.size()` (lookup_argument_verifier.hpp:77, 693). -/
def Par.nI (p : Par) : ℕ := (turns p.nG p.csz).length

/-- `m` (lookup_argument_verifier.hpp:697). -/
def Par.m (p : Par) : ℕ := p.nV + p.nI

/-- `k` (lookup_argument_verifier.hpp:482, 859). -/
def Par.k (p : Par) : ℕ := (p.nS + 1) / 3

/-- `start_pos` at the top of turn `o` (lookup_argument_verifier.hpp:389, 444, 766, 821). -/
def Par.pos (p : Par) : ℕ → ℕ
  | 0 => 0
  | o + 1 => p.pos o + p.cols (p.tab o)

/-- `start` at the top of turn `k` (lookup_argument_verifier.hpp:450, 477, 827, 854). -/
def Par.start (p : Par) : ℕ → ℕ
  | 0 => 0
  | k + 1 => p.start k + p.isz k

/-- Rows of the turn for option `o`: gate, multiplication, gate, multiplication (lookup_argument_verifier.hpp:67-69,
680-682). -/
def optRows (w : ℕ) (p : Par) (o : ℕ) : ℕ := 2 * GateComponent.rows w (p.cols (p.tab o)) + 2

/-- `row - start_row_index` at the top of turn `o`. -/
def rowV (w : ℕ) (p : Par) : ℕ → ℕ
  | 0 => 2
  | o + 1 => rowV w p o + optRows w p o

/-- `row - start_row_index` at the top of turn `k` of the second loop. -/
def rowI (w : ℕ) (p : Par) : ℕ → ℕ
  | 0 => rowV w p p.nV
  | k + 1 => rowI w p k + GateComponent.rows w (p.isz k)

/-- `row - start_row_index` before the loop for `h` (lookup_argument_verifier.hpp:493-501, 870-877). -/
def rowH (w : ℕ) (p : Par) : ℕ := rowI w p p.nI
/-- Before the first loop for `g` (503-513, 879-888). -/
def rowG1 (w : ℕ) (p : Par) : ℕ := rowH w p + F1Loop.rows w p.k
/-- Before the second loop for `g` (515-525, 890-899). -/
def rowG2 (w : ℕ) (p : Par) : ℕ := rowG1 w p + F1Loop.rows w p.nI
/-- Before the multiplication of the two (529-532, 901-904). -/
def rowM (w : ℕ) (p : Par) : ℕ := rowG2 w p + F1Loop.rows w p.nV
/-- Before the loop for `F3` (539-547, 909-916). -/
def rowF3 (w : ℕ) (p : Par) : ℕ := rowM w p + 1
/-- Before the multiplication by `L0` (549-551, 918-920). -/
def rowM2 (w : ℕ) (p : Par) : ℕ := rowF3 w p + F3Loop.rows w (p.k - 1)
/-- Before the component's own last rows. -/
def rowEnd (w : ℕ) (p : Par) : ℕ := rowM2 w p + 1

/-- `rows_amount_internal` (lookup_argument_verifier.hpp:54-90). -/
def rows (w : ℕ) (p : Par) : ℕ :=
  2 + ((List.range p.nV).map (optRows w p)).sum + ((List.range p.nI).map fun k => GateComponent.rows w (p.isz k)).sum +
  F1Loop.rows w p.nI + F1Loop.rows w p.nV + F1Loop.rows w (p.nI + p.nV) + 2 + F3Loop.rows w (p.nI + p.nV - 1) +
  (4 / w + 1) + (5 / w + 1)

/-- `result_type` (lookup_argument_verifier.hpp:229-245). -/
def result (c : Cols) (w : ℕ) (p : Par) (srow : ℤ) (i : ℕ) : Var :=
  let offset : ℕ := 4 / w + 5 / w + 2
  if i = 0 then c.wa ((2 % w : ℕ) : ℤ) (srow + rows w p - offset + (2 / w : ℕ))
  else if i = 1 then c.wa ((4 % w : ℕ) : ℤ) (srow + rows w p - offset + (4 / w : ℕ))
  else if i = 2 then c.wa ((5 % w : ℕ) : ℤ) (srow + rows w p - 1)
  else c.wa 2 (srow + rows w p - offset - 1)

/-- `t_id_inc` (lookup_argument_verifier.hpp:395, 772). -/
def tid (c : Cols) (srow : ℤ) (i : ℕ) : Var := ⟨c.k 0, srow + (i : ℤ), false, .constant⟩

/-- `var_mask`, `var_shifted_mask` (lookup_argument_verifier.hpp:381-382, 758-759). -/
def maskVar (c : Cols) (srow : ℤ) (i : ℕ) : Var := c.wa 2 (srow + (i : ℤ))

/-- Inputs of the two gates for option `o` (lookup_argument_verifier.hpp:399-410, 426-435, 776-787, 803-812). -/
def valIn (c : Cols) (p : Par) (x : In) (srow : ℤ) (o : ℕ) : GateComponent.In :=
  ⟨x.theta, fun i => if i = 0 then tid c srow (p.tab o) else x.topt (p.pos o + (i - 1)), x.tsel (p.tab o)⟩
def valIn' (c : Cols) (p : Par) (x : In) (srow : ℤ) (o : ℕ) : GateComponent.In :=
  ⟨x.theta, fun i => if i = 0 then tid c srow (p.tab o) else x.topt' (p.pos o + (i - 1)), x.tsel' (p.tab o)⟩

/-- Input of the gate for lookup constraint `k` (lookup_argument_verifier.hpp:458-470, 835-847). -/
def inpIn (p : Par) (x : In) (k : ℕ) : GateComponent.In :=
  ⟨x.theta, fun i => if i = 0 then x.gtid k else x.ginp (p.start k + (i - 1)), x.gsel (p.gid k)⟩

/-- First rows of the four calls for option `o`. -/
def rv1 (w : ℕ) (p : Par) (srow : ℤ) (o : ℕ) : ℤ := srow + rowV w p o
def rv2 (w : ℕ) (p : Par) (srow : ℤ) (o : ℕ) : ℤ := rv1 w p srow o + GateComponent.rows w (p.cols (p.tab o))
def rv3 (w : ℕ) (p : Par) (srow : ℤ) (o : ℕ) : ℤ := rv2 w p srow o + 1
def rv4 (w : ℕ) (p : Par) (srow : ℤ) (o : ℕ) : ℤ := rv3 w p srow o + GateComponent.rows w (p.cols (p.tab o))

/-- Inputs of the two multiplications for option `o` (lookup_argument_verifier.hpp:420, 439, 797, 816). -/
def mulIn (c : Cols) (w : ℕ) (p : Par) (srow : ℤ) (o : ℕ) : In2 :=
  ⟨GateComponent.result c w (p.cols (p.tab o)) (rv1 w p srow o), maskVar c srow 0⟩
def mulIn' (c : Cols) (w : ℕ) (p : Par) (srow : ℤ) (o : ℕ) : In2 :=
  ⟨GateComponent.result c w (p.cols (p.tab o)) (rv3 w p srow o), maskVar c srow 1⟩

/-- `lookup_values`, `shifted_lookup_values` (lookup_argument_verifier.hpp:424, 442, 801, 819). -/
def values (c : Cols) (w : ℕ) (p : Par) (srow : ℤ) (o : ℕ) : Var := Multiplication.result c (rv2 w p srow o)
def values' (c : Cols) (w : ℕ) (p : Par) (srow : ℤ) (o : ℕ) : Var := Multiplication.result c (rv4 w p srow o)

/-- `lookup_input` (lookup_argument_verifier.hpp:475, 852). -/
def inputs (c : Cols) (w : ℕ) (p : Par) (srow : ℤ) (k : ℕ) : Var := GateComponent.result c w (p.isz k) (srow + rowI w p k)

/-- `s0`, `s1`, `s2` (lookup_argument_verifier.hpp:481-489, 858-866). -/
def s0 (x : In) (i : ℕ) : Var := x.sorted i
def s1 (p : Par) (x : In) (i : ℕ) : Var := x.sorted (p.k + i)
def s2 (p : Par) (x : In) (i : ℕ) : Var := x.sorted (2 * p.k + (i + 1) - 1)

/-- Inputs of the loops (lookup_argument_verifier.hpp:495, 506, 518, 541; 872, 882, 893, 911). The first element of `s0` is
erased before the last one (536, 906). -/
def hIn (p : Par) (x : In) : F1Loop.In := ⟨x.beta, x.gamma, s0 x, s1 p x⟩
def g1In (c : Cols) (w : ℕ) (p : Par) (x : In) (srow : ℤ) : F1Loop.In := ⟨x.beta, x.gamma, inputs c w p srow, inputs c w p srow⟩
def g2In (c : Cols) (w : ℕ) (p : Par) (x : In) (srow : ℤ) : F1Loop.In := ⟨x.beta, x.gamma, values c w p srow, values' c w p srow⟩
def f3In (p : Par) (x : In) : F3Loop.In := ⟨x.alphas, fun i => s0 x (i + 1), s2 p x⟩

/-- Inputs of the last two multiplications (lookup_argument_verifier.hpp:530, 549, 902, 918). -/
def gMulIn (c : Cols) (w : ℕ) (p : Par) (srow : ℤ) : In2 :=
  ⟨F1Loop.result c w p.nI (srow + rowG1 w p), F1Loop.result c w p.nV (srow + rowG2 w p)⟩
def f3MulIn (c : Cols) (w : ℕ) (p : Par) (x : In) (srow : ℤ) : In2 := ⟨F3Loop.result c w (p.k - 1) (srow + rowF3 w p), x.l0⟩

/-- Gates (lookup_argument_verifier.hpp:590-645); value `i` of a list is in column `i % w`, rotation `i / w`. -/
def maskGate (c : Cols) : List (Expr F) := [c.wv 2 - (.const 1 - (c.wv 1 + c.wv 0))]
def cell (c : Cols) (w i : ℕ) : Expr F := c.wv ((i % w : ℕ) : ℤ) ((i / w : ℕ) : ℤ)
def gate1 (c : Cols) (w : ℕ) : List (Expr F) :=
  [cell c w 2 - (.const 1 - cell c w 0) * cell c w 1,
   cell c w 4 - cell c w 3 * (cell c w 0 * cell c w 0 - cell c w 0)]
def gate2 (c : Cols) (w : ℕ) : List (Expr F) :=
  [cell c w 5 - cell c w 1 * (cell c w 3 * cell c w 2 - cell c w 0 * cell c w 4)]

/-- `h_var` (lookup_argument_verifier.hpp:697-707): the rows before it are counted again, with `m` in place of `k`. -/
def hVar (c : Cols) (w : ℕ) (p : Par) (srow : ℤ) : Var :=
  c.wa ((if (3 * p.m) % (w - 1) = 0 then w - 1 else (3 * p.m) % (w - 1) : ℕ) : ℤ)
    (srow + rowI w p p.nI + F1Loop.rows w p.m - (if 3 * p.m + 1 ≤ w then 2 else 1 : ℕ))

/-- `row` after the multiplication for `g` (lookup_argument_verifier.hpp:708-710). -/
def rowG (w : ℕ) (p : Par) (srow : ℤ) : ℤ :=
  srow + rowI w p p.nI + F1Loop.rows w p.m + F1Loop.rows w p.nV + F1Loop.rows w p.nI + 1

/-- `g_var` (lookup_argument_verifier.hpp:711). -/
def gVar (c : Cols) (w : ℕ) (p : Par) (srow : ℤ) : Var := c.wa 2 (rowG w p srow - 1)

/-- `row` before the component's own last rows (lookup_argument_verifier.hpp:712-713). -/
def rowLast (w : ℕ) (p : Par) (srow : ℤ) : ℤ := rowG w p srow + F3Loop.rows w (p.m - 1) + 1

/-- `generate_copy_constraints` (lookup_argument_verifier.hpp:647-725). -/
def copies (c : Cols) (w : ℕ) (p : Par) (x : In) (srow : ℤ) : List (Op F) :=
  [.copy (c.wa 0 srow) (x.qlast 0), .copy (c.wa 0 (srow + 1)) (x.qlast 1),
   .copy (c.wa 1 srow) (x.qblind 0), .copy (c.wa 1 (srow + 1)) (x.qblind 1),
   .copy (c.wa 0 (rowLast w p srow)) (x.vl 0), .copy (c.wa 1 (rowLast w p srow)) x.l0,
   .copy (c.wa 3 (rowLast w p srow)) (x.qlast 0),
   .copy (c.wa 0 (rowLast w p srow + (4 / w + 1 : ℕ))) (x.vl 0),
   .copy (c.wa 1 (rowLast w p srow + (4 / w + 1 : ℕ))) (c.wa 2 srow),
   .copy (c.wa 2 (rowLast w p srow + (4 / w + 1 : ℕ))) (hVar c w p srow),
   .copy (c.wa 3 (rowLast w p srow + (4 / w + 1 : ℕ))) (x.vl 1),
   .copy (c.wa ((4 % w : ℕ) : ℤ) (rowLast w p srow + (4 / w + 1 : ℕ) + (4 / w : ℕ))) (gVar c w p srow)]

/-- Circuit of the turn for option `o` (lookup_argument_verifier.hpp:774-822). -/
def optOps (c : Cols) (w : ℕ) (p : Par) (x : In) (srow : ℤ) (o : ℕ) : List (Op F) :=
  GateComponent.circuit c w (p.cols (p.tab o)) (valIn c p x srow o) (rv1 w p srow o) ++
  Multiplication.circuit c (mulIn c w p srow o) (rv2 w p srow o) ++
  GateComponent.circuit c w (p.cols (p.tab o)) (valIn' c p x srow o) (rv3 w p srow o) ++
  Multiplication.circuit c (mulIn' c w p srow o) (rv4 w p srow o)

/-- `generate_circuit` (lookup_argument_verifier.hpp:727-936) with `generate_assignments_constant` (310-324). -/
def circuit (c : Cols) (w : ℕ) (p : Par) (x : In) (srow : ℤ) : List (Op F) :=
  ((List.range p.nT).map fun (i : ℕ) => .constant (c.k 0) (srow + (i : ℤ)) (1 + (i : F))) ++
  (List.range p.nV).flatMap (optOps c w p x srow) ++
  (List.range p.nI).flatMap (fun k => GateComponent.circuit c w (p.isz k) (inpIn p x k) (srow + rowI w p k)) ++
  F1Loop.circuit c w p.k (hIn p x) (srow + rowH w p) ++
  F1Loop.circuit c w p.nI (g1In c w p x srow) (srow + rowG1 w p) ++
  F1Loop.circuit c w p.nV (g2In c w p x srow) (srow + rowG2 w p) ++
  Multiplication.circuit c (gMulIn c w p srow) (srow + rowM w p) ++
  F3Loop.circuit c w (p.k - 1) (f3In p x) (srow + rowF3 w p) ++
  Multiplication.circuit c (f3MulIn c w p x srow) (srow + rowM2 w p) ++
  [.gate (maskGate c) [srow, srow + 1], .gate (gate1 c w) [srow + rowEnd w p],
   .gate (gate2 c w) [srow + rowEnd w p + (4 / w + 1 : ℕ)]] ++
  copies c w p x srow

/-- `mask_value`, `shifted_mask_value` (lookup_argument_verifier.hpp:371-372). -/
def maskVal (x : In) (t : Table F) (i : ℕ) : F := 1 - ((x.qlast i).value t + (x.qblind i).value t)

/-- The first two rows (lookup_argument_verifier.hpp:374-379). -/
def maskRun (c : Cols) (x : In) (srow : ℤ) (t : Table F) : Table F :=
  writeAll [⟨.witness, c.w 0, srow, (x.qlast 0).value t⟩, ⟨.witness, c.w 1, srow, (x.qblind 0).value t⟩,
    ⟨.witness, c.w 2, srow, maskVal x t 0⟩, ⟨.witness, c.w 0, srow + 1, (x.qlast 1).value t⟩,
    ⟨.witness, c.w 1, srow + 1, (x.qblind 1).value t⟩, ⟨.witness, c.w 2, srow + 1, maskVal x t 1⟩] t

/-- Assignment of the turn for option `o` (lookup_argument_verifier.hpp:397-445). -/
def optRun (c : Cols) (w : ℕ) (p : Par) (x : In) (srow : ℤ) (t : Table F) (o : ℕ) : Table F :=
  Multiplication.assign c (mulIn' c w p srow o) (rv4 w p srow o)
    (GateComponent.assign c w (p.cols (p.tab o)) (valIn' c p x srow o) (rv3 w p srow o)
      (Multiplication.assign c (mulIn c w p srow o) (rv2 w p srow o)
        (GateComponent.assign c w (p.cols (p.tab o)) (valIn c p x srow o) (rv1 w p srow o) t)))

/-- All calls (lookup_argument_verifier.hpp:384-551). -/
def callsRun (c : Cols) (w : ℕ) (p : Par) (x : In) (srow : ℤ) (t : Table F) : Table F :=
  let t := (List.range p.nV).foldl (optRun c w p x srow) t
  let t := (List.range p.nI).foldl (fun t k => GateComponent.assign c w (p.isz k) (inpIn p x k) (srow + rowI w p k) t) t
  let t := F1Loop.assign c w p.k (hIn p x) (srow + rowH w p) t
  let t := F1Loop.assign c w p.nI (g1In c w p x srow) (srow + rowG1 w p) t
  let t := F1Loop.assign c w p.nV (g2In c w p x srow) (srow + rowG2 w p) t
  let t := Multiplication.assign c (gMulIn c w p srow) (srow + rowM w p) t
  let t := F3Loop.assign c w (p.k - 1) (f3In p x) (srow + rowF3 w p) t
  Multiplication.assign c (f3MulIn c w p x srow) (srow + rowM2 w p) t

/-- A list written row by row (lookup_argument_verifier.hpp:563-568, 579-583). -/
def rowWrites (c : Cols) (w : ℕ) (row : ℤ) (vs : List F) : List (Write F) :=
  (List.range vs.length).map fun i => ⟨.witness, c.w ((i % w : ℕ) : ℤ), row + ((i / w : ℕ) : ℤ), vs.getD i 0⟩

/-- The two lists (lookup_argument_verifier.hpp:366-367, 534, 556-561, 571-577). -/
def list1 (vl l0 ql : F) : List F := [vl, l0, (1 - vl) * l0, ql, ql * (vl * vl - vl)]
def list2 (vl mask h vl' g : F) : List F := [vl, mask, h, vl', g, mask * (vl' * h - vl * g)]

/-- `generate_assignments` (lookup_argument_verifier.hpp:326-588). The values of the inputs are read before anything is
written, those of `h`, `g1`, `g2` after the calls. -/
def assign (c : Cols) (w : ℕ) (p : Par) (x : In) (srow : ℤ) (t : Table F) : Table F :=
  let t1 := callsRun c w p x srow (maskRun c x srow t)
  let h := (F1Loop.result c w p.k (srow + rowH w p)).value t1
  let g := (F1Loop.result c w p.nI (srow + rowG1 w p)).value t1 * (F1Loop.result c w p.nV (srow + rowG2 w p)).value t1
  writeAll (rowWrites c w (srow + rowEnd w p) (list1 ((x.vl 0).value t) (x.l0.value t) ((x.qlast 0).value t)) ++
    rowWrites c w (srow + rowEnd w p + (4 / w + 1 : ℕ))
      (list2 ((x.vl 0).value t) (maskVal x t 0) h ((x.vl 1).value t) g)) t1

end LookupVerifier
end Verif
