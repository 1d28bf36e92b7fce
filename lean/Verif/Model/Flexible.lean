import Verif.Core.Grid
import Verif.Model.Arith

/-!
# Array and placeholder helper components

`components/systems/snark/plonk/flexible/{swap,additions,multiplications,constant_pow,pow_factor}.hpp`,
`components/systems/snark/plonk/placeholder/{fri_lin_inter,fri_array_swap}.hpp`.

Where the code calls `var_value` inside the writing loop, the model reads all inputs before the first
write. The two agree when no input variable is one of the cells the component writes (`Var.Outside`),
which every completeness theorem assumes.
-/

namespace Verif

namespace Swap
variable {F : Type*} [Field F] [DecidableEq F]
/-- Control and the pair, swap.hpp:87-97. -/
structure In where
  (b c d : Var)
/-- swap.hpp:199-211 (gate), 227-232 (copies), 247-250. -/
def circuit (k : Cols) (inp : In) (srow : ℤ) : List (Op F) :=
  let b := k.wv 0
  let c := k.wv 1
  let d := k.wv 2
  let o0 := k.wv 3
  let o1 := k.wv 4
  [.gate [b * (b - 1), o0 - ((1 - b) * c + b * d), o1 - ((1 - b) * d + b * c)] [srow],
   .copy inp.b (k.wa 0 srow),
   .copy inp.c (k.wa 1 srow),
   .copy inp.d (k.wa 2 srow)]
/-- swap.hpp:151-160. -/
def assign (k : Cols) (inp : In) (srow : ℤ) (t : Table F) : Table F :=
  let b := inp.b.value t
  let c := inp.c.value t
  let d := inp.d.value t
  writeAll
    [⟨.witness, k.w 0, srow, b⟩, ⟨.witness, k.w 1, srow, c⟩, ⟨.witness, k.w 2, srow, d⟩,
     ⟨.witness, k.w 3, srow, if b = 0 then c else d⟩,
     ⟨.witness, k.w 4, srow, if b = 0 then d else c⟩] t
/-- swap.hpp:102-105. -/
def result (k : Cols) (srow : ℤ) : Var × Var := (k.wa 3 srow, k.wa 4 srow)
end Swap

namespace FriLinInter
variable {F : Type*} [Field F]
/-- fri_lin_inter.hpp:86-93. -/
structure In where
  (s y0 y1 alpha : Var)
/-- fri_lin_inter.hpp:169-174 (gate), 188-191 (copies), 203-205. -/
def circuit (k : Cols) (inp : In) (srow : ℤ) : List (Op F) :=
  [.gate [2 * k.wv 2 * (k.wv 4 - k.wv 0) - (k.wv 1 - k.wv 0) * (k.wv 2 - k.wv 3)] [srow],
   .copy (k.wa 0 srow) inp.y0,
   .copy (k.wa 1 srow) inp.y1,
   .copy (k.wa 2 srow) inp.s,
   .copy (k.wa 3 srow) inp.alpha]
/-- fri_lin_inter.hpp:142-156. -/
def assign (k : Cols) (inp : In) (srow : ℤ) (t : Table F) : Table F :=
  let s := inp.s.value t
  let y0 := inp.y0.value t
  let y1 := inp.y1.value t
  let alpha := inp.alpha.value t
  writeAll
    [⟨.witness, k.w 0, srow, y0⟩, ⟨.witness, k.w 1, srow, y1⟩, ⟨.witness, k.w 2, srow, s⟩,
     ⟨.witness, k.w 3, srow, alpha⟩,
     ⟨.witness, k.w 4, srow, y0 + (y1 - y0) * (s - alpha) * (2 * s)⁻¹⟩] t
/-- fri_lin_inter.hpp:98-100. -/
def result (k : Cols) (srow : ℤ) : Var := k.wa 4 srow
end FriLinInter

/-! additions.hpp and multiplications.hpp are the same component up to the operation. -/
namespace ArrayOp
variable {F : Type*} [Field F]

/-- Which of the two components. -/
inductive Kind
  | add | mul
  deriving DecidableEq, Repr

/-- `a_val + b_val` (additions.hpp:188) or `a_val * b_val` (multiplications.hpp:188). -/
def Kind.val : Kind → F → F → F
  | .add, a, b => a + b
  | .mul, a, b => a * b
/-- additions.hpp:227 and multiplications.hpp:227. -/
def Kind.expr : Kind → Expr F → Expr F → Expr F → Expr F
  | .add, a, b, o => a + b - o
  | .mul, a, b, o => a * b - o

/-- additions.hpp:82-87. -/
def rows (w n : ℕ) : ℕ :=
  let cells := 3 * n
  let one := w / 3 * 3
  if cells % one = 0 then cells / one else cells / one + 1

/-- additions.hpp:218-230 (gate), 251-261 (copies), 276-279. With no items and start row 0 the code's
`srow + rows - 1` wraps around; the model enables no row. -/
def circuit (k : Kind) (c : Cols) (w : ℕ) (arr : List (Var × Var)) (srow : ℤ) : List (Op F) :=
  .gate ((List.range (w / 3)).map fun (b : ℕ) =>
      k.expr (c.wv ((b * 3 : ℕ) : ℤ)) (c.wv ((b * 3 + 1 : ℕ) : ℤ)) (c.wv ((b * 3 + 2 : ℕ) : ℤ)))
    (rowsFrom srow (rows w arr.length)) ::
  (blocks (rows w arr.length) (w / 3) arr.length fun r b =>
      [Op.copy (arr.getD (r * (w / 3) + b) default).1 (c.wa ((3 * b : ℕ) : ℤ) (srow + r)),
       Op.copy (arr.getD (r * (w / 3) + b) default).2 (c.wa ((3 * b + 1 : ℕ) : ℤ) (srow + r))]).flatten

/-- additions.hpp:180-198. -/
def writes (k : Kind) (c : Cols) (w : ℕ) (vals : List (F × F)) (srow : ℤ) : List (Write F) :=
  (List.range (rows w vals.length)).flatMap fun (r : ℕ) =>
    ((List.range (w / 3)).flatMap fun (b : ℕ) =>
      let cur := r * (w / 3) + b
      if cur < vals.length then
        let p := vals.getD cur (0, 0)
        [⟨.witness, c.w ((b * 3 : ℕ) : ℤ), srow + r, p.1⟩,
         ⟨.witness, c.w ((b * 3 + 1 : ℕ) : ℤ), srow + r, p.2⟩,
         ⟨.witness, c.w ((b * 3 + 2 : ℕ) : ℤ), srow + r, k.val p.1 p.2⟩]
      else
        [⟨.witness, c.w ((b * 3 : ℕ) : ℤ), srow + r, 0⟩,
         ⟨.witness, c.w ((b * 3 + 1 : ℕ) : ℤ), srow + r, 0⟩,
         ⟨.witness, c.w ((b * 3 + 2 : ℕ) : ℤ), srow + r, 0⟩]) ++
    ((List.range (w % 3)).map fun (i : ℕ) => ⟨.witness, c.w ((w / 3 * 3 + i : ℕ) : ℤ), srow + r, 0⟩)

/-- additions.hpp:164-201. -/
def assign (k : Kind) (c : Cols) (w : ℕ) (arr : List (Var × Var)) (srow : ℤ) (t : Table F) : Table F :=
  writeAll (writes k c w (arr.map fun p => (p.1.value t, p.2.value t)) srow) t

/-- additions.hpp:109-125. -/
def result (c : Cols) (w n : ℕ) (srow : ℤ) : List Var :=
  blocks (rows w n) (w / 3) n fun r b => c.wa ((b * 3 + 2 : ℕ) : ℤ) (srow + r)
end ArrayOp

namespace FriArraySwap
variable {F : Type*} [Field F] [DecidableEq F]
/-- Blocks per row: the loops `offset = 1; offset < w - 1; offset += 4` visit
`offset = 1 + 4 * block`; for admissible `w = 4k + 1` (fri_array_swap.hpp:93) there are `(w-1)/4`. -/
def perRow (w : ℕ) : ℕ := (w - 1) / 4
/-- fri_array_swap.hpp:99-102. -/
def rows (w h : ℕ) : ℕ := (2 * h + (w - 1) / 4 - 1) / ((w - 1) / 4)

/-- fri_array_swap.hpp:238-252 (gate), 273-285 (copies), 300-303. The array has `2 * h` elements and
`pair_index` is `2 * (row * perRow + block)`. -/
def circuit (c : Cols) (w h : ℕ) (ctl : Var) (arr : List Var) (srow : ℤ) : List (Op F) :=
  let t := c.wv 0
  .gate ((List.range (perRow w)).flatMap fun (b : ℕ) =>
      let ia := c.wv ((1 + 4 * b : ℕ) : ℤ)
      let ib := c.wv ((1 + 4 * b + 1 : ℕ) : ℤ)
      let oa := c.wv ((1 + 4 * b + 2 : ℕ) : ℤ)
      let ob := c.wv ((1 + 4 * b + 3 : ℕ) : ℤ)
      [oa - ia * (1 - t) - ib * t, ob - ib * (1 - t) - ia * t])
    (rowsFrom srow (rows w h)) ::
  (List.range (rows w h)).flatMap fun (r : ℕ) =>
    Op.copy ctl (c.wa 0 (srow + r)) ::
    (((List.range (perRow w)).filter fun b => 2 * (r * perRow w + b) < arr.length).flatMap fun b =>
      [Op.copy (arr.getD (2 * (r * perRow w + b)) default) (c.wa ((1 + 4 * b : ℕ) : ℤ) (srow + r)),
       Op.copy (arr.getD (2 * (r * perRow w + b) + 1) default) (c.wa ((1 + 4 * b + 1 : ℕ) : ℤ) (srow + r))])

/-- fri_array_swap.hpp:193-218. -/
def writes (c : Cols) (w h : ℕ) (t : F) (vals : List F) (srow : ℤ) : List (Write F) :=
  (List.range (rows w h)).flatMap fun (r : ℕ) =>
    ⟨.witness, c.w 0, srow + r, t⟩ ::
    ((List.range (perRow w)).flatMap fun (b : ℕ) =>
      let p := 2 * (r * perRow w + b)
      if p < vals.length then
        let a := vals.getD p 0
        let b' := vals.getD (p + 1) 0
        [⟨.witness, c.w ((1 + 4 * b : ℕ) : ℤ), srow + r, a⟩,
         ⟨.witness, c.w ((1 + 4 * b + 1 : ℕ) : ℤ), srow + r, b'⟩,
         ⟨.witness, c.w ((1 + 4 * b + 2 : ℕ) : ℤ), srow + r, if t = 0 then a else b'⟩,
         ⟨.witness, c.w ((1 + 4 * b + 3 : ℕ) : ℤ), srow + r, if t = 0 then b' else a⟩]
      else
        [⟨.witness, c.w ((1 + 4 * b : ℕ) : ℤ), srow + r, 0⟩,
         ⟨.witness, c.w ((1 + 4 * b + 1 : ℕ) : ℤ), srow + r, 0⟩,
         ⟨.witness, c.w ((1 + 4 * b + 2 : ℕ) : ℤ), srow + r, 0⟩,
         ⟨.witness, c.w ((1 + 4 * b + 3 : ℕ) : ℤ), srow + r, 0⟩])

/-- fri_array_swap.hpp:178-221. -/
def assign (c : Cols) (w h : ℕ) (ctl : Var) (arr : List Var) (srow : ℤ) (t : Table F) : Table F :=
  writeAll (writes c w h (ctl.value t) (arr.map (·.value t)) srow) t

/-- fri_array_swap.hpp:124-139. -/
def result (c : Cols) (w h : ℕ) (srow : ℤ) : List Var :=
  (blocks (rows w h) (perRow w) h fun r b =>
    [c.wa ((1 + 4 * b + 2 : ℕ) : ℤ) (srow + r), c.wa ((1 + 4 * b + 3 : ℕ) : ℤ) (srow + r)]).flatten
end FriArraySwap

end Verif
