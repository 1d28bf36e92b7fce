import Verif.Model.Comparison
import Verif.Model.Chunks

/-!
# Checked comparison

`components/algebra/fields/plonk/non_native/comparison_checked.hpp`. `mb` is `modulus_bits` of the field.
-/

namespace Verif
namespace CompChecked
variable {F : Type*} [Field F]

/-- comparison_checked.hpp:83-85. -/
def chunkAmount (bits : ℕ) : ℕ := (bits + 2 - 1) / 2
/-- comparison_checked.hpp:87-90. -/
def paddedChunks (w bits : ℕ) : ℕ := (chunkAmount bits + w - 2) / (w - 1) * (w - 1)
/-- comparison_checked.hpp:92-94. -/
def paddingSize (w bits : ℕ) : ℕ := paddedChunks w bits - chunkAmount bits
/-- comparison_checked.hpp:96-98. -/
def paddingBits (w bits : ℕ) : ℕ := paddedChunks w bits * 2 - bits
/-- comparison_checked.hpp:100-104. -/
def bonus (w : ℕ) (m : CmpMode) : ℕ := if w ≤ 3 ∧ m.strict then 1 else 0
/-- comparison_checked.hpp:106-110. -/
def rows (w bits : ℕ) (m : CmpMode) : ℕ := 1 + 2 * paddedChunks w bits / (w - 1) + bonus w m
/-- comparison_checked.hpp:112-116. -/
def needsFirst (mb bits : ℕ) : Bool := bits % 2 ≠ 0 ∧ bits + (2 - bits % 2) % 2 ≥ mb - 1

/-- Sum constraint of the first operand, comparison_checked.hpp:305-320 with `var_idx = 0`. -/
def sumX (c : Cols) (w : ℕ) : Expr F :=
  ((List.range (w - 2)).foldl (fun (e : Expr F) (i : ℕ) => .const (2 ^ 2) * e + c.wv ((2 + i : ℕ) : ℤ)) (c.wv 1))
    + .const (2 ^ (2 * (w - 1))) * c.wv 0 (-1) - c.wv 0 1

/-- Sum constraint of the difference, comparison_checked.hpp:305-320 with `var_idx = 1`. -/
def sumD (c : Cols) (w : ℕ) : Expr F :=
  (.const (2 ^ 2) * ((List.range (w - 3)).foldl
      (fun (e : Expr F) (i : ℕ) => .const (2 ^ 2) * e + c.wv ((3 + i : ℕ) : ℤ) (-1)) (c.wv 2 (-1))) + c.wv 0)
    + .const (2 ^ (2 * (w - 1))) * c.wv 1 (-1) - c.wv 1 1

/-- First gate, comparison_checked.hpp:295-322. -/
def gate1 (c : Cols) (w : ℕ) : List (Expr F) :=
  ((List.range (w - 2)).map fun (i : ℕ) => chunkSizeExpr (c.wv ((2 + i : ℕ) : ℤ) (-1)) 2) ++
  ((List.range w).map fun (i : ℕ) => chunkSizeExpr (c.wv (i : ℤ)) 2) ++
  [sumX c w, sumD c w]

/-- Second gate, comparison_checked.hpp:324-346. -/
def gate2 (c : Cols) (w : ℕ) (m : CmpMode) : List (Expr F) :=
  (c.wv 2 - c.wv 0 - c.wv 1) ::
  (if m.strict then
    (if bonus w m = 0 then [c.wv 1 * c.wv 3 - 1] else [c.wv 1 * c.wv 0 1 - 1])
   else [])

/-- Third gate, comparison_checked.hpp:353-367. -/
def gate3 (c : Cols) (w bits : ℕ) : List (Expr F) :=
  [chunkSizeExpr (if paddingSize w bits ≠ w - 2 then c.wv ((2 + paddingSize w bits : ℕ) : ℤ) else c.wv 0 1) (bits % 2),
   chunkSizeExpr (c.wv ((1 + paddingSize w bits : ℕ) : ℤ) 1) (bits % 2)]

/-- comparison_checked.hpp:418-454 with copies 372-415 and the constant `0` written to `C(0)` (571-582). -/
def circuit (mb : ℕ) (c : Cols) (w bits : ℕ) (m : CmpMode) (x y : Var) (srow : ℤ) : List (Op F) :=
  let mid : ℤ := srow + rows w bits m - 2 - bonus w m
  let row : ℤ := srow + rows w bits m - 1 - bonus w m
  [.gate (gate1 c w) (rowsBetween (srow + 1) mid 2),
   .gate (gate2 c w m) [mid + 1]] ++
  (if needsFirst mb bits then [.gate (gate3 c w bits) [srow]] else []) ++
  [.copy (RangeCheck.zeroVar srow) (c.wa 0 srow), .copy (RangeCheck.zeroVar srow) (c.wa 1 srow)] ++
  ((List.range (paddingSize w bits)).map fun (i : ℕ) =>
    .copy (RangeCheck.zeroVar srow) (c.wa ((i + 1 : ℕ) : ℤ) (srow + 1))) ++
  ((List.range (paddingSize w bits)).map fun (i : ℕ) =>
    .copy (RangeCheck.zeroVar srow) (c.wa ((i + 2 : ℕ) : ℤ) srow)) ++
  [.copy x (if m.swaps then c.wa 2 row else c.wa 0 row),
   .copy y (if m.swaps then c.wa 0 row else c.wa 2 row),
   .constant (c.k 0) srow 0]

/-- comparison_checked.hpp:518-563 for ordered operands `a`, `b` with canonical integers `x = a`, `d = b - a`. -/
def writes (c : Cols) (w bits : ℕ) (m : CmpMode) (x d : ℕ) (b inv : F) (srow : ℤ) : List (Write F) :=
  let pb := paddingBits w bits
  let k := (rows w bits m - 1) / 2
  let n := w - 1
  [⟨.witness, c.w 1, srow, 0⟩, ⟨.witness, c.w 0, srow, 0⟩] ++
  ((List.range k).flatMap fun (i : ℕ) =>
    ((List.range (n - 1)).map fun (j : ℕ) =>
      (⟨.witness, c.w ((j + 2 : ℕ) : ℤ), srow + ((2 * i : ℕ) : ℤ), (chunk4 pb bits d (i * n + j) : F)⟩ : Write F)) ++
    [⟨.witness, c.w 0, srow + ((2 * i + 1 : ℕ) : ℤ), (chunk4 pb bits d (i * n + n - 1) : F)⟩] ++
    ((List.range n).map fun (j : ℕ) =>
      (⟨.witness, c.w ((j + 1 : ℕ) : ℤ), srow + ((2 * i + 1 : ℕ) : ℤ), (chunk4 pb bits x (i * n + j) : F)⟩ : Write F)) ++
    [⟨.witness, c.w 0, srow + ((2 * i + 2 : ℕ) : ℤ), sum4 pb bits x (i * n + n)⟩,
     ⟨.witness, c.w 1, srow + ((2 * i + 2 : ℕ) : ℤ), sum4 pb bits d (i * n + n)⟩]) ++
  [⟨.witness, c.w 2, srow + ((2 * k : ℕ) : ℤ), b⟩] ++
  (if m.strict then
    (if bonus w m = 0 then [⟨.witness, c.w 3, srow + ((2 * k : ℕ) : ℤ), inv⟩]
     else [⟨.witness, c.w 0, srow + ((2 * k + 1 : ℕ) : ℤ), inv⟩])
   else [])

/-- comparison_checked.hpp:457-568. -/
def assign {p : ℕ} [Fact p.Prime] (c : Cols) (w bits : ℕ) (m : CmpMode) (x y : Var) (srow : ℤ)
    (t : Table (ZMod p)) : Table (ZMod p) :=
  let a := if m.swaps then y.value t else x.value t
  let b := if m.swaps then x.value t else y.value t
  writeAll (writes c w bits m a.val (b - a).val b (b - a)⁻¹ srow) t

end CompChecked
end Verif
