import Verif.Model.Comparison
import Verif.Model.Chunks

/-!
# Comparison flag

`components/algebra/fields/plonk/non_native/comparison_flag.hpp`.
-/

namespace Verif
namespace CompFlag
variable {F : Type*} [Field F]

/-- `comparisons_per_gate_instance`, comparison_flag.hpp:105-107. -/
def cpg (w : ℕ) : ℕ := 1 + (w - 3) / 2
/-- comparison_flag.hpp:140-142. -/
def bonus (w : ℕ) : ℕ := if w ≤ 3 then 1 else 0
/-- comparison_flag.hpp:109-117. -/
def rows (w bits : ℕ) : ℕ := (bits + cpg w * 2 - 1) / (cpg w * 2) * 2 + 1 + bonus w
/-- comparison_flag.hpp:119-121. -/
def instances (w bits : ℕ) : ℕ := (rows w bits - 1) / 2
/-- comparison_flag.hpp:123-126. -/
def paddedChunks (w bits : ℕ) : ℕ := instances w bits * cpg w
/-- comparison_flag.hpp:128-130. -/
def paddingBits (w bits : ℕ) : ℕ := paddedChunks w bits * 2 - bits
/-- comparison_flag.hpp:132-134. -/
def paddingSize (w bits : ℕ) : ℕ := paddingBits w bits / 2

/-- `greater_val = -2^2` (496, 619); despite its name it marks `x < y`. -/
def g : F := -2 ^ 2

/-- comparison_flag.hpp:630-633. -/
def flagValues (v : Expr F) : Expr F := v * (v - 1) * (v - .const g)
/-- comparison_flag.hpp:634-638. -/
def tUpdate (t f c d : Expr F) : Expr F :=
  t - ((c - d) * (1 - f) * (f - .const g) * .const (-(g : F)⁻¹) + f)
/-- comparison_flag.hpp:639-642. -/
def tF (t f : Expr F) : Expr F := t * (f - 1) * (f - .const g)
/-- comparison_flag.hpp:643-649 with `size = 2`. -/
def difference (t f : Expr F) : Expr F :=
  (List.range (2 ^ 2 - 1)).foldl (fun (e : Expr F) (i : ℕ) => e * (t - f - .const ((i + 1 : ℕ) : F))) (t - f)

/-- Sum constraint for `j = 0` (x) and `j = 1` (y), comparison_flag.hpp:705-720. -/
def sumC (c : Cols) (w j : ℕ) : Expr F :=
  c.wv (j : ℤ) 1 -
    (.const (2 ^ 2) * ((List.range (cpg w - 1)).foldl
      (fun (e : Expr F) (i : ℕ) => .const (2 ^ 2) * e + c.wv ((3 + 2 * i + j : ℕ) : ℤ)) (c.wv (j : ℤ) (-1))) + c.wv (j : ℤ))

/-- First gate, comparison_flag.hpp:652-722. -/
def gate1 (c : Cols) (w : ℕ) : List (Expr F) :=
  ((List.range (cpg w)).flatMap fun (i : ℕ) =>
    [chunkSizeExpr (c.wv ((2 * i + (if i ≠ 0 then 1 else 0) : ℕ) : ℤ)) 2,
     chunkSizeExpr (c.wv ((2 * i + (if i ≠ 0 then 1 else 0) + 1 : ℕ) : ℤ)) 2]) ++
  ((List.range (cpg w - 1)).map fun (i : ℕ) => flagValues (c.wv ((2 + 2 * (i + 1) : ℕ) : ℤ) (-1))) ++
  [flagValues (c.wv 2 1)] ++
  ((List.range (cpg w - 1)).flatMap fun (i : ℕ) =>
    [tUpdate (c.wv ((3 + 2 * i : ℕ) : ℤ) (-1)) (c.wv ((2 + 2 * i : ℕ) : ℤ) (-1))
       (c.wv ((3 + 2 * i : ℕ) : ℤ)) (c.wv ((3 + 2 * i + 1 : ℕ) : ℤ)),
     tF (c.wv ((3 + 2 * i : ℕ) : ℤ) (-1)) (c.wv ((3 + 2 * i + 1 : ℕ) : ℤ) (-1)),
     difference (c.wv ((3 + 2 * i : ℕ) : ℤ) (-1)) (c.wv ((3 + 2 * i + 1 : ℕ) : ℤ) (-1))]) ++
  [tUpdate (c.wv 2) (c.wv ((2 + 2 * (cpg w - 1) : ℕ) : ℤ) (-1)) (c.wv 0) (c.wv 1),
   tF (c.wv 2) (c.wv 2 1), difference (c.wv 2) (c.wv 2 1),
   sumC c w 0, sumC c w 1]

/-- The output as a polynomial of the flag, comparison_flag.hpp:737-762. -/
def outExpr (m : CmpMode) (flag out : Expr F) : Expr F :=
  let gm1 : F := g - 1
  let ggm1 : F := g * (g - 1)
  match m with
  | .flag => out - (.const (-2 * ggm1⁻¹ - (g : F)⁻¹) * flag * flag + .const (2 * ggm1⁻¹ + (g : F)⁻¹ + 1) * flag)
  | .gt => out + flag * (flag - .const g) * .const gm1⁻¹
  | .ge => out + (flag - .const g) * (flag - .const (1 - g)) * .const ggm1⁻¹
  | .lt => out - flag * (flag - 1) * .const ggm1⁻¹
  | .le => out - (1 - flag * (flag - .const g) * .const (-gm1)⁻¹)

/-- Second gate, comparison_flag.hpp:724-763. -/
def gate2 (c : Cols) (w : ℕ) (m : CmpMode) : Expr F :=
  if bonus w = 0 then outExpr m (c.wv 2) (c.wv 3) else outExpr m (c.wv 2 (-1)) (c.wv 0)

/-- Third gate, comparison_flag.hpp:770-783. -/
def gate3 (c : Cols) (w bits : ℕ) : List (Expr F) :=
  [chunkSizeExpr (c.wv ((3 + 2 * paddingSize w bits : ℕ) : ℤ)) (bits % 2),
   chunkSizeExpr (c.wv ((3 + 2 * paddingSize w bits + 1 : ℕ) : ℤ)) (bits % 2)]

/-- comparison_flag.hpp:405-439 with copies 788-814 and constants 817-827. -/
def circuit (c : Cols) (w bits : ℕ) (m : CmpMode) (x y : Var) (srow : ℤ) : List (Op F) :=
  let row : ℤ := srow + rows w bits - 1 - bonus w
  [.gate (gate1 c w) (rowsBetween (srow + 1) (srow + rows w bits - 2 - bonus w) 2),
   .gate [gate2 c w m] [srow + rows w bits - 1]] ++
  (if bits % 2 ≠ 0 then [.gate (gate3 c w bits) [srow + 1]] else []) ++
  ((List.range 3).map fun (i : ℕ) => .copy (RangeCheck.zeroVar srow) (c.wa (i : ℤ) srow)) ++
  ((List.range (paddingSize w bits)).flatMap fun (i : ℕ) =>
    [.copy (RangeCheck.zeroVar srow) (c.wa ((3 + 2 * i : ℕ) : ℤ) (srow + 1)),
     .copy (RangeCheck.zeroVar srow) (c.wa ((3 + 2 * i + 1 : ℕ) : ℤ) (srow + 1))]) ++
  [.copy x (c.wa 0 row), .copy y (c.wa 1 row), .constant (c.k 0) srow 0]

/-- `result_type`, comparison_flag.hpp:244-257. -/
def out (c : Cols) (w bits : ℕ) (srow : ℤ) : Var :=
  c.wa (if bonus w = 0 then 3 else 0) (srow + rows w bits - 1)

/-- `calculate_flag` (506-510). -/
def nextFlag (f : F) (a b : ℕ) [DecidableEq F] : F := if f ≠ 0 then f else if a > b then 1 else if a = b then 0 else g
/-- `calculate_temp` (511-513); the negative difference is taken in the field. -/
def nextTemp (f : F) (a b : ℕ) [DecidableEq F] : F := if f ≠ 0 then f else (a : F) - (b : F)

/-- `last_flag` before chunk `n`, for the chunk arrays `xs`, `ys` (497, 532, 542). -/
def flagAt [DecidableEq F] (xs ys : ℕ → ℕ) : ℕ → F
  | 0 => 0
  | n + 1 => nextFlag (flagAt xs ys n) (xs n) (ys n)

/-- The `temp` written together with chunk `n` (531, 541). -/
def tempAt [DecidableEq F] (xs ys : ℕ → ℕ) (n : ℕ) : F := nextTemp (flagAt xs ys n) (xs n) (ys n)

/-- Running sum of the first `n` chunks (498, 521-522). -/
def sumAt (xs : ℕ → ℕ) (n : ℕ) : F := (List.range n).foldl (fun (s : F) (i : ℕ) => s * 4 + (xs i : F)) 0

/-- comparison_flag.hpp:547-564. -/
def outVal [DecidableEq F] (m : CmpMode) (f : F) : F :=
  match m with
  | .flag => if f ≠ g then f else -1
  | .lt => if f = g then 1 else 0
  | .le => if f = g ∨ f = 0 then 1 else 0
  | .gt => if f = 1 then 1 else 0
  | .ge => if f = 1 ∨ f = 0 then 1 else 0

/-- comparison_flag.hpp:493-570, for the chunk arrays `x_chunks`, `y_chunks`. -/
def writes [DecidableEq F] (c : Cols) (w bits : ℕ) (m : CmpMode) (xs ys : ℕ → ℕ) (srow : ℤ) :
    List (Write F) :=
  let k := instances w bits
  let n := cpg w
  [⟨.witness, c.w 2, srow, 0⟩, ⟨.witness, c.w 1, srow, 0⟩, ⟨.witness, c.w 0, srow, 0⟩] ++
  ((List.range k).flatMap fun (i : ℕ) =>
    ((List.range (n - 1)).flatMap fun (j : ℕ) =>
      [(⟨.witness, c.w ((3 + j * 2 : ℕ) : ℤ), srow + ((2 * i + 1 : ℕ) : ℤ), (xs (i * n + j) : F)⟩ : Write F),
       ⟨.witness, c.w ((3 + j * 2 + 1 : ℕ) : ℤ), srow + ((2 * i + 1 : ℕ) : ℤ), (ys (i * n + j) : F)⟩,
       ⟨.witness, c.w ((3 + j * 2 : ℕ) : ℤ), srow + ((2 * i : ℕ) : ℤ), tempAt xs ys (i * n + j)⟩,
       ⟨.witness, c.w ((3 + j * 2 + 1 : ℕ) : ℤ), srow + ((2 * i : ℕ) : ℤ), flagAt xs ys (i * n + j + 1)⟩]) ++
    [⟨.witness, c.w 0, srow + ((2 * i + 1 : ℕ) : ℤ), (xs (i * n + n - 1) : F)⟩,
     ⟨.witness, c.w 1, srow + ((2 * i + 1 : ℕ) : ℤ), (ys (i * n + n - 1) : F)⟩,
     ⟨.witness, c.w 2, srow + ((2 * i + 1 : ℕ) : ℤ), tempAt xs ys (i * n + n - 1)⟩,
     ⟨.witness, c.w 2, srow + ((2 * i + 2 : ℕ) : ℤ), flagAt xs ys (i * n + n)⟩,
     ⟨.witness, c.w 0, srow + ((2 * i + 2 : ℕ) : ℤ), sumAt xs (i * n + n)⟩,
     ⟨.witness, c.w 1, srow + ((2 * i + 2 : ℕ) : ℤ), sumAt ys (i * n + n)⟩]) ++
  (if bonus w = 0 then [⟨.witness, c.w 3, srow + ((2 * k : ℕ) : ℤ), outVal m (flagAt xs ys (k * n))⟩]
   else [⟨.witness, c.w 0, srow + ((2 * k + 1 : ℕ) : ℤ), outVal m (flagAt xs ys (k * n))⟩])

/-- comparison_flag.hpp:442-576. -/
def assign {p : ℕ} [Fact p.Prime] (c : Cols) (w bits : ℕ) (m : CmpMode) (x y : Var) (srow : ℤ)
    (t : Table (ZMod p)) : Table (ZMod p) :=
  writeAll (writes c w bits m (chunk4 (paddingBits w bits) bits (x.value t).val)
    (chunk4 (paddingBits w bits) bits (y.value t).val) srow) t

end CompFlag
end Verif
