import Verif.Model.R1csCurve
import Verif.Model.R1csBasic
import Verif.Model.R1csPack
import Verif.Core.Montgomery

/-!
# The windowed fixed-base multiplication of the Pedersen hash (r1cs)

`include/nil/blueprint/components/algebra/curves/detail/r1cs/fixed_base_mul_zcash.hpp`, `include/nil/blueprint/components/hashes/pedersen.hpp`.

The points with which the constructor computes are values of the algebra library; here they are elements of Mathlib's group of points of the Montgomery curve,
and `to_montgomery` gives their coordinates. The base points (`get_base_points`, a hash to the group) are arguments.
-/

namespace Verif
namespace R1cs
namespace Pedersen

open Curve Montgomery

section
variable {p : ℕ} [Fact p.Prime] {A : ZMod p}

/-- The coordinates of a point as `to_montgomery` returns them; the neutral element has none (its coordinates are never used by the theorems). -/
def coord : (curve A).Point → ZMod p × ZMod p
  | .zero => (0, 0)
  | .some x y _ => (x, y)

/-- `fixed_base_mul_zcash` (`fixed_base_mul_zcash.hpp:58-86`): `c` is `chunks_per_base_point`, `n` the number of windows, `bit` the variables of the padded
input, `x`, `y` those of the result, `base` the first variable that `init` allocates. -/
structure Mul (p : ℕ) [Fact p.Prime] (A : ZMod p) where
  c : ℕ
  n : ℕ
  bit : ℕ → ℕ
  point : ℕ → (curve A).Point
  x : ℕ
  y : ℕ
  base : ℕ

namespace Mul
variable (k : Mul p A)

/-- The loop over `j` (123-134): `current` in iteration `j`. -/
def current (start : (curve A).Point) : ℕ → (curve A).Point
  | 0 => start
  | j + 1 => current start j + start

/-- `start` in iteration `i` after lines 114-116; line 158 is the other branch. -/
def start : ℕ → (curve A).Point
  | 0 => k.point 0
  | i + 1 =>
    if (i + 1) % k.c = 0 then k.point ((i + 1) / k.c)
    else
      let d := current (start i) 3 + current (start i) 3
      d + d

/-- `lookup_x` of window `i` (130). -/
def tabX (i j : ℕ) : ZMod p := (coord (current (k.start i) j)).1
/-- `lookup_y` of window `i` (131). -/
def tabY (i j : ℕ) : ZMod p := (coord (current (k.start i) j)).2

/-- `m_windows_y[i].b0b1`, the first variable of lookup `i` (141, `lookup_signed_3bit.hpp:74-75`). -/
def b0b1 (i : ℕ) : ℕ := k.base + 2 * i
/-- `m_windows_y[i].result`. -/
def winY (i : ℕ) : ℕ := k.base + 2 * i + 1

/-- Window `i` as a point: `m_windows_x[i]` (146-155) and `m_windows_y[i].result`. -/
def win (i : ℕ) : Pt (ZMod p) :=
  ⟨[(0, k.tabX i 0), (k.bit (3 * i), k.tabX i 1 - k.tabX i 0), (k.bit (3 * i + 1), k.tabX i 2 - k.tabX i 0),
    (k.b0b1 i, k.tabX i 3 - k.tabX i 2 - k.tabX i 1 + k.tabX i 0)], Lc.var (k.winY i)⟩

/-- `montgomery_adders.size()` before iteration `i` of the loop 162-189. -/
def nAdd : ℕ → ℕ
  | 0 => 0
  | i + 1 => if i % k.c = 0 then nAdd i else nAdd i + 1

/-- The first variable of the Montgomery adders. -/
def aBase : ℕ := k.base + 2 * k.n
/-- `montgomery_adders[q].result`. -/
def addRes (q : ℕ) : Pt (ZMod p) := Pt.vars (k.aBase + 3 * q) (k.aBase + 3 * q + 1)

/-- The adder that iteration `i` appends (176-188). -/
def adder (i : ℕ) : MontAdd (ZMod p) :=
  ⟨if i % k.c = 1 then k.win (i - 1) else k.addRes (k.nAdd i - 1), k.win i, k.aBase + 3 * k.nAdd i, k.aBase + 3 * k.nAdd i + 1, k.aBase + 3 * k.nAdd i + 2⟩

/-- `montgomery_adders`. -/
def adders : List (MontAdd (ZMod p)) := (List.range k.n).flatMap fun i => if i % k.c = 0 then [] else [k.adder i]

/-- `segment_width` (192). -/
def width : ℕ := k.c - 1

/-- The points that are converted: the last window if it is the first of a segment (163-175), the result of the last adder of every segment but the last
adder (194-196; the loop runs as often as `(size - 1) / segment_width`), the result of the last adder (198-200). -/
def convPts : List (Pt (ZMod p)) :=
  (if (k.n - 1) % k.c = 0 then [k.win (k.n - 1)] else []) ++
    (List.range ((k.nAdd k.n - 1) / k.width)).map (fun t => k.addRes ((t + 1) * k.width - 1)) ++
    (if k.n > 1 then [k.addRes (k.nAdd k.n - 1)] else [])

/-- The first variable of the converters. -/
def cBase : ℕ := k.aBase + 3 * k.nAdd k.n
/-- `point_converters[q].result`. -/
def convRes (q : ℕ) : Pt (ZMod p) := Pt.vars (k.cBase + 2 * q) (k.cBase + 2 * q + 1)
/-- `point_converters[q]`. -/
def conv (q : ℕ) : Convert (ZMod p) := ⟨k.convPts.getD q ⟨[], []⟩, k.cBase + 2 * q, k.cBase + 2 * q + 1⟩

/-- The first variable of the twisted Edwards adders. -/
def eBase : ℕ := k.cBase + 2 * k.convPts.length
/-- `edward_adders[q].result`. -/
def edRes (q : ℕ) : Pt (ZMod p) := Pt.vars (k.eBase + 9 * q) (k.eBase + 9 * q + 1)
/-- `edward_adders[q]`, which iteration `q + 1` appends (203-211). -/
def ed (q : ℕ) : EdAdd (ZMod p) :=
  ⟨if q = 0 then k.convRes 0 else k.edRes (q - 1), k.convRes (q + 1), k.eBase + 9 * q, k.eBase + 9 * q + 1, k.eBase + 9 * q + 2⟩

/-- The point that becomes the result (279-293, 319-325). -/
def last : Pt (ZMod p) := if k.convPts.length - 1 = 0 then k.convRes (k.convPts.length - 1) else k.edRes (k.convPts.length - 2)

/-- `generate_gates` (261-294). -/
def gates (scale a d : ZMod p) : List (Constraint (ZMod p)) :=
  ((List.range k.n).flatMap fun i => lookup3Gates (k.tabY i) (fun j => k.bit (3 * i + j)) (k.b0b1 i) (k.winY i)) ++
    k.adders.flatMap (fun m => m.gates A) ++
    ((List.range k.convPts.length).flatMap fun q => (k.conv q).gates scale) ++
    ((List.range (k.convPts.length - 1)).flatMap fun q => (k.ed q).gates a d) ++
    [⟨Lc.const 1, Lc.var k.x, k.last.X⟩, ⟨Lc.const 1, Lc.var k.y, k.last.Y⟩]

/-- `lookup_signed_3bit::generate_assignments` (`lookup_signed_3bit.hpp:115-124`) as two steps. -/
def lookSteps (i : ℕ) : List (Step (ZMod p)) :=
  [(k.b0b1 i, fun s => val s (k.bit (3 * i)) * val s (k.bit (3 * i + 1))),
    (k.winY i, fun s =>
      let e := ((0 : ZMod p) + (0 + val s (k.bit (3 * i + 2))))
      let e := e + (e + val s (k.bit (3 * i + 1)))
      let e := e + (e + val s (k.bit (3 * i)))
      let j := e.val % 2 ^ 64
      let r := k.tabY i (j % 4)
      if j > 3 then r * (-1) else r)]

/-- `generate_assignments` (296-327). -/
def steps (scale a d : ZMod p) : List (Step (ZMod p)) :=
  (List.range k.n).flatMap k.lookSteps ++ k.adders.flatMap (fun m => m.steps A) ++
    ((List.range k.convPts.length).flatMap fun q => (k.conv q).steps scale) ++
    ((List.range (k.convPts.length - 1)).flatMap fun q => (k.ed q).steps a d) ++
    [(k.x, fun s => k.last.X.eval s), (k.y, fun s => k.last.Y.eval s)]

/-- `pad_input` (214-231): the padding variables are allocated and set to 0, without constraints. `m` is the length of the input, `padBase` the first
padding variable. -/
def padBit (m : ℕ) (input : ℕ → ℕ) (padBase : ℕ) (i : ℕ) : ℕ := if i < m then input i else padBase + (i - m)
/-- The number of windows of the padded input. -/
def padWindows (m : ℕ) : ℕ := (m + (if m % 3 ≠ 0 then 3 - m % 3 else 0)) / 3

end Mul

end
end Pedersen
end R1cs
end Verif
