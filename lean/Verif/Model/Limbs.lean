import Verif.Model.RangeCheck

/-!
# Splitting field elements into 64-bit limbs, and back

`components/systems/snark/plonk/kimchi/detail/limbs.hpp`: `from_limbs` (lines 50-211) and `to_limbs` (213-523). The range
checks are always built on `W(0)` to `W(14)`. The integers of the code
(`extended_integral_type`, wider than 256 bits) are natural numbers. `BlueprintFieldType::modulus` is `p`.
-/

namespace Verif

namespace FromLimbs
variable {F : Type*} [Field F]

/-- limbs.hpp:109-114, the result cell. -/
def result (c : Cols) (srow : ℤ) : Var := c.wa 2 srow

/-- limbs.hpp:190-194. -/
def gate (c : Cols) : List (Expr F) := [c.wv 0 + c.wv 1 * .const (2 ^ 64) - c.wv 2]

/-- limbs.hpp:141-156, the copies of 197-211. -/
def circuit (c : Cols) (lo hi : Var) (srow : ℤ) : List (Op F) :=
  [.gate (gate c) [srow], .copy (c.wa 0 srow) lo, .copy (c.wa 1 srow) hi]

/-- limbs.hpp:158-176, `2^64 * second + first`. -/
def assign (c : Cols) (lo hi : Var) (srow : ℤ) (t : Table F) : Table F :=
  ((t.set .witness (c.w 0) srow (lo.value t)).set .witness (c.w 1) srow (hi.value t)).set .witness (c.w 2) srow
    (2 ^ 64 * hi.value t + lo.value t)

end FromLimbs

namespace ToLimbs

/-- `chunk_amount` (limbs.hpp:265). -/
def chunkAmount : ℕ := 4
/-- `chunk_size` (limbs.hpp:228). -/
def chunkSize : ℕ := 64

/-- limbs.hpp:259-262. -/
def rows : ℕ := 1 + 2 * chunkAmount * RangeCheck.rows 15 chunkSize

/-- limbs.hpp:281-289, limb `i` of the result. -/
def result (c : Cols) (srow : ℤ) (i : ℕ) : Var := c.wa ((1 + i : ℕ) : ℤ) srow

/-- `c = 2^256 - modulus` (limbs.hpp:397-400, 480-483). -/
def cOf (p : ℕ) : ℕ := 2 ^ 256 - p

/-- Chunk `i` of an integer: `(c >> 64 i) & mask` (limbs.hpp:402-408, 485-486). -/
def limb (n i : ℕ) : ℕ := (n >>> (64 * i)) &&& (2 ^ 64 - 1)

section
variable {p : ℕ} [Fact p.Prime]

/-- limbs.hpp:487-509. -/
def gate (c : Cols) : List (Expr (ZMod p)) :=
  [ c.wv 1 + c.wv 2 * .const (2 ^ 64) + c.wv 3 * .const (2 ^ 128) + c.wv 4 * .const (2 ^ 192) - c.wv 0,
    0 - c.wv 1 - .const (limb (cOf p) 0 : ZMod p) + c.wv 5 + c.wv 9 * .const (2 ^ 64),
    0 - c.wv 2 - .const (limb (cOf p) 1 : ZMod p) - c.wv 9 + c.wv 6 + c.wv 10 * .const (2 ^ 64),
    0 - c.wv 3 - .const (limb (cOf p) 2 : ZMod p) - c.wv 10 + c.wv 7 + c.wv 11 * .const (2 ^ 64),
    0 - c.wv 4 - .const (limb (cOf p) 3 : ZMod p) - c.wv 11 + c.wv 8,
    c.wv 9 * (c.wv 9 - 1),
    c.wv 10 * (c.wv 10 - 1),
    c.wv 11 * (c.wv 11 - 1) ]

/-- The column whose cell the `k`-th range check is about: chunk `i`, then `b` chunk `i` (limbs.hpp:337-356). -/
def rcCol (k : ℕ) : ℕ := if k % 2 = 0 then 1 + k / 2 else 5 + k / 2

/-- The row of the `k`-th range check (limbs.hpp:350-357). -/
def rcRow (srow : ℤ) (k : ℕ) : ℤ := srow + ((1 + k * RangeCheck.rows 15 chunkSize : ℕ) : ℤ)

/-- limbs.hpp:315-362, the copy of 512-522. -/
def circuit (c : Cols) (x : Var) (srow : ℤ) : List (Op (ZMod p)) :=
  [.gate (gate c) [srow]] ++
  ((List.range (2 * chunkAmount)).flatMap fun k =>
    RangeCheck.circuit c 15 chunkSize (c.wa (rcCol k : ℤ) srow) (rcRow srow k)) ++
  [.copy (c.wa 0 srow) x]

/-- The carry of limbs.hpp:414-442: `part` is limb + carry + chunk of `c`, `b` the chunk of `b`. The second branch is `modulus - ...`. -/
def carry (p part b : ℕ) : ℕ := if part > b then (part - b) >>> 64 else p - ((b - part) >>> 64)

/-- The values of the first row (limbs.hpp:380-442): the element, its four chunks, the chunks of `b`, the carries. -/
def headVals (v : ℕ) : List (ZMod p) :=
  let shifted0 := v >>> 64 <<< 64
  let v1 := v >>> 64
  let shifted1 := shifted0 >>> 64 >>> 64 <<< 64
  let v2 := v1 >>> 64
  let shifted2 := shifted1 >>> 64 >>> 64 <<< 64
  let v3 := v2 >>> 64
  let b := v + cOf p
  let w1 : ZMod p := ((v - shifted0 : ℕ) : ZMod p)
  let w2 : ZMod p := ((v1 - shifted1 : ℕ) : ZMod p)
  let w3 : ZMod p := ((v2 - shifted2 : ℕ) : ZMod p)
  let w9 : ZMod p := (carry p (w1.val + limb (cOf p) 0) (limb b 0) : ℕ)
  let w10 : ZMod p := (carry p (w2.val + w9.val + limb (cOf p) 1) (limb b 1) : ℕ)
  let w11 : ZMod p := (carry p (w3.val + w10.val + limb (cOf p) 2) (limb b 2) : ℕ)
  [(v : ZMod p), w1, w2, w3, (v3 : ZMod p), (limb b 0 : ℕ), (limb b 1 : ℕ), (limb b 2 : ℕ), (limb b 3 : ℕ), w9, w10, w11]

/-- The writes of the first row, columns `W(0)` to `W(11)` in this order. -/
def heads (c : Cols) (v : ℕ) (srow : ℤ) : List (Write (ZMod p)) :=
  (List.range 12).map fun (k : ℕ) => ⟨.witness, c.w (k : ℤ), srow, (headVals v : List (ZMod p)).getD k 0⟩

/-- limbs.hpp:364-466. -/
def assign (c : Cols) (x : Var) (srow : ℤ) (t : Table (ZMod p)) : Table (ZMod p) :=
  (List.range (2 * chunkAmount)).foldl
    (fun t k => RangeCheck.assign c 15 chunkSize (c.wa (rcCol k : ℤ) srow) (rcRow srow k) t)
    (writeAll (heads c (x.value t).val srow) t)

end
end ToLimbs
end Verif
