import Verif.Core.Grid
import Mathlib.Data.ZMod.Basic

/-!
# `sha256_process` (`components/hashes/sha2/plonk/sha256_process.hpp`)

Nine witness columns, one constant column, 762 rows: two rows with the input state, 48 blocks of five rows for the
message schedule, 64 blocks of eight rows for the rounds, eight rows for the output. The lookup tables are modelled as
predicates on rows: the generated ones from their generators in `lookup_library.hpp`, the two loaded from
`8_split_4.txt` and `8_split_7.txt` by a description of their contents (compared with the files by
`tools/check_sha_tables.py`).

`integral_type` is modelled by natural numbers: all integers that occur fit its width (at most 91 bits).
-/

namespace Verif
namespace Sha256

/-! ## `detail/split_functions.hpp` -/

/-- The `n` lowest bits of an integer, most significant first: `marshalling::pack` and `std::copy` of the last 32
(`sha256_process.hpp:212-220`), `bit_test` loop (`lookup_library.hpp:188-191`). -/
def bits (n k : ℕ) : List Bool := (List.range n).map fun i => k.testBit (n - 1 - i)

/-- One chunk of `size` bits from position `k` (`split_functions.hpp:56-61`). -/
def chunkVal (base : ℕ) (l : List Bool) (k size : ℕ) : ℕ :=
  (List.range (size - 1)).foldl (fun acc j => acc * base + (l.getD (k + (j + 1)) false).toNat) (l.getD k false).toNat

/-- `split_and_sparse` (`split_functions.hpp:45-65`), chunk `i`: the binary chunks for `base = 2`, the sparse ones else. -/
def split (base : ℕ) (sizes : List ℕ) (l : List Bool) (i : ℕ) : ℕ :=
  chunkVal base l (sizes.drop (i + 1)).sum (sizes.getD i 0)

/-- The digits `r` of `reversed_sparse_and_split` (`split_functions.hpp:81-109`), most significant first. The powers are
those of the field (`cached_pow`, 67-79). -/
def topDigits (p base : ℕ) : ℕ → ℕ → List ℕ
  | 0, _ => []
  | k + 1, tmp => tmp / (base ^ k % p) :: topDigits p base k (tmp % (base ^ k % p))

/-- The digits that make up chunk `i`. -/
def chunkDigits (p base : ℕ) (sizes : List ℕ) (v i : ℕ) : List ℕ :=
  ((topDigits p base sizes.sum v).drop (sizes.drop (i + 1)).sum).take (sizes.getD i 0)

/-- `res[1][i]` of the three functions (104, 135, 166). -/
def revSparse (p base : ℕ) (sizes : List ℕ) (v i : ℕ) : ℕ :=
  (chunkDigits p base sizes v i).foldl (fun acc r => acc * base + r) 0

/-- `res[0][i]` of the three functions (103, 134, 165), which differ in the bit `f r` put for a digit. -/
def revBin (p : ℕ) (f : ℕ → ℕ) (base : ℕ) (sizes : List ℕ) (v i : ℕ) : ℕ :=
  (chunkDigits p base sizes v i).foldl (fun acc r => acc * 2 + f r) 0

/-- `r & 1` (103). -/
def parity (r : ℕ) : ℕ := r % 2
/-- `r_values` of `reversed_sparse_and_split_maj` (126). -/
def majVal (r : ℕ) : ℕ := [0, 0, 1, 1].getD r 0
/-- `r_values` of `reversed_sparse_and_split_ch` (157). -/
def chVal (r : ℕ) : ℕ := [0, 0, 0, 1, 0, 1, 1].getD r 0

/-- All digits are indices of an array of `n` elements; otherwise `r_values[r]` is out of bounds. -/
def inBounds (p base : ℕ) (sizes : List ℕ) (v n : ℕ) : Bool := (topDigits p base sizes.sum v).all fun r => decide (r < n)

/-! ## `calculate` -/

/-- `sigma_sizes`, `ch_and_maj_sizes` (248-249). -/
def bytes : List ℕ := [8, 8, 8, 8]

/-- `round_constant` (94-103). -/
def roundConstant : List ℕ :=
  [0x428a2f98, 0x71374491, 0xb5c0fbcf, 0xe9b5dba5, 0x3956c25b, 0x59f111f1, 0x923f82a4, 0xab1c5ed5,
   0xd807aa98, 0x12835b01, 0x243185be, 0x550c7dc3, 0x72be5d74, 0x80deb1fe, 0x9bdc06a7, 0xc19bf174,
   0xe49b69c1, 0xefbe4786, 0x0fc19dc6, 0x240ca1cc, 0x2de92c6f, 0x4a7484aa, 0x5cb0a9dc, 0x76f988da,
   0x983e5152, 0xa831c66d, 0xb00327c8, 0xbf597fc7, 0xc6e00bf3, 0xd5a79147, 0x06ca6351, 0x14292967,
   0x27b70a85, 0x2e1b2138, 0x4d2c6dfc, 0x53380d13, 0x650a7354, 0x766a0abb, 0x81c2c92e, 0x92722c85,
   0xa2bfe8a1, 0xa81a664b, 0xc24b8b70, 0xc76c51a3, 0xd192e819, 0xd6990624, 0xf40e3585, 0x106aa070,
   0x19a4c116, 0x1e376c08, 0x2748774c, 0x34b0bcb5, 0x391c0cb3, 0x4ed8aa4a, 0x5b9cca4f, 0x682e6ff3,
   0x748f82ee, 0x78a5636f, 0x84c87814, 0x8cc70208, 0x90befffa, 0xa4506ceb, 0xbef9a3f7, 0xc67178f2]

section
variable {p : ℕ}

/-- `round_constant[i]` as a field element. -/
def kc (p i : ℕ) : ZMod p := (roundConstant.getD i 0 : ℕ)

/-- The 32 bits of a field element (212-220). -/
def word (x : ZMod p) : List Bool := bits 32 x.val

/-- `typename BlueprintFieldType::value_type(2).pow(32).data` (307-308). -/
def m32 (p : ℕ) : ℕ := ((2 : ZMod p) ^ 32).val

/-- `a_sizes` (263), `b_sizes` (285), `e_sizes` (322), `a_sizes` (379). -/
def s0Sizes : List ℕ := [3, 4, 11, 14]
@[inherit_doc s0Sizes] def s1Sizes : List ℕ := [10, 7, 2, 13]
@[inherit_doc s0Sizes] def eSizes : List ℕ := [6, 5, 14, 7]
@[inherit_doc s0Sizes] def aSizes : List ℕ := [2, 11, 9, 10]

/-- `sparse_sigma0` (267-270). -/
def sparseSigma0 (a : ZMod p) : ℕ :=
  let c := split 4 s0Sizes (word a)
  c 1 * (1 + 2 ^ 56 + 2 ^ 34) + c 2 * (2 ^ 8 + 1 + 2 ^ 42) + c 3 * (2 ^ 30 + 2 ^ 22 + 1) + c 0 * (2 ^ 50 + 2 ^ 28)

/-- `sparse_sigma1` (290-293). -/
def sparseSigma1 (b : ZMod p) : ℕ :=
  let c := split 4 s1Sizes (word b)
  c 1 * (1 + 2 ^ 50 + 2 ^ 46) + c 2 * (2 ^ 14 + 1 + 2 ^ 60) + c 3 * (2 ^ 18 + 2 ^ 4 + 1) + c 0 * (2 ^ 30 + 2 ^ 26)

/-- `sum` (299-304), from the words with the offsets 1, 14, 9 and 0. -/
def schedSum (w1 w14 w9 w0 : ZMod p) : ZMod p :=
  let u := revBin p parity 4 bytes (sparseSigma1 w14)
  let v := revBin p parity 4 bytes (sparseSigma0 w1)
  w9 + w0 + (u 0 : ZMod p) + (v 0 : ZMod p) + ((2 ^ 8 * (u 1 + v 1) : ℕ) : ZMod p) + ((2 ^ 16 * (u 2 + v 2) : ℕ) : ZMod p) +
    ((2 ^ 24 * (u 3 + v 3) : ℕ) : ZMod p)

/-- `message_scheduling_words[… + 16]` (305-308). -/
def schedWord (w1 w14 w9 w0 : ZMod p) : ZMod p := (((schedSum w1 w14 w9 w0).val % m32 p : ℕ) : ZMod p)

/-- `message_scheduling_words` (196-198, 252-309). -/
def sched (ws : ℕ → ZMod p) (n : ℕ) : ZMod p :=
  if n < 16 then ws n else schedWord (sched ws (n - 15)) (sched ws (n - 2)) (sched ws (n - 7)) (sched ws (n - 16))
  termination_by n

/-- `sparse_values[4]` (327-331). -/
def sparseE (e : ZMod p) : ℕ :=
  let c := split 7 eSizes (word e)
  ((c 0 : ZMod p) + (c 1 : ZMod p) * 7 ^ 6 + (c 2 : ZMod p) * 7 ^ (6 + 5) + (c 3 : ZMod p) * 7 ^ (6 + 5 + 14)).val

/-- `sparse_Sigma1` (332-338). -/
def sparseBigSigma1 (e : ZMod p) : ℕ :=
  let c := split 7 eSizes (word e)
  ((c 1 : ZMod p) * (7 ^ 27 + 7 ^ 13 + 1) + (c 2 : ZMod p) * (7 ^ 5 + 7 ^ 18 + 1) + (c 3 : ZMod p) * (7 ^ 19 + 7 ^ 14 + 1) +
    (c 0 : ZMod p) * (7 ^ 26 + 7 ^ 21 + 7 ^ 7)).val

/-- `sparse_values[0]` (384-388). -/
def sparseA (a : ZMod p) : ℕ :=
  let c := split 4 aSizes (word a)
  ((c 0 : ZMod p) + (c 1 : ZMod p) * 4 ^ 2 + (c 2 : ZMod p) * 4 ^ (2 + 11) + (c 3 : ZMod p) * 4 ^ (2 + 11 + 9)).val

/-- `sparse_Sigma0` (389-393). -/
def sparseBigSigma0 (a : ZMod p) : ℕ :=
  let c := split 4 aSizes (word a)
  c 0 * (2 ^ 38 + 2 ^ 20 + 2 ^ 60) + c 1 * (2 ^ 42 + 1 + 2 ^ 24) + c 2 * (2 ^ 22 + 2 ^ 46 + 1) + c 3 * (2 ^ 40 + 2 ^ 18 + 1)

/-- Four byte chunks put together (342-345, 353-355, 398-401, 408-410). -/
def join (f : ℕ → ℕ) : ℕ := f 0 + f 1 * 2 ^ 8 + f 2 * 2 ^ 16 + f 3 * 2 ^ 24

/-- The variables of the loop over the rounds (199-206) and `sparse_values[1]`, `[2]`, `[5]`, `[6]`; `[0]` and `[4]` are
computed from `a` and `e`, `[3]` and `[7]` are never read. -/
@[ext] structure Work (p : ℕ) where
  a : ZMod p
  b : ZMod p
  c : ZMod p
  d : ZMod p
  e : ZMod p
  f : ZMod p
  g : ZMod p
  h : ZMod p
  v1 : ℕ
  v2 : ℕ
  v5 : ℕ
  v6 : ℕ

/-- `sparse_ch` (346-347). -/
def Work.sparseCh (s : Work p) : ℕ := sparseE s.e + 2 * s.v5 + 3 * s.v6
/-- `sparse_maj` (403-404). -/
def Work.sparseMaj (s : Work p) : ℕ := sparseA s.a + s.v1 + s.v2

/-- `tmp1` (357-359). -/
def Work.tmp1 (s : Work p) (k w : ZMod p) : ZMod p :=
  s.h + (join (revBin p parity 7 bytes (sparseBigSigma1 s.e)) : ZMod p) + (join (revBin p chVal 7 bytes s.sparseCh) : ZMod p) + k + w

/-- `sum`, `e_new` (360-364). -/
def Work.eSum (s : Work p) (k w : ZMod p) : ZMod p := s.tmp1 k w + s.d
@[inherit_doc Work.eSum] def Work.eNew (s : Work p) (k w : ZMod p) : ZMod p := (((s.eSum k w).val % m32 p : ℕ) : ZMod p)

/-- `sum1`, `a_new` (411-415). -/
def Work.aSum (s : Work p) (k w : ZMod p) : ZMod p :=
  s.tmp1 k w + (join (revBin p parity 4 bytes (sparseBigSigma0 s.a)) : ZMod p) + (join (revBin p majVal 4 bytes s.sparseMaj) : ZMod p)
@[inherit_doc Work.aSum] def Work.aNew (s : Work p) (k w : ZMod p) : ZMod p := (((s.aSum k w).val % m32 p : ℕ) : ZMod p)

/-- One pass of the loop (311-434). -/
def Work.step (s : Work p) (k w : ZMod p) : Work p :=
  ⟨s.aNew k w, s.a, s.b, s.c, s.eNew k w, s.e, s.f, s.g, sparseA s.a, s.v1, sparseE s.e, s.v5⟩

/-- Before the loop (199-246). -/
def Work.init (st : ℕ → ZMod p) : Work p :=
  ⟨st 0, st 1, st 2, st 3, st 4, st 5, st 6, st 7, split 4 [32] (word (st 1)) 0, split 4 [32] (word (st 2)) 0,
    split 7 [32] (word (st 5)) 0, split 7 [32] (word (st 6)) 0⟩

/-- After `n` rounds with the words `w`. -/
def Work.run (s : Work p) (w : ℕ → ZMod p) : ℕ → Work p
  | 0 => s
  | n + 1 => (s.run w n).step (kc p n) (w n)

/-- `output_state[i]` (435). -/
def Work.get (s : Work p) : ℕ → ZMod p
  | 0 => s.a
  | 1 => s.b
  | 2 => s.c
  | 3 => s.d
  | 4 => s.e
  | 5 => s.f
  | 6 => s.g
  | _ => s.h

/-- `calculate` (189-446); `none` is an access of `r_values` out of bounds. -/
def calculate (st ws : ℕ → ZMod p) : Option (ℕ → ZMod p) :=
  let u := fun n => (Work.init st).run (sched ws) n
  if (List.range 64).all fun n => inBounds p 7 bytes (u n).sparseCh 7 && inBounds p 4 bytes (u n).sparseMaj 4 then
    some fun i => (((st i).val + ((u 64).get i).val) % m32 p : ℕ)
  else none

/-! ## `generate_assignments` -/

/-- `((1 << 14) - 1) & (x >> 14 i)` (1542-1544). -/
def limb (x : ZMod p) (i : ℕ) : ZMod p := ((x.val / 2 ^ (14 * i) % 2 ^ 14 : ℕ) : ZMod p)

/-- Block of the schedule with the words `w` of offsets `0`, `1`, `9`, `14` (1441-1550): row `m`, column `j`. -/
def schedCell (w0 w1 w9 w14 : ZMod p) (m j : ℕ) : ZMod p :=
  let new := schedWord w1 w14 w9 w0
  match m, j with
  | 0, 0 => w1
  | 0, 1 => (split 2 s0Sizes (word w1) 0 : ZMod p)
  | 0, 2 => (split 2 s0Sizes (word w1) 1 : ZMod p)
  | 0, 3 => (split 2 s0Sizes (word w1) 2 : ZMod p)
  | 0, 4 => (split 2 s0Sizes (word w1) 3 : ZMod p)
  | 0, 7 => (split 4 s0Sizes (word w1) 0 : ZMod p)
  | 1, 0 => w9
  | 1, 1 => w0
  | 1, 2 => (split 4 s0Sizes (word w1) 1 : ZMod p)
  | 1, 3 => (split 4 s0Sizes (word w1) 2 : ZMod p)
  | 1, 4 => (split 4 s0Sizes (word w1) 3 : ZMod p)
  | 1, 5 => (revSparse p 4 bytes (sparseSigma0 w1) 0 : ZMod p)
  | 1, 6 => (revSparse p 4 bytes (sparseSigma0 w1) 1 : ZMod p)
  | 1, 7 => (revSparse p 4 bytes (sparseSigma0 w1) 2 : ZMod p)
  | 1, 8 => (revSparse p 4 bytes (sparseSigma0 w1) 3 : ZMod p)
  | 2, 0 => new
  | 2, 1 => (revBin p parity 4 bytes (sparseSigma0 w1) 0 : ZMod p)
  | 2, 2 => (revBin p parity 4 bytes (sparseSigma0 w1) 1 : ZMod p)
  | 2, 3 => (revBin p parity 4 bytes (sparseSigma0 w1) 2 : ZMod p)
  | 2, 4 => (revBin p parity 4 bytes (sparseSigma0 w1) 3 : ZMod p)
  | 2, 5 => (revBin p parity 4 bytes (sparseSigma1 w14) 0 : ZMod p)
  | 2, 6 => (revBin p parity 4 bytes (sparseSigma1 w14) 1 : ZMod p)
  | 2, 7 => (revBin p parity 4 bytes (sparseSigma1 w14) 2 : ZMod p)
  | 2, 8 => (revBin p parity 4 bytes (sparseSigma1 w14) 3 : ZMod p)
  | 3, 0 => (schedSum w1 w14 w9 w0 - new) * ((2 : ZMod p) ^ 32)⁻¹
  | 3, 1 => (split 4 s1Sizes (word w14) 0 : ZMod p)
  | 3, 2 => (split 4 s1Sizes (word w14) 1 : ZMod p)
  | 3, 3 => (split 4 s1Sizes (word w14) 2 : ZMod p)
  | 3, 4 => (split 4 s1Sizes (word w14) 3 : ZMod p)
  | 3, 5 => (revSparse p 4 bytes (sparseSigma1 w14) 0 : ZMod p)
  | 3, 6 => (revSparse p 4 bytes (sparseSigma1 w14) 1 : ZMod p)
  | 3, 7 => (revSparse p 4 bytes (sparseSigma1 w14) 2 : ZMod p)
  | 3, 8 => (revSparse p 4 bytes (sparseSigma1 w14) 3 : ZMod p)
  | 4, 0 => w14
  | 4, 1 => (split 2 s1Sizes (word w14) 0 : ZMod p)
  | 4, 2 => (split 2 s1Sizes (word w14) 1 : ZMod p)
  | 4, 3 => (split 2 s1Sizes (word w14) 2 : ZMod p)
  | 4, 4 => (split 2 s1Sizes (word w14) 3 : ZMod p)
  | 4, 5 => limb new 0
  | 4, 6 => limb new 1
  | 4, 7 => limb new 2
  | 4, 8 => new
  | _, _ => 0

/-- Block of one round with variables `s`, constant `k` and word `w` (1552-1756): row `m`, column `j`. -/
def roundCell (s : Work p) (k w : ZMod p) (m j : ℕ) : ZMod p :=
  match m, j with
  | 0, 0 => s.e
  | 0, 1 => (split 7 eSizes (word s.e) 0 : ZMod p)
  | 0, 2 => (split 2 eSizes (word s.e) 0 : ZMod p)
  | 0, 3 => (split 2 eSizes (word s.e) 1 : ZMod p)
  | 0, 4 => (split 2 eSizes (word s.e) 2 : ZMod p)
  | 0, 5 => (split 2 eSizes (word s.e) 3 : ZMod p)
  | 0, 6 => (revSparse p 7 bytes (sparseBigSigma1 s.e) 1 : ZMod p)
  | 0, 7 => (revSparse p 7 bytes (sparseBigSigma1 s.e) 2 : ZMod p)
  | 0, 8 => (revSparse p 7 bytes (sparseBigSigma1 s.e) 3 : ZMod p)
  | 1, 0 => (sparseE s.e : ZMod p)
  | 1, 1 => (s.v5 : ZMod p)
  | 1, 2 => (split 7 eSizes (word s.e) 1 : ZMod p)
  | 1, 3 => (split 7 eSizes (word s.e) 2 : ZMod p)
  | 1, 4 => (split 7 eSizes (word s.e) 3 : ZMod p)
  | 1, 5 => (revSparse p 7 bytes (sparseBigSigma1 s.e) 0 : ZMod p)
  | 1, 6 => limb (s.eNew k w) 0
  | 1, 7 => limb (s.eNew k w) 1
  | 1, 8 => limb (s.eNew k w) 2
  | 2, 0 => (revSparse p 7 bytes s.sparseCh 0 : ZMod p)
  | 2, 1 => (revSparse p 7 bytes s.sparseCh 1 : ZMod p)
  | 2, 2 => (revSparse p 7 bytes s.sparseCh 2 : ZMod p)
  | 2, 3 => (revSparse p 7 bytes s.sparseCh 3 : ZMod p)
  | 2, 4 => (s.eSum k w - s.eNew k w) * ((((2 : ZMod p) ^ 32)⁻¹.val : ℕ) : ZMod p)
  | 2, 5 => (revBin p parity 7 bytes (sparseBigSigma1 s.e) 0 : ZMod p)
  | 2, 6 => (revBin p parity 7 bytes (sparseBigSigma1 s.e) 1 : ZMod p)
  | 2, 7 => (revBin p parity 7 bytes (sparseBigSigma1 s.e) 2 : ZMod p)
  | 2, 8 => (revBin p parity 7 bytes (sparseBigSigma1 s.e) 3 : ZMod p)
  | 3, 0 => (s.v6 : ZMod p)
  | 3, 1 => s.d
  | 3, 2 => s.h
  | 3, 3 => w
  | 3, 4 => s.eNew k w
  | 3, 5 => (revBin p chVal 7 bytes s.sparseCh 0 : ZMod p)
  | 3, 6 => (revBin p chVal 7 bytes s.sparseCh 1 : ZMod p)
  | 3, 7 => (revBin p chVal 7 bytes s.sparseCh 2 : ZMod p)
  | 3, 8 => (revBin p chVal 7 bytes s.sparseCh 3 : ZMod p)
  | 4, 0 => (revSparse p 4 bytes s.sparseMaj 0 : ZMod p)
  | 4, 1 => (revSparse p 4 bytes s.sparseMaj 1 : ZMod p)
  | 4, 2 => (revSparse p 4 bytes s.sparseMaj 2 : ZMod p)
  | 4, 3 => (revSparse p 4 bytes s.sparseMaj 3 : ZMod p)
  | 4, 4 => s.tmp1 k w
  | 4, 5 => (revBin p majVal 4 bytes s.sparseMaj 0 : ZMod p)
  | 4, 6 => (revBin p majVal 4 bytes s.sparseMaj 1 : ZMod p)
  | 4, 7 => (revBin p majVal 4 bytes s.sparseMaj 2 : ZMod p)
  | 4, 8 => (revBin p majVal 4 bytes s.sparseMaj 3 : ZMod p)
  | 5, 0 => (sparseA s.a : ZMod p)
  | 5, 1 => (s.v1 : ZMod p)
  | 5, 2 => s.aNew k w
  | 5, 3 => (s.aSum k w - s.aNew k w) * ((2 : ZMod p) ^ 32)⁻¹
  | 5, 4 => (s.v2 : ZMod p)
  | 5, 5 => (revBin p parity 4 bytes (sparseBigSigma0 s.a) 0 : ZMod p)
  | 5, 6 => (revBin p parity 4 bytes (sparseBigSigma0 s.a) 1 : ZMod p)
  | 5, 7 => (revBin p parity 4 bytes (sparseBigSigma0 s.a) 2 : ZMod p)
  | 5, 8 => (revBin p parity 4 bytes (sparseBigSigma0 s.a) 3 : ZMod p)
  | 6, 0 => (revSparse p 4 bytes (sparseBigSigma0 s.a) 0 : ZMod p)
  | 6, 1 => (revSparse p 4 bytes (sparseBigSigma0 s.a) 1 : ZMod p)
  | 6, 2 => (split 4 aSizes (word s.a) 0 : ZMod p)
  | 6, 3 => (split 4 aSizes (word s.a) 1 : ZMod p)
  | 6, 4 => (split 4 aSizes (word s.a) 2 : ZMod p)
  | 6, 5 => (split 4 aSizes (word s.a) 3 : ZMod p)
  | 6, 6 => (revSparse p 4 bytes (sparseBigSigma0 s.a) 2 : ZMod p)
  | 6, 7 => (revSparse p 4 bytes (sparseBigSigma0 s.a) 3 : ZMod p)
  | 7, 0 => s.a
  | 7, 2 => (split 2 aSizes (word s.a) 0 : ZMod p)
  | 7, 3 => (split 2 aSizes (word s.a) 1 : ZMod p)
  | 7, 4 => (split 2 aSizes (word s.a) 2 : ZMod p)
  | 7, 5 => (split 2 aSizes (word s.a) 3 : ZMod p)
  | 7, 6 => limb (s.aNew k w) 0
  | 7, 7 => limb (s.aNew k w) 1
  | 7, 8 => limb (s.aNew k w) 2
  | _, _ => 0

/-- The last eight rows (1757-1803), from the input state and the state after the rounds. -/
def outCell (st out : ℕ → ZMod p) (m j : ℕ) : ZMod p :=
  let sum := fun (i : ℕ) => (st i).val + (out i).val
  match m with
  | 0 => if j < 4 then st j else out (j - 4)
  | 1 => if j < 4 then ((sum j % m32 p : ℕ) : ZMod p) else (((sum (j - 4) - sum (j - 4) % m32 p) / m32 p : ℕ) : ZMod p)
  | 2 => if j < 4 then st (j + 4) else out j
  | 3 => if j < 4 then ((sum (j + 4) % m32 p : ℕ) : ZMod p) else (((sum j - sum j % m32 p) / m32 p : ℕ) : ZMod p)
  | _ =>
    let i := m - 4
    if j < 3 then limb (out (2 * i)) j else if j = 3 then out (2 * i)
    else if j < 7 then limb (out (2 * i + 1)) (j - 4) else out (2 * i + 1)

/-- The first two rows (1390-1433): the input state and its sparse form. -/
def inCell (st : ℕ → ZMod p) (m j : ℕ) : ZMod p :=
  match m with
  | 0 => st j
  | _ => if j < 4 then (split 4 [32] (word (st j)) 0 : ZMod p) else (split 7 [32] (word (st j)) 0 : ZMod p)

/-- The rows of the whole component. `w` are the words of the schedule blocks; the rounds start from `s` and use the
words `v`, the last rows hold `st` and what the rounds give. The code uses `s = Work.init st` and `v = w`. -/
def gridCell (st : ℕ → ZMod p) (w : ℕ → ZMod p) (s : Work p) (v : ℕ → ZMod p) (r j : ℕ) : ZMod p :=
  if r < 2 then inCell st r j
  else if r < 242 then
    let n := (r - 2) / 5
    schedCell (w n) (w (n + 1)) (w (n + 9)) (w (n + 14)) ((r - 2) % 5) j
  else if r < 754 then
    let n := (r - 242) / 8
    roundCell (s.run v n) (kc p n) (v n) ((r - 242) % 8) j
  else outCell st (fun i => (s.run v 64).get i) (r - 754) j

/-- The cells written (1390-1803). -/
def written (r j : ℕ) : Bool :=
  if r < 2 then j < 8
  else if r < 242 then ((r - 2) % 5 ≠ 0 ∨ (j ≠ 5 ∧ j ≠ 6 ∧ j ≠ 8))
  else if r < 754 then ((r - 242) % 8 ≠ 6 ∨ j ≠ 8) ∧ ((r - 242) % 8 ≠ 7 ∨ j ≠ 1)
  else j < 8

/-- Their list. -/
def positions : List (ℕ × ℕ) := ((List.range 762).flatMap fun r => (List.range 9).map fun j => (r, j)).filter fun q => written q.1 q.2

/-- `input_type` (109-111). -/
structure In where
  state : ℕ → Var
  words : ℕ → Var

/-- Writing a grid of cells. -/
def fill (c : Cols) (srow : ℤ) (g : ℕ → ℕ → ZMod p) (t : Table (ZMod p)) : Table (ZMod p) :=
  writeAll (positions.map fun q => ⟨.witness, c.w (q.2 : ℤ), srow + (q.1 : ℤ), g q.1 q.2⟩) t

/-- `generate_assignments` (1353-1858). -/
def assign (c : Cols) (inp : In) (srow : ℤ) (t : Table (ZMod p)) : Table (ZMod p) :=
  let st := fun i => (inp.state i).value t
  let w := sched fun i => (inp.words i).value t
  fill c srow (gridCell st w (Work.init st) w) t

/-- `result_type` (125-136), with `rows_amount = 762`. -/
def result (c : Cols) (srow : ℤ) (i : ℕ) : Var :=
  if i < 4 then c.wa (i : ℤ) (srow + 762 - 7) else c.wa ((i : ℤ) - 4) (srow + 762 - 5)

end

/-! ## Lookup tables (`lookup_library.hpp`) -/

section
variable (F : Type*) [Field F]

/-- `sha256_sparse_base4/full`, `sha256_sparse_base7/full` (173-201, 223-249). -/
def sparseTable (base : ℕ) (l : List F) : Prop :=
  ∃ i < 16384, l = [((split 2 [14] (bits 14 i) 0 : ℕ) : F), ((split base [14] (bits 14 i) 0 : ℕ) : F)]

/-- `…/first_column` (177, 227). -/
def firstColumn (l : List F) : Prop := ∃ i < 16384, l = [((split 2 [14] (bits 14 i) 0 : ℕ) : F)]

/-- `sha256_reverse_sparse_base4/full`: file `8_split_4.txt` (203-221). -/
def reverse4Table (l : List F) : Prop :=
  ∃ d : ℕ → ℕ, (∀ j < 8, d j ≤ 3) ∧
    l = [((((List.range 8).map fun j => d j % 2 * 2 ^ j).sum : ℕ) : F), ((((List.range 8).map fun j => d j * 4 ^ j).sum : ℕ) : F)]

/-- `sha256_reverse_sparse_base7/full`: file `8_split_7.txt` (251-268). -/
def reverse7Table (l : List F) : Prop :=
  ∃ d : ℕ → ℕ, (∀ j < 8, d j ≤ 3) ∧ (∀ j < 3, ¬ (d j = 0 ∧ d (j + 5) = 3) ∧ ¬ (d j = 3 ∧ d (j + 5) = 0)) ∧
    l = [((((List.range 8).map fun j => d j % 2 * 2 ^ j).sum : ℕ) : F), ((((List.range 8).map fun j => d j * 7 ^ j).sum : ℕ) : F)]

/-- `sha256_maj/full` (270-292). -/
def majTable (p : ℕ) (l : List F) : Prop :=
  ∃ i < 65536, l = [((revBin p majVal 4 [8] i 0 : ℕ) : F), ((revSparse p 4 [8] i 0 : ℕ) : F)]

/-- `sha256_ch/full` (294-316). -/
def chTable (p : ℕ) (l : List F) : Prop :=
  ∃ i < 5764801, l = [((revBin p chVal 7 [8] i 0 : ℕ) : F), ((revSparse p 7 [8] i 0 : ℕ) : F)]
end

/-! ## `generate_circuit` -/

section
variable {F : Type*} [Field F]

/-- A constant in an expression. -/
def kk (n : ℕ) : Expr F := Expr.const (n : F)

/-- `generate_sigma0_gates`, constraints (501-515). -/
def sigma0Gate (c : Cols) : List (Expr F) :=
  let w := fun (i r : ℤ) => (c.wv i r : Expr F)
  [w 0 (-1) - (w 1 (-1) + w 2 (-1) * kk (2 ^ 3) + w 3 (-1) * kk (2 ^ 7) + w 4 (-1) * kk (2 ^ 18)),
   (w 1 (-1) - kk 7) * (w 1 (-1) - kk 6) * (w 1 (-1) - kk 5) * (w 1 (-1) - kk 4) * (w 1 (-1) - kk 3) * (w 1 (-1) - kk 2) *
     (w 1 (-1) - kk 1) * w 1 (-1),
   w 5 0 + w 6 0 * kk (2 ^ 16) + w 7 0 * kk (2 ^ 32) + w 8 0 * kk (2 ^ 48) -
     (w 2 0 * kk (1 + 2 ^ 56 + 2 ^ 34) + w 3 0 * kk (2 ^ 8 + 1 + 2 ^ 42) + w 4 0 * kk (2 ^ 30 + 2 ^ 22 + 1) +
      w 7 (-1) * kk (2 ^ 50 + 2 ^ 28))]

/-- `generate_sigma0_gates`, lookups (520-562). -/
def sigma0Lookups (c : Cols) (rows : List ℤ) : List (Op F) :=
  let w := fun (i r : ℤ) => (c.wv i r : Expr F)
  [.lookup (sparseTable F 4) [w 1 (-1), w 7 (-1)] rows,
   .lookup (firstColumn F) [w 2 (-1) * kk 1024] rows,
   .lookup (sparseTable F 4) [w 2 (-1), w 2 0] rows,
   .lookup (firstColumn F) [w 3 (-1) * kk 8] rows,
   .lookup (sparseTable F 4) [w 3 (-1), w 3 0] rows,
   .lookup (sparseTable F 4) [w 4 (-1), w 4 0] rows,
   .lookup (reverse4Table F) [w 1 1, w 5 0] rows,
   .lookup (reverse4Table F) [w 2 1, w 6 0] rows,
   .lookup (reverse4Table F) [w 3 1, w 7 0] rows,
   .lookup (reverse4Table F) [w 4 1, w 8 0] rows]

/-- `generate_sigma1_gates`, constraints (594-612). -/
def sigma1Gate (c : Cols) : List (Expr F) :=
  let w := fun (i r : ℤ) => (c.wv i r : Expr F)
  [w 0 0 - (w 1 0 + w 2 0 * kk (2 ^ 10) + w 3 0 * kk (2 ^ 17) + w 4 0 * kk (2 ^ 19)),
   (w 3 0 - kk 3) * (w 3 0 - kk 2) * (w 3 0 - kk 1) * w 3 0,
   w 5 (-1) + w 6 (-1) * kk (2 ^ 16) + w 7 (-1) * kk (2 ^ 32) + w 8 (-1) * kk (2 ^ 48) -
     (w 2 (-1) * kk (1 + 2 ^ 50 + 2 ^ 46) + w 3 (-1) * kk (2 ^ 14 + 1 + 2 ^ 60) + w 4 (-1) * kk (2 ^ 18 + 2 ^ 4 + 1) +
      w 1 (-1) * kk (2 ^ 30 + 2 ^ 26)),
   kk 0 - w 8 0 + w 5 0 + w 6 0 * kk (2 ^ 14) + w 7 0 * kk (2 ^ 28)]

/-- `generate_sigma1_gates`, lookups (614-669). -/
def sigma1Lookups (c : Cols) (rows : List ℤ) : List (Op F) :=
  let w := fun (i r : ℤ) => (c.wv i r : Expr F)
  [.lookup (firstColumn F) [w 1 0 * kk 16] rows,
   .lookup (sparseTable F 4) [w 1 0, w 1 (-1)] rows,
   .lookup (firstColumn F) [w 2 0 * kk 128] rows,
   .lookup (sparseTable F 4) [w 2 0, w 2 (-1)] rows,
   .lookup (firstColumn F) [w 4 0 * kk 2] rows,
   .lookup (sparseTable F 4) [w 3 0, w 3 (-1)] rows,
   .lookup (sparseTable F 4) [w 4 0, w 4 (-1)] rows,
   .lookup (firstColumn F) [w 5 0] rows,
   .lookup (firstColumn F) [w 6 0] rows,
   .lookup (firstColumn F) [w 7 0] rows,
   .lookup (firstColumn F) [w 7 0 * kk (2 ^ 10)] rows,
   .lookup (firstColumn F) [w 0 (-1)] rows,
   .lookup (firstColumn F) [w 0 (-1) * kk (2 ^ 10)] rows]

/-- `generate_message_scheduling_gates`, `selector_1` (698-708). -/
def schedGate (c : Cols) : List (Expr F) :=
  let w := fun (i r : ℤ) => (c.wv i r : Expr F)
  [w 0 0 + kk (2 ^ 32) * w 0 1 -
     (w 0 (-1) + w 1 (-1) + w 1 0 + w 2 0 * kk (2 ^ 8) + w 3 0 * kk (2 ^ 16) + w 4 0 * kk (2 ^ 24) + w 5 0 +
      w 6 0 * kk (2 ^ 8) + w 7 0 * kk (2 ^ 16) + w 8 0 * kk (2 ^ 24)),
   (w 0 1 - kk 3) * (w 0 1 - kk 2) * (w 0 1 - kk 1) * w 0 1]

/-- `generate_message_scheduling_gates`, `sigma1_check` (709-726). -/
def sigma1Check (c : Cols) (rows : List ℤ) : List (Op F) :=
  let w := fun (i r : ℤ) => (c.wv i r : Expr F)
  [.lookup (reverse4Table F) [w 5 0, w 5 1] rows, .lookup (reverse4Table F) [w 6 0, w 6 1] rows,
   .lookup (reverse4Table F) [w 7 0, w 7 1] rows, .lookup (reverse4Table F) [w 8 0, w 8 1] rows]

/-- `generate_Sigma0_gates`, constraints (768-789). -/
def bigSigma0Gate (c : Cols) : List (Expr F) :=
  let w := fun (i r : ℤ) => (c.wv i r : Expr F)
  [w 0 1 - (w 2 1 + w 3 1 * kk (2 ^ 2) + w 4 1 * kk (2 ^ 13) + w 5 1 * kk (2 ^ 22)),
   w 0 (-1) - (w 2 0 + w 3 0 * kk (2 ^ 4) + w 4 0 * kk (2 ^ 26) + w 5 0 * kk (2 ^ 44)),
   (w 2 1 - kk 3) * (w 2 1 - kk 2) * (w 2 1 - kk 1) * w 2 1,
   w 0 0 + w 1 0 * kk (2 ^ 16) + w 6 0 * kk (2 ^ 32) + w 7 0 * kk (2 ^ 48) -
     (w 2 0 * kk (2 ^ 38 + 2 ^ 20 + 2 ^ 60) + w 3 0 * kk (2 ^ 42 + 1 + 2 ^ 24) + w 4 0 * kk (2 ^ 22 + 2 ^ 46 + 1) +
      w 5 0 * kk (2 ^ 40 + 2 ^ 18 + 1)),
   kk 0 - w 2 (-1) + w 6 1 + w 7 1 * kk (2 ^ 14) + w 8 1 * kk (2 ^ 28)]

/-- `generate_Sigma0_gates`, lookups (791-862). -/
def bigSigma0Lookups (c : Cols) (rows : List ℤ) : List (Op F) :=
  let w := fun (i r : ℤ) => (c.wv i r : Expr F)
  [.lookup (firstColumn F) [w 3 1 * kk 8] rows,
   .lookup (sparseTable F 4) [w 2 1, w 2 0] rows,
   .lookup (firstColumn F) [w 4 1 * kk 32] rows,
   .lookup (sparseTable F 4) [w 3 1, w 3 0] rows,
   .lookup (firstColumn F) [w 5 1 * kk 16] rows,
   .lookup (sparseTable F 4) [w 4 1, w 4 0] rows,
   .lookup (sparseTable F 4) [w 5 1, w 5 0] rows,
   .lookup (reverse4Table F) [w 5 (-1), w 0 0] rows,
   .lookup (reverse4Table F) [w 6 (-1), w 1 0] rows,
   .lookup (reverse4Table F) [w 7 (-1), w 6 0] rows,
   .lookup (reverse4Table F) [w 8 (-1), w 7 0] rows,
   .lookup (firstColumn F) [w 6 1] rows,
   .lookup (firstColumn F) [w 7 1] rows,
   .lookup (firstColumn F) [w 8 1] rows,
   .lookup (firstColumn F) [w 8 1 * kk (2 ^ 10)] rows,
   .lookup (firstColumn F) [w 3 (-1)] rows,
   .lookup (firstColumn F) [w 3 (-1) * kk (2 ^ 8)] rows]

/-- `generate_Sigma1_gates`, constraints (895-911). -/
def bigSigma1Gate (c : Cols) : List (Expr F) :=
  let w := fun (i r : ℤ) => (c.wv i r : Expr F)
  [w 0 (-1) - (w 2 (-1) + w 3 (-1) * kk (2 ^ 6) + w 4 (-1) * kk (2 ^ 11) + w 5 (-1) * kk (2 ^ 25)),
   w 0 0 - (w 1 (-1) + w 2 0 * kk (7 ^ 6) + w 3 0 * kk (7 ^ 11) + w 4 0 * kk (7 ^ 25)),
   w 5 0 + w 6 (-1) * kk (7 ^ 8) + w 7 (-1) * kk (7 ^ 16) + w 8 (-1) * kk (7 ^ 24) -
     (w 2 0 * kk (7 ^ 27 + 7 ^ 13 + 1) + w 3 0 * kk (7 ^ 5 + 1 + 7 ^ 18) + w 4 0 * kk (7 ^ 19 + 7 ^ 14 + 1) +
      w 1 (-1) * kk (7 ^ 26 + 7 ^ 21 + 7 ^ 7))]

/-- `generate_Sigma1_gates`, lookups (913-959). The first one has `e_chunks[0][1]` where `e_chunks[0][0]` is meant. -/
def bigSigma1Lookups (c : Cols) (rows : List ℤ) : List (Op F) :=
  let w := fun (i r : ℤ) => (c.wv i r : Expr F)
  [.lookup (firstColumn F) [w 3 (-1) * kk 256] rows,
   .lookup (sparseTable F 7) [w 2 (-1), w 1 (-1)] rows,
   .lookup (firstColumn F) [w 3 (-1) * kk 512] rows,
   .lookup (sparseTable F 7) [w 3 (-1), w 2 0] rows,
   .lookup (firstColumn F) [w 5 (-1) * kk 128] rows,
   .lookup (sparseTable F 7) [w 4 (-1), w 3 0] rows,
   .lookup (sparseTable F 7) [w 5 (-1), w 4 0] rows,
   .lookup (reverse7Table F) [w 5 1, w 5 0] rows,
   .lookup (reverse7Table F) [w 6 1, w 6 (-1)] rows,
   .lookup (reverse7Table F) [w 7 1, w 7 (-1)] rows,
   .lookup (reverse7Table F) [w 8 1, w 8 (-1)] rows]

/-- `generate_Maj_gates`, constraint (975-979). -/
def majGate (c : Cols) : List (Expr F) :=
  let w := fun (i r : ℤ) => (c.wv i r : Expr F)
  [w 0 0 + w 1 0 * kk (2 ^ 16) + w 2 0 * kk (2 ^ 32) + w 3 0 * kk (2 ^ 48) - (w 0 1 + w 1 1 + w 4 1)]

/-- `generate_Maj_gates`, lookups (981-991). -/
def majLookups (p : ℕ) (c : Cols) (rows : List ℤ) : List (Op F) :=
  let w := fun (i r : ℤ) => (c.wv i r : Expr F)
  [.lookup (majTable F p) [w 5 0, w 0 0] rows, .lookup (majTable F p) [w 6 0, w 1 0] rows,
   .lookup (majTable F p) [w 7 0, w 2 0] rows, .lookup (majTable F p) [w 8 0, w 3 0] rows]

/-- `generate_Ch_gates`, constraints (1020-1029). -/
def chGate (c : Cols) : List (Expr F) :=
  let w := fun (i r : ℤ) => (c.wv i r : Expr F)
  [w 0 0 + w 1 0 * kk (7 ^ 8) + w 2 0 * kk (7 ^ 16) + w 3 0 * kk (7 ^ 24) - (w 0 (-1) + kk 2 * w 1 (-1) + kk 3 * w 0 1),
   kk 0 - w 4 1 + w 6 (-1) + w 7 (-1) * kk (2 ^ 14) + w 8 (-1) * kk (2 ^ 28)]

/-- `generate_Ch_gates`, lookups (1031-1063). There is none for the top limb times `2 ^ 10`. -/
def chLookups (p : ℕ) (c : Cols) (rows : List ℤ) : List (Op F) :=
  let w := fun (i r : ℤ) => (c.wv i r : Expr F)
  [.lookup (chTable F p) [w 5 1, w 0 0] rows, .lookup (chTable F p) [w 6 1, w 1 0] rows,
   .lookup (chTable F p) [w 7 1, w 2 0] rows, .lookup (chTable F p) [w 8 1, w 3 0] rows,
   .lookup (firstColumn F) [w 6 (-1)] rows, .lookup (firstColumn F) [w 7 (-1)] rows, .lookup (firstColumn F) [w 8 (-1)] rows,
   .lookup (firstColumn F) [w 4 0] rows, .lookup (firstColumn F) [w 4 0 * kk (2 ^ 9)] rows]

/-- `generate_compression_gates`, `selector_2` (1079-1091). -/
def eGate (c : Cols) : List (Expr F) :=
  let w := fun (i r : ℤ) => (c.wv i r : Expr F)
  [w 4 1 - (w 2 0 + w 5 (-1) + w 6 (-1) * kk (2 ^ 8) + w 7 (-1) * kk (2 ^ 16) + w 8 (-1) * kk (2 ^ 24) +
     w 5 0 + w 6 0 * kk (2 ^ 8) + w 7 0 * kk (2 ^ 16) + w 8 0 * kk (2 ^ 24) + .var ⟨c.k 0, 0, true, .constant⟩ + w 3 0),
   w 4 0 + kk (2 ^ 32) * w 4 (-1) - (w 1 0 + w 4 1),
   (w 4 (-1) - kk 5) * (w 4 (-1) - kk 4) * (w 4 (-1) - kk 3) * (w 4 (-1) - kk 2) * (w 4 (-1) - kk 1) * w 4 (-1)]

/-- `generate_compression_gates`, `selector_3` (1092-1102). -/
def aGate (c : Cols) : List (Expr F) :=
  let w := fun (i r : ℤ) => (c.wv i r : Expr F)
  [w 2 1 + kk (2 ^ 32) * w 3 1 - (w 4 0 + w 5 1 + w 6 1 * kk (2 ^ 8) + w 7 1 * kk (2 ^ 16) + w 8 1 * kk (2 ^ 24) +
     w 5 0 + w 6 0 * kk (2 ^ 8) + w 7 0 * kk (2 ^ 16) + w 8 0 * kk (2 ^ 24)),
   (w 3 1 - kk 6) * (w 3 1 - kk 5) * (w 3 1 - kk 4) * (w 3 1 - kk 3) * (w 3 1 - kk 2) * (w 3 1 - kk 1) * w 3 1]

/-- `generate_compression_gates`, `selector_6` (1106-1122). -/
def outGate (c : Cols) : List (Expr F) :=
  let w := fun (i r : ℤ) => (c.wv i r : Expr F)
  [w 0 1 + kk (2 ^ 32) * w 4 1 - (w 0 0 + w 4 0), w 1 1 + kk (2 ^ 32) * w 5 1 - (w 1 0 + w 5 0),
   w 2 1 + kk (2 ^ 32) * w 6 1 - (w 2 0 + w 6 0), w 3 1 + kk (2 ^ 32) * w 7 1 - (w 3 0 + w 7 0),
   w 4 1 * (w 4 1 - kk 1), w 5 1 * (w 5 1 - kk 1), w 6 1 * (w 6 1 - kk 1), w 7 1 * (w 7 1 - kk 1)]

/-- `generate_output_check_gates`, constraints (1144-1149). -/
def limbGate (c : Cols) : List (Expr F) :=
  let w := fun (i r : ℤ) => (c.wv i r : Expr F)
  [kk 0 - w 3 0 + w 0 0 + w 1 0 * kk (2 ^ 14) + w 2 0 * kk (2 ^ 28), kk 0 - w 7 0 + w 4 0 + w 5 0 * kk (2 ^ 14) + w 6 0 * kk (2 ^ 28)]

/-- `generate_output_check_gates`, lookups (1151-1172). -/
def limbLookups (c : Cols) (rows : List ℤ) : List (Op F) :=
  let w := fun (i r : ℤ) => (c.wv i r : Expr F)
  [.lookup (firstColumn F) [w 0 0] rows, .lookup (firstColumn F) [w 1 0] rows, .lookup (firstColumn F) [w 2 0] rows,
   .lookup (firstColumn F) [w 2 0 * kk (2 ^ 10)] rows,
   .lookup (firstColumn F) [w 4 0] rows, .lookup (firstColumn F) [w 5 0] rows, .lookup (firstColumn F) [w 6 0] rows,
   .lookup (firstColumn F) [w 6 0 * kk (2 ^ 10)] rows]

/-- `generate_copy_constraints`, message schedule (1214-1254). -/
def schedCopies (c : Cols) (inp : In) (srow : ℤ) : List (Op F) :=
  let row := srow + 2
  ((List.range 15).map fun (i : ℕ) => Op.copy (c.wa 0 (row + 5 * (i : ℤ))) (inp.words (i + 1))) ++
  ((List.range 7).map fun (i : ℕ) => Op.copy (c.wa 0 (row + 5 * (i : ℤ) + 1)) (inp.words (i + 9))) ++
  ((List.range 16).map fun (i : ℕ) => Op.copy (c.wa 1 (row + 5 * (i : ℤ) + 1)) (inp.words i)) ++
  ((List.range 2).map fun (i : ℕ) => Op.copy (c.wa 0 (row + 5 * (i : ℤ) + 4)) (inp.words (i + 14))) ++
  (List.range 48).flatMap fun (r : ℕ) =>
    (if 2 ≤ r then [Op.copy (c.wa 0 (row + 5 * (r : ℤ) + 4)) (c.wa 0 (row + 5 * ((r : ℤ) - 2) + 2))] else []) ++
    (if 7 ≤ r then [Op.copy (c.wa 0 (row + 5 * (r : ℤ) + 1)) (c.wa 0 (row + 5 * ((r : ℤ) - 7) + 2))] else []) ++
    (if 15 ≤ r then [Op.copy (c.wa 0 (row + 5 * (r : ℤ))) (c.wa 0 (row + 5 * ((r : ℤ) - 15) + 2))] else []) ++
    (if 16 ≤ r then [Op.copy (c.wa 1 (row + 5 * (r : ℤ) + 1)) (c.wa 0 (row + 5 * ((r : ℤ) - 16) + 2))] else []) ++
    [Op.copy (c.wa 0 (row + 5 * (r : ℤ) + 2)) (c.wa 8 (row + 5 * (r : ℤ) + 4))]

/-- `generate_copy_constraints`, rounds (1255-1275); here `r + 1` is the code's `round`. -/
def roundCopies (c : Cols) (srow : ℤ) : List (Op F) :=
  let row := srow + 242
  (List.range 63).flatMap fun (r : ℕ) =>
    [Op.copy (c.wa 0 (row + 8 * ((r : ℤ) + 1))) (c.wa 4 (row + 8 * (r : ℤ) + 3)),
     Op.copy (c.wa 0 (row + 8 * ((r : ℤ) + 1) + 7)) (c.wa 2 (row + 8 * (r : ℤ) + 5)),
     Op.copy (c.wa 1 (row + 8 * ((r : ℤ) + 1) + 5)) (c.wa 0 (row + 8 * (r : ℤ) + 5)),
     Op.copy (c.wa 4 (row + 8 * ((r : ℤ) + 1) + 5)) (c.wa 1 (row + 8 * (r : ℤ) + 5)),
     Op.copy (c.wa 1 (row + 8 * ((r : ℤ) + 1) + 1)) (c.wa 0 (row + 8 * (r : ℤ) + 1)),
     Op.copy (c.wa 0 (row + 8 * ((r : ℤ) + 1) + 3)) (c.wa 1 (row + 8 * (r : ℤ) + 1))]

/-- `generate_copy_constraints`, output (1277-1300). -/
def outCopies (c : Cols) (inp : In) (srow : ℤ) : List (Op F) :=
  let row := srow + 754
  [Op.copy (c.wa 0 (row - 1)) (c.wa 5 row), Op.copy (c.wa 0 (row - 9)) (c.wa 6 row), Op.copy (c.wa 0 (row - 17)) (c.wa 7 row),
   Op.copy (c.wa 0 (row - 8)) (c.wa 5 (row + 2)), Op.copy (c.wa 0 (row - 16)) (c.wa 6 (row + 2)),
   Op.copy (c.wa 0 (row - 24)) (c.wa 7 (row + 2))] ++
  ((List.range 4).flatMap fun (i : ℕ) =>
    [Op.copy (c.wa (i : ℤ) row) (inp.state i), Op.copy (c.wa (i : ℤ) (row + 2)) (inp.state (i + 4))]) ++
  [Op.copy (c.wa 4 row) (c.wa 3 (row + 4)), Op.copy (c.wa 5 row) (c.wa 7 (row + 4)),
   Op.copy (c.wa 6 row) (c.wa 3 (row + 5)), Op.copy (c.wa 7 row) (c.wa 7 (row + 5)),
   Op.copy (c.wa 4 (row + 2)) (c.wa 3 (row + 6)), Op.copy (c.wa 5 (row + 2)) (c.wa 7 (row + 6)),
   Op.copy (c.wa 6 (row + 2)) (c.wa 3 (row + 7)), Op.copy (c.wa 7 (row + 2)) (c.wa 7 (row + 7))]

/-- The selectors and lookups of the schedule (1316-1326). -/
def schedOps (c : Cols) (srow : ℤ) : List (Op F) :=
  let j := srow + 2
  [.gate (sigma0Gate c) (rowsBetween (j + 1) (j + 239) 5)] ++ sigma0Lookups c (rowsBetween (j + 1) (j + 239) 5) ++
  [.gate (schedGate c) (rowsBetween (j + 2) (j + 239) 5)] ++ sigma1Check c (rowsBetween (j + 2) (j + 239) 5) ++
  [.gate (sigma1Gate c) (rowsBetween (j + 4) (j + 239) 5)] ++ sigma1Lookups c (rowsBetween (j + 4) (j + 239) 5)

/-- The selectors and lookups of the rounds (1328-1339) and the constants (455-470). -/
def roundOps (p : ℕ) (c : Cols) (srow : ℤ) : List (Op F) :=
  let j := srow + 242
  ((List.range 64).map fun (i : ℕ) => Op.constant (c.k 0) (srow + 242 + 3 + 8 * (i : ℤ)) ((roundConstant.getD i 0 : ℕ) : F)) ++
  [.gate (bigSigma1Gate c) (rowsBetween (j + 1) (j + 511) 8)] ++ bigSigma1Lookups c (rowsBetween (j + 1) (j + 511) 8) ++
  [.gate (bigSigma0Gate c) (rowsBetween (j + 6) (j + 511) 8)] ++ bigSigma0Lookups c (rowsBetween (j + 6) (j + 511) 8) ++
  [.gate (eGate c) (rowsBetween (j + 3) (j + 511) 8), .gate (aGate c) (rowsBetween (j + 4) (j + 511) 8),
   .gate (majGate c) (rowsBetween (j + 4) (j + 511) 8)] ++ majLookups p c (rowsBetween (j + 4) (j + 511) 8) ++
  [.gate (chGate c) (rowsBetween (j + 2) (j + 511) 8)] ++ chLookups p c (rowsBetween (j + 2) (j + 511) 8)

/-- The selectors and lookups of the output (1341-1346). -/
def outOps (c : Cols) (srow : ℤ) : List (Op F) :=
  let j := srow + 754
  [.gate (outGate c) (rowsBetween j (j + 2) 2), .gate (limbGate c) (rowsBetween (j + 4) (j + 7) 1)] ++
  limbLookups c (rowsBetween (j + 4) (j + 7) 1)

/-- `generate_circuit` (1303-1351). `p` is the modulus used when the tables were generated. -/
def circuit (p : ℕ) (c : Cols) (inp : In) (srow : ℤ) : List (Op F) :=
  schedOps c srow ++ roundOps p c srow ++ outOps c srow ++ schedCopies c inp srow ++ roundCopies c srow ++ outCopies c inp srow

end

end Sha256
end Verif
