import Verif.Model.Sha256

/-!
# `sha512_process` (`components/hashes/sha2/plonk/sha512_process.hpp`)

Nine witness columns, one constant column, 1110 rows: two rows with the input state, 64 blocks of six rows for the message
schedule, 80 blocks of nine rows for the rounds, four rows for the output. There are no lookups. The functions of
`detail/split_functions.hpp` are those of `Verif.Model.Sha256`.

`integral_type` is modelled by natural numbers: all integers that occur fit its width (at most 181 bits).
-/

namespace Verif
namespace Sha512

open Sha256 (split bits revSparse revBin parity majVal chVal inBounds kk)

/-! ## The values computed by `generate_assignments` -/

/-- `sigma_sizes`, `ch_and_maj_sizes` (496-497). -/
def sSizes : List ℕ := [14, 14, 14, 14, 8]
@[inherit_doc sSizes] def qSizes : List ℕ := [16, 16, 16, 16]

/-- `round_constant` (91-116). -/
def roundConstant : List ℕ :=
  [0x428a2f98d728ae22, 0x7137449123ef65cd, 0xb5c0fbcfec4d3b2f, 0xe9b5dba58189dbbc, 0x3956c25bf348b538, 0x59f111f1b605d019,
   0x923f82a4af194f9b, 0xab1c5ed5da6d8118, 0xd807aa98a3030242, 0x12835b0145706fbe, 0x243185be4ee4b28c, 0x550c7dc3d5ffb4e2,
   0x72be5d74f27b896f, 0x80deb1fe3b1696b1, 0x9bdc06a725c71235, 0xc19bf174cf692694, 0xe49b69c19ef14ad2, 0xefbe4786384f25e3,
   0x0fc19dc68b8cd5b5, 0x240ca1cc77ac9c65, 0x2de92c6f592b0275, 0x4a7484aa6ea6e483, 0x5cb0a9dcbd41fbd4, 0x76f988da831153b5,
   0x983e5152ee66dfab, 0xa831c66d2db43210, 0xb00327c898fb213f, 0xbf597fc7beef0ee4, 0xc6e00bf33da88fc2, 0xd5a79147930aa725,
   0x06ca6351e003826f, 0x142929670a0e6e70, 0x27b70a8546d22ffc, 0x2e1b21385c26c926, 0x4d2c6dfc5ac42aed, 0x53380d139d95b3df,
   0x650a73548baf63de, 0x766a0abb3c77b2a8, 0x81c2c92e47edaee6, 0x92722c851482353b, 0xa2bfe8a14cf10364, 0xa81a664bbc423001,
   0xc24b8b70d0f89791, 0xc76c51a30654be30, 0xd192e819d6ef5218, 0xd69906245565a910, 0xf40e35855771202a, 0x106aa07032bbd1b8,
   0x19a4c116b8d2d0c8, 0x1e376c085141ab53, 0x2748774cdf8eeb99, 0x34b0bcb5e19b48a8, 0x391c0cb3c5c95a63, 0x4ed8aa4ae3418acb,
   0x5b9cca4f7763e373, 0x682e6ff3d6b2b8a3, 0x748f82ee5defb2fc, 0x78a5636f43172f60, 0x84c87814a1f0ab72, 0x8cc702081a6439ec,
   0x90befffa23631e28, 0xa4506cebde82bde9, 0xbef9a3f7b2c67915, 0xc67178f2e372532b, 0xca273eceea26619c, 0xd186b8c721c0c207,
   0xeada7dd6cde0eb1e, 0xf57d4f7fee6ed178, 0x06f067aa72176fba, 0x0a637dc5a2c898a6, 0x113f9804bef90dae, 0x1b710b35131c471b,
   0x28db77f523047d84, 0x32caab7b40c72493, 0x3c9ebe0a15c9bebc, 0x431d67c49c100d4c, 0x4cc5d4becb3e42b6, 0x597f299cfc657e2a,
   0x5fcb6fab3ad6faec, 0x6c44198c4a475817]

section
variable {p : ℕ}

/-- `round_constant[i]` as a field element. -/
def kc (p i : ℕ) : ZMod p := (roundConstant.getD i 0 : ℕ)

/-- The 64 bits of a field element (507-512 and others). -/
def word (x : ZMod p) : List Bool := bits 64 x.val

/-- `typename BlueprintFieldType::value_type(2).pow(64).data` (618-619). -/
def m64 (p : ℕ) : ℕ := ((2 : ZMod p) ^ 64).val

/-- `a_sizes` (514), `b_sizes` (568), `e_sizes` (635), `a_sizes` (738). -/
def s0Sizes : List ℕ := [1, 6, 1, 14, 14, 14, 14]
@[inherit_doc s0Sizes] def s1Sizes : List ℕ := [6, 13, 14, 14, 14, 3]
@[inherit_doc s0Sizes] def eSizes : List ℕ := [14, 4, 14, 9, 14, 9]
@[inherit_doc s0Sizes] def aSizes : List ℕ := [14, 14, 6, 5, 14, 11]

/-- `sparse_sigma0` (532-539). -/
def sparseSigma0 (a : ZMod p) : ℕ :=
  let c := split 4 s0Sizes (word a)
  c 0 * (2 ^ 126 + 2 ^ 112) + c 1 * (1 + 2 ^ 114) + c 2 * (2 ^ 12 + 2 ^ 126 + 1) + c 3 * (2 ^ 14 + 1 + 2 ^ 2) +
    c 4 * (2 ^ 42 + 2 ^ 28 + 2 ^ 30) + c 5 * (2 ^ 70 + 2 ^ 56 + 2 ^ 58) + c 6 * (2 ^ 98 + 2 ^ 84 + 2 ^ 86)

/-- `sparse_sigma1` (587-593). -/
def sparseSigma1 (b : ZMod p) : ℕ :=
  let c := split 4 s1Sizes (word b)
  c 0 * (2 ^ 90 + 2 ^ 6) + c 1 * (2 ^ 102 + 2 ^ 18 + 1) + c 2 * (1 + 2 ^ 44 + 2 ^ 26) + c 3 * (2 ^ 28 + 2 ^ 72 + 2 ^ 54) +
    c 4 * (2 ^ 56 + 2 ^ 100 + 2 ^ 82) + c 5 * (2 ^ 84 + 1 + 2 ^ 110)

/-- `sum` (610-615), from the words with the offsets 1, 14, 9 and 0. -/
def schedSum (w1 w14 w9 w0 : ZMod p) : ZMod p :=
  let u := revBin p parity 4 sSizes (sparseSigma1 w14)
  let v := revBin p parity 4 sSizes (sparseSigma0 w1)
  w9 + w0 + (u 0 : ZMod p) + (v 0 : ZMod p) + ((2 ^ 14 * (u 1 + v 1) : ℕ) : ZMod p) + ((2 ^ 28 * (u 2 + v 2) : ℕ) : ZMod p) +
    ((2 ^ 42 * (u 3 + v 3) : ℕ) : ZMod p) + ((2 ^ 56 * (u 4 + v 4) : ℕ) : ZMod p)

/-- `message_scheduling_words[… + 16]` (616-618). -/
def schedWord (w1 w14 w9 w0 : ZMod p) : ZMod p := (((schedSum w1 w14 w9 w0).val % m64 p : ℕ) : ZMod p)

/-- `message_scheduling_words` (445-448, 502-622). -/
def sched (ws : ℕ → ZMod p) (n : ℕ) : ZMod p :=
  if n < 16 then ws n else schedWord (sched ws (n - 15)) (sched ws (n - 2)) (sched ws (n - 7)) (sched ws (n - 16))
  termination_by n

/-- `sparse_values[4]` (684-689). -/
def sparseE (e : ZMod p) : ℕ :=
  let c := split 7 eSizes (word e)
  ((c 0 : ZMod p) + (c 1 : ZMod p) * 7 ^ 14 + (c 2 : ZMod p) * 7 ^ (14 + 4) + (c 3 : ZMod p) * 7 ^ (14 + 4 + 14) +
    (c 4 : ZMod p) * 7 ^ (14 + 4 + 14 + 9) + (c 5 : ZMod p) * 7 ^ (14 + 4 + 14 + 9 + 14)).val

/-- `sparse_Sigma1` (653-661). -/
def sparseBigSigma1 (e : ZMod p) : ℕ :=
  let c := split 7 eSizes (word e)
  ((c 0 : ZMod p) * (7 ^ 50 + 7 ^ 46 + 7 ^ 23) + (c 1 : ZMod p) * (1 + 7 ^ 60 + 7 ^ 37) + (c 2 : ZMod p) * (7 ^ 4 + 1 + 7 ^ 41) +
    (c 3 : ZMod p) * (7 ^ 18 + 7 ^ 14 + 7 ^ 55) + (c 4 : ZMod p) * (7 ^ 27 + 7 ^ 23 + 1) + (c 5 : ZMod p) * (7 ^ 41 + 7 ^ 37 + 7 ^ 14)).val

/-- `sparse_values[0]` (785-791). -/
def sparseA (a : ZMod p) : ℕ :=
  let c := split 4 aSizes (word a)
  ((c 0 : ZMod p) + (c 1 : ZMod p) * 4 ^ 14 + (c 2 : ZMod p) * 4 ^ (14 + 14) + (c 3 : ZMod p) * 4 ^ (14 + 14 + 6) +
    (c 4 : ZMod p) * 4 ^ (14 + 14 + 6 + 5) + (c 5 : ZMod p) * 4 ^ (14 + 14 + 6 + 5 + 14)).val

/-- `sparse_Sigma0` (756-762). -/
def sparseBigSigma0 (a : ZMod p) : ℕ :=
  let c := split 4 aSizes (word a)
  c 0 * (2 ^ 72 + 2 ^ 60 + 2 ^ 50) + c 1 * (2 ^ 100 + 2 ^ 88 + 2 ^ 78) + c 2 * (1 + 2 ^ 116 + 2 ^ 106) + c 3 * (2 ^ 12 + 1 + 2 ^ 118) +
    c 4 * (2 ^ 22 + 2 ^ 10 + 1) + c 5 * (2 ^ 50 + 2 ^ 38 + 2 ^ 28)

/-- The five chunks of 14 bits put together (677-681, 779-783). -/
def joinS (f : ℕ → ℕ) : ℕ := f 0 + f 1 * 2 ^ 14 + f 2 * 2 ^ 28 + f 3 * 2 ^ 42 + f 4 * 2 ^ 56
/-- The four chunks of 16 bits put together (714-716, 810-812). -/
def joinQ (f : ℕ → ℕ) : ℕ := f 0 + f 1 * 2 ^ 16 + f 2 * 2 ^ 32 + f 3 * 2 ^ 48

/-- The variables of the loop over the rounds (449-456) and `sparse_values[1]`, `[2]`, `[5]`, `[6]`; `[0]` and `[4]` are
computed from `a` and `e`, `[3]` and `[7]` are never read. -/
@[ext] structure Work (p : ℕ) where
  a : ZMod p
  b : ZMod p
  c : ZMod p
  d : ZMod p
  e : ZMod p
  f : ZMod p
  g : ZMod p
  h : ZMod p
  v1 : ℕ
  v2 : ℕ
  v5 : ℕ
  v6 : ℕ

/-- `sparse_ch` (693-694). -/
def Work.sparseCh (s : Work p) : ℕ := sparseE s.e + 2 * s.v5 + 3 * s.v6
/-- `sparse_maj` (794-795). -/
def Work.sparseMaj (s : Work p) : ℕ := sparseA s.a + s.v1 + s.v2

/-- `tmp1` (718-720). -/
def Work.tmp1 (s : Work p) (k w : ZMod p) : ZMod p :=
  s.h + (joinS (revBin p parity 7 sSizes (sparseBigSigma1 s.e)) : ZMod p) + (joinQ (revBin p chVal 7 qSizes s.sparseCh) : ZMod p) + k + w

/-- `sum`, `e_new` (721-723). -/
def Work.eSum (s : Work p) (k w : ZMod p) : ZMod p := s.tmp1 k w + s.d
@[inherit_doc Work.eSum] def Work.eNew (s : Work p) (k w : ZMod p) : ZMod p := (((s.eSum k w).val % m64 p : ℕ) : ZMod p)

/-- `sum1`, `a_new` (814-816). -/
def Work.aSum (s : Work p) (k w : ZMod p) : ZMod p :=
  s.tmp1 k w + (joinS (revBin p parity 4 sSizes (sparseBigSigma0 s.a)) : ZMod p) + (joinQ (revBin p majVal 4 qSizes s.sparseMaj) : ZMod p)
@[inherit_doc Work.aSum] def Work.aNew (s : Work p) (k w : ZMod p) : ZMod p := (((s.aSum k w).val % m64 p : ℕ) : ZMod p)

/-- One pass of the loop (624-833). -/
def Work.step (s : Work p) (k w : ZMod p) : Work p :=
  ⟨s.aNew k w, s.a, s.b, s.c, s.eNew k w, s.e, s.f, s.g, sparseA s.a, s.v1, sparseE s.e, s.v5⟩

/-- Before the loop (449-494). -/
def Work.init (st : ℕ → ZMod p) : Work p :=
  ⟨st 0, st 1, st 2, st 3, st 4, st 5, st 6, st 7, split 4 [64] (word (st 1)) 0, split 4 [64] (word (st 2)) 0,
    split 7 [64] (word (st 5)) 0, split 7 [64] (word (st 6)) 0⟩

/-- After `n` rounds with the words `w`. -/
def Work.run (s : Work p) (w : ℕ → ZMod p) : ℕ → Work p
  | 0 => s
  | n + 1 => (s.run w n).step (kc p n) (w n)

/-- `output_state[i]` (834). -/
def Work.get (s : Work p) : ℕ → ZMod p
  | 0 => s.a
  | 1 => s.b
  | 2 => s.c
  | 3 => s.d
  | 4 => s.e
  | 5 => s.f
  | 6 => s.g
  | _ => s.h

/-- All accesses of `r_values` (`split_functions.hpp:126,157`) in `generate_assignments` are within bounds. -/
def inRange (st ws : ℕ → ZMod p) : Bool :=
  let u := fun n => (Work.init st).run (sched ws) n
  (List.range 80).all fun n => inBounds p 7 qSizes (u n).sparseCh 7 && inBounds p 4 qSizes (u n).sparseMaj 4

/-! ## The cells -/

/-- Block of the schedule with the words `w` of offsets `0`, `1`, `9`, `14` (502-622): row `m`, column `j`. -/
def schedCell (w0 w1 w9 w14 : ZMod p) (m j : ℕ) : ZMod p :=
  let new := schedWord w1 w14 w9 w0
  match m, j with
  | 0, 0 => w1
  | 0, 1 => (split 2 s0Sizes (word w1) 0 : ZMod p)
  | 0, 2 => (split 2 s0Sizes (word w1) 1 : ZMod p)
  | 0, 3 => (split 2 s0Sizes (word w1) 2 : ZMod p)
  | 0, 4 => (split 2 s0Sizes (word w1) 3 : ZMod p)
  | 0, 5 => (split 2 s0Sizes (word w1) 4 : ZMod p)
  | 0, 6 => (split 2 s0Sizes (word w1) 5 : ZMod p)
  | 0, 7 => (split 2 s0Sizes (word w1) 6 : ZMod p)
  | 0, 8 => (split 4 s0Sizes (word w1) 0 : ZMod p)
  | 1, 0 => (split 4 s0Sizes (word w1) 1 : ZMod p)
  | 1, 1 => (split 4 s0Sizes (word w1) 2 : ZMod p)
  | 1, 2 => (split 4 s0Sizes (word w1) 3 : ZMod p)
  | 1, 3 => (split 4 s0Sizes (word w1) 4 : ZMod p)
  | 1, 4 => (split 4 s0Sizes (word w1) 5 : ZMod p)
  | 1, 5 => (split 4 s0Sizes (word w1) 6 : ZMod p)
  | 1, 6 => (revSparse p 4 sSizes (sparseSigma0 w1) 0 : ZMod p)
  | 1, 7 => (revSparse p 4 sSizes (sparseSigma0 w1) 1 : ZMod p)
  | 1, 8 => (revSparse p 4 sSizes (sparseSigma0 w1) 2 : ZMod p)
  | 2, 0 => (revSparse p 4 sSizes (sparseSigma0 w1) 3 : ZMod p)
  | 2, 1 => (revSparse p 4 sSizes (sparseSigma0 w1) 4 : ZMod p)
  | 2, 2 => (revBin p parity 4 sSizes (sparseSigma0 w1) 0 : ZMod p)
  | 2, 3 => (revBin p parity 4 sSizes (sparseSigma0 w1) 1 : ZMod p)
  | 2, 4 => (revBin p parity 4 sSizes (sparseSigma0 w1) 2 : ZMod p)
  | 2, 5 => (revBin p parity 4 sSizes (sparseSigma0 w1) 3 : ZMod p)
  | 2, 6 => (revBin p parity 4 sSizes (sparseSigma0 w1) 4 : ZMod p)
  | 2, 7 => w9
  | 2, 8 => w0
  | 3, 0 => (revBin p parity 4 sSizes (sparseSigma1 w14) 0 : ZMod p)
  | 3, 1 => (revBin p parity 4 sSizes (sparseSigma1 w14) 1 : ZMod p)
  | 3, 2 => (revBin p parity 4 sSizes (sparseSigma1 w14) 2 : ZMod p)
  | 3, 3 => (revBin p parity 4 sSizes (sparseSigma1 w14) 3 : ZMod p)
  | 3, 4 => (revBin p parity 4 sSizes (sparseSigma1 w14) 4 : ZMod p)
  | 3, 5 => new
  | 3, 6 => (schedSum w1 w14 w9 w0 - new) * ((2 : ZMod p) ^ 64)⁻¹
  | 4, 0 => (split 4 s1Sizes (word w14) 2 : ZMod p)
  | 4, 1 => (split 4 s1Sizes (word w14) 3 : ZMod p)
  | 4, 2 => (split 4 s1Sizes (word w14) 4 : ZMod p)
  | 4, 3 => (split 4 s1Sizes (word w14) 5 : ZMod p)
  | 4, 4 => (revSparse p 4 sSizes (sparseSigma1 w14) 0 : ZMod p)
  | 4, 5 => (revSparse p 4 sSizes (sparseSigma1 w14) 1 : ZMod p)
  | 4, 6 => (revSparse p 4 sSizes (sparseSigma1 w14) 2 : ZMod p)
  | 4, 7 => (revSparse p 4 sSizes (sparseSigma1 w14) 3 : ZMod p)
  | 4, 8 => (revSparse p 4 sSizes (sparseSigma1 w14) 4 : ZMod p)
  | 5, 0 => w14
  | 5, 1 => (split 2 s1Sizes (word w14) 0 : ZMod p)
  | 5, 2 => (split 2 s1Sizes (word w14) 1 : ZMod p)
  | 5, 3 => (split 2 s1Sizes (word w14) 2 : ZMod p)
  | 5, 4 => (split 2 s1Sizes (word w14) 3 : ZMod p)
  | 5, 5 => (split 2 s1Sizes (word w14) 4 : ZMod p)
  | 5, 6 => (split 2 s1Sizes (word w14) 5 : ZMod p)
  | 5, 7 => (split 4 s1Sizes (word w14) 0 : ZMod p)
  | 5, 8 => (split 4 s1Sizes (word w14) 1 : ZMod p)
  | _, _ => 0

/-- Block of one round with variables `s`, constant `k` and word `w` (624-818): row `m`, column `j`. -/
def roundCell (s : Work p) (k w : ZMod p) (m j : ℕ) : ZMod p :=
  match m, j with
  | 0, 0 => s.e
  | 0, 1 => (split 2 eSizes (word s.e) 0 : ZMod p)
  | 0, 2 => (split 2 eSizes (word s.e) 1 : ZMod p)
  | 0, 3 => (split 2 eSizes (word s.e) 2 : ZMod p)
  | 0, 4 => (split 2 eSizes (word s.e) 3 : ZMod p)
  | 0, 5 => (split 2 eSizes (word s.e) 4 : ZMod p)
  | 0, 6 => (split 2 eSizes (word s.e) 5 : ZMod p)
  | 0, 7 => (split 7 eSizes (word s.e) 0 : ZMod p)
  | 0, 8 => (split 7 eSizes (word s.e) 1 : ZMod p)
  | 1, 0 => (split 7 eSizes (word s.e) 2 : ZMod p)
  | 1, 1 => (split 7 eSizes (word s.e) 3 : ZMod p)
  | 1, 2 => (split 7 eSizes (word s.e) 4 : ZMod p)
  | 1, 3 => (split 7 eSizes (word s.e) 5 : ZMod p)
  | 1, 4 => (revSparse p 7 sSizes (sparseBigSigma1 s.e) 0 : ZMod p)
  | 1, 5 => (revSparse p 7 sSizes (sparseBigSigma1 s.e) 1 : ZMod p)
  | 1, 6 => (revSparse p 7 sSizes (sparseBigSigma1 s.e) 2 : ZMod p)
  | 1, 7 => (revSparse p 7 sSizes (sparseBigSigma1 s.e) 3 : ZMod p)
  | 1, 8 => (revSparse p 7 sSizes (sparseBigSigma1 s.e) 4 : ZMod p)
  | 2, 0 => (revBin p parity 7 sSizes (sparseBigSigma1 s.e) 0 : ZMod p)
  | 2, 1 => (revBin p parity 7 sSizes (sparseBigSigma1 s.e) 1 : ZMod p)
  | 2, 2 => (revBin p parity 7 sSizes (sparseBigSigma1 s.e) 2 : ZMod p)
  | 2, 3 => (revBin p parity 7 sSizes (sparseBigSigma1 s.e) 3 : ZMod p)
  | 2, 4 => (revBin p parity 7 sSizes (sparseBigSigma1 s.e) 4 : ZMod p)
  | 2, 5 => (sparseE s.e : ZMod p)
  | 2, 6 => (s.v5 : ZMod p)
  | 2, 7 => (revSparse p 7 qSizes s.sparseCh 0 : ZMod p)
  | 2, 8 => (revSparse p 7 qSizes s.sparseCh 1 : ZMod p)
  | 3, 0 => (revSparse p 7 qSizes s.sparseCh 2 : ZMod p)
  | 3, 1 => (revSparse p 7 qSizes s.sparseCh 3 : ZMod p)
  | 3, 2 => (revBin p chVal 7 qSizes s.sparseCh 0 : ZMod p)
  | 3, 3 => (revBin p chVal 7 qSizes s.sparseCh 1 : ZMod p)
  | 3, 4 => (revBin p chVal 7 qSizes s.sparseCh 2 : ZMod p)
  | 3, 5 => (revBin p chVal 7 qSizes s.sparseCh 3 : ZMod p)
  | 3, 6 => (s.v6 : ZMod p)
  | 3, 7 => s.d
  | 3, 8 => s.h
  | 4, 0 => w
  | 4, 1 => s.tmp1 k w
  | 4, 2 => s.eNew k w
  | 4, 3 => (s.eSum k w - s.eNew k w) * ((((2 : ZMod p) ^ 64)⁻¹.val : ℕ) : ZMod p)
  | 5, 0 => (revSparse p 4 qSizes s.sparseMaj 2 : ZMod p)
  | 5, 1 => (revSparse p 4 qSizes s.sparseMaj 3 : ZMod p)
  | 5, 2 => (revBin p majVal 4 qSizes s.sparseMaj 0 : ZMod p)
  | 5, 3 => (revBin p majVal 4 qSizes s.sparseMaj 1 : ZMod p)
  | 5, 4 => (revBin p majVal 4 qSizes s.sparseMaj 2 : ZMod p)
  | 5, 5 => (revBin p majVal 4 qSizes s.sparseMaj 3 : ZMod p)
  | 5, 6 => (s.v2 : ZMod p)
  | 5, 7 => s.aNew k w
  | 5, 8 => (s.aSum k w - s.aNew k w) * ((2 : ZMod p) ^ 64)⁻¹
  | 6, 0 => (revBin p parity 4 sSizes (sparseBigSigma0 s.a) 0 : ZMod p)
  | 6, 1 => (revBin p parity 4 sSizes (sparseBigSigma0 s.a) 1 : ZMod p)
  | 6, 2 => (revBin p parity 4 sSizes (sparseBigSigma0 s.a) 2 : ZMod p)
  | 6, 3 => (revBin p parity 4 sSizes (sparseBigSigma0 s.a) 3 : ZMod p)
  | 6, 4 => (revBin p parity 4 sSizes (sparseBigSigma0 s.a) 4 : ZMod p)
  | 6, 5 => (sparseA s.a : ZMod p)
  | 6, 6 => (s.v1 : ZMod p)
  | 6, 7 => (revSparse p 4 qSizes s.sparseMaj 0 : ZMod p)
  | 6, 8 => (revSparse p 4 qSizes s.sparseMaj 1 : ZMod p)
  | 7, 0 => (split 4 aSizes (word s.a) 2 : ZMod p)
  | 7, 1 => (split 4 aSizes (word s.a) 3 : ZMod p)
  | 7, 2 => (split 4 aSizes (word s.a) 4 : ZMod p)
  | 7, 3 => (split 4 aSizes (word s.a) 5 : ZMod p)
  | 7, 4 => (revSparse p 4 sSizes (sparseBigSigma0 s.a) 0 : ZMod p)
  | 7, 5 => (revSparse p 4 sSizes (sparseBigSigma0 s.a) 1 : ZMod p)
  | 7, 6 => (revSparse p 4 sSizes (sparseBigSigma0 s.a) 2 : ZMod p)
  | 7, 7 => (revSparse p 4 sSizes (sparseBigSigma0 s.a) 3 : ZMod p)
  | 7, 8 => (revSparse p 4 sSizes (sparseBigSigma0 s.a) 4 : ZMod p)
  | 8, 0 => s.a
  | 8, 1 => (split 2 aSizes (word s.a) 0 : ZMod p)
  | 8, 2 => (split 2 aSizes (word s.a) 1 : ZMod p)
  | 8, 3 => (split 2 aSizes (word s.a) 2 : ZMod p)
  | 8, 4 => (split 2 aSizes (word s.a) 3 : ZMod p)
  | 8, 5 => (split 2 aSizes (word s.a) 4 : ZMod p)
  | 8, 6 => (split 2 aSizes (word s.a) 5 : ZMod p)
  | 8, 7 => (split 4 aSizes (word s.a) 0 : ZMod p)
  | 8, 8 => (split 4 aSizes (word s.a) 1 : ZMod p)
  | _, _ => 0

/-- The last four rows (835-857), from the input state and the state after the rounds. -/
def outCell (st out : ℕ → ZMod p) (m j : ℕ) : ZMod p :=
  let sum := fun (i : ℕ) => (st i).val + (out i).val
  match m with
  | 0 => if j < 4 then st j else out (j - 4)
  | 1 => if j < 4 then ((sum j % m64 p : ℕ) : ZMod p) else (((sum (j - 4) - sum (j - 4) % m64 p) / m64 p : ℕ) : ZMod p)
  | 2 => if j < 4 then st (j + 4) else out j
  | _ => if j < 4 then ((sum (j + 4) % m64 p : ℕ) : ZMod p) else (((sum j - sum j % m64 p) / m64 p : ℕ) : ZMod p)

/-- The first two rows (459-494): the input state and its sparse form. -/
def inCell (st : ℕ → ZMod p) (m j : ℕ) : ZMod p :=
  match m with
  | 0 => st j
  | _ => if j < 4 then (split 4 [64] (word (st j)) 0 : ZMod p) else (split 7 [64] (word (st j)) 0 : ZMod p)

/-- The rows of the whole component (429-860). -/
def gridCell (st : ℕ → ZMod p) (w : ℕ → ZMod p) (r j : ℕ) : ZMod p :=
  if r < 2 then inCell st r j
  else if r < 386 then
    let n := (r - 2) / 6
    schedCell (w n) (w (n + 1)) (w (n + 9)) (w (n + 14)) ((r - 2) % 6) j
  else if r < 1106 then
    let n := (r - 386) / 9
    roundCell ((Work.init st).run w n) (kc p n) (w n) ((r - 386) % 9) j
  else outCell st (fun i => ((Work.init st).run w 80).get i) (r - 1106) j

/-- The cells written. -/
def written (r j : ℕ) : Bool :=
  if r < 2 then j < 8
  else if r < 386 then ((r - 2) % 6 ≠ 3 ∨ j < 7)
  else if r < 1106 then ((r - 386) % 9 ≠ 4 ∨ j < 4)
  else j < 8

/-- Their list. -/
def positions : List (ℕ × ℕ) := ((List.range 1110).flatMap fun r => (List.range 9).map fun j => (r, j)).filter fun q => written q.1 q.2

/-- `input_type` (121-123). -/
structure In where
  state : ℕ → Var
  words : ℕ → Var

/-- Writing a grid of cells. -/
def fill {F : Type*} (c : Cols) (srow : ℤ) (g : ℕ → ℕ → F) (t : Table F) : Table F :=
  writeAll (positions.map fun q => ⟨.witness, c.w (q.2 : ℤ), srow + (q.1 : ℤ), g q.1 q.2⟩) t

/-- `generate_assignments` (429-860). -/
def assign (c : Cols) (inp : In) (srow : ℤ) (t : Table (ZMod p)) : Table (ZMod p) :=
  let st := fun i => (inp.state i).value t
  let w := sched fun i => (inp.words i).value t
  fill c srow (gridCell st w) t

end

/-- `result_type` (134-146), with `rows_amount = 1110`. -/
def result (c : Cols) (srow : ℤ) (i : ℕ) : Var :=
  if i < 4 then c.wa (i : ℤ) (srow + 1110 - 3) else c.wa ((i : ℤ) - 4) (srow + 1110 - 1)

/-! ## `generate_circuit` -/

section
variable {F : Type*} [Field F]

/-- `generate_sigma0_gates` (195-213). -/
def sigma0Gate (c : Cols) : List (Expr F) :=
  let w := fun (i r : ℤ) => (c.wv i r : Expr F)
  [w 0 (-1) - (w 1 (-1) + w 2 (-1) * kk (2 ^ 1) + w 3 (-1) * kk (2 ^ 7) + w 4 (-1) * kk (2 ^ 8) + w 5 (-1) * kk (2 ^ 22) +
     w 6 (-1) * kk (2 ^ 36) + w 7 (-1) * kk (2 ^ 50)),
   (w 1 (-1) - kk 1) * w 1 (-1),
   (w 3 (-1) - kk 1) * w 3 (-1),
   w 6 0 + w 7 0 * kk (2 ^ 28) + w 8 0 * kk (2 ^ 56) + w 0 1 * kk (2 ^ 84) + w 1 1 * kk (2 ^ 112) -
     (w 8 (-1) * kk (2 ^ 126 + 2 ^ 112) + w 0 0 * kk (1 + 2 ^ 114) + w 1 0 * kk (2 ^ 12 + 2 ^ 126 + 1) + w 2 0 * kk (2 ^ 14 + 1 + 2 ^ 2) +
      w 3 0 * kk (2 ^ 42 + 2 ^ 28 + 2 ^ 30) + w 4 0 * kk (2 ^ 70 + 2 ^ 56 + 2 ^ 58) + w 5 0 * kk (2 ^ 98 + 2 ^ 84 + 2 ^ 86))]

/-- `generate_sigma1_gates` (224-241). -/
def sigma1Gate (c : Cols) : List (Expr F) :=
  let w := fun (i r : ℤ) => (c.wv i r : Expr F)
  [w 0 1 - (w 1 1 + w 2 1 * kk (2 ^ 6) + w 3 1 * kk (2 ^ 19) + w 4 1 * kk (2 ^ 33) + w 5 1 * kk (2 ^ 47) + w 6 1 * kk (2 ^ 61)),
   (w 6 1 - kk 7) * (w 6 1 - kk 6) * (w 6 1 - kk 5) * (w 6 1 - kk 4) * (w 6 1 - kk 3) * (w 6 1 - kk 2) * (w 6 1 - kk 1) * w 6 1,
   w 4 0 + w 5 0 * kk (2 ^ 28) + w 6 0 * kk (2 ^ 56) + w 7 0 * kk (2 ^ 84) + w 8 0 * kk (2 ^ 112) -
     (w 7 1 * kk (2 ^ 90 + 2 ^ 6) + w 8 1 * kk (2 ^ 102 + 2 ^ 18 + 1) + w 0 0 * kk (1 + 2 ^ 44 + 2 ^ 26) + w 1 0 * kk (2 ^ 28 + 2 ^ 72 + 2 ^ 54) +
      w 2 0 * kk (2 ^ 56 + 2 ^ 100 + 2 ^ 82) + w 3 0 * kk (2 ^ 84 + 1 + 2 ^ 110))]

/-- `generate_message_scheduling_gates`, `selector_2` (254-261). -/
def schedGate (c : Cols) : List (Expr F) :=
  let w := fun (i r : ℤ) => (c.wv i r : Expr F)
  [w 5 0 + kk (2 ^ 64) * w 6 0 -
     (w 7 (-1) + w 8 (-1) + w 2 (-1) + w 3 (-1) * kk (2 ^ 14) + w 4 (-1) * kk (2 ^ 28) + w 5 (-1) * kk (2 ^ 42) + w 6 (-1) * kk (2 ^ 56) +
      w 0 0 + w 1 0 * kk (2 ^ 14) + w 2 0 * kk (2 ^ 28) + w 3 0 * kk (2 ^ 42) + w 4 0 * kk (2 ^ 56)),
   (w 6 0 - kk 3) * (w 6 0 - kk 2) * (w 6 0 - kk 1) * w 6 0]

/-- `generate_Sigma0_gates` (279-298): `constraint_3` is built but not given to `add_gate`. -/
def bigSigma0Gate (c : Cols) : List (Expr F) :=
  let w := fun (i r : ℤ) => (c.wv i r : Expr F)
  [w 0 1 - (w 1 1 + w 2 1 * kk (2 ^ 14) + w 3 1 * kk (2 ^ 28) + w 4 1 * kk (2 ^ 34) + w 5 1 * kk (2 ^ 39) + w 6 1 * kk (2 ^ 53)),
   w 5 (-1) - (w 7 1 + w 8 1 * kk (4 ^ 14) + w 0 0 * kk (4 ^ 28) + w 1 0 * kk (4 ^ 34) + w 2 0 * kk (4 ^ 39) + w 3 0 * kk (4 ^ 53))]

/-- `generate_Sigma1_gates` (312-333). -/
def bigSigma1Gate (c : Cols) : List (Expr F) :=
  let w := fun (i r : ℤ) => (c.wv i r : Expr F)
  [w 0 (-1) - (w 1 (-1) + w 2 (-1) * kk (2 ^ 14) + w 3 (-1) * kk (2 ^ 18) + w 4 (-1) * kk (2 ^ 32) + w 5 (-1) * kk (2 ^ 41) +
     w 6 (-1) * kk (2 ^ 55)),
   w 5 1 - (w 7 (-1) + w 8 (-1) * kk (7 ^ 14) + w 0 0 * kk (7 ^ 18) + w 1 0 * kk (7 ^ 32) + w 2 0 * kk (7 ^ 41) + w 3 0 * kk (7 ^ 55)),
   w 4 0 + w 5 0 * kk (7 ^ 14) + w 6 0 * kk (7 ^ 28) + w 7 0 * kk (7 ^ 42) + w 8 0 * kk (7 ^ 56) -
     (w 7 (-1) * kk (7 ^ 50 + 7 ^ 46 + 7 ^ 23) + w 8 (-1) * kk (1 + 7 ^ 60 + 7 ^ 37) + w 0 0 * kk (7 ^ 4 + 1 + 7 ^ 41) +
      w 1 0 * kk (7 ^ 18 + 7 ^ 14 + 7 ^ 55) + w 2 0 * kk (7 ^ 27 + 7 ^ 23 + 1) + w 3 0 * kk (7 ^ 41 + 7 ^ 37 + 7 ^ 14))]

/-- `generate_Maj_gates` (345-350). -/
def majGate (c : Cols) : List (Expr F) :=
  let w := fun (i r : ℤ) => (c.wv i r : Expr F)
  [w 7 0 + w 8 0 * kk (2 ^ 32) + w 0 (-1) * kk (2 ^ 64) + w 1 (-1) * kk (2 ^ 96) - (w 5 0 + w 6 0 + w 6 (-1))]

/-- `generate_Ch_gates` (364-368). -/
def chGate (c : Cols) : List (Expr F) :=
  let w := fun (i r : ℤ) => (c.wv i r : Expr F)
  [w 7 0 + w 8 0 * kk (7 ^ 16) + w 0 1 * kk (7 ^ 32) + w 1 1 * kk (7 ^ 48) - (w 5 0 + kk 2 * w 6 0 + kk 3 * w 6 1)]

/-- `generate_compression_gates`, `selector_4` (384-399). The constant is read from the constant column with the number of the first
*witness* column. -/
def eGate (c : Cols) : List (Expr F) :=
  let w := fun (i r : ℤ) => (c.wv i r : Expr F)
  [w 1 1 - (w 8 0 + w 0 1 + w 0 (-1) + w 1 (-1) * kk (2 ^ 14) + w 2 (-1) * kk (2 ^ 28) + w 3 (-1) * kk (2 ^ 42) + w 4 (-1) * kk (2 ^ 56) +
     w 2 0 + w 3 0 * kk (2 ^ 16) + w 4 0 * kk (2 ^ 32) + w 5 0 * kk (2 ^ 48) + .var ⟨c.w 0, 0, true, .constant⟩),
   w 1 1 + w 7 0 - (w 2 1 + kk (2 ^ 64) * w 3 1),
   (w 3 1 - kk 5) * (w 3 1 - kk 4) * (w 3 1 - kk 3) * (w 3 1 - kk 2) * (w 3 1 - kk 1) * w 3 1]

/-- `generate_compression_gates`, `selector_5` (401-412). -/
def aGate (c : Cols) : List (Expr F) :=
  let w := fun (i r : ℤ) => (c.wv i r : Expr F)
  [w 7 0 + kk (2 ^ 64) * w 8 0 - (w 1 (-1) + w 0 1 + w 1 1 * kk (2 ^ 14) + w 2 1 * kk (2 ^ 28) + w 3 1 * kk (2 ^ 42) + w 4 1 * kk (2 ^ 56) +
     w 2 0 + w 3 0 * kk (2 ^ 16) + w 4 0 * kk (2 ^ 32) + w 5 0 * kk (2 ^ 48)),
   (w 8 0 - kk 6) * (w 8 0 - kk 5) * (w 8 0 - kk 4) * (w 8 0 - kk 3) * (w 8 0 - kk 2) * (w 8 0 - kk 1) * w 8 0]

/-- `generate_compression_gates`, `selector_6` (416-422). -/
def outGate (c : Cols) : List (Expr F) :=
  let w := fun (i r : ℤ) => (c.wv i r : Expr F)
  [w 0 1 + kk (2 ^ 64) * w 4 1 - (w 0 0 + w 4 0), w 1 1 + kk (2 ^ 64) * w 5 1 - (w 1 0 + w 5 0),
   w 2 1 + kk (2 ^ 64) * w 6 1 - (w 2 0 + w 6 0), w 3 1 + kk (2 ^ 64) * w 7 1 - (w 3 0 + w 7 0)]

/-- `generate_copy_constraints`, message schedule (889-902). Only the sixteen words of the block are copied. -/
def schedCopies (c : Cols) (inp : In) (srow : ℤ) : List (Op F) :=
  let row := srow + 2
  ((List.range 15).map fun (i : ℕ) => Op.copy (c.wa 0 (row + 6 * (i : ℤ))) (inp.words (i + 1))) ++
  ((List.range 7).map fun (i : ℕ) => Op.copy (c.wa 7 (row + 6 * (i : ℤ) + 2)) (inp.words (i + 9))) ++
  ((List.range 16).map fun (i : ℕ) => Op.copy (c.wa 8 (row + 6 * (i : ℤ) + 2)) (inp.words i)) ++
  ((List.range 2).map fun (i : ℕ) => Op.copy (c.wa 0 (row + 6 * (i : ℤ) + 5)) (inp.words (i + 14)))

/-- `generate_copy_constraints`, rounds (904-925). -/
def roundCopies (c : Cols) (inp : In) (srow : ℤ) : List (Op F) :=
  let row := srow + 386
  [Op.copy (c.wa 6 (row + 2)) (c.wa 5 (srow + 1)), Op.copy (c.wa 6 (row + 3)) (c.wa 6 (srow + 1)),
   Op.copy (c.wa 6 (row + 6)) (c.wa 1 (srow + 1)), Op.copy (c.wa 6 (row + 5)) (c.wa 2 (srow + 1))] ++
  ((List.range 79).flatMap fun (r : ℕ) =>
    [Op.copy (c.wa 6 (row + 9 * (r : ℤ) + 2 + 9)) (c.wa 5 (row + 9 * (r : ℤ) + 2)),
     Op.copy (c.wa 6 (row + 9 * (r : ℤ) + 3 + 9)) (c.wa 6 (row + 9 * (r : ℤ) + 2)),
     Op.copy (c.wa 6 (row + 9 * (r : ℤ) + 5 + 9)) (c.wa 6 (row + 9 * (r : ℤ) + 6)),
     Op.copy (c.wa 6 (row + 9 * (r : ℤ) + 6 + 9)) (c.wa 5 (row + 9 * (r : ℤ) + 6))]) ++
  [Op.copy (c.wa 0 (row + 8)) (inp.state 0), Op.copy (c.wa 7 (row + 3)) (inp.state 3), Op.copy (c.wa 0 row) (inp.state 4),
   Op.copy (c.wa 8 (row + 3)) (inp.state 7)]

/-- `generate_copy_constraints`, output (927-936). -/
def outCopies (c : Cols) (inp : In) (srow : ℤ) : List (Op F) :=
  let row := srow + 1106
  (List.range 4).flatMap fun (i : ℕ) => [Op.copy (c.wa (i : ℤ) row) (inp.state i), Op.copy (c.wa (i : ℤ) (row + 2)) (inp.state (i + 4))]

/-- The selectors of the schedule (954-956). -/
def schedOps (c : Cols) (srow : ℤ) : List (Op F) :=
  let j := srow + 2
  [.gate (sigma0Gate c) (rowsBetween (j + 1) (j + 383) 6), .gate (sigma1Gate c) (rowsBetween (j + 4) (j + 383) 6),
   .gate (schedGate c) (rowsBetween (j + 3) (j + 383) 6)]

/-- The selectors of the rounds (958-963) and the constants (181-185). -/
def roundOps (c : Cols) (srow : ℤ) : List (Op F) :=
  let j := srow + 386
  ((List.range 80).map fun (i : ℕ) => Op.constant (c.k 0) (srow + 386 + 3 + 9 * (i : ℤ)) ((roundConstant.getD i 0 : ℕ) : F)) ++
  [.gate (bigSigma1Gate c) (rowsBetween (j + 1) (j + 719) 9), .gate (bigSigma0Gate c) (rowsBetween (j + 7) (j + 719) 9),
   .gate (chGate c) (rowsBetween (j + 2) (j + 719) 9), .gate (majGate c) (rowsBetween (j + 6) (j + 719) 9),
   .gate (eGate c) (rowsBetween (j + 3) (j + 719) 9), .gate (aGate c) (rowsBetween (j + 5) (j + 719) 9)]

/-- The selector of the output (965). -/
def outOps (c : Cols) (srow : ℤ) : List (Op F) :=
  let j := srow + 1106
  [.gate (outGate c) (rowsBetween j (j + 2) 2)]

/-- `generate_circuit` (939-970). -/
def circuit (c : Cols) (inp : In) (srow : ℤ) : List (Op F) :=
  schedOps c srow ++ roundOps c srow ++ outOps c srow ++ schedCopies c inp srow ++ roundCopies c inp srow ++ outCopies c inp srow

end

end Sha512
end Verif
