import Verif.Model.Sha256
import Mathlib.Logic.Function.Basic
import Mathlib.Logic.Relation

/-!
# Generators of the tables `8_split_4.txt` and `8_split_7.txt`

`components/hashes/sha2/plonk/detail/sha_table_generators.hpp`. The threads are modelled by interleaving: the computation
for one word and its insertions under the lock are one step. `cached_pow`, which the threads share as well, is the power
it returns. The number of bits of a word (`table_size`) is 32, as in the tests; with another number the reads of `value`
in `split_and_sparse` are out of its bounds or leave bits out. The set is empty before the call. The format of the printed
file (sha_table_generators.hpp:63-79) is not modelled.
-/

namespace Verif
namespace ShaTables

open Sha256

/-- `sparse_sigma0`, sha_table_generators.hpp:93, 98-103, 126-130. -/
def sigma0 (l : List Bool) : ℕ :=
  let c := split 4 [3, 4, 11, 14] l
  c 1 * (1 + 2 ^ 56 + 2 ^ 34) + c 2 * (2 ^ 8 + 1 + 2 ^ 42) + c 3 * (2 ^ 30 + 2 ^ 22 + 1) + c 0 * (2 ^ 50 + 2 ^ 28)

/-- `sparse_sigma1`, sha_table_generators.hpp:94, 104-109, 138-142. -/
def sigma1 (l : List Bool) : ℕ :=
  let c := split 4 [10, 7, 2, 13] l
  c 1 * (1 + 2 ^ 50 + 2 ^ 46) + c 2 * (2 ^ 14 + 1 + 2 ^ 60) + c 3 * (2 ^ 18 + 2 ^ 4 + 1) + c 0 * (2 ^ 30 + 2 ^ 26)

/-- `sparse_Sigma0`, sha_table_generators.hpp:95, 110-115, 150-154. -/
def bigSigma0 (l : List Bool) : ℕ :=
  let c := split 4 [2, 11, 9, 10] l
  c 0 * (2 ^ 38 + 2 ^ 20 + 2 ^ 60) + c 1 * (2 ^ 42 + 1 + 2 ^ 24) + c 2 * (2 ^ 22 + 2 ^ 46 + 1) + c 3 * (2 ^ 40 + 2 ^ 18 + 1)

/-- `sparse_Sigma1`, sha_table_generators.hpp:247, 252-257, 268-272: the factors are computed in the field, the sum in the
integers. -/
def bigSigma1 (p : ℕ) (l : List Bool) : ℕ :=
  let c := split 7 [6, 5, 14, 7] l
  c 1 * (7 ^ 27 + 7 ^ 13 + 1 : ZMod p).val + c 2 * (7 ^ 5 + 7 ^ 18 + 1 : ZMod p).val +
    c 3 * (7 ^ 19 + 7 ^ 14 + 1 : ZMod p).val + c 0 * (7 ^ 26 + 7 ^ 21 + 7 ^ 7 : ZMod p).val

/-- The four pairs of `reversed_sparse_and_split` with `sigma_sizes`. -/
def chunks (p base v : ℕ) : List (ℕ × ℕ) :=
  (List.range 4).map fun i => (revBin p parity base bytes v i, revSparse p base bytes v i)

/-- The pairs of `base4_reverse_table_iter`, sha_table_generators.hpp:82-176. -/
def iter4 (p i : ℕ) : List (ℕ × ℕ) :=
  let l := bits 32 i
  chunks p 4 (sigma0 l) ++ (chunks p 4 (sigma1 l) ++ chunks p 4 (bigSigma0 l))

/-- The pairs of `base7_reverse_table_iter`, sha_table_generators.hpp:236-284. -/
def iter7 (p i : ℕ) : List (ℕ × ℕ) := chunks p 7 (bigSigma1 p (bits 32 i))

/-- `insert` of the set. -/
def insert (s : List (ℕ × ℕ)) (q : ℕ × ℕ) : List (ℕ × ℕ) := if q ∈ s then s else q :: s

/-- The set and, for each thread, the variable of the loop in the worker (sha_table_generators.hpp:179-192, 287-300). -/
structure State where
  set : List (ℕ × ℕ)
  cur : ℕ → ℕ

/-- `start` of thread `k` and `end` of the thread before, sha_table_generators.hpp:217-225 and 327-335. -/
def bound (T k : ℕ) : ℕ := 2 ^ 32 / T * k

/-- After the call for the word 0 (sha_table_generators.hpp:211-216 and 321-326), all threads at their start. -/
def init (f : ℕ → List (ℕ × ℕ)) (T : ℕ) : State := ⟨(f 0).foldl insert [], bound T⟩

/-- One pass of the loop of a thread that has not finished. -/
inductive Step (f : ℕ → List (ℕ × ℕ)) (T : ℕ) : State → State → Prop
  | pass (s : State) (k : ℕ) (hk : k < T) (h : s.cur k < bound T (k + 1)) :
    Step f T s ⟨(f (s.cur k)).foldl insert s.set, Function.update s.cur k (s.cur k + 1)⟩

/-- All threads have finished (`join`, sha_table_generators.hpp:226-228 and 336-338). -/
def Done (T : ℕ) (s : State) : Prop := ∀ k < T, ¬ s.cur k < bound T (k + 1)

end ShaTables
end Verif
