import Mathlib.Data.ZMod.Basic

/-!
# Non-native representation (`basic_non_native_policy.hpp`)

Multiprecision integers of the C++ code are natural numbers; where a C++ integer has a fixed width the width is a
parameter and left shifts are reduced modulo it (`cpp_int_modular_backend<N>`).
-/

namespace Verif
namespace NonNative

/-- `shift` of the `i`-th chunk (`basic_non_native_policy.hpp:67-70`, `88-91`). -/
def shiftOf (sizes : List ℕ) (i : ℕ) : ℕ := (sizes.take i).sum

/-- `get_i_th_chunk` (`basic_non_native_policy.hpp:60-73`, `130-143`, `288-302`): `(result >> shift) & mask`. `x` is the
integer obtained from the value: the canonical one at 63-64, the raw storage `base_data()` at 133-134, the integer
itself at 291-292. -/
def chunk (sizes : List ℕ) (x i : ℕ) : ℕ := (x >>> shiftOf sizes i) &&& (1 <<< sizes.getD i 0 - 1)

/-- `chop_non_native` (`basic_non_native_policy.hpp:76-82`): chunks as elements of the native field. -/
def chop (p : ℕ) (sizes : List ℕ) (x : ℕ) : List (ZMod p) :=
  (List.range sizes.length).map fun i => ((chunk sizes x i : ℕ) : ZMod p)

/-- `glue_non_native` (`basic_non_native_policy.hpp:84-95`, `154-165`, `313-324`): `N` is the width of the native
field's `integral_type`, `f` the conversion to the non-native type. -/
def glue {p : ℕ} {R : Type*} [Add R] (N : ℕ) (sizes : List ℕ) (f : ℕ → R) (cs : List (ZMod p)) : R :=
  (List.range (sizes.length - 1)).foldl
    (fun acc i => acc + f (((cs.getD (i + 1) 0).val <<< shiftOf sizes (i + 1)) % 2 ^ N)) (f ((cs.getD 0 0).val))

/-- `chunk_sizes` for Ed25519 base over Pallas base (line 57). -/
def ed25519Sizes : List ℕ := [66, 66, 66, 66]
/-- `chunk_sizes` for Pallas scalar over Pallas base (line 127). -/
def pallasScalarSizes : List ℕ := [254, 1]
/-- `chunk_sizes` for 256-bit unsigned integers (line 285). -/
def uint256Sizes : List ℕ := [128, 128]

/-- Sign used by the signed policy: `input.sign() == 0 ? 1 : -1` (lines 375, 377, 386). -/
def signVal (x : ℤ) : ℤ := if x.sign = 0 then 1 else -1

/-- `chop_non_native` for signed integers of less than 256 bits (lines 369-380). -/
def chopSigned (p : ℕ) (x : ℤ) : List (ZMod p) := [(signVal x : ZMod p), (signVal x : ZMod p) * (x.natAbs : ZMod p)]

/-- `chop_non_native` for signed integers of 256 bits and more (lines 381-393), magnitudes masked. -/
def chopSigned256 (p : ℕ) (x : ℤ) : List (ZMod p) :=
  [(signVal x : ZMod p), ((x.natAbs &&& ((2 ^ 128 - 1) * 2 ^ 128) : ℕ) : ZMod p), ((x.natAbs &&& (2 ^ 128 - 1) : ℕ) : ZMod p)]

/-- `glue_non_native` for signed integers of `B < 256` bits (lines 408-410): the magnitude is cut to `B` bits. -/
def glueSigned {p : ℕ} (B : ℕ) (cs : List (ZMod p)) : ℤ :=
  (if (cs.getD 0 0).val % 2 ^ B = 0 then 1 else -1) * (((cs.getD 1 0).val % 2 ^ B : ℕ) : ℤ)

/-- `glue_non_native` for signed integers of `B ≥ 256` bits (lines 411-418). -/
def glueSigned256 {p : ℕ} (B : ℕ) (cs : List (ZMod p)) : ℤ :=
  (if (cs.getD 0 0).val % 2 ^ B = 0 then 1 else -1) * ((((cs.getD 1 0).val * 2 ^ 128 + (cs.getD 2 0).val) % 2 ^ B : ℕ) : ℤ)

end NonNative
end Verif
