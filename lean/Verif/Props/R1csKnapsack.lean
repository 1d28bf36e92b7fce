import Verif.Model.R1csKnapsack
import Verif.Props.R1csBasic
import Mathlib.Algebra.BigOperators.Group.Finset.Basic
import Mathlib.Data.List.Range

/-!
# C131, C132, C133: the knapsack hash
-/

set_option linter.unusedSimpArgs false
set_option linter.unusedSectionVars false

namespace Verif
namespace R1cs
namespace Knapsack

section
variable {F : Type*} [Field F]

/-- Specification: row `i` of the matrix times the bits; the entries of the matrix are the numbers of the generator, row by row. -/
def spec (rng : ℕ → F) (x : List Bool) (i : ℕ) : F :=
  ∑ k ∈ Finset.range x.length, if x.getD k false then rng (x.length * i + k) else 0

/-- The cache holds numbers of the generator. -/
def Good (rng : ℕ → F) (cache : List F) : Prop := cache = (List.range cache.length).map rng

theorem good_nil (rng : ℕ → F) : Good rng [] := rfl

theorem range_map_add (rng : ℕ → F) (a b : ℕ) :
    (List.range a).map rng ++ (List.range b).map (fun j => rng (a + j)) = (List.range (a + b)).map rng := by
  rw [List.range_add, List.map_append, List.map_map]; rfl

theorem Good.sample {rng : ℕ → F} {cache : List F} (h : Good rng cache) (dim len : ℕ) :
    Good rng (sample rng dim cache len) ∧ dim * len ≤ (Knapsack.sample rng dim cache len).length ∧
      ∃ m, Knapsack.sample rng dim cache len = cache ++ (List.range m).map fun j => rng (cache.length + j) := by
  unfold Knapsack.sample
  split_ifs with hl
  · refine ⟨?_, by simp; omega, _, rfl⟩
    unfold Good
    rw [List.length_append, List.length_map, List.length_range, ← range_map_add, ← h]
  · exact ⟨h, by omega, 0, by simp⟩

theorem Good.ensure {rng : ℕ → F} {cache : List F} (h : Good rng cache) (dim len : ℕ) :
    Good rng (ensure rng dim cache len) ∧ dim * len ≤ (Knapsack.ensure rng dim cache len).length := by
  unfold Knapsack.ensure
  split_ifs with hl
  · exact ⟨(h.sample dim len).1, (h.sample dim len).2.1⟩
  · exact ⟨h, by omega⟩

theorem Good.getD {rng : ℕ → F} {cache : List F} (h : Good rng cache) {j : ℕ} (hj : j < cache.length) : cache.getD j 0 = rng j := by
  rw [h, List.getD_eq_getElem _ _ (by simpa using hj)]
  simp

theorem idx_lt {dim len i k n : ℕ} (hi : i < dim) (hk : k < len) (hn : dim * len ≤ n) : len * i + k < n := by
  have : len * (i + 1) ≤ len * dim := Nat.mul_le_mul_left _ hi
  rw [Nat.mul_succ, Nat.mul_comm len dim] at this
  omega

theorem rowSum_eq {rng : ℕ → F} {cache : List F} (h : Good rng cache) {dim : ℕ} (x : List Bool) (hl : dim * x.length ≤ cache.length) {i : ℕ}
    (hi : i < dim) (n : ℕ) (hn : n ≤ x.length) :
    rowSum cache x i n = ∑ k ∈ Finset.range n, if x.getD k false then rng (x.length * i + k) else 0 := by
  induction n with
  | zero => rfl
  | succ n ih =>
    rw [rowSum, Finset.sum_range_succ, ih (by omega), h.getD (idx_lt hi (by omega) hl)]
    split_ifs <;> simp

/-- The calls that change the static vector: `sample_randomness` of any length. -/
def cacheAfter (rng : ℕ → F) (dim : ℕ) (lens : List ℕ) : List F := lens.foldl (sample rng dim) []

theorem cacheAfter_good (rng : ℕ → F) (dim : ℕ) (lens : List ℕ) : Good rng (cacheAfter rng dim lens) := by
  unfold cacheAfter
  have : ∀ c, Good rng c → Good rng (lens.foldl (sample rng dim) c) := by
    induction lens with
    | nil => exact fun c h => h
    | cons l r ih => exact fun c h => ih _ (h.sample dim l).1
  exact this _ (good_nil rng)

/-- C131: whatever was hashed before, `get_hash` returns the matrix product, never reads outside the coefficient vector, and keeps the
coefficients that were there. -/
theorem knapsack_hash_stateless (rng : ℕ → F) (dim : ℕ) (lens : List ℕ) (x : List Bool) :
    (getHash rng dim (cacheAfter rng dim lens) x).2 = (List.range dim).map (spec rng x) ∧
      (∀ i < dim, ∀ k < x.length, x.length * i + k < (getHash rng dim (cacheAfter rng dim lens) x).1.length) ∧
      ∀ j < (cacheAfter rng dim lens).length, (getHash rng dim (cacheAfter rng dim lens) x).1.getD j 0 = (cacheAfter rng dim lens).getD j 0 := by
  have hg := cacheAfter_good rng dim lens
  obtain ⟨h1, h2⟩ := hg.ensure dim x.length
  refine ⟨?_, fun i hi k hk => idx_lt hi hk h2, ?_⟩
  · apply List.map_congr_left
    intro i hi
    exact rowSum_eq h1 x h2 (List.mem_range.1 hi) _ le_rfl
  · intro j hj
    have : j < (Knapsack.ensure rng dim (cacheAfter rng dim lens) x.length).length := by
      unfold Knapsack.ensure
      split_ifs
      · obtain ⟨m, hm⟩ := (hg.sample dim x.length).2.2
        rw [hm, List.length_append]; omega
      · exact hj
    show (Knapsack.ensure rng dim (cacheAfter rng dim lens) x.length).getD j 0 = _
    rw [h1.getD this, hg.getD hj]

/-- C131: two programs with different histories agree on every hash. -/
theorem knapsack_hash_deterministic (rng : ℕ → F) (dim : ℕ) (lens lens' : List ℕ) (x : List Bool) :
    (getHash rng dim (cacheAfter rng dim lens) x).2 = (getHash rng dim (cacheAfter rng dim lens') x).2 := by
  rw [(knapsack_hash_stateless rng dim lens x).1, (knapsack_hash_stateless rng dim lens' x).1]

/-- C131: with dimension 1 - the value in the code - inputs of different length collide: a zero bit at the end changes nothing. -/
theorem knapsack_trailing_zero (rng : ℕ → F) (lens : List ℕ) (x : List Bool) :
    (getHash rng 1 (cacheAfter rng 1 lens) (x ++ [false])).2 = (getHash rng 1 (cacheAfter rng 1 lens) x).2 := by
  rw [(knapsack_hash_stateless rng 1 lens _).1, (knapsack_hash_stateless rng 1 lens x).1]
  simp only [List.range_one, List.map_cons, List.map_nil, spec, List.length_append, List.length_cons, List.length_nil, Finset.sum_range_succ,
    mul_zero, zero_add]
  congr 1
  rw [show (x ++ [false]).getD x.length false = false by simp [List.getD], if_neg (by simp), add_zero]
  apply Finset.sum_congr rfl
  intro k hk
  have hk' : k < x.length := Finset.mem_range.1 hk
  rw [List.getD_append _ _ _ _ hk']

end

section
variable {p : ℕ} [hp : Fact p.Prime]

theorem eval_coeffSum_aux (s : Asg (ZMod p)) (f : ℕ → ℕ) (g : ℕ → ZMod p) (n : ℕ) :
    Lc.eval s ((List.range n).map fun k => (f k, g k)) = ∑ k ∈ Finset.range n, g k * val s (f k) := by
  induction n with
  | zero => rfl
  | succ n ih => rw [List.range_succ, List.map_append, eval_append, ih, Finset.sum_range_succ]; simp

/-- The linear combination of row `i` on boolean inputs. -/
theorem eval_coeffSum {rng : ℕ → ZMod p} {cache : List (ZMod p)} (h : Good rng cache) {dim : ℕ} (bits : List ℕ) (x : List Bool) (s : Asg (ZMod p))
    (hx : bits.map (val s) = x.map b2f) (hl : dim * x.length ≤ cache.length) {i : ℕ} (hi : i < dim) :
    (coeffSum cache bits i).eval s = spec rng x i := by
  have hlen : bits.length = x.length := by simpa using congrArg List.length hx
  rw [coeffSum, eval_coeffSum_aux s (fun k => bits.getD k 0) (fun k => cache.getD (bits.length * i + k) 0), spec, hlen]
  apply Finset.sum_congr rfl
  intro k hk
  have hk' : k < x.length := Finset.mem_range.1 hk
  have hb : val s (bits.getD k 0) = b2f (x.getD k false) := by
    have := congrArg (fun l => l[k]?) hx
    rw [List.getElem?_map, List.getElem?_map, List.getElem?_eq_getElem (by omega), List.getElem?_eq_getElem hk'] at this
    simp only [Option.map_some, Option.some.injEq] at this
    rw [List.getD_eq_getElem _ _ (by omega), List.getD_eq_getElem _ _ hk']
    exact this
  rw [h.getD (idx_lt hi hk' hl), hb]
  cases x.getD k false <;> simp [b2f]

/-- C132: on boolean input the constraints of the field output component hold iff every output is the matrix product. -/
theorem knapsack_field_iff (rng : ℕ → ZMod p) (cache : List (ZMod p)) (h : Good rng cache) (dim : ℕ) (bits : List ℕ) (output : ℕ → Lc (ZMod p))
    (x : List Bool) (s : Asg (ZMod p)) (hx : bits.map (val s) = x.map b2f) (hl : dim * x.length ≤ cache.length) :
    Sat s (fieldGates cache dim bits output) ↔ ∀ i < dim, (output i).eval s = spec rng x i := by
  rw [fieldGates, sat_map]
  constructor
  · intro hh i hi
    have := hh i (List.mem_range.2 hi)
    simp only [Constraint.Holds, eval_const, one_mul] at this
    rw [← this, eval_coeffSum h bits x s hx hl hi]
  · intro hh i hi
    have hi := List.mem_range.1 hi
    simp only [Constraint.Holds, eval_const, one_mul]
    rw [eval_coeffSum h bits x s hx hl hi, hh i hi]

theorem fieldAssign_ne (cache : List (ZMod p)) (x : List Bool) (output : ℕ → ℕ) (s : Asg (ZMod p)) (n j : ℕ) (h : ∀ i < n, j ≠ output i) :
    fieldAssign cache x output s n j = s j := by
  induction n with
  | zero => rfl
  | succ n ih => rw [fieldAssign, Asg.set_ne _ _ (h n (by omega)), ih fun i hi => h i (by omega)]

theorem fieldAssign_get (cache : List (ZMod p)) (x : List Bool) (output : ℕ → ℕ) (s : Asg (ZMod p)) (n : ℕ)
    (hd : ∀ i < n, ∀ j < n, output i = output j → i = j) (i : ℕ) (hi : i < n) :
    fieldAssign cache x output s n (output i) = rowSum cache x i x.length := by
  induction n with
  | zero => omega
  | succ n ih =>
    rw [fieldAssign]
    by_cases e : i = n
    · rw [e, Asg.set_same]
    · rw [Asg.set_ne _ _ fun h => e (hd i (by omega) n (by omega) h), ih (fun a ha b hb => hd a (by omega) b (by omega)) (by omega)]

/-- C132, completeness: the generated assignment satisfies the constraints, leaves the input alone and shows what `get_hash` returns, whatever
has been sampled before. -/
theorem knapsack_field_complete (rng : ℕ → ZMod p) (dim : ℕ) (lens : List ℕ) (bits : List ℕ) (output : ℕ → ℕ) (x : List Bool) (s : Asg (ZMod p))
    (hx : bits.map (val s) = x.map b2f) (hl : dim * x.length ≤ (cacheAfter rng dim lens).length)
    (ho : ∀ i < dim, output i ≠ 0 ∧ output i ∉ bits) (hd : ∀ i < dim, ∀ j < dim, output i = output j → i = j) :
    let t := fieldAssign (cacheAfter rng dim lens) x output s dim
    Sat t (fieldGates (cacheAfter rng dim lens) dim bits fun i => Lc.var (output i)) ∧ bits.map (val t) = x.map b2f ∧
      (List.range dim).map (fun i => val t (output i)) = (getHash rng dim [] x).2 := by
  intro t
  have hg := cacheAfter_good rng dim lens
  have hb : bits.map (val t) = x.map b2f := by
    rw [← hx]
    apply List.map_congr_left
    intro j hj
    exact val_congr (fieldAssign_ne _ _ _ _ _ _ fun i hi e => (ho i hi).2 (e ▸ hj))
  have hv : ∀ i < dim, val t (output i) = spec rng x i := by
    intro i hi
    rw [val_pos _ (ho i hi).1]
    exact (fieldAssign_get _ _ _ _ _ hd i hi).trans (rowSum_eq hg x hl hi _ le_rfl)
  refine ⟨(knapsack_field_iff rng _ hg dim bits _ x t hb hl).2 fun i hi => by rw [eval_var]; exact hv i hi, hb, ?_⟩
  have : (getHash rng dim [] x).2 = _ := (knapsack_hash_stateless rng dim [] x).1
  rw [this]
  exact List.map_congr_left fun i hi => hv i (List.mem_range.1 hi)

/-- The bits of part `i` of a digest value. -/
def bpart (d : List Bool) (n i : ℕ) : List Bool := (d.drop (i * n)).take n

/-- C133, exactly what the bit output component enforces: the digest consists of bits, and part `i` is a number congruent to row `i` of the
matrix product. -/
theorem knapsack_bit_iff (rng : ℕ → ZMod p) (cache : List (ZMod p)) (h : Good rng cache) (dim n : ℕ) (bits digest : List ℕ) (x : List Bool)
    (s : Asg (ZMod p)) (hx : bits.map (val s) = x.map b2f) (hl : dim * x.length ≤ cache.length) :
    Sat s (bitGates cache dim n bits digest true) ↔
      ∃ d : List Bool, digest.map (val s) = d.map b2f ∧ ∀ i < dim, ((bnat (bpart d n i) : ℕ) : ZMod p) = spec rng x i := by
  have hpart : ∀ d : List Bool, digest.map (val s) = d.map b2f → ∀ i,
      (packSum 1 ((part digest n i).map (Lc.var (F := ZMod p)))).eval s = ((bnat (bpart d n i) : ℕ) : ZMod p) := by
    intro d hd i
    rw [eval_packSum s 1 _ (bpart d n i), one_mul]
    rw [map_var_eval, part, bpart, List.map_take, List.map_drop, hd, ← List.map_drop, ← List.map_take]
  rw [bitGates, if_pos rfl, sat_append, knapsack_field_iff rng cache h dim bits _ x s hx hl, sat_map]
  simp only [boolean_iff, eval_var]
  constructor
  · rintro ⟨h1, h2⟩
    obtain ⟨d, hd⟩ := bits_exist (l := digest.map (val s)) (by simpa using h2)
    exact ⟨d, hd, fun i hi => by rw [← hpart d hd, h1 i hi]⟩
  · rintro ⟨d, hd, h1⟩
    refine ⟨fun i hi => by rw [hpart d hd, h1 i hi], fun v hv => ?_⟩
    have : val s v ∈ digest.map (val s) := List.mem_map_of_mem hv
    rw [hd] at this
    obtain ⟨b, -, hb⟩ := List.mem_map.1 this
    rw [← hb]; exact isBit_b2f b

theorem bnat_range_testBit (d : List Bool) : (List.range d.length).map (bnat d).testBit = d := by
  apply List.ext_getElem (by simp)
  intro i h1 h2
  rw [List.getElem_map, List.getElem_range, bnat_testBit, List.getD_eq_getElem _ _ h2]

/-- C133, soundness when a part has fewer bits than the modulus: the digest parts are the bits of the hash. (The code uses all bits of the
modulus, see `knapsack_bit_refuted`.) -/
theorem knapsack_bit_sound_partial (rng : ℕ → ZMod p) (cache : List (ZMod p)) (h : Good rng cache) (dim n : ℕ) (hn : 2 ^ n ≤ p) (bits digest : List ℕ)
    (hlen : digest.length = dim * n) (x : List Bool) (s : Asg (ZMod p)) (hx : bits.map (val s) = x.map b2f) (hl : dim * x.length ≤ cache.length)
    (hs : Sat s (bitGates cache dim n bits digest true)) (i : ℕ) (hi : i < dim) :
    (part digest n i).map (val s) = ((List.range n).map (spec rng x i).val.testBit).map b2f := by
  obtain ⟨d, hd, h1⟩ := (knapsack_bit_iff rng cache h dim n bits digest x s hx hl).1 hs
  have hdl : d.length = dim * n := by rw [← hlen]; simpa using (congrArg List.length hd).symm
  have hpl : (bpart d n i).length = n := by
    have : (i + 1) * n ≤ dim * n := Nat.mul_le_mul_right _ hi
    rw [Nat.add_mul, Nat.one_mul] at this
    rw [bpart, List.length_take, List.length_drop, hdl]; omega
  have hlt := bnat_lt (bpart d n i)
  rw [hpl] at hlt
  have hv : (spec rng x i).val = bnat (bpart d n i) := by rw [← h1 i hi, ZMod.val_natCast_of_lt (by omega)]
  have hr := bnat_range_testBit (bpart d n i)
  rw [hpl] at hr
  rw [hv, hr, part, List.map_take, List.map_drop, hd, ← List.map_drop, ← List.map_take, bpart]

/-- C133 fails for the number of bits used in the code: if the hash plus the modulus still fits into `n` bits, these bits are accepted as
digest of the same input. -/
theorem knapsack_bit_refuted (rng : ℕ → ZMod p) (cache : List (ZMod p)) (h : Good rng cache) (n : ℕ) (bits digest : List ℕ) (hnd : digest.Nodup)
    (h0 : 0 ∉ digest) (hdis : ∀ v ∈ digest, v ∉ bits) (hlen : digest.length = n) (x : List Bool) (s : Asg (ZMod p))
    (hx : bits.map (val s) = x.map b2f) (hl : x.length ≤ cache.length) (hbig : (spec rng x 0).val + p < 2 ^ n) :
    ∃ t, Sat t (bitGates cache 1 n bits digest true) ∧ bits.map (val t) = x.map b2f ∧
      digest.map (val t) = ((List.range n).map ((spec rng x 0).val + p).testBit).map b2f ∧
      digest.map (val t) ≠ ((List.range n).map (spec rng x 0).val.testBit).map b2f := by
  set N := (spec rng x 0).val + p with hN
  set d := (List.range n).map N.testBit with hd
  let t : Asg (ZMod p) := s.setAll ((List.range digest.length).map fun i => (digest.getD i 0, b2f (N.testBit i)))
  have hbn : bnat d = N := bnat_bits N n hbig
  have hdv : digest.map (val t) = d.map b2f := by
    apply List.ext_getElem (by simp [hd, hlen])
    intro i h1 h2
    have hi : i < digest.length := by simpa using h1
    simp only [hd, List.getElem_map, List.getElem_range]
    rw [val_pos _ fun e => h0 (e ▸ List.getElem_mem hi)]
    apply Asg.setAll_mem
    · exact List.mem_map.2 ⟨i, List.mem_range.2 hi, by rw [List.getD_eq_getElem _ _ hi]⟩
    · intro u hu e
      obtain ⟨j, hj, rfl⟩ := List.mem_map.1 hu
      have hj := List.mem_range.1 hj
      simp only [List.getD_eq_getElem digest 0 hj] at e
      rw [(List.Nodup.getElem_inj_iff hnd).1 e]
  have hbv : bits.map (val t) = x.map b2f := by
    rw [← hx]
    apply List.map_congr_left
    intro j hj
    apply val_congr
    apply Asg.setAll_ne
    intro u hu e
    obtain ⟨i, hi, rfl⟩ := List.mem_map.1 hu
    have hi := List.mem_range.1 hi
    simp only [List.getD_eq_getElem digest 0 hi] at e
    exact hdis _ (List.getElem_mem hi) (e ▸ hj)
  refine ⟨t, (knapsack_bit_iff rng cache h 1 n bits digest x t hbv (by omega)).2 ⟨d, hdv, ?_⟩, hbv, hdv, ?_⟩
  · intro i hi
    obtain rfl : i = 0 := by omega
    have : bpart d n 0 = d := by
      rw [bpart, Nat.zero_mul, List.drop_zero, List.take_of_length_le (by simp [hd])]
    rw [this, hbn, hN]
    push_cast
    rw [ZMod.natCast_zmod_val, ZMod.natCast_self, add_zero]
  · rw [hdv]
    intro e
    have e' : d = (List.range n).map (spec rng x 0).val.testBit :=
      List.map_injective_iff.2 (fun a b => b2f_inj) e
    have hp0 := hp.out.pos
    have : N = (spec rng x 0).val := by rw [← hbn, e', bnat_bits _ _ (by omega)]
    omega

theorem bitAssign_ne (cache : List (ZMod p)) (n : ℕ) (digest : List ℕ) (x : List Bool) (s : Asg (ZMod p)) (m j : ℕ)
    (h : ∀ i < m, j ∉ part digest n i) : bitAssign cache n digest x s m j = s j := by
  induction m with
  | zero => rfl
  | succ m ih => rw [bitAssign, packAssign_ne _ _ _ (h m (by omega)), ih fun i hi => h i (by omega)]

theorem part_getElem {digest : List ℕ} {n dim i j : ℕ} (hlen : digest.length = dim * n) (hi : i < dim) (hj : j < n) :
    ∃ h : i * n + j < digest.length, ∃ h' : j < (part digest n i).length, (part digest n i)[j] = digest[i * n + j] := by
  have : (i + 1) * n ≤ dim * n := Nat.mul_le_mul_right _ hi
  rw [Nat.add_mul, Nat.one_mul] at this
  refine ⟨by omega, by rw [part, List.length_take, List.length_drop]; omega, ?_⟩
  simp [part]

theorem part_length {digest : List ℕ} {n dim i : ℕ} (hlen : digest.length = dim * n) (hi : i < dim) : (part digest n i).length = n := by
  have : (i + 1) * n ≤ dim * n := Nat.mul_le_mul_right _ hi
  rw [Nat.add_mul, Nat.one_mul] at this
  rw [part, List.length_take, List.length_drop]; omega

theorem bitAssign_get (cache : List (ZMod p)) (n dim : ℕ) (digest : List ℕ) (hnd : digest.Nodup) (hlen : digest.length = dim * n) (x : List Bool)
    (s : Asg (ZMod p)) (m : ℕ) (hm : m ≤ dim) (i j : ℕ) (hi : i < m) (hj : j < n) :
    bitAssign cache n digest x s m (digest.getD (i * n + j) 0) = b2f ((rowSum cache x i x.length).val.testBit j) := by
  induction m with
  | zero => omega
  | succ m ih =>
    obtain ⟨h1, h2, h3⟩ := part_getElem hlen (show i < dim by omega) hj
    rw [bitAssign]
    by_cases e : i = m
    · subst e
      rw [List.getD_eq_getElem _ _ h1, ← h3]
      exact packAssign_get _ (List.Nodup.sublist ((List.take_sublist _ _).trans (List.drop_sublist _ _)) hnd) _ _ h2
    · rw [packAssign_ne, ih (by omega) (by omega)]
      rw [List.getD_eq_getElem _ _ h1]
      intro hmem
      obtain ⟨q, hq, hqe⟩ := List.getElem_of_mem hmem
      have hq' : q < n := by rw [part_length hlen (show m < dim by omega)] at hq; exact hq
      obtain ⟨g1, g2, g3⟩ := part_getElem hlen (show m < dim by omega) hq'
      rw [g3] at hqe
      have := (List.Nodup.getElem_inj_iff hnd).1 hqe
      have hlt : (i + 1) * n ≤ m * n := Nat.mul_le_mul_right _ (by omega)
      rw [Nat.add_mul, Nat.one_mul] at hlt
      omega

theorem flatMap_getD {α : Type*} (f : ℕ → List α) (n : ℕ) (hf : ∀ i, (f i).length = n) (dim i j : ℕ) (hi : i < dim) (hj : j < n) (a : α) :
    ((List.range dim).flatMap f).getD (i * n + j) a = (f i).getD j a := by
  have hlen : ∀ d, ((List.range d).flatMap f).length = d * n := by
    intro d
    induction d with
    | zero => simp
    | succ d ih => rw [List.range_succ, List.flatMap_append, List.length_append, ih]; simp [hf]; ring
  induction dim with
  | zero => omega
  | succ d ih =>
    rw [List.range_succ, List.flatMap_append]
    by_cases e : i < d
    · rw [List.getD_append _ _ _ _ (by
        rw [hlen]
        have : (i + 1) * n ≤ d * n := Nat.mul_le_mul_right _ e
        rw [Nat.add_mul, Nat.one_mul] at this
        omega), ih e]
    · obtain rfl : i = d := by omega
      rw [List.getD_append_right _ _ _ _ (by rw [hlen]; omega), hlen, Nat.add_sub_cancel_left]
      simp

/-- C133, completeness: the generated digest satisfies the constraints and equals what `get_hash` of the bit output component returns, when the
modulus has at most `n` bits. -/
theorem knapsack_bit_complete (rng : ℕ → ZMod p) (dim n : ℕ) (hn : p ≤ 2 ^ n) (lens : List ℕ) (bits digest : List ℕ) (hnd : digest.Nodup)
    (h0 : 0 ∉ digest) (hdis : ∀ v ∈ digest, v ∉ bits) (hlen : digest.length = dim * n) (x : List Bool) (s : Asg (ZMod p))
    (hx : bits.map (val s) = x.map b2f) (hl : dim * x.length ≤ (cacheAfter rng dim lens).length) :
    let t := bitAssign (cacheAfter rng dim lens) n digest x s dim
    Sat t (bitGates (cacheAfter rng dim lens) dim n bits digest true) ∧ bits.map (val t) = x.map b2f ∧
      digest.map (val t) = (getBits rng dim n [] x).map b2f := by
  intro t
  have hg := cacheAfter_good rng dim lens
  have hbv : bits.map (val t) = x.map b2f := by
    rw [← hx]
    apply List.map_congr_left
    intro j hj
    apply val_congr
    apply bitAssign_ne
    intro i _ hm
    exact hdis j ((List.drop_subset _ _) ((List.take_subset _ _) hm)) hj
  have hG : getBits rng dim n [] x = (List.range dim).flatMap fun i => (List.range n).map (spec rng x i).val.testBit := by
    have : (getHash rng dim [] x).2 = _ := (knapsack_hash_stateless rng dim [] x).1
    rw [getBits, this, List.flatMap_map]
  have hGl : (getBits rng dim n [] x).length = dim * n := by
    rw [hG]
    have : ∀ d, ((List.range d).flatMap fun i => (List.range n).map (spec rng x i).val.testBit).length = d * n := by
      intro d
      induction d with
      | zero => simp
      | succ d ih => rw [List.range_succ, List.flatMap_append, List.length_append, ih]; simp; ring
    exact this dim
  have hdv : digest.map (val t) = (getBits rng dim n [] x).map b2f := by
    apply List.ext_getElem (by simp [hlen, hGl])
    intro q h1 h2
    have hq : q < digest.length := by simpa using h1
    have hq2 : q < (getBits rng dim n [] x).length := by omega
    have hn0 : 0 < n := by
      rcases Nat.eq_zero_or_pos n with e | e
      · subst e; simp at hlen; simp [hlen] at hq
      · exact e
    have e1 : q / n * n + q % n = q := by rw [Nat.mul_comm]; exact Nat.div_add_mod q n
    have hqi : q / n < dim := (Nat.div_lt_iff_lt_mul hn0).2 (by omega)
    have hqj : q % n < n := Nat.mod_lt _ hn0
    have a1 := bitAssign_get (cacheAfter rng dim lens) n dim digest hnd hlen x s dim le_rfl (q / n) (q % n) hqi hqj
    rw [e1, rowSum_eq hg x hl hqi _ le_rfl, List.getD_eq_getElem _ _ hq] at a1
    have a2 := flatMap_getD (fun i => (List.range n).map (spec rng x i).val.testBit) n (by simp) dim (q / n) (q % n) hqi hqj false
    rw [e1, ← hG, List.getD_eq_getElem _ _ hq2] at a2
    rw [List.getElem_map, List.getElem_map, val_pos _ fun e => h0 (e ▸ List.getElem_mem hq), a2]
    rw [List.getD_eq_getElem _ _ (by simpa using hqj), List.getElem_map, List.getElem_range]
    exact a1
  refine ⟨(knapsack_bit_iff rng _ hg dim n bits digest x t hbv hl).2 ⟨_, hdv, ?_⟩, hbv, hdv⟩
  intro i hi
  have : bpart (getBits rng dim n [] x) n i = (List.range n).map (spec rng x i).val.testBit := by
    apply List.ext_getElem
    · have h' : (i + 1) * n ≤ dim * n := Nat.mul_le_mul_right _ hi
      rw [Nat.add_mul, Nat.one_mul] at h'
      rw [bpart, List.length_take, List.length_drop, hGl]; simp; omega
    · intro j h1 h2
      have hj : j < n := by simpa using h2
      have h' : (i + 1) * n ≤ dim * n := Nat.mul_le_mul_right _ hi
      rw [Nat.add_mul, Nat.one_mul] at h'
      have a2 := flatMap_getD (fun i => (List.range n).map (spec rng x i).val.testBit) n (by simp) dim i j hi hj false
      rw [← hG, List.getD_eq_getElem _ _ (by omega), List.getD_eq_getElem _ _ h2] at a2
      rw [← a2]
      simp [bpart]
  rw [this, bnat_bits _ _ (lt_of_lt_of_le (ZMod.val_lt _) hn), ZMod.natCast_zmod_val]

instance : Fact (Nat.Prime 13) := ⟨by decide⟩

/-- The hypotheses are met: over the field with 13 elements, with 4 bits and the coefficients `1, 2`, the input `10` has the hash 1, and the bits
of 14 are accepted as its digest. -/
example : ∃ t : Asg (ZMod 13), Sat t (bitGates (cacheAfter (fun i => (i + 1 : ZMod 13)) 1 [2]) 1 4 [1, 2] [3, 4, 5, 6] true) ∧
    [1, 2].map (val t) = [true, false].map b2f ∧ [3, 4, 5, 6].map (val t) = [false, true, true, true].map b2f := by
  have hs : spec (fun i => (i + 1 : ZMod 13)) [true, false] 0 = 1 := by simp [spec, Finset.sum_range_succ]
  obtain ⟨t, h1, h2, h3, -⟩ := knapsack_bit_refuted (fun i => (i + 1 : ZMod 13)) (cacheAfter (fun i => (i + 1 : ZMod 13)) 1 [2])
    (cacheAfter_good _ _ _) 4 [1, 2] [3, 4, 5, 6] (by decide) (by decide) (by decide) rfl [true, false] (fun v => if v = 1 then 1 else 0)
    (by simp [val]) (by simp [cacheAfter, sample]) (by rw [hs]; decide)
  refine ⟨t, h1, h2, h3.trans ?_⟩
  rw [hs]; decide

end
end Knapsack
end R1cs
end Verif
