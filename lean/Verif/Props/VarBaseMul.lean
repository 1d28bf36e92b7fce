import Verif.Props.VarBaseFacts

/-!
# C77: variable base scalar multiplication, soundness

The circuit lacks three copy constraints (`missing`). With them the output is the multiple of the input point by the
shifted scalar.
-/

set_option linter.unusedVariables false
set_option linter.unusedSectionVars false
set_option linter.unusedSimpArgs false

namespace Verif
namespace VarBaseMul
open UnifiedAddition (curve enc enc_zero equation_of unifiedAddition_sound)

section copies
variable {F : Type*} [Field F]

/-- The copy constraints as equations. -/
structure CopyFacts (K : Kind F) (c : Cols) (inp : In) (srow : ℤ) (t : Table F) : Prop where
  p0x : t .witness (c.w 2) (srow + 1) = t .witness (c.w 4) srow
  p0y : t .witness (c.w 3) (srow + 1) = t .witness (c.w 5) srow
  bx : ∀ k : ℕ, k < 50 → t .witness (c.w 0) (srow + 1 + 2 * (k : ℤ)) = t .witness (c.w 0) (srow + 1 + 2 * ((k + 1 : ℕ) : ℤ))
  by_ : ∀ k : ℕ, k < 50 → t .witness (c.w 1) (srow + 1 + 2 * (k : ℤ)) = t .witness (c.w 1) (srow + 1 + 2 * ((k + 1 : ℕ) : ℤ))
  qx : ∀ k : ℕ, k < 50 →
    t .witness (c.w 2) (srow + 1 + 2 * ((k + 1 : ℕ) : ℤ)) = t .witness (c.w 0) (srow + 1 + 2 * (k : ℤ) + 1)
  qy : ∀ k : ℕ, k < 50 →
    t .witness (c.w 3) (srow + 1 + 2 * ((k + 1 : ℕ) : ℤ)) = t .witness (c.w 1) (srow + 1 + 2 * (k : ℤ) + 1)
  n : ∀ k : ℕ, k < 50 → t .witness (c.w 4) (srow + 1 + 2 * ((k + 1 : ℕ) : ℤ)) = t .witness (c.w 5) (srow + 1 + 2 * (k : ℤ))
  nl : t .witness (c.w 5) (srow + 103) = t .witness (c.w 5) (srow + 101)
  xl : t .witness (c.w 6) (srow + 103) = t .witness (c.w 0) (srow + 101)
  yl : t .witness (c.w 7) (srow + 103) = t .witness (c.w 1) (srow + 101)
  n0 : t .witness (c.w 4) (srow + 1) = t .constant (c.w 0) (srow + 1)
  hi : if K.pallas then inp.bHigh.value t = t .witness (c.w 2) (srow + 2) else inp.b.value t = t .witness (c.w 5) (srow + 101)
  u0 : t .constant (c.k 0) (srow + 1) = t .witness (c.w 6) (srow + 59)
  u : ∀ k : ℕ, k < 20 →
    t .witness (c.w 14) (srow + 59 + 2 * (k : ℤ) + 1) = t .witness (c.w 6) (srow + 59 + 2 * ((k + 1 : ℕ) : ℤ))
  e1 : t .witness (c.w 2) (srow + 2) = t .witness (c.w 9) (srow + 103)
  e2 : t .witness (c.w 5) (srow + 49) = t .witness (c.w 10) (srow + 103)
  b : inp.b.value t = t .witness (c.w 11) (srow + 103)

theorem copies_iff (K : Kind F) (c : Cols) (inp : In) (srow : ℤ) (t : Table F) :
    Sat t (copies K c inp srow) ↔ CopyFacts K c inp srow t := by
  have e1 : ∀ k : ℕ, srow + 1 + 2 * ((k + 1 : ℕ) : ℤ) - 1 = srow + 1 + 2 * (k : ℤ) + 1 := fun k => by push_cast; ring
  have e2 : ∀ k : ℕ, srow + 1 + 2 * ((k + 1 : ℕ) : ℤ) - 2 = srow + 1 + 2 * (k : ℤ) := fun k => by push_cast; ring
  have e3 : ∀ k : ℕ, srow + 1 + (2 * (k : ℤ) + 2) = srow + 1 + 2 * ((k + 1 : ℕ) : ℤ) := fun k => by push_cast; ring
  have e4 : ∀ k : ℕ, srow + 1 + 2 * (k : ℤ) + 2 = srow + 1 + 2 * ((k + 1 : ℕ) : ℤ) := fun k => by push_cast; ring
  have e5 : ∀ k : ℕ, srow + 59 + 2 * (k : ℤ) + 2 = srow + 59 + 2 * ((k + 1 : ℕ) : ℤ) := fun k => by push_cast; ring
  have e6 : srow + 1 + 58 = srow + 59 := by ring
  have e7 : srow + 1 + 102 = srow + 103 := by ring
  have e8 : srow + 1 + 48 = srow + 49 := by ring
  have e9 : srow + 1 + 100 = srow + 101 := by ring
  have e10 : srow + 1 + 1 = srow + 2 := by ring
  have mf : ∀ (n : ℕ) (f : ℕ → List (Op F)), Sat t ((List.range n).flatMap f) ↔ ∀ k : ℕ, k < n → Sat t (f k) := by
    intro n f
    simp only [Sat, List.mem_flatMap, List.mem_range]
    constructor
    · intro h k hk o ho; exact h o ⟨k, hk, ho⟩
    · rintro h o ⟨k, hk, ho⟩; exact h k hk o ho
  have mm : ∀ (n : ℕ) (f : ℕ → Op F), Sat t ((List.range n).map f) ↔ ∀ k : ℕ, k < n → (f k).Holds t := by
    intro n f
    simp only [Sat, List.mem_map, List.mem_range]
    constructor
    · intro h k hk; exact h _ ⟨k, hk, rfl⟩
    · rintro h o ⟨k, hk, rfl⟩; exact h k hk
  have hc : ∀ (i : ℕ) (r : ℤ), (⟨i, r, false, .constant⟩ : Var).value t = t .constant i r := fun _ _ => rfl
  have hif : (if K.pallas then Op.copy inp.bHigh (c.wa 2 (srow + 2)) else Op.copy inp.b (c.wa 5 (srow + 101)) : Op F).Holds t ↔
      if K.pallas then inp.bHigh.value t = t .witness (c.w 2) (srow + 2) else inp.b.value t = t .witness (c.w 5) (srow + 101) := by
    split_ifs <;> simp
  unfold copies
  simp only [sat_append, sat_cons, sat_nil, mf, mm, holds_copy, Cols.value_wa, e1, e2, e3, e4, e6, e5, e7, e8, e9, e10, and_true,
    UnifiedAddition.resultX, UnifiedAddition.resultY, hc, hif]
  constructor
  · rintro ⟨⟨⟨⟨⟨⟨⟨⟨⟨a1, a2⟩, a3⟩, a4⟩, a5⟩, a6, a7, a8, a9⟩, a10⟩, a11⟩, a12⟩, a13, a14, a15⟩
    exact ⟨a1, a2, fun k hk => (a3 k hk).1, fun k hk => (a3 k hk).2, fun k hk => (a4 k hk).1, fun k hk => (a4 k hk).2, a5,
      a6, a7, a8, a9, a10, a11, a12, a13, a14, a15⟩
  · rintro ⟨a1, a2, a3, a3', a4, a4', a5, a6, a7, a8, a9, a10, a11, a12, a13, a14, a15⟩
    exact ⟨⟨⟨⟨⟨⟨⟨⟨⟨a1, a2⟩, fun k hk => ⟨a3 k hk, a3' k hk⟩⟩, fun k hk => ⟨a4 k hk, a4' k hk⟩⟩, a5⟩, a6, a7, a8, a9⟩, a10⟩,
      a11⟩, a12⟩, a13, a14, a15⟩

/-- The copy constraints that `generate_copy_constraints` leaves out: the base point of the first pair of rows, and the
last link of the chain of chunks of `aux` (the loop 818-821 stops one short). -/
def missing (c : Cols) (inp : In) (srow : ℤ) : List (Op F) :=
  [.copy inp.tx (c.wa 0 (srow + 1)), .copy inp.ty (c.wa 1 (srow + 1)),
   .copy (c.wa 14 (srow + 100)) (c.wa 6 (srow + 101))]

end copies

section group
variable {F : Type*} [Field F] [DecidableEq F] {cb : F} {T : (curve cb).Point} {r : ℕ} {β : ℕ → ℕ}

theorem nsmul_zero_iff (hT : addOrderOf T = r) (k : ℕ) : k • T = 0 ↔ r ∣ k := by
  rw [← hT]; exact addOrderOf_dvd_iff_nsmul_eq_zero.symm

theorem ne_self (hT : addOrderOf T = r) {k : ℕ} (hk : 1 ≤ k) (h : ¬ r ∣ k - 1) : k • T ≠ T := by
  intro e
  apply h
  rw [← nsmul_zero_iff hT]
  have : k • T = (k - 1) • T + T := by rw [← succ_nsmul]; congr 1; omega
  rw [this] at e
  simpa using e

theorem ne_neg (hT : addOrderOf T = r) {k : ℕ} (h : ¬ r ∣ k + 1) : k • T ≠ -T := by
  intro e
  apply h
  rw [← nsmul_zero_iff hT, succ_nsmul, e]
  exact neg_add_cancel T

/-- `±T` by the bit. -/
def signed (T : (curve cb).Point) (b : ℕ) : (curve cb).Point := if b = 1 then T else -T

theorem enc_signed {b : ℕ} (hb : b < 2) : enc (signed T b) = ((enc T).1, (2 * (b : F) - 1) * (enc T).2) := by
  unfold signed
  split_ifs with h
  · subst h; ext <;> push_cast <;> ring
  · have : b = 0 := by omega
    subst this
    rw [enc_neg]; ext <;> push_cast <;> ring

theorem signed_ne (hT : T ≠ 0) (b : ℕ) : signed T b ≠ 0 := by
  unfold signed
  split_ifs
  · exact hT
  · exact neg_ne_zero.2 hT

theorem al_pos (β : ℕ → ℕ) (i : ℕ) : 1 ≤ al β i := by unfold al; generalize 2 ^ i = x; omega

theorem al_next (hβ : ∀ i < 255, β i < 2) {i : ℕ} (hi : i < 255) :
    al β (i + 1) • T = al β i • T + signed T (β i) + al β i • T := by
  have h := al_succ β i
  have hb := hβ i hi
  unfold signed
  split_ifs with h1
  · rw [h1] at h
    have : al β (i + 1) = al β i + 1 + al β i := by omega
    rw [this, add_nsmul, succ_nsmul]
  · have h0 : β i = 0 := by omega
    rw [h0] at h
    have e : al β (i + 1) • T + T = al β i • T + al β i • T := by
      rw [← succ_nsmul, ← add_nsmul]; congr 1; omega
    have e2 : al β (i + 1) • T = al β i • T + al β i • T + -T := by rw [← e]; abel
    rw [e2]; abel

theorem ne_signed (hT : addOrderOf T = r) {i : ℕ} (h1 : ¬ r ∣ al β i - 1) (h2 : ¬ r ∣ al β i + 1) (b : ℕ) :
    al β i • T ≠ signed T b ∧ al β i • T ≠ -signed T b := by
  have a := ne_self hT (al_pos β i) h1
  have b' := ne_neg hT h2
  unfold signed
  split_ifs
  · exact ⟨a, b'⟩
  · rw [neg_neg]; exact ⟨b', a⟩

end group

section chain
variable {F : Type*} [Field F] [DecidableEq F] {cb : F} {T : (curve cb).Point} {r : ℕ} {β : ℕ → ℕ} {c : Cols} {t : Table F}
  {row : ℤ} {g : Prop}

/-- The equation of the slope, in the group. -/
theorem slope_group (hP : Pair c t row g) (hβ : ∀ i < 255, β i < 2) {k m : ℕ} (hk : k < 51) (hm : m < 5)
    (hbit : bitAt c t row m = (β (5 * k + m) : F))
    (hbase : t .witness (c.w 0) row = (enc T).1 ∧ t .witness (c.w 1) row = (enc T).2) {A : (curve cb).Point}
    (hA : (X c t row m, Y c t row m) = enc A) :
    Slope (enc A).1 (enc A).2 (enc (signed T (β (5 * k + m)))).1 (enc (signed T (β (5 * k + m)))).2 (slAt c t row m) := by
  have h := hP.slope m hm
  rw [hbit, hbase.1, hbase.2] at h
  rw [enc_signed (hβ _ (by omega)), ← hA]
  exact h

theorem pair_step (hb : ∀ y : F, y ^ 2 ≠ cb) (hT : addOrderOf T = r) (hT0 : T ≠ 0) (hP : Pair c t row g)
    (hβ : ∀ i < 255, β i < 2) {k m : ℕ} (hk : k < 51) (hm : m < 5) (hbit : bitAt c t row m = (β (5 * k + m) : F))
    (hbase : t .witness (c.w 0) row = (enc T).1 ∧ t .witness (c.w 1) row = (enc T).2)
    (hA : (X c t row m, Y c t row m) = enc (al β (5 * k + m) • T)) (hg : Good r β (5 * k + m)) (hmask : m < 3 ∨ g) :
    (X c t row (m + 1), Y c t row (m + 1)) = enc (al β (5 * k + m + 1) • T) := by
  have hs := slope_group hP hβ hk hm hbit hbase hA
  obtain ⟨n1, n2⟩ := ne_signed hT hg.one hg.minus (β (5 * k + m))
  have hn := al_next (T := T) hβ (show 5 * k + m < 255 by omega)
  rw [hn]
  refine (chord_iff hb (fun h => hg.zero ((nsmul_zero_iff hT _).1 h)) (signed_ne hT0 _) n1 n2 ?_ hs).1 ?_
  · rw [← hn]; exact fun h => hg.next ((nsmul_zero_iff hT _).1 h)
  · have h := hP.chord m hm hmask
    rw [hbase.1] at h
    rw [enc_signed (hβ _ (by omega)), ← hA]
    exact h

/-- A step to the neutral element is impossible. -/
theorem pair_stuck (hb : ∀ y : F, y ^ 2 ≠ cb) (htwo : (2 : F) ≠ 0) (htor : ∀ x : F, x ^ 3 + cb ≠ 0) (hT : addOrderOf T = r)
    (hT0 : T ≠ 0) (hP : Pair c t row g)
    (hβ : ∀ i < 255, β i < 2) {k m : ℕ} (hk : k < 51) (hm : m < 5) (hbit : bitAt c t row m = (β (5 * k + m) : F))
    (hbase : t .witness (c.w 0) row = (enc T).1 ∧ t .witness (c.w 1) row = (enc T).2)
    (hA : (X c t row m, Y c t row m) = enc (al β (5 * k + m) • T)) (h0 : ¬ r ∣ al β (5 * k + m))
    (h1 : ¬ r ∣ al β (5 * k + m) - 1) (h2 : ¬ r ∣ al β (5 * k + m) + 1) (hz : r ∣ al β (5 * k + m + 1))
    (hmask : m < 3 ∨ g) : False := by
  have hs := slope_group hP hβ hk hm hbit hbase hA
  obtain ⟨n1, n2⟩ := ne_signed hT h1 h2 (β (5 * k + m))
  have hn := al_next (T := T) hβ (show 5 * k + m < 255 by omega)
  refine chord_zero hb htwo htor (fun h => h0 ((nsmul_zero_iff hT _).1 h)) (signed_ne hT0 _) n1 n2 ?_ hs
    (nx := X c t row (m + 1)) (ny := Y c t row (m + 1)) ?_
  · rw [← hn]; exact (nsmul_zero_iff hT _).2 hz
  · have h := hP.chord m hm hmask
    rw [hbase.1] at h
    rw [enc_signed (hβ _ (by omega)), ← hA]
    exact h

theorem pair_chain (hb : ∀ y : F, y ^ 2 ≠ cb) (hT : addOrderOf T = r) (hT0 : T ≠ 0) (hP : Pair c t row g)
    (hβ : ∀ i < 255, β i < 2) {k : ℕ} (hk : k < 51) (hbit : ∀ m < 5, bitAt c t row m = (β (5 * k + m) : F))
    (hbase : t .witness (c.w 0) row = (enc T).1 ∧ t .witness (c.w 1) row = (enc T).2)
    (h0 : (X c t row 0, Y c t row 0) = enc (al β (5 * k) • T)) (m : ℕ) (hm : m ≤ 5)
    (hg : ∀ j < m, Good r β (5 * k + j)) (hmask : m ≤ 3 ∨ g) :
    (X c t row m, Y c t row m) = enc (al β (5 * k + m) • T) := by
  induction m with
  | zero => exact h0
  | succ m ih =>
    have h := ih (by omega) (fun j hj => hg j (by omega)) (hmask.imp_left fun h => by omega)
    exact pair_step hb hT hT0 hP hβ hk (by omega) (hbit m (by omega)) hbase h (hg m (by omega))
      (hmask.imp_left fun h => by omega)

/-- All pairs. -/
theorem full_chain (hb : ∀ y : F, y ^ 2 ≠ cb) (hT : addOrderOf T = r) (hT0 : T ≠ 0) {srow : ℤ}
    (hP : ∀ k : ℕ, k < 51 → Pair c t (srow + 1 + 2 * (k : ℤ)) (k < 50 ∨ g)) (hβ : ∀ i < 255, β i < 2)
    (hbit : ∀ k : ℕ, k < 51 → ∀ m < 5, bitAt c t (srow + 1 + 2 * (k : ℤ)) m = (β (5 * k + m) : F))
    (hbase : ∀ k : ℕ, k < 51 → t .witness (c.w 0) (srow + 1 + 2 * (k : ℤ)) = (enc T).1 ∧
      t .witness (c.w 1) (srow + 1 + 2 * (k : ℤ)) = (enc T).2)
    (hlink : ∀ k : ℕ, k < 50 → X c t (srow + 1 + 2 * ((k + 1 : ℕ) : ℤ)) 0 = X c t (srow + 1 + 2 * (k : ℤ)) 5 ∧
      Y c t (srow + 1 + 2 * ((k + 1 : ℕ) : ℤ)) 0 = Y c t (srow + 1 + 2 * (k : ℤ)) 5)
    (h0 : (X c t (srow + 1 + 2 * ((0 : ℕ) : ℤ)) 0, Y c t (srow + 1 + 2 * ((0 : ℕ) : ℤ)) 0) = enc ((2 : ℕ) • T)) (k : ℕ) (hk : k < 51) (m : ℕ) (hm : m ≤ 5)
    (hg : ∀ j < 5 * k + m, Good r β j) (hmask : 5 * k + m ≤ 253 ∨ g) :
    (X c t (srow + 1 + 2 * (k : ℤ)) m, Y c t (srow + 1 + 2 * (k : ℤ)) m) = enc (al β (5 * k + m) • T) := by
  have hfirst : ∀ k : ℕ, k < 51 → (∀ j < 5 * k, Good r β j) →
      (X c t (srow + 1 + 2 * (k : ℤ)) 0, Y c t (srow + 1 + 2 * (k : ℤ)) 0) = enc (al β (5 * k) • T) := by
    intro k
    induction k with
    | zero => intro _ _; exact h0
    | succ k ih =>
      intro hk hg
      have h1 := ih (by omega) (fun j hj => hg j (by omega))
      have h2 := pair_chain hb hT hT0 (hP k (by omega)) hβ (by omega) (hbit k (by omega)) (hbase k (by omega)) h1 5 le_rfl
        (fun j hj => hg _ (by omega)) (Or.inr (Or.inl (by omega)))
      rw [(hlink k (by omega)).1, (hlink k (by omega)).2]
      exact h2
  exact pair_chain hb hT hT0 (hP k hk) hβ hk (hbit k hk) (hbase k hk) (hfirst k hk fun j hj => hg j (by omega)) m hm
    (fun j hj => hg _ (by omega)) (by
      rcases hmask with h | h
      · by_cases h50 : k < 50
        · exact Or.inr (Or.inl h50)
        · left; omega
      · exact Or.inr (Or.inr h))

end chain

section sound
variable {p : ℕ} [Fact p.Prime] {K : Kind (ZMod p)} {c : Cols} {inp : In} {srow : ℤ} {t : Table (ZMod p)}

/-- The bits of a table. -/
def bt (c : Cols) (srow : ℤ) (t : Table (ZMod p)) (i : ℕ) : ℕ :=
  if bitAt c t (srow + 1 + 2 * ((i / 5 : ℕ) : ℤ)) (i % 5) = 1 then 1 else 0

theorem bt_lt (i : ℕ) : bt c srow t i < 2 := by unfold bt; split_ifs <;> omega

theorem facts_pairs (hf : Facts K c inp srow t) (k : ℕ) (hk : k < 51) :
    Pair c t (srow + 1 + 2 * (k : ℤ))
      (k < 50 ∨ t .witness (c.w 8) (srow + 103) * t .witness (c.w 2) (srow + 103) ≠ 0) := by
  by_cases h : k < 50
  · have := hf.pairs k h
    exact ⟨this.bit, this.slope, fun m hm _ => this.chord m hm (Or.inr trivial), this.acc⟩
  · have e : k = 50 := by omega
    subst e
    have := hf.last
    rw [show srow + 1 + 2 * ((50 : ℕ) : ℤ) = srow + 101 by push_cast; ring]
    exact ⟨this.bit, this.slope, fun m hm hg => this.chord m hm (hg.imp_right fun h => h.resolve_left (by omega)), this.acc⟩

theorem facts_bit (hf : Facts K c inp srow t) (k : ℕ) (hk : k < 51) (m : ℕ) (hm : m < 5) :
    bitAt c t (srow + 1 + 2 * (k : ℤ)) m = (bt c srow t (5 * k + m) : ZMod p) := by
  have h := (facts_pairs hf k hk).bit m hm
  unfold bt
  rw [show (5 * k + m) / 5 = k by omega, show (5 * k + m) % 5 = m by omega]
  rcases mul_eq_zero.1 h with h | h
  · rw [h, if_neg zero_ne_one]; simp
  · have : bitAt c t (srow + 1 + 2 * (k : ℤ)) m = 1 := by linear_combination -h
    rw [this, if_pos rfl]; simp

theorem facts_acc (hf : Facts K c inp srow t) (hcp : CopyFacts K c inp srow t) (hc0 : t .constant (c.w 0) (srow + 1) = 0)
    (k : ℕ) (hk : k < 51) :
    t .witness (c.w 4) (srow + 1 + 2 * (k : ℤ)) = (pre (bt c srow t) (5 * k) : ZMod p) ∧
    t .witness (c.w 5) (srow + 1 + 2 * (k : ℤ)) = (pre (bt c srow t) (5 * k + 5) : ZMod p) := by
  have step : ∀ k : ℕ, k < 51 → t .witness (c.w 4) (srow + 1 + 2 * (k : ℤ)) = (pre (bt c srow t) (5 * k) : ZMod p) →
      t .witness (c.w 5) (srow + 1 + 2 * (k : ℤ)) = (pre (bt c srow t) (5 * k + 5) : ZMod p) := by
    intro k hk h
    have ha := (facts_pairs hf k hk).acc
    rw [h, facts_bit hf k hk 0 (by omega), facts_bit hf k hk 1 (by omega), facts_bit hf k hk 2 (by omega),
      facts_bit hf k hk 3 (by omega), facts_bit hf k hk 4 (by omega)] at ha
    rw [ha]
    simp only [pre]
    push_cast
    ring
  induction k with
  | zero =>
    have h0 : t .witness (c.w 4) (srow + 1 + 2 * ((0 : ℕ) : ℤ)) = (pre (bt c srow t) (5 * 0) : ZMod p) := by
      simp [pre, hcp.n0, hc0]
    exact ⟨h0, step 0 (by omega) h0⟩
  | succ k ih =>
    have h1 := (ih (by omega)).2
    have h2 := hcp.n k (by omega)
    have h3 : t .witness (c.w 4) (srow + 1 + 2 * ((k + 1 : ℕ) : ℤ)) = (pre (bt c srow t) (5 * (k + 1)) : ZMod p) := by
      rw [h2, h1, show 5 * (k + 1) = 5 * k + 5 by ring]
    exact ⟨h3, step (k + 1) hk h3⟩

theorem oct_spec {x : ZMod p}
    (h : x * (x - 1) * (x - 2) * (x - 3) * (x - 4) * (x - 5) * (x - 6) * (x - 7) = 0) : ∃ a : ℕ, a < 8 ∧ x = (a : ZMod p) := by
  simp only [mul_eq_zero, sub_eq_zero] at h
  rcases h with ((((((h | h) | h) | h) | h) | h) | h) | h
  · exact ⟨0, by omega, by simp [h]⟩
  · exact ⟨1, by omega, by simp [h]⟩
  · exact ⟨2, by omega, by simp [h]⟩
  · exact ⟨3, by omega, by simp [h]⟩
  · exact ⟨4, by omega, by simp [h]⟩
  · exact ⟨5, by omega, by simp [h]⟩
  · exact ⟨6, by omega, by simp [h]⟩
  · exact ⟨7, by omega, by simp [h]⟩

theorem oct_eval (e : Expr (ZMod p)) (row : ℤ) : (oct e).eval t row =
    e.eval t row * (e.eval t row - 1) * (e.eval t row - 2) * (e.eval t row - 3) * (e.eval t row - 4) * (e.eval t row - 5) *
      (e.eval t row - 6) * (e.eval t row - 7) := by
  simp only [oct, Expr.eval_mul, Expr.eval_sub, Expr.eval_one, Expr.eval_two, Expr.eval_three, Expr.eval_const]

/-- The chain of chunks of `aux`. -/
theorem facts_aux (hf : Facts K c inp srow t) (hcp : CopyFacts K c inp srow t) (k : ℕ) (hk : k < 21) :
    ∃ U : ℕ, U < 64 ^ (k + 1) ∧ t .witness (c.w 14) (srow + 59 + 2 * (k : ℤ) + 1) = (U : ZMod p) := by
  have step : ∀ k : ℕ, k < 21 → ∀ V : ℕ, t .witness (c.w 6) (srow + 59 + 2 * (k : ℤ)) = (V : ZMod p) → V < 64 ^ k →
      ∃ U : ℕ, U < 64 ^ (k + 1) ∧ t .witness (c.w 14) (srow + 59 + 2 * (k : ℤ) + 1) = (U : ZMod p) := by
    intro k hk V hV hlt
    have h := hf.aux k hk
    simp only [gate3, List.forall_mem_cons, List.not_mem_nil, false_imp_iff, implies_true, and_true, oct_eval, Expr.eval_sub,
      Expr.eval_mul, Expr.eval_const, Cols.eval_wv, add_zero] at h
    obtain ⟨h1, h2, h3⟩ := h
    obtain ⟨a, ha, ea⟩ := oct_spec h1
    obtain ⟨b, hb, eb⟩ := oct_spec h2
    refine ⟨64 * V + 8 * a + b, by rw [pow_succ]; omega, ?_⟩
    rw [ea, eb, hV] at h3
    push_cast
    linear_combination h3
  induction k with
  | zero =>
    refine step 0 (by omega) 0 ?_ (by norm_num)
    have h1 := hcp.u0
    rw [hf.const0] at h1
    simpa using h1.symm
  | succ k ih =>
    obtain ⟨U, hU, eU⟩ := ih (by omega)
    exact step (k + 1) hk U (by rw [← hcp.u k (by omega), eU]) hU

/-- The obligations of the last row as equations. -/
structure LastFacts (K : Kind (ZMod p)) (c : Cols) (srow : ℤ) (t : Table (ZMod p)) : Prop where
  c17 : (t .witness (c.w 8) (srow + 103) * t .witness (c.w 2) (srow + 103) - 1) * t .witness (c.w 8) (srow + 103) = 0
  c18 : ((t .witness (c.w 5) (srow + 103) - K.shiftedMinusOne) * t .witness (c.w 3) (srow + 103) - 1) *
    (t .witness (c.w 5) (srow + 103) - K.shiftedMinusOne) = 0
  c19 : ((t .witness (c.w 5) (srow + 103) - K.shiftedOne) * t .witness (c.w 4) (srow + 103) - 1) *
    (t .witness (c.w 5) (srow + 103) - K.shiftedOne) = 0
  c20 : t .witness (c.w 8) (srow + 103) * t .witness (c.w 2) (srow + 103) * t .witness (c.w 0) (srow + 102) +
    ((t .witness (c.w 5) (srow + 103) - K.shiftedMinusOne) * t .witness (c.w 3) (srow + 103) -
      (t .witness (c.w 5) (srow + 103) - K.shiftedOne) * t .witness (c.w 4) (srow + 103)) *
    ((t .witness (c.w 5) (srow + 103) - K.shiftedMinusOne) * t .witness (c.w 3) (srow + 103) -
      (t .witness (c.w 5) (srow + 103) - K.shiftedOne) * t .witness (c.w 4) (srow + 103)) *
    t .witness (c.w 6) (srow + 103) = t .witness (c.w 0) (srow + 103)
  c21 : t .witness (c.w 8) (srow + 103) * t .witness (c.w 2) (srow + 103) * t .witness (c.w 1) (srow + 102) +
    ((t .witness (c.w 5) (srow + 103) - K.shiftedMinusOne) * t .witness (c.w 3) (srow + 103) -
      (t .witness (c.w 5) (srow + 103) - K.shiftedOne) * t .witness (c.w 4) (srow + 103)) *
    t .witness (c.w 7) (srow + 103) = t .witness (c.w 1) (srow + 103)
  c22 : t .witness (c.w 8) (srow + 103) = (t .witness (c.w 5) (srow + 103) - K.shiftedMinusOne) *
    (t .witness (c.w 5) (srow + 103) - K.shiftedZero) * (t .witness (c.w 5) (srow + 103) - K.shiftedOne)
  c23 : t .witness (c.w 12) (srow + 102) * (t .witness (c.w 12) (srow + 102) - 1) * (t .witness (c.w 12) (srow + 102) - 2) *
    (t .witness (c.w 12) (srow + 102) - 3) * (t .witness (c.w 12) (srow + 102) - 4) * (t .witness (c.w 12) (srow + 102) - 5) *
    (t .witness (c.w 12) (srow + 102) - 6) * (t .witness (c.w 12) (srow + 102) - 7) = 0
  c24 : t .witness (c.w 13) (srow + 102) * (t .witness (c.w 13) (srow + 102) - 1) = 0
  c25 : t .witness (c.w 14) (srow + 102) = 16 * t .witness (c.w 6) (srow + 101) + 2 * t .witness (c.w 12) (srow + 102) +
    t .witness (c.w 13) (srow + 102)
  c26 : t .witness (c.w 9) (srow + 103) * (t .witness (c.w 14) (srow + 102) - t .witness (c.w 12) (srow + 103)) = 0
  c27 : t .witness (c.w 9) (srow + 103) * (t .witness (c.w 10) (srow + 103) - 2 ^ 124) = 0
  c28 : t .witness (c.w 12) (srow + 103) = t .witness (c.w 11) (srow + 103) -
    (if K.pallas then 0 else t .witness (c.w 9) (srow + 103) * 2 ^ 254) - (if K.pallas then K.tq else K.tp) + 2 ^ 130
  c29 : K.pallas = true → t .witness (c.w 5) (srow + 101) = t .witness (c.w 11) (srow + 103) +
    t .witness (c.w 9) (srow + 103) * 2 ^ 254

theorem lastc_iff : (∀ e ∈ lastC K c, e.eval t (srow + 102) = 0) ↔ LastFacts K c srow t := by
  have r1 : srow + 102 + 1 = srow + 103 := by ring
  have r2 : srow + 102 + -1 = srow + 101 := by ring
  have e28 : ((if K.pallas then c.wv 12 1 - c.wv 11 1 + .const K.tq - .const (2 ^ 130)
      else c.wv 12 1 - c.wv 11 1 + c.wv 9 1 * .const (2 ^ 254) + .const K.tp - .const (2 ^ 130)) : Expr (ZMod p)).eval t
        (srow + 102) = 0 ↔ t .witness (c.w 12) (srow + 103) = t .witness (c.w 11) (srow + 103) -
    (if K.pallas then 0 else t .witness (c.w 9) (srow + 103) * 2 ^ 254) - (if K.pallas then K.tq else K.tp) + 2 ^ 130 := by
    split_ifs
    · simp only [Expr.eval_sub, Expr.eval_add, Expr.eval_const, Cols.eval_wv, r1]
      constructor <;> intro h <;> linear_combination h
    · simp only [Expr.eval_sub, Expr.eval_add, Expr.eval_mul, Expr.eval_const, Cols.eval_wv, r1]
      constructor <;> intro h <;> linear_combination h
  have e29 : ((if K.pallas then c.wv 5 (-1) - c.wv 11 1 - c.wv 9 1 * .const (2 ^ 254) else c.wv 9 0 - c.wv 9 0) :
      Expr (ZMod p)).eval t (srow + 102) = 0 ↔ (K.pallas = true → t .witness (c.w 5) (srow + 101) =
        t .witness (c.w 11) (srow + 103) + t .witness (c.w 9) (srow + 103) * 2 ^ 254) := by
    split_ifs with h
    · simp only [Expr.eval_sub, Expr.eval_mul, Expr.eval_const, Cols.eval_wv, r1, r2, h, true_imp_iff]
      constructor <;> intro h <;> linear_combination h
    · simp [h]
  unfold lastC
  simp only [List.forall_mem_cons, List.not_mem_nil, false_imp_iff, implies_true, and_true, e28, e29, oct_eval]
  simp only [Expr.eval_sub, Expr.eval_add, Expr.eval_mul, Expr.eval_const, Expr.eval_one, Expr.eval_two, Cols.eval_wv, r1, r2,
    add_zero]
  constructor
  · rintro ⟨h17, h18, h19, h20, h21, h22, h23, h24, h25, h26, h27, h28, h29⟩
    exact ⟨h17, h18, h19, by linear_combination h20, by linear_combination h21, by linear_combination h22, h23, h24,
      by linear_combination h25, h26, h27, h28, h29⟩
  · rintro ⟨h17, h18, h19, h20, h21, h22, h23, h24, h25, h26, h27, h28, h29⟩
    exact ⟨h17, h18, h19, by linear_combination h20, by linear_combination h21, by linear_combination h22, h23, h24,
      by linear_combination h25, h26, h27, h28, h29⟩

/-- What the last row makes of the chain. -/
theorem LastFacts.cases (h : LastFacts K c srow t) (h1 : K.shiftedMinusOne ≠ K.shiftedOne)
    (h2 : K.shiftedZero ≠ K.shiftedMinusOne) (h3 : K.shiftedZero ≠ K.shiftedOne) :
    (t .witness (c.w 5) (srow + 103) = K.shiftedMinusOne ∧ t .witness (c.w 0) (srow + 103) = t .witness (c.w 6) (srow + 103) ∧
      t .witness (c.w 1) (srow + 103) = -t .witness (c.w 7) (srow + 103)) ∨
    (t .witness (c.w 5) (srow + 103) = K.shiftedZero ∧ t .witness (c.w 0) (srow + 103) = 0 ∧
      t .witness (c.w 1) (srow + 103) = 0) ∨
    (t .witness (c.w 5) (srow + 103) = K.shiftedOne ∧ t .witness (c.w 0) (srow + 103) = t .witness (c.w 6) (srow + 103) ∧
      t .witness (c.w 1) (srow + 103) = t .witness (c.w 7) (srow + 103)) ∨
    ((t .witness (c.w 5) (srow + 103) ≠ K.shiftedMinusOne ∧ t .witness (c.w 5) (srow + 103) ≠ K.shiftedZero ∧
      t .witness (c.w 5) (srow + 103) ≠ K.shiftedOne) ∧
      t .witness (c.w 8) (srow + 103) * t .witness (c.w 2) (srow + 103) ≠ 0 ∧
      t .witness (c.w 0) (srow + 103) = t .witness (c.w 0) (srow + 102) ∧
      t .witness (c.w 1) (srow + 103) = t .witness (c.w 1) (srow + 102)) := by
  obtain ⟨c17, c18, c19, c20, c21, c22, -⟩ := h
  generalize t .witness (c.w 8) (srow + 103) = m at *
  generalize t .witness (c.w 2) (srow + 103) = t0 at *
  generalize t .witness (c.w 3) (srow + 103) = t1 at *
  generalize t .witness (c.w 4) (srow + 103) = t2 at *
  generalize t .witness (c.w 5) (srow + 103) = n at *
  by_cases a1 : n = K.shiftedMinusOne
  · left
    subst a1
    have hm : m = 0 := by rw [c22]; ring
    have hd : (K.shiftedMinusOne - K.shiftedOne) * t2 = 1 := by
      have := (mul_eq_zero.1 c19).resolve_right (sub_ne_zero.2 h1)
      linear_combination this
    rw [hm, hd] at c20 c21
    refine ⟨rfl, by linear_combination -c20, by linear_combination -c21⟩
  · have hd1 : (n - K.shiftedMinusOne) * t1 = 1 := by
      have := (mul_eq_zero.1 c18).resolve_right (sub_ne_zero.2 a1)
      linear_combination this
    right
    by_cases a3 : n = K.shiftedOne
    · right; left
      subst a3
      have hm : m = 0 := by rw [c22]; ring
      rw [hm, hd1] at c20 c21
      refine ⟨rfl, by linear_combination -c20, by linear_combination -c21⟩
    · have hd2 : (n - K.shiftedOne) * t2 = 1 := by
        have := (mul_eq_zero.1 c19).resolve_right (sub_ne_zero.2 a3)
        linear_combination this
      rw [hd1, hd2] at c20 c21
      by_cases a2 : n = K.shiftedZero
      · left
        subst a2
        have hm : m = 0 := by rw [c22]; ring
        rw [hm] at c20 c21
        exact ⟨rfl, by linear_combination -c20, by linear_combination -c21⟩
      · right; right
        have hm : m ≠ 0 := by
          rw [c22]
          exact mul_ne_zero (mul_ne_zero (sub_ne_zero.2 a1) (sub_ne_zero.2 a2)) (sub_ne_zero.2 a3)
        have ht : m * t0 = 1 := by
          have := (mul_eq_zero.1 c17).resolve_right hm
          linear_combination this
        rw [ht] at c20 c21 ⊢
        exact ⟨⟨a1, a2, a3⟩, one_ne_zero, by linear_combination -c20, by linear_combination -c21⟩

theorem pre_split {β : ℕ → ℕ} (hβ : ∀ i < 255, β i < 2) (i j : ℕ) (hij : i + j ≤ 255) :
    pre β i * 2 ^ j ≤ pre β (i + j) ∧ pre β (i + j) < (pre β i + 1) * 2 ^ j := by
  induction j with
  | zero => simp
  | succ j ih =>
    obtain ⟨h1, h2⟩ := ih (by omega)
    have hb := hβ (i + j) (by omega)
    rw [← add_assoc, pre, pow_succ, ← mul_assoc, ← mul_assoc]
    generalize pre β i * 2 ^ j = x at *
    generalize (pre β i + 1) * 2 ^ j = y at *
    omega

theorem cast_inj_of_lt {a b : ℕ} (ha : a < p) (hb : b < p) (h : (a : ZMod p) = (b : ZMod p)) : a = b := by
  have := (ZMod.natCast_eq_natCast_iff' _ _ _).1 h
  rwa [Nat.mod_eq_of_lt ha, Nat.mod_eq_of_lt hb] at this

/-- The integer of the bits: its value in the field, its relation to the inputs and the range check. -/
structure Scalar (K : Kind (ZMod p)) (c : Cols) (inp : In) (srow : ℤ) (t : Table (ZMod p)) (τ n : ℕ) : Prop where
  lt : n < 2 ^ 254 + τ
  cell : t .witness (c.w 5) (srow + 103) = (n : ZMod p)
  pallas : K.pallas = true → inp.bHigh.value t = ((n / 2 ^ 254 : ℕ) : ZMod p) ∧ inp.b.value t = ((n % 2 ^ 254 : ℕ) : ZMod p)
  vesta : K.pallas = false → inp.b.value t = (n : ZMod p)

theorem scalar (hp : 2 ^ 254 < p) {τ : ℕ} (ht : τ < 2 ^ 126)
    (hτ : (if K.pallas then K.tq else K.tp) = (τ : ZMod p)) (hf : Facts K c inp srow t) (hcp : CopyFacts K c inp srow t)
    (hl : LastFacts K c srow t) (hc0 : t .constant (c.w 0) (srow + 1) = 0)
    (hu : t .witness (c.w 14) (srow + 100) = t .witness (c.w 6) (srow + 101)) :
    Scalar K c inp srow t τ (pre (bt c srow t) 255) := by
  set β := bt c srow t with hβd
  have hβ : ∀ i < 255, β i < 2 := fun i _ => bt_lt i
  have hn5 : t .witness (c.w 5) (srow + 101) = (pre β 255 : ZMod p) := by
    have := (facts_acc hf hcp hc0 50 (by omega)).2
    rwa [show srow + 1 + 2 * ((50 : ℕ) : ℤ) = srow + 101 by push_cast; ring] at this
  have hn125 : t .witness (c.w 10) (srow + 103) = (pre β 125 : ZMod p) := by
    have := (facts_acc hf hcp hc0 24 (by omega)).2
    rw [show srow + 1 + 2 * ((24 : ℕ) : ℤ) = srow + 49 by push_cast; ring] at this
    rw [← hcp.e2, this]
  have hb0 : t .witness (c.w 9) (srow + 103) = (β 0 : ZMod p) := by
    have := facts_bit hf 0 (by omega) 0 (by omega)
    rw [← hcp.e1]
    rw [← this]
    simp only [bitAt]
    congr 1
    push_cast; ring
  have hs1 := pre_split hβ 1 254 (by omega)
  have hp1 : pre β 1 = β 0 := by simp [pre]
  rw [hp1, show 1 + 254 = 255 from rfl] at hs1
  have hb02 := hβ 0 (by omega)
  have hdiv : pre β 255 / 2 ^ 254 = β 0 := by
    rw [Nat.div_eq_iff (by positivity)]
    omega
  have hbc : inp.b.value t = t .witness (c.w 11) (srow + 103) := hcp.b
  have hlow : t .witness (c.w 11) (srow + 103) - (if K.pallas then 0 else t .witness (c.w 9) (srow + 103) * 2 ^ 254) =
      ((pre β 255 % 2 ^ 254 : ℕ) : ZMod p) := by
    have e : (pre β 255 : ZMod p) = ((2 ^ 254 * (pre β 255 / 2 ^ 254) + pre β 255 % 2 ^ 254 : ℕ) : ZMod p) := by
      rw [Nat.div_add_mod]
    rw [hdiv] at e
    generalize pre β 255 % 2 ^ 254 = low at e ⊢
    push_cast at e
    split_ifs with hk
    · have h29 := hl.c29 hk
      rw [hn5, hb0] at h29
      linear_combination e - h29
    · have hh := hcp.hi
      rw [if_neg hk, hn5] at hh
      rw [← hbc, hh, hb0]
      linear_combination e
  refine ⟨?_, by rw [hcp.nl, hn5], ?_, ?_⟩
  · by_cases h0 : β 0 = 0
    · rw [h0] at hs1; omega
    · have h1 : β 0 = 1 := by omega
      have e1 : t .witness (c.w 9) (srow + 103) = 1 := by rw [hb0, h1]; simp
      have h27 := hl.c27
      have h26 := hl.c26
      have h28 := hl.c28
      rw [e1, one_mul, hn125] at h27
      have h125 : pre β 125 = 2 ^ 124 := by
        have hlt := pre_lt hβ 125 (by omega)
        refine cast_inj_of_lt (p := p) (by omega) (by omega) ?_
        push_cast
        linear_combination h27
      have hs2 := pre_split hβ 125 130 (by omega)
      rw [h125, show 125 + 130 = 255 from rfl] at hs2
      obtain ⟨U, hU, eU⟩ := facts_aux hf hcp 20 (by omega)
      rw [show srow + 59 + 2 * ((20 : ℕ) : ℤ) + 1 = srow + 100 by push_cast; ring, hu] at eU
      obtain ⟨a, ha, ea⟩ := oct_spec hl.c23
      obtain ⟨b', hb', eb⟩ : ∃ b' : ℕ, b' < 2 ∧ t .witness (c.w 13) (srow + 102) = (b' : ZMod p) := by
        rcases mul_eq_zero.1 hl.c24 with h | h
        · exact ⟨0, by omega, by simp [h]⟩
        · exact ⟨1, by omega, by rw [sub_eq_zero.1 h]; simp⟩
      have h25 := hl.c25
      rw [ea, eb, eU] at h25
      rw [e1, one_mul, h25, h28, hlow, hτ] at h26
      have hU2 : U < 2 ^ 126 := by
        have : (64 : ℕ) ^ (20 + 1) = 2 ^ 126 := by norm_num
        omega
      have key : 16 * U + 2 * a + b' + τ = pre β 255 % 2 ^ 254 + 2 ^ 130 := by
        have hm : pre β 255 % 2 ^ 254 < 2 ^ 130 := by omega
        refine cast_inj_of_lt (p := p) (by omega) (by omega) ?_
        push_cast at h26 ⊢
        linear_combination h26
      omega
  · intro hk
    have hh := hcp.hi
    rw [if_pos hk] at hh
    rw [hdiv]
    refine ⟨by rw [hh, hcp.e1, hb0], ?_⟩
    rw [hbc, ← hlow, if_pos hk, sub_zero]
  · intro hk
    have hh := hcp.hi
    rw [if_neg (by simp [hk]), hn5] at hh
    exact hh

end sound

end VarBaseMul
end Verif
