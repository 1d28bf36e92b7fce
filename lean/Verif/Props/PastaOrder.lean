import Verif.Props.UnifiedAddition
import Mathlib.GroupTheory.OrderOfElement

/-!
# The generators of the Pasta curves have prime order

`(-1, 2)` on `y² = x³ + 5` over the two fields of the Pasta cycle. The multiple is computed on natural numbers with
every slope checked; each step is then an addition in Mathlib's group.
-/

namespace Verif
namespace PastaOrder
open UnifiedAddition

/-- `l` with `l * d = n`, if there is one. -/
def slope (p n d : ℕ) : Option ℕ :=
  let l := n * powMod p 256 d (p - 2) % p
  if l * d % p = n % p then some l else none

/-- The third point of the line, reflected. -/
def third (p l x1 y1 x2 : ℕ) : ℕ × ℕ :=
  let x := (l * l + (p - x1) + (p - x2)) % p
  (x, (l * (x1 + (p - x)) + (p - y1)) % p)

def dbl (p x y : ℕ) : Option (ℕ × ℕ) :=
  if 2 * y % p = 0 then none else
  match slope p (3 * x * x) (2 * y) with
  | none => none
  | some l => some (third p l x y x)

def add (p x1 y1 x2 y2 : ℕ) : Option (ℕ × ℕ) :=
  if x1 = x2 then none else
  match slope p (y2 + (p - y1)) (x2 + (p - x1)) with
  | none => none
  | some l => some (third p l x1 y1 x2)

/-- Most significant bit first. -/
def run (p gx gy : ℕ) : List Bool → ℕ → ℕ → Option (ℕ × ℕ)
  | [], x, y => some (x, y)
  | false :: bs, x, y =>
    match dbl p x y with
    | none => none
    | some q => run p gx gy bs q.1 q.2
  | true :: bs, x, y =>
    match dbl p x y with
    | none => none
    | some q =>
      match add p q.1 q.2 gx gy with
      | none => none
      | some q' => run p gx gy bs q'.1 q'.2

/-- The `k` bits of `n` below the leading one. -/
def bitsOf (k n : ℕ) : List Bool := (List.range k).map fun i => n.testBit (k - 1 - i)

theorem bitsOf_succ (k n : ℕ) : bitsOf (k + 1) n = n.testBit k :: bitsOf k n := by
  simp only [bitsOf, List.range_succ_eq_map, List.map_cons, List.map_map]
  congr 1
  apply List.map_congr_left
  intro i _
  simp only [Function.comp]
  congr 1
  omega

theorem foldl_bitsOf (k n m : ℕ) :
    (bitsOf k n).foldl (fun m b => 2 * m + b.toNat) m = m * 2 ^ k + n % 2 ^ k := by
  induction k generalizing m with
  | zero => simp [bitsOf, Nat.mod_one]
  | succ k ih =>
    rw [bitsOf_succ, List.foldl_cons, ih]
    have h : n % 2 ^ (k + 1) = 2 ^ k * (n.testBit k).toNat + n % 2 ^ k := by
      rw [Nat.mod_pow_succ, Nat.toNat_testBit]; ring
    rw [h]; ring

variable {p : ℕ} [Fact p.Prime]

theorem cast_sub_self {x : ℕ} (h : x ≤ p) : ((p - x : ℕ) : ZMod p) = -(x : ZMod p) := by
  rw [Nat.cast_sub h]; simp

theorem slope_spec {n d l : ℕ} (h : slope p n d = some l) : (l : ZMod p) * (d : ZMod p) = (n : ZMod p) := by
  simp only [slope] at h
  split_ifs at h with h1
  have e := (ZMod.natCast_eq_natCast_iff' _ _ _).2 h1
  rw [Option.some.inj h] at e
  push_cast at e
  exact e

theorem third_lt {l x1 y1 x2 : ℕ} : (third p l x1 y1 x2).1 < p ∧ (third p l x1 y1 x2).2 < p := by
  have hp := (Fact.out : p.Prime).pos
  exact ⟨Nat.mod_lt _ hp, Nat.mod_lt _ hp⟩

theorem third_spec {l x1 y1 x2 : ℕ} (h1 : x1 < p) (h2 : y1 < p) (h3 : x2 < p) :
    ((third p l x1 y1 x2).1 : ZMod p) = (l : ZMod p) ^ 2 - x1 - x2 ∧
    ((third p l x1 y1 x2).2 : ZMod p) = l * ((x1 : ZMod p) - ((third p l x1 y1 x2).1 : ZMod p)) - y1 := by
  have hx : ((third p l x1 y1 x2).1 : ZMod p) = (l : ZMod p) ^ 2 - x1 - x2 := by
    simp only [third]
    rw [ZMod.natCast_mod]
    push_cast
    rw [cast_sub_self h1.le, cast_sub_self h3.le]
    ring
  refine ⟨hx, ?_⟩
  have hl := (third_lt (p := p) (l := l) (x1 := x1) (y1 := y1) (x2 := x2)).1
  show (((l * (x1 + (p - (third p l x1 y1 x2).1)) + (p - y1)) % p : ℕ) : ZMod p) = _
  rw [ZMod.natCast_mod]
  push_cast
  rw [cast_sub_self h2.le, cast_sub_self hl.le]
  ring

/-- The state holds a point. -/
structure At {b : ZMod p} (P : (curve b).Point) (x y : ℕ) : Prop where
  ltx : x < p
  lty : y < p
  ne : P ≠ 0
  enc : enc P = ((x : ZMod p), (y : ZMod p))

theorem At.some {b : ZMod p} {P : (curve b).Point} {x y : ℕ} (h : At P x y) :
    ∃ hn, P = WeierstrassCurve.Affine.Point.some (x : ZMod p) (y : ZMod p) hn := by
  match P, h with
  | .zero, h => exact absurd rfl h.ne
  | .some u v hn, h =>
    have := h.enc
    simp only [UnifiedAddition.enc, Prod.mk.injEq] at this
    obtain ⟨rfl, rfl⟩ := this
    exact ⟨hn, rfl⟩

theorem enc_ne {b : ZMod p} (hb : ∀ y : ZMod p, y ^ 2 ≠ b) {P : (curve b).Point} {x y : ZMod p} (h : enc P = (x, y))
    (hxy : y ^ 2 = x ^ 3 + b) : P ≠ 0 := by
  rintro rfl
  rw [enc_zero] at h
  obtain ⟨rfl, rfl⟩ := Prod.mk.injEq .. ▸ h
  exact hb 0 (by rw [hxy]; ring)

theorem sum_ne {b : ZMod p} {P Q : (curve b).Point} {x y x' y' : ZMod p} (hP : enc P = (x, y)) (hQ : enc Q = (x', y'))
    (hne : x ≠ x') : P + Q ≠ 0 := by
  intro h
  have h1 : P = -Q := eq_neg_of_add_eq_zero_left h
  match Q with
  | .zero => 
    have : P = 0 := by rw [h1]; exact neg_zero
    rw [this] at hP
    apply hne
    have := hP.symm.trans hQ
    exact (Prod.mk.inj this).1
  | .some u v hn =>
    rw [h1] at hP
    have e : -(WeierstrassCurve.Affine.Point.some u v hn) = .some u _ ((WeierstrassCurve.Affine.nonsingular_neg ..).2 hn) := rfl
    rw [e] at hP
    have a := (Prod.mk.inj hP).1
    have c := (Prod.mk.inj hQ).1
    exact hne (a.symm.trans c)

theorem dbl_spec {b : ZMod p} {P : (curve b).Point} {x y x' y' : ℕ} (h : At P x y) (hd : dbl p x y = some (x', y')) :
    At ((2 : ℕ) • P) x' y' := by
  obtain ⟨hn, rfl⟩ := h.some
  simp only [dbl] at hd
  split_ifs at hd with h0
  cases hs : slope p (3 * x * x) (2 * y) with
  | none => rw [hs] at hd; simp at hd
  | some l =>
    rw [hs] at hd
    simp only [Option.some.injEq] at hd
    have hsl := slope_spec hs
    push_cast at hsl
    have h2y : (2 : ZMod p) * y ≠ 0 := by
      intro e
      apply h0
      have : ((2 * y : ℕ) : ZMod p) = 0 := by push_cast; exact e
      exact Nat.mod_eq_zero_of_dvd ((ZMod.natCast_eq_zero_iff _ _).1 this)
    have hyn : (y : ZMod p) ≠ -(y : ZMod p) := by
      intro e
      apply h2y
      linear_combination e
    obtain ⟨t1, t2⟩ := third_spec (p := p) (l := l) h.ltx h.lty h.ltx
    have hl := third_lt (p := p) (l := l) (x1 := x) (y1 := y) (x2 := x)
    rw [hd] at t1 t2 hl
    rw [two_nsmul]
    refine ⟨hl.1, hl.2, ?_, add_cases hn hn l _ _ (Or.inr ⟨rfl, hyn, by linear_combination hsl⟩) t1 t2⟩
    intro e
    have h1 := eq_neg_of_add_eq_zero_left e
    have e2 : -(WeierstrassCurve.Affine.Point.some (x : ZMod p) (y : ZMod p) hn) =
      .some (x : ZMod p) _ ((WeierstrassCurve.Affine.nonsingular_neg ..).2 hn) := rfl
    rw [e2] at h1
    have h3 := (WeierstrassCurve.Affine.Point.some.inj h1).2
    exact hyn (h3.trans (by simp [WeierstrassCurve.Affine.negY, curve]))

theorem add_spec {b : ZMod p} {P Q : (curve b).Point} {x y u v x' y' : ℕ} (h : At P x y) (hQ : At Q u v)
    (hd : add p x y u v = some (x', y')) : At (P + Q) x' y' := by
  obtain ⟨hn, rfl⟩ := h.some
  obtain ⟨hm, rfl⟩ := hQ.some
  simp only [add] at hd
  split_ifs at hd with h0
  cases hs : slope p (v + (p - y)) (u + (p - x)) with
  | none => rw [hs] at hd; simp at hd
  | some l =>
    rw [hs] at hd
    simp only [Option.some.injEq] at hd
    have hsl := slope_spec hs
    push_cast at hsl
    rw [cast_sub_self h.ltx.le, cast_sub_self h.lty.le] at hsl
    have hne : (x : ZMod p) ≠ (u : ZMod p) := by
      intro e
      apply h0
      have := (ZMod.natCast_eq_natCast_iff' _ _ _).1 e
      rwa [Nat.mod_eq_of_lt h.ltx, Nat.mod_eq_of_lt hQ.ltx] at this
    obtain ⟨t1, t2⟩ := third_spec (p := p) (l := l) h.ltx h.lty hQ.ltx
    have hl := third_lt (p := p) (l := l) (x1 := x) (y1 := y) (x2 := u)
    rw [hd] at t1 t2 hl
    exact ⟨hl.1, hl.2, sum_ne rfl rfl hne, add_cases hn hm l _ _ (Or.inl ⟨hne, by linear_combination hsl⟩) t1 t2⟩

theorem run_spec {b : ZMod p} {G : (curve b).Point} {gx gy : ℕ} (hG : At G gx gy) (bs : List Bool) (m x y x' y' : ℕ)
    (h : At (m • G) x y) (hr : run p gx gy bs x y = some (x', y')) :
    At ((bs.foldl (fun m b => 2 * m + b.toNat) m) • G) x' y' := by
  induction bs generalizing m x y with
  | nil =>
    simp only [run, Option.some.injEq, Prod.mk.injEq] at hr
    obtain ⟨rfl, rfl⟩ := hr
    exact h
  | cons a bs ih =>
    cases a with
    | false =>
      simp only [run] at hr
      cases hd : dbl p x y with
      | none => rw [hd] at hr; simp at hr
      | some q =>
        rw [hd] at hr
        have h1 := dbl_spec h hd
        rw [← mul_nsmul'] at h1
        exact ih _ _ _ h1 hr
    | true =>
      simp only [run] at hr
      cases hd : dbl p x y with
      | none => rw [hd] at hr; simp at hr
      | some q =>
        rw [hd] at hr
        have h1 := dbl_spec h hd
        rw [← mul_nsmul'] at h1
        simp only at hr
        cases ha : add p q.1 q.2 gx gy with
        | none => rw [ha] at hr; simp at hr
        | some q' =>
          rw [ha] at hr
          have h2 := add_spec h1 hG ha
          rw [← succ_nsmul] at h2
          exact ih _ _ _ h2 hr

theorem order_of_run {b : ZMod p} {G : (curve b).Point} {gx gy r : ℕ} (hG : At G gx gy) (hr : r.Prime)
    (h1 : 2 ^ 254 ≤ r - 1) (h2 : r - 1 < 2 ^ 255)
    (h : run p gx gy (bitsOf 254 (r - 1)) gx gy = some (gx, p - gy)) : addOrderOf G = r := by
  have k := run_spec hG _ 1 gx gy _ _ (by rw [one_nsmul]; exact hG) h
  rw [foldl_bitsOf] at k
  have e : 1 * 2 ^ 254 + (r - 1) % 2 ^ 254 = r - 1 := by omega
  rw [e] at k
  have hneg : (r - 1) • G = -G := by
    obtain ⟨hn, hG'⟩ := hG.some
    obtain ⟨hk, hk'⟩ := k.some
    rw [hk']
    conv_rhs => rw [hG']
    have e2 : -(WeierstrassCurve.Affine.Point.some (gx : ZMod p) (gy : ZMod p) hn) =
      .some (gx : ZMod p) _ ((WeierstrassCurve.Affine.nonsingular_neg ..).2 hn) := rfl
    rw [e2]
    congr 1
    rw [cast_sub_self hG.lty.le]
    simp [WeierstrassCurve.Affine.negY, curve]
  have h0 : r • G = 0 := by
    have : r = r - 1 + 1 := by omega
    rw [this, succ_nsmul, hneg]
    exact neg_add_cancel G
  have : Fact r.Prime := ⟨hr⟩
  exact addOrderOf_eq_prime h0 hG.ne

set_option maxRecDepth 10000
theorem pallas_run :
    run pallasP (pallasP - 1) 2 (bitsOf 254 (vestaP - 1)) (pallasP - 1) 2 = some (pallasP - 1, pallasP - 2) := by
  decide +kernel

theorem vesta_run :
    run vestaP (vestaP - 1) 2 (bitsOf 254 (pallasP - 1)) (vestaP - 1) 2 = some (vestaP - 1, vestaP - 2) := by
  decide +kernel

theorem gen_nonsing (h2 : (2 : ZMod p) ≠ 0) : (curve (5 : ZMod p)).Nonsingular ((p - 1 : ℕ) : ZMod p) ((2 : ℕ) : ZMod p) := by
  have hp := (Fact.out : p.Prime).one_le
  rw [WeierstrassCurve.Affine.nonsingular_iff, WeierstrassCurve.Affine.equation_iff]
  rw [cast_sub_self hp]
  push_cast
  refine ⟨by simp only [curve]; ring, Or.inr ?_⟩
  simp only [curve]
  intro h
  have : (2 : ZMod p) * 2 = 0 := by linear_combination h
  rcases mul_eq_zero.1 this with h | h <;> exact h2 h

/-- The point `(-1, 2)` of the Pallas curve. -/
def pallasG : (curve (5 : ZMod pallasP)).Point := .some _ _ (gen_nonsing pallas_ok.2.1)

/-- The point `(-1, 2)` of the Vesta curve. -/
def vestaG : (curve (5 : ZMod vestaP)).Point := .some _ _ (gen_nonsing vesta_ok.2.1)

theorem pallasG_order : addOrderOf pallasG = vestaP :=
  order_of_run (gx := pallasP - 1) (gy := 2)
    ⟨by decide +kernel, by decide +kernel, WeierstrassCurve.Affine.Point.some_ne_zero _, rfl⟩ vesta_prime (by decide +kernel)
    (by decide +kernel) pallas_run

theorem vestaG_order : addOrderOf vestaG = pallasP :=
  order_of_run (gx := vestaP - 1) (gy := 2)
    ⟨by decide +kernel, by decide +kernel, WeierstrassCurve.Affine.Point.some_ne_zero _, rfl⟩ pallas_prime (by decide +kernel)
    (by decide +kernel) vesta_run

end PastaOrder
end Verif
