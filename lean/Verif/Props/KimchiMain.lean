import Verif.Props.Kimchi
import Mathlib.RingTheory.RootsOfUnity.PrimitiveRoots
import Mathlib.LinearAlgebra.Lagrange

/-!
# Components of the kimchi verifier on their own

Every theorem is about a single component placed at row `row`: in each table that satisfies its obligations the output has the specified value, and the table the
component fills satisfies the obligations. `Before row v` says that `v` is not a cell of the rows from `row` on.
-/

set_option linter.unusedSectionVars false
set_option linter.unusedVariables false

namespace Verif
namespace Kimchi

variable {p : ℕ} [hp : Fact p.Prime]

/-- The variable is not a witness cell from row `row` on. -/
def Before (row : ℤ) (v : Var) : Prop := v.type = .witness → v.rotation < row

/-- The given variables. -/
def given (row : ℤ) : Set Arg := {a | ∃ v, Before row v ∧ a = .ext v}

theorem given_in {row : ℤ} : ∀ a ∈ given row, a.In row 0 := by
  rintro a ⟨v, hv, rfl⟩; exact hv

theorem mem_given {row : ℤ} {v : Var} (h : Before row v) : Arg.ext v ∈ given row := ⟨v, h, rfl⟩

/-- The component fills a table that satisfies its obligations and leaves all other rows alone. -/
def Accepted {α : Type} (m : Bld p α) (row : ℤ) (t : Table (ZMod p)) : Prop :=
  Sat (assignOf m row (writeConsts (circuitOf m row) t)) (circuitOf m row) ∧
    ∀ ty i r, ty ≠ .witness ∨ r < row ∨ row + heightOf m ≤ r → assignOf m row (writeConsts (circuitOf m row) t) ty i r = writeConsts (circuitOf m row) t ty i r

theorem accepted_of {α : Type} {m : Bld p α} {row : ℤ} {F D : (Arg → ZMod p) → Prop} {O : α → Set Arg} {Q : (Arg → ZMod p) → α → Prop}
    (h : Tri row (given row) F D m O Q) (t : Table (ZMod p))
    (hD : ∀ V : Arg → ZMod p, (∀ v, V (.ext v) = v.value (writeConsts (circuitOf m row) t)) → F V ∧ D V) : Accepted m row t := by
  obtain ⟨h1, h2⟩ := h.complete given_in t hD
  refine ⟨h1, fun ty i r hr => h2 ty i r ?_⟩
  rw [rowAt_height]
  exact hr

/-- The value of an operand in a table. -/
def valOf {α : Type} (m : Bld p α) (row : ℤ) (t : Table (ZMod p)) (a : Arg) : ZMod p := (varOf m row a).value t

/-- The value of the output in a table. -/
def outVal (m : Bld p Arg) (row : ℤ) (t : Table (ZMod p)) : ZMod p := valOf m row t (resultOf m)

theorem sound_of {α : Type} {m : Bld p α} {F : (Arg → ZMod p) → Prop} {O : α → Set Arg} {Q : (Arg → ZMod p) → α → Prop}
    (h : Tri 0 Set.univ F (fun _ => False) m O Q) {row : ℤ} {t : Table (ZMod p)} (hF : F (valOf m row t)) (hs : Sat t (circuitOf m row)) :
    Q (valOf m row t) (resultOf m) := h.sound hF hs

/-! ### zk_w3, zkpm_evaluate, vanishes_on_last_4_rows -/

/-- zk_w3: the output is the power of omega that starts the last three rows. -/
theorem zkW3_sound {n : ℕ} (h3 : 3 ≤ n) (hn : n < 2 ^ 64) (h64 : 2 ^ 64 ≤ p) (g : Var) (row : ℤ) (t : Table (ZMod p))
    (h : Sat t (circuitOf (zkW3 n (.ext g)) row)) : outVal (zkW3 n (.ext g)) row t = g.value t ^ (n - 3) :=
  sound_of (zkW3_tri (F := fun _ => True) trivial h3 hn h64) trivial h

theorem zkW3_complete {n : ℕ} (h3 : 3 ≤ n) (hn : n < 2 ^ 64) (h64 : 2 ^ 64 ≤ p) (g : Var) (row : ℤ) (hg : Before row g) (t : Table (ZMod p)) :
    Accepted (zkW3 n (.ext g)) row t :=
  accepted_of (zkW3_tri (F := fun _ => True) (D := fun _ => True) (mem_given hg) h3 hn h64) t fun _ _ => ⟨trivial, trivial⟩

/-- zkpm_evaluate: the polynomial that vanishes on the last three rows of the domain. -/
theorem zkpm_sound {n : ℕ} (h3 : 3 ≤ n) (hn : n < 2 ^ 64) (h64 : 2 ^ 64 ≤ p) (g x : Var) (row : ℤ) (t : Table (ZMod p))
    (h : Sat t (circuitOf (zkpm n (.ext g) (.ext x)) row)) :
    outVal (zkpm n (.ext g) (.ext x)) row t = ∏ i ∈ Finset.Ico (n - 3) n, (x.value t - g.value t ^ i) := by
  have := sound_of (zkpm_tri (F := fun _ => True) trivial trivial h3 hn h64) trivial h
  rw [outVal, this]
  obtain ⟨m, rfl⟩ := Nat.exists_eq_add_of_le h3
  rw [Finset.prod_Ico_eq_prod_range, show 3 + m - (3 + m - 3) = 3 by omega, Finset.prod_range_succ, Finset.prod_range_succ, Finset.prod_range_one,
    show 3 + m - 3 = m by omega, show 3 + m - 2 = m + 1 by omega, show 3 + m - 1 = m + 2 by omega]
  rfl

theorem zkpm_complete {n : ℕ} (h3 : 3 ≤ n) (hn : n < 2 ^ 64) (h64 : 2 ^ 64 ≤ p) (g x : Var) (row : ℤ) (hg : Before row g) (hx : Before row x) (t : Table (ZMod p)) :
    Accepted (zkpm n (.ext g) (.ext x)) row t :=
  accepted_of (zkpm_tri (F := fun _ => True) (D := fun _ => True) (mem_given hg) (mem_given hx) h3 hn h64) t fun _ _ => ⟨trivial, trivial⟩

/-- vanishes_on_last_4_rows. -/
theorem vanishes4_sound {n : ℕ} (h4 : 4 ≤ n) (hn : n < 2 ^ 64) (h64 : 2 ^ 64 ≤ p) (g x : Var) (row : ℤ) (t : Table (ZMod p))
    (h : Sat t (circuitOf (vanishes4 n (.ext g) (.ext x)) row)) :
    outVal (vanishes4 n (.ext g) (.ext x)) row t = ∏ i ∈ Finset.Ico (n - 4) n, (x.value t - g.value t ^ i) := by
  have := sound_of (vanishes4_tri (F := fun _ => True) trivial trivial h4 hn h64) trivial h
  rw [outVal, this]
  obtain ⟨m, rfl⟩ := Nat.exists_eq_add_of_le h4
  rw [Finset.prod_Ico_eq_prod_range, show 4 + m - (4 + m - 4) = 4 by omega, Finset.prod_range_succ, Finset.prod_range_succ, Finset.prod_range_succ, Finset.prod_range_one,
    show 4 + m - 4 = m by omega, show 4 + m - 3 = m + 1 by omega, show 4 + m - 2 = m + 2 by omega, show 4 + m - 1 = m + 3 by omega]
  rfl

theorem vanishes4_complete {n : ℕ} (h4 : 4 ≤ n) (hn : n < 2 ^ 64) (h64 : 2 ^ 64 ≤ p) (g x : Var) (row : ℤ) (hg : Before row g) (hx : Before row x) (t : Table (ZMod p)) :
    Accepted (vanishes4 n (.ext g) (.ext x)) row t :=
  accepted_of (vanishes4_tri (F := fun _ => True) (D := fun _ => True) (mem_given hg) (mem_given hx) h4 hn h64) t fun _ _ => ⟨trivial, trivial⟩

/-- With a primitive root of order `n` the result of zkpm_evaluate is zero exactly on the last three points of the domain. -/
theorem zkpm_zero_iff {n : ℕ} (h3 : 3 ≤ n) (hn : n < 2 ^ 64) (h64 : 2 ^ 64 ≤ p) (g x : Var) (row : ℤ) (t : Table (ZMod p)) (hg : IsPrimitiveRoot (g.value t) n)
    {k : ℕ} (hk : k < n) (hx : x.value t = g.value t ^ k) (h : Sat t (circuitOf (zkpm n (.ext g) (.ext x)) row)) :
    outVal (zkpm n (.ext g) (.ext x)) row t = 0 ↔ n - 3 ≤ k := by
  rw [zkpm_sound h3 hn h64 g x row t h, Finset.prod_eq_zero_iff]
  constructor
  · rintro ⟨i, hi, e⟩
    rw [Finset.mem_Ico] at hi
    rw [hx, sub_eq_zero] at e
    rw [hg.pow_inj hk hi.2 e]
    exact hi.1
  · exact fun h => ⟨k, Finset.mem_Ico.2 ⟨h, hk⟩, by rw [hx, sub_self]⟩

/-! ### unnormalized_lagrange_basis -/

/-- The output times `x - omega^i` is `x^n - 1`, and `x` is not the point of the domain. -/
theorem lagrangeBasis_sound {n : ℕ} {i : ℤ} (hi : -n ≤ i) (hi2 : i < 2 ^ 31) (hn : n < 2 ^ 64) (h64 : 2 ^ 64 ≤ p) (g x : Var) (row : ℤ) (t : Table (ZMod p))
    (h : Sat t (circuitOf (lagrangeBasis n i (.ext g) (.ext x)) row)) :
    x.value t ≠ g.value t ^ basisIndex n i ∧ outVal (lagrangeBasis n i (.ext g) (.ext x)) row t *
      (x.value t - g.value t ^ basisIndex n i) = x.value t ^ n - 1 :=
  sound_of (lagrangeBasis_tri (F := fun _ => True) trivial trivial hi hi2 hn h64 fun _ h => h.elim) trivial h

theorem lagrangeBasis_complete {n : ℕ} {i : ℤ} (hi : -n ≤ i) (hi2 : i < 2 ^ 31) (hn : n < 2 ^ 64) (h64 : 2 ^ 64 ≤ p) (g x : Var) (row : ℤ) (hg : Before row g)
    (hx : Before row x) (t : Table (ZMod p))
    (hne : x.value (writeConsts (circuitOf (lagrangeBasis n i (.ext g) (.ext x)) row) t) ≠
      g.value (writeConsts (circuitOf (lagrangeBasis n i (.ext g) (.ext x)) row) t) ^ basisIndex n i) :
    Accepted (lagrangeBasis n i (.ext g) (.ext x)) row t :=
  accepted_of (lagrangeBasis_tri (F := fun _ => True) (D := fun V => V (.ext x) ≠ V (.ext g) ^ basisIndex n i) (mem_given hg) (mem_given hx) hi hi2 hn h64 fun _ h => h) t
    fun V hV => ⟨trivial, by rw [hV, hV]; exact hne⟩

/-- At the point of the domain the basis polynomial is `n / omega^i`, not an error; the component rejects it with every table. -/
theorem lagrangeBasis_incomplete {n : ℕ} {i : ℤ} (hi : -n ≤ i) (hi2 : i < 2 ^ 31) (hn : n < 2 ^ 64) (h64 : 2 ^ 64 ≤ p) (g x : Var) (row : ℤ) (t : Table (ZMod p))
    (hx : x.value t = g.value t ^ basisIndex n i) : ¬Sat t (circuitOf (lagrangeBasis n i (.ext g) (.ext x)) row) :=
  fun h => (lagrangeBasis_sound hi hi2 hn h64 g x row t h).1 hx

/-! ### b_poly, b_poly_coefficients, prev_chal_evals -/

section
variable (n : ℕ) (ch : ℕ → Var) (one : Var) (row : ℤ)

theorem bPoly_sound (x : Var) (t : Table (ZMod p)) (h1 : one.value t = 1)
    (h : Sat t (circuitOf (bPoly n (fun i => .ext (ch i)) (.ext x) (.ext one)) row)) :
    outVal (bPoly n (fun i => .ext (ch i)) (.ext x) (.ext one)) row t =
      bAt n (fun i => (ch i).value t) (x.value t) :=
  sound_of (bPoly_tri (F := fun V => V (.ext one) = 1) (fun _ _ => trivial) trivial trivial fun _ h => h) h1 h

theorem bPoly_complete (x : Var) (hc : ∀ i < n, Before row (ch i)) (hx : Before row x) (ho : Before row one) (t : Table (ZMod p))
    (h1 : one.value (writeConsts (circuitOf (bPoly (p := p) n (fun i => .ext (ch i)) (.ext x) (.ext one)) row) t) = 1) :
    Accepted (bPoly (p := p) n (fun i => .ext (ch i)) (.ext x) (.ext one)) row t :=
  accepted_of (bPoly_tri (F := fun V => V (.ext one) = 1) (D := fun _ => True) (fun i hi => mem_given (hc i hi)) (mem_given hx) (mem_given ho) fun _ h => h) t
    fun V hV => ⟨by rw [hV]; exact h1, trivial⟩

theorem bPolyCoeffs_sound (t : Table (ZMod p)) (h1 : one.value t = 1) (h : Sat t (circuitOf (bPolyCoeffs n (fun i => .ext (ch i)) (.ext one)) row)) (j : ℕ)
    (hj : j < 2 ^ n) :
    valOf (bPolyCoeffs n (fun i => .ext (ch i)) (.ext one)) row t ((resultOf (bPolyCoeffs (p := p) n (fun i => .ext (ch i)) (.ext one))).out j) =
      bCoef n (fun i => (ch i).value t) j :=
  sound_of (bPolyCoeffs_tri (F := fun V => V (.ext one) = 1) (fun _ _ => trivial) trivial fun _ h => h) h1 h j hj

theorem bPolyCoeffs_complete (hc : ∀ i < n, Before row (ch i)) (ho : Before row one) (t : Table (ZMod p))
    (h1 : one.value (writeConsts (circuitOf (bPolyCoeffs (p := p) n (fun i => .ext (ch i)) (.ext one)) row) t) = 1) :
    Accepted (bPolyCoeffs (p := p) n (fun i => .ext (ch i)) (.ext one)) row t :=
  accepted_of (bPolyCoeffs_tri (F := fun V => V (.ext one) = 1) (D := fun _ => True) (fun i hi => mem_given (hc i hi)) (mem_given ho) fun _ h => h) t
    fun V hV => ⟨by rw [hV]; exact h1, trivial⟩

/-- Both components speak of the same polynomial: the coefficients of one are the coefficients of the polynomial evaluated by the other. -/
theorem bPoly_coeffs_agree (x : Var) (t : Table (ZMod p)) (h1 : one.value t = 1) (row' : ℤ)
    (h : Sat t (circuitOf (bPoly n (fun i => .ext (ch i)) (.ext x) (.ext one)) row)) (h' : Sat t (circuitOf (bPolyCoeffs n (fun i => .ext (ch i)) (.ext one)) row')) :
    outVal (bPoly n (fun i => .ext (ch i)) (.ext x) (.ext one)) row t =
      ∑ j ∈ Finset.range (2 ^ n), valOf (bPolyCoeffs n (fun i => .ext (ch i)) (.ext one)) row' t
        ((resultOf (bPolyCoeffs (p := p) n (fun i => .ext (ch i)) (.ext one))).out j) * x.value t ^ j := by
  rw [bPoly_sound n ch one row x t h1 h, bAt_eq]
  exact Finset.sum_congr rfl fun j hj => by rw [bPolyCoeffs_sound n ch one row' t h1 h' j (Finset.mem_range.1 hj)]

variable (M : ℕ) (x pw : Fin 2 → Var) (zero : Var)

/-- `prev_chal_evals` with two chunks, all operands given. -/
abbrev chunks : Bld p (Fin 2 → Arg × Arg) :=
  prevChalEvals n M (fun i => .ext (ch i)) (fun i => .ext (x i)) (fun i => .ext (pw i)) (.ext one) (.ext zero)

/-- The outputs are the evaluations of the coefficients below and from `max_poly_size` on, if the powers given are those of the points. -/
theorem prevChalEvals_sound (t : Table (ZMod p)) (h1 : one.value t = 1) (h0 : zero.value t = 0) (hw : ∀ i, (pw i).value t = (x i).value t ^ M)
    (h : Sat t (circuitOf (chunks n ch one M x pw zero) row)) (i : Fin 2) :
    valOf (chunks n ch one M x pw zero) row t (resultOf (chunks (p := p) n ch one M x pw zero) i).1 =
        ∑ j ∈ (Finset.range (2 ^ n)).filter (· < M), bCoef n (fun i => (ch i).value t) j * (x i).value t ^ j ∧
      valOf (chunks n ch one M x pw zero) row t (resultOf (chunks (p := p) n ch one M x pw zero) i).2 =
        ∑ j ∈ (Finset.range (2 ^ n)).filter (M ≤ ·), bCoef n (fun i => (ch i).value t) j * (x i).value t ^ (j - M) :=
  sound_of (prevChalEvals_tri (F := fun V => V (.ext one) = 1 ∧ V (.ext zero) = 0 ∧ ∀ i, V (.ext (pw i)) = V (.ext (x i)) ^ M) (fun _ _ => trivial) (fun _ => trivial)
    (fun _ => trivial) trivial trivial fun _ h => h) ⟨h1, h0, hw⟩ h i

theorem prevChalEvals_complete (hc : ∀ i < n, Before row (ch i)) (hx : ∀ i, Before row (x i)) (hpw : ∀ i, Before row (pw i)) (ho : Before row one) (hz : Before row zero)
    (t : Table (ZMod p)) (h1 : one.value (writeConsts (circuitOf (chunks (p := p) n ch one M x pw zero) row) t) = 1)
    (h0 : zero.value (writeConsts (circuitOf (chunks (p := p) n ch one M x pw zero) row) t) = 0)
    (hw : ∀ i, (pw i).value (writeConsts (circuitOf (chunks (p := p) n ch one M x pw zero) row) t) =
      (x i).value (writeConsts (circuitOf (chunks (p := p) n ch one M x pw zero) row) t) ^ M) :
    Accepted (chunks (p := p) n ch one M x pw zero) row t :=
  accepted_of (prevChalEvals_tri (F := fun V => V (.ext one) = 1 ∧ V (.ext zero) = 0 ∧ ∀ i, V (.ext (pw i)) = V (.ext (x i)) ^ M) (D := fun _ => True)
    (fun i hi => mem_given (hc i hi)) (fun i => mem_given (hx i)) (fun i => mem_given (hpw i)) (mem_given ho) (mem_given hz) fun _ h => h) t
    fun V hV => ⟨⟨by rw [hV]; exact h1, by rw [hV]; exact h0, fun i => by rw [hV, hV]; exact hw i⟩, trivial⟩

/-- With one chunk the outputs are the evaluations at the two points. -/
theorem prevChalEval1_sound (t : Table (ZMod p)) (h1 : one.value t = 1)
    (h : Sat t (circuitOf (prevChalEval1 n (fun i => .ext (ch i)) (fun i => .ext (x i)) (.ext one)) row)) (i : Fin 2) :
    valOf (prevChalEval1 n (fun i => .ext (ch i)) (fun i => .ext (x i)) (.ext one)) row t
      (resultOf (prevChalEval1 (p := p) n (fun i => .ext (ch i)) (fun i => .ext (x i)) (.ext one)) i) =
        ∑ j ∈ Finset.range (2 ^ n), bCoef n (fun i => (ch i).value t) j * (x i).value t ^ j := by
  rw [← bAt_eq]
  exact sound_of (prevChalEval1_tri (F := fun V => V (.ext one) = 1) (fun _ _ => trivial) (fun _ => trivial) trivial fun _ h => h) h1 h i

end

/-! ### Evaluation of the public input -/

open Polynomial in
theorem nodal_roots {n : ℕ} (hn : 0 < n) {w : ZMod p} (hw : IsPrimitiveRoot w n) : Lagrange.nodal (Finset.range n) (fun i => w ^ i) = X ^ n - 1 := by
  have inj : Set.InjOn (fun i : ℕ => w ^ i) (Finset.range n : Set ℕ) := fun i hi j hj h =>
    hw.pow_inj (Finset.mem_range.1 (Finset.mem_coe.1 hi)) (Finset.mem_range.1 (Finset.mem_coe.1 hj)) h
  have hm : (X ^ n - 1 : (ZMod p)[X]).Monic := monic_X_pow_sub_C 1 hn.ne'
  have hd : (X ^ n - 1 : (ZMod p)[X]).degree = n := degree_X_pow_sub_C hn 1
  refine Polynomial.eq_of_degree_sub_lt_of_eval_index_eq (Finset.range n) inj ?_ fun i hi => ?_
  · refine (degree_sub_lt ?_ (Lagrange.nodal_ne_zero) ?_).trans_le ?_
    · rw [Lagrange.degree_nodal, hd, Finset.card_range]
    · rw [Lagrange.nodal_monic.leadingCoeff, hm.leadingCoeff]
    · rw [Lagrange.degree_nodal]
  · rw [Lagrange.eval_nodal_at_node hi]
    simp [← pow_mul, mul_comm i n, pow_mul w n i, hw.pow_eq_one]

/-- Lagrange interpolation over a subgroup: a polynomial of degree less than `n` with the given values at the first `N` points and zero at the others. -/
theorem interpolation {n N : ℕ} (hn : 0 < n) (hN : N ≤ n) {w : ZMod p} (hw : IsPrimitiveRoot w n) (P : Polynomial (ZMod p)) (hP : P.degree < n) (v : ℕ → ZMod p)
    (hv : ∀ i < n, P.eval (w ^ i) = if i < N then v i else 0) {z : ZMod p} (hz : ∀ i < n, z ≠ w ^ i) :
    P.eval z = (∑ i ∈ Finset.range N, (z - w ^ i)⁻¹ * v i * w ^ i) * ((z ^ n - 1) / n) := by
  have inj : Set.InjOn (fun i : ℕ => w ^ i) (Finset.range n : Set ℕ) := fun i hi j hj h =>
    hw.pow_inj (Finset.mem_range.1 (Finset.mem_coe.1 hi)) (Finset.mem_range.1 (Finset.mem_coe.1 hj)) h
  have e := Lagrange.eq_interpolate_of_eval_eq (s := Finset.range n) (fun i : ℕ => if i < N then v i else 0) inj
    (by rw [Finset.card_range]; exact hP) (fun i hi => hv i (Finset.mem_range.1 hi))
  have hwn : w ≠ 0 := hw.ne_zero hn.ne'
  rw [e, Lagrange.eval_interpolate_not_at_node _ (fun i hi => hz i (Finset.mem_range.1 hi)), nodal_roots hn hw, mul_comm]
  have hdv : ∀ i ∈ Finset.range n, Lagrange.nodalWeight (Finset.range n) (fun i => w ^ i) i = w ^ i / n := fun i hi => by
    rw [Lagrange.nodalWeight_eq_eval_derivative_nodal hi, nodal_roots hn hw]
    simp only [Polynomial.derivative_sub, Polynomial.derivative_X_pow, Polynomial.derivative_one, sub_zero, Polynomial.eval_mul, Polynomial.eval_pow, Polynomial.eval_X,
      Polynomial.eval_C]
    have h1 : (w ^ i) ^ (n - 1) * w ^ i = 1 := by
      rw [← pow_succ, Nat.sub_add_cancel hn, ← pow_mul, mul_comm, pow_mul, hw.pow_eq_one, one_pow]
    have h2 : (w ^ i) ^ (n - 1) = (w ^ i)⁻¹ := eq_inv_of_mul_eq_one_left h1
    rw [h2, mul_inv, inv_inv, div_eq_mul_inv, mul_comm]
  have hs : ∑ i ∈ Finset.range n, Lagrange.nodalWeight (Finset.range n) (fun i => w ^ i) i * (z - w ^ i)⁻¹ * (if i < N then v i else 0) =
      ∑ i ∈ Finset.range N, (z - w ^ i)⁻¹ * v i * w ^ i * (n : ZMod p)⁻¹ := by
    rw [← Finset.sum_subset (Finset.range_subset_range.2 hN)]
    · refine Finset.sum_congr rfl fun i hi => ?_
      rw [Finset.mem_range] at hi
      rw [hdv i (Finset.mem_range.2 (by omega)), if_pos hi]
      ring
    · intro i _ hi
      rw [Finset.mem_range] at hi
      rw [if_neg hi, mul_zero]
  rw [hs, ← Finset.sum_mul]
  simp only [Polynomial.eval_sub, Polynomial.eval_pow, Polynomial.eval_X, Polynomial.eval_one]
  ring

section
variable (N : ℕ) (om : ℕ → Var) (one : Var) (row : ℤ)

/-- lagrange_denominators: the outputs are the inverses, and neither point is one of the powers given. -/
theorem lagrangeDenominators_sound (z zo : Var) (t : Table (ZMod p)) (h1 : one.value t = 1)
    (h : Sat t (circuitOf (lagrangeDenominators N (.ext z) (.ext zo) (fun i => .ext (om i)) (.ext one)) row)) (i : ℕ) (hi : i < N) :
    (z.value t ≠ (om i).value t ∧ valOf (lagrangeDenominators N (.ext z) (.ext zo) (fun i => .ext (om i)) (.ext one)) row t
        (resultOf (lagrangeDenominators (p := p) N (.ext z) (.ext zo) (fun i => .ext (om i)) (.ext one)) i) = (z.value t - (om i).value t)⁻¹) ∧
      (zo.value t ≠ (om i).value t ∧ valOf (lagrangeDenominators N (.ext z) (.ext zo) (fun i => .ext (om i)) (.ext one)) row t
        (resultOf (lagrangeDenominators (p := p) N (.ext z) (.ext zo) (fun i => .ext (om i)) (.ext one)) (N + i)) = (zo.value t - (om i).value t)⁻¹) := by
  obtain ⟨⟨a, b⟩, c, d⟩ := sound_of (lagrangeDenominators_tri (F := fun V => V (.ext one) = 1) trivial trivial trivial (fun _ _ => trivial) (fun _ h => h)
    fun _ h => h.elim) h1 h i hi
  exact ⟨⟨a, eq_inv_of_mul_eq_one_left b⟩, c, eq_inv_of_mul_eq_one_left d⟩

theorem lagrangeDenominators_complete (z zo : Var) (hz : Before row z) (hzo : Before row zo) (ho : ∀ i < N, Before row (om i)) (hone : Before row one) (t : Table (ZMod p)) :
    let m := lagrangeDenominators (p := p) N (.ext z) (.ext zo) (fun i => .ext (om i)) (.ext one)
    let tc := writeConsts (circuitOf m row) t
    one.value tc = 1 → (∀ i < N, z.value tc ≠ (om i).value tc ∧ zo.value tc ≠ (om i).value tc) → Accepted m row t :=
  fun h1 h2 => accepted_of (lagrangeDenominators_tri (F := fun V => V (.ext one) = 1)
    (D := fun V => ∀ i < N, V (.ext z) ≠ V (.ext (om i)) ∧ V (.ext zo) ≠ V (.ext (om i))) (mem_given hz) (mem_given hzo) (mem_given hone)
    (fun i hi => mem_given (ho i hi)) (fun _ h => h) fun _ h => h) t fun V hV => ⟨by rw [hV]; exact h1, fun i hi => by rw [hV, hV, hV]; exact h2 i hi⟩

variable (zn zon size : Var) (pub lag : ℕ → Var) (zero : Var)

/-- The calls of public_evaluations, all operands given. -/
abbrev pubCalls : Bld p (Arg × Arg) :=
  publicCalls N row (.ext zn) (.ext zon) (fun i => .ext (pub i)) (fun i => .ext (lag i)) (fun i => .ext (om i)) (.ext size) (.ext one)

/-- `generate_circuit` of public_evaluations. -/
def publicCircuit : List (Op (ZMod p)) := publicCopies row zero ++ circuitOf (pubCalls N om one row zn zon size pub lag) (row + 1)

/-- `generate_assignments` of public_evaluations. -/
def publicAssign (t : Table (ZMod p)) : Table (ZMod p) := assignOf (pubCalls N om one row zn zon size pub lag) (row + 1) (publicRow row t)

/-- public_evaluations: both outputs in terms of the given Lagrange denominators. -/
theorem publicEvaluations_sound (t : Table (ZMod p)) (h1 : one.value t = 1) (h0 : zero.value t = 0) (h : Sat t (publicCircuit N om one row zn zon size pub lag zero)) :
    let m := pubCalls (p := p) N om one row zn zon size pub lag
    size.value t ≠ 0 ∧
    valOf m (row + 1) t (resultOf m).1 =
      (∑ i ∈ Finset.range N, -((lag i).value t * (pub i).value t * (om i).value t)) * ((zn.value t - 1) / size.value t) ∧
    valOf m (row + 1) t (resultOf m).2 =
      (∑ i ∈ Finset.range N, -((lag (N + i)).value t * (pub i).value t * (om i).value t)) * ((zon.value t - 1) / size.value t) := by
  intro m
  rw [publicCircuit, sat_append] at h
  obtain ⟨hc, h⟩ := h
  simp only [publicCopies, sat_cons] at hc
  have c0 : Var.value t ⟨0, row, false, .witness⟩ = zero.value t := by simpa using hc.1
  have c1 : Var.value t ⟨1, row, false, .witness⟩ = zero.value t := by simpa using hc.2.1
  exact sound_of (publicCalls_tri (F := fun V => V (.ext one) = 1 ∧ V (.ext ⟨0, row, false, .witness⟩) = 0 ∧ V (.ext ⟨1, row, false, .witness⟩) = 0) trivial trivial
    trivial trivial (fun _ => trivial) (fun _ _ => trivial) (fun _ _ => trivial) (fun _ _ => trivial) (fun _ h => h) fun _ h => h.elim)
    ⟨h1, c0.trans h0, c1.trans h0⟩ h

/-- With the outputs of lagrange_denominators, powers of a primitive root of the order of the domain and the powers of the points, the outputs are the values of
minus the polynomial of the public input. -/
theorem publicEvaluations_interpolate (t : Table (ZMod p)) (h1 : one.value t = 1) (h0 : zero.value t = 0) {n : ℕ} (hn : 0 < n) (hN : N ≤ n) {w z zo : ZMod p}
    (hw : IsPrimitiveRoot w n) (hom : ∀ i < N, (om i).value t = w ^ i) (hsize : size.value t = n) (hzn : zn.value t = z ^ n) (hzon : zon.value t = zo ^ n)
    (hz : z ^ n ≠ 1) (hzo : zo ^ n ≠ 1) (hl : ∀ i < N, (lag i).value t = (z - w ^ i)⁻¹) (hl' : ∀ i < N, (lag (N + i)).value t = (zo - w ^ i)⁻¹)
    (P : Polynomial (ZMod p)) (hP : P.degree < n) (hPv : ∀ i < n, P.eval (w ^ i) = if i < N then (pub i).value t else 0)
    (h : Sat t (publicCircuit N om one row zn zon size pub lag zero)) :
    let m := pubCalls (p := p) N om one row zn zon size pub lag
    valOf m (row + 1) t (resultOf m).1 = -P.eval z ∧ valOf m (row + 1) t (resultOf m).2 = -P.eval zo := by
  intro m
  obtain ⟨-, e1, e2⟩ := publicEvaluations_sound N om one row zn zon size pub lag zero t h1 h0 h
  have key : ∀ x : ZMod p, x ^ n ≠ 1 → ∀ i < n, x ≠ w ^ i := fun x hx i _ e => hx (by rw [e, ← pow_mul, mul_comm, pow_mul, hw.pow_eq_one, one_pow])
  rw [e1, e2, interpolation hn hN hw P hP (fun i => (pub i).value t) hPv (key z hz), interpolation hn hN hw P hP (fun i => (pub i).value t) hPv (key zo hzo),
    Finset.sum_neg_distrib, Finset.sum_neg_distrib, hsize, hzn, hzon, neg_mul, neg_mul]
  refine ⟨?_, ?_⟩ <;> congr 2 <;> refine Finset.sum_congr rfl fun i hi => ?_ <;> rw [Finset.mem_range] at hi
  · rw [hl i hi, hom i hi]
  · rw [hl' i hi, hom i hi]

end

theorem writeConsts_set (os : List (Op (ZMod p))) (t : Table (ZMod p)) (i : ℕ) (r : ℤ) (v : ZMod p) :
    writeConsts os (t.set .witness i r v) = (writeConsts os t).set .witness i r v := by
  induction os generalizing t with
  | nil => rfl
  | cons o os ih =>
    show writeConsts os (o.writeConst (t.set .witness i r v)) = (writeConsts os (o.writeConst t)).set .witness i r v
    rw [← ih]
    cases o with
    | constant col row k =>
      congr 1
      funext ty j s
      simp only [Op.writeConst, Table.set_apply]
      split_ifs <;> simp_all
    | _ => rfl

theorem publicRow_consts (os : List (Op (ZMod p))) (t : Table (ZMod p)) (row : ℤ) : publicRow row (writeConsts os t) = writeConsts os (publicRow row t) := by
  rw [publicRow, publicRow, writeConsts_set, writeConsts_set]

theorem Before.value_set {row : ℤ} {v : Var} (h : Before row v) (t : Table (ZMod p)) (i : ℕ) (x : ZMod p) : v.value (t.set .witness i row x) = v.value t := by
  unfold Var.value
  rw [Table.set_apply, if_neg]
  rintro ⟨h1, h2, h3⟩
  have := h h1
  omega

theorem Accepted.before {α : Type} {m : Bld p α} {row : ℤ} {t : Table (ZMod p)} (h : Accepted m row t) {v : Var} (hv : Before row v) :
    v.value (assignOf m row (writeConsts (circuitOf m row) t)) = v.value (writeConsts (circuitOf m row) t) := by
  unfold Var.value
  refine h.2 _ _ _ ?_
  by_cases hw : v.type = .witness
  · exact Or.inr (Or.inl (hv hw))
  · exact Or.inl hw

theorem Before.next {row : ℤ} {v : Var} (h : Before row v) : Before (row + 1) v := fun hw => by have := h hw; omega

section
variable (N : ℕ) (om : ℕ → Var) (one : Var) (row : ℤ) (zn zon size : Var) (pub lag : ℕ → Var) (zero : Var)

theorem publicEvaluations_complete (hz : Before row zn) (hzo : Before row zon) (hs : Before row size) (hone : Before row one) (hzero : Before row zero)
    (hpub : ∀ i < N, Before row (pub i)) (hlag : ∀ i < N + N, Before row (lag i)) (hom : ∀ i < N, Before row (om i)) (t : Table (ZMod p)) :
    let os := publicCircuit (p := p) N om one row zn zon size pub lag zero
    let tc := writeConsts os t
    one.value tc = 1 → zero.value tc = 0 → size.value tc ≠ 0 → Sat (publicAssign N om one row zn zon size pub lag tc) os ∧
      ∀ v, Before row v → v.value (publicAssign N om one row zn zon size pub lag tc) = v.value tc := by
  intro os tc h1 h0 hsz
  have etc : tc = writeConsts (circuitOf (pubCalls (p := p) N om one row zn zon size pub lag) (row + 1)) t := by
    show writeConsts (publicCopies row zero ++ _) t = _
    rw [writeConsts_append]; rfl
  have hrow : ∀ v : Var, Before row v → v.value (publicRow row tc) = v.value tc := fun v hv => by
    rw [publicRow, hv.value_set, hv.value_set]
  have acc : Accepted (pubCalls (p := p) N om one row zn zon size pub lag) (row + 1) (publicRow row t) := by
    refine accepted_of (publicCalls_tri (F := fun V => V (.ext one) = 1 ∧ V (.ext ⟨0, row, false, .witness⟩) = 0 ∧ V (.ext ⟨1, row, false, .witness⟩) = 0)
      (D := fun V => V (.ext size) ≠ 0) (mem_given hz.next) (mem_given hzo.next) (mem_given hs.next) (mem_given hone.next)
      (fun i => mem_given fun _ => show row < row + 1 by omega) (fun i hi => mem_given (hpub i hi).next) (fun i hi => mem_given (hlag i hi).next)
      (fun i hi => mem_given (hom i hi).next) (fun _ h => h) fun _ h => h) _ fun V hV => ?_
    rw [← publicRow_consts, ← etc] at hV
    refine ⟨⟨?_, ?_, ?_⟩, ?_⟩
    · rw [hV, hrow _ hone]; exact h1
    · rw [hV]
      show ((tc.set .witness 0 row 0).set .witness 1 row 0) .witness 0 row = 0
      simp [Table.set_apply]
    · rw [hV]
      show ((tc.set .witness 0 row 0).set .witness 1 row 0) .witness 1 row = 0
      simp [Table.set_apply]
    · rw [hV, hrow _ hs]; exact hsz
  have cell : ∀ v : Var, Before (row + 1) v → v.value (publicAssign N om one row zn zon size pub lag tc) = v.value (publicRow row tc) := fun v hv => by
    have := acc.before hv
    rw [← publicRow_consts, ← etc] at this
    exact this
  have hsat := acc.1
  rw [← publicRow_consts, ← etc] at hsat
  refine ⟨?_, fun v hv => by rw [cell _ hv.next, hrow _ hv]⟩
  show Sat _ (publicCopies row zero ++ _)
  rw [sat_append]
  refine ⟨?_, hsat⟩
  have e0 : Var.value (publicAssign N om one row zn zon size pub lag tc) ⟨0, row, false, .witness⟩ = zero.value (publicAssign N om one row zn zon size pub lag tc) := by
    rw [cell _ fun _ => show row < row + 1 by omega, cell _ hzero.next, hrow _ hzero, h0]
    show ((tc.set .witness 0 row 0).set .witness 1 row 0) .witness 0 row = 0
    simp [Table.set_apply]
  have e1 : Var.value (publicAssign N om one row zn zon size pub lag tc) ⟨1, row, false, .witness⟩ = zero.value (publicAssign N om one row zn zon size pub lag tc) := by
    rw [cell _ fun _ => show row < row + 1 by omega, cell _ hzero.next, hrow _ hzero, h0]
    show ((tc.set .witness 0 row 0).set .witness 1 row 0) .witness 1 row = 0
    simp [Table.set_apply]
  simp only [publicCopies, sat_cons]
  exact ⟨by simpa using e0, by simpa using e1, by simp⟩

end

/-! ### element_powers -/

/-- `generate_circuit` of element_powers. -/
def powersCircuit (n : ℕ) (row : ℤ) (b one : Var) : List (Op (ZMod p)) := circuitOf (powerCalls n row) (row + 1) ++ powerCopies row b one

/-- `generate_assignments` of element_powers. -/
def powersAssign (n : ℕ) (row : ℤ) (b : Var) (t : Table (ZMod p)) : Table (ZMod p) := assignOf (powerCalls n row) (row + 1) (powerRow row b t)

/-- The outputs are the powers `0`, ..., `n - 1`. -/
theorem elementPowers_sound (n : ℕ) (row : ℤ) (b one : Var) (t : Table (ZMod p)) (h1 : one.value t = 1) (h : Sat t (powersCircuit n row b one)) (j : ℕ) (hj : j < n) :
    valOf (powerCalls n row) (row + 1) t (resultOf (powerCalls (p := p) n row) j) = b.value t ^ j := by
  rw [powersCircuit, sat_append] at h
  obtain ⟨h, hc⟩ := h
  simp only [powerCopies, sat_cons] at hc
  have c0 : Var.value t ⟨0, row, false, .witness⟩ = one.value t := by simpa using hc.1
  have c1 : Var.value t ⟨1, row, false, .witness⟩ = b.value t := by simpa using hc.2.1
  have := sound_of (powerCalls_tri (F := fun V => V (.ext ⟨0, row, false, .witness⟩) = 1) (fun _ => trivial) fun _ h => h) (c0.trans h1) h j hj
  rw [this]
  show Var.value t ⟨1, row, false, .witness⟩ ^ j = _
  rw [c1]

theorem elementPowers_complete (n : ℕ) (row : ℤ) (b one : Var) (hb : Before row b) (hone : Before row one) (t : Table (ZMod p)) :
    let os := powersCircuit (p := p) n row b one
    let tc := writeConsts os t
    one.value tc = 1 → Sat (powersAssign n row b tc) os ∧ ∀ v, Before row v → v.value (powersAssign n row b tc) = v.value tc := by
  intro os tc h1
  have etc : tc = writeConsts (circuitOf (powerCalls (p := p) n row) (row + 1)) t := by
    show writeConsts (_ ++ powerCopies row b one) t = _
    rw [writeConsts_append]; rfl
  have er : powerRow row b tc = (tc.set .witness 0 row 1).set .witness 1 row (b.value tc) := by
    rw [powerRow]
    try rw [hb.value_set]
  have er2 : powerRow row b tc = writeConsts (circuitOf (powerCalls (p := p) n row) (row + 1)) ((t.set .witness 0 row 1).set .witness 1 row (b.value tc)) := by
    rw [er, writeConsts_set, writeConsts_set, ← etc]
  have hrow : ∀ v : Var, Before row v → v.value (powerRow row b tc) = v.value tc := fun v hv => by
    rw [er, hv.value_set, hv.value_set]
  have acc : Accepted (powerCalls (p := p) n row) (row + 1) ((t.set .witness 0 row 1).set .witness 1 row (b.value tc)) := by
    refine accepted_of (powerCalls_tri (F := fun V => V (.ext ⟨0, row, false, .witness⟩) = 1) (D := fun _ => True)
      (fun i => mem_given fun _ => show row < row + 1 by omega) fun _ h => h) _ fun V hV => ⟨?_, trivial⟩
    rw [hV, ← er2, er]
    show ((tc.set .witness 0 row 1).set .witness 1 row _) .witness 0 row = 1
    simp [Table.set_apply]
  have cell : ∀ v : Var, Before (row + 1) v → v.value (powersAssign n row b tc) = v.value (powerRow row b tc) := fun v hv => by
    have := acc.before hv
    rw [← er2] at this
    exact this
  have hsat := acc.1
  rw [← er2] at hsat
  refine ⟨?_, fun v hv => by rw [cell _ hv.next, hrow _ hv]⟩
  show Sat _ (_ ++ powerCopies row b one)
  rw [sat_append]
  refine ⟨hsat, ?_⟩
  have e0 : Var.value (powersAssign n row b tc) ⟨0, row, false, .witness⟩ = one.value (powersAssign n row b tc) := by
    rw [cell _ fun _ => show row < row + 1 by omega, cell _ hone.next, hrow _ hone, h1, er]
    show ((tc.set .witness 0 row 1).set .witness 1 row _) .witness 0 row = 1
    simp [Table.set_apply]
  have e1 : Var.value (powersAssign n row b tc) ⟨1, row, false, .witness⟩ = b.value (powersAssign n row b tc) := by
    rw [cell _ fun _ => show row < row + 1 by omega, cell _ hb.next, hrow _ hb, er]
    show ((tc.set .witness 0 row 1).set .witness 1 row _) .witness 1 row = _
    simp [Table.set_apply]
  simp only [powerCopies, sat_cons]
  exact ⟨by simpa using e0, by simpa using e1, by simp⟩

/-! ### perm_scalars, generic_scalars, combine_proof_evals -/

section
variable (m : ℕ) (w s : ℕ → Var) (z alpha beta gamma zkp : Var) (row : ℤ)

/-- `perm_scalars`, all operands given. -/
abbrev perm : Bld p Arg :=
  permScalars m (fun i => .ext (w i)) (fun i => .ext (s i)) (.ext z) (.ext alpha) (.ext beta) (.ext gamma) (.ext zkp)

/-- perm_scalars: the scalar of the last sigma commitment in the linearization. -/
theorem permScalars_sound (t : Table (ZMod p)) (h : Sat t (circuitOf (perm m w s z alpha beta gamma zkp) row)) :
    outVal (perm m w s z alpha beta gamma zkp) row t = -(z.value t * beta.value t * alpha.value t * zkp.value t *
      ∏ i ∈ Finset.range m, (gamma.value t + beta.value t * (s i).value t + (w i).value t)) :=
  sound_of (permScalars_tri (F := fun _ => True) (fun _ _ => trivial) (fun _ _ => trivial) trivial trivial trivial trivial trivial) trivial h

theorem permScalars_complete (hw : ∀ i < m, Before row (w i)) (hs : ∀ i < m, Before row (s i)) (hz : Before row z) (ha : Before row alpha) (hb : Before row beta)
    (hg : Before row gamma) (hk : Before row zkp) (t : Table (ZMod p)) : Accepted (perm m w s z alpha beta gamma zkp) row t :=
  accepted_of (permScalars_tri (F := fun _ => True) (D := fun _ => True) (fun i hi => mem_given (hw i hi)) (fun i hi => mem_given (hs i hi)) (mem_given hz) (mem_given ha)
    (mem_given hb) (mem_given hg) (mem_given hk)) t fun _ _ => ⟨trivial, trivial⟩

variable (al : ℕ → Var) (sel : Var)

/-- `generic_scalars`, all operands given. -/
abbrev generic : Bld p (ℕ → Arg) := genericScalars (fun i => .ext (w i)) (fun i => .ext (al i)) (.ext sel)

/-- generic_scalars: for both halves of the double generic gate the scalars of the three wires, of their product and of the constant. -/
theorem genericScalars_sound (t : Table (ZMod p)) (h : Sat t (circuitOf (generic w al sel) row)) (i : ℕ) (hi : i < 2) :
    let v := fun j => valOf (generic w al sel) row t (resultOf (generic (p := p) w al sel) (5 * i + j))
    (∀ j < 3, v j = (al i).value t * sel.value t * (w (3 * i + j)).value t) ∧
      v 3 = (al i).value t * sel.value t * ((w (3 * i)).value t * (w (3 * i + 1)).value t) ∧ v 4 = (al i).value t * sel.value t :=
  sound_of (genericScalars_tri (F := fun _ => True) (fun _ _ => trivial) (fun _ _ => trivial) trivial) trivial h i hi

theorem genericScalars_complete (hw : ∀ i < 6, Before row (w i)) (ha : ∀ i < 2, Before row (al i)) (hs : Before row sel) (t : Table (ZMod p)) :
    Accepted (generic (p := p) w al sel) row t :=
  accepted_of (genericScalars_tri (F := fun _ => True) (D := fun _ => True) (fun i hi => mem_given (hw i hi)) (fun i hi => mem_given (ha i hi)) (mem_given hs)) t
    fun _ _ => ⟨trivial, trivial⟩

/-- combine_proof_evals: every evaluation times `x`. -/
theorem combineEvals_sound (N : ℕ) (e : ℕ → Var) (x : Var) (t : Table (ZMod p)) (h : Sat t (circuitOf (combineEvals N (fun i => .ext (e i)) (.ext x)) row)) (i : ℕ)
    (hi : i < N) : valOf (combineEvals N (fun i => .ext (e i)) (.ext x)) row t (resultOf (combineEvals (p := p) N (fun i => .ext (e i)) (.ext x)) i) =
      (e i).value t * x.value t :=
  sound_of (combineEvals_tri (F := fun _ => True) (fun _ _ => trivial) trivial) trivial h i hi

theorem combineEvals_complete (N : ℕ) (e : ℕ → Var) (x : Var) (he : ∀ i < N, Before row (e i)) (hx : Before row x) (t : Table (ZMod p)) :
    Accepted (combineEvals (p := p) N (fun i => .ext (e i)) (.ext x)) row t :=
  accepted_of (combineEvals_tri (F := fun _ => True) (D := fun _ => True) (fun i hi => mem_given (he i hi)) (mem_given hx)) t fun _ _ => ⟨trivial, trivial⟩

end


end Kimchi
end Verif
