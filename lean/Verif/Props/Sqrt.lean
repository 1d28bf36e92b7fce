import Verif.Model.Sqrt
import Verif.Props.Exponentiation
import Verif.Props.Arith
import Mathlib.NumberTheory.LegendreSymbol.QuadraticReciprocity

/-!
# Square root: C26
-/

set_option linter.unusedSimpArgs false
set_option linter.unusedVariables false
set_option linter.unusedSectionVars false

namespace Verif
namespace Exponentiation
section
variable {F : Type*} [Field F]

/-- The exponentiation constraints only see the constants, their own rows and the two inputs. -/
theorem sat_congr (c : Cols) (es : ℕ) (base exponent : Var) (srow : ℤ) (t t' : Table F) (hk : c.k 0 = c.w 0)
    (hw : ∀ i r, r < srow + rows es → t' .witness i r = t .witness i r)
    (hc : ∀ i r, t' .constant i r = t .constant i r) (hb : base.value t' = base.value t)
    (he : exponent.value t' = exponent.value t) (h : Sat t (circuit c es base exponent srow)) :
    Sat t' (circuit c es base exponent srow) := by
  rw [circuit_iff c es base exponent srow _ hk] at h ⊢
  obtain ⟨h1, h2, h3, h4, h5, h6, h7⟩ := h
  have er : ((rows es : ℕ) : ℤ) = mainRows es + 1 := by unfold rows; push_cast; ring
  rw [er] at hw
  refine ⟨fun r hr => ?_, fun r hr => ?_, ?_, ?_, ?_, ?_, ?_⟩
  · have := (gate_iff c t _).1 (h1 r hr)
    refine (gate_iff c t' _).2 ?_
    have e1 : ∀ i, t' .witness i (srow + 1 + (r : ℤ)) = t .witness i (srow + 1 + (r : ℤ)) :=
      fun i => hw i _ (by omega)
    have e2 : ∀ i, t' .witness i (srow + 1 + (r : ℤ) + -1) = t .witness i (srow + 1 + (r : ℤ) + -1) :=
      fun i => hw i _ (by omega)
    simp only [e1, e2]; exact this
  · rw [hw _ _ (by omega), hb, h2 r hr]
  · rw [hw _ _ (by omega), h3]
  · rw [hw _ _ (by omega), h4]
  · rw [hw _ _ (by omega), h5, he]
  · rw [hc, h6]
  · rw [hc, h7]

end
end Exponentiation

namespace Sqrt
section
variable {F : Type*} [Field F]

/-- What a sub-component computes. -/
def Kind.eval (k : Kind) (a b : F) : F :=
  match k with
  | .add => a + b
  | .sub => a - b
  | .mul => a * b

theorem kind_iff (k : Kind) (c : Cols) (inp : In2) (row : ℤ) (t : Table F) :
    Sat t (k.circuit c inp row) ↔ t .witness (c.w 0) row = inp.x.value t ∧ t .witness (c.w 1) row = inp.y.value t ∧
      t .witness (c.w 2) row = k.eval (inp.x.value t) (inp.y.value t) := by
  have hx : Sat t (if inp.x ≠ c.wa 0 row then [(.copy inp.x (c.wa 0 row) : Op F)] else []) ↔
      inp.x.value t = t .witness (c.w 0) row := by
    by_cases h : inp.x = c.wa 0 row
    · simp [h]
    · simp [h]
  have hy : Sat t (if inp.y ≠ c.wa 1 row then [(.copy (c.wa 1 row) inp.y : Op F)] else []) ↔
      t .witness (c.w 1) row = inp.y.value t := by
    by_cases h : inp.y = c.wa 1 row
    · simp [h]
    · simp [h]
  cases k <;>
  simp only [Kind.circuit, Addition.circuit, Subtraction.circuit, Multiplication.circuit, sat_cons, sat_nil,
    sat_append, holds_copy, Cols.value_wa, and_true, hx, hy] <;>
  simp [Kind.eval, sub_eq_zero] <;>
  constructor <;> rintro ⟨h1, h2, h3⟩ <;> first
    | exact ⟨h2.symm, h3, by rw [← h1, h2, h3]⟩
    | exact ⟨by rw [h1, h2, h3], h1.symm, h2⟩

theorem kind_frame (k : Kind) (c : Cols) (hc : c.OK 3) (inp : In2) (row : ℤ) (t : Table F) :
    Frame c row 1 t (k.assign c inp row t) := by
  have hr := row1 row
  cases k <;>
  exact (((Frame.refl c row 1 t).setOK hc (by omega) hr 0 _).setOK hc (by omega) hr 1 _).setOK hc (by omega) hr 2 _

theorem kind_complete (k : Kind) (c : Cols) (hc : c.OK 3) (inp : In2) (row : ℤ) (t : Table F)
    (hx : inp.x.Outside row 1) (hy : inp.y.Outside row 1) :
    Sat (k.assign c inp row t) (k.circuit c inp row) := by
  have hr := row1 row
  rw [kind_iff]
  cases k <;>
  simp [Kind.assign, Addition.assign, Subtraction.assign, Multiplication.assign, Kind.eval, hx.value_set hr,
    hy.value_set hr, Table.set_apply, hc.inj]

/-- A chain whose inputs all lie on earlier rows (or outside the chain) is satisfied by its own assignment. -/
theorem chain_complete (c : Cols) (hc : c.OK 3) (l : List (Kind × In2)) (row : ℤ) (t : Table F)
    (h : ∀ i (hi : i < l.length), l[i].2.x.Outside (row + (i : ℤ)) (l.length - i) ∧
      l[i].2.y.Outside (row + (i : ℤ)) (l.length - i)) :
    Sat (chainAssign c l row t) (chainCircuit c l row) ∧ Frame c row l.length t (chainAssign c l row t) := by
  induction l generalizing row t with
  | nil => exact ⟨by simp [chainCircuit], Frame.refl _ _ _ _⟩
  | cons a l ih =>
    obtain ⟨k, inp⟩ := a
    obtain ⟨h1, h2⟩ := ih (row + 1) (k.assign c inp row t) (by
      intro i hi
      have := h (i + 1) (by simp; omega)
      have e1 : row + ((i + 1 : ℕ) : ℤ) = row + 1 + (i : ℤ) := by push_cast; ring
      have e2 : ((k, inp) :: l).length - (i + 1) = l.length - i := by simp
      rw [e1, e2] at this
      exact this)
    have h0 := h 0 (by simp)
    simp only [List.getElem_cons_zero, List.length_cons, Nat.cast_zero, add_zero, Nat.sub_zero] at h0
    have hx1 : inp.x.Outside row 1 := fun hw => by rcases h0.1 hw with h | h <;> omega
    have hy1 : inp.y.Outside row 1 := fun hw => by rcases h0.2 hw with h | h <;> omega
    have hx2 : inp.x.Outside (row + 1) l.length := fun hw => by rcases h0.1 hw with h | h <;> omega
    have hy2 : inp.y.Outside (row + 1) l.length := fun hw => by rcases h0.2 hw with h | h <;> omega
    simp only [chainAssign, chainCircuit, sat_append]
    refine ⟨⟨?_, h1⟩, ?_⟩
    · have := kind_complete k c hc inp row t hx1 hy1
      rw [kind_iff] at this ⊢
      rw [h2.outside hx2, h2.outside hy2]
      have hrow : ∀ i, chainAssign c l (row + 1) (k.assign c inp row t) .witness i row =
          k.assign c inp row t .witness i row := fun i => h2.row (by omega) _ _
      rw [hrow, hrow, hrow]; exact this
    · refine ((kind_frame k c hc inp row t).mono le_rfl ?_).trans (h2.mono (by omega) ?_) <;> simp <;> omega

/-- The checked polynomial. -/
def poly (q x y : F) : F := q * (1 + q) * (y - x * x) + q * (1 - q) * (x + 1) + (1 - q) * (1 + q) * (x * x)

theorem c3_w (c : Cols) (i : ℕ) (hi : i < 3) : (c3 c).w (i : ℤ) = c.w (i : ℤ) := by
  have h0 : ∀ a b d : ℕ, colAt [a, b, d] 0 = a := fun a b d => by simp [colAt]
  have h1 : ∀ a b d : ℕ, colAt [a, b, d] 1 = b := fun a b d => by simp [colAt]
  have h2 : ∀ a b d : ℕ, colAt [a, b, d] 2 = d := fun a b d => by simp [colAt]
  interval_cases i
  · exact h0 _ _ _
  · exact h1 _ _ _
  · exact h2 _ _ _

theorem c3_ok (c : Cols) (hc : c.OK 15) : (c3 c).OK 3 := by
  refine ⟨?_, rfl⟩
  have h01 := hc.inj (i := 0) (j := 1) ⟨by omega, by omega⟩ ⟨by omega, by omega⟩
  have h02 := hc.inj (i := 0) (j := 2) ⟨by omega, by omega⟩ ⟨by omega, by omega⟩
  have h12 := hc.inj (i := 1) (j := 2) ⟨by omega, by omega⟩ ⟨by omega, by omega⟩
  simp [c3, h01, h02, h12]

/-- The circuit in terms of its cells: the exponentiation circuit and a table of intermediate values. -/
theorem chain_value (c : Cols) (y q x one : Var) (rx : ℤ) (t : Table F) (h1 : one.value t = 1)
    (hm : Sat t (Multiplication.circuit (c3 c) ⟨x, x⟩ rx))
    (h : Sat t (chainCircuit (c3 c) (steps c y q x one rx) (rx + 1))) :
    t .witness (c.w 2) (rx + 12) = poly (q.value t) (x.value t) (y.value t) := by
  have e0 := (kind_iff .mul (c3 c) ⟨x, x⟩ rx t).1 hm
  simp only [steps, chainCircuit, sat_append, kind_iff, Kind.eval, sat_nil, and_true, Cols.value_wa, add_assoc,
    Int.reduceAdd, h1] at h
  simp only [Kind.eval] at e0
  obtain ⟨-, -, e0⟩ := e0
  obtain ⟨⟨-, -, e1⟩, ⟨-, -, e2⟩, ⟨-, -, e3⟩, ⟨-, -, e4⟩, ⟨-, -, e5⟩, ⟨-, -, e6⟩, ⟨-, -, e7⟩, ⟨-, -, e8⟩, ⟨-, -, e9⟩,
    ⟨-, -, e10⟩, ⟨-, -, e11⟩, ⟨-, -, e12⟩⟩ := h
  have ec : c.w 2 = (c3 c).w 2 := (c3_w c 2 (by omega)).symm
  rw [ec, e12, e11, e10, e9, e8, e7, e6, e5, e4, e3, e2, e1, add_zero, e0, poly]
  ring

/-- Soundness over any field, with the constant columns the code reads. -/
theorem sound (c : Cols) (es : ℕ) (half : F) (y : Var) (srow : ℤ) (hw0 : c.w 0 = 0) (hk : c.k 0 = 0) (t : Table F)
    (h : Sat t (circuit c es half y srow)) :
    ∃ N : ℕ, N < 2 ^ Exponentiation.padded es ∧ half = N ∧ poly (y.value t ^ N) ((out c es srow).value t) (y.value t) = 0 := by
  simp only [circuit, sat_append, sat_cons, sat_nil, and_true, holds_copy, holds_constant, Cols.value_wa, hk] at h
  obtain ⟨⟨⟨h1, h2⟩, h3⟩, h4, h5, h6, h7⟩ := h
  obtain ⟨N, hN, e1, e2⟩ := Exponentiation.sound c es _ _ _ t (hk.trans hw0.symm) h1
  refine ⟨N, hN, ?_, ?_⟩
  · rw [← e1]; exact h5.symm
  · have := chain_value c _ _ _ (oneVar srow) _ t h7 h2 h3
    rw [e2] at this
    have hz : (zeroVar srow).value t = 0 := h6
    have er : srow + ((rows es : ℕ) : ℤ) - 1 = xRow es srow + 12 := by
      unfold rows xRow; push_cast; ring
    rw [hz, er, this] at h4
    exact h4.symm

/-- The arithmetic part of the assignment completes a table that satisfies the exponentiation and whose `x` cell is a
root of the checked polynomial. -/
theorem tail_complete (c : Cols) (es : ℕ) (hc : c.OK 15) (half : F) (y : Var) (srow : ℤ) (hw0 : c.w 0 = 0)
    (hk : c.k 0 = 0) (hy : y.Outside srow (rows es)) (t : Table F)
    (hE : Sat t (Exponentiation.circuit c es y (expVar srow) (srow + 3)))
    (h0 : t .constant 0 srow = half) (h1 : t .constant 0 (srow + 1) = 0) (h2 : t .constant 0 (srow + 2) = 1)
    (hpoly : poly ((Exponentiation.out c es (srow + 3)).value t) (t .witness 0 (xRow es srow)) (y.value t) = 0) :
    let t' := tailAssign c es y srow t
    Sat t' (circuit c es half y srow) ∧ Frame c srow (rows es) t t' ∧
      (out c es srow).value t' = t .witness 0 (xRow es srow) := by
  intro t'
  set rx := xRow es srow with hrx
  have hrx' : rx = srow + 3 + (Exponentiation.rows es : ℕ) := rfl
  have hrows : ((rows es : ℕ) : ℤ) = 3 + (Exponentiation.rows es : ℕ) + 13 := by unfold rows; push_cast; ring
  have hc3 := c3_ok c hc
  have hW0 : (c3 c).w 0 = 0 := (c3_w c 0 (by omega)).trans hw0
  have hr := row1 rx
  have hout_row : srow + 3 + ((Exponentiation.rows es : ℕ) : ℤ) - 1 = rx - 1 := by rw [hrx']
  have hx : (⟨0, rx, false, .witness⟩ : Var) = (c3 c).wa 0 rx := by simp [Cols.wa, hW0]
  have hx' : c.wa 0 rx = (c3 c).wa 0 rx := by simp [Cols.wa, hW0, hw0]
  set one := oneVar srow
  set q := Exponentiation.out c es (srow + 3)
  set x := (c3 c).wa 0 rx with hxd
  set t1 := Multiplication.assign (c3 c) ⟨x, x⟩ rx t with ht1
  have ht' : t' = chainAssign (c3 c) (steps c y q x one rx) (rx + 1) t1 := by
    simp only [t', tailAssign, ← hrx, hx]; rfl
  have hlen : (steps c y q x one rx).length = 12 := rfl
  have hwit : ∀ v : Var, v.type ≠ .witness → ∀ s n, v.Outside s n := fun v hv s n h => absurd h hv
  have hyO : ∀ s n, srow ≤ s → s + (n : ℕ) ≤ srow + (rows es : ℕ) → y.Outside s n := by
    intro s n hs hn h
    rcases hy h with h | h <;> omega
  have hone : ∀ s n, one.Outside s n := fun s n h => by cases h
  have hq : ∀ s n, rx ≤ s → q.Outside s n := by
    intro s n hs h
    left
    have : q.rotation = srow + 3 + (Exponentiation.rows es : ℕ) - 1 := rfl
    omega
  have hxO : ∀ s n, rx < s → x.Outside s n := fun s n hs h => Or.inl hs
  have hrO : ∀ (i : ℤ) s n, rx + i < s → ((c3 c).wa 2 (rx + i)).Outside s n := fun i s n hs h => Or.inl hs
  obtain ⟨hS, hF⟩ := chain_complete (c3 c) hc3 (steps c y q x one rx) (rx + 1) t1 (by
    intro i hi
    rw [hlen] at hi ⊢
    have hyi := hyO (rx + 1 + (i : ℤ)) (12 - i) (by omega) (by push_cast [Nat.le_of_lt hi]; omega)
    have hqi := hq (rx + 1 + (i : ℤ)) (12 - i) (by omega)
    have hxi := hxO (rx + 1 + (i : ℤ)) (12 - i) (by omega)
    have hoi := hone (rx + 1 + (i : ℤ)) (12 - i)
    interval_cases i <;> simp only [steps, List.getElem_cons_zero, List.getElem_cons_succ] <;>
      refine ⟨?_, ?_⟩ <;> first | assumption | exact hrO _ _ _ (by push_cast; omega))
  rw [← ht', hlen] at hF
  rw [← ht'] at hS
  have hF1 : Frame (c3 c) rx 1 t t1 := kind_frame .mul (c3 c) hc3 ⟨x, x⟩ rx t
  have h3c : ∀ {s n} {u u' : Table F}, Frame (c3 c) s n u u' → Frame c s n u u' := by
    intro s n u u' h ty i r hn
    refine h ty i r fun ⟨a, b, d⟩ => hn ⟨a, ?_, d⟩
    simp only [c3, List.mem_cons, List.not_mem_nil, or_false] at b
    have hp : 0 < c.W.length := by rw [hc.len]; omega
    rcases b with rfl | rfl | rfl <;> exact Cols.w_mem hp _
  have hFt : Frame c srow (rows es) t t' :=
    ((h3c hF1).mono (by omega) (by push_cast; omega)).trans ((h3c hF).mono (by omega) (by push_cast; omega))
  have hlow : ∀ ty i r, r < rx → t' ty i r = t ty i r := fun ty i r h =>
    (hF.row (by omega) _ _).trans (hF1.row (by omega) _ _)
  have n1 : ¬ (0 = (c3 c).w 1) := by
    intro e; rw [← hW0] at e
    have := (hc3.inj (i := 0) (j := 1) ⟨by omega, by omega⟩ ⟨by omega, by omega⟩).1 e
    omega
  have n2 : ¬ (0 = (c3 c).w 2) := by
    intro e; rw [← hW0] at e
    have := (hc3.inj (i := 0) (j := 2) ⟨by omega, by omega⟩ ⟨by omega, by omega⟩).1 e
    omega
  have hx0 : t1 .witness ((c3 c).w 0) rx = t .witness 0 rx := by
    simp [ht1, Multiplication.assign, Table.set_apply, hc3.inj, hxd, hW0, n1, n2]
  have hxv : x.value t' = t .witness 0 rx := by
    have : x.value t' = x.value t1 := hF.row (r := rx) (by omega) _ _
    rw [this]; exact hx0
  have hM : Sat t' (Multiplication.circuit (c3 c) ⟨x, x⟩ rx) := by
    have : Sat t1 (Kind.mul.circuit (c3 c) ⟨x, x⟩ rx) := by
      rw [kind_iff]
      simp [ht1, Multiplication.assign, Table.set_apply, hc3.inj, hxd, hW0, n1, n2, Kind.eval]
    rw [kind_iff] at this
    refine (kind_iff .mul (c3 c) ⟨x, x⟩ rx t').2 ?_
    have hrow : ∀ i, t' .witness i rx = t1 .witness i rx := fun i => hF.row (by omega) _ _
    have hxv' : x.value t' = x.value t1 := hF.row (r := rx) (by omega) _ _
    simp only at this ⊢
    rw [hrow, hrow, hrow, hxv']; exact this
  have hy' : y.value t' = y.value t := hFt.outside hy
  have hcst : ∀ i r, t' .constant i r = t .constant i r := fun i r => hFt.const i r
  have hqv : q.value t' = q.value t := hlow _ _ _ (by
    have : q.rotation = srow + 3 + (Exponentiation.rows es : ℕ) - 1 := rfl
    omega)
  refine ⟨?_, hFt, ?_⟩
  · simp only [circuit, sat_append, sat_cons, sat_nil, and_true, holds_copy, holds_constant, Cols.value_wa, hk, hcst]
    rw [← hrx, hx']
    refine ⟨⟨⟨?_, hM⟩, hS⟩, ?_, h0, h1, h2⟩
    · refine Exponentiation.sat_congr c es y (expVar srow) (srow + 3) t t' (hk.trans hw0.symm) ?_ hcst hy' (hcst _ _) hE
      intro i r h
      exact hlow _ _ _ (by omega)
    · have hv := chain_value c y q x one rx t' ((hcst _ _).trans h2) hM hS
      have er : srow + ((rows es : ℕ) : ℤ) - 1 = rx + 12 := by omega
      rw [er, hv, hqv, hxv, hy', hpoly]
      exact (hcst _ _).trans h1
  · rw [← hxv, out, ← hrx, hx']

theorem writeConsts_eq (c : Cols) (es : ℕ) (half : F) (y : Var) (srow : ℤ) (t : Table F) :
    writeConsts (circuit c es half y srow) t =
      ((((writeConsts (Exponentiation.circuit c es y (expVar srow) (srow + 3)) t).set .constant (c.k 0) srow half).set
        .constant (c.k 0) (srow + 1) 0).set .constant (c.k 0) (srow + 2) 1) := by
  have hk : ∀ (k : Kind) cc inp row (u : Table F), writeConsts (k.circuit cc inp row) u = u := by
    intro k cc inp row u
    apply writeConsts_noConst
    intro o ho
    cases k <;> simp [Kind.circuit, Addition.circuit, Subtraction.circuit, Multiplication.circuit] at ho
    · rcases ho with rfl | rfl | rfl <;> simp
    · rcases ho with rfl | rfl | rfl <;> simp
    · rcases ho with rfl | ho | ho
      · simp
      · by_cases h : inp.x = cc.wa 0 row <;> simp [h] at ho; simp [ho]
      · by_cases h : inp.y = cc.wa 1 row <;> simp [h] at ho; simp [ho]
  have hch : ∀ cc l row (u : Table F), writeConsts (chainCircuit cc l row) u = u := by
    intro cc l
    induction l with
    | nil => intros; rfl
    | cons a l ih => intro row u; rw [chainCircuit, writeConsts_append, hk, ih]
  have hm : ∀ inp row (u : Table F), writeConsts (Multiplication.circuit (c3 c) inp row) u = u :=
    fun inp row u => hk .mul (c3 c) inp row u
  simp only [circuit]
  rw [writeConsts_append, writeConsts_append, writeConsts_append, hm, hch]
  simp only [writeConsts_copy, writeConsts_constant, writeConsts_nil]

end
end Sqrt

section
variable {p : ℕ} [hp : Fact p.Prime]
open Sqrt

/-- C26, exactly what the component enforces: `(y, x)` can be proved iff for some `N < 2^padded` that equals
`(p-1)/2` in the field, `x` is a root of the checked polynomial with `q = y^N`. -/
theorem sqrt_accepts_iff (c : Cols) (es : ℕ) (hc : c.OK 15) (hw0 : c.w 0 = 0) (hk : c.k 0 = 0) (h5 : c.w 5 = 5)
    (srow : ℤ) (y x : ZMod p) :
    (∃ t, Sat t (circuit c es ((((p - 1) / 2 : ℕ) : ZMod p)) ⟨0, 0, false, .publicInput⟩ srow) ∧
      t .publicInput 0 0 = y ∧ (out c es srow).value t = x) ↔
    ∃ N : ℕ, N < 2 ^ Exponentiation.padded es ∧ ((((p - 1) / 2 : ℕ) : ZMod p)) = N ∧
      (y ^ N) * (1 + y ^ N) * (y - x * x) + y ^ N * (1 - y ^ N) * (x + 1) + (1 - y ^ N) * (1 + y ^ N) * (x * x) = 0 := by
  constructor
  · rintro ⟨t, h, rfl, rfl⟩
    exact Sqrt.sound c es _ _ srow hw0 hk t h
  · rintro ⟨N, hN, hhalf, hpoly⟩
    set t : Table (ZMod p) := fun ty _ r => if ty = .publicInput then y else if ty = .constant then
      (if r = srow then (N : ZMod p) else if r = srow + 1 ∨ r = srow + 3 then 0 else 1) else x
    have hb : bitsNat (fun k => N.testBit (Exponentiation.padded es - 1 - k)) (Exponentiation.padded es) = N :=
      bitsNat_of_testBit N _ hN
    obtain ⟨h1, h2, h3⟩ := Exponentiation.core c es hc (hk.trans hw0.symm) h5 ⟨0, 0, false, .publicInput⟩
      (expVar srow) (srow + 3) t (by simp [t]) (by simp [t]; omega) (by simp [Var.Outside])
      (by simp [Var.Outside, expVar]) (fun k => N.testBit (Exponentiation.padded es - 1 - k))
      (by rw [hb]; simp [t, expVar, Var.value])
    rw [hb] at h3
    set t1 := writeAll _ t
    have hx1 : t1 .witness 0 (xRow es srow) = x := by
      rw [h2.row (by unfold xRow; omega)]; simp [t]
    have hy1 : (⟨0, 0, false, .publicInput⟩ : Var).value t1 = y := (h2.outside (by simp [Var.Outside])).trans rfl
    obtain ⟨g1, g2, g3⟩ := tail_complete c es hc ((((p - 1) / 2 : ℕ) : ZMod p)) ⟨0, 0, false, .publicInput⟩ srow hw0 hk
      (by simp [Var.Outside]) t1 h1 (by rw [h2.const, hhalf]; simp [t]) (by rw [h2.const]; simp [t])
      (by rw [h2.const]; simp [t]) (by
        rw [h3, hx1, hy1]; exact hpoly)
    exact ⟨_, g1, (g2.outside (by simp [Var.Outside])).trans hy1, g3.trans hx1⟩

/-- Specification of the output: the square root of a square, `-1` for a non-square. -/
def SqrtSpec (y x : ZMod p) : Prop := (IsSquare y → x * x = y) ∧ (¬ IsSquare y → x = -1)

/-- The checked polynomial with the true Euler criterion is equivalent to the specification. -/
theorem sqrt_poly_iff (h2 : p ≠ 2) (y x : ZMod p) :
    poly (y ^ (p / 2)) x y = 0 ↔ SqrtSpec y x := by
  have h20 : (2 : ZMod p) ≠ 0 := by
    have := ZMod.ringChar_zmod_n p
    exact Ring.two_ne_zero (by rw [this]; exact h2)
  have hpos : p / 2 ≠ 0 := by have := hp.out.two_le; omega
  unfold poly SqrtSpec
  by_cases h0 : y = 0
  · subst h0
    simp [zero_pow hpos]
  · rcases ZMod.pow_div_two_eq_neg_one_or_one p h0 with h | h
    · have hs := (ZMod.euler_criterion p h0).2 h
      rw [h]
      simp only [hs, not_true, false_imp_iff, and_true, true_imp_iff]
      constructor
      · intro e
        have : 2 * (x * x - y) = 0 := by linear_combination -e
        exact sub_eq_zero.1 ((mul_eq_zero.1 this).resolve_left h20)
      · intro e; rw [e]; ring
    · have hs : ¬ IsSquare y := by
        rw [ZMod.euler_criterion p h0, h]
        intro e
        exact h20 (by linear_combination -e)
      rw [h]
      simp only [hs, not_false_iff, false_imp_iff, true_and, true_imp_iff]
      constructor
      · intro e
        have : 2 * (x + 1) = 0 := by linear_combination -e
        have := (mul_eq_zero.1 this).resolve_left h20
        linear_combination this
      · intro e; rw [e]; ring

/-- C26, soundness and exactness, for moduli large enough that `(p-1)/2` has a single representation below
`2^padded`: the provable pairs are exactly the specified ones. -/
theorem sqrt_accepts_iff_spec_partial (c : Cols) (es : ℕ) (hc : c.OK 15) (hw0 : c.w 0 = 0) (hk : c.k 0 = 0)
    (h5 : c.w 5 = 5) (h2 : p ≠ 2) (hlo : p / 2 < 2 ^ Exponentiation.padded es)
    (hhi : 2 ^ Exponentiation.padded es ≤ p / 2 + p) (srow : ℤ) (y x : ZMod p) :
    (∃ t, Sat t (circuit c es ((((p - 1) / 2 : ℕ) : ZMod p)) ⟨0, 0, false, .publicInput⟩ srow) ∧
      t .publicInput 0 0 = y ∧ (out c es srow).value t = x) ↔ SqrtSpec y x := by
  have hodd : (p - 1) / 2 = p / 2 := by
    have := hp.out.eq_two_or_odd; have := hp.out.two_le; omega
  rw [sqrt_accepts_iff c es hc hw0 hk h5, ← sqrt_poly_iff h2, hodd]
  constructor
  · rintro ⟨N, hN, e, h⟩
    have hNN : N = p / 2 := by
      rw [ZMod.natCast_eq_natCast_iff', Nat.mod_eq_of_lt (by have := hp.out.two_le; omega)] at e
      have h1 := Nat.div_add_mod N p
      have h3 : N / p < 2 := by
        rw [Nat.div_lt_iff_lt_mul (by have := hp.out.two_le; omega)]
        omega
      have h4 := Nat.mod_lt N (by have := hp.out.two_le; omega : p > 0)
      interval_cases h5 : N / p
      · omega
      · omega
    subst hNN; exact h
  · intro h
    exact ⟨p / 2, hlo, rfl, h⟩

/-- The same for any `y`, as a one-sided soundness statement. -/
theorem sqrt_sound_partial (c : Cols) (es : ℕ) (hw0 : c.w 0 = 0) (hk : c.k 0 = 0) (h2 : p ≠ 2)
    (hhi : 2 ^ Exponentiation.padded es ≤ p / 2 + p) (y : Var) (srow : ℤ) (t : Table (ZMod p))
    (h : Sat t (circuit c es ((((p - 1) / 2 : ℕ) : ZMod p)) y srow)) :
    SqrtSpec (y.value t) ((out c es srow).value t) := by
  have hodd : (p - 1) / 2 = p / 2 := by
    have := hp.out.eq_two_or_odd; have := hp.out.two_le; omega
  obtain ⟨N, hN, e, h⟩ := Sqrt.sound c es _ y srow hw0 hk t h
  rw [hodd] at e
  have hNN : N = p / 2 := by
    rw [ZMod.natCast_eq_natCast_iff', Nat.mod_eq_of_lt (by have := hp.out.two_le; omega)] at e
    have h1 := Nat.div_add_mod N p
    have h3 : N / p < 2 := by
      rw [Nat.div_lt_iff_lt_mul (by have := hp.out.two_le; omega)]
      omega
    have h4 := Nat.mod_lt N (by have := hp.out.two_le; omega : p > 0)
    interval_cases h5 : N / p
    · omega
    · omega
  subst hNN
  exact (sqrt_poly_iff h2 _ _).1 h

/-- C26 fails for every prime small enough for a second representation `(p-1)/2 + p < 2^padded` (with 256-bit
exponents, every curve field the library targets): some square `y` is proved to have a "root" `x` with `x² ≠ y`. -/
theorem sqrt_refuted (c : Cols) (es : ℕ) (hc : c.OK 15) (hw0 : c.w 0 = 0) (hk : c.k 0 = 0) (h5 : c.w 5 = 5)
    (hp3 : 3 < p) (h23 : p ≠ 23) (hsmall : p / 2 + p < 2 ^ Exponentiation.padded es) (srow : ℤ) :
    ∃ y x : ZMod p, IsSquare y ∧ x * x ≠ y ∧
      ∃ t, Sat t (circuit c es ((((p - 1) / 2 : ℕ) : ZMod p)) ⟨0, 0, false, .publicInput⟩ srow) ∧
        t .publicInput 0 0 = y ∧ (out c es srow).value t = x := by
  have hodd : (p - 1) / 2 = p / 2 := by
    have := hp.out.eq_two_or_odd; have := hp.out.two_le; omega
  have hprime : ∀ q : ℕ, q.Prime → q ≠ p → (q : ZMod p) ≠ 0 := by
    intro q hq hne h
    rw [ZMod.natCast_eq_zero_iff] at h
    exact hne ((Nat.prime_dvd_prime_iff_eq hp.out hq).1 h).symm
  have h20 : (2 : ZMod p) ≠ 0 := by exact_mod_cast hprime 2 Nat.prime_two (by omega)
  have h30 : (3 : ZMod p) ≠ 0 := by exact_mod_cast hprime 3 Nat.prime_three (by omega)
  have h230 : (23 : ZMod p) ≠ 0 := by exact_mod_cast hprime 23 (by norm_num) (Ne.symm h23)
  have key : ∀ y x : ZMod p, IsSquare y → y ≠ 0 → x * x ≠ y → poly y x y = 0 →
      ∃ y x : ZMod p, IsSquare y ∧ x * x ≠ y ∧
      ∃ t, Sat t (circuit c es ((((p - 1) / 2 : ℕ) : ZMod p)) ⟨0, 0, false, .publicInput⟩ srow) ∧
        t .publicInput 0 0 = y ∧ (out c es srow).value t = x := by
    intro y x hs h0 hne hpoly
    refine ⟨y, x, hs, hne, (sqrt_accepts_iff c es hc hw0 hk h5 srow y x).2 ⟨p / 2 + p, hsmall, by simp [hodd], ?_⟩⟩
    have : y ^ (p / 2 + p) = y := by
      rw [pow_add, (ZMod.euler_criterion p h0).1 hs, ZMod.pow_card, one_mul]
    rw [this]; exact hpoly
  have hm1 : (-1 : ZMod p) ≠ 0 := by simp
  by_cases h4 : p % 4 = 3
  · have hneg : ¬ IsSquare (-1 : ZMod p) := by rw [ZMod.exists_sq_eq_neg_one_iff]; simpa using h4
    have e1 : (-1 : ZMod p) ^ (p / 2) = -1 := by
      rcases ZMod.pow_div_two_eq_neg_one_or_one p hm1 with h | h
      · exact absurd ((ZMod.euler_criterion p hm1).2 h) hneg
      · exact h
    rcases ZMod.pow_div_two_eq_neg_one_or_one p h20 with h | h
    · have hs : IsSquare (2⁻¹ : ZMod p) := by
        rw [ZMod.euler_criterion p (inv_ne_zero h20), inv_pow, h, inv_one]
      refine key 2⁻¹ (-5 * 2⁻¹) hs (inv_ne_zero h20) ?_ ?_
      · intro e
        apply h230
        have h22 : (2 : ZMod p) * 2⁻¹ = 1 := mul_inv_cancel₀ h20
        linear_combination 4 * e - (25 * (2 * 2⁻¹ + 1) - 2) * h22
      · have h22 : (2 : ZMod p) * 2⁻¹ = 1 := mul_inv_cancel₀ h20
        unfold poly
        set i : ZMod p := 2⁻¹
        linear_combination -(i + 22 * i ^ 2 + 25 * i ^ 3) * h22
    · have h' : (-2 : ZMod p) ^ (p / 2) = 1 := by
        rw [show (-2 : ZMod p) = -1 * 2 by ring, mul_pow, e1, h]; ring
      have h2' : (-2 : ZMod p) ≠ 0 := by simpa using h20
      have hs : IsSquare ((-2)⁻¹ : ZMod p) := by
        rw [ZMod.euler_criterion p (inv_ne_zero h2'), inv_pow, h', inv_one]
      refine key (-2)⁻¹ (-2)⁻¹ hs (inv_ne_zero h2') ?_ ?_
      · intro e
        apply h30
        have h22 : (-2 : ZMod p) * (-2)⁻¹ = 1 := mul_inv_cancel₀ h2'
        linear_combination 4 * e - (-2 * (-2)⁻¹ + 1 + 2) * h22
      · have h22 : (-2 : ZMod p) * (-2)⁻¹ = 1 := mul_inv_cancel₀ h2'
        unfold poly
        set i : ZMod p := (-2)⁻¹
        linear_combination -(i - i ^ 3) * h22
  · refine key (-1) (-1) (ZMod.exists_sq_eq_neg_one_iff.2 h4) hm1 ?_ (by unfold poly; ring)
    intro e
    apply h20
    linear_combination e

/-- C26, completeness: for every `y` (square or not) the generated table satisfies the constraints and holds the
specified value. `sq` stands for the field's own square root. -/
theorem sqrt_complete_partial (c : Cols) (es : ℕ) (hc : c.OK 15) (hw0 : c.w 0 = 0) (hk : c.k 0 = 0) (h5 : c.w 5 = 5)
    (h2 : p ≠ 2) (hlo : p / 2 < 2 ^ Exponentiation.padded es) (sq : ZMod p → ZMod p)
    (hsq : ∀ a, IsSquare a → sq a * sq a = a) (y : Var) (srow : ℤ) (hy : y.Outside srow (rows es))
    (t : Table (ZMod p)) :
    let C := circuit c es ((((p - 1) / 2 : ℕ) : ZMod p)) y srow
    let tc := writeConsts C t
    let t' := assign c es sq y srow tc
    Sat t' C ∧ Frame c srow (rows es) tc t' ∧ SqrtSpec (y.value tc) ((out c es srow).value t') := by
  intro C tc t'
  have hodd : (p - 1) / 2 = p / 2 := by
    have := hp.out.eq_two_or_odd; have := hp.out.two_le; omega
  have hrows : ((rows es : ℕ) : ℤ) = 3 + (Exponentiation.rows es : ℕ) + 13 := by unfold rows; push_cast; ring
  have htc : tc = _ := Sqrt.writeConsts_eq c es _ y srow t
  rw [Exponentiation.writeConsts_eq] at htc
  have k0 : tc .constant 0 srow = ((p / 2 : ℕ) : ZMod p) := by
    rw [htc, hodd]; simp [Table.set_apply, hk]
  have k1 : tc .constant 0 (srow + 1) = 0 := by rw [htc]; simp [Table.set_apply, hk]
  have k2 : tc .constant 0 (srow + 2) = 1 := by rw [htc]; simp [Table.set_apply, hk]
  have k3 : tc .constant (c.k 0) (srow + 3) = 0 := by rw [htc]; simp [Table.set_apply, hk]
  have k4 : tc .constant (c.k 0) (srow + 3 + 1) = 1 := by
    rw [htc]; simp [Table.set_apply, hk]; omega
  have hyE : y.Outside (srow + 3) (Exponentiation.rows es) := fun h => by rcases hy h with h | h <;> omega
  have hval : ((expVar srow).value tc).val = p / 2 := by
    have : (expVar srow).value tc = ((p / 2 : ℕ) : ZMod p) := k0
    rw [this, ZMod.val_natCast, Nat.mod_eq_of_lt (by have := hp.out.two_le; omega)]
  have hb : bitsNat (Exponentiation.bitAt es (p / 2)) (Exponentiation.padded es) = p / 2 :=
    bitsNat_of_testBit _ _ hlo
  obtain ⟨g1, g2, g3⟩ := Exponentiation.core c es hc (hk.trans hw0.symm) h5 y (expVar srow) (srow + 3) tc k3 k4 hyE
    (by simp [Var.Outside, expVar]) (Exponentiation.bitAt es (p / 2)) (by rw [hb]; exact k0)
  rw [hb] at g3
  have ht1 : Exponentiation.assign c es y (expVar srow) (srow + 3) tc =
      writeAll (Exponentiation.writes c es (y.value tc) (Exponentiation.bitAt es (p / 2)) (srow + 3)) tc := by
    unfold Exponentiation.assign; rw [hval]
  set t1 := writeAll (Exponentiation.writes c es (y.value tc) (Exponentiation.bitAt es (p / 2)) (srow + 3)) tc with ht1d
  have hy1 : y.value t1 = y.value tc := g2.outside hyE
  obtain ⟨xv, hxv, ht'⟩ : ∃ xv, SqrtSpec (y.value tc) xv ∧
      t' = tailAssign c es y srow (t1.set .witness (c.w 0) (xRow es srow) xv) := by
    have h20 : (2 : ZMod p) ≠ 0 := by
      have := ZMod.ringChar_zmod_n p
      exact Ring.two_ne_zero (by rw [this]; exact h2)
    have hpos : p / 2 ≠ 0 := by have := hp.out.two_le; omega
    simp only [t', assign, ht1, g3]
    by_cases h0 : y.value tc = 0
    · refine ⟨sq (y.value t1), ⟨fun h => by rw [hy1]; exact hsq _ h, fun h => absurd (by rw [h0]; exact IsSquare.zero) h⟩, ?_⟩
      rw [if_pos (Or.inl (by rw [h0, zero_pow hpos]))]
    · rcases ZMod.pow_div_two_eq_neg_one_or_one p h0 with h | h
      · have hs := (ZMod.euler_criterion p h0).2 h
        refine ⟨sq (y.value t1), ⟨fun h => by rw [hy1]; exact hsq _ h, fun h => absurd hs h⟩, ?_⟩
        rw [if_pos (Or.inr h)]
      · have hs : ¬ IsSquare (y.value tc) := by
          rw [ZMod.euler_criterion p h0, h]
          intro e
          exact h20 (by linear_combination -e)
        refine ⟨-1, ⟨fun h => absurd h hs, fun _ => rfl⟩, ?_⟩
        rw [h, if_neg, if_pos rfl]
        rintro (e | e)
        · simp at e
        · exact h20 (by linear_combination -e)
  set t2 := t1.set .witness (c.w 0) (xRow es srow) xv with ht2
  have hxr : xRow es srow = srow + 3 + (Exponentiation.rows es : ℕ) := rfl
  have f2 : Frame c (xRow es srow) 1 t1 t2 := (Frame.refl c _ 1 t1).setOK hc (by omega) (row1 _) 0 _
  have hyX : y.Outside (xRow es srow) 1 := fun h => by rcases hy h with h | h <;> omega
  have hy2 : y.value t2 = y.value tc := (f2.outside hyX).trans hy1
  have hq2 : (Exponentiation.out c es (srow + 3)).value t2 = y.value tc ^ (p / 2) := by
    rw [← g3]
    refine f2.row ?_ _ _
    have : (Exponentiation.out c es (srow + 3)).rotation = srow + 3 + (Exponentiation.rows es : ℕ) - 1 := rfl
    left; omega
  have hx2 : t2 .witness 0 (xRow es srow) = xv := by rw [ht2, ← hw0, Table.set_same]
  obtain ⟨r1, r2, r3⟩ := tail_complete c es hc ((((p - 1) / 2 : ℕ) : ZMod p)) y srow hw0 hk hy t2
    (Exponentiation.sat_congr c es y (expVar srow) (srow + 3) t1 t2 (hk.trans hw0.symm)
      (fun i r h => f2.row (by omega) _ _) (fun i r => f2.const i r) (f2.outside hyX) (f2.const _ _) g1)
    (by rw [f2.const, g2.const, k0, hodd]) (by rw [f2.const, g2.const, k1]) (by rw [f2.const, g2.const, k2])
    (by rw [hq2, hx2, hy2]; exact (sqrt_poly_iff h2 _ _).2 hxv)
  rw [ht']
  refine ⟨r1, ((g2.mono (by omega) (by omega)).trans (f2.mono (by omega) (by push_cast; omega))).trans r2, ?_⟩
  rw [r3, hx2]; exact hxv

end

/-- The hypotheses of the positive results are met, e.g., by 8-bit exponents over a 9-bit prime... -/
example : (⟨[0, 1, 2, 3, 4, 5, 6, 7, 8, 9, 10, 11, 12, 13, 14], [0], []⟩ : Cols).OK 15 ∧
    Nat.Prime 257 ∧ 257 / 2 < 2 ^ Exponentiation.padded 8 ∧ 2 ^ Exponentiation.padded 8 ≤ 257 / 2 + 257 :=
  ⟨⟨by decide, rfl⟩, by norm_num, by decide, by decide⟩

/-- ... and the refutation's by the same exponent size over a 7-bit prime, as by 256-bit exponents over a 255-bit one
(the Pasta base fields are below `2^254 + 2^127`). -/
example : Nat.Prime 127 ∧ 127 / 2 + 127 < 2 ^ Exponentiation.padded 8 ∧
    ∀ p < 2 ^ 254 + 2 ^ 127, p / 2 + p < 2 ^ Exponentiation.padded 256 := by
  refine ⟨by norm_num, by decide, fun p hp => ?_⟩
  have : Exponentiation.padded 256 = 256 := by decide
  rw [this]; omega

end Verif
