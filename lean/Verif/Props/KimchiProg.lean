import Verif.Model.KimchiProg
import Verif.Props.Arith
import Verif.Props.Exponentiation

/-!
# Lists of component calls: every satisfying table computes them, and their assignment is accepted
-/

set_option linter.unusedSectionVars false

namespace Verif
namespace Kimchi

variable {p : ℕ} [hp : Fact p.Prime]

/-! ### Specification -/

/-- What a call computes from the values of the operands. -/
def Call.sem (V : Arg → ZMod p) : Call p → ZMod p
  | .add x y => V x + V y
  | .sub x y => V x - V y
  | .mul _ x y => V x * V y
  | .div x y => V x / V y
  | .mulc k x => k * V x
  | .exp _ x y => V x ^ (V y).val
  | .konst k => k

/-- When the call is defined. -/
def Call.Def (V : Arg → ZMod p) : Call p → Prop
  | .div _ y => V y ≠ 0
  | .exp es _ y => (V y).val < 2 ^ Exponentiation.padded es
  | _ => True

/-- The exponent size is positive and padded exponents fit in the field. -/
def Call.Size : Call p → Prop
  | .exp es _ _ => 0 < es ∧ 2 ^ Exponentiation.padded es ≤ p
  | _ => True

/-- The operands have the values the calls say. -/
def Models (V : Arg → ZMod p) (R : Prog p) : Prop := ∀ (i : ℕ) c, R[i]? = some c → V (.res i) = c.sem V

/-- The operand is known before call `n`; a given variable is not in the rows from `base` on. -/
def Arg.In (base : ℤ) (n : ℕ) : Arg → Prop
  | .ext v => v.type = .witness → v.rotation < base
  | .res i => i < n

theorem Arg.In.mono {base : ℤ} {n n' : ℕ} {a : Arg} (h : a.In base n) (hn : n ≤ n') : a.In base n' := by
  cases a
  · exact h
  · exact lt_of_lt_of_le h hn

/-- The operands of a call are known. -/
def Call.In (base : ℤ) (n : ℕ) : Call p → Prop
  | .add x y | .sub x y | .mul _ x y | .div x y | .exp _ x y => x.In base n ∧ y.In base n
  | .mulc _ x => x.In base n
  | .konst _ => True

/-- Operands are known before they are used. -/
def Wf (base : ℤ) (R : Prog p) : Prop := ∀ (i : ℕ) c, R[i]? = some c → c.In base i ∧ c.Size

/-! ### Soundness -/

theorem c3_ok : c3.OK 3 := ⟨by decide, rfl⟩
theorem c4_ok : c4.OK 4 := ⟨by decide, rfl⟩
theorem c2_ok : c2.OK 2 := ⟨by decide, rfl⟩
theorem c15_ok : c15.OK 15 := ⟨by decide, rfl⟩

theorem call_sound (c : Call p) (hc : c.Size) (f : Arg → Var) (row : ℤ) (t : Table (ZMod p)) (h : Sat t (c.ops f row)) :
    (c.out row).value t = c.sem (fun a => (f a).value t) ∧ c.Def fun a => (f a).value t := by
  cases c with
  | add x y => exact ⟨addition_sound _ _ _ t h, trivial⟩
  | sub x y => exact ⟨subtraction_sound _ _ _ t h, trivial⟩
  | mul pad x y => exact ⟨multiplication_sound _ _ _ t h, trivial⟩
  | div x y =>
    have := division_sound _ _ _ t h
    exact ⟨this.2.2, this.1⟩
  | mulc k x =>
    have := mulByConstant_sound_partial c2 k (f x) row rfl t h
    exact ⟨this, trivial⟩
  | exp es x y =>
    refine ⟨exponentiation_sound_partial c15 es rfl hc.2 _ _ _ t h, ?_⟩
    obtain ⟨N, hN, e, -⟩ := Exponentiation.sound c15 es _ _ _ t rfl h
    show ((f y).value t).val < _
    rw [e, ZMod.val_natCast]
    exact lt_of_le_of_lt (Nat.mod_le _ _) hN
  | konst k =>
    refine ⟨?_, trivial⟩
    have h : t .constant 0 row = k := by simpa [Call.ops] using h
    exact h

/-- The values of the operands in a table. -/
def tval (R : Prog p) (base : ℤ) (t : Table (ZMod p)) (a : Arg) : ZMod p := (argVar R base a).value t

theorem sat_ops {R : Prog p} {base : ℤ} {t : Table (ZMod p)} :
    Sat t (ops R base) ↔ ∀ (i : ℕ) c, R[i]? = some c → Sat t (c.ops (argVar R base) (rowAt R base i)) := by
  unfold ops Sat
  simp only [List.mem_flatMap, List.mem_range]
  constructor
  · intro h i c hc o ho
    have hi : i < R.length := (List.getElem?_eq_some_iff.1 hc).1
    exact h o ⟨i, hi, by rw [hc]; exact ho⟩
  · rintro h o ⟨i, hi, ho⟩
    rw [List.getElem?_eq_getElem hi] at ho
    exact h i _ (List.getElem?_eq_getElem hi) o ho

/-- Every table that satisfies the obligations of the calls computes them, and all calls are defined. -/
theorem prog_sound {R : Prog p} {base : ℤ} {t : Table (ZMod p)} (hw : ∀ (i : ℕ) c, R[i]? = some c → c.Size) (h : Sat t (ops R base)) :
    Models (tval R base t) R ∧ ∀ (i : ℕ) c, R[i]? = some c → c.Def (tval R base t) := by
  have key : ∀ (i : ℕ) c, R[i]? = some c → tval R base t (.res i) = c.sem (tval R base t) ∧ c.Def (tval R base t) := by
    intro i c hc
    have := call_sound c (hw i c hc) _ _ t (sat_ops.1 h i c hc)
    refine ⟨?_, this.2⟩
    rw [tval, argVar, hc]
    exact this.1
  exact ⟨fun i c hc => (key i c hc).1, fun i c hc => (key i c hc).2⟩

/-! ### Completeness -/

/-- Same contents in the given rows and outside the witness columns. -/
def Same (P : ℤ → Prop) (t t' : Table (ZMod p)) : Prop := ∀ ty i r, ty ≠ .witness ∨ P r → t' ty i r = t ty i r

theorem Same.value {P : ℤ → Prop} {t t' : Table (ZMod p)} (h : Same P t t') {v : Var} (hv : v.type = .witness → P v.rotation) : v.value t' = v.value t := by
  unfold Var.value
  by_cases e : v.type = .witness
  · exact h _ _ _ (Or.inr (hv e))
  · exact h _ _ _ (Or.inl e)

theorem same_of_frame {c : Cols} {row : ℤ} {n : ℕ} {t t' : Table (ZMod p)} (h : Frame c row n t t') : Same (fun r => r < row ∨ row + n ≤ r) t t' := by
  intro ty i r hr
  apply h
  rintro ⟨h1, -, h2, h3⟩
  rcases hr with hr | hr | hr
  · exact hr h1
  · omega
  · omega

/-- The constants of a call are there. -/
def Call.Consts (row : ℤ) (t : Table (ZMod p)) : Call p → Prop
  | .mulc k _ => t .constant 0 row = k
  | .exp _ _ _ => t .constant 0 row = 0 ∧ t .constant 0 (row + 1) = 1
  | .konst k => t .constant 0 row = k
  | _ => True

theorem call_complete (c : Call p) (f : Arg → Var) (row : ℤ) (t : Table (ZMod p)) (hk : c.Consts row t)
    (hin : match c with
      | .add x y | .sub x y | .mul _ x y | .div x y | .exp _ x y => (f x).Outside row c.rows ∧ (f y).Outside row c.rows
      | .mulc _ x => (f x).Outside row c.rows
      | .konst _ => True)
    (hd : c.Def fun a => (f a).value t) :
    Sat (c.assign f row t) (c.ops f row) ∧ Same (fun r => r < row ∨ row + c.rows ≤ r) t (c.assign f row t) ∧
      (c.out row).value (c.assign f row t) = c.sem fun a => (f a).value t := by
  cases c with
  | add x y =>
    have e : writeConsts (Addition.circuit c3 ⟨f x, f y⟩ row) t = t := rfl
    have := addition_complete c3 c3_ok ⟨f x, f y⟩ row t hin.1 hin.2
    rw [e] at this
    exact ⟨this.1, same_of_frame this.2.1, this.2.2.1⟩
  | sub x y =>
    have e : writeConsts (Subtraction.circuit c3 ⟨f x, f y⟩ row) t = t := rfl
    have := subtraction_complete c3 c3_ok ⟨f x, f y⟩ row t hin.1 hin.2
    rw [e] at this
    exact ⟨this.1, same_of_frame this.2.1, this.2.2.1⟩
  | mul pad x y =>
    have e : writeConsts (Multiplication.circuit c3 ⟨f x, f y⟩ row) t = t := by
      unfold Multiplication.circuit
      split_ifs <;> rfl
    have sh : ∀ v : Var, v.Outside row (Call.mul (p := p) pad x y).rows → v.Outside row 1 := fun v hv h => by
      have := hv h
      simp only [Call.rows] at this
      push_cast at this ⊢
      omega
    have := multiplication_complete c3 c3_ok ⟨f x, f y⟩ row t (sh _ hin.1) (sh _ hin.2)
    rw [e] at this
    refine ⟨this.1, fun ty i r hr => same_of_frame this.2.1 ty i r (hr.imp_right fun hr => ?_), this.2.2.1⟩
    simp only [Call.rows] at hr
    push_cast at hr ⊢
    omega
  | div x y =>
    have e : writeConsts (Division.circuit c4 ⟨f x, f y⟩ row) t = t := rfl
    have := division_complete c4 c4_ok ⟨f x, f y⟩ row t hin.1 hin.2 hd
    rw [e] at this
    exact ⟨this.1, same_of_frame this.2.1, this.2.2.1⟩
  | mulc k x =>
    have hk : t .constant 0 row = k := hk
    have e : writeConsts (MulByConstant.circuit c2 k (f x) row) t = t := by
      show t.set .constant 0 row k = t
      funext ty i r
      rw [Table.set_apply]
      split_ifs with h
      · obtain ⟨rfl, rfl, rfl⟩ := h
        exact hk.symm
      · rfl
    have := mulByConstant_complete_partial c2 c2_ok k (f x) row rfl t hin
    simp only [e] at this
    refine ⟨this.1, ?_, this.2.trans (mul_comm _ _)⟩
    intro ty i r hr
    show MulByConstant.assign c2 k (f x) row t ty i r = t ty i r
    have hr' : ¬ (ty = .witness ∧ r = row) := by
      rintro ⟨h1, h2⟩
      rcases hr with hr | hr | hr
      · exact hr h1
      · omega
      · have hr : row + ((1 : ℕ) : ℤ) ≤ r := hr
        omega
    unfold MulByConstant.assign
    simp only [Table.set_apply]
    rw [if_neg (by tauto), if_neg (by tauto)]
  | exp es x y =>
    have hd : ((f y).value t).val < 2 ^ Exponentiation.padded es := hd
    have hb : bitsNat (Exponentiation.bitAt es ((f y).value t).val) (Exponentiation.padded es) = ((f y).value t).val := by
      exact bitsNat_of_testBit _ _ hd
    have := Exponentiation.core c15 es c15_ok rfl rfl (f x) (f y) row t hk.1 hk.2 hin.1 hin.2 (Exponentiation.bitAt es ((f y).value t).val)
      (by rw [hb, ZMod.natCast_zmod_val])
    refine ⟨this.1, same_of_frame this.2.1, ?_⟩
    rw [hb] at this
    exact this.2.2
  | konst k =>
    have hk : t .constant 0 row = k := hk
    exact ⟨by simpa [Call.ops, Call.assign] using hk, fun _ _ _ _ => rfl, hk⟩

/-- The obligations of a call are about its rows, its operands and the other columns. -/
theorem call_stable (c : Call p) (f : Arg → Var) (row : ℤ) {t t' : Table (ZMod p)} (h : Same (fun r => r < row + c.rows) t t')
    (hin : match c with
      | .add x y | .sub x y | .mul _ x y | .div x y | .exp _ x y => (f x).value t' = (f x).value t ∧ (f y).value t' = (f y).value t
      | .mulc _ x => (f x).value t' = (f x).value t
      | .konst _ => True) (hs : Sat t (c.ops f row)) : Sat t' (c.ops f row) := by
  cases c with
  | add x y =>
    have hn : ∀ i, t' .witness i row = t .witness i row := fun i => h _ _ _ (Or.inr (by show row < row + ((1 : ℕ) : ℤ); omega))
    simpa [Call.ops, Addition.circuit, hin.1, hin.2, hn] using hs
  | sub x y =>
    have hn : ∀ i, t' .witness i row = t .witness i row := fun i => h _ _ _ (Or.inr (by show row < row + ((1 : ℕ) : ℤ); omega))
    simpa [Call.ops, Subtraction.circuit, hin.1, hin.2, hn] using hs
  | mul pad x y =>
    have hn : ∀ i, t' .witness i row = t .witness i row := fun i => h _ _ _ (Or.inr (by show row < row + ((1 + pad : ℕ) : ℤ); omega))
    obtain ⟨e1, e2⟩ := hin
    simp only [Call.ops, Multiplication.circuit, sat_cons, sat_append] at hs ⊢
    obtain ⟨h1, h2, h3⟩ := hs
    refine ⟨by simpa [hn] using h1, ?_, ?_⟩
    · split at h2 <;> simp_all
    · split at h3 <;> simp_all
  | div x y =>
    have hn : ∀ i, t' .witness i row = t .witness i row := fun i => h _ _ _ (Or.inr (by show row < row + ((1 : ℕ) : ℤ); omega))
    simpa [Call.ops, Division.circuit, hin.1, hin.2, hn] using hs
  | mulc k x =>
    have hn : ∀ i, t' .witness i row = t .witness i row := fun i => h _ _ _ (Or.inr (by show row < row + ((1 : ℕ) : ℤ); omega))
    have hc : ∀ i r, t' .constant i r = t .constant i r := fun i r => h _ _ _ (Or.inl (by decide))
    simp only [Call.ops, MulByConstant.circuit, sat_cons, Op.Holds, List.mem_singleton, forall_eq, hin, hc] at hs ⊢
    simpa [hn, hc, Var.evalAt] using hs
  | exp es x y =>
    have hc : ∀ i r, t' .constant i r = t .constant i r := fun i r => h _ _ _ (Or.inl (by decide))
    have hn : ∀ i r, r < row + (Exponentiation.rows es : ℤ) → t' .witness i r = t .witness i r := fun i r hr => h _ _ _ (Or.inr hr)
    have er : (Exponentiation.rows es : ℤ) = Exponentiation.mainRows es + 1 := by unfold Exponentiation.rows; push_cast; ring
    simp only [Call.ops, Exponentiation.circuit_iff c15 es _ _ _ _ rfl, Exponentiation.gate_iff] at hs ⊢
    obtain ⟨h1, h2, h3, h4, h5, h6, h7⟩ := hs
    refine ⟨fun r hr => ?_, fun r hr => ?_, ?_, ?_, ?_, ?_, ?_⟩
    · have := h1 r hr
      have e1 : ∀ i, t' .witness i (row + 1 + (r : ℤ)) = t .witness i (row + 1 + (r : ℤ)) := fun i => hn i _ (by omega)
      have e2 : ∀ i, t' .witness i (row + 1 + (r : ℤ) + -1) = t .witness i (row + 1 + (r : ℤ) + -1) := fun i => hn i _ (by omega)
      simp only [e1, e2]
      exact this
    · rw [hn _ _ (by omega), hin.1]; exact h2 r hr
    · rw [hn _ _ (by omega)]; exact h3
    · rw [hn _ _ (by omega)]; exact h4
    · rw [hn _ _ (by omega), hin.2]; exact h5
    · rw [hc]; exact h6
    · rw [hc]; exact h7
  | konst k =>
    have hc : ∀ i r, t' .constant i r = t .constant i r := fun i r => h _ _ _ (Or.inl (by decide))
    have hs : t .constant 0 row = k := by simpa [Call.ops] using hs
    have : t' .constant 0 row = k := by rw [hc]; exact hs
    simpa [Call.ops] using this

theorem rowAt_succ {R : Prog p} {base : ℤ} {i : ℕ} {c : Call p} (h : R[i]? = some c) : rowAt R base (i + 1) = rowAt R base i + c.rows := by
  obtain ⟨hi, e⟩ := List.getElem?_eq_some_iff.1 h
  unfold rowAt
  rw [List.take_succ, h, Option.toList_some, List.map_append, List.sum_append]
  simp
  ring

theorem rowAt_le {R : Prog p} {base : ℤ} {i j : ℕ} (h : i ≤ j) : rowAt R base i ≤ rowAt R base j := by
  obtain ⟨d, rfl⟩ := Nat.exists_eq_add_of_le h
  unfold rowAt
  rw [List.take_add, List.map_append, List.sum_append, Nat.cast_add]
  omega

theorem rowAt_base {R : Prog p} {base : ℤ} {i : ℕ} : base ≤ rowAt R base i := by
  have := rowAt_le (R := R) (base := base) (Nat.zero_le i)
  simpa [rowAt] using this

theorem rows_pos (c : Call p) : 0 < c.rows := by
  cases c <;> simp [Call.rows, Exponentiation.rows]

theorem out_row (c : Call p) (row : ℤ) : (c.out row).type = .witness → row ≤ (c.out row).rotation ∧ (c.out row).rotation < row + c.rows := by
  intro h
  cases c with
  | exp es x y =>
    show row ≤ row + (Exponentiation.rows es : ℤ) - 1 ∧ row + (Exponentiation.rows es : ℤ) - 1 < row + (Exponentiation.rows es : ℤ)
    have : 0 < Exponentiation.rows es := by simp [Exponentiation.rows]
    omega
  | konst k => simp [Call.out] at h
  | add x y => show row ≤ row ∧ row < row + ((1 : ℕ) : ℤ); omega
  | sub x y => show row ≤ row ∧ row < row + ((1 : ℕ) : ℤ); omega
  | mul pad x y => show row ≤ row ∧ row < row + ((1 + pad : ℕ) : ℤ); omega
  | div x y => show row ≤ row ∧ row < row + ((1 : ℕ) : ℤ); omega
  | mulc k x => show row ≤ row ∧ row < row + ((1 : ℕ) : ℤ); omega

/-- The variable of an operand known before call `n` is above the row of that call. -/
theorem argVar_row {R : Prog p} {base : ℤ} {n : ℕ} {a : Arg} (ha : a.In base n) (hn : n ≤ R.length) :
    (argVar R base a).type = .witness → (argVar R base a).rotation < rowAt R base n := by
  intro h
  cases a with
  | ext v => exact lt_of_lt_of_le (ha h) rowAt_base
  | res i =>
    have hi : i < n := ha
    have e : R[i]? = some R[i] := List.getElem?_eq_getElem (by omega)
    rw [argVar, e] at h ⊢
    have h1 := (out_row _ _ h).2
    have h2 := rowAt_succ (base := base) e
    have h3 := rowAt_le (R := R) (base := base) (show i + 1 ≤ n from hi)
    simp only at h1 ⊢
    omega

theorem sem_congr {c : Call p} {base : ℤ} {n : ℕ} (hc : c.In base n) {V W : Arg → ZMod p} (h : ∀ a : Arg, a.In base n → V a = W a) : c.sem V = c.sem W := by
  cases c with
  | add x y => show V x + V y = W x + W y; rw [h x hc.1, h y hc.2]
  | sub x y => show V x - V y = W x - W y; rw [h x hc.1, h y hc.2]
  | mul pad x y => show V x * V y = W x * W y; rw [h x hc.1, h y hc.2]
  | div x y => show V x / V y = W x / W y; rw [h x hc.1, h y hc.2]
  | mulc k x => show k * V x = k * W x; rw [h x hc]
  | exp es x y => show V x ^ (V y).val = W x ^ (W y).val; rw [h x hc.1, h y hc.2]
  | konst k => rfl

theorem def_congr {c : Call p} {base : ℤ} {n : ℕ} (hc : c.In base n) {V W : Arg → ZMod p} (h : ∀ a : Arg, a.In base n → V a = W a) : c.Def V → c.Def W := by
  cases c with
  | div x y => show V y ≠ 0 → W y ≠ 0; rw [h y hc.2]; exact id
  | exp es x y => show (V y).val < _ → (W y).val < _; rw [h y hc.2]; exact id
  | _ => exact id

/-- With the constants in place, the assignment satisfies all obligations, changes nothing above its rows, and the outputs have the values `V`. -/
theorem assignAt_spec {R : Prog p} {base : ℤ} (hw : Wf base R) {t : Table (ZMod p)} (hk : ∀ (i : ℕ) c, R[i]? = some c → c.Consts (rowAt R base i) t)
    {V : Arg → ZMod p} (he : ∀ v, (Arg.ext v).In base 0 → V (.ext v) = v.value t) (hV : Models V R) (hd : ∀ (i : ℕ) c, R[i]? = some c → c.Def V) (n : ℕ)
    (hn : n ≤ R.length) :
    Same (fun r => r < base ∨ rowAt R base n ≤ r) t (assignAt R base t n) ∧ (∀ a : Arg, a.In base n → (argVar R base a).value (assignAt R base t n) = V a) ∧
      ∀ i < n, ∀ c, R[i]? = some c → Sat (assignAt R base t n) (c.ops (argVar R base) (rowAt R base i)) := by
  induction n with
  | zero =>
    refine ⟨fun _ _ _ _ => rfl, fun a ha => ?_, fun i hi => absurd hi (by omega)⟩
    cases a with
    | ext v => exact (he v ha).symm
    | res i => exact absurd ha (Nat.not_lt_zero i)
  | succ n ih =>
    obtain ⟨i1, i2, i3⟩ := ih (by omega)
    have e : R[n]? = some R[n] := List.getElem?_eq_getElem (by omega)
    generalize R[n] = c at e
    obtain ⟨hin, hsz⟩ := hw n c e
    have ea : assignAt R base t (n + 1) = c.assign (argVar R base) (rowAt R base n) (assignAt R base t n) := by rw [assignAt, e]
    have hrow := rowAt_succ (base := base) e
    have hb := rowAt_base (R := R) (base := base) (i := n)
    have hconst : c.Consts (rowAt R base n) (assignAt R base t n) := by
      have h0 := hk n c e
      have hc : ∀ i r, (assignAt R base t n) .constant i r = t .constant i r := fun i r => i1 _ _ _ (Or.inl (by decide))
      cases c <;> simp only [Call.Consts, hc] at h0 ⊢ <;> exact h0
    have hout : ∀ a : Arg, a.In base n → (argVar R base a).Outside (rowAt R base n) c.rows := fun a ha h => Or.inl (argVar_row ha (by omega) h)
    have hdef : c.Def fun a => (argVar R base a).value (assignAt R base t n) := def_congr hin (fun a ha => (i2 a ha).symm) (hd n c e)
    obtain ⟨h1, h2, h3⟩ := call_complete c (argVar R base) (rowAt R base n) (assignAt R base t n) hconst
      (by cases c <;> first | exact ⟨hout _ hin.1, hout _ hin.2⟩ | exact hout _ hin | trivial) hdef
    rw [← ea] at h1 h2 h3
    rw [hrow]
    have hold : ∀ a : Arg, a.In base n → (argVar R base a).value (assignAt R base t (n + 1)) = (argVar R base a).value (assignAt R base t n) :=
      fun a ha => h2.value fun h => Or.inl (argVar_row ha (by omega) h)
    refine ⟨?_, ?_, ?_⟩
    · intro ty i r hr
      rw [h2 ty i r (hr.imp_right fun hr => by have := rows_pos c; omega), i1 ty i r (hr.imp_right fun hr => by have := rows_pos c; omega)]
    · intro a ha
      have old : ∀ b : Arg, b.In base n → (argVar R base b).value (assignAt R base t (n + 1)) = V b := fun b hb => (hold b hb).trans (i2 b hb)
      cases a with
      | ext v => exact old _ ha
      | res i =>
        by_cases hi : i = n
        · subst hi
          rw [argVar, e]
          refine h3.trans ?_
          rw [hV i c e]
          exact sem_congr hin fun a ha => i2 a ha
        · exact old _ (show i < n by have : i < n + 1 := ha; omega)
    · intro i hi c' hc'
      by_cases hin' : i = n
      · subst hin'
        rw [e] at hc'
        obtain rfl := Option.some.inj hc'
        exact h1
      · have hlt : i < n := by omega
        have hcin := (hw i c' hc').1
        have m : ∀ a : Arg, a.In base i → a.In base n := fun a ha => ha.mono (by omega)
        refine call_stable c' _ _ (t := assignAt R base t n) ?_ ?_ (i3 i hlt c' hc')
        · intro ty j r hr
          refine h2 ty j r (hr.imp_right fun hr => Or.inl ?_)
          have h5 := rowAt_succ (base := base) hc'
          have h6 := rowAt_le (R := R) (base := base) (show i + 1 ≤ n from hlt)
          omega
        · cases c' <;> first | exact ⟨hold _ (m _ hcin.1), hold _ (m _ hcin.2)⟩ | exact hold _ (m _ hcin) | trivial

/-! ### The constants -/

theorem writeConsts_other (os : List (Op (ZMod p))) (t : Table (ZMod p)) (ty : ColType) (i : ℕ) (r : ℤ)
    (h : ∀ o ∈ os, ∀ v, o ≠ .constant i r v ∨ ty ≠ .constant) : writeConsts os t ty i r = t ty i r := by
  induction os generalizing t with
  | nil => rfl
  | cons o os ih =>
    show writeConsts os (o.writeConst t) ty i r = _
    rw [ih _ fun o' ho' => h o' (List.mem_cons_of_mem _ ho')]
    cases o with
    | constant col row v =>
      rw [Op.writeConst, Table.set_apply, if_neg]
      rintro ⟨rfl, rfl, rfl⟩
      rcases h _ List.mem_cons_self v with h | h <;> exact h rfl
    | _ => rfl

theorem const_rows {c : Call p} (hc : c.Size) {f : Arg → Var} {row : ℤ} {i : ℕ} {r : ℤ} {v : ZMod p} (h : Op.constant i r v ∈ c.ops f row) :
    i = 0 ∧ row ≤ r ∧ r < row + c.rows := by
  cases c with
  | add x y => simp [Call.ops, Addition.circuit] at h
  | sub x y => simp [Call.ops, Subtraction.circuit] at h
  | mul pad x y =>
    simp only [Call.ops, Multiplication.circuit] at h
    split_ifs at h <;> simp at h
  | div x y => simp [Call.ops, Division.circuit] at h
  | mulc k x =>
    simp only [Call.ops, MulByConstant.circuit, List.mem_cons, reduceCtorEq, Op.constant.injEq, false_or, List.not_mem_nil, or_false] at h
    obtain ⟨rfl, rfl, -⟩ := h
    exact ⟨rfl, le_refl _, by show r < r + ((1 : ℕ) : ℤ); omega⟩
  | exp es x y =>
    have hpos : 1 < Exponentiation.rows es := by
      have : 0 < es := hc.1
      simp only [Exponentiation.rows, Exponentiation.mainRows, Exponentiation.bitsPerRow, Exponentiation.perRow]
      omega
    have hr : (Call.exp (p := p) es x y).rows = Exponentiation.rows es := rfl
    simp only [Call.ops, Exponentiation.circuit, List.mem_append, List.mem_cons, List.mem_map, reduceCtorEq, Op.constant.injEq, false_or, List.not_mem_nil,
      or_false, and_false, exists_false] at h
    rcases h with ⟨rfl, rfl, -⟩ | ⟨rfl, rfl, -⟩
    · exact ⟨rfl, le_refl _, by rw [hr]; omega⟩
    · exact ⟨rfl, by omega, by rw [hr]; omega⟩
  | konst k =>
    simp only [Call.ops, List.mem_singleton, Op.constant.injEq] at h
    obtain ⟨rfl, rfl, -⟩ := h
    exact ⟨rfl, le_refl _, by show r < r + ((1 : ℕ) : ℤ); omega⟩

theorem call_consts (c : Call p) (f : Arg → Var) (row : ℤ) (t : Table (ZMod p)) : c.Consts row (writeConsts (c.ops f row) t) := by
  cases c with
  | mulc k x =>
    show (t.set .constant 0 row k) .constant 0 row = k
    rw [Table.set_apply, if_pos ⟨rfl, rfl, rfl⟩]
  | exp es x y =>
    show writeConsts (Exponentiation.circuit c15 es (f x) (f y) row) t .constant 0 row = 0 ∧ writeConsts (Exponentiation.circuit c15 es (f x) (f y) row) t .constant 0 (row + 1) = 1
    rw [Exponentiation.writeConsts_eq]
    show ((t.set .constant 0 row 0).set .constant 0 (row + 1) 1) .constant 0 row = 0 ∧ ((t.set .constant 0 row 0).set .constant 0 (row + 1) 1) .constant 0 (row + 1) = 1
    simp [Table.set_apply]
  | konst k =>
    show (t.set .constant 0 row k) .constant 0 row = k
    rw [Table.set_apply, if_pos ⟨rfl, rfl, rfl⟩]
  | _ => trivial

theorem consts_congr {c : Call p} (hc : c.Size) {row : ℤ} {t t' : Table (ZMod p)} (h : ∀ r, row ≤ r → r < row + c.rows → t' .constant 0 r = t .constant 0 r)
    (hk : c.Consts row t) : c.Consts row t' := by
  cases c with
  | mulc k x =>
    show t' .constant 0 row = k
    rw [h row le_rfl (by show row < row + ((1 : ℕ) : ℤ); omega)]; exact hk
  | exp es x y =>
    have hpos : 1 < Exponentiation.rows es := by
      have : 0 < es := hc.1
      simp only [Exponentiation.rows, Exponentiation.mainRows, Exponentiation.bitsPerRow, Exponentiation.perRow]
      omega
    have hr : (Call.exp (p := p) es x y).rows = Exponentiation.rows es := rfl
    show t' .constant 0 row = 0 ∧ t' .constant 0 (row + 1) = 1
    rw [h row le_rfl (by rw [hr]; omega), h (row + 1) (by omega) (by rw [hr]; omega)]; exact hk
  | konst k =>
    show t' .constant 0 row = k
    rw [h row le_rfl (by show row < row + ((1 : ℕ) : ℤ); omega)]; exact hk
  | _ => trivial

/-- Generating the circuit puts all constants in place. -/
theorem consts_placed {R : Prog p} {base : ℤ} (hw : Wf base R) (t : Table (ZMod p)) (i : ℕ) (c : Call p) (hc : R[i]? = some c) :
    c.Consts (rowAt R base i) (writeConsts (ops R base) t) := by
  have key : ∀ n ≤ R.length, ∀ i < n, ∀ c, R[i]? = some c → c.Consts (rowAt R base i) (writeConsts ((List.range n).flatMap fun i => match R[i]? with
      | some c => c.ops (argVar R base) (rowAt R base i)
      | none => []) t) := by
    intro n
    induction n with
    | zero => intro _ i hi; exact absurd hi (by omega)
    | succ n ih =>
      intro hn i hi c hc
      have e : R[n]? = some R[n] := List.getElem?_eq_getElem (by omega)
      generalize R[n] = d at e
      rw [List.range_succ, List.flatMap_append, List.flatMap_singleton, e]
      simp only
      rw [writeConsts_append]
      by_cases hin : i = n
      · subst hin
        rw [e] at hc
        obtain rfl := Option.some.inj hc
        exact call_consts _ _ _ _
      · refine consts_congr (hw i c hc).2 (fun r h1 h2 => writeConsts_other _ _ _ _ _ fun o ho v => Or.inl fun eo => ?_) (ih (by omega) i (by omega) c hc)
        subst eo
        have h3 := (const_rows (hw n d e).2 ho).2.1
        have h4 := rowAt_succ (base := base) hc
        have h5 := rowAt_le (R := R) (base := base) (show i + 1 ≤ n by omega)
        omega
  exact key R.length le_rfl i (List.getElem?_eq_some_iff.1 hc).1 c hc

/-- The values of the operands, computed call by call. -/
def evalAt (e : Var → ZMod p) (R : Prog p) : ℕ → Arg → ZMod p
  | 0 => fun a => match a with
    | .ext v => e v
    | .res _ => 0
  | n + 1 => fun a => match a with
    | .ext v => e v
    | .res i => if i = n then (match R[n]? with
        | some c => c.sem (evalAt e R n)
        | none => 0) else evalAt e R n (.res i)

/-- The values of the operands. -/
def value (e : Var → ZMod p) (R : Prog p) : Arg → ZMod p := evalAt e R R.length

theorem evalAt_ext (e : Var → ZMod p) (R : Prog p) (n : ℕ) (v : Var) : evalAt e R n (.ext v) = e v := by cases n <;> rfl

theorem evalAt_mono (e : Var → ZMod p) (R : Prog p) {base : ℤ} {n m : ℕ} (h : n ≤ m) (a : Arg) (ha : a.In base n) : evalAt e R m a = evalAt e R n a := by
  induction m with
  | zero => rw [Nat.le_zero.1 h]
  | succ m ih =>
    by_cases hm : n = m + 1
    · rw [hm]
    · rw [← ih (by omega)]
      cases a with
      | ext v => rw [evalAt_ext, evalAt_ext]
      | res i =>
        have hi : i < n := ha
        rw [evalAt]
        simp only
        rw [if_neg (by omega)]

theorem value_ext (e : Var → ZMod p) (R : Prog p) (v : Var) : value e R (.ext v) = e v := evalAt_ext e R _ v

theorem value_models (e : Var → ZMod p) {R : Prog p} {base : ℤ} (hw : Wf base R) : Models (value e R) R := by
  intro i c hc
  obtain ⟨hi, -⟩ := List.getElem?_eq_some_iff.1 hc
  rw [value, evalAt_mono e R (base := base) (show i + 1 ≤ R.length from hi) (.res i) (Nat.lt_succ_self i), evalAt]
  simp only [if_true]
  rw [hc]
  exact sem_congr (hw i c hc).1 fun a ha => (evalAt_mono e R (by omega) a ha).symm

/-- Completeness: if all calls are defined, the assignment satisfies the obligations of all calls. It changes nothing above its rows and below them, and
every operand has the value computed call by call. -/
theorem prog_complete {R : Prog p} {base : ℤ} (hw : Wf base R) (t : Table (ZMod p)) :
    let tc := writeConsts (ops R base) t
    let V := value (fun v => v.value tc) R
    (∀ (i : ℕ) c, R[i]? = some c → c.Def V) →
    Sat (assign R base tc) (ops R base) ∧ Same (fun r => r < base ∨ rowAt R base R.length ≤ r) tc (assign R base tc) ∧
      ∀ a : Arg, a.In base R.length → tval R base (assign R base tc) a = V a := by
  intro tc V hd
  obtain ⟨h1, h2, h3⟩ := assignAt_spec hw (consts_placed hw t) (V := V) (fun v _ => value_ext _ R v) (value_models _ hw) hd R.length le_rfl
  exact ⟨sat_ops.2 fun i c hc => h3 i (List.getElem?_eq_some_iff.1 hc).1 c hc, h1, h2⟩

/-! ### Components -/

/-- The operands of a call. -/
def Call.args : Call p → Set Arg
  | .add x y | .sub x y | .mul _ x y | .div x y | .exp _ x y => {x, y}
  | .mulc _ x => {x}
  | .konst _ => ∅

theorem Call.in_of_args {c : Call p} {base : ℤ} {n : ℕ} (h : ∀ a ∈ c.args, a.In base n) : c.In base n := by
  cases c with
  | mulc k x => exact h x rfl
  | konst k => trivial
  | _ => exact ⟨h _ (Or.inl rfl), h _ (Or.inr rfl)⟩

/-- The calls from the end of `P` on are defined. -/
def DefFrom (P P' : Prog p) (V : Arg → ZMod p) : Prop := ∀ (i : ℕ) c, P.length ≤ i → P'[i]? = some c → c.Def V

/-- What is known of a component: it appends calls; whenever the calls have the values `V`, are defined and `F V`, its result satisfies `Q`; if the operands
`K` are known, its calls are well formed and the operands `O` of its result are known; its calls are defined if `D`. -/
structure Tri (base : ℤ) {α : Type} (K : Set Arg) (F D : (Arg → ZMod p) → Prop) (m : Bld p α) (O : α → Set Arg) (Q : (Arg → ZMod p) → α → Prop) : Prop where
  grow : ∀ P, P <+: (m P).2
  val : ∀ P V R, (m P).2 <+: R → Models V R → DefFrom P (m P).2 V → F V → Q V (m P).1
  wf : ∀ P, Wf base P → (∀ a ∈ K, a.In base P.length) → Wf base (m P).2 ∧ ∀ a ∈ O (m P).1, a.In base (m P).2.length
  dfn : ∀ P V R, (m P).2 <+: R → Models V R → F V → D V → DefFrom P (m P).2 V
  size : ∀ P, (∀ c ∈ P, c.Size) → ∀ c ∈ (m P).2, c.Size

variable {base : ℤ} {α β : Type} {K : Set Arg} {F D : (Arg → ZMod p) → Prop}

theorem Tri.ret {a : α} {O : α → Set Arg} {Q : (Arg → ZMod p) → α → Prop} (hO : O a ⊆ K) (hQ : ∀ V, F V → Q V a) : Tri base K F D (pure a : Bld p α) O Q :=
  ⟨fun P => List.prefix_refl P, fun _ _ _ _ _ _ => hQ _, fun _ h hK => ⟨h, fun b hb => hK b (hO hb)⟩, fun P _ _ _ _ _ _ i _ hi hc => by
    have := (List.getElem?_eq_some_iff.1 hc).1
    exact absurd this (Nat.not_lt.2 hi), fun _ h => h⟩

theorem Tri.seq {m : Bld p α} {O : α → Set Arg} {Q : (Arg → ZMod p) → α → Prop} (h : Tri base K F D m O Q) {f : α → Bld p β} {O' : β → Set Arg}
    {Q' : (Arg → ZMod p) → β → Prop} (h' : ∀ a, Tri base (O a ∪ K) (fun V => Q V a ∧ F V) D (f a) O' Q') : Tri base K F D (m >>= f) O' Q' := by
  have left : ∀ P (i : ℕ), i < (m P).2.length → (m P).2[i]? = (f (m P).1 (m P).2).2[i]? := fun P i hlt => by
    obtain ⟨M, hM⟩ := (h' (m P).1).grow (m P).2
    rw [← hM, List.getElem?_append_left hlt]
  refine ⟨fun P => (h.grow P).trans ((h' _).grow _), fun P V R hR hV hd hF => ?_, fun P hP hK => ?_, fun P V R hR hV hF hD i c hi hc => ?_,
    fun P hP => (h' _).size _ (h.size P hP)⟩
  · refine (h' _).val _ V R hR hV (fun i c hi hc => hd i c ((h.grow P).length_le.trans hi) hc)
      ⟨h.val P V R (((h' _).grow _).trans hR) hV (fun i c hi hc => hd i c hi ?_) hF, hF⟩
    rw [← hc]
    exact (left P i (List.getElem?_eq_some_iff.1 hc).1).symm
  · obtain ⟨h1, h2⟩ := h.wf P hP hK
    exact (h' _).wf _ h1 fun a ha => ha.elim (h2 a) fun ha => (hK a ha).mono (h.grow P).length_le
  · have hd := h.dfn P V R (((h' _).grow _).trans hR) hV hF hD
    have hq := h.val P V R (((h' _).grow _).trans hR) hV hd hF
    by_cases hlt : i < (m P).2.length
    · exact hd i c hi ((left P i hlt).trans hc)
    · exact (h' _).dfn _ V R hR hV ⟨hq, hF⟩ hD i c (by omega) hc

theorem Tri.weaken {m : Bld p α} {O : α → Set Arg} {Q : (Arg → ZMod p) → α → Prop} {K' : Set Arg} {F' D' : (Arg → ZMod p) → Prop} {O' : α → Set Arg}
    {Q' : (Arg → ZMod p) → α → Prop} (h : Tri base K' F' D' m O' Q') (hK : K' ⊆ K) (hF : ∀ V, F V → F' V) (hD : ∀ V, F V → D V → D' V) (hO : ∀ a, O a ⊆ O' a ∪ K)
    (hQ : ∀ V a, F V → Q' V a → Q V a) : Tri base K F D m O Q :=
  ⟨h.grow, fun P V R hR hV hd hf => hQ _ _ hf (h.val P V R hR hV hd (hF V hf)), fun P hP hI => by
    obtain ⟨h1, h2⟩ := h.wf P hP fun a ha => hI a (hK ha)
    exact ⟨h1, fun a ha => (hO _ ha).elim (h2 a) fun ha => (hI a ha).mono (h.grow P).length_le⟩,
   fun P V R hR hV hf hd => h.dfn P V R hR hV (hF V hf) (hD V hf hd), h.size⟩

theorem emit_tri (c : Call p) (hc : c.Size) (hK : c.args ⊆ K) (hD : ∀ V, F V → D V → c.Def V) :
    Tri base K F D (emit c) (fun a => {a}) fun V a => V a = c.sem V ∧ c.Def V := by
  have last : ∀ P : Prog p, (P ++ [c])[P.length]? = some c := fun P => by simp
  refine ⟨fun P => List.prefix_append P [c], fun P V R hR hV hd _ => ⟨?_, hd P.length c le_rfl (last P)⟩, fun P hP hI => ⟨fun i d hd => ?_, ?_⟩,
    fun P V R hR hV hF hd i d hi hdd => ?_, fun P hP d hd => (List.mem_append.1 hd).elim (hP d) fun hd => by rw [List.mem_singleton.1 hd]; exact hc⟩
  · refine hV P.length c ?_
    obtain ⟨M, rfl⟩ := hR
    show ((P ++ [c]) ++ M)[P.length]? = some c
    rw [List.getElem?_append_left (by simp)]
    exact last P
  · by_cases h : i < P.length
    · exact hP i d (by rw [← hd]; exact (List.getElem?_append_left h).symm)
    · have hl : i < (P ++ [c]).length := (List.getElem?_eq_some_iff.1 hd).1
      rw [List.length_append, List.length_singleton] at hl
      have : i = P.length := by omega
      subst this
      have hd : (P ++ [c])[P.length]? = some d := hd
      rw [last] at hd
      obtain rfl := Option.some.inj hd
      exact ⟨Call.in_of_args fun a ha => hI a (hK ha), hc⟩
  · rintro a rfl
    show P.length < (P ++ [c]).length
    simp
  · have hl : i < (P ++ [c]).length := (List.getElem?_eq_some_iff.1 hdd).1
    rw [List.length_append, List.length_singleton] at hl
    have : i = P.length := by omega
    subst this
    have hdd : (P ++ [c])[P.length]? = some d := hdd
    rw [last] at hdd
    obtain rfl := Option.some.inj hdd
    exact hD V hF hd

/-- A loop with an invariant. -/
theorem loop_tri {f : ℕ → α → Bld p α} {a : α} {N : ℕ} (O : ℕ → α → Set Arg) (Q : ℕ → (Arg → ZMod p) → α → Prop) (h0 : O 0 a ⊆ K) (q0 : ∀ V, F V → Q 0 V a)
    (h : ∀ i < N, ∀ b, Tri base (O i b ∪ K) (fun V => Q i V b ∧ F V) D (f i b) (O (i + 1)) (Q (i + 1))) :
    Tri base K F D (loop f a N) (O N) (Q N) := by
  have : ∀ M ≤ N, Tri base K F D (loop f a M) (O M) (Q M) := by
    intro M
    induction M with
    | zero => exact fun _ => Tri.ret h0 q0
    | succ M ih => exact fun hM => (ih (by omega)).seq fun b => h M (by omega) b
  exact this N le_rfl

/-- A component on its own: in every table that satisfies the obligations the result is as specified. -/
theorem Tri.sound {m : Bld p α} {O : α → Set Arg} {Q : (Arg → ZMod p) → α → Prop} (h : Tri base K F D m O Q) {row : ℤ} {t : Table (ZMod p)}
    (hF : F (tval (m []).2 row t)) (hs : Sat t (ops (m []).2 row)) : Q (tval (m []).2 row t) (m []).1 := by
  have := prog_sound (fun i c hc => h.size [] (by simp) c (List.mem_of_getElem? hc)) hs
  exact h.val [] _ _ (List.prefix_refl _) this.1 (fun i c _ hc => this.2 i c hc) hF

/-- A component on its own: if the calls are defined, the assignment is accepted, and the result is as specified. -/
theorem Tri.complete {m : Bld p α} {O : α → Set Arg} {Q : (Arg → ZMod p) → α → Prop} (h : Tri base K F D m O Q) (hK : ∀ a ∈ K, a.In base 0) (t : Table (ZMod p)) :
    let R := (m []).2
    let tc := writeConsts (ops R base) t
    (∀ V : Arg → ZMod p, (∀ v, V (.ext v) = v.value tc) → F V ∧ D V) →
    Sat (assign R base tc) (ops R base) ∧ Same (fun r => r < base ∨ rowAt R base R.length ≤ r) tc (assign R base tc) := by
  intro R tc hD
  have hw : Wf base R := (h.wf [] (fun i c hc => by simp at hc) hK).1
  have hd := hD (value (fun v => v.value tc) R) fun v => value_ext _ R v
  have := prog_complete hw t (fun i c hc => h.dfn [] _ R (List.prefix_refl _) (value_models _ hw) hd.1 hd.2 i c (by simp) hc)
  exact ⟨this.1, this.2.1⟩

/-! ### Rows -/

/-- The rows taken by a list of calls. -/
def height (P : Prog p) : ℕ := (P.map Call.rows).sum

/-- The component takes `N` rows. -/
def Rows (m : Bld p α) (N : ℕ) : Prop := ∀ P, height (m P).2 = height P + N

theorem Rows.ret (a : α) : Rows (pure a : Bld p α) 0 := fun _ => rfl

theorem Rows.seq {m : Bld p α} {N : ℕ} (h : Rows m N) {f : α → Bld p β} {M : ℕ} (h' : ∀ a, Rows (f a) M) : Rows (m >>= f) (N + M) := fun P => by
  show height (f (m P).1 (m P).2).2 = _
  rw [h' _ _, h P]; ring

theorem Rows.emit (c : Call p) : Rows (emit c) c.rows := fun P => by simp [height, Kimchi.emit]

theorem Rows.loop {f : ℕ → α → Bld p α} {a : α} {M : ℕ} (h : ∀ i b, Rows (f i b) M) (N : ℕ) : Rows (loop f a N) (N * M) := by
  induction N with
  | zero => rw [Nat.zero_mul]; exact Rows.ret a
  | succ N ih => rw [Nat.succ_mul]; exact ih.seq fun b => h N b

theorem rowAt_height (P : Prog p) (base : ℤ) : rowAt P base P.length = base + height P := by
  rw [rowAt, List.take_length, height]

/-- The variable of the output of the last call. -/
theorem last_var {m : Bld p α} {N : ℕ} (h : Rows m N) (c : α → Call p) (base : ℤ) :
    argVar ((m >>= fun a => emit (c a)) []).2 base ((m >>= fun a => emit (c a)) []).1 = (c (m []).1).out (base + N) := by
  show argVar ((m []).2 ++ [c (m []).1]) base (.res (m []).2.length) = _
  have e : ((m []).2 ++ [c (m []).1])[(m []).2.length]? = some (c (m []).1) := by simp
  rw [argVar, e]
  have hr : rowAt ((m []).2 ++ [c (m []).1]) base (m []).2.length = base + N := by
    have := h []
    rw [rowAt, List.take_left', height] at *
    · rw [this]; simp [height]
    · rfl
  rw [hr]

end Kimchi
end Verif
