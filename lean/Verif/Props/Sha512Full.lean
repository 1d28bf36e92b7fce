import Verif.Props.Sha512Pack

/-!
# The SHA-512 component of the Ed25519 circuits
-/

set_option linter.unusedSimpArgs false
set_option linter.unusedSectionVars false
set_option linter.unusedVariables false

namespace Verif

/-! ## Obligations concern the rows of the component -/

namespace Sha512

variable {F : Type*} [Field F] {c : Cols} {inp : In} {srow : ℤ} {t t' : Table F}

theorem SchedBlock.congr {x y : ℤ → ℤ → F} (h : ∀ r j, 0 ≤ r → r < 6 → y r j = x r j) (hx : SchedBlock x) : SchedBlock y := by
  unfold SchedBlock Sigma0OK SchedOK Sigma1OK at hx ⊢
  simp only [Int.reduceAdd, Int.reduceNeg] at hx ⊢
  simp only [h 0 _ (by norm_num) (by norm_num), h 1 _ (by norm_num) (by norm_num), h 2 _ (by norm_num) (by norm_num), h 3 _ (by norm_num) (by norm_num),
    h 4 _ (by norm_num) (by norm_num), h 5 _ (by norm_num) (by norm_num)]
  exact hx

theorem RoundBlock.congr {x y : ℤ → ℤ → F} {κ : F} (h : ∀ r j, 0 ≤ r → r < 9 → y r j = x r j) (hx : RoundBlock x κ) : RoundBlock y κ := by
  unfold RoundBlock BigSigma0OK BigSigma1OK EOK AOK MajOK ChOK at hx ⊢
  simp only [Int.reduceAdd, Int.reduceNeg] at hx ⊢
  simp only [h 0 _ (by norm_num) (by norm_num), h 1 _ (by norm_num) (by norm_num), h 2 _ (by norm_num) (by norm_num), h 3 _ (by norm_num) (by norm_num),
    h 4 _ (by norm_num) (by norm_num), h 5 _ (by norm_num) (by norm_num), h 6 _ (by norm_num) (by norm_num), h 7 _ (by norm_num) (by norm_num),
    h 8 _ (by norm_num) (by norm_num)]
  exact hx

theorem OutBlock.congr {x y : ℤ → ℤ → F} (h : ∀ r j, 0 ≤ r → r < 4 → y r j = x r j) (hx : OutBlock x) : OutBlock y := by
  unfold OutBlock OutOK at hx ⊢
  simp only [Int.reduceAdd, Int.reduceNeg] at hx ⊢
  simp only [h 0 _ (by norm_num) (by norm_num), h 1 _ (by norm_num) (by norm_num), h 2 _ (by norm_num) (by norm_num), h 3 _ (by norm_num) (by norm_num)]
  exact hx

/-- What a table must share with an accepted one to be accepted. -/
structure Same (inp : In) (srow : ℤ) (t t' : Table F) : Prop where
  const : ∀ i r, t' .constant i r = t .constant i r
  own : ∀ i r, srow ≤ r → r < srow + 1110 → t' .witness i r = t .witness i r
  state : ∀ i < 8, (inp.state i).value t' = (inp.state i).value t
  words : ∀ i < 16, (inp.words i).value t' = (inp.words i).value t

theorem sat_stable (h : Same inp srow t t') (hs : Sat t (circuit c inp srow)) : Sat t' (circuit c inp srow) := by
  rw [sat_iff, sat_schedCopies, sat_roundCopies, sat_outCopies] at hs ⊢
  obtain ⟨h1, h2, h2', h3, ⟨k1, k2, k3, k4⟩, ⟨⟨a1, a2, a3, a4⟩, h5, b1, b2, b3, b4⟩, o1⟩ := hs
  have g : ∀ (j : ℤ) (r : ℤ), srow ≤ r → r < srow + 1110 → t' .witness (c.w j) r = t .witness (c.w j) r := fun j r a b => h.own _ r a b
  refine ⟨fun n hn => ?_, fun n hn => ?_, fun n hn => ?_, ?_, ⟨fun i hi => ?_, fun i hi => ?_, fun i hi => ?_, fun i hi => ?_⟩,
    ⟨⟨?_, ?_, ?_, ?_⟩, fun r hr => ?_, ?_, ?_, ?_, ?_⟩, fun i hi => ⟨?_, ?_⟩⟩
  · exact (h1 n hn).congr fun r j a b => g j _ (by omega) (by omega)
  · rw [h.const]; exact h2 n hn
  · rw [h.const]; exact (h2' n hn).congr fun r j a b => g j _ (by omega) (by omega)
  · exact h3.congr fun r j a b => g j _ (by omega) (by omega)
  · rw [g 0 _ (by omega) (by omega), h.words _ (by omega)]; exact k1 i hi
  · rw [g 7 _ (by omega) (by omega), h.words _ (by omega)]; exact k2 i hi
  · rw [g 8 _ (by omega) (by omega), h.words _ (by omega)]; exact k3 i hi
  · rw [g 0 _ (by omega) (by omega), h.words _ (by omega)]; exact k4 i hi
  · rw [g _ _ (by omega) (by omega), g _ _ (by omega) (by omega)]; exact a1
  · rw [g _ _ (by omega) (by omega), g _ _ (by omega) (by omega)]; exact a2
  · rw [g _ _ (by omega) (by omega), g _ _ (by omega) (by omega)]; exact a3
  · rw [g _ _ (by omega) (by omega), g _ _ (by omega) (by omega)]; exact a4
  · obtain ⟨a1, a2, a3, a4⟩ := h5 r hr
    refine ⟨?_, ?_, ?_, ?_⟩
    all_goals rw [g _ _ (by omega) (by omega), g _ _ (by omega) (by omega)]
    all_goals assumption
  · rw [g _ _ (by omega) (by omega), h.state _ (by omega)]; exact b1
  · rw [g _ _ (by omega) (by omega), h.state _ (by omega)]; exact b2
  · rw [g _ _ (by omega) (by omega), h.state _ (by omega)]; exact b3
  · rw [g _ _ (by omega) (by omega), h.state _ (by omega)]; exact b4
  · rw [g _ _ (by omega) (by omega), h.state _ (by omega)]; exact (o1 i hi).1
  · rw [g _ _ (by omega) (by omega), h.state _ (by omega)]; exact (o1 i hi).2

theorem out_result {s : ℤ} {n : ℕ} {s' : ℤ} (i : ℕ) (h : s' + 1110 ≤ s ∨ s + n ≤ s' + 1107) : (result c s' i).Outside s n := by
  intro _
  unfold result
  split_ifs <;> (simp only [Cols.wa]; omega)

end Sha512

namespace Sha512Full

open Sha512Spec (Word)
open Sha512 (W large Large kc)

/-- The columns of the component are those that `generate_circuit` names by number. -/
structure Raw (c : Cols) : Prop where
  w : ∀ i : ℕ, i < 4 → c.w ((2 * i : ℕ) : ℤ) = 2 * i
  k : c.k 0 = 0

section
variable {F : Type*} [Field F] {c : Cols} {inp : In} {srow : ℤ} {t : Table F}

theorem Raw.proc1 (h : Raw c) : proc1 (fun i => c.w (i : ℤ)) (c.k 0) srow = proc1 id 0 srow := by
  unfold Sha512Full.proc1
  simp only [h.k, h.w _ (Nat.mod_lt _ (by norm_num : 0 < 4)), id]

theorem Raw.proc2 (h : Raw c) : proc2 c (fun i => c.w (i : ℤ)) (c.k 0) srow = proc2 c id 0 srow := by
  unfold Sha512Full.proc2
  simp only [h.k, id]
  congr 1
  funext i
  by_cases hi : i < 4
  · simp only [if_pos hi, h.w i hi]
  · simp only [if_neg hi]

/-- The constants that the circuit needs. -/
structure Consts (c : Cols) (srow : ℤ) (t : Table F) : Prop where
  iv : ∀ i : ℕ, i < 8 → t .constant (c.k 0) (srow + (i : ℤ)) = ((ivList.getD i 0 : ℕ) : F)
  zero : t .constant (c.k 0) (srow + 8) = 0
  len : t .constant (c.k 0) (srow + 9) = ((252 + 1024 : ℕ) : F)
  k1 : ∀ n : ℕ, n < 80 → t .constant (c.k 0) (srow + 15 + 389 + 9 * (n : ℤ)) = ((Sha512.roundConstant.getD n 0 : ℕ) : F)
  k2 : ∀ n : ℕ, n < 80 → t .constant (c.k 0) (srow + 15 + 1110 + 389 + 9 * (n : ℤ)) = ((Sha512.roundConstant.getD n 0 : ℕ) : F)

theorem Consts.congr {t' : Table F} (h : ∀ i r, t' .constant i r = t .constant i r) (hk : Consts c srow t) : Consts c srow t' :=
  ⟨fun i hi => (h _ _).trans (hk.iv i hi), (h _ _).trans hk.zero, (h _ _).trans hk.len, fun n hn => (h _ _).trans (hk.k1 n hn),
    fun n hn => (h _ _).trans (hk.k2 n hn)⟩

theorem mem_const {col : ℕ} {row : ℤ} {v : F} (h : Op.constant col row v ∈ circuit c inp srow) : col = c.k 0 ∧
    ((∃ i : ℕ, i < 8 ∧ row = srow + (i : ℤ) ∧ v = ((ivList.getD i 0 : ℕ) : F)) ∨ (row = srow + 8 ∧ v = 0) ∨ (row = srow + 9 ∧ v = ((252 + 1024 : ℕ) : F)) ∨
    (∃ i : ℕ, i < 80 ∧ row = srow + 15 + 389 + 9 * (i : ℤ) ∧ v = ((Sha512.roundConstant.getD i 0 : ℕ) : F)) ∨
    ∃ i : ℕ, i < 80 ∧ row = srow + 15 + 1110 + 389 + 9 * (i : ℤ) ∧ v = ((Sha512.roundConstant.getD i 0 : ℕ) : F)) := by
  unfold circuit at h
  simp only [List.mem_append] at h
  rcases h with (((h | h) | h) | h) | h
  · unfold constants at h
    rcases List.mem_append.1 h with h | h
    · obtain ⟨i, hi, he⟩ := List.mem_map.1 h
      have := Op.constant.inj he
      exact ⟨this.1.symm, Or.inl ⟨i, List.mem_range.1 hi, this.2.1.symm, this.2.2.symm⟩⟩
    · simp only [List.mem_cons, List.not_mem_nil, or_false, Op.constant.injEq] at h
      rcases h with ⟨h1, h2, h3⟩ | ⟨h1, h2, h3⟩
      · exact ⟨h1, Or.inr (Or.inl ⟨h2, h3⟩)⟩
      · exact ⟨h1, Or.inr (Or.inr (Or.inl ⟨h2, h3⟩))⟩
  · simp [gateOps] at h
  · obtain ⟨h1, i, hi, h2, h3⟩ := (Sha512.mem_circuit_const _ _ _).1 h
    exact ⟨h1, Or.inr (Or.inr (Or.inr (Or.inl ⟨i, hi, by rw [h2]; ring, h3⟩)))⟩
  · obtain ⟨h1, i, hi, h2, h3⟩ := (Sha512.mem_circuit_const _ _ _).1 h
    exact ⟨h1, Or.inr (Or.inr (Or.inr (Or.inr ⟨i, hi, by rw [h2]; ring, h3⟩)))⟩
  · simp [copies] at h

/-- Generating the circuit writes them: the constants of the parts do not overlap. -/
theorem consts_written (t₀ : Table F) : Consts c srow (writeConsts (circuit c inp srow) t₀) := by
  have key : ∀ (row : ℤ) (v : F), Op.constant (c.k 0) row v ∈ circuit c inp srow →
      writeConsts (circuit c inp srow) t₀ .constant (c.k 0) row = v := by
    intro row v hv
    refine Sha256.writeConsts_read _ _ _ _ _ (fun v' hv' => ?_) (Or.inr hv)
    rcases (mem_const hv).2 with ⟨i, hi, e, rfl⟩ | ⟨e, rfl⟩ | ⟨e, rfl⟩ | ⟨i, hi, e, rfl⟩ | ⟨i, hi, e, rfl⟩ <;>
    rcases (mem_const hv').2 with ⟨j, hj, e', rfl⟩ | ⟨e', rfl⟩ | ⟨e', rfl⟩ | ⟨j, hj, e', rfl⟩ | ⟨j, hj, e', rfl⟩ <;>
    first
    | (exfalso; omega)
    | rfl
    | (obtain rfl : i = j := by omega
       rfl)
  have inC : ∀ o, o ∈ constants (F := F) c srow → o ∈ circuit c inp srow := fun o ho => by
    unfold circuit; simp only [List.mem_append]; exact Or.inl (Or.inl (Or.inl (Or.inl ho)))
  refine ⟨fun i hi => key _ _ (inC _ ?_), key _ _ (inC _ ?_), key _ _ (inC _ ?_), fun n hn => key _ _ ?_, fun n hn => key _ _ ?_⟩
  · exact List.mem_append_left _ (List.mem_map.2 ⟨i, List.mem_range.2 hi, rfl⟩)
  · exact List.mem_append_right _ (by simp)
  · exact List.mem_append_right _ (by simp)
  · unfold circuit; simp only [List.mem_append]
    exact Or.inl (Or.inl (Or.inr ((Sha512.mem_circuit_const _ _ _).2 ⟨rfl, n, hn, by ring, rfl⟩)))
  · unfold circuit; simp only [List.mem_append]
    exact Or.inl (Or.inr ((Sha512.mem_circuit_const _ _ _).2 ⟨rfl, n, hn, by ring, rfl⟩))

theorem Consts.sat (h : Consts c srow t) : Sat t (constants c srow) := by
  unfold constants
  rw [sat_append]
  refine ⟨?_, ?_⟩
  · simp only [Sat, List.mem_map, List.mem_range, forall_exists_index, and_imp, forall_apply_eq_imp_iff₂, holds_constant]
    exact h.iv
  · simp only [sat_cons, sat_nil, and_true, holds_constant]
    exact ⟨h.zero, h.len⟩

/-! ## The inputs of the blocks -/

/-- The message schedule starts with the words cut out of the limbs. -/
theorem words1 {v : Src → F} (h : Holds c srow v t) (i : ℕ) (hi : i < 16) :
    ((proc1 (fun i => c.w (i : ℤ)) (c.k 0) srow).words i).Outside (srow + 15) 1110 ∧
      ((proc1 (fun i => c.w (i : ℤ)) (c.k 0) srow).words i).value t = v (.word i) := by
  refine ⟨fun _ => by simp only [proc1]; omega, ?_⟩
  have := h.get (1 + 3 * (i / 4)) (2 * (i % 4)) (s := .word i) (by interval_cases i <;> decide +kernel)
  rw [← this]
  unfold proc1 Var.value
  simp only [id]
  congr 1
  push_cast; ring

theorem state1 (hk : Consts c srow t) (i : ℕ) (hi : i < 8) : ((proc1 (fun i => c.w (i : ℤ)) (c.k 0) srow).state i).Outside (srow + 15) 1110 ∧
    ((proc1 (fun i => c.w (i : ℤ)) (c.k 0) srow).state i).value t = ((ivList.getD i 0 : ℕ) : F) :=
  ⟨fun h => by simp [proc1] at h, hk.iv i hi⟩

/-- Words sixteen and up. -/
def wordV (v : Src → F) (i : ℕ) : F := if i < 4 then v (.word (16 + i)) else if i < 15 then 0 else ((252 + 1024 : ℕ) : F)

theorem words2 {v : Src → F} (h : Holds c srow v t) (hk : Consts c srow t) (i : ℕ) (hi : i < 16) :
    ((proc2 c (fun i => c.w (i : ℤ)) (c.k 0) srow).words i).Outside (srow + 15 + 1110) 1110 ∧
      ((proc2 c (fun i => c.w (i : ℤ)) (c.k 0) srow).words i).value t = wordV v i := by
  unfold proc2 wordV
  simp only []
  by_cases h4 : i < 4
  · simp only [if_pos h4]
    refine ⟨fun _ => by simp only []; omega, ?_⟩
    have := h.get 13 (2 * i) (s := .word (16 + i)) (by interval_cases i <;> decide +kernel)
    rw [← this]
    unfold Var.value
    simp only [id]
    congr 1
    push_cast; ring
  · by_cases h15 : i < 15
    · simp only [if_neg h4, if_pos h15]
      exact ⟨fun h => (by simp at h), hk.zero⟩
    · simp only [if_neg h4, if_neg h15]
      exact ⟨fun h => (by simp at h), hk.len⟩

/-- The parts together. -/
theorem assemble {v : Src → F} {ta tb tc : Table F} (hin : ∀ i < 20, (inp.limb i).Outside srow 2235) (hk : Consts c srow t)
    (hfa : Frame c srow 15 t ta) (hol : Holds c srow v ta) (heq : ∀ e ∈ eqns, v e.1 = srcSum v e.2) (hl : ∀ i < 20, (inp.limb i).value t = v (.ram i))
    (hfb : Frame c (srow + 15) 1110 ta tb) (hsb : Sat tb (Sha512.circuit c (proc1 id 0 srow) (srow + 15)))
    (hfc : Frame c (srow + 15 + 1110) 1110 tb tc) (hsc : Sat tc (Sha512.circuit c (proc2 c id 0 srow) (srow + 15 + 1110))) :
    Sat tc (circuit c inp srow) ∧ Frame c srow 2235 t tc := by
  have F1 : Frame c srow 2235 t tc := ((hfa.mono (by omega) (by omega)).trans (hfb.mono (by omega) (by omega))).trans (hfc.mono (by omega) (by omega))
  have hk' : Consts c srow tc := hk.congr fun i r => F1.const i r
  have hol' : Holds c srow v tc := fun q hq => by
    have := (layout_unique q hq).1
    rw [hfc.row (by omega), hfb.row (by omega)]
    exact hol q hq
  refine ⟨?_, F1⟩
  unfold circuit
  simp only [sat_append]
  refine ⟨⟨⟨⟨hk'.sat, hol'.sat.2 heq⟩, Sha512.sat_stable ⟨fun i r => hfc.const i r, fun i r h1 h2 => hfc.row (by omega) _ _, fun i hi => ?_, fun i hi => ?_⟩ hsb⟩, hsc⟩,
    hol'.copies fun i hi => ?_⟩
  · exact hfc.outside fun h => by simp [proc1] at h
  · exact hfc.outside fun _ => by simp only [proc1]; omega
  · exact (F1.outside (hin i hi)).trans (hl i hi)

theorem Holds.after {v : Src → F} {t' : Table F} {n : ℕ} (h : Holds c srow v t) (hf : Frame c (srow + 15) n t t') : Holds c srow v t' := fun q hq => by
  have := (layout_unique q hq).1
  rw [hf.row (by omega)]
  exact h q hq

theorem result_eq (i : ℕ) : result c srow i = Sha512.result c (srow + 15 + 1110) i := by
  unfold result Sha512.result
  split_ifs <;> (congr 1; ring)

/-! ## Forged digests -/

/-- The terms of the equation of a word. -/
def termsOf (i : ℕ) : List (Src × ℕ) := ((eqns.find? fun e => decide (e.1 = .word i)).map (·.2)).getD []

/-- The whole limb is put into its first chunk. -/
def fakeLow (l : ℕ → F) : Src → F
  | .ram i => l i
  | .chunk i 0 _ => l i
  | .one => 1
  | _ => 0

/-- The words follow. -/
def fake (l : ℕ → F) : Src → F
  | .word i => srcSum (fakeLow l) (termsOf i)
  | s => fakeLow l s

/-- The first chunk of a limb is the only one with shift zero; the equations of the words mention no word. -/
def checkEq (e : Src × List (Src × ℕ)) : Bool :=
  match e.1 with
  | .ram i =>
    match e.2 with
    | (.chunk j 0 _, 0) :: l => decide (j = i) && l.all fun q => match q.1 with | .chunk _ s _ => decide (s ≠ 0) | _ => false
    | _ => false
  | .word i => decide (termsOf i = e.2) && e.2.all fun q => match q.1 with | .word _ => false | _ => true
  | _ => false

theorem check_all : ∀ e ∈ eqns, checkEq e = true := by decide +kernel

theorem srcSum_congr {R : Type*} [CommSemiring R] {v v' : Src → R} (l : List (Src × ℕ)) (h : ∀ q ∈ l, v q.1 = v' q.1) : srcSum v l = srcSum v' l := by
  induction l with
  | nil => rfl
  | cons q l ih => rw [srcSum, srcSum, h q (by simp), ih fun q hq => h q (by simp [hq])]

theorem srcSum_zero {v : Src → F} (l : List (Src × ℕ)) (h : ∀ q ∈ l, v q.1 = 0) : srcSum v l = 0 := by
  induction l with
  | nil => rfl
  | cons q l ih => rw [srcSum, h q (by simp), ih fun q hq => h q (by simp [hq]), zero_mul, add_zero]

theorem fake_eqns (l : ℕ → F) : ∀ e ∈ eqns, fake l e.1 = srcSum (fake l) e.2 := by
  rintro ⟨s, ts⟩ he
  have hc := check_all _ he
  unfold checkEq at hc
  cases s with
  | ram i =>
    simp only [] at hc
    split at hc
    · rename_i _ j w l'
      simp only [Bool.and_eq_true, decide_eq_true_eq, List.all_eq_true] at hc
      obtain ⟨rfl, hc⟩ := hc
      simp only [srcSum]
      rw [srcSum_zero l' fun q hq => ?_]
      · simp [fake, fakeLow]
      · have := hc q hq
        obtain ⟨s, e⟩ := q
        cases s with
        | chunk i' s' w' =>
          cases s' with
          | zero => simp at this
          | succ s' => rfl
        | _ => simp at this
    · simp at hc
  | word i =>
    simp only [Bool.and_eq_true, decide_eq_true_eq, List.all_eq_true] at hc
    simp only [fake]
    rw [hc.1]
    refine srcSum_congr _ fun q hq => ?_
    have := hc.2 q hq
    obtain ⟨s, e⟩ := q
    cases s <;> simp_all [fake]
  | _ => simp at hc

/-- **C126.** Whatever the limbs are, every eight field elements are accepted as the digest. -/
theorem sha512_full_any_output (h2 : (2 : F) ≠ 0) (hc : c.OK 9) (hr : Raw c) (hin : ∀ i < 20, (inp.limb i).Outside srow 2235) (t₀ : Table F) (out : ℕ → F) :
    ∃ t', Sat t' (circuit c inp srow) ∧ Frame c srow 2235 (writeConsts (circuit c inp srow) t₀) t' ∧
      (∀ i < 20, (inp.limb i).value t' = (inp.limb i).value (writeConsts (circuit c inp srow) t₀)) ∧ ∀ i < 8, (result c srow i).value t' = out i := by
  have hk := consts_written (c := c) (inp := inp) (srow := srow) t₀
  generalize writeConsts (circuit c inp srow) t₀ = t₁ at hk ⊢
  obtain ⟨l, hl⟩ : ∃ l : ℕ → F, l = fun i => (inp.limb i).value t₁ := ⟨_, rfl⟩
  have hfa := fill_frame (srow := srow) (t := t₁) hc (fake l)
  have hol := fill_holds (srow := srow) (t := t₁) hc (fake l)
  generalize fill c srow (fake l) t₁ = ta at hfa hol
  have ka : Consts c srow ta := hk.congr fun i r => hfa.const i r
  obtain ⟨tb, hsb, hfb, -, -, hrb⟩ := Sha512.forged (srow := srow + 15) (inp := proc1 (fun i => c.w (i : ℤ)) (c.k 0) srow) h2 hc _ _ (fun _ => 0) ta
    ka.k1 (state1 ka) (words1 hol)
  have kb : Consts c srow tb := ka.congr fun i r => hfb.const i r
  obtain ⟨tc, hsc, hfc, -, -, hrc⟩ := Sha512.forged (srow := srow + 15 + 1110) (inp := proc2 c (fun i => c.w (i : ℤ)) (c.k 0) srow) h2 hc (fun _ => 0) _ out tb
    kb.k2 (fun i hi => ⟨Sha512.out_result i (Or.inl le_rfl), hrb i hi⟩) (words2 (hol.after hfb) kb)
  rw [hr.proc1] at hsb
  rw [hr.proc2] at hsc
  obtain ⟨hs, hf⟩ := assemble hin hk hfa hol (fake_eqns l) (fun i hi => by rw [hl]; rfl) hfb hsb hfc hsc
  exact ⟨tc, hs, hf, fun i hi => hf.outside (hin i hi), fun i hi => by rw [result_eq]; exact hrc i hi⟩

end

/-! ## The honest table -/

/-- Word `i` of the string that is hashed. -/
def msgWord (x : ℕ → ℕ) (i : ℕ) : Word := BitVec.ofNat 64 (padded x / 2 ^ (64 * i))

/-- The digest of the two blocks. -/
def digest (x : ℕ → ℕ) : Sha512Spec.State :=
  Sha512Spec.compress (Sha512Spec.compress Sha512Spec.iv (msgWord x)) fun i => msgWord x (16 + i)

section
variable {p : ℕ} [Fact p.Prime] {c : Cols} {inp : In} {srow : ℤ} {t : Table (ZMod p)}

theorem word_toNat {x : ℕ → ℕ} (h : InRange x) (i : ℕ) (hi : i < 32) : (msgWord x i).toNat = wordValue x i := by
  rw [msgWord, BitVec.toNat_ofNat, word_eq h i hi]

theorem word_W {x : ℕ → ℕ} (h : InRange x) (i : ℕ) (hi : i < 32) : ((wordValue x i : ℕ) : ZMod p) = W p (msgWord x i) := by
  unfold W; rw [word_toNat h i hi]

theorem iv_W (i : ℕ) (hi : i < 8) : ((ivList.getD i 0 : ℕ) : ZMod p) = W p (Sha512Spec.iv.get i) := by
  interval_cases i <;> rfl

theorem compress_get (s : Sha512Spec.State) (w : ℕ → Word) (i : ℕ) :
    (Sha512Spec.compress s w).get i = s.get i + (Sha512Spec.rounds (Sha512Spec.schedule w) s 80).get i := by
  rw [Sha512Spec.compress, Sha512.addState_get]

/-- The contents of the honest table. -/
def honestV (p : ℕ) (x : ℕ → ℕ) (s : Src) : ZMod p := ((srcValue x s : ℕ) : ZMod p)

/-- The limbs named are among the twenty. -/
def limbOK : Src → Bool
  | .ram i => decide (i < 20)
  | .chunk i _ _ => decide (i < 20)
  | _ => true

theorem layout_limb : ∀ q ∈ layout, limbOK q.2.2 = true := by decide +kernel

theorem wordList_congr {x y : ℕ → ℕ} (h : ∀ i < 20, x i = y i) : wordList x = wordList y := by
  unfold wordList
  rw [h 0 (by norm_num), h 1 (by norm_num), h 2 (by norm_num), h 3 (by norm_num), h 4 (by norm_num), h 5 (by norm_num), h 6 (by norm_num), h 7 (by norm_num), h 8 (by norm_num), h 9 (by norm_num), h 10 (by norm_num), h 11 (by norm_num), h 12 (by norm_num), h 13 (by norm_num), h 14 (by norm_num), h 15 (by norm_num), h 16 (by norm_num), h 17 (by norm_num), h 18 (by norm_num), h 19 (by norm_num)]

theorem word_congr {x y : ℕ → ℕ} (h : ∀ i < 20, x i = y i) (i : ℕ) (hi : i < 20) : wordValue x i = wordValue y i := by
  unfold wordValue
  rw [wordList_congr h]

theorem srcValue_congr {x y : ℕ → ℕ} (h : ∀ i < 20, x i = y i) : ∀ q ∈ layout, srcValue x q.2.2 = srcValue y q.2.2 := fun q hq => by
  have hb := layout_limb q hq
  revert hb
  generalize q.2.2 = s
  intro hb
  cases s with
  | ram i => exact h i (of_decide_eq_true hb)
  | word i => simp only [srcValue, wordValue, wordList_congr h]
  | chunk i s w => simp only [srcValue, h i (of_decide_eq_true hb)]
  | one => rfl

theorem fill_src_congr {c : Cols} {srow : ℤ} {t : Table (ZMod p)} {x y : ℕ → ℕ} (h : ∀ i < 20, x i = y i) :
    fill c srow (fun s => ((srcValue y s : ℕ) : ZMod p)) t = fill c srow (honestV p x) t := by
  unfold fill honestV
  congr 1
  refine List.map_congr_left fun q hq => ?_
  rw [srcValue_congr h q hq]

theorem srcSum_cast (v : Src → ZMod p) (n : Src → ℕ) (l : List (Src × ℕ)) (h : ∀ q ∈ l, v q.1 = ((n q.1 : ℕ) : ZMod p)) :
    srcSum v l = ((srcSum n l : ℕ) : ZMod p) := by
  induction l with
  | nil => simp [srcSum]
  | cons q l ih =>
    obtain ⟨s, e⟩ := q
    rw [srcSum_cons, srcSum, h (s, e) (by simp), ih fun q hq => h q (by simp [hq]), Nat.cast_add, Nat.cast_mul]

theorem honest_eqns {x : ℕ → ℕ} (h : InRange x) : ∀ e ∈ eqns, honestV p x e.1 = srcSum (honestV p x) e.2 := fun e he => by
  rw [srcSum_cast (honestV p x) (srcValue x) _ fun _ _ => rfl, honestV, eqns_nat h e he]

theorem honest_words2 {x : ℕ → ℕ} (h : InRange x) (i : ℕ) (hi : i < 16) : wordV (honestV p x) i = W p (msgWord x (16 + i)) := by
  rw [← word_W h _ (by omega)]
  unfold wordV
  split_ifs with h1 h2
  · rfl
  · rw [word_zero x _ (by omega) (by omega), Nat.cast_zero]
  · obtain rfl : i = 15 := by omega
    rw [word_last]

/-- The table after the first fifteen rows and the first block, for limbs in range. -/
theorem first_block (hp : 7 ^ 64 ≤ p) (hc : c.OK 9) {x : ℕ → ℕ} (h : InRange x) (hk : Consts c srow t) :
    let ta := fill c srow (honestV p x) t
    let tb := Sha512.assign c (proc1 (fun i => c.w (i : ℤ)) (c.k 0) srow) (srow + 15) ta
    Frame c srow 15 t ta ∧ Holds c srow (honestV p x) ta ∧ Frame c (srow + 15) 1110 ta tb ∧
    (Sat tb (Sha512.circuit c (proc1 (fun i => c.w (i : ℤ)) (c.k 0) srow) (srow + 15)) ↔
      ∀ n : ℕ, n < 80 → ta .constant (c.w 0) (srow + 15 + 389 + 9 * (n : ℤ)) = kc p n) ∧
    (∀ i < 8, (Sha512.result c (srow + 15) i).value tb = W p ((Sha512Spec.compress Sha512Spec.iv (msgWord x)).get i)) ∧
    tb .witness (c.w 0) (srow + 15 + 1106) = W p (Sha512Spec.iv.get 0) := by
  intro ta tb
  have hfa : Frame c srow 15 t ta := fill_frame (srow := srow) (t := t) hc (honestV p x)
  have hol : Holds c srow (honestV p x) ta := fill_holds (srow := srow) (t := t) hc (honestV p x)
  have ka : Consts c srow ta := hk.congr fun i r => hfa.const i r
  have hst := fun i hi => (⟨(state1 ka i hi).1, (state1 ka i hi).2.trans (iv_W i hi)⟩ :
    ((proc1 (fun i => c.w (i : ℤ)) (c.k 0) srow).state i).Outside (srow + 15) 1110 ∧ _ = W p (Sha512Spec.iv.get i))
  have hws := fun i (hi : i < 16) => (⟨(words1 hol i hi).1, (words1 hol i hi).2.trans (word_W h i (by omega))⟩ :
    ((proc1 (fun i => c.w (i : ℤ)) (c.k 0) srow).words i).Outside (srow + 15) 1110 ∧ _ = W p (msgWord x i))
  have heq : tb = Sha512.honest c (srow + 15) Sha512Spec.iv (msgWord x) ta :=
    Sha512.assign_eq (large hp) Sha512Spec.iv (msgWord x) (fun i hi => (hst i hi).2) fun i hi => (hws i hi).2
  obtain ⟨h1, h2, h3⟩ := Sha512.honest_sat (large hp) hc Sha512Spec.iv (msgWord x) ka.k1 hst hws
  rw [← heq] at h1 h2 h3
  refine ⟨hfa, hol, h2, h1, fun i hi => (h3 i hi).trans (congrArg (W p) (compress_get _ _ i).symm), ?_⟩
  have := Sha512.read_out (srow := srow + 15) (t := ta) (Sha512.inCell fun i => W p (Sha512Spec.iv.get i))
    (fun n => Sha512.schedCell (W p (Sha512Spec.schedule (msgWord x) n)) (W p (Sha512Spec.schedule (msgWord x) (n + 1)))
      (W p (Sha512Spec.schedule (msgWord x) (n + 9))) (W p (Sha512Spec.schedule (msgWord x) (n + 14))))
    (fun n => Sha512.roundCell (Sha512.emb p (Sha512Spec.rounds (Sha512Spec.schedule (msgWord x)) Sha512Spec.iv n)) (kc p n) (W p (Sha512Spec.schedule (msgWord x) n)))
    (Sha512.outCell (fun i => W p (Sha512Spec.iv.get i)) fun i => W p ((Sha512Spec.rounds (Sha512Spec.schedule (msgWord x)) Sha512Spec.iv 80).get i))
    hc 0 0 (by norm_num) (by norm_num)
  rw [heq]
  unfold Sha512.cells at this
  simp only [Nat.cast_zero, add_zero] at this
  refine Eq.trans ?_ (this.trans ?_)
  · rfl
  · simp [Sha512.outCell]

/-- **C125.** When the columns of the component are those that the circuit names, the honest table is accepted for every twenty limbs in range, and
its output cells hold the digest of the string of 1276 bits. -/
theorem sha512_full_complete_partial (hp : 7 ^ 64 ≤ p) (hc : c.OK 9) (hr : Raw c) (hin : ∀ i < 20, (inp.limb i).Outside srow 2235) (t₀ : Table (ZMod p))
    (x : ℕ → ℕ) (hx : ∀ i < 20, x i = ((inp.limb i).value (writeConsts (circuit c inp srow) t₀)).val) (hrange : InRange x) :
    Sat (assign c inp srow (writeConsts (circuit c inp srow) t₀)) (circuit c inp srow) ∧
      Frame c srow 2235 (writeConsts (circuit c inp srow) t₀) (assign c inp srow (writeConsts (circuit c inp srow) t₀)) ∧
      ∀ i < 8, (result c srow i).value (assign c inp srow (writeConsts (circuit c inp srow) t₀)) = W p ((digest x).get i) := by
  have hk := consts_written (c := c) (inp := inp) (srow := srow) t₀
  generalize writeConsts (circuit c inp srow) t₀ = t₁ at hk hx ⊢
  have hv : fill c srow (fun s => ((srcValue (fun i => ((inp.limb i).value t₁).val) s : ℕ) : ZMod p)) t₁ = fill c srow (honestV p x) t₁ :=
    fill_src_congr hx
  unfold assign
  simp only [hv]
  obtain ⟨hfa, hol, hfb, hsb, hrb, -⟩ := first_block (t := t₁) hp hc hrange hk
  generalize fill c srow (honestV p x) t₁ = ta at *
  have ka : Consts c srow ta := hk.congr fun i r => hfa.const i r
  have hcol : c.w 0 = c.k 0 := by rw [hr.k]; exact hr.w 0 (by norm_num)
  have hsb' := hsb.2 fun n hn => by rw [hcol]; exact ka.k1 n hn
  generalize Sha512.assign c (proc1 (fun i => c.w (i : ℤ)) (c.k 0) srow) (srow + 15) ta = tb at *
  have kb : Consts c srow tb := ka.congr fun i r => hfb.const i r
  have hst : ∀ i < 8, ((proc2 c (fun i => c.w (i : ℤ)) (c.k 0) srow).state i).Outside (srow + 15 + 1110) 1110 ∧
      ((proc2 c (fun i => c.w (i : ℤ)) (c.k 0) srow).state i).value tb = W p ((Sha512Spec.compress Sha512Spec.iv (msgWord x)).get i) :=
    fun i hi => ⟨Sha512.out_result i (Or.inl le_rfl), hrb i hi⟩
  have hws : ∀ i < 16, ((proc2 c (fun i => c.w (i : ℤ)) (c.k 0) srow).words i).Outside (srow + 15 + 1110) 1110 ∧
      ((proc2 c (fun i => c.w (i : ℤ)) (c.k 0) srow).words i).value tb = W p (msgWord x (16 + i)) :=
    fun i hi => ⟨(words2 (hol.after hfb) kb i hi).1, (words2 (hol.after hfb) kb i hi).2.trans (honest_words2 hrange i hi)⟩
  have heq := Sha512.assign_eq (c := c) (srow := srow + 15 + 1110) (large hp) _ (fun i => msgWord x (16 + i)) (fun i hi => (hst i hi).2) fun i hi => (hws i hi).2
  obtain ⟨h1, h2, h3⟩ := Sha512.honest_sat (large hp) hc _ (fun i => msgWord x (16 + i)) kb.k2 hst hws
  rw [← heq] at h1 h2 h3
  have hsc := h1.2 fun n hn => by rw [hcol]; exact kb.k2 n hn
  rw [hr.proc1] at hsb'
  have e2 := hr.proc2 (srow := srow)
  rw [e2] at hsc h2 h3 ⊢
  obtain ⟨hs, hf⟩ := assemble hin hk hfa hol (honest_eqns hrange) (fun i hi => by rw [honestV, srcValue, hx i hi, ZMod.natCast_val, ZMod.cast_id]) hfb hsb' h2 hsc
  exact ⟨hs, hf, fun i hi => by rw [result_eq]; exact (h3 i hi).trans (congrArg (W p) (compress_get _ _ i).symm)⟩

theorem state_raw (T : Table (ZMod p)) : ((proc1 id 0 srow).state 0).value T = T .constant 0 srow := by
  simp [proc1, Var.value]

/-- With the constants in another column, and column 0 empty, the honest table is rejected whatever the limbs. -/
theorem sha512_full_not_complete (hp : 7 ^ 64 ≤ p) (hc : c.OK 9) (hcol : c.k 0 ≠ 0) (t₀ : Table (ZMod p)) (h0 : t₀ .constant 0 srow = 0)
    (x : ℕ → ℕ) (hx : ∀ i < 20, x i = ((inp.limb i).value (writeConsts (circuit c inp srow) t₀)).val) (hrange : InRange x) :
    ¬ Sat (assign c inp srow (writeConsts (circuit c inp srow) t₀)) (circuit c inp srow) := by
  have hk := consts_written (c := c) (inp := inp) (srow := srow) t₀
  have h0' : writeConsts (circuit c inp srow) t₀ .constant 0 srow = 0 :=
    (Sha256.writeConsts_read _ _ 0 srow (t₀ .constant 0 srow) (fun _ hv' => absurd (mem_const hv').1.symm hcol) (Or.inl rfl)).trans h0
  generalize writeConsts (circuit c inp srow) t₀ = t₁ at hk hx h0' ⊢
  intro hs
  have hv : fill c srow (fun s => ((srcValue (fun i => ((inp.limb i).value t₁).val) s : ℕ) : ZMod p)) t₁ = fill c srow (honestV p x) t₁ :=
    fill_src_congr hx
  obtain ⟨hfa, -, hfb, -, -, hcell⟩ := first_block (t := t₁) hp hc hrange hk
  have hfc : Frame c (srow + 15 + 1110) 1110 (Sha512.assign c (proc1 (fun i => c.w (i : ℤ)) (c.k 0) srow) (srow + 15) (fill c srow (honestV p x) t₁))
      (assign c inp srow t₁) := by
    unfold assign
    simp only [hv]
    unfold Sha512.assign
    exact Sha512.fill_frame hc _
  unfold circuit at hs
  simp only [sat_append] at hs
  have := (Sha512.sat_outCopies.1 (Sha512.sat_iff.1 hs.1.1.2).2.2.2.2.2.2 0 (by norm_num)).1
  simp only [Nat.cast_zero] at this
  rw [hfc.row (by omega), hcell] at this
  have e : ((proc1 id 0 srow).state 0).value (assign c inp srow t₁) = 0 := by
    rw [state_raw, hfc.const, hfb.const, hfa.const, h0']
  rw [e] at this
  have h1 : W p (0 : Word) = W p (Sha512Spec.iv.get 0) := by rw [this]; simp [W]
  exact absurd (Sha512.W_inj (large hp).h2 h1) (by decide)

/-! ## What the first fifteen rows guarantee -/

theorem unpack0 (x c0 c1 c2 c3 : ℕ) (h0 : c0 < 2 ^ 22) (h1 : c1 < 2 ^ 22) (h2 : c2 < 2 ^ 20) (h3 : c3 < 2 ^ 2) (h : x = c0 * 2 ^ 0 + (c1 * 2 ^ 22 + (c2 * 2 ^ 44 + (c3 * 2 ^ 64 + 0)))) :
    x < 2 ^ 66 ∧ c0 = x / 2 ^ 0 % 2 ^ 22 ∧ c1 = x / 2 ^ 22 % 2 ^ 22 ∧ c2 = x / 2 ^ 44 % 2 ^ 20 ∧ c3 = x / 2 ^ 64 % 2 ^ 2 := by
  refine ⟨?_, ?_, ?_, ?_, ?_⟩ <;> omega

theorem unpack1 (x c0 c1 c2 c3 : ℕ) (h0 : c0 < 2 ^ 22) (h1 : c1 < 2 ^ 22) (h2 : c2 < 2 ^ 18) (h3 : c3 < 2 ^ 4) (h : x = c0 * 2 ^ 0 + (c1 * 2 ^ 22 + (c2 * 2 ^ 44 + (c3 * 2 ^ 62 + 0)))) :
    x < 2 ^ 66 ∧ c0 = x / 2 ^ 0 % 2 ^ 22 ∧ c1 = x / 2 ^ 22 % 2 ^ 22 ∧ c2 = x / 2 ^ 44 % 2 ^ 18 ∧ c3 = x / 2 ^ 62 % 2 ^ 4 := by
  refine ⟨?_, ?_, ?_, ?_, ?_⟩ <;> omega

theorem unpack2 (x c0 c1 c2 c3 : ℕ) (h0 : c0 < 2 ^ 22) (h1 : c1 < 2 ^ 22) (h2 : c2 < 2 ^ 16) (h3 : c3 < 2 ^ 6) (h : x = c0 * 2 ^ 0 + (c1 * 2 ^ 22 + (c2 * 2 ^ 44 + (c3 * 2 ^ 60 + 0)))) :
    x < 2 ^ 66 ∧ c0 = x / 2 ^ 0 % 2 ^ 22 ∧ c1 = x / 2 ^ 22 % 2 ^ 22 ∧ c2 = x / 2 ^ 44 % 2 ^ 16 ∧ c3 = x / 2 ^ 60 % 2 ^ 6 := by
  refine ⟨?_, ?_, ?_, ?_, ?_⟩ <;> omega

theorem unpack3 (x c0 c1 c2 : ℕ) (h0 : c0 < 2 ^ 22) (h1 : c1 < 2 ^ 22) (h2 : c2 < 2 ^ 13) (h : x = c0 * 2 ^ 0 + (c1 * 2 ^ 22 + (c2 * 2 ^ 44 + 0))) :
    x < 2 ^ 57 ∧ c0 = x / 2 ^ 0 % 2 ^ 22 ∧ c1 = x / 2 ^ 22 % 2 ^ 22 ∧ c2 = x / 2 ^ 44 % 2 ^ 13 := by
  refine ⟨?_, ?_, ?_, ?_⟩ <;> omega

theorem unpack4 (x c0 c1 c2 c3 c4 : ℕ) (h0 : c0 < 2 ^ 1) (h1 : c1 < 2 ^ 21) (h2 : c2 < 2 ^ 22) (h3 : c3 < 2 ^ 21) (h4 : c4 < 2 ^ 1) (h : x = c0 * 2 ^ 0 + (c1 * 2 ^ 1 + (c2 * 2 ^ 22 + (c3 * 2 ^ 44 + (c4 * 2 ^ 65 + 0))))) :
    x < 2 ^ 66 ∧ c0 = x / 2 ^ 0 % 2 ^ 1 ∧ c1 = x / 2 ^ 1 % 2 ^ 21 ∧ c2 = x / 2 ^ 22 % 2 ^ 22 ∧ c3 = x / 2 ^ 44 % 2 ^ 21 ∧ c4 = x / 2 ^ 65 % 2 ^ 1 := by
  refine ⟨?_, ?_, ?_, ?_, ?_, ?_⟩ <;> omega

theorem unpack5 (x c0 c1 c2 c3 : ℕ) (h0 : c0 < 2 ^ 22) (h1 : c1 < 2 ^ 22) (h2 : c2 < 2 ^ 19) (h3 : c3 < 2 ^ 3) (h : x = c0 * 2 ^ 0 + (c1 * 2 ^ 22 + (c2 * 2 ^ 44 + (c3 * 2 ^ 63 + 0)))) :
    x < 2 ^ 66 ∧ c0 = x / 2 ^ 0 % 2 ^ 22 ∧ c1 = x / 2 ^ 22 % 2 ^ 22 ∧ c2 = x / 2 ^ 44 % 2 ^ 19 ∧ c3 = x / 2 ^ 63 % 2 ^ 3 := by
  refine ⟨?_, ?_, ?_, ?_, ?_⟩ <;> omega

theorem unpack6 (x c0 c1 c2 c3 : ℕ) (h0 : c0 < 2 ^ 22) (h1 : c1 < 2 ^ 22) (h2 : c2 < 2 ^ 17) (h3 : c3 < 2 ^ 5) (h : x = c0 * 2 ^ 0 + (c1 * 2 ^ 22 + (c2 * 2 ^ 44 + (c3 * 2 ^ 61 + 0)))) :
    x < 2 ^ 66 ∧ c0 = x / 2 ^ 0 % 2 ^ 22 ∧ c1 = x / 2 ^ 22 % 2 ^ 22 ∧ c2 = x / 2 ^ 44 % 2 ^ 17 ∧ c3 = x / 2 ^ 61 % 2 ^ 5 := by
  refine ⟨?_, ?_, ?_, ?_, ?_⟩ <;> omega

theorem unpack7 (x c0 c1 c2 c3 : ℕ) (h0 : c0 < 2 ^ 2) (h1 : c1 < 2 ^ 20) (h2 : c2 < 2 ^ 22) (h3 : c3 < 2 ^ 22) (h : x = c0 * 2 ^ 0 + (c1 * 2 ^ 2 + (c2 * 2 ^ 22 + (c3 * 2 ^ 44 + 0)))) :
    x < 2 ^ 66 ∧ c0 = x / 2 ^ 0 % 2 ^ 2 ∧ c1 = x / 2 ^ 2 % 2 ^ 20 ∧ c2 = x / 2 ^ 22 % 2 ^ 22 ∧ c3 = x / 2 ^ 44 % 2 ^ 22 := by
  refine ⟨?_, ?_, ?_, ?_, ?_⟩ <;> omega

theorem unpack8 (x c0 c1 c2 c3 : ℕ) (h0 : c0 < 2 ^ 3) (h1 : c1 < 2 ^ 19) (h2 : c2 < 2 ^ 22) (h3 : c3 < 2 ^ 22) (h : x = c0 * 2 ^ 0 + (c1 * 2 ^ 3 + (c2 * 2 ^ 22 + (c3 * 2 ^ 44 + 0)))) :
    x < 2 ^ 66 ∧ c0 = x / 2 ^ 0 % 2 ^ 3 ∧ c1 = x / 2 ^ 3 % 2 ^ 19 ∧ c2 = x / 2 ^ 22 % 2 ^ 22 ∧ c3 = x / 2 ^ 44 % 2 ^ 22 := by
  refine ⟨?_, ?_, ?_, ?_, ?_⟩ <;> omega

theorem unpack9 (x c0 c1 c2 c3 : ℕ) (h0 : c0 < 2 ^ 4) (h1 : c1 < 2 ^ 18) (h2 : c2 < 2 ^ 22) (h3 : c3 < 2 ^ 22) (h : x = c0 * 2 ^ 0 + (c1 * 2 ^ 4 + (c2 * 2 ^ 22 + (c3 * 2 ^ 44 + 0)))) :
    x < 2 ^ 66 ∧ c0 = x / 2 ^ 0 % 2 ^ 4 ∧ c1 = x / 2 ^ 4 % 2 ^ 18 ∧ c2 = x / 2 ^ 22 % 2 ^ 22 ∧ c3 = x / 2 ^ 44 % 2 ^ 22 := by
  refine ⟨?_, ?_, ?_, ?_, ?_⟩ <;> omega

theorem unpack10 (x c0 c1 c2 : ℕ) (h0 : c0 < 2 ^ 22) (h1 : c1 < 2 ^ 22) (h2 : c2 < 2 ^ 14) (h : x = c0 * 2 ^ 0 + (c1 * 2 ^ 22 + (c2 * 2 ^ 44 + 0))) :
    x < 2 ^ 58 ∧ c0 = x / 2 ^ 0 % 2 ^ 22 ∧ c1 = x / 2 ^ 22 % 2 ^ 22 ∧ c2 = x / 2 ^ 44 % 2 ^ 14 := by
  refine ⟨?_, ?_, ?_, ?_⟩ <;> omega

theorem ram_chunks (n : Src → ℕ) (hn : ∀ i s w, n (.chunk i s w) < 2 ^ w) (x : ℕ → ℕ) (hx : ∀ e ∈ eqns, ∀ i, e.1 = .ram i → x i = srcSum n e.2) :
    InRange x ∧ ∀ e ∈ eqns, ∀ q ∈ e.2, q.1 ≠ .one → n q.1 = srcValue x q.1 := by
  rw [eqns_eq] at hx ⊢
  simp only [List.forall_mem_cons] at hx
  obtain ⟨e0, e1, e2, e3, e4, e5, e6, e7, e8, e9, e10, e11, e12, e13, e14, e15, e16, e17, e18, e19, e20, e21, e22, e23, e24, e25, e26, e27, e28, e29, e30, e31, e32, e33, e34, e35, e36, e37, e38, e39, -⟩ := hx
  have q0 := e0 0 rfl
  simp only [srcSum_cons, srcSum_nil] at q0
  obtain ⟨b0, c0_0, c0_1, c0_2, c0_3⟩ := unpack0 _ _ _ _ _ (hn _ _ _) (hn _ _ _) (hn _ _ _) (hn _ _ _) q0
  have q1 := e1 1 rfl
  simp only [srcSum_cons, srcSum_nil] at q1
  obtain ⟨b1, c1_0, c1_1, c1_2, c1_3⟩ := unpack1 _ _ _ _ _ (hn _ _ _) (hn _ _ _) (hn _ _ _) (hn _ _ _) q1
  have q2 := e2 2 rfl
  simp only [srcSum_cons, srcSum_nil] at q2
  obtain ⟨b2, c2_0, c2_1, c2_2, c2_3⟩ := unpack2 _ _ _ _ _ (hn _ _ _) (hn _ _ _) (hn _ _ _) (hn _ _ _) q2
  have q3 := e3 3 rfl
  simp only [srcSum_cons, srcSum_nil] at q3
  obtain ⟨b3, c3_0, c3_1, c3_2⟩ := unpack3 _ _ _ _ (hn _ _ _) (hn _ _ _) (hn _ _ _) q3
  have q4 := e8 4 rfl
  simp only [srcSum_cons, srcSum_nil] at q4
  obtain ⟨b4, c4_0, c4_1, c4_2, c4_3, c4_4⟩ := unpack4 _ _ _ _ _ _ (hn _ _ _) (hn _ _ _) (hn _ _ _) (hn _ _ _) (hn _ _ _) q4
  have q5 := e9 5 rfl
  simp only [srcSum_cons, srcSum_nil] at q5
  obtain ⟨b5, c5_0, c5_1, c5_2, c5_3⟩ := unpack5 _ _ _ _ _ (hn _ _ _) (hn _ _ _) (hn _ _ _) (hn _ _ _) q5
  have q6 := e10 6 rfl
  simp only [srcSum_cons, srcSum_nil] at q6
  obtain ⟨b6, c6_0, c6_1, c6_2, c6_3⟩ := unpack6 _ _ _ _ _ (hn _ _ _) (hn _ _ _) (hn _ _ _) (hn _ _ _) q6
  have q7 := e11 7 rfl
  simp only [srcSum_cons, srcSum_nil] at q7
  obtain ⟨b7, c7_0, c7_1, c7_2⟩ := unpack3 _ _ _ _ (hn _ _ _) (hn _ _ _) (hn _ _ _) q7
  have q8 := e16 8 rfl
  simp only [srcSum_cons, srcSum_nil] at q8
  obtain ⟨b8, c8_0, c8_1, c8_2, c8_3⟩ := unpack7 _ _ _ _ _ (hn _ _ _) (hn _ _ _) (hn _ _ _) (hn _ _ _) q8
  have q9 := e17 9 rfl
  simp only [srcSum_cons, srcSum_nil] at q9
  obtain ⟨b9, c9_0, c9_1, c9_2, c9_3⟩ := unpack0 _ _ _ _ _ (hn _ _ _) (hn _ _ _) (hn _ _ _) (hn _ _ _) q9
  have q10 := e18 10 rfl
  simp only [srcSum_cons, srcSum_nil] at q10
  obtain ⟨b10, c10_0, c10_1, c10_2, c10_3⟩ := unpack1 _ _ _ _ _ (hn _ _ _) (hn _ _ _) (hn _ _ _) (hn _ _ _) q10
  have q11 := e19 11 rfl
  simp only [srcSum_cons, srcSum_nil] at q11
  obtain ⟨b11, c11_0, c11_1, c11_2⟩ := unpack3 _ _ _ _ (hn _ _ _) (hn _ _ _) (hn _ _ _) q11
  have q12 := e24 12 rfl
  simp only [srcSum_cons, srcSum_nil] at q12
  obtain ⟨b12, c12_0, c12_1, c12_2, c12_3⟩ := unpack8 _ _ _ _ _ (hn _ _ _) (hn _ _ _) (hn _ _ _) (hn _ _ _) q12
  have q13 := e25 13 rfl
  simp only [srcSum_cons, srcSum_nil] at q13
  obtain ⟨b13, c13_0, c13_1, c13_2, c13_3, c13_4⟩ := unpack4 _ _ _ _ _ _ (hn _ _ _) (hn _ _ _) (hn _ _ _) (hn _ _ _) (hn _ _ _) q13
  have q14 := e26 14 rfl
  simp only [srcSum_cons, srcSum_nil] at q14
  obtain ⟨b14, c14_0, c14_1, c14_2, c14_3⟩ := unpack5 _ _ _ _ _ (hn _ _ _) (hn _ _ _) (hn _ _ _) (hn _ _ _) q14
  have q15 := e27 15 rfl
  simp only [srcSum_cons, srcSum_nil] at q15
  obtain ⟨b15, c15_0, c15_1, c15_2⟩ := unpack3 _ _ _ _ (hn _ _ _) (hn _ _ _) (hn _ _ _) q15
  have q16 := e32 16 rfl
  simp only [srcSum_cons, srcSum_nil] at q16
  obtain ⟨b16, c16_0, c16_1, c16_2, c16_3⟩ := unpack9 _ _ _ _ _ (hn _ _ _) (hn _ _ _) (hn _ _ _) (hn _ _ _) q16
  have q17 := e33 17 rfl
  simp only [srcSum_cons, srcSum_nil] at q17
  obtain ⟨b17, c17_0, c17_1, c17_2, c17_3⟩ := unpack7 _ _ _ _ _ (hn _ _ _) (hn _ _ _) (hn _ _ _) (hn _ _ _) q17
  have q18 := e34 18 rfl
  simp only [srcSum_cons, srcSum_nil] at q18
  obtain ⟨b18, c18_0, c18_1, c18_2, c18_3⟩ := unpack0 _ _ _ _ _ (hn _ _ _) (hn _ _ _) (hn _ _ _) (hn _ _ _) q18
  have q19 := e35 19 rfl
  simp only [srcSum_cons, srcSum_nil] at q19
  obtain ⟨b19, c19_0, c19_1, c19_2⟩ := unpack10 _ _ _ _ (hn _ _ _) (hn _ _ _) (hn _ _ _) q19
  clear e0 e1 e2 e3 e4 e5 e6 e7 e8 e9 e10 e11 e12 e13 e14 e15 e16 e17 e18 e19 e20 e21 e22 e23 e24 e25 e26 e27 e28 e29 e30 e31 e32 e33 e34 e35 e36 e37 e38 e39 q0 q1 q2 q3 q4 q5 q6 q7 q8 q9 q10 q11 q12 q13 q14 q15 q16 q17 q18 q19
  refine ⟨fun i hi => ?_, ?_⟩
  · interval_cases i
    · exact b0
    · exact b1
    · exact b2
    · exact b3
    · exact b4
    · exact b5
    · exact b6
    · exact b7
    · exact b8
    · exact b9
    · exact b10
    · exact b11
    · exact b12
    · exact b13
    · exact b14
    · exact b15
    · exact b16
    · exact b17
    · exact b18
    · exact b19
  · simp only [List.forall_mem_cons]
    exact ⟨⟨fun _ => c0_0, fun _ => c0_1, fun _ => c0_2, fun _ => c0_3, fun _ h => absurd h List.not_mem_nil⟩,
      ⟨fun _ => c1_0, fun _ => c1_1, fun _ => c1_2, fun _ => c1_3, fun _ h => absurd h List.not_mem_nil⟩,
      ⟨fun _ => c2_0, fun _ => c2_1, fun _ => c2_2, fun _ => c2_3, fun _ h => absurd h List.not_mem_nil⟩,
      ⟨fun _ => c3_0, fun _ => c3_1, fun _ => c3_2, fun _ h => absurd h List.not_mem_nil⟩,
      ⟨fun _ => c0_0, fun _ => c0_1, fun _ => c0_2, fun _ h => absurd h List.not_mem_nil⟩,
      ⟨fun _ => c0_3, fun _ => c1_0, fun _ => c1_1, fun _ => c1_2, fun _ h => absurd h List.not_mem_nil⟩,
      ⟨fun _ => c1_3, fun _ => c2_0, fun _ => c2_1, fun _ => c2_2, fun _ h => absurd h List.not_mem_nil⟩,
      ⟨fun _ => c2_3, fun _ => c3_0, fun _ => c3_1, fun _ => c3_2, fun _ => c4_0, fun _ h => absurd h List.not_mem_nil⟩,
      ⟨fun _ => c4_0, fun _ => c4_1, fun _ => c4_2, fun _ => c4_3, fun _ => c4_4, fun _ h => absurd h List.not_mem_nil⟩,
      ⟨fun _ => c5_0, fun _ => c5_1, fun _ => c5_2, fun _ => c5_3, fun _ h => absurd h List.not_mem_nil⟩,
      ⟨fun _ => c6_0, fun _ => c6_1, fun _ => c6_2, fun _ => c6_3, fun _ h => absurd h List.not_mem_nil⟩,
      ⟨fun _ => c7_0, fun _ => c7_1, fun _ => c7_2, fun _ h => absurd h List.not_mem_nil⟩,
      ⟨fun _ => c4_1, fun _ => c4_2, fun _ => c4_3, fun _ h => absurd h List.not_mem_nil⟩,
      ⟨fun _ => c4_4, fun _ => c5_0, fun _ => c5_1, fun _ => c5_2, fun _ h => absurd h List.not_mem_nil⟩,
      ⟨fun _ => c5_3, fun _ => c6_0, fun _ => c6_1, fun _ => c6_2, fun _ h => absurd h List.not_mem_nil⟩,
      ⟨fun _ => c6_3, fun _ => c7_0, fun _ => c7_1, fun _ => c7_2, fun _ => c8_0, fun _ h => absurd h List.not_mem_nil⟩,
      ⟨fun _ => c8_0, fun _ => c8_1, fun _ => c8_2, fun _ => c8_3, fun _ h => absurd h List.not_mem_nil⟩,
      ⟨fun _ => c9_0, fun _ => c9_1, fun _ => c9_2, fun _ => c9_3, fun _ h => absurd h List.not_mem_nil⟩,
      ⟨fun _ => c10_0, fun _ => c10_1, fun _ => c10_2, fun _ => c10_3, fun _ h => absurd h List.not_mem_nil⟩,
      ⟨fun _ => c11_0, fun _ => c11_1, fun _ => c11_2, fun _ h => absurd h List.not_mem_nil⟩,
      ⟨fun _ => c8_1, fun _ => c8_2, fun _ => c8_3, fun _ h => absurd h List.not_mem_nil⟩,
      ⟨fun _ => c9_0, fun _ => c9_1, fun _ => c9_2, fun _ h => absurd h List.not_mem_nil⟩,
      ⟨fun _ => c9_3, fun _ => c10_0, fun _ => c10_1, fun _ => c10_2, fun _ h => absurd h List.not_mem_nil⟩,
      ⟨fun _ => c10_3, fun _ => c11_0, fun _ => c11_1, fun _ => c11_2, fun _ => c12_0, fun _ h => absurd h List.not_mem_nil⟩,
      ⟨fun _ => c12_0, fun _ => c12_1, fun _ => c12_2, fun _ => c12_3, fun _ h => absurd h List.not_mem_nil⟩,
      ⟨fun _ => c13_0, fun _ => c13_1, fun _ => c13_2, fun _ => c13_3, fun _ => c13_4, fun _ h => absurd h List.not_mem_nil⟩,
      ⟨fun _ => c14_0, fun _ => c14_1, fun _ => c14_2, fun _ => c14_3, fun _ h => absurd h List.not_mem_nil⟩,
      ⟨fun _ => c15_0, fun _ => c15_1, fun _ => c15_2, fun _ h => absurd h List.not_mem_nil⟩,
      ⟨fun _ => c12_1, fun _ => c12_2, fun _ => c12_3, fun _ => c13_0, fun _ h => absurd h List.not_mem_nil⟩,
      ⟨fun _ => c13_1, fun _ => c13_2, fun _ => c13_3, fun _ h => absurd h List.not_mem_nil⟩,
      ⟨fun _ => c13_4, fun _ => c14_0, fun _ => c14_1, fun _ => c14_2, fun _ h => absurd h List.not_mem_nil⟩,
      ⟨fun _ => c14_3, fun _ => c15_0, fun _ => c15_1, fun _ => c15_2, fun _ => c16_0, fun _ h => absurd h List.not_mem_nil⟩,
      ⟨fun _ => c16_0, fun _ => c16_1, fun _ => c16_2, fun _ => c16_3, fun _ h => absurd h List.not_mem_nil⟩,
      ⟨fun _ => c17_0, fun _ => c17_1, fun _ => c17_2, fun _ => c17_3, fun _ h => absurd h List.not_mem_nil⟩,
      ⟨fun _ => c18_0, fun _ => c18_1, fun _ => c18_2, fun _ => c18_3, fun _ h => absurd h List.not_mem_nil⟩,
      ⟨fun _ => c19_0, fun _ => c19_1, fun _ => c19_2, fun _ h => absurd h List.not_mem_nil⟩,
      ⟨fun _ => c16_1, fun _ => c16_2, fun _ => c16_3, fun _ => c17_0, fun _ h => absurd h List.not_mem_nil⟩,
      ⟨fun _ => c17_1, fun _ => c17_2, fun _ => c17_3, fun _ h => absurd h List.not_mem_nil⟩,
      ⟨fun _ => c18_0, fun _ => c18_1, fun _ => c18_2, fun _ h => absurd h List.not_mem_nil⟩,
      ⟨fun _ => c18_3, fun _ => c19_0, fun _ => c19_1, fun _ => c19_2, fun h => absurd rfl h, fun _ h => absurd h List.not_mem_nil⟩, fun _ h => absurd h List.not_mem_nil⟩


theorem ram_mem : ∀ i < 20, ∃ e ∈ eqns, e.1 = .ram i := by decide +kernel
theorem word_mem : ∀ i < 20, ∃ e ∈ eqns, e.1 = .word i := by decide +kernel

theorem ram_find_aux : ∀ e ∈ eqns, (eqns.find? fun e' => decide (e'.1 = e.1)) = some e := by decide +kernel

theorem ram_find (e : Src × List (Src × ℕ)) (he : e ∈ eqns) (i : ℕ) (hi : e.1 = .ram i) : (eqns.find? fun e' => decide (e'.1 = .ram i)) = some e := by
  have := ram_find_aux e he
  rw [hi] at this
  exact this

/-- The value of a content: that of the first cell which holds it. -/
def cellVal {F : Type*} [Field F] (c : Cols) (srow : ℤ) (t : Table F) (s : Src) : F :=
  match layout.find? fun q => decide (q.2.2 = s) with
  | some q => t .witness (c.w (q.2.1 : ℤ)) (srow + (q.1 : ℤ))
  | none => 0

theorem layout_first : ∀ q ∈ layout, (layout.find? fun q' => decide (q'.2.2 = q.2.2)) = some q ∨
    (q = (3, 8, .chunk 4 0 1) ∧ (layout.find? fun q' => decide (q'.2.2 = q.2.2)) = some (2, 6, q.2.2)) ∨
    ∃ i < 3, q.1 = 6 + 3 * i ∧ q.2.1 = 1 ∧ (layout.find? fun q' => decide (q'.2.2 = q.2.2)) = some (5 + 3 * i, 6, q.2.2) := by decide +kernel

/-- The cells that hold the same chunk are equal. -/
theorem holds_cellVal {F : Type*} [Field F] {c : Cols} {inp : In} {srow : ℤ} {t : Table F} (h : Sat t (copies c inp srow)) : Holds c srow (cellVal c srow t) t := by
  obtain ⟨-, h1, h2⟩ := sat_copies.1 h
  intro q hq
  unfold cellVal
  rcases layout_first q hq with e | ⟨rfl, e⟩ | ⟨i, hi, e1, e2, e⟩
  · rw [e]
  · rw [e]; exact h1.symm
  · rw [e]
    simp only [e1, e2]
    have := h2 i hi
    push_cast
    rw [← add_assoc, ← add_assoc]
    exact this.symm

/-- **C127.** If the chunks are in the ranges of their sizes and the cell of the padding bit holds one, the limbs are in range and the word cells hold the
words of the string. Neither hypothesis is enforced by the component. -/
theorem sha512_pack_sound_partial (hp : 2 ^ 66 < p) (hg : Sat t (gateOps c srow)) (hcp : Sat t (copies c inp srow))
    (hn : ∀ i s w, (cellVal c srow t (.chunk i s w)).val < 2 ^ w) (h1 : cellVal c srow t .one = 1) :
    InRange (fun i => ((inp.limb i).value t).val) ∧
      ∀ i < 20, cellVal c srow t (.word i) = ((padded (fun i => ((inp.limb i).value t).val) / 2 ^ (64 * i) % 2 ^ 64 : ℕ) : ZMod p) := by
  have hol := holds_cellVal hcp
  have E := hol.sat.1 hg
  obtain ⟨n, hn'⟩ : ∃ n : Src → ℕ, n = fun s => (cellVal c srow t s).val := ⟨_, rfl⟩
  have hcast : ∀ s, cellVal c srow t s = ((n s : ℕ) : ZMod p) := fun s => by rw [hn', ZMod.natCast_val, ZMod.cast_id]
  have hlimb : ∀ i < 20, (inp.limb i).value t = cellVal c srow t (.ram i) := fun i hi => by
    have a := (sat_copies.1 hcp).1 (i % 4) (Nat.mod_lt _ (by norm_num)) (i / 4) (by omega)
    have b := hol.get (3 * (i / 4)) (2 * (i % 4)) (s := .ram i) (by interval_cases i <;> decide +kernel)
    rw [show 4 * (i / 4) + i % 4 = i by omega] at a
    rw [← a, ← b]; push_cast; rfl
  have hnb : ∀ i s w, n (.chunk i s w) < 2 ^ w := fun i s w => by rw [hn']; exact hn i s w
  obtain ⟨y, hy⟩ : ∃ y : ℕ → ℕ, ∀ e ∈ eqns, ∀ i, e.1 = .ram i → y i = srcSum n e.2 := by
    refine ⟨fun i => srcSum n (((eqns.find? fun e => decide (e.1 = .ram i)).map (·.2)).getD []), fun e he i hi => ?_⟩
    have := ram_find e he i hi
    show srcSum n (((eqns.find? fun e => decide (e.1 = .ram i)).map (·.2)).getD []) = _
    rw [this]; rfl
  obtain ⟨hr, hch⟩ := ram_chunks n hnb y hy
  have hxy : ∀ i < 20, ((inp.limb i).value t).val = y i := fun i hi => by
    obtain ⟨e, he, hei⟩ := ram_mem i hi
    rw [hlimb i hi, ← hei, E e he, srcSum_cast _ n _ fun q _ => hcast q.1, ← hy e he i hei, ZMod.val_natCast, Nat.mod_eq_of_lt]
    refine lt_trans (lt_of_lt_of_le (hr i hi) (Nat.pow_le_pow_right (by norm_num) ?_)) hp
    split_ifs <;> norm_num
  have hr' : InRange fun i => ((inp.limb i).value t).val := fun i hi => by
    have := hr i hi
    simp only [hxy i hi]; exact this
  refine ⟨hr', fun i hi => ?_⟩
  rw [← word_eq hr' i (by omega)]
  obtain ⟨e, he, hei⟩ := word_mem i hi
  have hn1 : n .one = 1 := by rw [hn']; simp only [h1]; exact ZMod.val_one'' (by rintro rfl; norm_num at hp)
  have hsrc : ∀ q ∈ e.2, n q.1 = srcValue y q.1 := fun q hq => by
    by_cases h : q.1 = .one
    · rw [h, hn1]; rfl
    · exact hch e he q hq h
  rw [← hei, E e he, srcSum_cast _ n _ fun q _ => hcast q.1, srcSum_congr _ hsrc, ← eqns_nat hr e he, hei, srcValue, word_congr hxy i hi]
end

/-! The hypotheses hold in the honest table. -/

theorem Holds.cellVal_eq {F : Type*} [Field F] {c : Cols} {srow : ℤ} {t : Table F} {v : Src → F} (h : Holds c srow v t) (s : Src) :
    cellVal c srow t s = v s ∨ cellVal c srow t s = 0 := by
  unfold cellVal
  cases hf : layout.find? fun q => decide (q.2.2 = s) with
  | none => exact Or.inr rfl
  | some q =>
    have h1 := List.find?_some hf
    simp only [decide_eq_true_eq] at h1
    exact Or.inl ((h q (List.mem_of_find?_eq_some hf)).trans (by rw [h1]))

theorem honest_ranges {p : ℕ} [Fact p.Prime] {c : Cols} {srow : ℤ} {t : Table (ZMod p)} {x : ℕ → ℕ} (h : Holds c srow (honestV p x) t) :
    (∀ i s w, (cellVal c srow t (.chunk i s w)).val < 2 ^ w) ∧ cellVal c srow t .one = 1 := by
  refine ⟨fun i s w => ?_, ?_⟩
  · rcases h.cellVal_eq (.chunk i s w) with e | e
    · rw [e, honestV, srcValue, ZMod.val_natCast]
      exact lt_of_le_of_lt (Nat.mod_le _ _) (Nat.mod_lt _ (Nat.pow_pos (by norm_num)))
    · rw [e, ZMod.val_zero]; exact Nat.pow_pos (by norm_num)
  · have : (layout.find? fun q => decide (q.2.2 = .one)) = some (14, 8, .one) := by decide +kernel
    unfold cellVal
    rw [this]
    have := h (14, 8, .one) (by decide +kernel)
    exact this.trans (by simp [honestV, srcValue])

/-! ## The padding -/

theorem getMsbD_bit (w : Word) (j : ℕ) (hj : j < 64) : w.getMsbD (63 - j) = w.toNat.testBit j := by
  rw [BitVec.getMsbD, show 64 - 1 - (63 - j) = j by omega]
  simp [BitVec.getLsbD, show 63 - j < 64 by omega]

/-- **C128.** The string is not a padded message of the standard, unless the four lowest bits of its twentieth word happen to be 1000: the one that
ends the message is put at the other end of that word. -/
theorem sha512_not_padding {x : ℕ → ℕ} (h : InRange x) (hx : (x 18 / 2 ^ 64 + 4 * x 19) % 16 ≠ 8) :
    ¬ ∃ m : List Bool, m.length < 2 ^ 128 ∧ Sha512Spec.IsPadding m 2 (msgWord x) := by
  rintro ⟨m, hm, hpad⟩
  have hlen := hpad.length hm (l := 1276) (by rw [word_toNat h 30 (by norm_num), word_zero x 30 (by norm_num) (by norm_num)])
    (by rw [word_toNat h 31 (by norm_num), word_last])
  have bit : ∀ j < 4, (wordValue x 19).testBit j = decide (j = 3) := fun j hj => by
    rw [← word_toNat h 19 (by norm_num), ← getMsbD_bit _ j (by omega), hpad.2 19 (by norm_num) _ (by omega)]
    unfold Sha512Spec.padBit
    rw [hlen, show Sha512Spec.zeros 1276 = 643 from rfl, if_neg (by omega)]
    by_cases h3 : j = 3
    · subst h3; simp
    · rw [if_neg (by omega), if_pos (by omega)]; simp [h3]
  have b0 := bit 0 (by norm_num)
  have b1 := bit 1 (by norm_num)
  have b2 := bit 2 (by norm_num)
  have b3 := bit 3 (by norm_num)
  rw [word_nineteen] at b0 b1 b2 b3
  simp only [Nat.testBit_eq_decide_div_mod_eq, decide_eq_decide] at b0 b1 b2 b3
  norm_num at b0 b1 b2 b3
  omega

/-- With all limbs zero, for instance. -/
example : ¬ ∃ m : List Bool, m.length < 2 ^ 128 ∧ Sha512Spec.IsPadding m 2 (msgWord fun _ => 0) :=
  sha512_not_padding (fun i _ => Nat.pow_pos (by norm_num)) (by norm_num)

/-! ## A case -/

/-- The limbs come from the public input. -/
def exIn : In := ⟨fun i => ⟨0, i, false, .publicInput⟩⟩

/-- Limb `i` is `i`. -/
def exTable : Table (ZMod pallasP) := fun ty col row => if ty = .publicInput then ((row.toNat : ℕ) : ZMod pallasP) else 0

theorem exLimb (ops : List (Op (ZMod pallasP))) (i : ℕ) (hi : i < 20) : i = ((exIn.limb i).value (writeConsts ops exTable)).val := by
  rw [Sha256.value_writeConsts _ _ _ (by simp [exIn])]
  show i = (((i : ℤ).toNat : ℕ) : ZMod pallasP).val
  rw [Int.toNat_natCast, ZMod.val_natCast, Nat.mod_eq_of_lt (lt_trans hi (by norm_num [pallasP]))]

theorem exRange : InRange fun i => i := fun i hi => lt_of_lt_of_le (lt_of_lt_of_le hi (by norm_num : 20 ≤ 2 ^ 57)) (Nat.pow_le_pow_right (by norm_num) (by split_ifs <;> norm_num))

theorem exOut (i : ℕ) : (exIn.limb i).Outside 0 2235 := fun h => by simp [exIn] at h

theorem exRaw : Raw Sha512.exCols := ⟨fun i hi => by interval_cases i <;> decide, rfl⟩

example : Sat (assign Sha512.exCols exIn 0 (writeConsts (circuit Sha512.exCols exIn 0) exTable)) (circuit Sha512.exCols exIn 0) :=
  (sha512_full_complete_partial Sha512.pallas_large Sha512.exCols_ok exRaw (fun i _ => exOut i) exTable (fun i => i) (fun i hi => exLimb _ i hi) exRange).1

example : ¬ Sat (assign Sha512.exCols' exIn 0 (writeConsts (circuit Sha512.exCols' exIn 0) exTable)) (circuit Sha512.exCols' exIn 0) :=
  sha512_full_not_complete Sha512.pallas_large Sha512.exCols_ok' (by decide) exTable rfl (fun i => i) (fun i hi => exLimb _ i hi) exRange

/-- The hypotheses of `sha512_pack_sound_partial`. -/
example : ∃ t, Sat t (gateOps Sha512.exCols 0) ∧ Sat t (copies Sha512.exCols exIn 0) ∧
    (∀ i s w, (cellVal Sha512.exCols 0 t (.chunk i s w)).val < 2 ^ w) ∧ cellVal Sha512.exCols 0 t .one = (1 : ZMod pallasP) := by
  have h := fill_holds (srow := 0) (t := exTable) Sha512.exCols_ok (honestV pallasP fun i => i)
  have hf := fill_frame (srow := 0) (t := exTable) Sha512.exCols_ok (honestV pallasP fun i => i)
  refine ⟨_, h.sat.2 (honest_eqns exRange), h.copies fun i hi => ?_, (honest_ranges h).1, (honest_ranges h).2⟩
  rw [hf.outside (v := exIn.limb i) fun h => by simp [exIn] at h]
  simp [exIn, Var.value, exTable, honestV, srcValue]

/-- A digest of eight zeros. -/
example : ∃ t', Sat t' (circuit Sha512.exCols exIn 0) ∧ ∀ i < 8, (result Sha512.exCols 0 i).value t' = (0 : ZMod pallasP) := by
  obtain ⟨t', h1, -, -, h2⟩ := sha512_full_any_output (F := ZMod pallasP) (by
      have h := Sha512.two64_ne (large Sha512.pallas_large); intro h0; rw [h0] at h; simp at h)
    Sha512.exCols_ok exRaw (fun i _ => exOut i) exTable fun _ => 0
  exact ⟨t', h1, h2⟩

end Sha512Full
end Verif
