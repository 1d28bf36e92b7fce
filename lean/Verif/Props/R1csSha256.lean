import Verif.Props.R1csRun

/-!
# C90: the r1cs circuit of the SHA-256 compression function is sound
-/

set_option linter.unusedSimpArgs false
set_option linter.unusedSectionVars false

namespace Verif
namespace R1cs
namespace Sha

open Sha256Spec

section
variable {p : ℕ} [hp : Fact p.Prime]

/-- The linear combinations have the bits of the word as values. -/
def WordIs (s : Asg (ZMod p)) (w : LWord p) (x : Word) : Prop := ∀ i < 32, (w i).eval s = b2f (x.getLsbD i)

theorem bnat_word (x : Word) : bnat ((List.range 32).map x.getLsbD) = x.toNat := bnat_bits x.toNat 32 x.isLt

theorem WordIs.map {s : Asg (ZMod p)} {w : LWord p} {x : Word} (h : WordIs s w x) :
    w.list.map (Lc.eval s) = ((List.range 32).map x.getLsbD).map b2f := by
  rw [LWord.list, List.map_map, List.map_map]
  exact List.map_congr_left fun i hi => h i (List.mem_range.1 hi)

/-- Packing a word gives its number. -/
theorem pack_word {s : Asg (ZMod p)} {w : LWord p} {x : Word} (h : WordIs s w x) {v : ℕ} (hs : Sat s (packGates w.list (Lc.var v) false)) :
    val s v = (x.toNat : ZMod p) := by
  simp only [packGates, sat_cons, Constraint.Holds, eval_const, one_mul, eval_var] at hs
  rw [← hs.1, eval_packSum s 1 _ _ h.map, bnat_word, one_mul]

theorem xor3_sound (s : Asg (ZMod p)) (A B C : Lc (ZMod p)) (zero : Bool) (tmp : ℕ) (out : Lc (ZMod p)) (a b c : Bool) (hA : A.eval s = b2f a)
    (hB : B.eval s = b2f b) (hC : if zero then c = false else C.eval s = b2f c) (h : Sat s (xor3Gates A B C zero tmp out)) :
    out.eval s = b2f (a ^^ b ^^ c) := by
  unfold xor3Gates at h
  cases zero
  · simp only [Bool.false_eq_true, if_false, sat_cons, sat_nil, and_true, Constraint.Holds, eval_smul, eval_sub, eval_add, eval_var] at h hC
    obtain ⟨h1, h2⟩ := h
    have e1 : val s tmp = b2f (a ^^ b) := by
      rw [hA, hB] at h1
      cases a <;> cases b <;> simp at h1 ⊢ <;> linear_combination h1
    rw [e1, hC] at h2
    generalize (a ^^ b) = d at h2 ⊢
    cases d <;> cases c <;> simp at h2 ⊢ <;> linear_combination h2
  · simp only [if_true, sat_cons, sat_nil, and_true, Constraint.Holds, eval_smul, eval_sub, eval_add] at h hC
    subst hC
    rw [hA, hB] at h
    cases a <;> cases b <;> simp at h ⊢ <;> linear_combination h

/-- The bits of a rotated word. -/
theorem rot_bit (x : Word) (r i : ℕ) (hr : r < 32) (hi : i < 32) : (x.rotateRight r).getLsbD i = x.getLsbD ((i + r) % 32) := by
  rw [BitVec.getLsbD_rotateRight, Nat.mod_eq_of_lt hr]
  by_cases h : i < 32 - r
  · rw [decide_eq_true h, cond_true, Nat.mod_eq_of_lt (by omega), Nat.add_comm]
  · rw [decide_eq_false h, cond_false, decide_eq_true hi, Bool.true_and, show (i + r) % 32 = i - (32 - r) by omega]

theorem rotr_word {s : Asg (ZMod p)} {w : LWord p} {x : Word} (h : WordIs s w x) (r : ℕ) (hr : r < 32) : WordIs s (rotr w r) (x.rotateRight r) := by
  intro i hi
  rw [rotr, rot_bit x r i hr hi]
  exact h _ (Nat.mod_lt _ (by norm_num))

theorem sigma_sound (k : Sigma p) (s : Asg (ZMod p)) (x y z : Word) (hA : WordIs s k.A x) (hB : WordIs s k.B y)
    (hC : ∀ i < 32, if k.zero i then z.getLsbD i = false else (k.C i).eval s = b2f (z.getLsbD i)) (h : Sat s k.gates) :
    val s k.result = ((x ^^^ y ^^^ z).toNat : ZMod p) := by
  rw [Sigma.gates, sat_append, sat_flatMap] at h
  refine pack_word (w := vars k.bits) ?_ h.2
  intro i hi
  have := xor3_sound s _ _ _ _ _ _ _ _ (z.getLsbD i) (hA i hi) (hB i hi) (hC i hi) (h.1 i (List.mem_range.2 hi))
  rw [vars, this, BitVec.getLsbD_xor, BitVec.getLsbD_xor, Bool.xor_assoc]

theorem smallSigma_sound (w : LWord p) (result r1 r2 sh base : ℕ) (s : Asg (ZMod p)) (x : Word) (hx : WordIs s w x) (h1 : r1 < 32) (h2 : r2 < 32)
    (h : Sat s (smallSigma w result r1 r2 sh base).gates) : val s result = ((x.rotateRight r1 ^^^ x.rotateRight r2 ^^^ (x >>> sh)).toNat : ZMod p) := by
  refine sigma_sound (smallSigma w result r1 r2 sh base) s _ _ _ (rotr_word hx r1 h1) (rotr_word hx r2 h2) ?_ h
  intro i hi
  simp only [smallSigma, BitVec.getLsbD_ushiftRight]
  by_cases hs : i + sh < 32
  · rw [if_neg (by simpa using hs), if_pos hs, Nat.add_comm sh i]
    exact hx _ hs
  · rw [if_pos (by simpa using hs)]
    exact BitVec.getLsbD_of_ge _ _ (by omega)

theorem bigSigma_sound (w : LWord p) (result r1 r2 r3 base : ℕ) (s : Asg (ZMod p)) (x : Word) (hx : WordIs s w x) (h1 : r1 < 32) (h2 : r2 < 32) (h3 : r3 < 32)
    (h : Sat s (bigSigma w result r1 r2 r3 base).gates) :
    val s result = ((x.rotateRight r1 ^^^ x.rotateRight r2 ^^^ x.rotateRight r3).toNat : ZMod p) := by
  refine sigma_sound (bigSigma w result r1 r2 r3 base) s _ _ _ (rotr_word hx r1 h1) (rotr_word hx r2 h2) ?_ h
  intro i hi
  exact rotr_word hx r3 h3 i hi

theorem ch_sound (k : Ter p) (s : Asg (ZMod p)) (x y z : Word) (hX : WordIs s k.X x) (hY : WordIs s k.Y y) (hZ : WordIs s k.Z z) (h : Sat s k.chGates) :
    val s k.result = ((ch x y z).toNat : ZMod p) := by
  rw [Ter.chGates, sat_append, sat_map] at h
  refine pack_word (w := vars k.bits) ?_ h.2
  intro i hi
  have := h.1 i (List.mem_range.2 hi)
  simp only [Constraint.Holds, eval_sub, eval_var, hX i hi, hY i hi, hZ i hi] at this
  rw [vars, eval_var, ch, BitVec.getLsbD_xor, BitVec.getLsbD_and, BitVec.getLsbD_and, BitVec.getLsbD_not, decide_eq_true hi, Bool.true_and]
  revert this
  cases x.getLsbD i <;> cases y.getLsbD i <;> cases z.getLsbD i <;> simp <;> intro this <;> linear_combination -this

/-- The two constraints of the majority determine the bit. -/
theorem maj_bit (hp5 : 5 ≤ p) (a b c : Bool) (r : ZMod p) (hr : IsBit r)
    (h : (b2f a + b2f b + b2f c - 2 * r) * (1 - (b2f a + b2f b + b2f c - 2 * r)) = 0) : r = b2f ((a && b) ^^ (a && c) ^^ (b && c)) := by
  have n2 : (2 : ZMod p) ≠ 0 := by
    have := (natCast_eq_zero_iff_of_lt (p := p) (n := 2) (by omega)).not.2 (by norm_num)
    simpa using this
  have n3 : (3 : ZMod p) ≠ 0 := by
    have := (natCast_eq_zero_iff_of_lt (p := p) (n := 3) (by omega)).not.2 (by norm_num)
    simpa using this
  have n6 : (6 : ZMod p) ≠ 0 := by
    rw [show (6 : ZMod p) = 2 * 3 by norm_num]; exact mul_ne_zero n2 n3
  rcases hr with rfl | rfl <;> cases a <;> cases b <;> cases c <;> simp at h ⊢
  all_goals first
    | exact absurd (show (2 : ZMod p) = 0 by linear_combination -h) n2
    | exact absurd (show (2 : ZMod p) = 0 by linear_combination h) n2
    | exact absurd (show (6 : ZMod p) = 0 by linear_combination -h) n6
    | exact absurd (show (6 : ZMod p) = 0 by linear_combination h) n6
    | (rcases h with h | h
       · first
          | exact absurd h n2
          | exact absurd (show (2 : ZMod p) = 0 by linear_combination h) n2
          | exact absurd (show (3 : ZMod p) = 0 by linear_combination h) n3
          | exact absurd (show (2 : ZMod p) = 0 by linear_combination -h) n2
          | exact absurd (show (3 : ZMod p) = 0 by linear_combination -h) n3
          | exact absurd (show (2 : ZMod p) = 0 by linear_combination 2 * h) n2
          | exact absurd (show (2 : ZMod p) = 0 by linear_combination -2 * h) n2
       · first
          | exact absurd (show (2 : ZMod p) = 0 by linear_combination h) n2
          | exact absurd (show (3 : ZMod p) = 0 by linear_combination h) n3
          | exact absurd (show (2 : ZMod p) = 0 by linear_combination -h) n2)

theorem maj_sound (hp5 : 5 ≤ p) (k : Ter p) (s : Asg (ZMod p)) (x y z : Word) (hX : WordIs s k.X x) (hY : WordIs s k.Y y) (hZ : WordIs s k.Z z)
    (h : Sat s k.majGates) : val s k.result = ((maj x y z).toNat : ZMod p) := by
  rw [Ter.majGates, sat_append, sat_flatMap] at h
  refine pack_word (w := vars k.bits) ?_ h.2
  intro i hi
  have := h.1 i (List.mem_range.2 hi)
  rw [sat_cons, boolean_iff, eval_var, sat_cons] at this
  obtain ⟨h1, h2, -⟩ := this
  simp only [Constraint.Holds, Ter.aux, eval_sub, eval_add, eval_smul, eval_const, eval_var, hX i hi, hY i hi, hZ i hi] at h2
  rw [vars, eval_var, maj, BitVec.getLsbD_xor, BitVec.getLsbD_xor, BitVec.getLsbD_and, BitVec.getLsbD_and, BitVec.getLsbD_and]
  exact maj_bit hp5 _ _ _ _ h1 h2

/-- Reduction modulo `2^32`. -/
theorem lastbits_sound (k : LastBits) (s : Asg (ZMod p)) (hn : 32 ≤ k.n) (hp' : 2 ^ k.n ≤ p) (N : ℕ) (hN : N < 2 ^ k.n) (hX : val s k.X = (N : ZMod p))
    (h : Sat s k.gates) : WordIs s (vars k.bits) (BitVec.ofNat 32 N) ∧ val s k.result = ((BitVec.ofNat 32 N).toNat : ZMod p) := by
  rw [LastBits.gates, sat_append] at h
  have hlen : (k.full.map (Lc.var (F := ZMod p))).length = k.n := by simp [LastBits.full]
  obtain ⟨-, hb⟩ := packing_sound _ _ s (by rw [hlen]; exact hp') h.1
  have hv : (val s k.X).val = N := by rw [hX, ZMod.val_natCast_of_lt (lt_of_lt_of_le hN hp')]
  rw [hlen, map_var_eval, eval_var, hv] at hb
  have hw : WordIs s (vars k.bits) (BitVec.ofNat 32 N) := by
    intro i hi
    have := congrArg (fun l => l[i]?) hb
    simp only [LastBits.full, List.map_map, List.getElem?_map, List.getElem?_range (show i < k.n by omega), Option.map_some, Function.comp, if_pos hi,
      Option.some.injEq] at this
    rw [vars, eval_var, this, BitVec.getLsbD_ofNat, decide_eq_true hi, Bool.true_and]
  exact ⟨hw, pack_word hw h.2⟩

/-! ### Message schedule -/

/-- Addition of words, as numbers modulo `2^32`. -/
theorem ofNat_add_toNat (a b : Word) : BitVec.ofNat 32 (a.toNat + b.toNat) = a + b := by
  apply BitVec.eq_of_toNat_eq; simp

/-- The words of the schedule: bits and packed. -/
def SchedOk (k : Compress p) (s : Asg (ZMod p)) (m : ℕ → Word) (t : ℕ) : Prop :=
  WordIs s (vars (k.wBits t)) (schedule m t) ∧ val s (k.packedW t) = ((schedule m t).toNat : ZMod p)

theorem schedule_ge (m : ℕ → Word) (t : ℕ) (h : 16 ≤ t) : schedule m t =
    smallSigma1 (schedule m (t - 2)) + schedule m (t - 7) + smallSigma0 (schedule m (t - 15)) + schedule m (t - 16) := by
  rw [schedule, if_neg (by omega)]

/-- The unreduced word of a schedule step. -/
def schedN (m : ℕ → Word) (t : ℕ) : ℕ :=
  (smallSigma0 (schedule m (t - 15))).toNat + (smallSigma1 (schedule m (t - 2))).toNat + (schedule m (t - 16)).toNat + (schedule m (t - 7)).toNat

theorem schedN_lt (m : ℕ → Word) (t : ℕ) : schedN m t < 2 ^ 34 := by
  unfold schedN
  have h1 := (smallSigma0 (schedule m (t - 15))).isLt
  have h2 := (smallSigma1 (schedule m (t - 2))).isLt
  have h3 := (schedule m (t - 16)).isLt
  have h4 := (schedule m (t - 7)).isLt
  omega

theorem schedN_word (m : ℕ → Word) (t : ℕ) (h : 16 ≤ t) : BitVec.ofNat 32 (schedN m t) = schedule m t := by
  rw [schedule_ge m t h, schedN]
  apply BitVec.eq_of_toNat_eq
  simp only [BitVec.toNat_ofNat, BitVec.toNat_add]
  omega

/-- The unreduced word, from the sigma constraints and the sum. -/
theorem sched_sum (k : Compress p) (s : Asg (ZMod p)) (m : ℕ → Word) (t : ℕ) (h2 : SchedOk k s m (t - 2)) (h7 : SchedOk k s m (t - 7))
    (h15 : SchedOk k s m (t - 15)) (h16 : SchedOk k s m (t - 16)) (g0 : Sat s (k.compSig0 t).gates) (g1 : Sat s (k.compSig1 t).gates)
    (hsum : val s (k.sig0 t) + val s (k.sig1 t) + val s (k.packedW (t - 16)) + val s (k.packedW (t - 7)) = val s (k.unreducedW t)) :
    val s (k.unreducedW t) = (schedN m t : ZMod p) := by
  have e0 := smallSigma_sound _ _ _ _ _ _ s _ h15.1 (by norm_num) (by norm_num) g0
  have e1 := smallSigma_sound _ _ _ _ _ _ s _ h2.1 (by norm_num) (by norm_num) g1
  rw [← hsum, e0, e1, h16.2, h7.2, schedN, Nat.cast_add, Nat.cast_add, Nat.cast_add]
  rfl

theorem sched_step (k : Compress p) (s : Asg (ZMod p)) (hp' : 2 ^ 35 ≤ p) (m : ℕ → Word) (t : ℕ) (ht : 16 ≤ t) (h2 : SchedOk k s m (t - 2))
    (h7 : SchedOk k s m (t - 7)) (h15 : SchedOk k s m (t - 15)) (h16 : SchedOk k s m (t - 16)) (h : Sat s (k.sGates t)) : SchedOk k s m t := by
  simp only [Compress.sGates, sat_append, sat_cons, sat_nil, and_true] at h
  obtain ⟨⟨⟨g0, g1⟩, g2⟩, g3⟩ := h
  simp only [Constraint.Holds, eval_const, one_mul, eval_add, eval_var] at g2
  have hX := sched_sum k s m t h2 h7 h15 h16 g0 g1 g2
  have := lastbits_sound (k.reduceW t) s (by show 32 ≤ 34; norm_num) (le_trans (by norm_num [Compress.reduceW]) hp') _ (schedN_lt m t) hX g3
  rw [schedN_word m t ht] at this
  exact this

theorem sched_sound (k : Compress p) (s : Asg (ZMod p)) (hp' : 2 ^ 35 ≤ p) (m : ℕ → Word) (hm : ∀ i < 16, WordIs s (vars (k.block i)) (m i))
    (h : Sat s k.scheduleGates) : ∀ t < 64, SchedOk k s m t := by
  rw [Compress.scheduleGates, sat_append, sat_flatMap, sat_flatMap] at h
  intro t
  induction t using Nat.strong_induction_on with
  | _ t ih =>
    intro ht
    by_cases h16 : t < 16
    · have e : schedule m t = m t := by rw [schedule, if_pos h16]
      have hw : WordIs s (vars (k.wBits t)) (schedule m t) := by
        rw [e]
        intro i hi
        have := hm t h16 i hi
        simp only [vars, Compress.wBits, if_pos h16] at this ⊢
        exact this
      exact ⟨hw, pack_word hw (h.1 t (List.mem_range.2 h16))⟩
    · have := h.2 (t - 16) (List.mem_range.2 (by omega))
      rw [Nat.sub_add_cancel (by omega)] at this
      exact sched_step k s hp' m t (by omega) (ih _ (by omega) (by omega)) (ih _ (by omega) (by omega)) (ih _ (by omega) (by omega))
        (ih _ (by omega) (by omega)) this

/-! ### Rounds -/

/-- The words at the beginning of a round are those of the state. -/
structure RegsAre (s : Asg (ZMod p)) (r : Compress.Regs p) (u : State) : Prop where
  a : WordIs s r.a u.a
  b : WordIs s r.b u.b
  c : WordIs s r.c u.c
  d : WordIs s r.d u.d
  e : WordIs s r.e u.e
  f : WordIs s r.f u.f
  g : WordIs s r.g u.g
  h : WordIs s r.h u.h

/-- The unreduced new words. -/
def nA (u : State) (kt wt : Word) : ℕ :=
  u.h.toNat + (bigSigma1 u.e).toNat + (ch u.e u.f u.g).toNat + kt.toNat + wt.toNat + (bigSigma0 u.a).toNat + (maj u.a u.b u.c).toNat
def nE (u : State) (kt wt : Word) : ℕ :=
  u.d.toNat + u.h.toNat + (bigSigma1 u.e).toNat + (ch u.e u.f u.g).toNat + kt.toNat + wt.toNat

theorem nA_lt (u : State) (kt wt : Word) : nA u kt wt < 2 ^ 35 := by
  unfold nA
  have h1 := u.h.isLt
  have h2 := (bigSigma1 u.e).isLt
  have h3 := (ch u.e u.f u.g).isLt
  have h4 := kt.isLt
  have h5 := wt.isLt
  have h6 := (bigSigma0 u.a).isLt
  have h7 := (maj u.a u.b u.c).isLt
  omega

theorem nE_lt (u : State) (kt wt : Word) : nE u kt wt < 2 ^ 35 := by
  unfold nE
  have h1 := u.h.isLt
  have h2 := (bigSigma1 u.e).isLt
  have h3 := (ch u.e u.f u.g).isLt
  have h4 := kt.isLt
  have h5 := wt.isLt
  have h6 := u.d.isLt
  omega

theorem nA_word (u : State) (kt wt : Word) : BitVec.ofNat 32 (nA u kt wt) = (round u kt wt).a := by
  apply BitVec.eq_of_toNat_eq
  simp only [nA, round, BitVec.toNat_ofNat, BitVec.toNat_add]
  omega

theorem nE_word (u : State) (kt wt : Word) : BitVec.ofNat 32 (nE u kt wt) = (round u kt wt).e := by
  apply BitVec.eq_of_toNat_eq
  simp only [nE, round, BitVec.toNat_ofNat, BitVec.toNat_add]
  omega

/-- What a round's constraints before the reduction give. -/
theorem round_sums (k : Compress p) (s : Asg (ZMod p)) (hp5 : 5 ≤ p) (i : ℕ) (u : State) (w : Word) (hr : RegsAre s (k.regs i) u)
    (hw : val s (k.packedW i) = (w.toNat : ZMod p)) (g0 : Sat s (k.rComp0 i).gates) (g1 : Sat s (k.rComp1 i).gates) (g2 : Sat s (k.rCompCh i).chGates)
    (g3 : Sat s (k.rCompMaj i).majGates) (g4 : Sat s (packGates (LWord.list (k.regs i).d) (Lc.var (k.packedD i)) false))
    (g5 : Sat s (packGates (LWord.list (k.regs i).h) (Lc.var (k.packedH i)) false)) :
    val s (k.packedH i) + val s (k.rSig1 i) + val s (k.rCh i) + Compress.K i + val s (k.packedW i) + val s (k.rSig0 i) + val s (k.rMaj i) =
        (nA u (Sha256Spec.k i) w : ZMod p) ∧
      val s (k.packedD i) + val s (k.packedH i) + val s (k.rSig1 i) + val s (k.rCh i) + Compress.K i + val s (k.packedW i) =
        (nE u (Sha256Spec.k i) w : ZMod p) ∧
      val s (k.packedD i) = (u.d.toNat : ZMod p) ∧ val s (k.packedH i) = (u.h.toNat : ZMod p) := by
  have e0 := bigSigma_sound _ _ _ _ _ _ s _ hr.a (by norm_num) (by norm_num) (by norm_num) g0
  have e1 := bigSigma_sound _ _ _ _ _ _ s _ hr.e (by norm_num) (by norm_num) (by norm_num) g1
  have e2 := ch_sound (k.rCompCh i) s _ _ _ hr.e hr.f hr.g g2
  have e3 := maj_sound hp5 (k.rCompMaj i) s _ _ _ hr.a hr.b hr.c g3
  have e4 := pack_word hr.d g4
  have e5 := pack_word hr.h g5
  have e2 : val s (k.rCh i) = _ := e2
  have e3 : val s (k.rMaj i) = _ := e3
  rw [e0, e1, e2, e3, e4, e5, hw, Compress.K, nA, nE]
  refine ⟨?_, ?_, rfl, rfl⟩
  · rw [Nat.cast_add, Nat.cast_add, Nat.cast_add, Nat.cast_add, Nat.cast_add, Nat.cast_add]; rfl
  · rw [Nat.cast_add, Nat.cast_add, Nat.cast_add, Nat.cast_add, Nat.cast_add]; rfl

/-- What holds after round `i`. -/
structure RoundOk (k : Compress p) (s : Asg (ZMod p)) (i : ℕ) (u : State) (w : Word) : Prop where
  regs : RegsAre s (k.regs (i + 1)) (round u (Sha256Spec.k i) w)
  d : val s (k.packedD i) = (u.d.toNat : ZMod p)
  h : val s (k.packedH i) = (u.h.toNat : ZMod p)
  a : val s (k.packedA i) = ((round u (Sha256Spec.k i) w).a.toNat : ZMod p)
  e : val s (k.packedE i) = ((round u (Sha256Spec.k i) w).e.toNat : ZMod p)

theorem round_step (k : Compress p) (s : Asg (ZMod p)) (hp' : 2 ^ 35 ≤ p) (i : ℕ) (u : State) (w : Word) (hr : RegsAre s (k.regs i) u)
    (hw : val s (k.packedW i) = (w.toNat : ZMod p)) (h : Sat s (k.rGates i)) : RoundOk k s i u w := by
  simp only [Compress.rGates, sat_append, sat_cons, sat_nil, and_true] at h
  obtain ⟨⟨⟨⟨⟨⟨⟨⟨g0, g1⟩, g2⟩, g3⟩, g4⟩, g5⟩, g6, g7⟩, g8⟩, g9⟩ := h
  simp only [Constraint.Holds, eval_const, one_mul, eval_add, eval_var] at g6 g7
  have hp5 : 5 ≤ p := le_trans (by norm_num) hp'
  obtain ⟨sA, sE, sd, sh⟩ := round_sums k s hp5 i u w hr hw g0 g1 g2 g3 g4 g5
  obtain ⟨wa, pa⟩ := lastbits_sound (k.reduceA i) s (by show 32 ≤ 35; norm_num) hp' _ (nA_lt _ _ _) (g6.symm.trans sA) g8
  obtain ⟨we, pe⟩ := lastbits_sound (k.reduceE i) s (by show 32 ≤ 35; norm_num) hp' _ (nE_lt _ _ _) (g7.symm.trans sE) g9
  rw [nA_word] at wa pa
  rw [nE_word] at we pe
  exact ⟨⟨wa, hr.a, hr.b, hr.c, we, hr.e, hr.f, hr.g⟩, sd, sh, pa, pe⟩

theorem rounds_sound (k : Compress p) (s : Asg (ZMod p)) (hp' : 2 ^ 35 ≤ p) (u : State) (w : ℕ → Word) (hr : RegsAre s (k.regs 0) u)
    (hw : ∀ i < 64, val s (k.packedW i) = ((w i).toNat : ZMod p)) (h : ∀ i < 64, Sat s (k.rGates i)) :
    ∀ i ≤ 64, RegsAre s (k.regs i) (rounds w u i) := by
  intro i
  induction i with
  | zero => intro _; exact hr
  | succ i ih => intro hi; exact (round_step k s hp' i _ (w i) (ih (by omega)) (hw i (by omega)) (h i (by omega))).regs

/-! ### Output -/

/-- Where the working variables come from. -/
theorem rounds_shift (w : ℕ → Word) (u : State) (n : ℕ) : (rounds w u (n + 1)).b = (rounds w u n).a ∧ (rounds w u (n + 1)).c = (rounds w u n).b ∧
    (rounds w u (n + 1)).d = (rounds w u n).c ∧ (rounds w u (n + 1)).f = (rounds w u n).e ∧ (rounds w u (n + 1)).g = (rounds w u n).f ∧
    (rounds w u (n + 1)).h = (rounds w u n).g := ⟨rfl, rfl, rfl, rfl, rfl, rfl⟩

/-- The words that are added at the end. -/
theorem output_words (w : ℕ → Word) (u : State) (i : ℕ) (hi : i < 4) :
    (rounds w u (3 - i)).d = u.get i ∧ (rounds w u (3 - i)).h = u.get (4 + i) ∧
      (rounds w u (63 - i + 1)).a = (rounds w u 64).get i ∧ (rounds w u (63 - i + 1)).e = (rounds w u 64).get (4 + i) := by
  interval_cases i <;> exact ⟨rfl, rfl, rfl, rfl⟩

theorem get_add (u v : State) (i : ℕ) (hi : i < 8) : (addState u v).get i = u.get i + v.get i := by
  interval_cases i <;> rfl

theorem add_lt (a b : Word) : a.toNat + b.toNat < 2 ^ 33 := by have := a.isLt; have := b.isLt; omega

/-- The sums before the last reduction. -/
theorem output_sums (k : Compress p) (s : Asg (ZMod p)) (hp' : 2 ^ 35 ≤ p) (u : State) (m : ℕ → Word) (h0 : RegsAre s (k.regs 0) u)
    (hsch : ∀ t < 64, SchedOk k s m t) (hr : ∀ i < 64, Sat s (k.rGates i)) (ho : ∀ i < 4, Sat s (k.sumGates i)) :
    ∀ i < 8, val s (k.unreducedOut i) = (((u.get i).toNat + ((rounds (schedule m) u 64).get i).toNat : ℕ) : ZMod p) := by
  have hregs := rounds_sound k s hp' u (schedule m) h0 (fun i hi => (hsch i hi).2) hr
  have hok : ∀ i < 64, RoundOk k s i (rounds (schedule m) u i) (schedule m i) := fun i hi =>
    round_step k s hp' i _ _ (hregs i (by omega)) (hsch i hi).2 (hr i hi)
  have aux : ∀ i < 4, val s (k.unreducedOut i) = (((u.get i).toNat + ((rounds (schedule m) u 64).get i).toNat : ℕ) : ZMod p) ∧
      val s (k.unreducedOut (4 + i)) = (((u.get (4 + i)).toNat + ((rounds (schedule m) u 64).get (4 + i)).toNat : ℕ) : ZMod p) := by
    intro i hi
    have := ho i hi
    simp only [Compress.sumGates, sat_cons, sat_nil, and_true, Constraint.Holds, eval_const, one_mul, eval_add, eval_var] at this
    obtain ⟨o1, o2, o3, o4⟩ := output_words (schedule m) u i hi
    have r1 := hok (3 - i) (by omega)
    have r2 := hok (63 - i) (by omega)
    have ra : val s (k.packedA (63 - i)) = (((rounds (schedule m) u (63 - i + 1)).a).toNat : ZMod p) := r2.a
    have re : val s (k.packedE (63 - i)) = (((rounds (schedule m) u (63 - i + 1)).e).toNat : ZMod p) := r2.e
    rw [← this.1, ← this.2, r1.d, r1.h, ra, re, o1, o2, o3, o4, Nat.cast_add, Nat.cast_add]
    exact ⟨rfl, rfl⟩
  intro i hi
  by_cases h4 : i < 4
  · exact (aux i h4).1
  · have := (aux (i - 4) (by omega)).2
    rwa [show 4 + (i - 4) = i by omega] at this

/-- Every accepted assignment has the output of the compression function: if the bits of the block and of the previous output are bits, the bits of the
output are those of `compress`. -/
theorem compress_sound (k : Compress p) (s : Asg (ZMod p)) (hp' : 2 ^ 35 ≤ p) (u : State) (m : ℕ → Word)
    (hu : ∀ i < 8, WordIs s (k.prev i) (u.get i)) (hm : ∀ i < 16, WordIs s (vars (k.block i)) (m i)) (h : Sat s k.gates) :
    ∀ i < 8, WordIs s (vars (k.out i)) ((compress u m).get i) := by
  simp only [Compress.gates, sat_append, sat_flatMap, List.mem_range] at h
  obtain ⟨⟨⟨hs, hr⟩, ho⟩, hl⟩ := h
  have hsch := sched_sound k s hp' m hm hs
  have h0 : RegsAre s (k.regs 0) u := ⟨hu 0 (by norm_num), hu 1 (by norm_num), hu 2 (by norm_num), hu 3 (by norm_num), hu 4 (by norm_num),
    hu 5 (by norm_num), hu 6 (by norm_num), hu 7 (by norm_num)⟩
  have key := output_sums k s hp' u m h0 hsch hr ho
  intro i hi
  have := (lastbits_sound (k.reduceOut i) s (by show 32 ≤ 33; norm_num) (le_trans (by norm_num [Compress.reduceOut]) hp') _ (add_lt _ _) (key i hi) (hl i hi)).1
  rw [ofNat_add_toNat, ← get_add u _ i hi] at this
  exact this

/-! ### Completeness -/

/-- The equations of the steps hold. -/
def Eqs (s : Asg (ZMod p)) (l : List (Step (ZMod p))) : Prop := ∀ t ∈ l, val s t.1 = t.2 s

theorem eqs_append {s : Asg (ZMod p)} {l m : List (Step (ZMod p))} : Eqs s (l ++ m) ↔ Eqs s l ∧ Eqs s m := by
  constructor
  · intro h; exact ⟨fun t ht => h t (List.mem_append_left _ ht), fun t ht => h t (List.mem_append_right _ ht)⟩
  · rintro ⟨h1, h2⟩ t ht
    rcases List.mem_append.1 ht with h | h
    · exact h1 t h
    · exact h2 t h

theorem eqs_cons {s : Asg (ZMod p)} {t : Step (ZMod p)} {l : List (Step (ZMod p))} : Eqs s (t :: l) ↔ val s t.1 = t.2 s ∧ Eqs s l := by
  simp [Eqs]

theorem eqs_nil {s : Asg (ZMod p)} : Eqs s [] := fun t ht => by cases ht

theorem eqs_flatMap {s : Asg (ZMod p)} {α : Type*} {l : List α} {f : α → List (Step (ZMod p))} : Eqs s (l.flatMap f) ↔ ∀ x ∈ l, Eqs s (f x) := by
  constructor
  · intro h x hx t ht; exact h t (List.mem_flatMap.2 ⟨x, hx, ht⟩)
  · intro h t ht
    obtain ⟨x, hx, ht⟩ := List.mem_flatMap.1 ht
    exact h x hx t ht

theorem eqs_map {s : Asg (ZMod p)} {α : Type*} {l : List α} {f : α → Step (ZMod p)} : Eqs s (l.map f) ↔ ∀ x ∈ l, val s (f x).1 = (f x).2 s := by
  simp [Eqs]

theorem pack_complete {s : Asg (ZMod p)} {w : LWord p} {x : Word} (h : WordIs s w x) {v : ℕ} (he : Eqs s (packStep w v)) :
    Sat s (packGates w.list (Lc.var v) false) := by
  simp only [packGates, Bool.false_eq_true, if_false, sat_cons, sat_nil, and_true, Constraint.Holds, eval_const, one_mul, eval_var]
  have : val s v = horner (w.list.map (Lc.eval s)) := (eqs_cons.1 he).1
  rw [this, eval_packSum s 1 _ _ h.map, h.map, horner_bits, one_mul]

theorem xor3_complete (s : Asg (ZMod p)) (A B C : Lc (ZMod p)) (zero : Bool) (tmp out : ℕ) (h : Eqs s (xor3Steps A B C zero tmp out)) :
    Sat s (xor3Gates A B C zero tmp (Lc.var out)) := by
  cases zero
  · simp only [xor3Steps, Bool.false_eq_true, if_false, eqs_cons] at h
    simp only [xor3Gates, Bool.false_eq_true, if_false, sat_cons, sat_nil, and_true, Constraint.Holds, eval_smul, eval_sub, eval_add, eval_var]
    refine ⟨?_, ?_⟩
    · rw [h.1]; ring
    · rw [h.2.1]; ring
  · simp only [xor3Steps, if_true, eqs_cons] at h
    simp only [xor3Gates, if_true, sat_cons, sat_nil, and_true, Constraint.Holds, eval_smul, eval_sub, eval_add, eval_var]
    rw [h.1]; ring

theorem sigma_complete (k : Sigma p) (s : Asg (ZMod p)) (x y z : Word) (hA : WordIs s k.A x) (hB : WordIs s k.B y)
    (hC : ∀ i < 32, if k.zero i then z.getLsbD i = false else (k.C i).eval s = b2f (z.getLsbD i)) (h : Eqs s k.steps) : Sat s k.gates := by
  rw [Sigma.steps, eqs_append, eqs_flatMap] at h
  have h1 : ∀ i ∈ List.range 32, Sat s (xor3Gates (k.A i) (k.B i) (k.C i) (k.zero i) (k.base + 32 + i) (Lc.var (k.bits i))) :=
    fun i hi => xor3_complete s _ _ _ _ _ _ (h.1 i hi)
  rw [Sigma.gates, sat_append, sat_flatMap]
  refine ⟨h1, pack_complete (x := x ^^^ y ^^^ z) ?_ h.2⟩
  intro i hi
  have := xor3_sound s _ _ _ _ _ _ _ _ (z.getLsbD i) (hA i hi) (hB i hi) (hC i hi) (h1 i (List.mem_range.2 hi))
  rw [vars, this, BitVec.getLsbD_xor, BitVec.getLsbD_xor, Bool.xor_assoc]

theorem smallSigma_complete (w : LWord p) (result r1 r2 sh base : ℕ) (s : Asg (ZMod p)) (x : Word) (hx : WordIs s w x) (h1 : r1 < 32) (h2 : r2 < 32)
    (h : Eqs s (smallSigma w result r1 r2 sh base).steps) : Sat s (smallSigma w result r1 r2 sh base).gates := by
  refine sigma_complete (smallSigma w result r1 r2 sh base) s _ _ (x >>> sh) (rotr_word hx r1 h1) (rotr_word hx r2 h2) ?_ h
  intro i hi
  simp only [smallSigma, BitVec.getLsbD_ushiftRight]
  by_cases hs : i + sh < 32
  · rw [if_neg (by simpa using hs), if_pos hs, Nat.add_comm sh i]
    exact hx _ hs
  · rw [if_pos (by simpa using hs)]
    exact BitVec.getLsbD_of_ge _ _ (by omega)

theorem bigSigma_complete (w : LWord p) (result r1 r2 r3 base : ℕ) (s : Asg (ZMod p)) (x : Word) (hx : WordIs s w x) (h1 : r1 < 32) (h2 : r2 < 32) (h3 : r3 < 32)
    (h : Eqs s (bigSigma w result r1 r2 r3 base).steps) : Sat s (bigSigma w result r1 r2 r3 base).gates := by
  refine sigma_complete (bigSigma w result r1 r2 r3 base) s _ _ (x.rotateRight r3) (rotr_word hx r1 h1) (rotr_word hx r2 h2) ?_ h
  intro i hi
  exact rotr_word hx r3 h3 i hi

theorem ch_complete (k : Ter p) (s : Asg (ZMod p)) (x y z : Word) (hX : WordIs s k.X x) (hY : WordIs s k.Y y) (hZ : WordIs s k.Z z) (h : Eqs s k.chSteps) :
    Sat s k.chGates := by
  rw [Ter.chSteps, eqs_append, eqs_map] at h
  rw [Ter.chGates, sat_append, sat_map]
  refine ⟨?_, pack_complete (x := ch x y z) ?_ h.2⟩
  · intro i hi
    have := h.1 i hi
    simp only at this
    simp only [Constraint.Holds, eval_sub, eval_var, this]
    ring
  · intro i hi
    have := h.1 i (List.mem_range.2 hi)
    simp only [hX i hi, hY i hi, hZ i hi] at this
    rw [vars, eval_var, this, ch, BitVec.getLsbD_xor, BitVec.getLsbD_and, BitVec.getLsbD_and, BitVec.getLsbD_not, decide_eq_true hi, Bool.true_and]
    cases x.getLsbD i <;> cases y.getLsbD i <;> cases z.getLsbD i <;> simp

theorem maj_val (hp5 : 5 ≤ p) (a b c : Bool) :
    (((b2f a + b2f b + b2f c : ZMod p).val / 2 : ℕ) : ZMod p) = b2f ((a && b) ^^ (a && c) ^^ (b && c)) := by
  have e : (b2f a + b2f b + b2f c : ZMod p) = ((a.toNat + b.toNat + c.toNat : ℕ) : ZMod p) := by
    cases a <;> cases b <;> cases c <;> simp <;> norm_num
  have hlt : a.toNat + b.toNat + c.toNat < p := by
    have := a.toNat_lt; have := b.toNat_lt; have := c.toNat_lt; omega
  rw [e, ZMod.val_natCast_of_lt hlt]
  cases a <;> cases b <;> cases c <;> simp

theorem maj_complete (hp5 : 5 ≤ p) (k : Ter p) (s : Asg (ZMod p)) (x y z : Word) (hX : WordIs s k.X x) (hY : WordIs s k.Y y) (hZ : WordIs s k.Z z)
    (h : Eqs s k.majSteps) : Sat s k.majGates := by
  rw [Ter.majSteps, eqs_append, eqs_map] at h
  rw [Ter.majGates, sat_append, sat_flatMap]
  have hb : ∀ i < 32, val s (k.bits i) = b2f ((x.getLsbD i && y.getLsbD i) ^^ (x.getLsbD i && z.getLsbD i) ^^ (y.getLsbD i && z.getLsbD i)) := by
    intro i hi
    have := h.1 i (List.mem_range.2 hi)
    simp only [hX i hi, hY i hi, hZ i hi] at this
    rw [this, maj_val hp5]
  refine ⟨?_, pack_complete (x := maj x y z) ?_ h.2⟩
  · intro i hi
    have hi := List.mem_range.1 hi
    rw [sat_cons, boolean_iff, eval_var, sat_cons, hb i hi]
    refine ⟨?_, ?_, (sat_nil _).2 trivial⟩
    · generalize ((x.getLsbD i && y.getLsbD i) ^^ (x.getLsbD i && z.getLsbD i) ^^ (y.getLsbD i && z.getLsbD i)) = q
      cases q
      · exact Or.inl rfl
      · exact Or.inr rfl
    · simp only [Constraint.Holds, Ter.aux, eval_sub, eval_add, eval_smul, eval_const, eval_var, hX i hi, hY i hi, hZ i hi, hb i hi]
      cases x.getLsbD i <;> cases y.getLsbD i <;> cases z.getLsbD i <;> simp <;> ring_nf <;> simp
  · intro i hi
    rw [vars, eval_var, hb i hi, maj, BitVec.getLsbD_xor, BitVec.getLsbD_xor, BitVec.getLsbD_and, BitVec.getLsbD_and, BitVec.getLsbD_and]

theorem lastbits_complete (k : LastBits) (s : Asg (ZMod p)) (hn : 32 ≤ k.n) (hp' : 2 ^ k.n ≤ p) (N : ℕ) (hN : N < 2 ^ k.n) (hX : val s k.X = (N : ZMod p))
    (h : Eqs s k.steps) : Sat s k.gates := by
  rw [LastBits.steps, eqs_append, eqs_map] at h
  have hv : (val s k.X).val = N := by rw [hX, ZMod.val_natCast_of_lt (lt_of_lt_of_le hN hp')]
  have hlen : (k.full.map (Lc.var (F := ZMod p))).length = k.n := by simp [LastBits.full]
  have hb : ∀ i < k.n, val s (if i < 32 then k.bits i else k.base + (i - 32)) = b2f (N.testBit i) := by
    intro i hi
    have := h.1 i (List.mem_range.2 hi)
    simp only [hv] at this
    rw [this]
    cases N.testBit i <;> simp
  rw [LastBits.gates, sat_append]
  refine ⟨packing_complete _ _ s true (by rw [hlen, eval_var, hv]; exact hN) ?_, pack_complete (x := BitVec.ofNat 32 N) ?_ h.2⟩
  · rw [hlen, map_var_eval, eval_var, hv, LastBits.full, List.map_map]
    exact List.map_congr_left fun i hi => hb i (List.mem_range.1 hi)
  · intro i hi
    have := hb i (by omega)
    rw [if_pos hi] at this
    rw [vars, eval_var, this, BitVec.getLsbD_ofNat, decide_eq_true hi, Bool.true_and]

theorem sched_step_complete (k : Compress p) (s : Asg (ZMod p)) (hp' : 2 ^ 35 ≤ p) (m : ℕ → Word) (t : ℕ) (h2 : SchedOk k s m (t - 2))
    (h7 : SchedOk k s m (t - 7)) (h15 : SchedOk k s m (t - 15)) (h16 : SchedOk k s m (t - 16)) (h : Eqs s (k.sSteps t)) : Sat s (k.sGates t) := by
  simp only [Compress.sSteps, eqs_append, eqs_cons] at h
  obtain ⟨⟨⟨g0, g1⟩, g2, -⟩, g3⟩ := h
  have c0 : Sat s (k.compSig0 t).gates := smallSigma_complete _ _ _ _ _ _ s _ h15.1 (by norm_num) (by norm_num) g0
  have c1 : Sat s (k.compSig1 t).gates := smallSigma_complete _ _ _ _ _ _ s _ h2.1 (by norm_num) (by norm_num) g1
  have hX := sched_sum k s m t h2 h7 h15 h16 c0 c1 g2.symm
  simp only [Compress.sGates, sat_append, sat_cons, sat_nil, and_true]
  refine ⟨⟨⟨c0, c1⟩, ?_⟩, ?_⟩
  · simp only [Constraint.Holds, eval_const, one_mul, eval_add, eval_var, g2]
  · exact lastbits_complete (k.reduceW t) s (by show 32 ≤ 34; norm_num) (le_trans (by norm_num [Compress.reduceW]) hp') _ (schedN_lt m t) hX g3

theorem sched_complete (k : Compress p) (s : Asg (ZMod p)) (hp' : 2 ^ 35 ≤ p) (m : ℕ → Word) (hm : ∀ i < 16, WordIs s (vars (k.block i)) (m i))
    (h : Eqs s k.scheduleSteps) : Sat s k.scheduleGates := by
  rw [Compress.scheduleSteps, eqs_append, eqs_flatMap, eqs_flatMap] at h
  have hw : ∀ t < 16, WordIs s (vars (k.wBits t)) (m t) := by
    intro t h16 i hi
    have := hm t h16 i hi
    simp only [vars, Compress.wBits, if_pos h16] at this ⊢
    exact this
  have key : ∀ t < 64, SchedOk k s m t ∧ (16 ≤ t → Sat s (k.sGates t)) := by
    intro t
    induction t using Nat.strong_induction_on with
    | _ t ih =>
      intro ht
      by_cases h16 : t < 16
      · have e : schedule m t = m t := by rw [schedule, if_pos h16]
        refine ⟨⟨?_, ?_⟩, fun h => absurd h (by omega)⟩
        · rw [e]; exact hw t h16
        · rw [e]; exact pack_word (hw t h16) (pack_complete (hw t h16) (h.1 t (List.mem_range.2 h16)))
      · have := h.2 (t - 16) (List.mem_range.2 (by omega))
        rw [Nat.sub_add_cancel (by omega)] at this
        have i2 := (ih (t - 2) (by omega) (by omega)).1
        have i7 := (ih (t - 7) (by omega) (by omega)).1
        have i15 := (ih (t - 15) (by omega) (by omega)).1
        have i16 := (ih (t - 16) (by omega) (by omega)).1
        have c := sched_step_complete k s hp' m t i2 i7 i15 i16 this
        exact ⟨sched_step k s hp' m t (by omega) i2 i7 i15 i16 c, fun _ => c⟩
  rw [Compress.scheduleGates, sat_append, sat_flatMap, sat_flatMap]
  refine ⟨fun t ht => pack_complete (hw t (List.mem_range.1 ht)) (h.1 t ht), fun t ht => ?_⟩
  have := List.mem_range.1 ht
  exact (key (t + 16) (by omega)).2 (by omega)

theorem round_complete (k : Compress p) (s : Asg (ZMod p)) (hp' : 2 ^ 35 ≤ p) (i : ℕ) (u : State) (w : Word) (hr : RegsAre s (k.regs i) u)
    (hw : val s (k.packedW i) = (w.toNat : ZMod p)) (h : Eqs s (k.rSteps i)) : Sat s (k.rGates i) := by
  simp only [Compress.rSteps, eqs_append, eqs_cons] at h
  obtain ⟨⟨⟨⟨⟨⟨⟨⟨g0, g1⟩, g2⟩, g3⟩, g4⟩, g5⟩, g6, g7, -⟩, g8⟩, g9⟩ := h
  have hp5 : 5 ≤ p := le_trans (by norm_num) hp'
  have c0 : Sat s (k.rComp0 i).gates := bigSigma_complete _ _ _ _ _ _ s _ hr.a (by norm_num) (by norm_num) (by norm_num) g0
  have c1 : Sat s (k.rComp1 i).gates := bigSigma_complete _ _ _ _ _ _ s _ hr.e (by norm_num) (by norm_num) (by norm_num) g1
  have c2 := ch_complete (k.rCompCh i) s _ _ _ hr.e hr.f hr.g g2
  have c3 := maj_complete hp5 (k.rCompMaj i) s _ _ _ hr.a hr.b hr.c g3
  have c4 := pack_complete hr.d g4
  have c5 := pack_complete hr.h g5
  obtain ⟨sA, sE, -, -⟩ := round_sums k s hp5 i u w hr hw c0 c1 c2 c3 c4 c5
  simp only [Compress.rGates, sat_append, sat_cons, sat_nil, and_true]
  refine ⟨⟨⟨⟨⟨⟨⟨⟨c0, c1⟩, c2⟩, c3⟩, c4⟩, c5⟩, ?_, ?_⟩, ?_⟩, ?_⟩
  · simp only [Constraint.Holds, eval_const, one_mul, eval_add, eval_var, g6]
  · simp only [Constraint.Holds, eval_const, one_mul, eval_add, eval_var, g7]
  · exact lastbits_complete (k.reduceA i) s (by show 32 ≤ 35; norm_num) hp' _ (nA_lt _ _ _) (g6.trans sA) g8
  · exact lastbits_complete (k.reduceE i) s (by show 32 ≤ 35; norm_num) hp' _ (nE_lt _ _ _) (g7.trans sE) g9

/-! ### The assignment writes every variable once -/

/-- A block of steps: written once, reads and writes within `U`, writes within `T`. -/
structure Blk (l : List (Step (ZMod p))) (U T : ℕ → Prop) : Prop where
  ssa : Ssa l
  within : Within l U
  writes : Writes l T

theorem Blk.mono {l : List (Step (ZMod p))} {U T U' T' : ℕ → Prop} (h : Blk l U T) (hU : ∀ v, U v → U' v) (hT : ∀ v, T v → T' v) : Blk l U' T' :=
  ⟨h.ssa, h.within.mono hU, h.writes.mono hT⟩

theorem Blk.append {l m : List (Step (ZMod p))} {U1 T1 U2 T2 : ℕ → Prop} (h1 : Blk l U1 T1) (h2 : Blk m U2 T2) (hd : ∀ v, U1 v → ¬ T2 v) :
    Blk (l ++ m) (fun v => U1 v ∨ U2 v) (fun v => T1 v ∨ T2 v) :=
  ⟨Ssa.append h1.ssa h2.ssa h1.within h2.writes hd, Within.append (h1.within.mono fun _ => Or.inl) (h2.within.mono fun _ => Or.inr),
    Writes.append (h1.writes.mono fun _ => Or.inl) (h2.writes.mono fun _ => Or.inr)⟩

theorem Blk.loop {f : ℕ → List (Step (ZMod p))} (n : ℕ) (U T : ℕ → ℕ → Prop) (h : ∀ i < n, Blk (f i) (U i) (T i))
    (hd : ∀ i j, i < j → j < n → ∀ v, U i v → ¬ T j v) : Blk ((List.range n).flatMap f) (fun v => ∃ i < n, U i v) (fun v => ∃ i < n, T i v) :=
  ⟨Ssa.loop n U T (fun i hi => (h i hi).ssa) (fun i hi => (h i hi).within) (fun i hi => (h i hi).writes) hd,
    Within.flatMap fun i hi => (h i (List.mem_range.1 hi)).within.mono fun _ hv => ⟨i, List.mem_range.1 hi, hv⟩,
    Writes.flatMap fun i hi => (h i (List.mem_range.1 hi)).writes.mono fun _ hv => ⟨i, List.mem_range.1 hi, hv⟩⟩

theorem Blk.single {v : ℕ} {f : Asg (ZMod p) → ZMod p} {R : ℕ → Prop} (hv : v ≠ 0) (hf : Reads f R) (hd : ¬ R v) :
    Blk [(v, f)] (fun i => R i ∨ i = v) (fun i => i = v) := by
  refine ⟨⟨hv, hf.mono fun i hi => ⟨fun e => hd ((show i = v from e) ▸ hi), by simp⟩, by simp, trivial⟩, ?_, ?_⟩
  · intro t ht; rw [List.mem_singleton.1 ht]; exact ⟨Or.inr rfl, hf.mono fun _ => Or.inl⟩
  · intro t ht; rw [List.mem_singleton.1 ht]

theorem Blk.mapLoop {f : ℕ → Step (ZMod p)} (n : ℕ) (R : ℕ → Prop) (h0 : ∀ i < n, (f i).1 ≠ 0) (hi : ∀ i < n, ∀ j < n, (f i).1 = (f j).1 → i = j)
    (hR : ∀ i < n, Reads (f i).2 R) (hd : ∀ i < n, ¬ R (f i).1) :
    Blk ((List.range n).map f) (fun v => R v ∨ ∃ i < n, v = (f i).1) (fun v => ∃ i < n, v = (f i).1) :=
  ⟨Ssa.mapLoop n R h0 hi hR hd, Within.map fun i hi => ⟨Or.inr ⟨i, List.mem_range.1 hi, rfl⟩, (hR i (List.mem_range.1 hi)).mono fun _ => Or.inl⟩,
    Writes.map fun i hi => ⟨i, List.mem_range.1 hi, rfl⟩⟩

theorem eval_agree {l : Lc (ZMod p)} {U : ℕ → Prop} (h : l.Uses U) {s s' : Asg (ZMod p)} (hs : ∀ i, U i → val s i = val s' i) : l.eval s = l.eval s' :=
  reads_eval l h s s' hs

/-- All linear combinations of a word use only variables with property `R`. -/
def LWord.Uses (w : LWord p) (R : ℕ → Prop) : Prop := ∀ i < 32, (w i).Uses R

theorem LWord.Uses.mono {w : LWord p} {R R' : ℕ → Prop} (h : LWord.Uses w R) (hR : ∀ v, R v → R' v) : LWord.Uses w R' :=
  fun i hi t ht => (h i hi t ht).imp_right (hR _)

theorem uses_vars {v : ℕ → ℕ} {R : ℕ → Prop} (h : ∀ i < 32, R (v i)) : LWord.Uses (p := p) (vars v) R := by
  intro i hi t ht
  rw [List.mem_singleton.1 ht]
  exact Or.inr (h i hi)

theorem uses_rotr {w : LWord p} {R : ℕ → Prop} (h : LWord.Uses w R) (r : ℕ) : LWord.Uses (rotr w r) R := fun i _ => h _ (Nat.mod_lt _ (by norm_num))

theorem reads_pack {w : LWord p} {R : ℕ → Prop} (h : LWord.Uses w R) : Reads (fun s => horner (w.list.map (Lc.eval s))) R := by
  intro s s' hs
  show horner _ = horner _
  congr 1
  rw [LWord.list, List.map_map, List.map_map]
  exact List.map_congr_left fun i hi => eval_agree (h i (List.mem_range.1 hi)) hs

theorem pack_blk {w : LWord p} {R : ℕ → Prop} (h : LWord.Uses w R) {v : ℕ} (hv : v ≠ 0) (hd : ¬ R v) :
    Blk (packStep w v) (fun i => R i ∨ i = v) (fun i => i = v) := Blk.single hv (reads_pack h) hd

/-- The sigma functions: `n` variables `tmp`. -/
theorem sigma_blk (k : Sigma p) (R : ℕ → Prop) (n : ℕ) (hA : LWord.Uses k.A R) (hB : LWord.Uses k.B R) (hC : ∀ i < 32, k.zero i = false → (k.C i).Uses R)
    (hz : ∀ i < 32, k.zero i = false → i < n) (h0 : k.base ≠ 0) (hr : k.result ≠ 0) (hb : k.result < k.base ∨ k.base + 32 + n ≤ k.result)
    (hR : ∀ v, R v → v ≠ k.result ∧ (v < k.base ∨ k.base + 32 + n ≤ v)) :
    Blk k.steps (fun v => R v ∨ v = k.result ∨ k.base ≤ v ∧ v < k.base + 32 + n) (fun v => v = k.result ∨ k.base ≤ v ∧ v < k.base + 32 + n) := by
  have hx : ∀ i < 32, Blk (xor3Steps (k.A i) (k.B i) (k.C i) (k.zero i) (k.base + 32 + i) (k.bits i))
      (fun v => R v ∨ v = k.base + i ∨ v = k.base + 32 + i ∧ i < n) (fun v => v = k.base + i ∨ v = k.base + 32 + i ∧ i < n) := by
    intro i hi
    have rAB : Reads (fun s => (k.A i).eval s + (k.B i).eval s - 2 * (k.A i).eval s * (k.B i).eval s) R := by
      intro s s' hs
      show _ - _ = _ - _
      rw [eval_agree (hA i hi) hs, eval_agree (hB i hi) hs]
    unfold xor3Steps
    cases hzi : k.zero i
    · rw [if_neg (by simp)]
      have hin := hz i hi hzi
      have b1 := Blk.single (v := k.base + 32 + i) (by omega) rAB fun h => by have := (hR _ h).2; omega
      have rT : Reads (fun s => val s (k.base + 32 + i) + (k.C i).eval s - 2 * val s (k.base + 32 + i) * (k.C i).eval s) (fun v => R v ∨ v = k.base + 32 + i) := by
        intro s s' hs
        show _ - _ = _ - _
        rw [eval_agree (hC i hi hzi) fun v hv => hs v (Or.inl hv), hs _ (Or.inr rfl)]
      have b2 := Blk.single (v := k.bits i) (by unfold Sigma.bits; omega) rT (by
        unfold Sigma.bits
        rintro (h | h)
        · have := (hR _ h).2; omega
        · omega)
      refine (b1.append b2 ?_).mono ?_ ?_
      · unfold Sigma.bits
        rintro v (h | h) e
        · have := (hR _ h).2; omega
        · omega
      · unfold Sigma.bits
        rintro v ((h | h) | ((h | h) | h))
        · exact Or.inl h
        · exact Or.inr (Or.inr ⟨h, hin⟩)
        · exact Or.inl h
        · exact Or.inr (Or.inr ⟨h, hin⟩)
        · exact Or.inr (Or.inl h)
      · unfold Sigma.bits
        rintro v (h | h)
        · exact Or.inr ⟨h, hin⟩
        · exact Or.inl h
    · rw [if_pos rfl]
      refine (Blk.single (v := k.bits i) (by unfold Sigma.bits; omega) rAB fun h => by have := (hR _ h).2; unfold Sigma.bits at this; omega).mono ?_ ?_
      · rintro v (h | h)
        · exact Or.inl h
        · exact Or.inr (Or.inl h)
      · intro v h; exact Or.inl h
  have b1 := Blk.loop 32 _ _ hx (by
    rintro i j hij hj v (h | h | h) e
    · have := (hR _ h).2
      rcases e with e | e <;> omega
    · rcases e with e | e <;> omega
    · rcases e with e | e <;> omega)
  have b2 := pack_blk (p := p) (w := vars k.bits) (R := fun v => k.base ≤ v ∧ v < k.base + 32) (uses_vars fun i hi => by unfold Sigma.bits; omega) hr
    (by omega)
  refine (b1.append b2 ?_).mono ?_ ?_
  · rintro v ⟨i, hi, h | h | h⟩ e
    · exact (hR _ h).1 e
    · omega
    · omega
  · rintro v (⟨i, hi, h | h | h⟩ | (h | h))
    · exact Or.inl h
    · exact Or.inr (Or.inr (by omega))
    · exact Or.inr (Or.inr (by omega))
    · exact Or.inr (Or.inr (by omega))
    · exact Or.inr (Or.inl h)
  · rintro v (⟨i, hi, h | h⟩ | h)
    · exact Or.inr (by omega)
    · exact Or.inr (by omega)
    · exact Or.inl h

theorem smallSigma_blk (w : LWord p) (result r1 r2 sh base : ℕ) (R : ℕ → Prop) (hw : LWord.Uses w R) (hsh : sh < 32) (h0 : base ≠ 0) (hr : result ≠ 0)
    (hb : result < base ∨ base + (64 - sh) ≤ result) (hR : ∀ v, R v → v ≠ result ∧ (v < base ∨ base + (64 - sh) ≤ v)) :
    Blk (smallSigma w result r1 r2 sh base).steps (fun v => R v ∨ v = result ∨ base ≤ v ∧ v < base + (64 - sh))
      (fun v => v = result ∨ base ≤ v ∧ v < base + (64 - sh)) := by
  have e : base + 32 + (32 - sh) = base + (64 - sh) := by omega
  have := sigma_blk (smallSigma w result r1 r2 sh base) R (32 - sh) (uses_rotr hw r1) (uses_rotr hw r2) (by
      intro i hi hz
      have : i + sh < 32 := by simpa [smallSigma] using hz
      simp only [smallSigma, if_pos this]
      exact hw _ this) (by
      intro i hi hz
      have : i + sh < 32 := by simpa [smallSigma] using hz
      omega) h0 hr (by show _ ∨ base + 32 + (32 - sh) ≤ _; rw [e]; exact hb) (by show ∀ v, _ → _ ∧ (_ ∨ base + 32 + (32 - sh) ≤ _); rw [e]; exact hR)
  have e' : (smallSigma w result r1 r2 sh base).base + 32 + (32 - sh) = base + (64 - sh) := e
  rw [e'] at this
  exact this

theorem bigSigma_blk (w : LWord p) (result r1 r2 r3 base : ℕ) (R : ℕ → Prop) (hw : LWord.Uses w R) (h0 : base ≠ 0) (hr : result ≠ 0)
    (hb : result < base ∨ base + 64 ≤ result) (hR : ∀ v, R v → v ≠ result ∧ (v < base ∨ base + 64 ≤ v)) :
    Blk (bigSigma w result r1 r2 r3 base).steps (fun v => R v ∨ v = result ∨ base ≤ v ∧ v < base + 64)
      (fun v => v = result ∨ base ≤ v ∧ v < base + 64) :=
  sigma_blk (bigSigma w result r1 r2 r3 base) R 32 (uses_rotr hw r1) (uses_rotr hw r2) (fun i hi _ => uses_rotr hw r3 i hi) (fun _ hi _ => hi) h0 hr hb hR

/-- Choice and majority. -/
theorem ter_blk (k : Ter p) (R : ℕ → Prop) (hX : LWord.Uses k.X R) (hY : LWord.Uses k.Y R) (hZ : LWord.Uses k.Z R) (h0 : k.base ≠ 0) (hr : k.result ≠ 0)
    (hb : k.result < k.base ∨ k.base + 32 ≤ k.result) (hR : ∀ v, R v → v ≠ k.result ∧ (v < k.base ∨ k.base + 32 ≤ v)) :
    Blk k.chSteps (fun v => R v ∨ v = k.result ∨ k.base ≤ v ∧ v < k.base + 32) (fun v => v = k.result ∨ k.base ≤ v ∧ v < k.base + 32) ∧
      Blk k.majSteps (fun v => R v ∨ v = k.result ∨ k.base ≤ v ∧ v < k.base + 32) (fun v => v = k.result ∨ k.base ≤ v ∧ v < k.base + 32) := by
  have main : ∀ f : ℕ → Asg (ZMod p) → ZMod p, (∀ i < 32, Reads (f i) R) → Blk (((List.range 32).map fun i => (k.bits i, f i)) ++ packStep (vars k.bits) k.result)
      (fun v => R v ∨ v = k.result ∨ k.base ≤ v ∧ v < k.base + 32) (fun v => v = k.result ∨ k.base ≤ v ∧ v < k.base + 32) := by
    intro f hf
    have b1 := Blk.mapLoop (f := fun i => (k.bits i, f i)) 32 R (by intro i _; show k.bits i ≠ 0; unfold Ter.bits; omega)
      (by intro i _ j _ e; have e : k.bits i = k.bits j := e; unfold Ter.bits at e; omega) hf
      (by intro i hi h; have := (hR _ h).2; have e : k.bits i = k.base + i := rfl; simp only [e] at this; omega)
    have b2 := pack_blk (p := p) (w := vars k.bits) (R := fun v => k.base ≤ v ∧ v < k.base + 32) (uses_vars fun i hi => by unfold Ter.bits; omega) hr
      (by omega)
    refine (b1.append b2 ?_).mono ?_ ?_
    · rintro v (h | ⟨i, hi, h⟩) e
      · exact (hR _ h).1 e
      · have h : v = k.base + i := h
        omega
    · rintro v ((h | ⟨i, hi, h⟩) | (h | h))
      · exact Or.inl h
      · have h : v = k.base + i := h
        exact Or.inr (Or.inr (by omega))
      · exact Or.inr (Or.inr h)
      · exact Or.inr (Or.inl h)
    · rintro v (⟨i, hi, h⟩ | h)
      · have h : v = k.base + i := h
        exact Or.inr (by omega)
      · exact Or.inl h
  refine ⟨main (fun i s => (k.X i).eval s * (k.Y i).eval s + (1 - (k.X i).eval s) * (k.Z i).eval s) ?_,
    main (fun i s => ((((k.X i).eval s + (k.Y i).eval s + (k.Z i).eval s).val / 2 : ℕ) : ZMod p)) ?_⟩
  · intro i hi s s' hs
    show _ + _ = _ + _
    rw [eval_agree (hX i hi) hs, eval_agree (hY i hi) hs, eval_agree (hZ i hi) hs]
  · intro i hi s s' hs
    show ((_ : ℕ) : ZMod p) = ((_ : ℕ) : ZMod p)
    rw [eval_agree (hX i hi) hs, eval_agree (hY i hi) hs, eval_agree (hZ i hi) hs]

/-- Reduction: `T` are the variables of the bits and of the overflow. -/
theorem lastbits_blk (k : LastBits) (T : ℕ → Prop) (hT : ∀ i < k.n, T (if i < 32 then k.bits i else k.base + (i - 32)))
    (hinj : ∀ i < k.n, ∀ j < k.n, (if i < 32 then k.bits i else k.base + (i - 32)) = (if j < 32 then k.bits j else k.base + (j - 32)) → i = j)
    (hn : 32 ≤ k.n) (hr : k.result ≠ 0) (h0 : ¬ T 0) (hX : ¬ T k.X) (hrT : ¬ T k.result) (hXr : k.X ≠ k.result) :
    Blk (p := p) k.steps (fun v => v = k.X ∨ v = k.result ∨ T v) (fun v => v = k.result ∨ T v) := by
  have b1 := Blk.mapLoop (p := p)
    (f := fun i => ((if i < 32 then k.bits i else k.base + (i - 32) : ℕ), fun s => if (val s k.X).val.testBit i then 1 else 0)) k.n (fun v => v = k.X)
    (fun i hi e => h0 (e ▸ hT i hi)) hinj (fun i _ s s' hs => by show (if _ then _ else _) = (if _ then _ else _); rw [hs _ rfl])
    (fun i hi e => hX (e ▸ hT i hi))
  have b2 := pack_blk (p := p) (w := vars k.bits) (R := T) (uses_vars fun i hi => by have := hT i (by omega); rwa [if_pos hi] at this) hr hrT
  refine (b1.append b2 ?_).mono ?_ ?_
  · rintro v (h | ⟨i, hi, h⟩) e
    · exact hXr (h.symm.trans e)
    · exact hrT (e ▸ h ▸ hT i hi)
  · rintro v ((h | ⟨i, hi, h⟩) | (h | h))
    · exact Or.inl h
    · exact Or.inr (Or.inr (h ▸ hT i hi))
    · exact Or.inr (Or.inr h)
    · exact Or.inr (Or.inl h)
  · rintro v (⟨i, hi, h⟩ | h)
    · exact Or.inr (h ▸ hT i hi)
    · exact Or.inl h

/-- The variables of the output. -/
def Compress.IsOut (k : Compress p) (v : ℕ) : Prop := ∃ i < 8, ∃ j < 32, v = k.out i j

/-- The variables are allocated before the component; the output bits are 256 different variables, none of them an input. -/
structure Compress.WF (k : Compress p) : Prop where
  block : ∀ i < 16, ∀ j < 32, k.block i j < k.base ∧ ¬ k.IsOut (k.block i j)
  prev : ∀ i < 8, LWord.Uses (k.prev i) fun v => v < k.base ∧ ¬ k.IsOut v
  out : ∀ i < 8, ∀ j < 32, k.out i j ≠ 0 ∧ k.out i j < k.base
  inj : ∀ i < 8, ∀ j < 32, ∀ i' < 8, ∀ j' < 32, k.out i j = k.out i' j' → i = i' ∧ j = j'

namespace Compress
variable {k : Compress p}

/-- Variables of the block or of the previous output. -/
def Src (k : Compress p) (v : ℕ) : Prop := (∃ i < 16, ∃ j < 32, v = k.block i j) ∨ ∃ i < 8, ∃ j < 32, ∃ t ∈ k.prev i j, t.1 = v ∧ v ≠ 0

/-- Inputs. -/
def In (k : Compress p) (v : ℕ) : Prop := v < k.base ∧ ¬ k.IsOut v ∧ k.Src v

theorem WF.in_block (h : k.WF) {i j : ℕ} (hi : i < 16) (hj : j < 32) : k.In (k.block i j) :=
  ⟨(h.block i hi j hj).1, (h.block i hi j hj).2, Or.inl ⟨i, hi, j, hj, rfl⟩⟩

theorem WF.in_prev (h : k.WF) {i : ℕ} (hi : i < 8) : LWord.Uses (k.prev i) k.In := by
  intro j hj t ht
  rcases h.prev i hi j hj t ht with h0 | h0
  · exact Or.inl h0
  · by_cases hz : t.1 = 0
    · exact Or.inl hz
    · exact Or.inr ⟨h0.1, h0.2, Or.inr ⟨i, hi, j, hj, t, ht, rfl, hz⟩⟩

theorem WF.pos (h : k.WF) : k.base ≠ 0 := by have := h.out 0 (by norm_num) 0 (by norm_num); omega

/-- Variables that schedule step `i` may use, and those that it writes. -/
def sU (k : Compress p) (i v : ℕ) : Prop := k.In v ∨ k.base ≤ v ∧ v ≤ k.base + i ∨ k.base + 64 ≤ v ∧ v < k.sBase i + 152
def sT (k : Compress p) (i v : ℕ) : Prop := v = k.base + i ∨ k.sBase i ≤ v ∧ v < k.sBase i + 152

theorem wBits_use (h : k.WF) (t i j : ℕ) (ht : t < i) (hi : 16 ≤ i) (hj : j < 32) :
    k.In (k.wBits t j) ∨ k.base + 64 ≤ k.wBits t j ∧ k.wBits t j < k.sBase i := by
  unfold wBits
  split_ifs with h16
  · exact Or.inl (h.in_block h16 hj)
  · right
    unfold sBase
    omega

theorem sSteps_blk (h : k.WF) (i : ℕ) (h16 : 16 ≤ i) (hi : i < 64) : Blk (k.sSteps i) (k.sU i) (k.sT i) := by
  have h0 := h.pos
  have hs : k.sBase i = k.base + 64 + 152 * (i - 16) := rfl
  let R : ℕ → Prop := fun v => k.In v ∨ k.base + 64 ≤ v ∧ v < k.sBase i
  have hR : ∀ v, R v → v < k.sBase i ∧ v ≠ k.base + i := by
    rintro v (hv | hv)
    · have := hv.1; omega
    · omega
  have b0 := smallSigma_blk (p := p) (vars (k.wBits (i - 15))) (k.sig0 i) 7 18 3 (k.sBase i + 2) R
    (uses_vars fun j hj => wBits_use h _ _ _ (by omega) h16 hj) (by norm_num) (by omega) (by unfold sig0; omega) (by unfold sig0; omega)
    (fun v hv => by have := (hR v hv).1; unfold sig0; omega)
  have b1 := smallSigma_blk (p := p) (vars (k.wBits (i - 2))) (k.sig1 i) 17 19 10 (k.sBase i + 63) R
    (uses_vars fun j hj => wBits_use h _ _ _ (by omega) h16 hj) (by norm_num) (by omega) (by unfold sig1; omega) (by unfold sig1; omega)
    (fun v hv => by have := (hR v hv).1; unfold sig1; omega)
  have b2 := Blk.single (p := p) (v := k.unreducedW i)
    (f := fun s => val s (k.sig0 i) + val s (k.sig1 i) + val s (k.packedW (i - 16)) + val s (k.packedW (i - 7)))
    (R := fun v => v = k.sig0 i ∨ v = k.sig1 i ∨ k.base ≤ v ∧ v < k.base + i) (by unfold unreducedW; omega) (by
      intro s s' hs
      show _ + _ = _ + _
      rw [hs _ (Or.inl rfl), hs _ (Or.inr (Or.inl rfl)), hs (k.packedW (i - 16)) (Or.inr (Or.inr (by unfold packedW; omega))),
        hs (k.packedW (i - 7)) (Or.inr (Or.inr (by unfold packedW; omega)))]) (by unfold unreducedW sig0 sig1; omega)
  have wb : ∀ j, k.wBits i j = k.sBase i + 118 + j := fun j => by unfold wBits; rw [if_neg (by omega)]
  have b3 := lastbits_blk (p := p) (k.reduceW i) (fun v => k.sBase i + 118 ≤ v ∧ v < k.sBase i + 152) (by
      intro j hj
      have hj : j < 34 := hj
      show _ ≤ (if j < 32 then k.wBits i j else k.sBase i + 150 + (j - 32)) ∧ (if j < 32 then k.wBits i j else k.sBase i + 150 + (j - 32)) < _
      rw [wb]; split_ifs <;> omega) (by
      intro j hj j' hj' e
      have e : (if j < 32 then k.wBits i j else k.sBase i + 150 + (j - 32)) = (if j' < 32 then k.wBits i j' else k.sBase i + 150 + (j' - 32)) := e
      rw [wb, wb] at e
      split_ifs at e <;> omega) (by show 32 ≤ 34; norm_num) (by show k.packedW i ≠ 0; unfold packedW; omega) (by omega)
      (by show ¬ (_ ≤ k.unreducedW i ∧ _); unfold unreducedW; omega) (by show ¬ (_ ≤ k.packedW i ∧ _); unfold packedW; omega)
      (by show k.unreducedW i ≠ k.packedW i; unfold unreducedW packedW; omega)
  have e3 : ∀ v, (v = (k.reduceW i).X ↔ v = k.sBase i + 117) ∧ (v = (k.reduceW i).result ↔ v = k.base + i) := fun v => ⟨Iff.rfl, Iff.rfl⟩
  unfold unreducedW sig0 sig1 at b2
  unfold sig0 at b0
  unfold sig1 at b1
  refine (((b0.append b1 ?_).append b2 ?_).append b3 ?_).mono ?_ ?_
  · rintro v (hv | hv | hv) e
    · have := (hR v hv).1; omega
    · omega
    · omega
  · rintro v ((hv | hv | hv) | (hv | hv | hv)) e
    · have := (hR v hv).1; omega
    · omega
    · omega
    · have := (hR v hv).1; omega
    · omega
    · omega
  · rintro v (((hv | hv | hv) | (hv | hv | hv)) | (hv | hv)) e <;> rw [(e3 v).2] at e
    · have := hR v hv; omega
    · omega
    · omega
    · have := hR v hv; omega
    · omega
    · omega
    · omega
    · omega
  · rintro v ((((hv | hv | hv) | (hv | hv | hv)) | (hv | hv)) | (hv | hv | hv))
    · exact hv.imp id fun h => Or.inr (by omega)
    · exact Or.inr (Or.inr (by omega))
    · exact Or.inr (Or.inr (by omega))
    · exact hv.imp id fun h => Or.inr (by omega)
    · exact Or.inr (Or.inr (by omega))
    · exact Or.inr (Or.inr (by omega))
    · rcases hv with hv | hv | hv
      · exact Or.inr (Or.inr (by omega))
      · exact Or.inr (Or.inr (by omega))
      · exact Or.inr (Or.inl (by omega))
    · exact Or.inr (Or.inr (by omega))
    · rw [(e3 v).1] at hv; exact Or.inr (Or.inr (by omega))
    · rw [(e3 v).2] at hv; exact Or.inr (Or.inl (by omega))
    · exact Or.inr (Or.inr (by omega))
  · rintro v ((((hv | hv) | (hv | hv)) | hv) | (hv | hv))
    · exact Or.inr (by omega)
    · exact Or.inr (by omega)
    · exact Or.inr (by omega)
    · exact Or.inr (by omega)
    · exact Or.inr (by omega)
    · exact Or.inl hv
    · exact Or.inr (by omega)

/-- Variables of the schedule. -/
theorem schedule_blk (h : k.WF) : Blk k.scheduleSteps (fun v => k.In v ∨ k.base ≤ v ∧ v < k.rBase 0) (fun v => k.base ≤ v ∧ v < k.rBase 0) := by
  have h0 := h.pos
  have hr : k.rBase 0 = k.base + 64 + 152 * 48 := rfl
  have b1 := Blk.loop (p := p) (f := fun i => packStep (vars (k.wBits i)) (k.packedW i)) 16 (fun i v => k.In v ∨ v = k.base + i) (fun i v => v = k.base + i)
    (fun i hi => pack_blk (uses_vars fun j hj => by
        unfold wBits; rw [if_pos hi]; exact h.in_block hi hj) (by unfold packedW; omega) (fun e => by have := e.1; unfold packedW at this; omega))
    (by
      rintro i j hij hj v (hv | hv) e
      · have := hv.1; omega
      · omega)
  have b2 := Blk.loop (p := p) (f := fun i => k.sSteps (i + 16)) 48 (fun i => k.sU (i + 16)) (fun i => k.sT (i + 16))
    (fun i hi => sSteps_blk h (i + 16) (by omega) (by omega)) (by
      rintro i j hij hj v (hv | hv | hv) e
      · have := hv.1
        unfold sT sBase at e
        omega
      · unfold sT sBase at e
        omega
      · unfold sT at e
        unfold sBase at e hv
        omega)
  refine (b1.append b2 ?_).mono ?_ ?_
  · rintro v ⟨i, hi, hv⟩ ⟨j, hj, e⟩
    unfold sT sBase at e
    rcases hv with hv | hv
    · have := hv.1; omega
    · omega
  · rintro v (⟨i, hi, hv | hv⟩ | ⟨i, hi, hv | hv | hv⟩)
    · exact Or.inl hv
    · exact Or.inr (by omega)
    · exact Or.inl hv
    · exact Or.inr (by omega)
    · unfold sBase at hv
      exact Or.inr (by omega)
  · rintro v (⟨i, hi, hv⟩ | ⟨i, hi, hv | hv⟩)
    · omega
    · omega
    · unfold sBase at hv
      omega

/-- The words of a round use inputs and the variables of earlier rounds. -/
structure RegsUse (r : Regs p) (R : ℕ → Prop) : Prop where
  a : LWord.Uses r.a R
  b : LWord.Uses r.b R
  c : LWord.Uses r.c R
  d : LWord.Uses r.d R
  e : LWord.Uses r.e R
  f : LWord.Uses r.f R
  g : LWord.Uses r.g R
  h : LWord.Uses r.h R

theorem regs_use (h : k.WF) (i : ℕ) : RegsUse (k.regs i) (fun v => k.In v ∨ k.base ≤ v ∧ v < k.rBase i) := by
  induction i with
  | zero =>
    have hp : ∀ j < 8, LWord.Uses (k.prev j) (fun v => k.In v ∨ k.base ≤ v ∧ v < k.rBase 0) := fun j hj => (h.in_prev hj).mono fun v hv => Or.inl hv
    exact ⟨hp 0 (by norm_num), hp 1 (by norm_num), hp 2 (by norm_num), hp 3 (by norm_num), hp 4 (by norm_num), hp 5 (by norm_num), hp 6 (by norm_num),
      hp 7 (by norm_num)⟩
  | succ i ih =>
    have e0 : k.rBase i = k.base + 64 + 152 * 48 + 272 * i := rfl
    have e1 : k.rBase (i + 1) = k.rBase i + 272 := by unfold rBase; omega
    have m : ∀ v, (k.In v ∨ k.base ≤ v ∧ v < k.rBase i) → (k.In v ∨ k.base ≤ v ∧ v < k.rBase (i + 1)) := fun v hv => hv.imp id fun h => by omega
    exact ⟨uses_vars fun j hj => Or.inr (by unfold newA; omega), ih.a.mono m, ih.b.mono m, ih.c.mono m,
      uses_vars fun j hj => Or.inr (by unfold newE; omega), ih.e.mono m, ih.f.mono m, ih.g.mono m⟩

theorem rSteps_blk (h : k.WF) (i : ℕ) (hi : i < 64) :
    Blk (k.rSteps i) (fun v => k.In v ∨ k.base ≤ v ∧ v < k.rBase i + 272) (fun v => k.rBase i ≤ v ∧ v < k.rBase i + 272) := by
  have h0 := h.pos
  have hs : k.rBase i = k.base + 64 + 152 * 48 + 272 * i := rfl
  have u := regs_use h i
  have hR : ∀ v, (k.In v ∨ k.base ≤ v ∧ v < k.rBase i) → v < k.rBase i := by
    rintro v (hv | hv)
    · have := hv.1; omega
    · omega
  have b0 := bigSigma_blk (k.regs i).a (k.rSig0 i) 2 13 22 (k.rBase i + 66) _ u.a (by omega) (by unfold rSig0; omega) (by unfold rSig0; omega)
    (fun v hv => by have := hR v hv; unfold rSig0; omega)
  have b1 := bigSigma_blk (k.regs i).e (k.rSig1 i) 6 11 25 (k.rBase i + 130) _ u.e (by omega) (by unfold rSig1; omega) (by unfold rSig1; omega)
    (fun v hv => by have := hR v hv; unfold rSig1; omega)
  have b2 := (ter_blk (k.rCompCh i) _ u.e u.f u.g (by show k.rBase i + 195 ≠ 0; omega) (by show k.rCh i ≠ 0; unfold rCh; omega)
    (by show k.rCh i < k.rBase i + 195 ∨ _; unfold rCh; omega)
    (fun v hv => by have := hR v hv; show v ≠ k.rCh i ∧ (v < k.rBase i + 195 ∨ _); unfold rCh; omega)).1
  have b3 := (ter_blk (k.rCompMaj i) _ u.a u.b u.c (by show k.rBase i + 228 ≠ 0; omega) (by show k.rMaj i ≠ 0; unfold rMaj; omega)
    (by show k.rMaj i < k.rBase i + 228 ∨ _; unfold rMaj; omega)
    (fun v hv => by have := hR v hv; show v ≠ k.rMaj i ∧ (v < k.rBase i + 228 ∨ _); unfold rMaj; omega)).2
  have b4 := pack_blk u.d (v := k.packedD i) (by unfold packedD; omega) (fun hv => by have := hR _ hv; unfold packedD at this; omega)
  have b5 := pack_blk u.h (v := k.packedH i) (by unfold packedH; omega) (fun hv => by have := hR _ hv; unfold packedH at this; omega)
  let Q : ℕ → Prop := fun v => k.base ≤ v ∧ v < k.rBase i + 262 ∧ (v < k.rBase i ∨ k.rBase i + 64 ≤ v)
  have b6 := Blk.single (p := p) (v := k.unreducedA i)
    (f := fun s => val s (k.packedH i) + val s (k.rSig1 i) + val s (k.rCh i) + K i + val s (k.packedW i) + val s (k.rSig0 i) + val s (k.rMaj i))
    (R := Q) (by unfold unreducedA; omega) (by
      intro s s' hs
      show _ + _ = _ + _
      rw [hs (k.packedH i) (by unfold packedH; refine ⟨?_, ?_, ?_⟩ <;> omega), hs (k.rSig1 i) (by unfold rSig1; refine ⟨?_, ?_, ?_⟩ <;> omega),
        hs (k.rCh i) (by unfold rCh; refine ⟨?_, ?_, ?_⟩ <;> omega), hs (k.packedW i) (by unfold packedW; refine ⟨?_, ?_, ?_⟩ <;> omega),
        hs (k.rSig0 i) (by unfold rSig0; refine ⟨?_, ?_, ?_⟩ <;> omega), hs (k.rMaj i) (by unfold rMaj; refine ⟨?_, ?_, ?_⟩ <;> omega)])
    (by unfold unreducedA; rintro ⟨-, hq, -⟩; omega)
  have b7 := Blk.single (p := p) (v := k.unreducedE i)
    (f := fun s => val s (k.packedD i) + val s (k.packedH i) + val s (k.rSig1 i) + val s (k.rCh i) + K i + val s (k.packedW i))
    (R := Q) (by unfold unreducedE; omega) (by
      intro s s' hs
      show _ + _ = _ + _
      rw [hs (k.packedD i) (by unfold packedD; refine ⟨?_, ?_, ?_⟩ <;> omega), hs (k.packedH i) (by unfold packedH; refine ⟨?_, ?_, ?_⟩ <;> omega),
        hs (k.rSig1 i) (by unfold rSig1; refine ⟨?_, ?_, ?_⟩ <;> omega), hs (k.rCh i) (by unfold rCh; refine ⟨?_, ?_, ?_⟩ <;> omega),
        hs (k.packedW i) (by unfold packedW; refine ⟨?_, ?_, ?_⟩ <;> omega)])
    (by unfold unreducedE; rintro ⟨-, hq, -⟩; omega)
  have b8 := lastbits_blk (p := p) (k.reduceA i) (fun v => k.rBase i ≤ v ∧ v < k.rBase i + 32 ∨ k.rBase i + 266 ≤ v ∧ v < k.rBase i + 269) (by
      intro j hj
      have hj : j < 35 := hj
      show (_ ≤ (if j < 32 then k.rBase i + j else k.rBase i + 266 + (j - 32)) ∧ (if j < 32 then k.rBase i + j else k.rBase i + 266 + (j - 32)) < _) ∨
        (_ ≤ (if j < 32 then k.rBase i + j else k.rBase i + 266 + (j - 32)) ∧ (if j < 32 then k.rBase i + j else k.rBase i + 266 + (j - 32)) < _)
      split_ifs <;> omega) (by
      intro j hj j' hj' e
      have hj : j < 35 := hj
      have hj' : j' < 35 := hj'
      have e : (if j < 32 then k.rBase i + j else k.rBase i + 266 + (j - 32)) = (if j' < 32 then k.rBase i + j' else k.rBase i + 266 + (j' - 32)) := e
      split_ifs at e <;> omega) (by show 32 ≤ 35; norm_num) (by show k.packedA i ≠ 0; unfold packedA; omega) (by omega)
      (by show ¬ (k.rBase i ≤ k.unreducedA i ∧ k.unreducedA i < k.rBase i + 32 ∨ k.rBase i + 266 ≤ k.unreducedA i ∧ k.unreducedA i < k.rBase i + 269); unfold unreducedA; omega) (by show ¬ (k.rBase i ≤ k.packedA i ∧ k.packedA i < k.rBase i + 32 ∨ k.rBase i + 266 ≤ k.packedA i ∧ k.packedA i < k.rBase i + 269); unfold packedA; omega)
      (by show k.unreducedA i ≠ k.packedA i; unfold unreducedA packedA; omega)
  have b9 := lastbits_blk (p := p) (k.reduceE i) (fun v => k.rBase i + 32 ≤ v ∧ v < k.rBase i + 64 ∨ k.rBase i + 269 ≤ v ∧ v < k.rBase i + 272) (by
      intro j hj
      have hj : j < 35 := hj
      show (_ ≤ (if j < 32 then k.rBase i + 32 + j else k.rBase i + 269 + (j - 32)) ∧ (if j < 32 then k.rBase i + 32 + j else k.rBase i + 269 + (j - 32)) < _) ∨
        (_ ≤ (if j < 32 then k.rBase i + 32 + j else k.rBase i + 269 + (j - 32)) ∧ (if j < 32 then k.rBase i + 32 + j else k.rBase i + 269 + (j - 32)) < _)
      split_ifs <;> omega) (by
      intro j hj j' hj' e
      have hj : j < 35 := hj
      have hj' : j' < 35 := hj'
      have e : (if j < 32 then k.rBase i + 32 + j else k.rBase i + 269 + (j - 32)) = (if j' < 32 then k.rBase i + 32 + j' else k.rBase i + 269 + (j' - 32)) := e
      split_ifs at e <;> omega) (by show 32 ≤ 35; norm_num) (by show k.packedE i ≠ 0; unfold packedE; omega) (by omega)
      (by show ¬ (k.rBase i + 32 ≤ k.unreducedE i ∧ k.unreducedE i < k.rBase i + 64 ∨ k.rBase i + 269 ≤ k.unreducedE i ∧ k.unreducedE i < k.rBase i + 272); unfold unreducedE; omega) (by show ¬ (k.rBase i + 32 ≤ k.packedE i ∧ k.packedE i < k.rBase i + 64 ∨ k.rBase i + 269 ≤ k.packedE i ∧ k.packedE i < k.rBase i + 272); unfold packedE; omega)
      (by show k.unreducedE i ≠ k.packedE i; unfold unreducedE packedE; omega)
  -- every block in terms of numbers: what is below the round, and which part of the round
  let B : ℕ → Prop := fun v => k.In v ∨ k.base ≤ v ∧ v < k.rBase i
  have bB : ∀ v, B v → v < k.rBase i := hR
  have c0 : Blk (k.rComp0 i).steps (fun v => B v ∨ k.rBase i + 64 ≤ v ∧ v < k.rBase i + 130 ∧ v ≠ k.rBase i + 65)
      (fun v => k.rBase i + 64 ≤ v ∧ v < k.rBase i + 130 ∧ v ≠ k.rBase i + 65) := by
    unfold rSig0 at b0
    refine b0.mono ?_ ?_
    · rintro v (hv | hv | hv)
      · exact Or.inl hv
      · exact Or.inr (by omega)
      · exact Or.inr (by omega)
    · rintro v (hv | hv) <;> omega
  have c1 : Blk (k.rComp1 i).steps (fun v => B v ∨ v = k.rBase i + 65 ∨ k.rBase i + 130 ≤ v ∧ v < k.rBase i + 194)
      (fun v => v = k.rBase i + 65 ∨ k.rBase i + 130 ≤ v ∧ v < k.rBase i + 194) := by
    unfold rSig1 at b1
    exact b1
  have c2 : Blk (k.rCompCh i).chSteps (fun v => B v ∨ k.rBase i + 194 ≤ v ∧ v < k.rBase i + 227) (fun v => k.rBase i + 194 ≤ v ∧ v < k.rBase i + 227) := by
    refine b2.mono ?_ ?_
    · rintro v (hv | hv | hv)
      · exact Or.inl hv
      · have hv : v = k.rBase i + 194 := hv
        exact Or.inr (by omega)
      · have hv : k.rBase i + 195 ≤ v ∧ v < k.rBase i + 195 + 32 := hv
        exact Or.inr (by omega)
    · rintro v (hv | hv)
      · have hv : v = k.rBase i + 194 := hv
        omega
      · have hv : k.rBase i + 195 ≤ v ∧ v < k.rBase i + 195 + 32 := hv
        omega
  have c3 : Blk (k.rCompMaj i).majSteps (fun v => B v ∨ k.rBase i + 227 ≤ v ∧ v < k.rBase i + 260) (fun v => k.rBase i + 227 ≤ v ∧ v < k.rBase i + 260) := by
    refine b3.mono ?_ ?_
    · rintro v (hv | hv | hv)
      · exact Or.inl hv
      · have hv : v = k.rBase i + 227 := hv
        exact Or.inr (by omega)
      · have hv : k.rBase i + 228 ≤ v ∧ v < k.rBase i + 228 + 32 := hv
        exact Or.inr (by omega)
    · rintro v (hv | hv)
      · have hv : v = k.rBase i + 227 := hv
        omega
      · have hv : k.rBase i + 228 ≤ v ∧ v < k.rBase i + 228 + 32 := hv
        omega
  unfold packedD at b4
  unfold packedH at b5
  have c67 : Blk (p := p) [(k.unreducedA i, fun s => val s (k.packedH i) + val s (k.rSig1 i) + val s (k.rCh i) + K i + val s (k.packedW i) + val s (k.rSig0 i) + val s (k.rMaj i)),
      (k.unreducedE i, fun s => val s (k.packedD i) + val s (k.packedH i) + val s (k.rSig1 i) + val s (k.rCh i) + K i + val s (k.packedW i))]
      (fun v => k.base ≤ v ∧ v < k.rBase i + 264 ∧ (v < k.rBase i ∨ k.rBase i + 64 ≤ v)) (fun v => k.rBase i + 262 ≤ v ∧ v < k.rBase i + 264) := by
    unfold unreducedA at b6 ⊢
    unfold unreducedE at b7 ⊢
    refine (b6.append b7 ?_).mono ?_ ?_
    · rintro v (⟨-, hv, -⟩ | hv) e <;> omega
    · rintro v ((⟨hv, hv', hv''⟩ | hv) | (⟨hv, hv', hv''⟩ | hv)) <;> refine ⟨?_, ?_, ?_⟩ <;> omega
    · rintro v (hv | hv) <;> omega
  have c8 : Blk (p := p) (k.reduceA i).steps (fun v => v = k.rBase i + 262 ∨ v = k.rBase i + 264 ∨ (k.rBase i ≤ v ∧ v < k.rBase i + 32 ∨ k.rBase i + 266 ≤ v ∧ v < k.rBase i + 269))
      (fun v => v = k.rBase i + 264 ∨ (k.rBase i ≤ v ∧ v < k.rBase i + 32 ∨ k.rBase i + 266 ≤ v ∧ v < k.rBase i + 269)) := b8
  have c9 : Blk (p := p) (k.reduceE i).steps (fun v => v = k.rBase i + 263 ∨ v = k.rBase i + 265 ∨ (k.rBase i + 32 ≤ v ∧ v < k.rBase i + 64 ∨ k.rBase i + 269 ≤ v ∧ v < k.rBase i + 272))
      (fun v => v = k.rBase i + 265 ∨ (k.rBase i + 32 ≤ v ∧ v < k.rBase i + 64 ∨ k.rBase i + 269 ≤ v ∧ v < k.rBase i + 272)) := b9
  clear b0 b1 b2 b3 b6 b7 b8 b9 u
  -- the new words are neither read nor written before the reduction
  have d1 : Blk ((k.rComp0 i).steps ++ (k.rComp1 i).steps) (fun v => B v ∨ k.rBase i + 64 ≤ v ∧ v < k.rBase i + 194) (fun v => k.rBase i + 64 ≤ v ∧ v < k.rBase i + 194) := by
    refine (c0.append c1 ?_).mono ?_ ?_
    · rintro v (hv | hv) e
      · have := bB v hv; omega
      · omega
    · rintro v ((hv | hv) | (hv | hv))
      · exact Or.inl hv
      · exact Or.inr (by omega)
      · exact Or.inl hv
      · exact Or.inr (by omega)
    · rintro v (hv | hv) <;> omega
  have step : ∀ (l m : List (Step (ZMod p))) (a b : ℕ), 64 ≤ a → a ≤ b → Blk l (fun v => B v ∨ k.rBase i + 64 ≤ v ∧ v < k.rBase i + a) (fun v => k.rBase i + 64 ≤ v ∧ v < k.rBase i + a) →
      Blk m (fun v => B v ∨ k.rBase i + a ≤ v ∧ v < k.rBase i + b) (fun v => k.rBase i + a ≤ v ∧ v < k.rBase i + b) →
      Blk (l ++ m) (fun v => B v ∨ k.rBase i + 64 ≤ v ∧ v < k.rBase i + b) (fun v => k.rBase i + 64 ≤ v ∧ v < k.rBase i + b) := by
    intro l m a b ha hab hl hm
    refine (hl.append hm ?_).mono ?_ ?_
    · rintro v (hv | hv) e
      · have := bB v hv; omega
      · omega
    · rintro v ((hv | hv) | (hv | hv))
      · exact Or.inl hv
      · exact Or.inr (by omega)
      · exact Or.inl hv
      · exact Or.inr (by omega)
    · rintro v (hv | hv) <;> omega
  have d2 := step _ _ 194 227 (by norm_num) (by norm_num) d1 c2
  have d3 := step _ _ 227 260 (by norm_num) (by norm_num) d2 c3
  have d4 := step _ _ 260 261 (by norm_num) (by norm_num) d3 (b4.mono (fun v hv => hv.imp id fun h => by omega) (fun v hv => by omega))
  have d5 := step _ _ 261 262 (by norm_num) (by norm_num) d4 (b5.mono (fun v hv => hv.imp id fun h => by omega) (fun v hv => by omega))
  have d6 := (d5.append c67 (by
    rintro v (hv | hv) e
    · have := bB v hv; omega
    · omega)).mono (U' := fun v => B v ∨ k.rBase i + 64 ≤ v ∧ v < k.rBase i + 264) (T' := fun v => k.rBase i + 64 ≤ v ∧ v < k.rBase i + 264) (by
      rintro v ((hv | hv) | hv)
      · exact Or.inl hv
      · exact Or.inr (by omega)
      · rcases hv.2.2 with hlt | hlt
        · exact Or.inl (Or.inr ⟨hv.1, hlt⟩)
        · exact Or.inr (by omega)) (by rintro v (hv | hv) <;> omega)
  refine ((d6.append c8 ?_).append c9 ?_).mono ?_ ?_
  · rintro v (hv | hv) e
    · have := bB v hv; omega
    · omega
  · rintro v ((hv | hv) | hv) e
    · have := bB v hv; omega
    · omega
    · omega
  · rintro v (((hv | hv) | hv) | hv)
    · exact hv.imp id fun h => by omega
    · exact Or.inr (by omega)
    · exact Or.inr (by omega)
    · exact Or.inr (by omega)
  · rintro v ((hv | hv) | hv) <;> omega

theorem steps_blk (h : k.WF) : Blk k.steps (fun v => k.In v ∨ k.IsOut v ∨ k.base ≤ v ∧ v < k.base + size)
    (fun v => k.IsOut v ∨ k.base ≤ v ∧ v < k.base + size) := by
  unfold size
  have h0 := h.pos
  have hr : ∀ i, k.rBase i = k.base + 64 + 152 * 48 + 272 * i := fun i => rfl
  have ho : k.oBase = k.base + 64 + 152 * 48 + 272 * 64 := rfl
  have b1 := schedule_blk h
  have b2 := Blk.loop (p := p) (f := k.rSteps) 64 _ _ (fun i hi => rSteps_blk h i hi) (by
    rintro i j hij hj v (hv | hv) e
    · have := hv.1; have := hr j; omega
    · have := hr i; have := hr j; omega)
  have b3 := Blk.loop (p := p) (f := k.sumSteps) 4 (fun i v => k.base ≤ v ∧ v < k.oBase ∨ v = k.oBase + i ∨ v = k.oBase + 4 + i)
    (fun i v => v = k.oBase + i ∨ v = k.oBase + 4 + i) (fun i hi => by
      have q1 := Blk.single (p := p) (v := k.unreducedOut i) (f := fun s => val s (k.packedD (3 - i)) + val s (k.packedA (63 - i)))
        (R := fun v => k.base ≤ v ∧ v < k.oBase) (by unfold unreducedOut; omega) (by
          intro s s' hs
          show _ + _ = _ + _
          rw [hs (k.packedD (3 - i)) (by unfold packedD rBase; omega), hs (k.packedA (63 - i)) (by unfold packedA rBase; omega)])
        (by unfold unreducedOut; omega)
      have q2 := Blk.single (p := p) (v := k.unreducedOut (4 + i)) (f := fun s => val s (k.packedH (3 - i)) + val s (k.packedE (63 - i)))
        (R := fun v => k.base ≤ v ∧ v < k.oBase) (by unfold unreducedOut; omega) (by
          intro s s' hs
          show _ + _ = _ + _
          rw [hs (k.packedH (3 - i)) (by unfold packedH rBase; omega), hs (k.packedE (63 - i)) (by unfold packedE rBase; omega)])
        (by unfold unreducedOut; omega)
      refine (q1.append q2 ?_).mono ?_ ?_ <;> unfold unreducedOut
      · rintro v (hv | hv) e <;> omega
      · rintro v ((hv | hv) | (hv | hv)) <;> omega
      · rintro v (hv | hv) <;> omega) (by
      rintro i j hij hj v (hv | hv | hv) e <;> omega)
  have b4 := Blk.loop (p := p) (f := fun i => (k.reduceOut i).steps) 8
    (fun i v => v = k.oBase + i ∨ v = k.oBase + 8 + i ∨ ((∃ j < 32, v = k.out i j) ∨ v = k.oBase + 16 + i))
    (fun i v => v = k.oBase + 8 + i ∨ ((∃ j < 32, v = k.out i j) ∨ v = k.oBase + 16 + i)) (fun i hi => by
      refine lastbits_blk (p := p) (k.reduceOut i) (fun v => (∃ j < 32, v = k.out i j) ∨ v = k.oBase + 16 + i) ?_ ?_ (by show 32 ≤ 33; norm_num)
        (by show k.reducedOut i ≠ 0; unfold reducedOut; omega) ?_ ?_ ?_ (by show k.unreducedOut i ≠ k.reducedOut i; unfold unreducedOut reducedOut; omega)
      · intro j hj
        have hj : j < 33 := hj
        by_cases h32 : j < 32
        · rw [if_pos h32]; exact Or.inl ⟨j, h32, rfl⟩
        · rw [if_neg h32]; right; show k.oBase + 16 + i + (j - 32) = _; omega
      · intro j hj j' hj' e
        have hj : j < 33 := hj
        have hj' : j' < 33 := hj'
        have e : (if j < 32 then k.out i j else k.oBase + 16 + i + (j - 32)) = (if j' < 32 then k.out i j' else k.oBase + 16 + i + (j' - 32)) := e
        split_ifs at e with q1 q2 q2
        · exact (h.inj i hi j q1 i hi j' q2 e).2
        · have := (h.out i hi j q1).2; omega
        · have := (h.out i hi j' q2).2; omega
        · omega
      · rintro (⟨j, hj, e⟩ | e)
        · exact (h.out i hi j hj).1 e.symm
        · omega
      · rintro (⟨j, hj, e⟩ | e)
        · have e : k.oBase + i = k.out i j := e
          have := (h.out i hi j hj).2
          omega
        · have e : k.oBase + i = k.oBase + 16 + i := e
          omega
      · rintro (⟨j, hj, e⟩ | e)
        · have e : k.oBase + 8 + i = k.out i j := e
          have := (h.out i hi j hj).2
          omega
        · have e : k.oBase + 8 + i = k.oBase + 16 + i := e
          omega) (by
      rintro i j hij hj v hv e
      rcases hv with hv | hv | ⟨j1, hj1, hv⟩ | hv <;> rcases e with e | ⟨j2, hj2, e⟩ | e
      · omega
      · have := (h.out j hj j2 hj2).2; omega
      · omega
      · omega
      · have := (h.out j hj j2 hj2).2; omega
      · omega
      · have := (h.out i (by omega) j1 hj1).2; omega
      · have := (h.inj i (by omega) j1 hj1 j hj j2 hj2 (hv.symm.trans e)).1; omega
      · have := (h.out i (by omega) j1 hj1).2; omega
      · omega
      · have := (h.out j hj j2 hj2).2; omega
      · omega)
  refine (((b1.append b2 ?_).append b3 ?_).append b4 ?_).mono ?_ ?_
  · rintro v (hv | hv) ⟨j, hj, e⟩
    · have := hv.1; have := hr j; omega
    · have := hr j; have := hr 0; omega
  · rintro v ((hv | hv) | ⟨i, hi, hv | hv⟩) ⟨j, hj, e⟩
    · have := hv.1; omega
    · have := hr 0; omega
    · have := hv.1; omega
    · have := hr i; omega
  · rintro v (((hv | hv) | ⟨i, hi, hv | hv⟩) | ⟨i, hi, hv⟩) ⟨j, hj, e⟩
    · rcases e with e | ⟨j2, hj2, e⟩ | e
      · have := hv.1; omega
      · exact hv.2.1 ⟨j, hj, j2, hj2, e⟩
      · have := hv.1; omega
    · have := hr 0
      rcases e with e | ⟨j2, hj2, e⟩ | e
      · omega
      · have := (h.out j hj j2 hj2).2; omega
      · omega
    · rcases e with e | ⟨j2, hj2, e⟩ | e
      · have := hv.1; omega
      · exact hv.2.1 ⟨j, hj, j2, hj2, e⟩
      · have := hv.1; omega
    · have := hr i
      rcases e with e | ⟨j2, hj2, e⟩ | e
      · omega
      · have := (h.out j hj j2 hj2).2; omega
      · omega
    · rcases e with e | ⟨j2, hj2, e⟩ | e
      · omega
      · have := (h.out j hj j2 hj2).2; omega
      · omega
  · rintro v ((((hv | hv) | ⟨i, hi, hv | hv⟩) | ⟨i, hi, hv⟩) | ⟨i, hi, hv | hv | ⟨j, hj, hv⟩ | hv⟩)
    · exact Or.inl hv
    · have := hr 0; exact Or.inr (Or.inr (by omega))
    · exact Or.inl hv
    · have := hr i; exact Or.inr (Or.inr (by omega))
    · exact Or.inr (Or.inr (by omega))
    · exact Or.inr (Or.inr (by omega))
    · exact Or.inr (Or.inr (by omega))
    · exact Or.inr (Or.inl ⟨i, hi, j, hj, hv⟩)
    · exact Or.inr (Or.inr (by omega))
  · rintro v (((hv | ⟨i, hi, hv⟩) | ⟨i, hi, hv⟩) | ⟨i, hi, hv | ⟨j, hj, hv⟩ | hv⟩)
    · have := hr 0; exact Or.inr (by omega)
    · have := hr i; exact Or.inr (by omega)
    · exact Or.inr (by omega)
    · exact Or.inr (by omega)
    · exact Or.inl ⟨i, hi, j, hj, hv⟩
    · exact Or.inr (by omega)

/-- The assignment leaves everything else unchanged. -/
theorem assign_keep (h : k.WF) (s : Asg (ZMod p)) {v : ℕ} (hv : v < k.base) (ho : ¬ k.IsOut v) : val (k.assign s) v = val s v :=
  run_keep _ s (steps_blk h).writes (by rintro (e | e); exacts [ho e, by omega])

end Compress

/-- If the equations of the assignment hold, so do the constraints. -/
theorem compress_eqs (k : Compress p) (s : Asg (ZMod p)) (hp' : 2 ^ 35 ≤ p) (u : State) (m : ℕ → Word)
    (hu : ∀ i < 8, WordIs s (k.prev i) (u.get i)) (hm : ∀ i < 16, WordIs s (vars (k.block i)) (m i)) (he : Eqs s k.steps) : Sat s k.gates := by
  simp only [Compress.steps, eqs_append, eqs_flatMap, List.mem_range] at he
  obtain ⟨⟨⟨e1, e2⟩, e3⟩, e4⟩ := he
  have c1 := sched_complete k _ hp' m hm e1
  have hsch := sched_sound k _ hp' m hm c1
  have h0 : RegsAre s (k.regs 0) u := ⟨hu 0 (by norm_num), hu 1 (by norm_num), hu 2 (by norm_num), hu 3 (by norm_num), hu 4 (by norm_num),
    hu 5 (by norm_num), hu 6 (by norm_num), hu 7 (by norm_num)⟩
  have hregs : ∀ i ≤ 64, RegsAre s (k.regs i) (rounds (schedule m) u i) := by
    intro i
    induction i with
    | zero => intro _; exact h0
    | succ i ih =>
      intro hi
      have r := ih (by omega)
      have w := (hsch i (by omega)).2
      exact (round_step k _ hp' i _ _ r w (round_complete k _ hp' i _ _ r w (e2 i (by omega)))).regs
  have c2 : ∀ i < 64, Sat s (k.rGates i) := fun i hi => round_complete k _ hp' i _ _ (hregs i (by omega)) (hsch i hi).2 (e2 i hi)
  have c3 : ∀ i < 4, Sat s (k.sumGates i) := by
    intro i hi
    have := e3 i hi
    simp only [Compress.sumSteps, eqs_cons] at this
    simp only [Compress.sumGates, sat_cons, sat_nil, and_true, Constraint.Holds, eval_const, one_mul, eval_add, eval_var]
    exact ⟨this.1.symm, this.2.1.symm⟩
  have hout := output_sums k _ hp' u m h0 hsch c2 c3
  simp only [Compress.gates, sat_append, sat_flatMap, List.mem_range]
  refine ⟨⟨⟨c1, c2⟩, c3⟩, fun i hi => ?_⟩
  exact lastbits_complete (k.reduceOut i) _ (by show 32 ≤ 33; norm_num) (le_trans (by norm_num [Compress.reduceOut]) hp') _ (add_lt _ _) (hout i hi) (e4 i hi)

/-- The assignment satisfies the constraints for every block and every previous output. -/
theorem compress_complete (k : Compress p) (h : k.WF) (s : Asg (ZMod p)) (hp' : 2 ^ 35 ≤ p) (u : State) (m : ℕ → Word)
    (hu : ∀ i < 8, WordIs s (k.prev i) (u.get i)) (hm : ∀ i < 16, WordIs s (vars (k.block i)) (m i)) : Sat (k.assign s) k.gates := by
  have hkeep : ∀ v, v < k.base ∧ ¬ k.IsOut v → val (k.assign s) v = val s v := fun v hv => Compress.assign_keep h s hv.1 hv.2
  have hu' : ∀ i < 8, WordIs (k.assign s) (k.prev i) (u.get i) := by
    intro i hi j hj
    rw [eval_agree (h.prev i hi j hj) hkeep]
    exact hu i hi j hj
  have hm' : ∀ i < 16, WordIs (k.assign s) (vars (k.block i)) (m i) := by
    intro i hi j hj
    rw [vars, eval_var, hkeep _ (h.block i hi j hj)]
    have := hm i hi j hj
    rwa [vars, eval_var] at this
  exact compress_eqs k _ hp' u m hu' hm' (run_eq _ (Compress.steps_blk h).ssa s)

end
end Sha
end R1cs
end Verif
