import Verif.Model.KimchiSponge
import Verif.Props.Poseidon
import Verif.Props.Limbs
import Verif.Props.Arith
import Verif.Core.Primality

/-!
# C149: the sponge of kimchi, C150: the transcripts, C151: `random`
-/

set_option linter.unusedSimpArgs false
set_option linter.unusedVariables false
set_option linter.unusedSectionVars false

namespace Verif
namespace KimchiSponge
open Kimchi (c3 c15)
variable {p : ℕ} [Fact p.Prime]

/-! ### Specification

A duplex sponge of rate 2 with state of three field elements, `oracle/src/poseidon.rs` and `oracle/src/sponge.rs` of proof-systems. -/

/-- `ArithmeticSponge`: the state, whether the last action was an absorption, and how many of the two rate elements are used. -/
structure VSponge (F : Type*) where
  absorbing : Bool
  used : ℕ
  s : Fin 3 → F

/-- A new sponge. -/
def VSponge.new {F : Type*} [Field F] : VSponge F := ⟨true, 0, fun _ => 0⟩

/-- Add `a` to one place of the state. -/
def addAt {F : Type*} [Field F] (s : Fin 3 → F) (i : Fin 3) (a : F) : Fin 3 → F := fun j => if j = i then s j + a else s j

/-- Absorb one element. -/
def VSponge.absorb {F : Type*} [Field F] (π : (Fin 3 → F) → Fin 3 → F) (v : VSponge F) (a : F) : VSponge F :=
  match v.absorbing, v.used with
  | true, 0 => ⟨true, 1, addAt v.s 0 a⟩
  | true, 1 => ⟨true, 2, addAt v.s 1 a⟩
  | true, _ => ⟨true, 1, addAt (π v.s) 0 a⟩
  | false, _ => ⟨true, 1, addAt v.s 0 a⟩

/-- Squeeze one element. -/
def VSponge.squeeze {F : Type*} [Field F] (π : (Fin 3 → F) → Fin 3 → F) (v : VSponge F) : VSponge F × F :=
  match v.absorbing, v.used with
  | false, 1 => (⟨false, 2, v.s⟩, v.s 1)
  | _, _ => (⟨false, 1, π v.s⟩, π v.s 0)

/-- What the user does, with values. -/
inductive VAct (F : Type*)
  | absorb (a : F)
  | squeeze
  | challenge

/-- The low 128 bits. -/
def low128 (a : ZMod p) : ZMod p := ((a.val % 2 ^ 128 : ℕ) : ZMod p)

/-- One action: new sponge, outputs. -/
def VSponge.act (π : (Fin 3 → ZMod p) → Fin 3 → ZMod p) (v : VSponge (ZMod p)) : VAct (ZMod p) → VSponge (ZMod p) × List (ZMod p)
  | .absorb a => (v.absorb π a, [])
  | .squeeze => ((v.squeeze π).1, [(v.squeeze π).2])
  | .challenge => ((v.squeeze π).1, [low128 (v.squeeze π).2])

/-- A sequence of actions. -/
def VSponge.run (π : (Fin 3 → ZMod p) → Fin 3 → ZMod p) : VSponge (ZMod p) → List (VAct (ZMod p)) → VSponge (ZMod p) × List (ZMod p)
  | v, [] => (v, [])
  | v, a :: as => let r := v.act π a; let q := r.1.run π as; (q.1, r.2 ++ q.2)

/-! The same by blocks. -/

/-- Absorb a list: two elements at a time, a permutation between two blocks. -/
def absorbList {F : Type*} [Field F] (π : (Fin 3 → F) → Fin 3 → F) : (Fin 3 → F) → List F → Fin 3 → F
  | s, [] => s
  | s, [a] => addAt s 0 a
  | s, [a, b] => addAt (addAt s 0 a) 1 b
  | s, a :: b :: c :: l => absorbList π (π (addAt (addAt s 0 a) 1 b)) (c :: l)

/-- Rounds of absorbing a list and squeezing `k` elements: output `i` is element `i % 2` of the state after `i / 2 + 1` permutations. -/
def roundsOut {F : Type*} [Field F] (π : (Fin 3 → F) → Fin 3 → F) : (Fin 3 → F) → List (List F × ℕ) → List F
  | _, [] => []
  | s, (xs, k) :: l =>
    (List.range k).map (fun i => (π^[i / 2 + 1] (absorbList π s xs)) (if i % 2 = 0 then 0 else 1)) ++
      roundsOut π (π^[(k - 1) / 2 + 1] (absorbList π s xs)) l

/-- The actions of the rounds. -/
def roundsActs {F : Type*} (l : List (List F × ℕ)) : List (VAct F) := l.flatMap fun r => r.1.map .absorb ++ List.replicate r.2 .squeeze

theorem VSponge.run_append (π : (Fin 3 → ZMod p) → Fin 3 → ZMod p) (v : VSponge (ZMod p)) (l l' : List (VAct (ZMod p))) :
    v.run π (l ++ l') = ((((v.run π l).1).run π l').1, (v.run π l).2 ++ (((v.run π l).1).run π l').2) := by
  induction l generalizing v with
  | nil => rfl
  | cons a l ih => simp only [List.cons_append, VSponge.run, ih, List.append_assoc]

/-- Ready for a new round: nothing absorbed since the last permutation. -/
def VSponge.Fresh (v : VSponge (ZMod p)) : Prop := v.absorbing = false ∨ (v.absorbing = true ∧ v.used = 0)

theorem absorb_run (π : (Fin 3 → ZMod p) → Fin 3 → ZMod p) : ∀ (n : ℕ) (xs : List (ZMod p)), xs.length ≤ n → xs ≠ [] → ∀ v : VSponge (ZMod p), v.Fresh →
    ∃ u, v.run π (xs.map .absorb) = (⟨true, u, absorbList π v.s xs⟩, []) ∧ (u = 1 ∨ u = 2) := by
  have two : ∀ (s : Fin 3 → ZMod p) (l : List (ZMod p)), ∀ n, l.length ≤ n → l ≠ [] → ∀ a b, ∃ u,
      (⟨true, 2, addAt (addAt s 0 a) 1 b⟩ : VSponge (ZMod p)).run π (l.map .absorb) = (⟨true, u, absorbList π s (a :: b :: l)⟩, []) ∧ (u = 1 ∨ u = 2) := by
    intro s l n
    induction n using Nat.strong_induction_on generalizing s l with
    | _ n ih =>
      intro hl h0 a b
      match l, hl, h0 with
      | [x], _, _ => exact ⟨1, rfl, Or.inl rfl⟩
      | [x, y], _, _ => exact ⟨2, rfl, Or.inr rfl⟩
      | x :: y :: z :: l, hl, _ =>
        simp only [List.length_cons] at hl
        obtain ⟨u, e, hu⟩ := ih (n - 1) (by omega) (π (addAt (addAt s 0 a) 1 b)) (z :: l) (by simp; omega) (by simp) x y
        refine ⟨u, ?_, hu⟩
        have e1 : absorbList π s (a :: b :: x :: y :: z :: l) = absorbList π (π (addAt (addAt s 0 a) 1 b)) (x :: y :: z :: l) := rfl
        rw [e1, ← e]; rfl
  intro n xs hn h0 v hv
  have one : ∀ a, v.absorb π a = ⟨true, 1, addAt v.s 0 a⟩ := by
    intro a
    obtain ⟨ab, us, s⟩ := v
    rcases hv with h | ⟨h, h'⟩
    · simp only at h; subst h; rfl
    · simp only at h h'; subst h; subst h'; rfl
  have sec : ∀ (s : Fin 3 → ZMod p) b, (⟨true, 1, s⟩ : VSponge (ZMod p)).absorb π b = ⟨true, 2, addAt s 1 b⟩ := fun _ _ => rfl
  match xs, h0 with
  | [a], _ => exact ⟨1, by simp [VSponge.run, VSponge.act, one, absorbList], Or.inl rfl⟩
  | [a, b], _ => exact ⟨2, by simp [VSponge.run, VSponge.act, one, absorbList, sec], Or.inr rfl⟩
  | a :: b :: c :: l, _ =>
    obtain ⟨u, e, hu⟩ := two v.s (c :: l) _ le_rfl (by simp) a b
    refine ⟨u, ?_, hu⟩
    rw [← e]
    simp [VSponge.run, VSponge.act, one, sec]

theorem squeeze_run (π : (Fin 3 → ZMod p) → Fin 3 → ZMod p) (u : ℕ) (s : Fin 3 → ZMod p) (k : ℕ) (hk : k ≠ 0) :
    (⟨true, u, s⟩ : VSponge (ZMod p)).run π (List.replicate k .squeeze) =
      (⟨false, if k % 2 = 1 then 1 else 2, π^[(k - 1) / 2 + 1] s⟩, (List.range k).map fun i => (π^[i / 2 + 1] s) (if i % 2 = 0 then 0 else 1)) := by
  obtain ⟨k, rfl⟩ := Nat.exists_eq_succ_of_ne_zero hk
  clear hk
  induction k with
  | zero => simp [VSponge.run, VSponge.act, VSponge.squeeze]
  | succ k ih =>
    rw [List.replicate_succ', VSponge.run_append, ih, List.range_succ (n := k.succ), List.map_append]
    have e : (k.succ - 1) / 2 + 1 = k / 2 + 1 := by simp
    have e2 : (k.succ.succ - 1) / 2 + 1 = (k + 1) / 2 + 1 := by simp
    rcases Nat.mod_two_eq_zero_or_one k with h | h
    · have h1 : k.succ % 2 = 1 := by omega
      have h2 : k.succ.succ % 2 = 0 := by omega
      have h3 : (k + 1) / 2 = k / 2 := by omega
      simp [VSponge.run, VSponge.act, VSponge.squeeze, h1, h2, h3]
    · have h1 : k.succ % 2 = 0 := by omega
      have h2 : k.succ.succ % 2 = 1 := by omega
      have h3 : (k + 1) / 2 = k / 2 + 1 := by omega
      simp only [VSponge.run, VSponge.act, VSponge.squeeze, h1, h2, e, e2, h3, List.map_cons, List.map_nil, List.append_nil]
      simp [h1, h3, Function.iterate_succ_apply']

theorem rounds_run (π : (Fin 3 → ZMod p) → Fin 3 → ZMod p) (l : List (List (ZMod p) × ℕ)) (hl : ∀ r ∈ l, r.1 ≠ [] ∧ r.2 ≠ 0) (v : VSponge (ZMod p))
    (hv : v.Fresh) : (v.run π (roundsActs l)).2 = roundsOut π v.s l := by
  induction l generalizing v with
  | nil => rfl
  | cons r l ih =>
    obtain ⟨xs, k⟩ := r
    obtain ⟨h1, h2⟩ := hl (xs, k) (by simp)
    obtain ⟨u, e, hu⟩ := absorb_run π _ xs le_rfl h1 v hv
    have e0 : roundsActs ((xs, k) :: l) = xs.map .absorb ++ (List.replicate k .squeeze ++ roundsActs l) := by simp [roundsActs]
    rw [e0, VSponge.run_append, e, VSponge.run_append, squeeze_run π u _ k h2]
    simp only [List.nil_append, roundsOut]
    rw [ih (fun r hr => hl r (by simp [hr]))]
    exact Or.inl rfl

/-! ### The circuit follows the specification -/

/-- The permutation of the parameters. -/
def Par.π (P : Par p) : (Fin 3 → ZMod p) → Fin 3 → ZMod p := Poseidon.perm (Poseidon.mat P.mds) (Poseidon.cst P.rc)

/-- The object of the code and the sponge of the specification agree. -/
structure Rel (T : Table (ZMod p)) (s : Sponge) (v : VSponge (ZMod p)) : Prop where
  count : s.count = v.used
  absorbed : s.absorbed = v.absorbing
  state : ∀ j : Fin 3, (s.state j).value T = v.s j
  le : v.used ≤ 2
  pos : v.absorbing = false → 1 ≤ v.used

theorem rel_init (T : Table (ZMod p)) (zero : Var) (h : zero.value T = 0) : Rel T (Sponge.init zero) VSponge.new :=
  ⟨rfl, rfl, fun _ => h, by simp [VSponge.new], by simp [VSponge.new]⟩

theorem perm_sat (P : Par p) (T : Table (ZMod p)) (x : ℕ → Var) (row : ℤ) (h : Sat T (Prim.ops P (.perm x row))) (s : Fin 3 → ZMod p)
    (hs : ∀ j : Fin 3, (x j).value T = s j) (j : Fin 3) : (Poseidon.result c15 row j).value T = P.π s j := by
  rw [Poseidon.poseidon_sound c15 P.mds P.rc x row T h j]
  have : (fun i : Fin 3 => (x i).value T) = s := funext hs
  rw [this]; rfl

theorem add_sat (P : Par p) (T : Table (ZMod p)) (x : Var) (st : ℕ → Var) (i : Fin 3) (row : ℤ) (h : Sat T (Prim.ops P (.add x (st i) row)))
    (s : Fin 3 → ZMod p) (hs : ∀ j : Fin 3, (st j).value T = s j) (j : Fin 3) :
    (Function.update st i (c3.wa 2 row) j).value T = addAt s i (x.value T) j := by
  have e := addition_sound c3 ⟨x, st i⟩ row T h
  unfold addAt
  by_cases hj : j = i
  · subst hj
    rw [Function.update_self, if_pos rfl, ← hs]
    rw [show c3.wa 2 row = Addition.result c3 row from rfl, e]
    exact add_comm _ _
  · rw [Function.update_of_ne (fun h => hj (Fin.ext h)), if_neg hj, hs]

theorem sat_circuit_cons (P : Par p) (T : Table (ZMod p)) (a : Prim) (l : List Prim) :
    Sat T (circuit P (a :: l)) ↔ Sat T (a.ops P) ∧ Sat T (circuit P l) := by
  rw [circuit, List.flatMap_cons, sat_append]; rfl

theorem sat_circuit_append (P : Par p) (T : Table (ZMod p)) (l l' : List Prim) :
    Sat T (circuit P (l ++ l')) ↔ Sat T (circuit P l) ∧ Sat T (circuit P l') := by
  rw [circuit, List.flatMap_append, sat_append]; rfl

theorem absorb_rel (P : Par p) (T : Table (ZMod p)) (s : Sponge) (v : VSponge (ZMod p)) (h : Rel T s v) (x : Var) (row : ℤ)
    (hs : Sat T (circuit P (s.absorb x row).2)) : Rel T (s.absorb x row).1 (v.absorb P.π (x.value T)) := by
  obtain ⟨cnt, ab, st⟩ := s
  obtain ⟨vab, us, vs⟩ := v
  obtain ⟨h1, h2, h3, h4, h5⟩ := h
  simp only at h1 h2 h3 h4 h5
  subst h1 h2
  cases ab
  · simp only [Sponge.absorb, Sponge.addInput, Bool.false_eq_true, if_false, sat_circuit_cons] at hs ⊢
    exact ⟨rfl, rfl, add_sat P T x st 0 row hs.1 vs h3, by simp [VSponge.absorb], by simp [VSponge.absorb]⟩
  · rcases (by omega : cnt = 0 ∨ cnt = 1 ∨ cnt = 2) with rfl | rfl | rfl
    · simp only [Sponge.absorb, Sponge.addInput, rate, if_true, (by decide : ¬ (0 : ℕ) = 2), if_false, sat_circuit_cons] at hs ⊢
      exact ⟨rfl, rfl, add_sat P T x st 0 row hs.1 vs h3, by simp [VSponge.absorb], by simp [VSponge.absorb]⟩
    · simp only [Sponge.absorb, Sponge.addInput, rate, if_true, (by decide : ¬ (1 : ℕ) = 2), if_false, sat_circuit_cons] at hs ⊢
      exact ⟨rfl, rfl, add_sat P T x st 1 row hs.1 vs h3, by simp [VSponge.absorb], by simp [VSponge.absorb]⟩
    · simp only [Sponge.absorb, Sponge.addInput, Sponge.permute, rate, if_true, List.cons_append, List.nil_append, sat_circuit_cons] at hs ⊢
      exact ⟨rfl, rfl, add_sat P T x (fun j => Poseidon.result c15 row j) 0 _ hs.2.1 (P.π vs) (perm_sat P T st row hs.1 vs h3),
        by simp [VSponge.absorb], by simp [VSponge.absorb]⟩

theorem squeeze_rel (P : Par p) (T : Table (ZMod p)) (s : Sponge) (v : VSponge (ZMod p)) (h : Rel T s v) (row : ℤ)
    (hs : Sat T (circuit P (s.squeeze row).2.1)) :
    Rel T (s.squeeze row).1 (v.squeeze P.π).1 ∧ (s.squeeze row).2.2.value T = (v.squeeze P.π).2 := by
  obtain ⟨cnt, ab, st⟩ := s
  obtain ⟨vab, us, vs⟩ := v
  obtain ⟨h1, h2, h3, h4, h5⟩ := h
  simp only at h1 h2 h3 h4 h5
  subst h1 h2
  cases ab
  · have := h5 rfl
    rcases (by omega : cnt = 1 ∨ cnt = 2) with rfl | rfl
    · simp only [Sponge.squeeze, Bool.false_eq_true, if_false, rate, VSponge.squeeze]
      exact ⟨⟨rfl, rfl, h3, by simp, by simp⟩, h3 1⟩
    · simp only [Sponge.squeeze, Sponge.permute, Bool.false_eq_true, if_false, rate, if_true, sat_circuit_cons] at hs ⊢
      have e := perm_sat P T st row hs.1 vs h3
      exact ⟨⟨rfl, rfl, e, by simp [VSponge.squeeze], by simp [VSponge.squeeze]⟩, e 0⟩
  · simp only [Sponge.squeeze, Sponge.permute, if_true, sat_circuit_cons] at hs ⊢
    have e := perm_sat P T st row hs.1 vs h3
    have e' : VSponge.squeeze P.π ⟨true, cnt, vs⟩ = (⟨false, 1, P.π vs⟩, P.π vs 0) := rfl
    rw [e']
    exact ⟨⟨rfl, rfl, e, by simp, by simp⟩, e 0⟩

/-- The value of an action. -/
def Act.value (T : Table (ZMod p)) : Act → VAct (ZMod p)
  | .absorb x => .absorb (x.value T)
  | .squeeze => .squeeze
  | .challenge => .challenge

theorem k15 : c15.k 0 = 0 := by decide

/-- Splitting and joining. -/
theorem low_sat (h1 : 2 ^ 128 ≤ p) (h2 : p ≤ 2 ^ 256) (P : Par p) (T : Table (ZMod p)) (x : Var) (r1 r2 : ℤ) (h : Sat T (Prim.ops P (.unpack x r1)))
    (h' : Sat T (Prim.ops P (.pack (ToLimbs.result c15 r1 0) (ToLimbs.result c15 r1 1) r2))) :
    (FromLimbs.result c3 r2).value T = low128 (x.value T) := by
  have := limbs_low128 h1 h2 c15 c3 k15 x r1 r2 T h h'
  rw [low128, ← this, ZMod.natCast_zmod_val]

theorem act_rel (h1 : 2 ^ 128 ≤ p) (h2 : p ≤ 2 ^ 256) (P : Par p) (T : Table (ZMod p)) (fq : Bool) (t : Transcript) (ht : t.last = [])
    (v : VSponge (ZMod p)) (h : Rel T t.sponge v) (row : ℤ) (a : Act) (hs : Sat T (circuit P (t.act fq row a).2.1)) :
    (t.act fq row a).1.last = [] ∧ Rel T (t.act fq row a).1.sponge (v.act P.π (a.value T)).1 ∧
      (t.act fq row a).2.2.map (fun o => o.value T) = (v.act P.π (a.value T)).2 := by
  obtain ⟨s, last⟩ := t
  simp only at ht h
  subst ht
  cases a with
  | absorb x => exact ⟨rfl, absorb_rel P T s v h x row hs, rfl⟩
  | squeeze =>
    obtain ⟨e1, e2⟩ := squeeze_rel P T s v h row hs
    exact ⟨rfl, e1, by simp [Transcript.act, Transcript.squeeze, VSponge.act, Act.value, e2]⟩
  | challenge =>
    have e0 : ¬ 2 ≤ ([] : List Var).length := by simp
    simp only [Transcript.act, Transcript.challenge, e0, if_false, List.nil_append, List.getD_cons_zero, List.getD_cons_succ, List.drop_succ_cons,
      List.drop_nil, List.drop_zero, sat_circuit_append, sat_circuit_cons] at hs ⊢
    obtain ⟨e1, e2⟩ := squeeze_rel P T s v h row hs.1
    refine ⟨trivial, e1, ?_⟩
    simp only [List.map_cons, List.map_nil, VSponge.act, Act.value]
    rw [low_sat h1 h2 P T _ _ _ hs.2.1 hs.2.2.1, e2]

theorem run_rel (h1 : 2 ^ 128 ≤ p) (h2 : p ≤ 2 ^ 256) (P : Par p) (T : Table (ZMod p)) (fq : Bool) (as : List Act) (t : Transcript) (ht : t.last = [])
    (v : VSponge (ZMod p)) (h : Rel T t.sponge v) (row : ℤ) (hs : Sat T (circuit P (t.run fq row as).2.1)) :
    (t.run fq row as).1.last = [] ∧ Rel T (t.run fq row as).1.sponge (v.run P.π (as.map (Act.value T))).1 ∧
      (t.run fq row as).2.2.map (fun o => o.value T) = (v.run P.π (as.map (Act.value T))).2 := by
  induction as generalizing t v row with
  | nil => exact ⟨ht, h, rfl⟩
  | cons a as ih =>
    simp only [Transcript.run, sat_circuit_append] at hs
    obtain ⟨e1, e2, e3⟩ := act_rel h1 h2 P T fq t ht v h row a hs.1
    obtain ⟨f1, f2, f3⟩ := ih _ e1 _ e2 _ hs.2
    exact ⟨f1, f2, by simp only [Transcript.run, List.map_append, List.map_cons, VSponge.run, e3, f3]⟩

/-! ### Tables -/

/-- Not a witness cell of row `row` or later. -/
def Before (v : Var) (row : ℤ) : Prop := v.type = .witness → v.rotation < row

theorem Before.mono {v : Var} {r r' : ℤ} (h : Before v r) (hr : r ≤ r') : Before v r' := fun hw => lt_of_lt_of_le (h hw) hr

theorem Before.outside {v : Var} {r : ℤ} (h : Before v r) (n : ℕ) : v.Outside r n := fun hw => Or.inl (h hw)

/-- Same contents before row `e`, and same constants. -/
def Same (e : ℤ) (T T' : Table (ZMod p)) : Prop := ∀ ty i r, ¬ (ty = .witness ∧ e ≤ r) → T' ty i r = T ty i r

theorem Same.value {e : ℤ} {T T' : Table (ZMod p)} (h : Same e T T') {v : Var} (hv : Before v e) : v.value T' = v.value T :=
  h _ _ _ (by rintro ⟨h1, h2⟩; have := hv h1; omega)

/-- The expression reads cells up to `n` rows below. -/
def Upto {F : Type*} (n : ℤ) : Expr F → Prop
  | .const _ => True
  | .var v => v.type = .witness → v.relative = true ∧ v.rotation ≤ n
  | .add a b => Upto n a ∧ Upto n b
  | .sub a b => Upto n a ∧ Upto n b
  | .mul a b => Upto n a ∧ Upto n b
  | .pow a _ => Upto n a

theorem Upto.eval {n : ℤ} {a : Expr (ZMod p)} (h : Upto n a) {e r : ℤ} (hr : r + n < e) {T T' : Table (ZMod p)} (hs : Same e T T') :
    a.eval T' r = a.eval T r := by
  induction a with
  | const => rfl
  | var v =>
    simp only [Expr.eval, Var.evalAt]
    refine hs _ _ _ ?_
    rintro ⟨h1, h2⟩
    obtain ⟨h3, h4⟩ := h h1
    rw [if_pos h3] at h2; omega
  | add a b iha ihb => simp only [Expr.eval, iha h.1, ihb h.2]
  | sub a b iha ihb => simp only [Expr.eval, iha h.1, ihb h.2]
  | mul a b iha ihb => simp only [Expr.eval, iha h.1, ihb h.2]
  | pow a k iha => simp only [Expr.eval, iha h]

/-- The obligation is about cells before row `e`. -/
def Below (e : ℤ) : Op (ZMod p) → Prop
  | .gate cs rows => ∀ r ∈ rows, ∀ a ∈ cs, ∃ n, Upto n a ∧ r + n < e
  | .copy a b => Before a e ∧ Before b e
  | .constant _ _ _ => True
  | .lookup _ _ _ => False

theorem Below.holds {e : ℤ} {o : Op (ZMod p)} (h : Below e o) {T T' : Table (ZMod p)} (hs : Same e T T') (ho : o.Holds T) : o.Holds T' := by
  cases o with
  | gate cs rows =>
    intro r hr a ha
    obtain ⟨n, h1, h2⟩ := h r hr a ha
    rw [h1.eval h2 hs]; exact ho r hr a ha
  | copy a b => show a.value T' = b.value T'; rw [hs.value h.1, hs.value h.2]; exact ho
  | constant c r v => show T' .constant c r = v; rw [hs _ _ _ (by simp)]; exact ho
  | lookup => exact h.elim

/-- First row of a call. -/
def Prim.row : Prim → ℤ
  | .add _ _ r => r
  | .perm _ r => r
  | .unpack _ r => r
  | .pack _ _ r => r

/-- Rows of a call. -/
def Prim.rows : Prim → ℕ
  | .perm _ _ => permuteRows
  | .unpack _ _ => ToLimbs.rows
  | _ => 1

/-- The operands are settled. -/
def Prim.Ready : Prim → Prop
  | .add x y r => Before x r ∧ Before y r
  | .perm x r => ∀ j < 3, Before (x j) r
  | .unpack x r => Before x r
  | .pack lo hi r => Before lo r ∧ Before hi r

/-- The constants of the obligations are in the table. -/
def ConstsIn (ops : List (Op (ZMod p))) (t : Table (ZMod p)) : Prop := ∀ c r v, Op.constant c r v ∈ ops → t .constant c r = v

theorem writeConsts_in (ops : List (Op (ZMod p))) (t : Table (ZMod p)) (h : ConstsIn ops t) : writeConsts ops t = t := by
  induction ops with
  | nil => rfl
  | cons o ops ih =>
    have ih := ih fun c r v hm => h c r v (by simp [hm])
    cases o with
    | constant c r v =>
      rw [writeConsts_constant]
      have : t.set .constant c r v = t := by
        funext ty i q
        rw [Table.set_apply]
        split
        · rename_i hh; obtain ⟨rfl, rfl, rfl⟩ := hh; exact (h _ _ _ (by simp)).symm
        · rfl
      rw [this]; exact ih
    | gate => exact ih
    | copy => exact ih
    | lookup => exact ih

theorem before_wa (c : Cols) (i r e : ℤ) (h : r < e) : Before (c.wa i r) e := fun _ => h

theorem upto_wv {F : Type*} (c : Cols) (i k n : ℤ) (h : k ≤ n) : Upto n (c.wv i k : Expr F) := fun _ => ⟨rfl, h⟩

theorem chunk_upto (v : Expr (ZMod p)) (size : ℕ) (h : Upto 0 v) : Upto 0 (chunkSizeExpr v size) := by
  unfold chunkSizeExpr
  have key : ∀ (l : List ℕ) (e : Expr (ZMod p)), Upto 0 e →
      Upto 0 (l.foldl (fun (e : Expr (ZMod p)) (i : ℕ) => e * (v - .const (((i + 1 : ℕ) : ZMod p)))) e) := by
    intro l
    induction l with
    | nil => intro e he; exact he
    | cons i l ih => intro e he; exact ih _ ⟨he, h, trivial⟩
  exact key _ _ h

theorem sumExpr_upto (c : Cols) (m : ℕ) : Upto 0 (RangeCheck.sumExpr c m : Expr (ZMod p)) := by
  unfold RangeCheck.sumExpr
  have key : ∀ (l : List ℕ) (e : Expr (ZMod p)), Upto 0 e →
      Upto 0 (l.foldl (fun (e : Expr (ZMod p)) (i : ℕ) => .const (2 ^ 2) * e + c.wv ((1 + (i + 1) : ℕ) : ℤ)) e) := by
    intro l
    induction l with
    | nil => intro e he; exact he
    | cons i l ih => intro e he; exact ih _ ⟨⟨trivial, he⟩, upto_wv c _ _ _ le_rfl⟩
  exact ⟨⟨key _ _ (upto_wv c _ _ _ le_rfl), trivial, upto_wv c _ _ _ (by omega)⟩, upto_wv c _ _ _ le_rfl⟩

theorem rangeCheck_below (c : Cols) (x : Var) (r e : ℤ) (hx : Before x e) (he : r + (RangeCheck.rows 15 64 : ℤ) ≤ e) :
    ∀ o ∈ (RangeCheck.circuit c 15 64 x r : List (Op (ZMod p))), Below e o := by
  have hrows : RangeCheck.rows 15 64 = 4 := by decide
  rw [hrows] at he
  intro o ho
  simp only [RangeCheck.circuit, hrows, show 64 % 2 = 0 from rfl, if_true, List.append_nil, List.mem_append, List.mem_singleton, List.mem_map, List.mem_range,
    List.mem_cons, List.not_mem_nil, or_false, List.nil_append] at ho
  rcases ho with ((rfl | rfl) | ⟨i, hi, rfl⟩) | rfl | rfl
  · intro q hq a ha
    obtain ⟨i, hi, rfl⟩ := mem_rowsFrom.1 hq
    refine ⟨0, ?_, by omega⟩
    rw [RangeCheck.gate1, List.mem_append] at ha
    rcases ha with ha | ha
    · obtain ⟨j, -, rfl⟩ := List.mem_map.1 ha
      exact chunk_upto _ _ (upto_wv c _ _ _ le_rfl)
    · rw [List.mem_singleton.1 ha]; exact sumExpr_upto c _
  · exact ⟨fun h => by simp [RangeCheck.zeroVar] at h, before_wa _ _ _ _ (by omega)⟩
  · exact ⟨fun h => by simp [RangeCheck.zeroVar] at h, before_wa _ _ _ _ (by omega)⟩
  · exact ⟨hx, before_wa _ _ _ _ (by push_cast; omega)⟩
  · trivial

theorem prim_below (P : Par p) (a : Prim) (h : a.Ready) : ∀ o ∈ a.ops P, Below (a.row + (a.rows : ℤ)) o := by
  intro o ho
  cases a with
  | add x y r =>
    simp only [Prim.ops, Addition.circuit, List.mem_cons, List.not_mem_nil, or_false] at ho
    simp only [Prim.row, Prim.rows]
    rcases ho with rfl | rfl | rfl
    · intro q hq e he
      rw [List.mem_singleton] at hq he
      subst hq he
      exact ⟨0, ⟨⟨upto_wv _ _ _ _ le_rfl, upto_wv _ _ _ _ le_rfl⟩, upto_wv _ _ _ _ le_rfl⟩, by push_cast; omega⟩
    · exact ⟨h.1.mono (by push_cast; omega), before_wa _ _ _ _ (by push_cast; omega)⟩
    · exact ⟨before_wa _ _ _ _ (by push_cast; omega), h.2.mono (by push_cast; omega)⟩
  | pack lo hi r =>
    simp only [Prim.ops, FromLimbs.circuit, FromLimbs.gate, List.mem_cons, List.not_mem_nil, or_false] at ho
    simp only [Prim.row, Prim.rows]
    rcases ho with rfl | rfl | rfl
    · intro q hq e he
      rw [List.mem_singleton] at hq he
      subst hq he
      exact ⟨0, ⟨⟨upto_wv _ _ _ _ le_rfl, upto_wv _ _ _ _ le_rfl, trivial⟩, upto_wv _ _ _ _ le_rfl⟩, by push_cast; omega⟩
    · exact ⟨before_wa _ _ _ _ (by push_cast; omega), h.1.mono (by push_cast; omega)⟩
    · exact ⟨before_wa _ _ _ _ (by push_cast; omega), h.2.mono (by push_cast; omega)⟩
  | perm x r =>
    have hr : (permuteRows : ℤ) = 12 := by decide
    simp only [Prim.row, Prim.rows, hr]
    simp only [Prim.ops, Poseidon.circuit, List.mem_append, List.mem_map, List.mem_range] at ho
    rcases ho with ⟨i, hi, rfl⟩ | ⟨i, hi, rfl⟩
    · have hi : i < 11 := hi
      intro q hq e he
      rw [List.mem_singleton] at hq
      subst hq
      refine ⟨1, ?_, by omega⟩
      simp only [Poseidon.gate, List.mem_flatMap, List.mem_map, List.mem_range] at he
      obtain ⟨k, hk, j, hj, rfl⟩ := he
      have h01 : (0 : ℤ) ≤ 1 := by decide
      have w : ∀ i : ℤ, Upto 1 (c15.wv i : Expr (ZMod p)) := fun i => upto_wv _ _ _ _ h01
      refine ⟨?_, ⟨⟨⟨w _, trivial⟩, w _, trivial⟩, w _, trivial⟩, trivial⟩
      split
      · exact upto_wv _ _ _ _ h01
      · exact upto_wv _ _ _ _ le_rfl
    · exact ⟨before_wa _ _ _ _ (by omega), (h i hi).mono (by omega)⟩
  | unpack x r =>
    have hr : (ToLimbs.rows : ℤ) = 33 := by decide
    simp only [Prim.row, Prim.rows, hr]
    simp only [Prim.ops, ToLimbs.circuit, List.mem_append, List.mem_singleton, List.mem_flatMap, List.mem_range] at ho
    rcases ho with (rfl | ⟨k, hk, ho⟩) | rfl
    · intro q hq e he
      rw [List.mem_singleton] at hq
      subst hq
      refine ⟨0, ?_, by omega⟩
      have w : ∀ i : ℤ, Upto 0 (c15.wv i : Expr (ZMod p)) := fun i => upto_wv _ _ _ _ le_rfl
      simp only [ToLimbs.gate, List.mem_cons, List.not_mem_nil, or_false] at he
      rcases he with rfl | rfl | rfl | rfl | rfl | rfl | rfl | rfl
      · exact ⟨⟨⟨⟨w _, w _, trivial⟩, w _, trivial⟩, w _, trivial⟩, w _⟩
      · exact ⟨⟨⟨⟨trivial, w _⟩, trivial⟩, w _⟩, w _, trivial⟩
      · exact ⟨⟨⟨⟨⟨trivial, w _⟩, trivial⟩, w _⟩, w _⟩, w _, trivial⟩
      · exact ⟨⟨⟨⟨⟨trivial, w _⟩, trivial⟩, w _⟩, w _⟩, w _, trivial⟩
      · exact ⟨⟨⟨⟨trivial, w _⟩, trivial⟩, w _⟩, w _⟩
      · exact ⟨w _, w _, trivial⟩
      · exact ⟨w _, w _, trivial⟩
      · exact ⟨w _, w _, trivial⟩
    · have hk : k < 8 := hk
      have hrows : RangeCheck.rows 15 64 = 4 := by decide
      refine rangeCheck_below c15 _ _ _ (before_wa _ _ _ _ (by omega)) ?_ o ho
      show ToLimbs.rcRow r k + _ ≤ _
      simp only [ToLimbs.rcRow, ToLimbs.chunkSize, hrows]
      push_cast; omega
    · exact ⟨before_wa _ _ _ _ (by omega), Before.mono h (by omega)⟩

theorem ok3 : c3.OK 3 := ⟨by decide, by decide⟩
theorem ok15 : c15.OK 15 := ⟨by decide, by decide⟩

/-- Only witness cells of the rows `lo .. hi - 1` differ. -/
def Within (lo hi : ℤ) (t t' : Table (ZMod p)) : Prop := ∀ ty i r, ¬ (ty = .witness ∧ lo ≤ r ∧ r < hi) → t' ty i r = t ty i r

theorem Within.same {lo hi : ℤ} {t t' : Table (ZMod p)} (h : Within lo hi t t') : Same lo t t' := fun ty i r hn => h ty i r fun ⟨h1, h2, _⟩ => hn ⟨h1, h2⟩

theorem frame_within {c : Cols} {s : ℤ} {n : ℕ} {t t' : Table (ZMod p)} (h : Frame c s n t t') : Within s (s + (n : ℤ)) t t' :=
  fun ty i r hn => h ty i r fun ⟨h1, _, h3, h4⟩ => hn ⟨h1, h3, h4⟩

theorem prim_ok (h1 : 2 ^ 128 ≤ p) (h2 : p ≤ 2 ^ 256) (P : Par p) (a : Prim) (h : a.Ready) (t : Table (ZMod p)) (hc : ConstsIn (a.ops P) t) :
    Sat (a.assign P t) (a.ops P) ∧ Within a.row (a.row + (a.rows : ℤ)) t (a.assign P t) := by
  cases a with
  | add x y r =>
    have := addition_complete (F := ZMod p) c3 ok3 ⟨x, y⟩ r t (h.1.outside 1) (h.2.outside 1)
    exact ⟨this.1, frame_within this.2.1⟩
  | pack lo hi r =>
    have := fromLimbs_complete (F := ZMod p) c3 ok3 lo hi r (h.1.outside 1) (h.2.outside 1) t
    exact ⟨this.1, frame_within this.2⟩
  | perm x r =>
    have := Poseidon.poseidon_complete (F := ZMod p) c15 ok15 P.mds P.rc x r t (fun j hj => (h j hj).outside _)
    have e : writeConsts (Poseidon.circuit c15 P.mds P.rc x r) t = t := writeConsts_in _ _ hc
    simp only [e] at this
    exact ⟨this.1, frame_within this.2.1⟩
  | unpack x r =>
    have hx : x.Outside r ToLimbs.rows := Before.outside h _
    have := toLimbs_complete (by omega) h2 c15 ok15 k15 x r hx t
    have e : writeConsts (ToLimbs.circuit c15 x r) t = t := writeConsts_in _ _ hc
    simp only [e] at this
    exact ⟨this.1, frame_within this.2.1⟩

/-- Calls one below the other, with settled operands, between two rows. -/
def Chain : ℤ → ℤ → List Prim → Prop
  | lo, hi, [] => lo ≤ hi
  | lo, hi, a :: l => lo ≤ a.row ∧ a.Ready ∧ Chain (a.row + (a.rows : ℤ)) hi l

theorem Chain.mono {lo lo' hi : ℤ} {l : List Prim} (h : Chain lo hi l) (hl : lo' ≤ lo) : Chain lo' hi l := by
  cases l with
  | nil => exact le_trans hl h
  | cons a l => exact ⟨le_trans hl h.1, h.2⟩

theorem Chain.mono' {lo hi hi' : ℤ} {l : List Prim} (h : Chain lo hi l) (hl : hi ≤ hi') : Chain lo hi' l := by
  induction l generalizing lo with
  | nil => exact le_trans h hl
  | cons a l ih => exact ⟨h.1, h.2.1, ih h.2.2⟩

theorem Chain.append {lo mid hi : ℤ} {l l' : List Prim} (h : Chain lo mid l) (h' : Chain mid hi l') : Chain lo hi (l ++ l') := by
  induction l generalizing lo with
  | nil => exact h'.mono h
  | cons a l ih => exact ⟨h.1, h.2.1, ih h.2.2⟩

theorem Chain.within {lo hi : ℤ} {l : List Prim} (h : Chain lo hi l) : lo ≤ hi ∧ ∀ a ∈ l, lo ≤ a.row ∧ a.row + (a.rows : ℤ) ≤ hi := by
  induction l generalizing lo with
  | nil => exact ⟨h, by simp⟩
  | cons a l ih =>
    obtain ⟨i1, i2⟩ := ih h.2.2
    have := h.1
    refine ⟨by omega, fun b hb => ?_⟩
    rcases List.mem_cons.1 hb with rfl | hb
    · exact ⟨this, i1⟩
    · have := i2 b hb; omega

/-- A chain of calls generates an accepted table and writes only between its two rows. -/
theorem chain_ok (h1 : 2 ^ 128 ≤ p) (h2 : p ≤ 2 ^ 256) (P : Par p) (l : List Prim) (lo hi : ℤ) (h : Chain lo hi l) (t : Table (ZMod p))
    (hc : ConstsIn (circuit P l) t) : Sat (assign P l t) (circuit P l) ∧ Within lo hi t (assign P l t) := by
  induction l generalizing lo t with
  | nil => exact ⟨by simp [circuit], fun _ _ _ _ => rfl⟩
  | cons a l ih =>
    obtain ⟨g1, g2, g3⟩ := h
    obtain ⟨s1, s2⟩ := prim_ok h1 h2 P a g2 t fun c r v hm => hc c r v (by simp [circuit]; exact Or.inl hm)
    have hc' : ConstsIn (circuit P l) (a.assign P t) := fun c r v hm => by
      rw [s2 _ _ _ (by simp)]
      exact hc c r v (by rw [circuit, List.flatMap_cons]; exact List.mem_append_right _ hm)
    obtain ⟨i1, i2⟩ := ih _ g3 _ hc'
    have e : assign P (a :: l) t = assign P l (a.assign P t) := rfl
    rw [e, sat_circuit_cons]
    have w := g3.within.1
    refine ⟨⟨fun o ho => (prim_below P a g2 o ho).holds i2.same (s1 o ho), i1⟩, fun ty i r hn => ?_⟩
    rw [i2 ty i r (by rintro ⟨q1, q2, q3⟩; exact hn ⟨q1, by omega, by omega⟩), s2 ty i r (by rintro ⟨q1, q2, q3⟩; exact hn ⟨q1, by omega, by omega⟩)]

/-- The variables of the sponge are settled. -/
def Sponge.Ready (s : Sponge) (row : ℤ) : Prop := ∀ j < 3, Before (s.state j) row

theorem permute_ready (s : Sponge) (row : ℤ) (e : ℤ) (he : row + 12 ≤ e) : (s.permute row).1.Ready e := fun j hj =>
  fun _ => by
    show row + Poseidon.rows - 1 < e
    have : (Poseidon.rows : ℤ) = 12 := by decide
    omega

theorem addInput_ready (s : Sponge) (x : Var) (i : ℕ) (row e : ℤ) (h : s.Ready e) (he : row < e) : (s.addInput x i row).1.Ready e := fun j hj => by
  show Before (Function.update s.state i (c3.wa 2 row) j) e
  by_cases hji : j = i
  · subst hji; rw [Function.update_self]; exact before_wa _ _ _ _ he
  · rw [Function.update_of_ne hji]; exact h j hj

theorem Sponge.Ready.mono {s : Sponge} {r r' : ℤ} (h : s.Ready r) (hr : r ≤ r') : s.Ready r' := fun j hj => (h j hj).mono hr

theorem absorb_chain (s : Sponge) (x : Var) (row : ℤ) (h : s.Ready row) (hx : Before x row) (hc : s.count < 3) :
    Chain row (row + (absorbRows : ℤ)) (s.absorb x row).2 ∧ (s.absorb x row).1.Ready (row + (absorbRows : ℤ)) := by
  have e1 : (permuteRows : ℤ) = 12 := by decide
  have e2 : (absorbRows : ℤ) = 13 := by decide
  unfold Sponge.absorb
  split
  · split
    · refine ⟨⟨le_rfl, h, ?_⟩, ?_⟩
      · refine ⟨by show row + (permuteRows : ℤ) ≤ row + (permuteRows : ℤ); exact le_rfl,
          ⟨hx.mono (by omega), permute_ready s row _ (by omega) 0 (by omega)⟩, ?_⟩
        show row + (permuteRows : ℤ) + ((1 : ℕ) : ℤ) ≤ row + (absorbRows : ℤ)
        push_cast; omega
      · exact addInput_ready _ x _ _ _ (permute_ready s row _ (by omega)) (by omega)
    · refine ⟨⟨le_rfl, ⟨hx, h _ hc⟩, ?_⟩, addInput_ready _ x _ _ _ (h.mono (by omega)) (by omega)⟩
      show row + ((1 : ℕ) : ℤ) ≤ row + (absorbRows : ℤ)
      push_cast; omega
  · refine ⟨⟨le_rfl, ⟨hx, h 0 (by omega)⟩, ?_⟩, addInput_ready _ x _ _ _ (h.mono (by omega)) (by omega)⟩
    show row + ((1 : ℕ) : ℤ) ≤ row + (absorbRows : ℤ)
    push_cast; omega

theorem squeeze_chain (s : Sponge) (row : ℤ) (h : s.Ready row) (hc : s.count < 3) :
    Chain row (row + (squeezeRows : ℤ)) (s.squeeze row).2.1 ∧ (s.squeeze row).1.Ready (row + (squeezeRows : ℤ)) ∧
      Before (s.squeeze row).2.2 (row + (squeezeRows : ℤ)) := by
  have e1 : (permuteRows : ℤ) = 12 := by decide
  have e2 : (squeezeRows : ℤ) = 12 := by decide
  unfold Sponge.squeeze
  split
  · exact ⟨⟨le_rfl, h, le_rfl⟩, permute_ready s row _ (by omega), permute_ready s row _ (by omega) 0 (by omega)⟩
  · split
    · exact ⟨⟨le_rfl, h, le_rfl⟩, permute_ready s row _ (by omega), permute_ready s row _ (by omega) 0 (by omega)⟩
    · refine ⟨?_, h.mono (by omega), (h _ hc).mono (by omega)⟩
      show row ≤ row + (squeezeRows : ℤ)
      omega

/-- The counter of the object stays small. -/
theorem absorb_count (s : Sponge) (x : Var) (row : ℤ) (hc : s.count < 3) : (s.absorb x row).1.count < 3 := by
  unfold Sponge.absorb
  split
  · split
    · simp
    · rename_i h; simp only [rate] at h ⊢; omega
  · simp

theorem squeeze_count (s : Sponge) (row : ℤ) (hc : s.count < 3) : (s.squeeze row).1.count < 3 := by
  unfold Sponge.squeeze
  split
  · simp
  · split
    · simp
    · rename_i h; simp only [rate] at h ⊢; omega

/-- The inputs of an action are settled. -/
def Act.Ready (row : ℤ) : Act → Prop
  | .absorb x => Before x row
  | _ => True

/-- The inputs of all actions are settled. -/
def ActsReady : ℤ → List Act → Prop
  | _, [] => True
  | row, a :: as => a.Ready row ∧ ActsReady (row + (a.rows : ℤ)) as

/-- The rows of a sequence of actions. -/
def actsRows (as : List Act) : ℕ := (as.map Act.rows).sum

theorem act_chain (fq : Bool) (t : Transcript) (ht : t.last = []) (row : ℤ) (h : t.sponge.Ready row) (hc : t.sponge.count < 3) (a : Act) (ha : a.Ready row) :
    Chain row (row + (a.rows : ℤ)) (t.act fq row a).2.1 ∧ (t.act fq row a).1.sponge.Ready (row + (a.rows : ℤ)) ∧
      (t.act fq row a).1.sponge.count < 3 ∧ (t.act fq row a).1.last = [] := by
  obtain ⟨s, last⟩ := t
  simp only at ht h hc
  subst ht
  cases a with
  | absorb x =>
    obtain ⟨g1, g2⟩ := absorb_chain s x row h ha hc
    exact ⟨g1, g2, absorb_count s x row hc, rfl⟩
  | squeeze =>
    obtain ⟨g1, g2, -⟩ := squeeze_chain s row h hc
    exact ⟨g1, g2, squeeze_count s row hc, rfl⟩
  | challenge =>
    have e0 : ¬ 2 ≤ ([] : List Var).length := by simp
    obtain ⟨g1, g2, g3⟩ := squeeze_chain s row h hc
    have e1 : (squeezeRows : ℤ) = 12 := by decide
    have e2 : (ToLimbs.rows : ℤ) = 33 := by decide
    have e3 : ((Act.challenge.rows : ℕ) : ℤ) = 46 := by decide
    have e4 : ((squeezeRows + ToLimbs.rows : ℕ) : ℤ) = 45 := by decide
    simp only [Transcript.act, Transcript.challenge, e0, if_false, List.nil_append, List.getD_cons_zero, List.getD_cons_succ, List.drop_succ_cons,
      List.drop_nil, List.drop_zero]
    refine ⟨g1.append ⟨le_rfl, g3, ?_⟩, g2.mono (by omega), squeeze_count s row hc, trivial⟩
    refine ⟨?_, ⟨before_wa _ _ _ _ (by omega), before_wa _ _ _ _ (by omega)⟩, ?_⟩
    · show row + (squeezeRows : ℤ) + (ToLimbs.rows : ℤ) ≤ row + ((squeezeRows + ToLimbs.rows : ℕ) : ℤ)
      omega
    · show row + ((squeezeRows + ToLimbs.rows : ℕ) : ℤ) + ((1 : ℕ) : ℤ) ≤ _
      rw [e4, e3]; push_cast; omega

theorem run_chain (fq : Bool) (as : List Act) (t : Transcript) (ht : t.last = []) (row : ℤ) (h : t.sponge.Ready row) (hc : t.sponge.count < 3)
    (ha : ActsReady row as) : Chain row (row + (actsRows as : ℤ)) (t.run fq row as).2.1 := by
  induction as generalizing t row with
  | nil => show row ≤ _; simp [actsRows]
  | cons a as ih =>
    obtain ⟨g1, g2, g3, g4⟩ := act_chain fq t ht row h hc a ha.1
    have := ih _ g4 _ g2 g3 ha.2
    have e : row + (a.rows : ℤ) + (actsRows as : ℤ) = row + (actsRows (a :: as) : ℤ) := by simp [actsRows]; ring
    rw [e] at this
    exact g1.append this

/-! ### The theorems -/

theorem consts_zero (P : Par p) (l : List Prim) (c : ℕ) (r : ℤ) (v : ZMod p) (h : Op.constant c r v ∈ circuit P l) : v = 0 := by
  obtain ⟨a, -, h⟩ := List.mem_flatMap.1 h
  cases a with
  | add => simp [Prim.ops, Addition.circuit] at h
  | pack => simp [Prim.ops, FromLimbs.circuit] at h
  | perm => simp [Prim.ops, Poseidon.circuit] at h
  | unpack x r =>
    simp only [Prim.ops, ToLimbs.circuit, List.mem_append, List.mem_singleton, List.mem_flatMap, List.mem_range, reduceCtorEq, or_false, false_or] at h
    obtain ⟨k, -, h⟩ := h
    simp only [RangeCheck.circuit, show ToLimbs.chunkSize % 2 = 0 from rfl, if_true, List.append_nil, List.mem_append, List.mem_singleton, List.mem_map, List.mem_range,
      List.mem_cons, List.not_mem_nil, or_false, List.nil_append, reduceCtorEq, and_false, exists_false, false_or, Op.constant.injEq] at h
    exact h.2.2

/-- Writing constants that are all zero writes them all. -/
theorem writeConsts_zero (ops : List (Op (ZMod p))) (h : ∀ c r v, Op.constant c r v ∈ ops → v = 0) (t : Table (ZMod p)) : ConstsIn ops (writeConsts ops t) := by
  have keep : ∀ (ops : List (Op (ZMod p))), (∀ c r v, Op.constant c r v ∈ ops → v = 0) → ∀ (t : Table (ZMod p)) c r, t .constant c r = 0 →
      writeConsts ops t .constant c r = 0 := by
    intro ops
    induction ops with
    | nil => intro _ t c r ht; exact ht
    | cons o ops ih =>
      intro h t c r ht
      have ih := ih fun c r v hm => h c r v (by simp [hm])
      cases o with
      | constant c' r' v =>
        rw [writeConsts_constant]
        refine ih _ _ _ ?_
        rw [Table.set_apply]
        split
        · exact h c' r' v (by simp)
        · exact ht
      | gate => exact ih t c r ht
      | copy => exact ih t c r ht
      | lookup => exact ih t c r ht
  induction ops generalizing t with
  | nil => intro c r v hm; simp at hm
  | cons o ops ih =>
    have h' : ∀ c r v, Op.constant c r v ∈ ops → v = 0 := fun c r v hm => h c r v (by simp [hm])
    intro c r v hm
    rcases List.mem_cons.1 hm with rfl | hm'
    · rw [writeConsts_constant, h c r v (by simp)]
      exact keep ops h' _ c r (by rw [Table.set_apply]; simp)
    · cases o with
      | constant c' r' v' => rw [writeConsts_constant]; exact ih h' _ c r v hm'
      | gate => exact ih h' t c r v hm'
      | copy => exact ih h' t c r v hm'
      | lookup => exact ih h' t c r v hm'

/-- **C150** Whatever is absorbed into and squeezed from a transcript, in whatever order, the outputs the circuit forces are those of the sponge on the
values absorbed; a challenge is the low 128 bits of a squeezed element. The two classes agree. -/
theorem transcript_sound (h1 : 2 ^ 128 ≤ p) (h2 : p ≤ 2 ^ 256) (P : Par p) (fq : Bool) (zero : Var) (row : ℤ) (as : List Act) (T : Table (ZMod p))
    (hz : zero.value T = 0) (hs : Sat T (circuit P ((Transcript.init zero).run fq row as).2.1)) :
    ((Transcript.init zero).run fq row as).2.2.map (fun o => o.value T) = (VSponge.new.run P.π (as.map (Act.value T))).2 :=
  (run_rel h1 h2 P T fq as (Transcript.init zero) rfl _ (rel_init T zero hz) row hs).2.2

/-- The actions of rounds of absorbing and squeezing. -/
def spongeActs (l : List (List Var × ℕ)) : List Act := l.flatMap fun r => r.1.map .absorb ++ List.replicate r.2 .squeeze

/-- **C149** Rounds of absorbing and squeezing: every output is the element of the state the blockwise description names. -/
theorem sponge_sound (h1 : 2 ^ 128 ≤ p) (h2 : p ≤ 2 ^ 256) (P : Par p) (zero : Var) (row : ℤ) (l : List (List Var × ℕ))
    (hl : ∀ r ∈ l, r.1 ≠ [] ∧ r.2 ≠ 0) (T : Table (ZMod p)) (hz : zero.value T = 0)
    (hs : Sat T (circuit P ((Transcript.init zero).run true row (spongeActs l)).2.1)) :
    ((Transcript.init zero).run true row (spongeActs l)).2.2.map (fun o => o.value T) =
      roundsOut P.π (fun _ => 0) (l.map fun r => (r.1.map fun x => x.value T, r.2)) := by
  rw [transcript_sound h1 h2 P true zero row _ T hz hs]
  have e : (spongeActs l).map (Act.value T) = roundsActs (l.map fun r => (r.1.map fun x => x.value T, r.2)) := by
    clear hs hl
    induction l with
    | nil => rfl
    | cons r l ih =>
      have := ih
      simp only [spongeActs, roundsActs, List.flatMap_cons, List.map_append, List.map_cons, List.map_map] at this ⊢
      rw [this]
      simp [Act.value, Function.comp_def]
  rw [e]
  refine rounds_run P.π _ ?_ _ (Or.inr ⟨rfl, rfl⟩)
  intro r hr
  obtain ⟨q, hq, rfl⟩ := List.mem_map.1 hr
  have := hl q hq
  exact ⟨by simpa using this.1, this.2⟩

/-- **C150** Over any inputs settled before they are absorbed the calls fit in the rows reserved for them and the table they generate is accepted. -/
theorem transcript_complete (h1 : 2 ^ 128 ≤ p) (h2 : p ≤ 2 ^ 256) (P : Par p) (fq : Bool) (row : ℤ) (as : List Act) (ha : ActsReady row as) (t : Table (ZMod p)) :
    let l := ((Transcript.init (zeroVar row)).run fq row as).2.1
    let ops := circuit P l ++ [.constant 0 row 0]
    let t' := assign P l (writeConsts ops t)
    Sat t' ops ∧ Within row (row + (actsRows as : ℤ)) (writeConsts ops t) t' := by
  intro l ops t'
  have hc := run_chain fq as (Transcript.init (zeroVar row)) rfl row (fun j _ hw => by simp [zeroVar, Transcript.init, Sponge.init] at hw)
    (by simp [Transcript.init, Sponge.init]) ha
  have hz : ConstsIn ops (writeConsts ops t) := writeConsts_zero ops (fun c r v hm => by
    rcases List.mem_append.1 hm with hm | hm
    · exact consts_zero P l c r v hm
    · simp at hm; exact hm.2.2) t
  obtain ⟨s1, s2⟩ := chain_ok h1 h2 P l _ _ hc (writeConsts ops t) fun c r v hm => hz c r v (List.mem_append_left _ hm)
  refine ⟨(sat_append ..).2 ⟨s1, ?_⟩, s2⟩
  intro o ho
  rw [List.mem_singleton] at ho; subst ho
  refine (s2 _ _ _ (by simp)).trans ?_
  exact hz _ _ _ (List.mem_append_right _ (by simp))

/-- Values of a proof of the batch. -/
def BatchProof.values (T : Table (ZMod p)) (b : BatchProof) : List (ZMod p) :=
  [(b.state 0).value T, (b.state 1).value T, (b.state 2).value T, b.cip.value T, b.z1.value T, b.z2.value T]

/-- **C151** The scalar of `random`: six elements of every proof absorbed in order, one element squeezed, its low 128 bits. -/
theorem random_sound (h1 : 2 ^ 128 ≤ p) (h2 : p ≤ 2 ^ 256) (P : Par p) (bs : List BatchProof) (row : ℤ) (T : Table (ZMod p)) (hs : Sat T (randomCircuit P bs row)) :
    (randomOut bs row).value T = low128 (P.π (absorbList P.π (fun _ => 0) (bs.flatMap (BatchProof.values T))) 0) := by
  rw [randomCircuit, sat_append] at hs
  have hz : (zeroVar row).value T = 0 := hs.2 _ (List.mem_singleton.2 rfl)
  have e := transcript_sound h1 h2 P false (zeroVar row) row (randomActs bs) T hz hs.1
  have e1 : (randomActs bs).map (Act.value T) = (bs.flatMap (BatchProof.values T)).map .absorb ++ [.challenge] := by
    have e2 : bs.flatMap (BatchProof.values T) = (bs.flatMap BatchProof.inputs).map fun x => x.value T := by
      rw [List.map_flatMap]; rfl
    rw [e2, randomActs, List.map_append, List.map_map, List.map_map]; rfl
  have e2 : ∃ u, VSponge.new.run P.π ((bs.flatMap (BatchProof.values T)).map .absorb) =
      (⟨true, u, absorbList P.π (fun _ => 0) (bs.flatMap (BatchProof.values T))⟩, []) := by
    by_cases h0 : bs.flatMap (BatchProof.values T) = []
    · exact ⟨0, by rw [h0]; rfl⟩
    · obtain ⟨u, hu, -⟩ := absorb_run P.π _ _ le_rfl h0 VSponge.new (Or.inr ⟨rfl, rfl⟩)
      exact ⟨u, hu⟩
  obtain ⟨u, hu⟩ := e2
  rw [e1, VSponge.run_append, hu] at e
  have e3 : ((⟨true, u, absorbList P.π (fun _ => 0) (bs.flatMap (BatchProof.values T))⟩ : VSponge (ZMod p)).run P.π [.challenge]).2 =
      [low128 (P.π (absorbList P.π (fun _ => 0) (bs.flatMap (BatchProof.values T))) 0)] := rfl
  rw [e3, List.nil_append] at e
  rw [randomOut]
  generalize (Transcript.run false (Transcript.init (zeroVar row)) row (randomActs bs)).2.2 = o at e
  cases o with
  | nil => simp at e
  | cons x l =>
    simp only [List.map_cons, List.cons.injEq] at e
    simpa using e.1

/-- The inputs of the proofs are settled. -/
def BatchProof.Ready (row : ℤ) (b : BatchProof) : Prop := ∀ x ∈ b.inputs, Before x row

theorem actsRows_random (bs : List BatchProof) : actsRows (randomActs bs) = randomRows bs.length := by
  have e1 : absorbRows = 13 := by decide
  have e2 : (Act.challenge).rows = challengeRows := rfl
  have e : ∀ l : List Var, ((l.map Act.absorb).map Act.rows).sum = l.length * absorbRows := by
    intro l
    induction l with
    | nil => simp
    | cons x l ih => simp only [List.map_cons, List.sum_cons, ih, List.length_cons, Act.rows]; ring
  have e' : (bs.flatMap BatchProof.inputs).length = bs.length * 6 := by
    induction bs with
    | nil => rfl
    | cons b bs ih => rw [List.flatMap_cons, List.length_append, ih]; simp [BatchProof.inputs]; ring
  simp only [actsRows, randomActs, List.map_append, List.sum_append, e, e', List.map_cons, List.map_nil, List.sum_cons, List.sum_nil, e2, randomRows]
  ring

theorem ready_absorbs (xs : List Var) (as : List Act) (row : ℤ) (h : ∀ x ∈ xs, Before x row) (ha : ∀ r, ActsReady r as) : ActsReady row (xs.map .absorb ++ as) := by
  induction xs generalizing row with
  | nil => exact ha row
  | cons x xs ih =>
    refine ⟨h x (by simp), ih _ fun y hy => (h y (by simp [hy])).mono ?_⟩
    have : (0 : ℤ) ≤ ((Act.absorb x).rows : ℤ) := by positivity
    omega

/-- **C151** The table of `random` is accepted, for every batch whose values are settled, and only the rows counted in `rows_amount` are written. -/
theorem random_complete (h1 : 2 ^ 128 ≤ p) (h2 : p ≤ 2 ^ 256) (P : Par p) (bs : List BatchProof) (row : ℤ) (hb : ∀ b ∈ bs, b.Ready row) (t : Table (ZMod p)) :
    let t0 := writeConsts (randomCircuit P bs row) t
    let t' := assign P ((Transcript.init (zeroVar row)).run false row (randomActs bs)).2.1 t0
    Sat t' (randomCircuit P bs row) ∧ Within row (row + (randomRows bs.length : ℤ)) t0 t' := by
  have ha : ActsReady row (randomActs bs) := ready_absorbs _ _ _ (fun x hx => by
    obtain ⟨b, hb', hx⟩ := List.mem_flatMap.1 hx
    exact hb b hb' x hx) (fun _ => ⟨trivial, trivial⟩)
  have := transcript_complete h1 h2 P false row (randomActs bs) ha t
  rw [actsRows_random] at this
  exact this

/-- **C150** `absorb_evaluations` absorbs 25 elements, so `absorb_evaluations_rows` of the code covers it. -/
theorem absorb_evaluations_rows (pub z gen pos : Var) (w s : ℕ → Var) :
    actsRows ((evalInputs pub z gen pos w s).map .absorb) = 25 * absorbRows := by
  have e : ∀ l : List Var, actsRows (l.map Act.absorb) = l.length * absorbRows := by
    intro l
    induction l with
    | nil => simp [actsRows]
    | cons x l ih => rw [actsRows] at ih ⊢; simp only [List.map_cons, List.sum_cons, ih, List.length_cons, Act.rows]; ring
  rw [e, show (evalInputs pub z gen pos w s).length = 25 from rfl]

/-- Calling `init` on an object that has absorbed one element does not reset the counter: the next element goes to the second place of the state. -/
theorem reinit_stale (P : Par p) (T : Table (ZMod p)) (zero x y : Var) (r r' : ℤ) (hz : zero.value T = 0)
    (h : Sat T (circuit P ((((Sponge.init zero).absorb x r).1.reinit zero).absorb y r').2)) :
    ∀ j : Fin 3, (((((Sponge.init zero).absorb x r).1.reinit zero).absorb y r').1.state j).value T = addAt (fun _ => 0) 1 (y.value T) j := by
  have hr : Rel T (((Sponge.init zero).absorb x r).1.reinit zero) ⟨true, 1, fun _ => 0⟩ := ⟨rfl, rfl, fun _ => hz, by simp, by simp⟩
  exact (absorb_rel P T _ _ hr y r' h).state

/-! ### Cases -/

/-- A state in the public input column. -/
def exProof (k : ℤ) : BatchProof := ⟨fun j => ⟨0, k + j, false, .publicInput⟩, ⟨0, k + 3, false, .publicInput⟩, ⟨0, k + 4, false, .publicInput⟩, ⟨0, k + 5, false, .publicInput⟩⟩

theorem writeConsts_ty (ops : List (Op (ZMod p))) (t : Table (ZMod p)) (ty : ColType) (i : ℕ) (r : ℤ) (h : ty ≠ .constant) : writeConsts ops t ty i r = t ty i r := by
  induction ops generalizing t with
  | nil => rfl
  | cons o ops ih =>
    cases o with
    | constant c r' v => rw [writeConsts_constant, ih, Table.set_apply, if_neg (fun hh => h hh.1)]
    | gate => exact ih t
    | copy => exact ih t
    | lookup => exact ih t

/-- Over the base field of pallas, any public inputs and any parameters: two proofs are accepted and the scalar is the one of the theorem. -/
example (P : Par pallasP) (t : Table (ZMod pallasP)) : ∃ T, Sat T (randomCircuit P [exProof 0, exProof 6] 5) ∧
    (∀ r, T .publicInput 0 r = t .publicInput 0 r) ∧ (randomOut [exProof 0, exProof 6] 5).value T =
      low128 (P.π (absorbList P.π (fun _ => 0) ([exProof 0, exProof 6].flatMap (BatchProof.values T))) 0) := by
  have h1 : 2 ^ 128 ≤ pallasP := by decide +kernel
  have h2 : pallasP ≤ 2 ^ 256 := by decide +kernel
  have hb : ∀ b ∈ [exProof 0, exProof 6], b.Ready 5 := by
    intro b hb x hx
    simp only [List.mem_cons, List.not_mem_nil, or_false] at hb
    rcases hb with rfl | rfl <;> simp only [BatchProof.inputs, exProof, List.mem_cons, List.not_mem_nil, or_false] at hx <;>
      rcases hx with rfl | rfl | rfl | rfl | rfl | rfl <;> intro hw <;> simp at hw
  obtain ⟨s1, s2⟩ := random_complete h1 h2 P [exProof 0, exProof 6] 5 hb t
  refine ⟨_, s1, fun r => ?_, random_sound h1 h2 P _ _ _ s1⟩
  rw [s2 _ _ _ (by simp)]
  exact writeConsts_ty _ _ _ _ _ (by simp)

/-- Two rounds: three elements in, three out, one in, one out. -/
example (x : ℕ → ZMod pallasP) (π : (Fin 3 → ZMod pallasP) → Fin 3 → ZMod pallasP) : roundsOut π (fun _ => 0) [([x 0, x 1, x 2], 3), ([x 3], 1)] =
    [π (addAt (π (addAt (addAt (fun _ => 0) 0 (x 0)) 1 (x 1))) 0 (x 2)) 0, π (addAt (π (addAt (addAt (fun _ => 0) 0 (x 0)) 1 (x 1))) 0 (x 2)) 1,
      π (π (addAt (π (addAt (addAt (fun _ => 0) 0 (x 0)) 1 (x 1))) 0 (x 2))) 0,
      π (addAt (π (π (addAt (π (addAt (addAt (fun _ => 0) 0 (x 0)) 1 (x 1))) 0 (x 2)))) 0 (x 3)) 0] := by
  simp [roundsOut, absorbList, List.range_succ]

end KimchiSponge
end Verif
