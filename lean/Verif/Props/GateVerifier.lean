import Verif.Model.GateVerifier
import Verif.Props.Blocks

/-!
# C63: the gate argument
-/

set_option linter.unusedSimpArgs false
set_option linter.unusedSectionVars false
set_option linter.unusedVariables false

namespace Verif
namespace GateVerifier
variable {F : Type*} [Field F]

/-! ### Specification -/

/-- `Σ_i q_i Σ_k θ^(o_i + k) C_(o_i + k)`, where gate `i` has `sz i` constraints and `o_i` constraints come before it: the
constraints are numbered through, each multiplied by its power of theta and by the selector of its gate. -/
def spec (n : ℕ) (sz : ℕ → ℕ) (th : F) (q C : ℕ → F) : F :=
  ∑ i ∈ Finset.range n, q i * ∑ k ∈ Finset.range (sz i),
    th ^ ((∑ l ∈ Finset.range i, sz l) + k) * C ((∑ l ∈ Finset.range i, sz l) + k)

/-- The specified value of the inputs. -/
def In.spec (x : In) (n : ℕ) (sz : ℕ → ℕ) (t : Table F) : F :=
  GateVerifier.spec n sz (x.theta.value t) (fun i => (x.sel i).value t) (fun i => (x.cs i).value t)

/-! ### The vector of the final gate -/

theorem off_eq (sz : ℕ → ℕ) (i : ℕ) : off sz i = ∑ l ∈ Finset.range i, sz l := by
  induction i with
  | zero => rfl
  | succ i ih => rw [off, ih, Finset.sum_range_succ]

theorem off_mono (sz : ℕ → ℕ) {i j : ℕ} (h : i ≤ j) : off sz i ≤ off sz j := by
  induction h with
  | refl => exact le_rfl
  | step _ ih => exact ih.trans (Nat.le_add_right _ _)

theorem off_lt (sz : ℕ → ℕ) {n : ℕ} (hs : ∀ i < n, 1 ≤ sz i) {i j : ℕ} (h : i < j) (hj : j ≤ n) : off sz i < off sz j := by
  have := off_mono sz (show i + 1 ≤ j from h)
  have := hs i (by omega)
  rw [off] at *; omega

/-- After `i` turns, `j` gates have been placed. -/
theorem fold_inv (n : ℕ) (sz : ℕ → ℕ) (hs : ∀ i < n, 1 ≤ sz i) (hn : 1 ≤ n) (g : ℕ → Var) (zero : Var) (f : Var → F)
    (hz : f zero = 0) (th : F) (i : ℕ) (hi : i ≤ totalDeg n sz + 1) :
    ∃ j l, (List.range i).foldl (csStep sz g zero) (0, 0, []) = (j, off sz j, l) ∧ l.length = i ∧ j ≤ n ∧ i ≤ off sz j ∧
      (i = 0 ∧ j = 0 ∨ 0 < j ∧ off sz (j - 1) < i) ∧
      (∀ v ∈ l, v = zero ∨ ∃ k < j, v = g k) ∧
      ∑ k ∈ Finset.range i, th ^ k * f (l.getD k zero) = ∑ k ∈ Finset.range j, th ^ off sz k * f (g k) := by
  induction i with
  | zero => exact ⟨0, [], rfl, rfl, by omega, by simp [off], Or.inl ⟨rfl, rfl⟩, by simp, by simp⟩
  | succ i ih =>
    obtain ⟨j, l, e, hl, hj, h1, h2, h3, h4⟩ := ih (by omega)
    rw [List.range_succ (n := i), List.foldl_append, e]
    simp only [List.foldl_cons, List.foldl_nil, csStep]
    have sum : ∀ v : Var, ∑ k ∈ Finset.range (i + 1), th ^ k * f ((l ++ [v]).getD k zero) =
        (∑ k ∈ Finset.range i, th ^ k * f (l.getD k zero)) + th ^ i * f v := by
      intro v
      rw [Finset.sum_range_succ, List.getD_append_right _ _ _ _ (by omega), hl]
      simp only [Nat.sub_self, List.getD_cons_zero]
      congr 1
      refine Finset.sum_congr rfl fun k hk => ?_
      rw [List.getD_append _ _ _ _ (by have := Finset.mem_range.1 hk; omega)]
    by_cases hio : i = off sz j
    · have hj' : j < n := by
        rcases Nat.lt_or_ge j n with h | h
        · exact h
        · have a := off_lt sz hs (show n - 1 < n by omega) le_rfl
          have b := off_mono sz h
          unfold totalDeg at hi
          omega
      rw [if_pos hio]
      refine ⟨j + 1, _, rfl, by simp [hl], by omega, ?_, Or.inr ⟨by omega, by rw [Nat.add_sub_cancel]; omega⟩, ?_, ?_⟩
      · have := hs j hj'
        rw [off]; omega
      · intro v hv
        rw [List.mem_append, List.mem_singleton] at hv
        rcases hv with hv | rfl
        · rcases h3 v hv with h | ⟨k, hk, h⟩
          · exact Or.inl h
          · exact Or.inr ⟨k, by omega, h⟩
        · exact Or.inr ⟨j, by omega, rfl⟩
      · rw [sum, h4, Finset.sum_range_succ, ← hio]
    · rw [if_neg hio]
      refine ⟨j, _, rfl, by simp [hl], hj, by omega, Or.inr ?_, ?_, ?_⟩
      · rcases h2 with ⟨rfl, rfl⟩ | ⟨a, b⟩
        · exact absurd rfl hio
        · exact ⟨a, by omega⟩
      · intro v hv
        rw [List.mem_append, List.mem_singleton] at hv
        rcases hv with hv | rfl
        · exact h3 v hv
        · exact Or.inl rfl
      · rw [sum, h4, hz, mul_zero, add_zero]

/-- What the vector contains, and the sum over it. -/
theorem finalCs_spec (n : ℕ) (sz : ℕ → ℕ) (hs : ∀ i < n, 1 ≤ sz i) (hn : 1 ≤ n) (g : ℕ → Var) (zero : Var) :
    (∀ k, (finalCs n sz g zero).getD k zero = zero ∨ ∃ i < n, (finalCs n sz g zero).getD k zero = g i) ∧
    ∀ (f : Var → F) (th : F), f zero = 0 →
      ∑ k ∈ Finset.range (totalDeg n sz + 1), th ^ k * f ((finalCs n sz g zero).getD k zero) =
        ∑ k ∈ Finset.range n, th ^ off sz k * f (g k) := by
  constructor
  · intro k
    obtain ⟨j, l, e, h1, h2, h3, h4, h5, h6⟩ := fold_inv (F := F) n sz hs hn g zero (fun _ => 0) rfl 0 _ le_rfl
    have e' : finalCs n sz g zero = l := by rw [finalCs, e]
    rw [e']
    rcases Nat.lt_or_ge k l.length with h | h
    · rw [List.getD_eq_getElem _ _ h]
      rcases h5 _ (List.getElem_mem h) with a | ⟨i, hi, a⟩
      · exact Or.inl a
      · exact Or.inr ⟨i, by omega, a⟩
    · left; rw [List.getD_eq_default _ _ h]
  · intro f th hz
    obtain ⟨j, l, e, h1, h2, h3, h4, h5, h6⟩ := fold_inv n sz hs hn g zero f hz th _ le_rfl
    have e' : finalCs n sz g zero = l := by rw [finalCs, e]
    have hj : j = n := by
      rcases Nat.lt_or_ge j n with h | h
      · have := off_mono sz (show j ≤ n - 1 by omega)
        unfold totalDeg at h3; omega
      · omega
    rw [e', h6, hj]

/-! ### Soundness -/

/-- The value of gate `i`. -/
theorem G_sound {w : ℕ} (hw : 3 ≤ w) (c : Cols) (sz : ℕ → ℕ) (x : In) (srow : ℤ) (t : Table F) (i : ℕ) (hi : 1 ≤ sz i)
    (h : Sat t (gateOps c w sz x srow i)) : (G c w sz srow i).value t =
      (x.sel i).value t * ∑ k ∈ Finset.range (sz i), x.theta.value t ^ k * (x.cs (off sz i + k)).value t := by
  unfold gateOps at h
  unfold G
  by_cases h1 : sz i = 1
  · rw [if_pos h1] at h ⊢
    rw [multiplication_sound c _ _ t h, h1]
    simp [mulIn]; ring
  · rw [if_neg h1] at h ⊢
    rw [GateComponent.gate_sound hw (by omega) c _ _ t h]
    rw [GateComponent.In.spec, GateComponent.spec, show sz i - 1 + 1 = sz i by omega]
    rfl

/-- The result cell is the last gate's. -/
theorem result_one {w : ℕ} (c : Cols) (sz : ℕ → ℕ) (srow : ℤ) : result c w 1 sz srow = G c w sz srow 0 := by
  unfold result G
  by_cases h : sz 0 = 1
  · rw [if_pos ⟨rfl, h⟩, if_pos h]
    simp [rows, rowOf, gateRows, h, Multiplication.result]
  · rw [if_neg (by tauto), if_neg h]
    simp [rows, rowOf, gateRows, h, GateComponent.result]

theorem result_many {w n : ℕ} (hn : 1 < n) (c : Cols) (sz : ℕ → ℕ) (srow : ℤ) :
    result c w n sz srow = GateComponent.result c w (totalDeg n sz) (srow + rowOf w sz n) := by
  unfold result
  rw [if_neg (by omega), GateComponent.result, rows, if_pos hn]
  congr 1
  push_cast; ring

/-- **C63** (soundness). For every width from three up, every number of gates and every choice of sizes from one up: any
table satisfying the circuit has the combination of all constraints in the result cell. -/
theorem verifier_sound {w n : ℕ} (hw : 3 ≤ w) (hn : 1 ≤ n) (sz : ℕ → ℕ) (hs : ∀ i < n, 1 ≤ sz i) (c : Cols) (x : In) (srow : ℤ)
    (t : Table F) (h : Sat t (circuit c w n sz x srow)) : (result c w n sz srow).value t = x.spec n sz t := by
  unfold circuit at h
  rw [sat_append] at h
  obtain ⟨h1, h2⟩ := h
  have g : ∀ i < n, (G c w sz srow i).value t =
      (x.sel i).value t * ∑ k ∈ Finset.range (sz i), x.theta.value t ^ k * (x.cs (off sz i + k)).value t := by
    intro i hi
    refine G_sound hw c sz x srow t i (hs i hi) fun o ho => h1 o ?_
    exact List.mem_flatMap.2 ⟨i, List.mem_range.2 hi, ho⟩
  have main : (result c w n sz srow).value t = ∑ i ∈ Finset.range n, x.theta.value t ^ off sz i * (G c w sz srow i).value t := by
    by_cases h1 : n = 1
    · subst h1
      rw [result_one]; simp [off]
    · rw [if_pos (by omega), sat_append] at h2
      simp only [sat_cons, sat_nil, and_true, holds_constant] at h2
      obtain ⟨⟨k0, k1⟩, h3⟩ := h2
      have hd : 0 < totalDeg n sz := by
        have := off_lt sz hs (show 0 < n - 1 by omega) (by omega)
        unfold totalDeg; omega
      rw [result_many (by omega), GateComponent.gate_sound hw hd c _ _ t h3, GateComponent.In.spec, GateComponent.spec]
      have := (finalCs_spec (F := F) n sz hs hn (G c w sz srow) (zeroVar c srow)).2 (fun v => v.value t) (x.theta.value t) k0
      simp only [finalIn]
      rw [this, show (oneVar c srow).value t = 1 from k1, one_mul]
  rw [main, In.spec, spec]
  refine Finset.sum_congr rfl fun i hi => ?_
  rw [g i (Finset.mem_range.1 hi), Finset.mul_sum, Finset.mul_sum, Finset.mul_sum]
  refine Finset.sum_congr rfl fun k _ => ?_
  rw [← off_eq, pow_add]; ring

/-! ### Completeness -/

/-- The calls in order. -/
def gateBlock (c : Cols) (w : ℕ) (sz : ℕ → ℕ) (x : In) (srow : ℤ) (i : ℕ) : Block F :=
  if sz i = 1 then mulBlock c (mulIn sz x i) (srow + rowOf w sz i)
  else gcBlock c w (sz i - 1) (gateIn sz x i) (srow + rowOf w sz i)

def blocks (c : Cols) (w n : ℕ) (sz : ℕ → ℕ) (x : In) (srow : ℤ) : List (Block F) :=
  (List.range n).map (gateBlock c w sz x srow) ++
  (if n > 1 then [gcBlock c w (totalDeg n sz) (finalIn c w n sz x srow) (srow + rowOf w sz n)] else [])

theorem gateBlock_rows (c : Cols) (w : ℕ) (sz : ℕ → ℕ) (x : In) (srow : ℤ) (i : ℕ) :
    (gateBlock c w sz x srow i : Block F).rows = gateRows w sz i ∧
    (gateBlock c w sz x srow i : Block F).start = srow + rowOf w sz i := by
  unfold gateBlock gateRows; split_ifs <;> exact ⟨rfl, rfl⟩

theorem rows_range (c : Cols) (w : ℕ) (sz : ℕ → ℕ) (x : In) (srow : ℤ) (i : ℕ) :
    totalRows ((List.range i).map (gateBlock (F := F) c w sz x srow)) = rowOf w sz i := by
  induction i with
  | zero => rfl
  | succ i ih =>
    rw [List.range_succ, List.map_append, totalRows_append, ih, rowOf]
    simp [totalRows, (gateBlock_rows (F := F) c w sz x srow i).1]

theorem rowOf_mono (w : ℕ) (sz : ℕ → ℕ) {i j : ℕ} (h : i ≤ j) : rowOf w sz i ≤ rowOf w sz j := by
  induction h with
  | refl => exact le_rfl
  | step _ ih => exact ih.trans (Nat.le_add_right _ _)

theorem total_blocks (c : Cols) (w n : ℕ) (sz : ℕ → ℕ) (x : In) (srow : ℤ) :
    totalRows (blocks (F := F) c w n sz x srow) = rows w n sz := by
  unfold blocks rows
  rw [totalRows_append, rows_range]
  split_ifs <;> simp [totalRows, gcBlock]

/-- All inputs are outside the component's rows. -/
def In.Outside (x : In) (w n : ℕ) (sz : ℕ → ℕ) (srow : ℤ) : Prop :=
  x.theta.Outside srow (rows w n sz) ∧ (∀ i < n, (x.sel i).Outside srow (rows w n sz)) ∧
  ∀ k < off sz n, (x.cs k).Outside srow (rows w n sz)

/-- The value of gate `i` is on its own rows. -/
theorem G_row {w : ℕ} (hw : 3 ≤ w) (c : Cols) (sz : ℕ → ℕ) (srow : ℤ) (i : ℕ) (hi : 1 ≤ sz i) :
    (G c w sz srow i).type = .witness ∧ (G c w sz srow i).rotation < srow + rowOf w sz (i + 1) := by
  unfold G
  rw [rowOf, gateRows]
  split_ifs with h
  · refine ⟨rfl, ?_⟩
    simp only [Multiplication.result, Cols.wa]; push_cast; omega
  · refine ⟨rfl, ?_⟩
    simp only [GateComponent.result, Cols.wa]; push_cast; omega

theorem laid {w n : ℕ} (hw : 3 ≤ w) (hn : 1 ≤ n) (sz : ℕ → ℕ) (hs : ∀ i < n, 1 ≤ sz i) (c : Cols) (x : In) (srow : ℤ)
    (hx : x.Outside w n sz srow) : Laid srow (blocks (F := F) c w n sz x srow) := by
  obtain ⟨o1, o2, o3⟩ := hx
  refine laid_of_get fun i hi => ?_
  have T := total_blocks (F := F) c w n sz x srow
  have T2 := totalRows_append ((blocks (F := F) c w n sz x srow).take i) ((blocks (F := F) c w n sz x srow).drop i)
  rw [List.take_append_drop, T] at T2
  have len : (blocks (F := F) c w n sz x srow).length = n + (if n > 1 then 1 else 0) := by
    unfold blocks; split_ifs <;> simp
  have tk : totalRows ((blocks (F := F) c w n sz x srow).take i) = rowOf w sz i := by
    have hin : i ≤ n := by rw [len] at hi; split_ifs at hi <;> omega
    unfold blocks
    rw [List.take_append_of_le_length (by simpa using hin), ← List.map_take, List.take_range, Nat.min_eq_left hin, rows_range]
  rw [tk] at T2 ⊢
  have bnd : ∀ v : Var, v.Outside srow (rows w n sz) →
      v.Outside (srow + (rowOf w sz i : ℤ)) (totalRows ((blocks (F := F) c w n sz x srow).drop i)) :=
    fun v hv => hv.mono (by omega) (by omega)
  rcases Nat.lt_or_ge i n with hin | hin
  · have e : (blocks (F := F) c w n sz x srow)[i] = gateBlock c w sz x srow i := by
      simp only [blocks]
      rw [List.getElem_append_left (by simpa using hin)]
      simp
    rw [e]
    refine ⟨(gateBlock_rows (F := F) c w sz x srow i).2, ?_⟩
    have hoff := off_mono sz (show i + 1 ≤ n from hin)
    rw [off] at hoff
    have := hs i hin
    unfold gateBlock
    split_ifs with h1
    · rintro v (rfl | rfl)
      · exact bnd _ (o3 _ (by omega))
      · exact bnd _ (o2 _ hin)
    · rintro v (rfl | rfl | ⟨k, hk, rfl⟩)
      · exact bnd _ o1
      · exact bnd _ (o2 _ hin)
      · exact bnd _ (o3 _ (by omega))
  · have hn1 : n > 1 := by
      by_contra h
      rw [len, if_neg h] at hi; omega
    have hi' : i = n := by rw [len, if_pos hn1] at hi; omega
    subst hi'
    have e : (blocks (F := F) c w i sz x srow)[i] = gcBlock c w (totalDeg i sz) (finalIn c w i sz x srow) (srow + rowOf w sz i) := by
      simp only [blocks]
      rw [List.getElem_append_right (by simp)]
      simp [hn1]
    rw [e]
    refine ⟨rfl, ?_⟩
    have hG : ∀ k, ((finalIn c w i sz x srow).cs k).Outside (srow + (rowOf w sz i : ℤ))
        (totalRows ((blocks (F := F) c w i sz x srow).drop i)) := by
      intro k
      rcases (finalCs_spec (F := F) i sz hs hn (G c w sz srow) (zeroVar c srow)).1 k with h | ⟨j, hj, h⟩
      · simp only [finalIn, h]
        intro hh; simp [zeroVar] at hh
      · simp only [finalIn, h]
        intro _
        left
        have a := (G_row hw c sz srow j (hs j hj)).2
        have b := rowOf_mono w sz (show j + 1 ≤ i from hj)
        omega
    rintro v (rfl | rfl | ⟨k, hk, rfl⟩)
    · exact bnd _ o1
    · intro hh; simp [finalIn, oneVar] at hh
    · exact hG k

theorem blocks_good {w n : ℕ} (hw : 3 ≤ w) (hn : 1 ≤ n) (sz : ℕ → ℕ) (hs : ∀ i < n, 1 ≤ sz i) (c : Cols) (hc : c.OK w) (x : In)
    (srow : ℤ) : ∀ b ∈ blocks (F := F) c w n sz x srow, b.Good c ∧ ∀ t, b.pre t := by
  intro b hb
  unfold blocks at hb
  rw [List.mem_append] at hb
  rcases hb with hb | hb
  · obtain ⟨i, hi, rfl⟩ := List.mem_map.1 hb
    have hi := hs i (List.mem_range.1 hi)
    unfold gateBlock
    split_ifs with h
    · exact ⟨mulBlock_good c hw hc _ _, fun _ => trivial⟩
    · exact ⟨gcBlock_good c hw (by omega) hc _ _, fun _ => trivial⟩
  · split_ifs at hb with h
    · rw [List.mem_singleton.1 hb]
      have hd : 0 < totalDeg n sz := by
        have := off_lt sz hs (show 0 < n - 1 by omega) (by omega)
        unfold totalDeg; omega
      exact ⟨gcBlock_good c hw hd hc _ _, fun _ => trivial⟩
    · simp at hb

theorem assign_eq (c : Cols) (w n : ℕ) (sz : ℕ → ℕ) (x : In) (srow : ℤ) (t : Table F) :
    assign c w n sz x srow t = runAll (blocks c w n sz x srow) t := by
  unfold assign blocks
  rw [runAll_append]
  have : ∀ t : Table F, (List.range n).foldl (fun t i => gateRun c w sz x srow i t) t =
      runAll ((List.range n).map (gateBlock c w sz x srow)) t := by
    intro t
    rw [runAll, List.foldl_map]
    congr 1
    funext t i
    unfold gateRun gateBlock; split_ifs <;> rfl
  rw [← this]
  split_ifs <;> rfl

/-- **C63** (completeness). With the constants written by circuit generation in place, the assigned table satisfies the
circuit; only the component's rows change. -/
theorem verifier_complete {w n : ℕ} (hw : 3 ≤ w) (hn : 1 ≤ n) (sz : ℕ → ℕ) (hs : ∀ i < n, 1 ≤ sz i) (c : Cols) (hc : c.OK w)
    (x : In) (srow : ℤ) (t : Table F) (hx : x.Outside w n sz srow)
    (hk : n > 1 → t .constant (c.k 0) srow = 0 ∧ t .constant (c.k 0) (srow + 1) = 1) :
    Sat (assign c w n sz x srow t) (circuit c w n sz x srow) ∧
    Frame c srow (rows w n sz) t (assign c w n sz x srow t) := by
  have key := seq_complete (fun b hb => (blocks_good hw hn sz hs c hc x srow b hb).1) (laid hw hn sz hs c x srow hx) t
    (fun b hb => (blocks_good hw hn sz hs c hc x srow b hb).2 t)
  rw [total_blocks, ← assign_eq] at key
  refine ⟨?_, key.2⟩
  obtain ⟨k1, k2⟩ := key
  unfold blocks at k1
  rw [List.flatMap_append, sat_append, List.flatMap_map] at k1
  unfold circuit
  rw [sat_append]
  refine ⟨?_, ?_⟩
  · convert k1.1 using 2
    funext i
    unfold gateOps gateBlock; split_ifs <;> rfl
  · have := k1.2
    split_ifs at this ⊢ with h
    · rw [sat_append]
      refine ⟨?_, by simpa [gcBlock] using this⟩
      simp only [sat_cons, sat_nil, and_true, holds_constant, k2.const]
      exact hk h
    · simp

/-- Circuit generation writes exactly those two constants. -/
theorem consts_written {w n : ℕ} (sz : ℕ → ℕ) (c : Cols) (x : In) (srow : ℤ) (t : Table F) (hn : n > 1) :
    let t' := writeConsts (circuit c w n sz x srow) t
    t' .constant (c.k 0) srow = 0 ∧ t' .constant (c.k 0) (srow + 1) = 1 := by
  have hg : ∀ d y s, ∀ u : Table F, writeConsts (GateComponent.circuit c w d y s) u = u := by
    intro d y s u
    refine writeConsts_noConst _ _ fun o ho col row v => ?_
    unfold GateComponent.circuit GateComponent.copies at ho
    simp only [List.mem_append, List.mem_map, List.mem_cons, List.not_mem_nil, or_false] at ho
    rcases ho with ⟨_, _, rfl⟩ | ⟨_, _, rfl⟩ | h | ⟨_, _, rfl⟩ | rfl | rfl <;> try simp
    split_ifs at h
    · simp at h
    · rw [List.mem_singleton.1 h]; simp
  have e : ∀ u : Table F, writeConsts ((List.range n).flatMap (gateOps c w sz x srow)) u = u := by
    intro u
    refine writeConsts_noConst _ _ fun o ho col row v => ?_
    obtain ⟨i, -, ho⟩ := List.mem_flatMap.1 ho
    unfold gateOps at ho
    split_ifs at ho
    · unfold Multiplication.circuit at ho
      simp only [List.mem_cons, List.mem_append] at ho
      rcases ho with rfl | h | h
      · simp
      · split_ifs at h
        · rw [List.mem_singleton.1 h]; simp
        · simp at h
      · split_ifs at h
        · rw [List.mem_singleton.1 h]; simp
        · simp at h
    · unfold GateComponent.circuit GateComponent.copies at ho
      simp only [List.mem_append, List.mem_map, List.mem_cons, List.not_mem_nil, or_false] at ho
      rcases ho with ⟨_, _, rfl⟩ | ⟨_, _, rfl⟩ | h | ⟨_, _, rfl⟩ | rfl | rfl <;> try simp
      split_ifs at h
      · simp at h
      · rw [List.mem_singleton.1 h]; simp
  unfold circuit
  rw [writeConsts_append, e, if_pos hn, writeConsts_append, hg]
  simp [Table.set_apply]

/-! ### Instances -/

/-- Inputs taken from public input columns. -/
def pubIn : In where
  theta := ⟨0, 0, false, .publicInput⟩
  cs i := ⟨0, i + 1, false, .publicInput⟩
  sel i := ⟨1, i, false, .publicInput⟩

theorem pubIn_outside (w n : ℕ) (sz : ℕ → ℕ) (srow : ℤ) : pubIn.Outside w n sz srow := by
  simp [In.Outside, pubIn, Var.Outside]

/-- A constant column with 0 on row 3 and 1 on row 4; public inputs equal to their row plus their column. -/
def tbl : Table (ZMod 101) := fun ty i r => if ty = .constant then (r - 3 : ℤ) else ((r + i + 2 : ℤ) : ZMod 101)

open GateComponent in
/-- Four gates of one, three, one and two constraints. -/
example : Sat (assign (cols 10) 10 4 (fun i => [1, 3, 1, 2].getD i 0) pubIn 3 tbl)
    (circuit (cols 10) 10 4 (fun i => [1, 3, 1, 2].getD i 0) pubIn 3) :=
  (verifier_complete (by omega) (by omega) _ (by decide) _ (cols_ok 10) _ 3 tbl (pubIn_outside _ _ _ _)
    (fun _ => by simp [tbl])).1

open GateComponent in
/-- Two gates of one and two constraints: theta is 2, the constraints are 3, 4, 5 and the selectors 3, 4. -/
example : (result (cols 5) 5 2 (fun i => [1, 2].getD i 0) 3).value (assign (cols 5) 5 2 (fun i => [1, 2].getD i 0) pubIn 3 tbl) =
    3 * 3 + 4 * (2 * 4 + 4 * 5) := by
  have hc := verifier_complete (w := 5) (n := 2) (by omega) (by omega) (fun i => [1, 2].getD i 0) (by decide) _ (cols_ok 5) pubIn 3 tbl
    (pubIn_outside _ _ _ _) (fun _ => by simp [tbl])
  rw [verifier_sound (by omega) (by omega) _ (by decide) _ _ _ _ hc.1]
  have o := pubIn_outside 5 2 (fun i => [1, 2].getD i 0) 3
  have e1 : pubIn.theta.value (assign (cols 5) 5 2 (fun i => [1, 2].getD i 0) pubIn 3 tbl) = 2 := by
    rw [hc.2.outside o.1]; simp [pubIn, Var.value, tbl]
  have e2 : ∀ i, (pubIn.sel i).value (assign (cols 5) 5 2 (fun i => [1, 2].getD i 0) pubIn 3 tbl) = (i + 3 : ℤ) := by
    intro i
    rw [hc.2.outside (by simp [pubIn, Var.Outside])]; simp [pubIn, Var.value, tbl]; ring
  have e3 : ∀ i, (pubIn.cs i).value (assign (cols 5) 5 2 (fun i => [1, 2].getD i 0) pubIn 3 tbl) = (i + 3 : ℤ) := by
    intro i
    rw [hc.2.outside (by simp [pubIn, Var.Outside])]; simp [pubIn, Var.value, tbl]; ring
  simp only [In.spec, spec, e1, e2, e3]
  decide

end GateVerifier
end Verif
