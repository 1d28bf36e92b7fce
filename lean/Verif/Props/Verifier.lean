import Verif.Model.Verifier
import Verif.Props.Poseidon
import Verif.Props.Flexible
import Verif.Props.XIndex
import Verif.Props.Colinear
import Verif.Core.Seq

/-!
# C74, C75, C76: the verifier circuit
-/

set_option linter.unusedSimpArgs false
set_option linter.unusedVariables false
set_option linter.unusedSectionVars false

namespace Verif
namespace Verifier

variable {F : Type*} [Field F] [DecidableEq F]

/-! ### Specification -/

/-- The Poseidon compression of three elements. -/
def H (mds rc : ℕ → ℕ → F) (a b d : F) : F := Poseidon.perm (Poseidon.mat mds) (Poseidon.cst rc) ![a, b, d] 2

/-- A transcript: the state after absorbing pairs. -/
def absorb (mds rc : ℕ → ℕ → F) (s : F) (l : List (F × F)) : F := l.foldl (fun s x => H mds rc s x.1 x.2) s

/-- The root reached from a leaf; `true` puts the running hash on the left. -/
def root (node : F → F → F) : F → List (Bool × F) → F
  | s, [] => s
  | s, (true, h) :: l => root node (node s h) l
  | s, (false, h) :: l => root node (node h s) l

/-- The leaf `s` is opened at the position given by field elements `pos` with the siblings `sib` under the root `rt`. -/
def Opens (node : F → F → F) (s : F) (pos sib : List F) (rt : F) : Prop :=
  ∃ bs : List Bool, pos = bs.map (fun b => if b then 1 else 0) ∧ rt = root node s (bs.zip sib)

/-! ### Hashes -/

theorem hash_value {p : Params F} (hw : 0 < p.w) (h3 : 3 ∣ p.w) {a b d : Var} {row : ℤ} {t : Table F} (h : Sat t (hash p a b d row)) :
    (hout p row).value t = H p.mds p.rc (a.value t) (b.value t) (d.value t) := by
  have := Poseidon.Flex.flexPoseidon_sound p.c p.w hw h3 p.mds p.rc _ row t h 2
  unfold hout H
  rw [show ((2 : Fin 3) : ℕ) = 2 from rfl] at this
  rw [this]
  congr 1
  funext i
  fin_cases i <;> rfl

def vals (t : Table F) (l : List (Var × Var)) : List (F × F) := l.map fun x => (x.1.value t, x.2.value t)

theorem feed_value {p : Params F} (hw : 0 < p.w) (h3 : 3 ∣ p.w) {t : Table F} (l : List (Var × Var)) (s : Var) (row : ℤ)
    (h : Sat t (feed p s l row).1) : (feed p s l row).2.2.value t = absorb p.mds p.rc (s.value t) (vals t l) := by
  induction l generalizing s row with
  | nil => rfl
  | cons x l ih =>
    obtain ⟨b, d⟩ := x
    simp only [feed, sat_append] at h ⊢
    rw [ih _ _ h.2, hash_value hw h3 h.1]
    rfl

theorem feed_row (p : Params F) (l : List (Var × Var)) (s : Var) (row : ℤ) :
    (feed p s l row).2.1 = row + (l.length * hrows p : ℕ) := by
  induction l generalizing s row with
  | nil => simp [feed]
  | cons x l ih =>
    obtain ⟨b, d⟩ := x
    simp only [feed, List.length_cons, ih]
    push_cast; ring

theorem feed_out (p : Params F) (l : List (Var × Var)) (s : Var) (row : ℤ) (hl : 0 < l.length) :
    (feed p s l row).2.2 = hout p (row + ((l.length - 1) * hrows p : ℕ)) := by
  induction l generalizing s row with
  | nil => simp at hl
  | cons x l ih =>
    obtain ⟨b, d⟩ := x
    rcases Nat.eq_zero_or_pos l.length with h0 | h0
    · rw [List.length_eq_zero_iff] at h0; subst h0
      simp [feed]
    · simp only [feed, List.length_cons, ih _ _ h0]
      congr 1
      have : l.length + 1 - 1 = (l.length - 1) + 1 := by omega
      rw [this]; push_cast; ring

theorem feed_append (p : Params F) (l l' : List (Var × Var)) (s : Var) (row : ℤ) :
    feed p s (l ++ l') row =
      ((feed p s l row).1 ++ (feed p (feed p s l row).2.2 l' (feed p s l row).2.1).1, (feed p (feed p s l row).2.2 l' (feed p s l row).2.1).2) := by
  induction l generalizing s row with
  | nil => simp [feed]
  | cons x l ih =>
    obtain ⟨b, d⟩ := x
    simp only [List.cons_append, feed, ih, List.append_assoc]

/-- Every intermediate output. -/
theorem feed_each {p : Params F} (hw : 0 < p.w) (h3 : 3 ∣ p.w) {t : Table F} (l : List (Var × Var)) (s : Var) (row : ℤ)
    (h : Sat t (feed p s l row).1) (k : ℕ) (hk : k < l.length) :
    (hout p (row + (k * hrows p : ℕ))).value t = absorb p.mds p.rc (s.value t) (vals t (l.take (k + 1))) := by
  have e := List.take_append_drop (k + 1) l
  rw [← e, feed_append, sat_append] at h
  rw [← feed_value hw h3 _ s row h.1, feed_out _ _ _ _ (by rw [List.length_take]; omega), List.length_take]
  congr 3
  have : min (k + 1) l.length - 1 = k := by omega
  rw [this]

/-! ### Merkle paths -/

theorem path_row (p : Params F) (z : Var) (l : List (Var × Var)) (s : Var) (row : ℤ) :
    (path p z s l row).2.1 = row + (l.length * hrows p : ℕ) := by
  induction l generalizing s row with
  | nil => simp [path]
  | cons x l ih =>
    obtain ⟨b, d⟩ := x
    simp only [path, List.length_cons, ih]
    push_cast; ring

theorem path_value {p : Params F} (hw : 0 < p.w) (h3 : 3 ∣ p.w) {t : Table F} {z : Var} (hz : z.value t = 0) (l : List (Var × Var)) (s : Var)
    (row : ℤ) (h : Sat t (path p z s l row).1) :
    Opens (H p.mds p.rc 0) (s.value t) (l.map fun x => x.1.value t) (l.map fun x => x.2.value t) ((path p z s l row).2.2.value t) := by
  induction l generalizing s row with
  | nil => exact ⟨[], rfl, rfl⟩
  | cons x l ih =>
    obtain ⟨b, d⟩ := x
    simp only [path, sat_append] at h
    obtain ⟨⟨h1, h2⟩, h4⟩ := h
    obtain ⟨bs, e1, e2⟩ := ih _ _ h4
    obtain ⟨hb, hb0, hb1⟩ := swap_sound _ _ _ _ h1
    rw [hash_value hw h3 h2, hz] at e2
    simp only [path, List.map_cons]
    rcases hb with hb | hb
    · obtain ⟨o1, o2⟩ := hb0 hb
      refine ⟨false :: bs, by simp [hb, e1], ?_⟩
      rw [e2, o1, o2]; rfl
    · obtain ⟨o1, o2⟩ := hb1 hb
      refine ⟨true :: bs, by simp [hb, e1], ?_⟩
      rw [e2, o1, o2]; rfl

/-! ### Queries -/

/-- What is checked of batch number `m` (counting from the one with number `j`), with the counters of the start. -/
def BatchOk (p : Params F) (inp : Input) (srow : ℤ) (t : Table F) (i : ℕ) (l : List ℕ) (j cur curHash m : ℕ) : Prop :=
  Opens (H p.mds p.rc 0)
    (absorb p.mds p.rc 0 ((List.range (l.getD m 0)).map fun k =>
      ((inp.initialValues i (cur + 2 * ((l.take m).sum + k))).value t, (inp.initialValues i (cur + 2 * ((l.take m).sum + k) + 1)).value t)))
    ((List.range p.size).map fun k => (inp.positions i k).value t)
    ((List.range p.size).map fun k => (inp.initialHashes i (curHash + m * p.size + k)).value t)
    ((if j + m = 0 then vk1Var p srow else inp.commitments (j + m - 1)).value t)

theorem batchOk_iff (p : Params F) (inp : Input) (srow : ℤ) (t : Table F) (i : ℕ) (l : List ℕ) (j cur curHash m : ℕ) :
    BatchOk p inp srow t i l j cur curHash m ↔ Opens (H p.mds p.rc 0)
      (absorb p.mds p.rc 0 (vals t (leafPairs inp i (cur + 2 * (l.take m).sum) (l.getD m 0))))
      ((List.range p.size).map fun k => (inp.positions i k).value t)
      ((List.range p.size).map fun k => (inp.initialHashes i (curHash + m * p.size + k)).value t)
      ((if j + m = 0 then vk1Var p srow else inp.commitments (j + m - 1)).value t) := by
  have e : ((List.range (l.getD m 0)).map fun k => ((inp.initialValues i (cur + 2 * ((l.take m).sum + k))).value t,
      (inp.initialValues i (cur + 2 * ((l.take m).sum + k) + 1)).value t)) = vals t (leafPairs inp i (cur + 2 * (l.take m).sum) (l.getD m 0)) := by
    unfold vals leafPairs
    rw [List.map_map]
    apply List.map_congr_left
    intro k _
    simp only [Function.comp_apply, show cur + 2 * ((l.take m).sum + k) = cur + 2 * (l.take m).sum + 2 * k by ring]
  unfold BatchOk
  rw [e]

theorem batchLoop_sound {p : Params F} (hw : 0 < p.w) (h3 : 3 ∣ p.w) (inp : Input) (srow : ℤ) {t : Table F}
    (hz : (zero p srow).value t = 0) (i : ℕ) (l : List ℕ) (j cur curHash : ℕ) (row : ℤ)
    (h : Sat t (batchLoop p inp srow i l j cur curHash row).1) (m : ℕ) (hm : m < l.length) :
    BatchOk p inp srow t i l j cur curHash m := by
  induction l generalizing j cur curHash row m with
  | nil => simp at hm
  | cons n l ih =>
    simp only [batchLoop, sat_append, sat_cons, holds_copy, sat_nil, and_true] at h
    obtain ⟨⟨⟨h1, h2⟩, h4⟩, h5⟩ := h
    cases m with
    | zero =>
      have e1 := feed_value hw h3 _ _ _ h1
      have e2 := path_value hw h3 hz _ _ _ h2
      rw [h4, e1, hz] at e2
      rw [batchOk_iff]
      simpa [List.map_map, Function.comp_def] using e2
    | succ m =>
      have := ih (j + 1) (cur + 2 * n) (curHash + p.size) _ h5 m (by simpa using hm)
      rw [batchOk_iff] at this ⊢
      rw [show cur + 2 * n + 2 * (l.take m).sum = cur + 2 * ((n :: l).take (m + 1)).sum by simp; ring,
        show curHash + p.size + m * p.size = curHash + (m + 1) * p.size by ring, show j + 1 + m = j + (m + 1) by omega] at this
      exact this

theorem batchLoop_row (p : Params F) (inp : Input) (srow : ℤ) (i : ℕ) (l : List ℕ) (j cur curHash : ℕ) (row : ℤ) :
    (batchLoop p inp srow i l j cur curHash row).2 = row + ((l.map fun n => (n + p.size) * hrows p).sum : ℕ) := by
  induction l generalizing j cur curHash row with
  | nil => simp [batchLoop]
  | cons n l ih =>
    simp only [batchLoop, ih, path_row, feed_row, List.length_map, List.length_range, leafPairs, List.map_cons, List.sum_cons]
    push_cast; ring

/-- What is checked of round `j`: `off` is the number of hashes of the rounds before. -/
def RoundOk (p : Params F) (inp : Input) (t : Table F) (i j off : ℕ) : Prop :=
  Opens (H p.mds p.rc 0)
    (H p.mds p.rc 0 ((inp.roundValues i (2 * (j - 1))).value t) ((inp.roundValues i (2 * (j - 1) + 1)).value t))
    ((List.range (p.size - j)).map fun k => (inp.positions i k).value t)
    ((List.range (p.size - j)).map fun k => (inp.roundHashes i (off + k)).value t)
    ((inp.roots j).value t)

/-- Hashes in the rounds `j, ..., j + m - 1`. -/
def offset (size j m : ℕ) : ℕ := ((List.range m).map fun k => size - (j + k)).sum

theorem offset_succ (size j m : ℕ) : offset size j (m + 1) = size - j + offset size (j + 1) m := by
  unfold offset
  rw [List.range_succ_eq_map, List.map_cons, List.sum_cons, List.map_map]
  simp only [Nat.add_zero, Function.comp_def, Nat.succ_eq_add_one]
  congr 3
  funext k
  congr 1; omega

theorem roundLoop_sound {p : Params F} (hw : 0 < p.w) (h3 : 3 ∣ p.w) (inp : Input) (srow : ℤ) {t : Table F}
    (hz : (zero p srow).value t = 0) (i n j curHash : ℕ) (row : ℤ) (h : Sat t (roundLoop p inp srow i n j curHash row).1) (m : ℕ)
    (hm : m < n) : RoundOk p inp t i (j + m) (curHash + offset p.size j m) := by
  induction n generalizing j curHash row m with
  | zero => omega
  | succ n ih =>
    simp only [roundLoop, sat_append, sat_cons, holds_copy, sat_nil, and_true] at h
    obtain ⟨⟨⟨h1, h2⟩, h4⟩, h5⟩ := h
    cases m with
    | zero =>
      have e1 := feed_value hw h3 _ _ _ h1
      have e2 := path_value hw h3 hz _ _ _ h2
      rw [h4, e1, hz] at e2
      unfold RoundOk
      simpa [List.map_map, Function.comp_def, offset, absorb, vals] using e2
    | succ m =>
      have := ih (j + 1) (curHash + (p.size - j)) _ h5 m (by omega)
      rw [show j + (m + 1) = j + 1 + m by omega, offset_succ, ← Nat.add_assoc]
      exact this

theorem roundLoop_row (p : Params F) (inp : Input) (srow : ℤ) (i n j curHash : ℕ) (row : ℤ) :
    (roundLoop p inp srow i n j curHash row).2 = row + (((List.range n).map fun k => (1 + (p.size - (j + k))) * hrows p).sum : ℕ) := by
  induction n generalizing j curHash row with
  | zero => simp [roundLoop]
  | succ n ih =>
    simp only [roundLoop, ih, path_row, feed_row, List.length_map, List.length_range, List.length_cons, List.length_nil]
    rw [List.range_succ_eq_map, List.map_cons, List.sum_cons, List.map_map]
    have e : (fun k => (1 + (p.size - (j + k))) * hrows p) ∘ Nat.succ = fun k => (1 + (p.size - (j + 1 + k))) * hrows p := by
      funext k
      simp only [Function.comp_apply, Nat.succ_eq_add_one]
      rw [show j + (k + 1) = j + 1 + k by omega]
    rw [e, Nat.add_zero, Nat.add_mul 1]
    generalize ((List.range n).map fun k => (1 + (p.size - (j + 1 + k))) * hrows p).sum = S
    push_cast; ring_nf

theorem queries_sound {p : Params F} (inp : Input) (srow : ℤ) {t : Table F} (n i : ℕ) (row : ℤ)
    (h : Sat t (queries p inp srow n i row).1) (m : ℕ) (hm : m < n) : ∃ row', Sat t (query p inp srow (i + m) row').1 := by
  induction n generalizing i row m with
  | zero => omega
  | succ n ih =>
    simp only [queries, sat_append] at h
    cases m with
    | zero => exact ⟨row, h.1⟩
    | succ m =>
      obtain ⟨row', h'⟩ := ih (i + 1) _ h.2 m (by omega)
      exact ⟨row', by rw [show i + (m + 1) = i + 1 + m by omega]; exact h'⟩

def queryRows (p : Params F) : ℕ :=
  (p.batches.map fun n => (n + p.size) * hrows p).sum + ((List.range (p.r - 1)).map fun k => (1 + (p.size - (1 + k))) * hrows p).sum

theorem queries_row (p : Params F) (inp : Input) (srow : ℤ) (n i : ℕ) (row : ℤ) :
    (queries p inp srow n i row).2 = row + (n * queryRows p : ℕ) := by
  induction n generalizing i row with
  | zero => simp [queries]
  | succ n ih =>
    simp only [queries, query, ih, batchLoop_row, roundLoop_row, queryRows]
    push_cast; ring

/-! ### The whole circuit -/

theorem circuit_parts (p : Params F) (inp : Input) (srow : ℤ) (t : Table F) (h : Sat t (circuit p inp srow).1) :
    (zero p srow).value t = 0 ∧ (vk0Var p srow).value t = p.vk0 ∧ (vk1Var p srow).value t = p.vk1 ∧
      Sat t (feed p (zero p srow) (absorb1 p inp srow ++ absorb2 p inp srow) srow).1 ∧
      (hout p (srow + (12 * hrows p : ℕ))).value t = inp.challenge.value t ∧
      Sat t (middle p inp srow (srow + ((15 + p.r + p.lambda) * hrows p : ℕ))).1 ∧
      ∃ row, Sat t (queries p inp srow p.lambda 0 row).1 := by
  simp only [circuit, sat_append, sat_cons, holds_constant, holds_copy, sat_nil, and_true] at h
  obtain ⟨⟨⟨⟨⟨⟨c0, c1, c2, c3⟩, ha⟩, hx⟩, hb⟩, hm⟩, hq⟩ := h
  refine ⟨c0, c2, c3, ?_, ?_, ?_, ⟨_, hq⟩⟩
  · rw [feed_append, sat_append]; exact ⟨ha, hb⟩
  · rw [← hx, feed_out _ _ _ _ (by simp [absorb1])]
    rfl
  · convert hm using 3
    rw [feed_row, feed_row]
    simp only [absorb1, absorb2, List.length_append, List.length_cons, List.length_nil, List.length_replicate, List.length_map, List.length_range]
    push_cast; ring

/-- **C74: the challenges are those of the transcript.** In every accepted table the challenge given as input is the Poseidon transcript
of the verification key and the commitments, and so are the other challenges. -/
theorem transcript_sound (p : Params F) (hw : 0 < p.w) (h3 : 3 ∣ p.w) (inp : Input) (srow : ℤ) (t : Table F)
    (h : Sat t (circuit p inp srow).1) :
    let c := fun k => (inp.commitments k).value t
    let first := [(p.vk0, p.vk1), (c 0, 0), (0, 0), (c 1, 0)] ++ List.replicate 8 (0, 0) ++ [(c 2, 0)]
    let all := first ++ [(p.vk1, c 0), (c 1, c 2)] ++ (List.range p.r).map (fun i => ((inp.roots i).value t, 0)) ++ List.replicate p.lambda (0, 0)
    inp.challenge.value t = absorb p.mds p.rc 0 first ∧
      ∀ k < all.length, (challenge p srow k).value t = absorb p.mds p.rc 0 (all.take (k + 1)) := by
  intro c first all
  obtain ⟨h0, hv0, hv1, hf, hx, -, -⟩ := circuit_parts p inp srow t h
  have e : vals t (absorb1 p inp srow ++ absorb2 p inp srow) = all := by
    simp [vals, absorb1, absorb2, all, first, c, h0, hv0, hv1, List.map_append]
  have hl : all.length = (absorb1 p inp srow ++ absorb2 p inp srow).length := by rw [← e]; simp [vals]
  have key : ∀ k < all.length, (challenge p srow k).value t = absorb p.mds p.rc 0 (all.take (k + 1)) := by
    intro k hk
    have := feed_each hw h3 _ _ _ hf k (by rw [← hl]; exact hk)
    rw [h0] at this
    rw [← e, challenge, this]
    simp [vals, List.map_take]
  refine ⟨?_, key⟩
  have hlen : 12 < all.length := by simp [all, first]
  rw [← hx, show hout p (srow + (12 * hrows p : ℕ)) = challenge p srow 12 from rfl, key 12 hlen]
  congr 1

/-- **C75: the Merkle openings.** In every accepted table every query opens, at the same bits, every batch of the initial proof under the
verification key or the commitment of the batch, and every round but the first under its root. -/
theorem merkle_sound (p : Params F) (hw : 0 < p.w) (h3 : 3 ∣ p.w) (inp : Input) (srow : ℤ) (t : Table F)
    (h : Sat t (circuit p inp srow).1) (i : ℕ) (hi : i < p.lambda) :
    (∀ m < p.batches.length, BatchOk p inp srow t i p.batches 0 0 0 m) ∧
      ∀ j, 0 < j → j < p.r → RoundOk p inp t i j (p.size + offset p.size 1 (j - 1)) := by
  obtain ⟨h0, -, -, -, -, -, row, hq⟩ := circuit_parts p inp srow t h
  obtain ⟨row', hq'⟩ := queries_sound inp srow _ _ _ hq i hi
  rw [Nat.zero_add] at hq'
  simp only [query, sat_append] at hq'
  refine ⟨fun m hm => batchLoop_sound hw h3 inp srow h0 i _ 0 0 0 _ hq'.1 m hm, fun j hj hj' => ?_⟩
  have := roundLoop_sound hw h3 inp srow h0 i (p.r - 1) 1 p.size _ hq'.2 (j - 1) (by omega)
  rwa [show 1 + (j - 1) = j by omega] at this

/-- **C74: the rows.** The circuit ends exactly `rows_amount` rows after its start. -/
theorem rows_exact (p : Params F) (inp : Input) (srow : ℤ) (hs : p.r ≤ p.size + 1) :
    (circuit p inp srow).2 = srow + (rowsAmount p : ℕ) := by
  simp only [circuit, queries_row, middle, feed_row]
  have e1 : (absorb1 p inp srow).length = 13 := by simp [absorb1]
  have e2 : (absorb2 p inp srow).length = 2 + p.r + p.lambda := by simp [absorb2]; ring
  have e3 : (p.batches.map fun b => hrows p * b * p.lambda + hrows p * p.size * p.lambda).sum =
      p.lambda * (p.batches.map fun n => (n + p.size) * hrows p).sum := by
    rw [← List.sum_map_mul_left]
    congr 2; funext b; ring
  have e4 : ((List.range (p.r - 1)).map fun i => hrows p * p.lambda * (p.size - i)).sum =
      p.lambda * ((List.range (p.r - 1)).map fun k => (1 + (p.size - (1 + k))) * hrows p).sum := by
    rw [← List.sum_map_mul_left]
    congr 1
    apply List.map_congr_left
    intro k hk
    have := List.mem_range.1 hk
    rw [show 1 + (p.size - (1 + k)) = p.size - k by omega]; ring
  rw [e1, e2]
  unfold rowsAmount
  rw [e3, e4, queryRows]
  push_cast; ring

/-! ### What a table with given fixed columns can be completed to -/

/-- The constants recorded by the circuit are in the constant column. -/
structure Fixed (p : Params F) (srow : ℤ) (t : Table F) : Prop where
  zero : t .constant (p.c.k 0) srow = 0
  one : t .constant (p.c.k 0) (srow + 1) = 1
  vk0 : t .constant (p.c.k 0) (srow + 2) = p.vk0
  vk1 : t .constant (p.c.k 0) (srow + 3) = p.vk1
  omega : ∀ i < p.lambda, ∀ r < XIndex.rows p.w p.size, t .constant (p.c.k 0) (srow + ((15 + p.r + p.lambda) * hrows p : ℕ) +
    (p.lambda * ConstantPow.rows p.w p.pow : ℕ) + (i * XIndex.rows p.w p.size : ℕ) + (r : ℤ)) = p.omega

/-- The places of the swaps: past the rows of the component, five columns each, disjoint. -/
structure Places (p : Params F) (E : ℤ) : Prop where
  ok : ∀ q, (p.place q).1.OK 5
  past : ∀ q, E ≤ (p.place q).2
  disj : ∀ q q', q ≠ q' → (p.place q).2 ≠ (p.place q').2 ∨ ∀ i ∈ (p.place q).1.W, i ∉ (p.place q').1.W

/-- Cells of a swap. -/
def SC (p : Params F) (q : Swap.In) (i : ℕ) (r : ℤ) : Prop := r = (p.place q).2 ∧ i ∈ (p.place q).1.W

/-- The cells in use when the component has come to `row`. -/
def K (p : Params F) (row : ℤ) (ty : ColType) (i : ℕ) (r : ℤ) : Prop :=
  ty ≠ .witness ∨ r < row ∨ ∃ q, q.d.rotation + 1 < row ∧ SC p q i r

def Agr (p : Params F) (row : ℤ) (t t' : Table F) : Prop := ∀ ty i r, K p row ty i r → t' ty i r = t ty i r

theorem Agr.mono {p : Params F} {row row' : ℤ} {t t' : Table F} (h : Agr p row' t t') (hr : row ≤ row') : Agr p row t t' := by
  intro ty i r hk
  apply h
  rcases hk with h | h | ⟨q, h, h'⟩
  · exact Or.inl h
  · exact Or.inr (Or.inl (by omega))
  · exact Or.inr (Or.inr ⟨q, by omega, h'⟩)

theorem Agr.trans {p : Params F} {row : ℤ} {t t' t'' : Table F} (h : Agr p row t t') (h' : Agr p row t' t'') : Agr p row t t'' :=
  fun ty i r hk => (h' ty i r hk).trans (h ty i r hk)

theorem Agr.refl (p : Params F) (row : ℤ) (t : Table F) : Agr p row t t := fun _ _ _ _ => rfl

theorem Agr.const {p : Params F} {row : ℤ} {t t' : Table F} (h : Agr p row t t') : SameConst t t' := fun ty i r hty => h ty i r (Or.inl hty)

theorem agr_of_frame {p : Params F} {E : ℤ} (hp : Places p E) {row : ℤ} {n : ℕ} (hE : row + n ≤ E) {t t' : Table F}
    (h : Frame p.c row n t t') : Agr p row t t' := by
  intro ty i r hk
  apply h
  rintro ⟨h1, h2, h3, h4⟩
  rcases hk with hk | hk | ⟨q, -, hk, -⟩
  · exact hk h1
  · omega
  · have := hp.past q; omega

theorem agr_of_swap {p : Params F} {E : ℤ} (hp : Places p E) {row : ℤ} (hE : row ≤ E) {q : Swap.In} (hq : row ≤ q.d.rotation + 1)
    {t t' : Table F} (h : Frame (p.place q).1 (p.place q).2 1 t t') : Agr p row t t' := by
  intro ty i r hk
  apply h
  rintro ⟨h1, h2, h3, h4⟩
  have := hp.past q
  rcases hk with hk | hk | ⟨q', hq', hk, hk'⟩
  · exact hk h1
  · omega
  · have hne : q ≠ q' := by rintro rfl; omega
    rcases hp.disj q q' hne with h | h
    · apply h; push_cast at h4; omega
    · exact h i h2 hk'

def Dep (p : Params F) (row : ℤ) (ops : List (Op F)) : Prop := ∀ t t', Agr p row t t' → Sat t ops → Sat t' ops

def Seen (p : Params F) (row : ℤ) (v : Var) : Prop := v.type ≠ .witness ∨ v.rotation < row ∨ ∃ q, q.d.rotation + 1 < row ∧ SC p q v.index v.rotation

theorem Seen.value {p : Params F} {row : ℤ} {v : Var} (h : Seen p row v) {t t' : Table F} (ha : Agr p row t t') : v.value t' = v.value t :=
  ha _ _ _ h

theorem Seen.mono {p : Params F} {row row' : ℤ} {v : Var} (h : Seen p row v) (hr : row ≤ row') : Seen p row' v := by
  rcases h with h | h | ⟨q, h, h'⟩
  · exact Or.inl h
  · exact Or.inr (Or.inl (by omega))
  · exact Or.inr (Or.inr ⟨q, by omega, h'⟩)

/-- The constraints can be met from `row` on without touching what is in use, and they use cells below `row'` only. -/
structure Do (p : Params F) (E : ℤ) (t0 : Table F) (row row' : ℤ) (ops : List (Op F)) : Prop where
  le : row ≤ row'
  make : ∀ t, SameConst t0 t → ∃ t', Agr p row t t' ∧ Sat t' ops
  dep : Dep p row' ops

theorem Do.nil (p : Params F) (E : ℤ) (t0 : Table F) (row : ℤ) : Do p E t0 row row [] :=
  ⟨le_rfl, fun t _ => ⟨t, Agr.refl _ _ _, by simp⟩, fun _ _ _ _ => by simp⟩

theorem SameConst.trans {t t' t'' : Table F} (h : SameConst t t') (h' : SameConst t' t'') : SameConst t t'' :=
  fun ty i r hty => (h' ty i r hty).trans (h ty i r hty)

theorem Do.append {p : Params F} {E : ℤ} {t0 : Table F} {row row1 row2 : ℤ} {A B : List (Op F)} (hA : Do p E t0 row row1 A)
    (hB : Do p E t0 row1 row2 B) : Do p E t0 row row2 (A ++ B) := by
  refine ⟨hA.le.trans hB.le, fun t ht => ?_, fun t t' h hs => ?_⟩
  · obtain ⟨t1, a1, s1⟩ := hA.make t ht
    obtain ⟨t2, a2, s2⟩ := hB.make t1 (SameConst.trans ht a1.const)
    exact ⟨t2, a1.trans (a2.mono hA.le), (sat_append _ _).2 ⟨hA.dep _ _ a2 s1, s2⟩⟩
  · rw [sat_append] at hs ⊢
    exact ⟨hA.dep _ _ (h.mono hB.le) hs.1, hB.dep _ _ h hs.2⟩

theorem Do.copy {p : Params F} {E : ℤ} {t0 : Table F} {row row' : ℤ} {A : List (Op F)} (hA : Do p E t0 row row' A) {a b : Var}
    (ha : Seen p row' a) (hb : Seen p row' b) (h : ∀ t, SameConst t0 t → Sat t A → a.value t = b.value t) :
    Do p E t0 row row' (A ++ [.copy a b]) := by
  refine ⟨hA.le, fun t ht => ?_, fun t t' hh hs => ?_⟩
  · obtain ⟨t1, a1, s1⟩ := hA.make t ht
    exact ⟨t1, a1, (sat_append _ _).2 ⟨s1, by simpa using h t1 (SameConst.trans ht a1.const) s1⟩⟩
  · rw [sat_append] at hs ⊢
    refine ⟨hA.dep _ _ hh hs.1, ?_⟩
    simpa [ha.value hh, hb.value hh] using hs.2

variable {p : Params F} {E : ℤ} {t0 : Table F}

theorem hash_dep (hw : 0 < p.w) (h3 : 3 ∣ p.w) {a b d : Var} {row : ℤ} (ha : Seen p (row + hrows p) a) (hb : Seen p (row + hrows p) b)
    (hd : Seen p (row + hrows p) d) : Dep p (row + hrows p) (hash p a b d row) := by
  obtain ⟨cap, hcap⟩ := h3
  intro t t' hag h
  have hpos : 0 < cap := by omega
  unfold hash at h ⊢
  rw [hcap, Poseidon.Flex.circuit_iff _ _ hpos] at h ⊢
  have hcell : ∀ b ≤ Poseidon.rounds, ∀ j, Poseidon.Flex.cell p.c cap row t' b j = Poseidon.Flex.cell p.c cap row t b j := by
    intro b hb j
    unfold Poseidon.Flex.cell
    apply hag
    right; left
    have : b / cap < hrows p := by
      unfold hrows Poseidon.Flex.rows
      rw [hcap]
      simp only [Nat.mul_div_cancel_left _ (show 0 < 3 by norm_num)]
      split_ifs with h0
      · rw [Nat.div_lt_iff_lt_mul hpos]
        have := Nat.div_add_mod (Poseidon.rounds + 1) cap
        rw [h0, Nat.mul_comm] at this
        omega
      · have : b / cap ≤ (Poseidon.rounds + 1) / cap := Nat.div_le_div_right (by omega)
        omega
    omega
  obtain ⟨h1, h2⟩ := h
  refine ⟨fun r hr j hj => ?_, fun j hj => ?_⟩
  · rw [hcell _ (by omega), h1 r hr j hj]
    congr 1
    funext k
    exact (hcell r hr.le k).symm
  · rw [hcell 0 (Nat.zero_le _), h2 j hj]
    split_ifs
    · exact (ha.value hag).symm
    · exact (hb.value hag).symm
    · exact (hd.value hag).symm

theorem hrows_pos (hw : 0 < p.w) (h3 : 3 ∣ p.w) : 0 < hrows p := by
  obtain ⟨cap, hcap⟩ := h3
  have hpos : 0 < cap := by omega
  unfold hrows Poseidon.Flex.rows
  rw [hcap]
  simp only [Nat.mul_div_cancel_left _ (show 0 < 3 by norm_num)]
  split_ifs with h0
  · apply Nat.div_pos _ hpos
    exact Nat.le_of_dvd (Nat.succ_pos _) (Nat.dvd_of_mod_eq_zero h0)
  · exact Nat.succ_pos _

theorem hash_do (hw : 0 < p.w) (h3 : 3 ∣ p.w) (hc : p.c.OK p.w) (hp : Places p E) {a b d : Var} {row : ℤ} (hE : row + hrows p ≤ E)
    (ha : Seen p (row + hrows p) a) (hb : Seen p (row + hrows p) b) (hd : Seen p (row + hrows p) d) (ha' : a.Outside row (hrows p))
    (hb' : b.Outside row (hrows p)) (hd' : d.Outside row (hrows p)) : Do p E t0 row (row + hrows p) (hash p a b d row) := by
  refine ⟨by omega, fun t _ => ?_, hash_dep hw h3 ha hb hd⟩
  have := Poseidon.Flex.flexPoseidon_complete p.c p.w hw h3 hc p.mds p.rc (fun i => if i = 0 then a else if i = 1 then b else d) row t (by
    intro j _
    split_ifs
    · exact ha'
    · exact hb'
    · exact hd')
  exact ⟨_, agr_of_frame hp hE this.2.1, this.1⟩

/-- Not a witness. -/
def NW (v : Var) : Prop := v.type ≠ .witness

theorem NW.seen {v : Var} (h : NW v) (row : ℤ) : Seen p row v := Or.inl h
theorem NW.out {v : Var} (h : NW v) (row : ℤ) (n : ℕ) : v.Outside row n := fun h' => absurd h' h
theorem NW.value {v : Var} (h : NW v) {t t' : Table F} (ht : SameConst t t') : v.value t' = v.value t := ht _ _ _ h

/-- Not a witness, or one of an earlier row. -/
def Low (row : ℤ) (v : Var) : Prop := NW v ∨ v.rotation < row

theorem Low.seen {v : Var} {row row' : ℤ} (h : Low row v) (hr : row ≤ row') : Seen p row' v := by
  rcases h with h | h
  · exact Or.inl h
  · exact Or.inr (Or.inl (by omega))
theorem Low.out {v : Var} {row : ℤ} (h : Low row v) (n : ℕ) : v.Outside row n := by
  rcases h with h | h
  · exact h.out _ _
  · exact fun _ => Or.inl h

theorem hout_low (row : ℤ) : Low (row + hrows p) (hout p row) := by
  right
  unfold hout hrows Poseidon.Flex.result
  simp only [Cols.wa]
  omega

theorem feed_do (hw : 0 < p.w) (h3 : 3 ∣ p.w) (hc : p.c.OK p.w) (hp : Places p E) (l : List (Var × Var)) (hl : ∀ x ∈ l, NW x.1 ∧ NW x.2)
    (s : Var) (row : ℤ) (hs : Low row s) (hE : row + (l.length * hrows p : ℕ) ≤ E) :
    Do p E t0 row (row + (l.length * hrows p : ℕ)) (feed p s l row).1 := by
  induction l generalizing s row with
  | nil => simpa [feed] using Do.nil p E t0 row
  | cons x l ih =>
    obtain ⟨b, d⟩ := x
    obtain ⟨h1, h2⟩ := hl _ (List.mem_cons_self ..)
    have hlen : (((b, d) :: l).length * hrows p : ℕ) = hrows p + l.length * hrows p := by simp only [List.length_cons]; ring
    rw [hlen] at hE ⊢
    push_cast at hE
    have hnn : (0 : ℤ) ≤ (l.length : ℤ) * (hrows p : ℤ) := by positivity
    have hA := hash_do (t0 := t0) hw h3 hc hp (a := s) (b := b) (d := d) (row := row) (by omega) (hs.seen (by omega)) (h1.seen _) (h2.seen _)
      (hs.out _) (h1.out _ _) (h2.out _ _)
    have hB := ih (fun x hx => hl x (List.mem_cons_of_mem _ hx)) (hout p row) (row + hrows p) (hout_low row) (by push_cast; omega)
    have := hA.append hB
    simp only [feed]
    rw [show row + ((hrows p + l.length * hrows p : ℕ) : ℤ) = row + hrows p + (l.length * hrows p : ℕ) by push_cast; ring]
    exact this

theorem swap_dep (hp : Places p E) {q : Swap.In} {row : ℤ} (hq : q.d.rotation + 1 < row) (hb : Seen p row q.b) (hc : Seen p row q.c)
    (hd : Seen p row q.d) : Dep p row (Swap.circuit (p.place q).1 q (p.place q).2) := by
  intro t t' hag h
  have cell : ∀ j : ℕ, j < 5 → t' .witness ((p.place q).1.w (j : ℤ)) (p.place q).2 = t .witness ((p.place q).1.w (j : ℤ)) (p.place q).2 :=
    fun j hj => hag _ _ _ (Or.inr (Or.inr ⟨q, hq, rfl, Cols.w_mem (by rw [(hp.ok q).len]; norm_num) _⟩))
  have c0 := cell 0 (by norm_num)
  have c1 := cell 1 (by norm_num)
  have c2 := cell 2 (by norm_num)
  have c3 := cell 3 (by norm_num)
  have c4 := cell 4 (by norm_num)
  simp only [Nat.cast_zero, Nat.cast_one, Nat.cast_ofNat] at c0 c1 c2 c3 c4
  simp only [Swap.circuit, sat_cons, sat_nil, holds_gate, holds_copy, List.forall_mem_cons, List.mem_singleton, forall_eq, List.not_mem_nil,
    false_implies, implies_true, and_true, Expr.eval_add, Expr.eval_sub, Expr.eval_mul, Expr.eval_one, Cols.eval_wv, Cols.value_wa, add_zero,
    hb.value hag, hc.value hag, hd.value hag, c0, c1, c2, c3, c4] at h ⊢
  exact h

theorem path_do (hw : 0 < p.w) (h3 : 3 ∣ p.w) (hc : p.c.OK p.w) (hp : Places p E) {z : Var} (hz : NW z) (l : List (Var × Var))
    (hl : ∀ x ∈ l, NW x.1 ∧ NW x.2 ∧ (x.1.value t0 = 0 ∨ x.1.value t0 = 1)) (s : Var) (row : ℤ) (hs : s.rotation + 1 = row)
    (hE : row + (l.length * hrows p : ℕ) ≤ E) : Do p E t0 row (row + (l.length * hrows p : ℕ)) (path p z s l row).1 := by
  induction l generalizing s row with
  | nil => simpa [path] using Do.nil p E t0 row
  | cons x l ih =>
    obtain ⟨b, h⟩ := x
    obtain ⟨h1, h2, hbit⟩ := hl _ (List.mem_cons_self ..)
    have hlen : (((b, h) :: l).length * hrows p : ℕ) = hrows p + l.length * hrows p := by simp only [List.length_cons]; ring
    rw [hlen] at hE ⊢
    push_cast at hE
    have hnn : (0 : ℤ) ≤ (l.length : ℤ) * (hrows p : ℤ) := by positivity
    have hpos := hrows_pos hw h3
    have hls : Low row s := Or.inr (by omega)
    set q : Swap.In := ⟨b, h, s⟩ with hq
    have hpast := hp.past q
    have mem : ∀ j : ℕ, j < 5 → (p.place q).1.w (j : ℤ) ∈ (p.place q).1.W := fun j hj => Cols.w_mem (by rw [(hp.ok q).len]; norm_num) _
    have hsee : ∀ j : ℕ, j < 5 → Seen p (row + hrows p) ((p.place q).1.wa (j : ℤ) (p.place q).2) := fun j hj =>
      Or.inr (Or.inr ⟨q, by show s.rotation + 1 < _; omega, rfl, mem j hj⟩)
    have hout' : ∀ j : ℤ, ((p.place q).1.wa j (p.place q).2).Outside row (hrows p) := fun j _ => Or.inr (by simp only [Cols.wa]; omega)
    have hA : Do p E t0 row (row + hrows p) (Swap.circuit (p.place q).1 q (p.place q).2 ++
        hash p z (Swap.result (p.place q).1 (p.place q).2).1 (Swap.result (p.place q).1 (p.place q).2).2 row) := by
      have hH := hash_do (t0 := t0) hw h3 hc hp (a := z) (b := (Swap.result (p.place q).1 (p.place q).2).1)
        (d := (Swap.result (p.place q).1 (p.place q).2).2) (row := row) (by omega) (hz.seen _) (hsee 3 (by norm_num)) (hsee 4 (by norm_num))
        (hz.out _ _) (hout' 3) (hout' 4)
      have hD := swap_dep hp (q := q) (row := row + hrows p) (by show s.rotation + 1 < _; omega) (h1.seen _) (h2.seen _) (hls.seen (by omega))
      refine ⟨hH.le, fun t ht => ?_, fun t t' hag hh => ?_⟩
      · have := swap_complete (p.place q).1 (hp.ok q) q (p.place q).2 t (h1.out _ _) (h2.out _ _) (fun _ => Or.inl (by show s.rotation < _; omega))
          (by show b.value t = 0 ∨ b.value t = 1
              rw [h1.value ht]; exact hbit)
        obtain ⟨t1, s1, f1⟩ : ∃ t1, Sat t1 (Swap.circuit (p.place q).1 q (p.place q).2) ∧ Frame (p.place q).1 (p.place q).2 1 t t1 :=
          ⟨_, this.1, this.2⟩
        have a1 := agr_of_swap hp (row := row) (by omega) (q := q) (by show row ≤ s.rotation + 1; omega) f1
        have hhash := Poseidon.Flex.flexPoseidon_complete p.c p.w hw h3 hc p.mds p.rc (fun i => if i = 0 then z else if i = 1 then
            (Swap.result (p.place q).1 (p.place q).2).1 else (Swap.result (p.place q).1 (p.place q).2).2) row t1 (by
          intro j _
          split_ifs
          · exact hz.out _ _
          · exact hout' 3
          · exact hout' 4)
        obtain ⟨t2, s2, f2⟩ : ∃ t2, Sat t2 (hash p z (Swap.result (p.place q).1 (p.place q).2).1 (Swap.result (p.place q).1 (p.place q).2).2 row) ∧
            Frame p.c row (hrows p) t1 t2 := ⟨_, hhash.1, hhash.2.1⟩
        refine ⟨t2, a1.trans (agr_of_frame hp (by show row + (hrows p : ℤ) ≤ E; omega) f2), (sat_append _ _).2 ⟨?_, s2⟩⟩
        -- the swap is not in the rows of the hash
        have fr : ∀ v : Var, v.Outside row (hrows p) → v.value t2 = v.value t1 := fun v hv => f2.outside hv
        have c := fun j : ℤ => fr _ (hout' j)
        have e0 := c 0
        have e1 := c 1
        have e2 := c 2
        have e3 := c 3
        have e4 := c 4
        simp only [Cols.value_wa] at e0 e1 e2 e3 e4
        have eb := fr b (h1.out _ _)
        have eh := fr h (h2.out _ _)
        have es := fr s (hls.out _)
        simp only [Swap.circuit, hq, sat_cons, sat_nil, holds_gate, holds_copy, List.forall_mem_cons, List.mem_singleton, forall_eq,
          List.not_mem_nil, false_implies, implies_true, and_true, Expr.eval_add, Expr.eval_sub, Expr.eval_mul, Expr.eval_one, Cols.eval_wv,
          Cols.value_wa, add_zero, eb, eh, es] at s1 e0 e1 e2 e3 e4 ⊢
        simp only [e0, e1, e2, e3, e4]
        exact s1
      · rw [sat_append] at hh ⊢
        exact ⟨hD _ _ hag hh.1, hH.dep _ _ hag hh.2⟩
    have hB := ih (fun x hx => hl x (List.mem_cons_of_mem _ hx)) (hout p row) (row + hrows p) (by
      unfold hout hrows Poseidon.Flex.result
      simp only [Cols.wa]; omega) (by push_cast; omega)
    have := hA.append hB
    simp only [path]
    rw [show row + ((hrows p + l.length * hrows p : ℕ) : ℤ) = row + hrows p + (l.length * hrows p : ℕ) by push_cast; ring]
    exact this

theorem root_unique {node : F → F → F} {s : F} {pos sib : List F} {r r' : F} (h : Opens node s pos sib r) (h' : Opens node s pos sib r') :
    r = r' := by
  obtain ⟨bs, e1, e2⟩ := h
  obtain ⟨bs', e1', e2'⟩ := h'
  have : bs = bs' := by
    have inj : Function.Injective (fun b : Bool => if b then (1 : F) else 0) := by
      intro a b hab
      cases a <;> cases b <;> simp at hab ⊢
    exact inj.list_map (e1.symm.trans e1')
  rw [e2, e2', this]

/-- All inputs are public. -/
structure Public (inp : Input) : Prop where
  commitments : ∀ i, NW (inp.commitments i)
  roots : ∀ i, NW (inp.roots i)
  positions : ∀ i j, NW (inp.positions i j)
  initialValues : ∀ i j, NW (inp.initialValues i j)
  initialHashes : ∀ i j, NW (inp.initialHashes i j)
  roundValues : ∀ i j, NW (inp.roundValues i j)
  roundHashes : ∀ i j, NW (inp.roundHashes i j)
  challenge : NW inp.challenge

theorem zero_nw (p : Params F) (srow : ℤ) : NW (zero p srow) := by simp [NW, zero]

theorem vals_const {t : Table F} (ht : SameConst t0 t) {l : List (Var × Var)} (hl : ∀ x ∈ l, NW x.1 ∧ NW x.2) : vals t l = vals t0 l := by
  unfold vals
  apply List.map_congr_left
  intro x hx
  rw [(hl x hx).1.value ht, (hl x hx).2.value ht]

theorem map_const {t : Table F} (ht : SameConst t0 t) {α : Type*} (l : List α) (f : α → Var) (hf : ∀ x ∈ l, NW (f x)) :
    (l.map fun x => (f x).value t) = l.map fun x => (f x).value t0 :=
  List.map_congr_left fun x hx => (hf x hx).value ht

theorem opens_bits {node : F → F → F} {s : F} {pos sib : List F} {r : F} (h : Opens node s pos sib r) : ∀ x ∈ pos, x = 0 ∨ x = 1 := by
  obtain ⟨bs, rfl, -⟩ := h
  intro x hx
  obtain ⟨b, -, rfl⟩ := List.mem_map.1 hx
  cases b <;> simp

/-- A leaf, a path and the copy of the root. -/
theorem open_do (hw : 0 < p.w) (h3 : 3 ∣ p.w) (hc : p.c.OK p.w) (hp : Places p E) {srow : ℤ} (hz : (zero p srow).value t0 = 0)
    (lf : List (Var × Var)) (hlf : ∀ x ∈ lf, NW x.1 ∧ NW x.2) (h0 : 0 < lf.length) (pos sib : ℕ → Var) (n : ℕ) (hpos : ∀ k, NW (pos k))
    (hsib : ∀ k, NW (sib k)) {rt : Var} (hrt : NW rt) (row : ℤ) (hE : row + ((lf.length + n) * hrows p : ℕ) ≤ E)
    (ho : Opens (H p.mds p.rc 0) (absorb p.mds p.rc 0 (vals t0 lf)) ((List.range n).map fun k => (pos k).value t0)
      ((List.range n).map fun k => (sib k).value t0) (rt.value t0)) :
    let leaf := feed p (zero p srow) lf row
    let m := path p (zero p srow) leaf.2.2 ((List.range n).map fun k => (pos k, sib k)) leaf.2.1
    Do p E t0 row m.2.1 (leaf.1 ++ m.1 ++ [.copy m.2.2 rt]) := by
  intro leaf m
  have hpr := hrows_pos hw h3
  have hnn : (0 : ℤ) ≤ (n : ℤ) * (hrows p : ℤ) := by positivity
  push_cast at hE
  rw [add_mul] at hE
  have er : leaf.2.1 = row + (lf.length * hrows p : ℕ) := feed_row p lf _ row
  have hA := feed_do (t0 := t0) hw h3 hc hp lf hlf (zero p srow) row (Or.inl (zero_nw p srow)) (by push_cast; omega)
  have hl : ∀ x ∈ (List.range n).map fun k => (pos k, sib k), NW x.1 ∧ NW x.2 ∧ (x.1.value t0 = 0 ∨ x.1.value t0 = 1) := by
    intro x hx
    obtain ⟨k, hk, rfl⟩ := List.mem_map.1 hx
    exact ⟨hpos k, hsib k, opens_bits ho _ (List.mem_map.2 ⟨k, hk, rfl⟩)⟩
  have hrot : leaf.2.2.rotation + 1 = leaf.2.1 := by
    rw [er]
    show (feed p (zero p srow) lf row).2.2.rotation + 1 = _
    rw [feed_out p lf _ row h0]
    unfold hout Poseidon.Flex.result
    simp only [Cols.wa]
    obtain ⟨k, hk⟩ : ∃ k, lf.length = k + 1 := ⟨lf.length - 1, by omega⟩
    rw [hk, Nat.add_sub_cancel, show ((Poseidon.Flex.rows p.w : ℕ) : ℤ) = (hrows p : ℤ) from rfl]
    push_cast; ring
  have hB := path_do (t0 := t0) hw h3 hc hp (zero_nw p srow) _ hl leaf.2.2 leaf.2.1 hrot (by
    rw [er, List.length_map, List.length_range]; push_cast; omega)
  rw [← er] at hA
  have hAB := hA.append hB
  rw [← path_row p (zero p srow) _ leaf.2.2 leaf.2.1] at hAB
  refine hAB.copy ?_ (hrt.seen _) ?_
  · -- the root is the output of a hash below
    have key : ∀ (l : List (Var × Var)) (s : Var) (row : ℤ), Low row s → Low (path p (zero p srow) s l row).2.1 (path p (zero p srow) s l row).2.2 := by
      intro l
      induction l with
      | nil => intro s row hs; exact hs
      | cons x l ih => intro s row hs; exact ih _ _ (hout_low row)
    exact (key _ _ _ (Or.inr (by omega))).seen le_rfl
  · intro t ht hs
    rw [sat_append] at hs
    have hz' : (zero p srow).value t = 0 := by rw [(zero_nw p srow).value ht, hz]
    have e1 := feed_value hw h3 _ _ _ hs.1
    have e2 := path_value hw h3 hz' _ _ _ hs.2
    rw [e1, hz', vals_const ht hlf, List.map_map, List.map_map] at e2
    simp only [Function.comp_def] at e2
    rw [map_const ht _ _ (fun k _ => hpos k), map_const ht _ _ (fun k _ => hsib k)] at e2
    rw [hrt.value ht]
    exact root_unique e2 ho

theorem batchLoop_do (hw : 0 < p.w) (h3 : 3 ∣ p.w) (hc : p.c.OK p.w) (hp : Places p E) {inp : Input} (hi : Public inp) {srow : ℤ}
    (hz : (zero p srow).value t0 = 0) (i : ℕ) (l : List ℕ) (hl : ∀ n ∈ l, 0 < n) (j cur curHash : ℕ) (row : ℤ)
    (hE : (batchLoop p inp srow i l j cur curHash row).2 ≤ E) (h : ∀ m < l.length, BatchOk p inp srow t0 i l j cur curHash m) :
    Do p E t0 row (batchLoop p inp srow i l j cur curHash row).2 (batchLoop p inp srow i l j cur curHash row).1 := by
  induction l generalizing j cur curHash row with
  | nil => exact Do.nil p E t0 row
  | cons n l ih =>
    have hlf : ∀ x ∈ leafPairs inp i cur n, NW x.1 ∧ NW x.2 := by
      intro x hx
      obtain ⟨k, hk, rfl⟩ := List.mem_map.1 hx
      exact ⟨hi.initialValues _ _, hi.initialValues _ _⟩
    have hlen : (leafPairs inp i cur n).length = n := by simp [leafPairs]
    have hrt : NW (if j = 0 then vk1Var p srow else inp.commitments (j - 1)) := by
      split_ifs
      · simp [NW, vk1Var]
      · exact hi.commitments _
    have h00 := h 0 (by simp)
    rw [batchOk_iff] at h00
    rw [List.take_zero, List.sum_nil, Nat.mul_zero, Nat.add_zero, Nat.zero_mul, Nat.add_zero, Nat.add_zero, List.getD_cons_zero] at h00
    have hrow := batchLoop_row p inp srow i l (j + 1) (cur + 2 * n) (curHash + p.size)
      (path p (zero p srow) (feed p (zero p srow) (leafPairs inp i cur n) row).2.2 ((List.range p.size).map fun k =>
        (inp.positions i k, inp.initialHashes i (curHash + k))) (feed p (zero p srow) (leafPairs inp i cur n) row).2.1).2.1
    have hm : (path p (zero p srow) (feed p (zero p srow) (leafPairs inp i cur n) row).2.2 ((List.range p.size).map fun k =>
        (inp.positions i k, inp.initialHashes i (curHash + k))) (feed p (zero p srow) (leafPairs inp i cur n) row).2.1).2.1 =
        row + ((n + p.size) * hrows p : ℕ) := by
      rw [path_row, feed_row, List.length_map, List.length_range, hlen]; push_cast; ring
    simp only [batchLoop] at hE ⊢
    have hA := open_do (E := E) (t0 := t0) hw h3 hc hp hz (leafPairs inp i cur n) hlf (by rw [hlen]; exact hl n (List.mem_cons_self ..))
      (inp.positions i) (fun k => inp.initialHashes i (curHash + k)) p.size (hi.positions i) (fun k => hi.initialHashes i _) hrt row
      (by rw [hlen, ← hm]
          refine le_trans ?_ hE
          rw [hrow]; omega) h00
    refine hA.append (ih (fun n' hn' => hl n' (List.mem_cons_of_mem _ hn')) _ _ _ _ hE fun m hm' => ?_)
    have := h (m + 1) (by simpa using hm')
    rw [batchOk_iff] at this ⊢
    rw [show cur + 2 * n + 2 * (l.take m).sum = cur + 2 * ((n :: l).take (m + 1)).sum by simp; ring,
      show curHash + p.size + m * p.size = curHash + (m + 1) * p.size by ring, show j + 1 + m = j + (m + 1) by omega]
    exact this

theorem roundLoop_do (hw : 0 < p.w) (h3 : 3 ∣ p.w) (hc : p.c.OK p.w) (hp : Places p E) {inp : Input} (hi : Public inp) {srow : ℤ}
    (hz : (zero p srow).value t0 = 0) (i n j curHash : ℕ) (row : ℤ)
    (hE : (roundLoop p inp srow i n j curHash row).2 ≤ E) (h : ∀ m < n, RoundOk p inp t0 i (j + m) (curHash + offset p.size j m)) :
    Do p E t0 row (roundLoop p inp srow i n j curHash row).2 (roundLoop p inp srow i n j curHash row).1 := by
  induction n generalizing j curHash row with
  | zero => exact Do.nil p E t0 row
  | succ n ih =>
    have h00 := h 0 (by omega)
    unfold RoundOk at h00
    simp only [offset, List.range_zero, List.map_nil, List.sum_nil, Nat.add_zero] at h00
    set lf : List (Var × Var) := [(inp.roundValues i (2 * (j - 1)), inp.roundValues i (2 * (j - 1) + 1))] with hlfd
    have hlf : ∀ x ∈ lf, NW x.1 ∧ NW x.2 := by
      intro x hx
      rw [hlfd, List.mem_singleton] at hx
      rw [hx]
      exact ⟨hi.roundValues _ _, hi.roundValues _ _⟩
    have hm : (path p (zero p srow) (feed p (zero p srow) lf row).2.2 ((List.range (p.size - j)).map fun k =>
        (inp.positions i k, inp.roundHashes i (curHash + k))) (feed p (zero p srow) lf row).2.1).2.1 =
        row + ((1 + (p.size - j)) * hrows p : ℕ) := by
      rw [path_row, feed_row, List.length_map, List.length_range, hlfd, List.length_singleton]; push_cast; ring
    have hrow := roundLoop_row p inp srow i n (j + 1) (curHash + (p.size - j))
      (path p (zero p srow) (feed p (zero p srow) lf row).2.2 ((List.range (p.size - j)).map fun k =>
        (inp.positions i k, inp.roundHashes i (curHash + k))) (feed p (zero p srow) lf row).2.1).2.1
    simp only [roundLoop] at hE ⊢
    have hA := open_do (E := E) (t0 := t0) hw h3 hc hp hz lf hlf (by rw [hlfd]; simp)
      (inp.positions i) (fun k => inp.roundHashes i (curHash + k)) (p.size - j) (hi.positions i) (fun k => hi.roundHashes i _) (hi.roots j) row
      (by rw [show lf.length = 1 from rfl, ← hm]
          refine le_trans ?_ hE
          rw [hrow]; omega) (by simpa [absorb, vals, hlfd] using h00)
    refine hA.append (ih _ _ _ hE fun m hm' => ?_)
    have := h (m + 1) (by omega)
    rwa [show j + (m + 1) = j + 1 + m by omega, offset_succ, ← Nat.add_assoc] at this

/-- What is checked of query `i`. -/
def QueryOk (p : Params F) (inp : Input) (srow : ℤ) (t : Table F) (i : ℕ) : Prop :=
  (∀ m < p.batches.length, BatchOk p inp srow t i p.batches 0 0 0 m) ∧
      ∀ j, 0 < j → j < p.r → RoundOk p inp t i j (p.size + offset p.size 1 (j - 1))

theorem query_row (p : Params F) (inp : Input) (srow : ℤ) (i : ℕ) (row : ℤ) : (query p inp srow i row).2 = row + (queryRows p : ℕ) := by
  simp only [query, batchLoop_row, roundLoop_row, queryRows]
  push_cast; ring

theorem queries_do (hw : 0 < p.w) (h3 : 3 ∣ p.w) (hc : p.c.OK p.w) (hp : Places p E) {inp : Input} (hi : Public inp) {srow : ℤ}
    (hz : (zero p srow).value t0 = 0) (hl : ∀ n ∈ p.batches, 0 < n) (n i : ℕ) (row : ℤ) (hE : (queries p inp srow n i row).2 ≤ E)
    (h : ∀ m < n, QueryOk p inp srow t0 (i + m)) : Do p E t0 row (queries p inp srow n i row).2 (queries p inp srow n i row).1 := by
  induction n generalizing i row with
  | zero => exact Do.nil p E t0 row
  | succ n ih =>
    have h00 := h 0 (by omega)
    rw [Nat.add_zero] at h00
    simp only [queries] at hE ⊢
    have hq := queries_row p inp srow n (i + 1) (query p inp srow i row).2
    refine Do.append ?_ (ih _ _ hE fun m hm => by
      have := h (m + 1) (by omega)
      rwa [show i + (m + 1) = i + 1 + m by omega] at this)
    have hE' : (query p inp srow i row).2 ≤ E := by
      refine le_trans ?_ hE
      rw [hq]; omega
    simp only [query] at hE' ⊢
    have hr := roundLoop_row p inp srow i (p.r - 1) 1 p.size (batchLoop p inp srow i p.batches 0 0 0 row).2
    exact (batchLoop_do hw h3 hc hp hi hz i _ hl 0 0 0 row (by refine le_trans ?_ hE'; rw [hr]; omega) h00.1).append
      (roundLoop_do hw h3 hc hp hi hz i _ _ _ _ hE' fun m hm => by
        have := h00.2 (1 + m) (by omega) (by omega)
        rwa [show 1 + m - 1 = m by omega] at this)

/-! ### The components between challenges and queries -/

/-- As `Do`, with a condition on the table before and after. -/
structure DoQ (p : Params F) (t0 : Table F) (row row' : ℤ) (P Q : Table F → Prop) (ops : List (Op F)) : Prop where
  le : row ≤ row'
  make : ∀ t, SameConst t0 t → P t → ∃ t', Agr p row t t' ∧ Sat t' ops ∧ Q t'
  dep : Dep p row' ops

theorem DoQ.append {row row1 row2 : ℤ} {P Q R : Table F → Prop} {A B : List (Op F)} (hA : DoQ p t0 row row1 P Q A)
    (hB : DoQ p t0 row1 row2 Q R B) : DoQ p t0 row row2 P R (A ++ B) := by
  refine ⟨hA.le.trans hB.le, fun t ht hP => ?_, fun t t' h hs => ?_⟩
  · obtain ⟨t1, a1, s1, q1⟩ := hA.make t ht hP
    obtain ⟨t2, a2, s2, q2⟩ := hB.make t1 (SameConst.trans ht a1.const) q1
    exact ⟨t2, a1.trans (a2.mono hA.le), (sat_append _ _).2 ⟨hA.dep _ _ a2 s1, s2⟩, q2⟩
  · rw [sat_append] at hs ⊢
    exact ⟨hA.dep _ _ (h.mono hB.le) hs.1, hB.dep _ _ h hs.2⟩

theorem DoQ.range {row : ℤ} {n m : ℕ} {P : ℕ → Table F → Prop} {f : ℕ → List (Op F)}
    (h : ∀ i < m, DoQ p t0 (row + (i * n : ℕ)) (row + ((i + 1) * n : ℕ)) (P i) (P (i + 1)) (f i)) :
    DoQ p t0 row (row + (m * n : ℕ)) (P 0) (P m) ((List.range m).flatMap f) := by
  induction m with
  | zero => exact ⟨by simp, fun t _ hP => ⟨t, Agr.refl _ _ _, by simp, hP⟩, fun _ _ _ _ => by simp⟩
  | succ m ih =>
    rw [List.range_succ, List.flatMap_append, List.flatMap_singleton]
    exact (ih fun i hi => h i (by omega)).append (h m (by omega))

theorem pow_rows_pos {w pow : ℕ} (hw : 3 ≤ w) (hp : 2 ≤ pow) : 0 < ConstantPow.rows w pow := by
  have h1 : 1 ≤ ConstantPow.log2 pow := by
    unfold ConstantPow.log2
    rw [ConstantPow.log2Loop, if_pos ⟨by omega, by omega⟩]
    omega
  unfold ConstantPow.rows
  simp only []
  have hc : 0 < (ConstantPow.log2 pow + 1) / 2 := by omega
  split_ifs with h
  · exact Nat.div_pos (Nat.le_of_dvd hc (Nat.dvd_of_mod_eq_zero h)) (by omega)
  · exact Nat.succ_pos _

theorem pow_dep {x : Var} {row : ℤ} (hx : Seen p (row + ConstantPow.rows p.w p.pow) x) :
    Dep p (row + ConstantPow.rows p.w p.pow) (ConstantPow.circuit p.c p.w p.pow x row) := by
  intro t t' hag h
  have cell : ∀ (j : ℤ) (r : ℤ), r < row + ConstantPow.rows p.w p.pow → t' .witness (p.c.w j) r = t .witness (p.c.w j) r :=
    fun j r hr => hag _ _ _ (Or.inr (Or.inl hr))
  unfold ConstantPow.circuit at h ⊢
  rw [sat_append] at h ⊢
  refine ⟨?_, ?_⟩
  · intro o ho
    have h1 := h.1 o ho
    obtain ⟨r, hr, rfl⟩ := List.mem_map.1 ho
    have hr' := List.mem_range.1 hr
    rw [holds_gate] at h1 ⊢
    intro r' hr'' e he
    have h2 := h1 r' hr'' e he
    rw [List.mem_singleton] at hr''
    subst hr''
    obtain ⟨j, -, rfl⟩ := List.mem_map.1 he
    simp only [Expr.eval_sub, Expr.eval_mul, Expr.eval_pow, Cols.eval_wv, add_zero] at h2 ⊢
    rw [cell _ _ (by omega), cell _ _ (by omega), cell _ _ (by omega)]
    exact h2
  · intro o ho
    have h1 := h.2 o ho
    obtain ⟨r, hr, ho'⟩ := List.mem_flatMap.1 ho
    have hr' := List.mem_range.1 hr
    rcases List.mem_cons.1 ho' with rfl | ho''
    · rw [holds_copy, Cols.value_wa] at h1 ⊢
      rw [cell _ _ (by omega), hx.value hag]; exact h1
    · split_ifs at ho'' with h0
      · rw [List.mem_singleton] at ho''
        subst ho''
        rw [holds_copy, Cols.value_wa, Cols.value_wa] at h1 ⊢
        rw [cell _ _ (by omega), cell _ _ (by omega)]; exact h1
      · simp at ho''

/-- The power component accepts zero as the power of anything: its first accumulator is free. -/
theorem pow_zero (hw : 3 ≤ p.w) (hpw : 2 ≤ p.pow) (hc : p.c.OK p.w) (x : Var) (row : ℤ) (hx : x.Outside row (ConstantPow.rows p.w p.pow))
    (t : Table F) : ∃ t', Frame p.c row (ConstantPow.rows p.w p.pow) t t' ∧ Sat t' (ConstantPow.circuit p.c p.w p.pow x row) ∧
      (ConstantPow.result p.c p.w p.pow row).value t' = 0 := by
  set n := ConstantPow.rows p.w p.pow with hn
  have hnp : 0 < n := pow_rows_pos hw hpw
  let t' : Table F := fun ty i r => if ty = .witness ∧ i ∈ p.c.W ∧ row ≤ r ∧ r < row + n then (if i = p.c.w 0 then x.value t else 0) else t ty i r
  have hfr : Frame p.c row n t t' := by
    intro ty i r h
    exact if_neg h
  have hmem : ∀ j : ℤ, p.c.w j ∈ p.c.W := fun j => Cols.w_mem (by rw [hc.len]; omega) j
  have c0 : ∀ r : ℤ, row ≤ r → r < row + n → t' .witness (p.c.w 0) r = x.value t := by
    intro r h1 h2
    show (if _ then _ else _) = _
    rw [if_pos ⟨rfl, hmem 0, h1, h2⟩, if_pos rfl]
  have cj : ∀ (j : ℕ) (r : ℤ), 0 < j → j < p.w → row ≤ r → r < row + n → t' .witness (p.c.w (j : ℤ)) r = 0 := by
    intro j r h0 hj h1 h2
    show (if _ then _ else _) = _
    rw [if_pos ⟨rfl, hmem _, h1, h2⟩, if_neg]
    intro h
    have := (hc.inj ⟨by omega, by omega⟩ ⟨by omega, by omega⟩).1 h
    omega
  refine ⟨t', hfr, ?_, ?_⟩
  · unfold ConstantPow.circuit
    rw [sat_append, ← hn]
    refine ⟨?_, ?_⟩
    · intro o ho
      obtain ⟨r, hr, rfl⟩ := List.mem_map.1 ho
      have hr' := List.mem_range.1 hr
      rw [holds_gate]
      intro r' hr'' e he
      rw [List.mem_singleton] at hr''
      subst hr''
      obtain ⟨j, hj, rfl⟩ := List.mem_map.1 he
      have hj' := List.mem_range.1 (List.mem_filter.1 hj).1
      simp only [Expr.eval_sub, Expr.eval_mul, Expr.eval_pow, Cols.eval_wv, add_zero]
      rw [cj (j + 2) _ (by omega) (by omega) (by omega) (by omega), cj (j + 1) _ (by omega) (by omega) (by omega) (by omega)]
      ring
    · intro o ho
      obtain ⟨r, hr, ho'⟩ := List.mem_flatMap.1 ho
      have hr' := List.mem_range.1 hr
      rcases List.mem_cons.1 ho' with rfl | ho''
      · rw [holds_copy, Cols.value_wa, c0 _ (by omega) (by omega), hfr.outside hx]
      · split_ifs at ho'' with h0
        · rw [List.mem_singleton] at ho''
          subst ho''
          rw [holds_copy, Cols.value_wa, Cols.value_wa, cj (p.w - 1) _ (by omega) (by omega) (by omega) (by omega)]
          have := cj 1 (row + r) (by omega) (by omega) (by omega) (by omega)
          simpa using this
        · simp at ho''
  · unfold ConstantPow.result
    rw [Cols.value_wa]
    have hm := Nat.mod_lt (ConstantPow.fourChunks p.pow).length (show 0 < p.w - 2 by omega)
    exact cj _ _ (by omega) (by omega) (by rw [← hn]; omega) (by rw [← hn]; omega)

theorem pow_do (hw : 3 ≤ p.w) (hpw : 2 ≤ p.pow) (hc : p.c.OK p.w) (hp : Places p E) (x : ℕ → Var) (row : ℤ) (m : ℕ)
    (hx : ∀ i, Low row (x i)) (hE : row + (m * ConstantPow.rows p.w p.pow : ℕ) ≤ E) :
    DoQ p t0 row (row + (m * ConstantPow.rows p.w p.pow : ℕ)) (fun t => ∀ k < 0, (xsVar p row k).value t = 0)
      (fun t => ∀ k < m, (xsVar p row k).value t = 0)
      ((List.range m).flatMap fun i => ConstantPow.circuit p.c p.w p.pow (x i) (row + (i * ConstantPow.rows p.w p.pow : ℕ))) := by
  set n := ConstantPow.rows p.w p.pow with hn
  have hnp : 0 < n := pow_rows_pos hw hpw
  refine DoQ.range (P := fun m t => ∀ k < m, (xsVar p row k).value t = 0) fun i hi => ?_
  have e : (((i + 1) * n : ℕ) : ℤ) = ((i * n : ℕ) : ℤ) + n := by push_cast; ring
  have hle : (((i + 1) * n : ℕ) : ℤ) ≤ ((m * n : ℕ) : ℤ) := by exact_mod_cast Nat.mul_le_mul_right n hi
  have hlow : Low (row + (i * n : ℕ)) (x i) := by
    rcases hx i with h | h
    · exact Or.inl h
    · exact Or.inr (by omega)
  refine ⟨by omega, fun t ht hP => ?_, ?_⟩
  · obtain ⟨t', f, s, r⟩ := pow_zero hw hpw hc (x i) (row + (i * n : ℕ)) (hlow.out _) t
    have ha : Agr p (row + (i * n : ℕ)) t t' := agr_of_frame hp (by rw [← hn]; omega) f
    refine ⟨t', ha, s, fun k hk => ?_⟩
    rcases Nat.lt_succ_iff_lt_or_eq.1 hk with hk | rfl
    · rw [Seen.value (p := p) (row := row + (i * n : ℕ)) ?_ ha, hP k hk]
      right; left
      have : (((k + 1) * n : ℕ) : ℤ) ≤ ((i * n : ℕ) : ℤ) := by exact_mod_cast Nat.mul_le_mul_right n hk
      have e' : (((k + 1) * n : ℕ) : ℤ) = ((k * n : ℕ) : ℤ) + n := by push_cast; ring
      simp only [xsVar, ConstantPow.result, Cols.wa, ← hn]
      omega
    · exact r
  · have := pow_dep (p := p) (x := x i) (row := row + (i * n : ℕ)) (hlow.seen (by omega))
    rw [← hn] at this
    rw [e, ← add_assoc]
    exact this

theorem chain_zero (omega : F) (bit : ℕ → F) (q : ℕ) : XIndex.chain omega 0 bit q = 0 := by
  induction q with
  | zero => rfl
  | succ q ih => rw [XIndex.chain_succ, ih]; ring

theorem xindex_do (hw : 3 ≤ p.w) (hc : p.c.OK p.w) (hp : Places p E) (x : ℕ → Var) (b : ℕ → ℕ → Var) (row : ℤ) (m : ℕ)
    (hx : ∀ i < m, Low row (x i)) (hb : ∀ i j, NW (b i j)) (hE : row + (m * XIndex.rows p.w p.size : ℕ) ≤ E)
    (hk : ∀ i < m, ∀ r < XIndex.rows p.w p.size, t0 .constant (p.c.k 0) (row + (i * XIndex.rows p.w p.size : ℕ) + (r : ℤ)) = p.omega) :
    DoQ p t0 row (row + (m * XIndex.rows p.w p.size : ℕ)) (fun t => ∀ k < m, (x k).value t = 0) (fun t => ∀ k < m, (x k).value t = 0)
      ((List.range m).flatMap fun i => XIndex.circuit p.c p.w p.size p.omega (x i) (b i) (row + (i * XIndex.rows p.w p.size : ℕ))) := by
  set n := XIndex.rows p.w p.size with hn
  refine DoQ.range (P := fun _ t => ∀ k < m, (x k).value t = 0) fun i hi => ?_
  have e : (((i + 1) * n : ℕ) : ℤ) = ((i * n : ℕ) : ℤ) + n := by push_cast; ring
  have hle : (((i + 1) * n : ℕ) : ℤ) ≤ ((m * n : ℕ) : ℤ) := by exact_mod_cast Nat.mul_le_mul_right n hi
  have hlow : ∀ k < m, Low (row + (i * n : ℕ)) (x k) := by
    intro k hk
    rcases hx k hk with h | h
    · exact Or.inl h
    · exact Or.inr (by omega)
  refine ⟨by omega, fun t ht hP => ?_, ?_⟩
  · have := XIndex.with_sat p.c p.w p.size hw hc p.omega 0 0 (x i) (b i) (row + (i * n : ℕ)) t
      (fun r hr => by rw [ht _ _ _ (by simp)]; exact hk i hi r hr) ((hlow i hi).out _) (fun j _ => (hb i j).out _ _)
      (fun _ => by rw [hP i hi, chain_zero])
    have ha : Agr p (row + (i * n : ℕ)) t _ := agr_of_frame hp (by rw [← hn]; omega) this.2.1
    exact ⟨_, ha, this.1, fun k hk => by rw [((hlow k hk).seen (p := p) le_rfl).value ha, hP k hk]⟩
  · intro t t' hag h
    have cell : ∀ (j : ℤ) (r : ℤ), r < row + ((i + 1) * n : ℕ) → t' .witness (p.c.w j) r = t .witness (p.c.w j) r :=
      fun j r hr => hag _ _ _ (Or.inr (Or.inl hr))
    have hxv : (x i).value t' = (x i).value t := ((hlow i hi).seen (p := p) (by omega)).value hag
    have hbv : ∀ j, (b i j).value t' = (b i j).value t := fun j => ((hb i j).seen (p := p) _).value hag
    have hcv : ∀ j r, t' .constant j r = t .constant j r := fun j r => hag _ _ _ (Or.inl (by simp))
    rw [XIndex.circuit_iff _ _ _ hw, ← hn] at h ⊢
    obtain ⟨h1, h2, h3, h4, h5⟩ := h
    have hpp := XIndex.per_pos hw
    refine ⟨fun r hr => by rw [hcv]; exact h1 r hr, fun r hr k hk => ?_, fun r hr => ?_, fun q h0 hq hlt => ?_, fun hf => ?_⟩
    · rw [cell _ _ (by omega), cell _ _ (by omega), cell _ _ (by omega)]; exact h2 r hr k hk
    · rw [cell _ _ (by omega), cell _ _ (by omega)]; exact h3 r hr
    · have : q / XIndex.per p.w < n := (Nat.div_lt_iff_lt_mul hpp).2 hlt
      rw [cell _ _ (by omega), hbv]; exact h4 q h0 hq hlt
    · have : p.size / XIndex.per p.w < n := (Nat.div_lt_iff_lt_mul hpp).2 hf
      rw [cell _ _ (by omega), hxv]; exact h5 hf

theorem col_do (hw : 9 ≤ p.w) (hc : p.c.OK p.w) (hp : Places p E) (ci : ℕ → Colinear.Inputs) (row : ℤ) (m : ℕ)
    (hE : row + (m * Colinear.rows p.w p.r : ℕ) ≤ E) :
    DoQ p t0 row (row + (m * Colinear.rows p.w p.r : ℕ)) (fun _ => True) (fun _ => True)
      ((List.range m).flatMap fun i => Colinear.circuit p.c p.w p.r (ci i) (row + (i * Colinear.rows p.w p.r : ℕ))) := by
  set n := Colinear.rows p.w p.r with hn
  refine DoQ.range (P := fun _ _ => True) fun i hi => ?_
  have e : (((i + 1) * n : ℕ) : ℤ) = ((i * n : ℕ) : ℤ) + n := by push_cast; ring
  have hle : (((i + 1) * n : ℕ) : ℤ) ≤ ((m * n : ℕ) : ℤ) := by exact_mod_cast Nat.mul_le_mul_right n hi
  refine ⟨by omega, fun t ht _ => ?_, ?_⟩
  · obtain ⟨t', s, f⟩ := Colinear.colinear_vacuous p.c p.w p.r hw hc (ci i) (row + (i * n : ℕ)) t
    exact ⟨t', agr_of_frame hp (by rw [← hn]; omega) f, s, trivial⟩
  · intro t t' hag h
    have cell : ∀ (j : ℤ) (r : ℤ), r < row + ((i + 1) * n : ℕ) → t' .witness (p.c.w j) r = t .witness (p.c.w j) r :=
      fun j r hr => hag _ _ _ (Or.inr (Or.inl hr))
    rw [Colinear.circuit_iff, ← hn] at h ⊢
    intro R hR k hk h0
    have := h R hR k hk h0
    unfold Colinear.Rel at this ⊢
    simp only [cell _ _ (show row + ((i * n : ℕ) : ℤ) + (R : ℤ) < row + ((i + 1) * n : ℕ) by omega)]
    exact this

theorem middle_do (hw : 9 ≤ p.w) (hc : p.c.OK p.w) (hpw : 2 ≤ p.pow) (hp : Places p E) {inp : Input} (hi : Public inp) (srow row : ℤ)
    (hrow : ∀ i, Low row (challenge p srow (15 + p.r + i)) ∨ p.lambda ≤ i) (hE : (middle p inp srow row).2 ≤ E)
    (hk : ∀ i < p.lambda, ∀ r < XIndex.rows p.w p.size, t0 .constant (p.c.k 0) (row + (p.lambda * ConstantPow.rows p.w p.pow : ℕ) +
      (i * XIndex.rows p.w p.size : ℕ) + (r : ℤ)) = p.omega) : Do p E t0 row (middle p inp srow row).2 (middle p inp srow row).1 := by
  have hnp := pow_rows_pos (w := p.w) (by omega) hpw
  simp only [middle] at hE hk ⊢
  set n1 := ConstantPow.rows p.w p.pow with hn1
  set n2 := XIndex.rows p.w p.size with hn2
  set n3 := Colinear.rows p.w p.r with hn3
  -- beyond `lambda` the input does not matter
  let x : ℕ → Var := fun i => if i < p.lambda then challenge p srow (15 + p.r + i) else zero p srow
  have hx : ∀ i, Low row (x i) := by
    intro i
    simp only [x]
    split_ifs with h
    · rcases hrow i with h' | h'
      · exact h'
      · omega
    · exact Or.inl (zero_nw p srow)
  have e1 : ((List.range p.lambda).flatMap fun i => ConstantPow.circuit (F := F) p.c p.w p.pow (challenge p srow (15 + p.r + i)) (row + (i * n1 : ℕ))) =
      (List.range p.lambda).flatMap fun i => ConstantPow.circuit p.c p.w p.pow (x i) (row + (i * n1 : ℕ)) := by
    apply List.flatMap_congr
    intro i hi'
    simp only [x]
    rw [if_pos (List.mem_range.1 hi')]
  have h1 := pow_do (t0 := t0) (by omega) hpw hc hp x row p.lambda hx (by rw [← hn1]; omega)
  have h2 := xindex_do (t0 := t0) (p := p) (E := E) (by omega) hc hp (xsVar p row) inp.positions (row + (p.lambda * n1 : ℕ)) p.lambda
    (fun i hi' => Or.inr (by
      simp only [xsVar, ConstantPow.result, Cols.wa, ← hn1]
      have : (((i + 1) * n1 : ℕ) : ℤ) ≤ ((p.lambda * n1 : ℕ) : ℤ) := by exact_mod_cast Nat.mul_le_mul_right n1 hi'
      have e' : (((i + 1) * n1 : ℕ) : ℤ) = ((i * n1 : ℕ) : ℤ) + n1 := by push_cast; ring
      omega)) hi.positions (by rw [← hn2]; omega) hk
  have h3 := col_do (t0 := t0) (p := p) (E := E) hw hc hp (colInputs p inp srow row) (row + (p.lambda * n1 : ℕ) + (p.lambda * n2 : ℕ)) p.lambda
    (by rw [← hn3]; exact hE)
  rw [← hn1, ← e1] at h1
  rw [← hn2] at h2
  rw [← hn3] at h3
  have h12 := h1.append h2
  refine ⟨by omega, fun t ht => ?_, ?_⟩
  · obtain ⟨t1, a1, s1, -⟩ := h12.make t ht (by intro k hk'; omega)
    obtain ⟨t2, a2, s2, -⟩ := h3.make t1 (SameConst.trans ht a1.const) trivial
    exact ⟨t2, a1.trans (a2.mono h12.le), (sat_append _ _).2 ⟨h12.dep _ _ a2 s1, s2⟩⟩
  · intro t t' h hs
    rw [sat_append] at hs ⊢
    exact ⟨h12.dep _ _ (h.mono h3.le) hs.1, h3.dep _ _ h hs.2⟩

theorem BatchOk.const {inp : Input} (hi : Public inp) {srow : ℤ} {t t' : Table F} (ht : SameConst t t') {i : ℕ} {l : List ℕ} {j cur curHash m : ℕ} :
    BatchOk p inp srow t' i l j cur curHash m ↔ BatchOk p inp srow t i l j cur curHash m := by
  rw [batchOk_iff, batchOk_iff]
  have e1 : vals t' (leafPairs inp i (cur + 2 * (l.take m).sum) (l.getD m 0)) = vals t (leafPairs inp i (cur + 2 * (l.take m).sum) (l.getD m 0)) :=
    vals_const ht (by
      intro x hx
      obtain ⟨k, hk, rfl⟩ := List.mem_map.1 hx
      exact ⟨hi.initialValues _ _, hi.initialValues _ _⟩)
  have e2 : NW (if j + m = 0 then vk1Var p srow else inp.commitments (j + m - 1)) := by
    split_ifs
    · simp [NW, vk1Var]
    · exact hi.commitments _
  rw [e1, map_const ht _ _ (fun k _ => hi.positions i k), map_const ht _ _ (fun k _ => hi.initialHashes i _), e2.value ht]

theorem RoundOk.const {inp : Input} (hi : Public inp) {t t' : Table F} (ht : SameConst t t') {i j off : ℕ} :
    RoundOk p inp t' i j off ↔ RoundOk p inp t i j off := by
  unfold RoundOk
  rw [map_const ht _ _ (fun k _ => hi.positions i k), map_const ht _ _ (fun k _ => hi.roundHashes i _), (hi.roundValues _ _).value ht,
    (hi.roundValues _ _).value ht, (hi.roots _).value ht]

theorem challenge_low (srow : ℤ) (k : ℕ) : Low (srow + ((k + 1) * hrows p : ℕ)) (challenge p srow k) := by
  have := hout_low (p := p) (srow + (k * hrows p : ℕ))
  unfold challenge
  rwa [show srow + ((k + 1) * hrows p : ℕ) = srow + (k * hrows p : ℕ) + hrows p by push_cast; ring]

/-- The transcript up to the checked challenge. -/
def firstPairs (p : Params F) (inp : Input) (t : Table F) : List (F × F) :=
  [(p.vk0, p.vk1), ((inp.commitments 0).value t, 0), (0, 0), ((inp.commitments 1).value t, 0)] ++ List.replicate 8 (0, 0) ++
    [((inp.commitments 2).value t, 0)]

/-- **C76: what the verifier checks.** For public inputs (and the constants of the circuit in place) there is an accepted table exactly
when the given challenge is that of the transcript and the Merkle openings are right. In particular nothing relates the query positions to
the transcript, the values of the rounds to each other, or any evaluation to any constraint, although the circuit has components for the
first two. -/
theorem verifier_accepts_iff (p : Params F) (hw : 9 ≤ p.w) (h3 : 3 ∣ p.w) (hc : p.c.OK p.w) (hpw : 2 ≤ p.pow) (hb : ∀ n ∈ p.batches, 0 < n)
    (hs : p.r ≤ p.size + 1) (inp : Input) (hi : Public inp) (srow : ℤ) (hp : Places p (srow + (rowsAmount p : ℕ))) (t0 : Table F)
    (hk : Fixed p srow t0) :
    (∃ t, SameConst t0 t ∧ Sat t (circuit p inp srow).1) ↔
      inp.challenge.value t0 = absorb p.mds p.rc 0 (firstPairs p inp t0) ∧ ∀ i < p.lambda, QueryOk p inp srow t0 i := by
  have hw0 : 0 < p.w := by omega
  constructor
  · rintro ⟨t, ht, h⟩
    refine ⟨?_, fun i hi' => ⟨fun m hm => ?_, fun j h0 hj => ?_⟩⟩
    · have := (transcript_sound p hw0 h3 inp srow t h).1
      simp only [hi.challenge.value ht, (hi.commitments _).value ht] at this
      exact this
    · exact (BatchOk.const hi ht).1 ((merkle_sound p hw0 h3 inp srow t h i hi').1 m hm)
    · exact (RoundOk.const hi ht).1 ((merkle_sound p hw0 h3 inp srow t h i hi').2 j h0 hj)
  · rintro ⟨hch, hq⟩
    have hE := rows_exact p inp srow hs
    set E := srow + (rowsAmount p : ℕ) with hEd
    have hz : (zero p srow).value t0 = 0 := hk.zero
    have hv0 : (vk0Var p srow).value t0 = p.vk0 := hk.vk0
    have hv1 : (vk1Var p srow).value t0 = p.vk1 := hk.vk1
    have hone : t0 .constant (p.c.k 0) (srow + 1) = 1 := hk.one
    have l1 : ∀ x ∈ absorb1 p inp srow, NW x.1 ∧ NW x.2 := by
      intro x hx
      simp only [absorb1, List.mem_append, List.mem_cons, List.mem_replicate, List.not_mem_nil, or_false] at hx
      have nz := zero_nw p srow
      have n0 : NW (vk0Var p srow) := by simp [NW, vk0Var]
      have n1 : NW (vk1Var p srow) := by simp [NW, vk1Var]
      rcases hx with ((rfl | rfl | rfl | rfl) | ⟨-, rfl⟩) | rfl
      exacts [⟨n0, n1⟩, ⟨hi.commitments _, nz⟩, ⟨nz, nz⟩, ⟨hi.commitments _, nz⟩, ⟨nz, nz⟩, ⟨hi.commitments _, nz⟩]
    have l2 : ∀ x ∈ absorb2 p inp srow, NW x.1 ∧ NW x.2 := by
      intro x hx
      simp only [absorb2, List.mem_append, List.mem_cons, List.mem_replicate, List.not_mem_nil, or_false, List.mem_map] at hx
      have nz := zero_nw p srow
      have n1 : NW (vk1Var p srow) := by simp [NW, vk1Var]
      rcases hx with ((rfl | rfl) | ⟨i, -, rfl⟩) | ⟨-, rfl⟩
      exacts [⟨n1, hi.commitments _⟩, ⟨hi.commitments _, hi.commitments _⟩, ⟨hi.roots _, nz⟩, ⟨nz, nz⟩]
    have len1 : (absorb1 p inp srow).length = 13 := by simp [absorb1]
    have len2 : (absorb2 p inp srow).length = 2 + p.r + p.lambda := by simp [absorb2]; ring
    -- the parts
    simp only [circuit] at hE ⊢
    set a := feed p (zero p srow) (absorb1 p inp srow) srow with ha
    set b := feed p a.2.2 (absorb2 p inp srow) a.2.1 with hbd
    set m := middle p inp srow b.2.1 with hm
    have ea : a.2.1 = srow + (13 * hrows p : ℕ) := by rw [ha, feed_row, len1]
    have eb : b.2.1 = srow + ((15 + p.r + p.lambda) * hrows p : ℕ) := by rw [hbd, feed_row, len2, ea]; push_cast; ring
    have em : b.2.1 ≤ m.2 := by rw [hm]; simp only [middle]; omega
    have emE : m.2 ≤ E := by rw [← hE, queries_row]; omega
    have hpr := hrows_pos hw0 h3
    have eab : a.2.1 ≤ b.2.1 := by
      rw [ea, eb]
      have : (13 * hrows p : ℕ) ≤ (15 + p.r + p.lambda) * hrows p := Nat.mul_le_mul_right _ (by omega)
      have : ((13 * hrows p : ℕ) : ℤ) ≤ (((15 + p.r + p.lambda) * hrows p : ℕ) : ℤ) := by exact_mod_cast this
      omega
    have dA := feed_do (t0 := t0) (E := E) hw0 h3 hc hp (absorb1 p inp srow) l1 (zero p srow) srow (Or.inl (zero_nw p srow))
      (by rw [len1, ← ea]; omega)
    rw [len1, ← ea, ← ha] at dA
    have eout : a.2.2 = challenge p srow 12 := by
      rw [ha, feed_out _ _ _ _ (by rw [len1]; norm_num), len1]; rfl
    have lowA : Low a.2.1 a.2.2 := by rw [eout, ea]; exact challenge_low srow 12
    have dB := feed_do (t0 := t0) (E := E) hw0 h3 hc hp (absorb2 p inp srow) l2 a.2.2 a.2.1 lowA (by rw [← feed_row p _ a.2.2, ← hbd]; omega)
    rw [← feed_row p _ a.2.2, ← hbd] at dB
    have dM := middle_do (t0 := t0) (E := E) hw hc hpw hp hi srow b.2.1 (by
      intro i
      rcases Nat.lt_or_ge i p.lambda with h | h
      · left
        rcases challenge_low (p := p) srow (15 + p.r + i) with h' | h'
        · exact Or.inl h'
        · right
          rw [eb]
          have : (15 + p.r + i + 1) * hrows p ≤ (15 + p.r + p.lambda) * hrows p := Nat.mul_le_mul_right _ (by omega)
          have : (((15 + p.r + i + 1) * hrows p : ℕ) : ℤ) ≤ (((15 + p.r + p.lambda) * hrows p : ℕ) : ℤ) := by exact_mod_cast this
          omega
      · exact Or.inr h) emE (by
      rw [eb]; exact hk.omega)
    rw [← hm] at dM
    have dQ := queries_do (t0 := t0) (E := E) hw0 h3 hc hp hi hz hb p.lambda 0 m.2 (le_of_eq hE) (fun k hk' => by rw [Nat.zero_add]; exact hq k hk')
    have dA' := dA.copy (a := a.2.2) (b := inp.challenge) (lowA.seen le_rfl) (hi.challenge.seen _) (by
      intro t ht hs'
      rw [ha, feed_value hw0 h3 _ _ _ hs', (zero_nw p srow).value ht, hz, vals_const ht l1, hi.challenge.value ht, hch]
      congr 1
      simp [vals, absorb1, firstPairs, hz, hv0, hv1])
    have dC : Do p E t0 srow srow [Op.constant (p.c.k 0) srow 0, .constant (p.c.k 0) (srow + 1) 1, .constant (p.c.k 0) (srow + 2) p.vk0,
        .constant (p.c.k 0) (srow + 3) p.vk1] := by
      have cst : ∀ t t' : Table F, Agr p srow t t' → ∀ i r, t' .constant i r = t .constant i r := fun t t' h i r => h _ _ _ (Or.inl (by simp))
      refine ⟨le_rfl, fun t ht => ⟨t, Agr.refl _ _ _, ?_⟩, fun t t' h hh => ?_⟩
      · have := fun i r => ht .constant i r (by simp)
        simp only [sat_cons, holds_constant, sat_nil, and_true, this]
        exact ⟨hz, hone, hv0, hv1⟩
      · simpa only [sat_cons, holds_constant, sat_nil, and_true, cst t t' h] using hh
    have := ((((dC.append dA').append dB).append dM).append dQ).make t0 (fun _ _ _ _ => rfl)
    obtain ⟨t, hag, hsat⟩ := this
    refine ⟨t, hag.const, ?_⟩
    simpa only [List.append_assoc] using hsat

/-- **C76 (refuted): the last round and the first path are not used.** Whatever the values of the last round and the siblings of the
first round are, the verdict is the same. -/
theorem verifier_ignores (p : Params F) (hw : 9 ≤ p.w) (h3 : 3 ∣ p.w) (hc : p.c.OK p.w) (hpw : 2 ≤ p.pow) (hb : ∀ n ∈ p.batches, 0 < n)
    (hs : p.r ≤ p.size + 1) (inp : Input) (hi : Public inp) (srow : ℤ) (hp : Places p (srow + (rowsAmount p : ℕ))) (t0 : Table F)
    (hk : Fixed p srow t0) (rv rh : ℕ → ℕ → Var) (hrv : ∀ i j, NW (rv i j)) (hrh : ∀ i j, NW (rh i j))
    (e1 : ∀ i k, k < 2 * (p.r - 1) → rv i k = inp.roundValues i k) (e2 : ∀ i k, p.size ≤ k → rh i k = inp.roundHashes i k) :
    (∃ t, SameConst t0 t ∧ Sat t (circuit p { inp with roundValues := rv, roundHashes := rh } srow).1) ↔
      ∃ t, SameConst t0 t ∧ Sat t (circuit p inp srow).1 := by
  have hi' : Public { inp with roundValues := rv, roundHashes := rh } :=
    ⟨hi.commitments, hi.roots, hi.positions, hi.initialValues, hi.initialHashes, hrv, hrh, hi.challenge⟩
  rw [verifier_accepts_iff p hw h3 hc hpw hb hs _ hi' srow hp t0 hk, verifier_accepts_iff p hw h3 hc hpw hb hs _ hi srow hp t0 hk]
  refine and_congr Iff.rfl (forall_congr' fun i => imp_congr_right fun _ => and_congr Iff.rfl (forall_congr' fun j => imp_congr_right fun h0 =>
    imp_congr_right fun hj => ?_))
  unfold RoundOk
  simp only [e1 i _ (show 2 * (j - 1) < 2 * (p.r - 1) by omega), e1 i _ (show 2 * (j - 1) + 1 < 2 * (p.r - 1) by omega),
    fun k => e2 i (p.size + offset p.size 1 (j - 1) + k) (by omega)]

/-! ### An instance -/

instance : Countable Swap.In := by
  have hC : Function.Injective fun v : ColType => (match v with | .witness => 0 | .publicInput => 1 | .constant => 2 | .selector => 3 : ℕ) := by
    intro a b h
    cases a <;> cases b <;> simp_all
  have : Countable ColType := hC.countable
  have hV : Function.Injective fun v : Var => (v.index, v.rotation, v.relative, v.type) := by
    rintro ⟨⟩ ⟨⟩ h
    simp_all
  have : Countable Var := hV.countable
  have hS : Function.Injective fun q : Swap.In => (q.b, q.c, q.d) := by
    rintro ⟨⟩ ⟨⟩ h
    simp_all
  exact hS.countable

/-- One query, one batch of one pair of values, a tree with two leaves. -/
noncomputable def exP (N : ℕ) (mds rc : ℕ → ℕ → ZMod 97) (V : ZMod 97) : Params (ZMod 97) where
  c := Poseidon.cols 9
  w := 9
  mds := mds
  rc := rc
  lambda := 1
  r := 1
  size := 1
  batches := [1]
  omega := 22
  pow := 3
  vk0 := 5
  vk1 := V
  place := fun q => (Poseidon.cols 5, N + (Classical.choose (exists_injective_nat Swap.In) q : ℕ))

def exV (r : ℤ) : Var := ⟨0, r, false, .publicInput⟩

/-- Positions are 0, the challenge is in row 1, all other inputs are 7. -/
def exI : Input := ⟨fun _ => exV 2, fun _ => exV 2, fun _ _ => exV 0, fun _ _ => exV 2, fun _ _ => exV 2, fun _ _ => exV 2, fun _ _ => exV 2, exV 1⟩

def exT (V A : ZMod 97) : Table (ZMod 97) := fun ty _ r => match ty with
  | .publicInput => if r = 0 then 0 else if r = 1 then A else 7
  | .constant => if r = 0 then 0 else if r = 1 then 1 else if r = 2 then 5 else if r = 3 then V else 22
  | _ => 0

theorem ex_places (N : ℕ) (mds rc : ℕ → ℕ → ZMod 97) (V : ZMod 97) : Places (exP N mds rc V) N := by
  refine ⟨fun q => Poseidon.cols_ok 5, fun q => ?_, fun q q' h => Or.inl fun h' => h ?_⟩
  · simp only [exP]
    omega
  · apply Classical.choose_spec (exists_injective_nat Swap.In)
    simp only [exP] at h'
    omega

theorem ex_fixed (N : ℕ) (mds rc : ℕ → ℕ → ZMod 97) (V A : ZMod 97) : Fixed (exP N mds rc V) 0 (exT V A) := by
  refine ⟨by simp [exT], by simp [exT], by simp [exT, exP], by simp [exT, exP], fun i _ r _ => ?_⟩
  have hpos := hrows_pos (p := exP N mds rc V) (by simp [exP]) (by simp [exP])
  have h17 : (4 : ℤ) ≤ (((15 + (exP N mds rc V).r + (exP N mds rc V).lambda) * hrows (exP N mds rc V) : ℕ) : ℤ) := by
    have : 4 * 1 ≤ (15 + (exP N mds rc V).r + (exP N mds rc V).lambda) * hrows (exP N mds rc V) := Nat.mul_le_mul (by omega) hpos
    exact_mod_cast this
  generalize (((15 + (exP N mds rc V).r + (exP N mds rc V).lambda) * hrows (exP N mds rc V) : ℕ) : ℤ) = A at h17 ⊢
  generalize (((exP N mds rc V).lambda * ConstantPow.rows (exP N mds rc V).w (exP N mds rc V).pow : ℕ)) = B
  generalize (i * XIndex.rows (exP N mds rc V).w (exP N mds rc V).size : ℕ) = C
  simp only [exT]
  rw [if_neg (by omega), if_neg (by omega), if_neg (by omega), if_neg (by omega)]
  simp only [exP]

theorem ex_public : Public exI := by constructor <;> intros <;> simp [NW, exI, exV]

theorem ex_first (N : ℕ) (mds rc : ℕ → ℕ → ZMod 97) (V A : ZMod 97) : firstPairs (exP N mds rc V) exI (exT V A) =
    [(5, V), (7, 0), (0, 0), (7, 0)] ++ List.replicate 8 (0, 0) ++ [(7, 0)] := by
  have h : (exV 2).value (exT V A) = 7 := rfl
  simp only [firstPairs, exI, exP, h]

attribute [local irreducible] H in
theorem ex_query (N : ℕ) (mds rc : ℕ → ℕ → ZMod 97) (V A : ZMod 97) (hV : V = H mds rc 0 7 (H mds rc 0 7 7)) (i : ℕ) :
    QueryOk (exP N mds rc V) exI 0 (exT V A) i := by
  have h2 : (exV 2).value (exT V A) = 7 := rfl
  have h0 : (exV 0).value (exT V A) = 0 := rfl
  have h3 : (vk1Var (exP N mds rc V) 0).value (exT V A) = V := (ex_fixed N mds rc V A).vk1
  refine ⟨fun m hm => ?_, fun j h0 hj => ?_⟩
  · have hm0 : m < 1 := hm
    have hm1 : m = 0 := by omega
    subst hm1
    rw [batchOk_iff]
    rw [if_pos (by norm_num), h3]
    show Opens (H mds rc 0) (H mds rc 0 ((exV 2).value (exT V A)) ((exV 2).value (exT V A))) [(exV 0).value (exT V A)] [(exV 2).value (exT V A)] V
    rw [h2, h0]
    refine ⟨[false], rfl, ?_⟩
    rw [hV]
    rfl
  · have : j < 1 := hj
    omega

/-- The hypotheses and both sides of `verifier_accepts_iff` hold, whatever the parameters of Poseidon are. -/
example (mds rc : ℕ → ℕ → ZMod 97) : ∃ N V A t, SameConst (exT V A) t ∧ Sat t (circuit (exP N mds rc V) exI 0).1 := by
  obtain ⟨V, hV⟩ : ∃ V, V = H mds rc 0 7 (H mds rc 0 7 7) := ⟨_, rfl⟩
  obtain ⟨N, hN⟩ : ∃ N, N = rowsAmount (exP 0 mds rc V) := ⟨_, rfl⟩
  obtain ⟨A, hA⟩ : ∃ A, A = absorb mds rc 0 ([(5, V), (7, 0), (0, 0), (7, 0)] ++ List.replicate 8 (0, 0) ++ [(7, 0)]) := ⟨_, rfl⟩
  have e : ((N : ℕ) : ℤ) = 0 + (rowsAmount (exP N mds rc V) : ℕ) := by
    rw [zero_add, hN]
    simp only [rowsAmount, hrows, exP]
  refine ⟨N, V, A, (verifier_accepts_iff (exP N mds rc V) (by simp [exP]) (by simp [exP]) (Poseidon.cols_ok 9) (by simp [exP]) (by simp [exP])
    (by simp [exP]) exI ex_public 0 (e ▸ ex_places N mds rc V) (exT V A) (ex_fixed N mds rc V A)).2
      ⟨?_, fun i _ => ex_query N mds rc V A hV i⟩⟩
  rw [ex_first]
  exact hA

end Verifier
end Verif
