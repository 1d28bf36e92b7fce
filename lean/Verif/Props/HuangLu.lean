import Verif.Model.HuangLu
import Mathlib.Algebra.BigOperators.Group.List.Basic
import Mathlib.Algebra.Order.BigOperators.Group.List
import Mathlib.Tactic.Ring
import Mathlib.Tactic.Linarith
import Mathlib.Algebra.BigOperators.Group.Finset.Piecewise
import Mathlib.Algebra.Order.BigOperators.Group.Finset

/-!
# Zone packing and stretched components: C46, C47
-/

set_option linter.unusedSimpArgs false
set_option linter.unusedVariables false

namespace Verif
namespace HuangLu

/-- Specification: total size of the items which `asg` puts on agent `j`. -/
def load (asg : ℕ → Option ℕ) (its : List Item) (j : ℕ) : ℕ :=
  ((its.filter fun it => asg it.1 = some j).map Prod.snd).sum

/-- Specification: sum of the sizes. -/
def sumSize (its : List Item) : ℕ := (its.map Prod.snd).sum

theorem load_append (asg : ℕ → Option ℕ) (l m : List Item) (j : ℕ) : load asg (l ++ m) j = load asg l j + load asg m j := by
  simp [load]

theorem load_perm (asg : ℕ → Option ℕ) {l m : List Item} (h : l.Perm m) (j : ℕ) : load asg l j = load asg m j :=
  ((h.filter _).map _).sum_eq

theorem load_congr (a b : ℕ → Option ℕ) (l : List Item) (j : ℕ) (h : ∀ it ∈ l, a it.1 = b it.1) : load a l j = load b l j := by
  unfold load
  rw [List.filter_congr fun it hit => by rw [h it hit]]

theorem load_const (a : ℕ → Option ℕ) (l : List Item) (i : ℕ) (h : ∀ it ∈ l, a it.1 = some i) : load a l i = sumSize l := by
  unfold load sumSize
  rw [List.filter_eq_self.2 fun it hit => by simp [h it hit]]

theorem load_zero (a : ℕ → Option ℕ) (l : List Item) (j : ℕ) (h : ∀ it ∈ l, a it.1 ≠ some j) : load a l j = 0 := by
  unfold load
  rw [List.filter_eq_nil_iff.2 fun it hit => by simp [h it hit]]
  rfl

theorem sumSize_append (l m : List Item) : sumSize (l ++ m) = sumSize l + sumSize m := by simp [sumSize]

theorem sumSize_perm {l m : List Item} (h : l.Perm m) : sumSize l = sumSize m := (h.map _).sum_eq

theorem fillOne_perm (T cur : ℕ) (ts : List Item) : ((fillOne T cur ts).1 ++ (fillOne T cur ts).2.1).Perm ts := by
  induction ts generalizing cur with
  | nil => simp [fillOne]
  | cons it ts ih =>
    rw [fillOne]
    by_cases h : cur + it.2 ≤ T
    · rw [if_pos h]
      exact (ih (cur + it.2)).cons it
    · rw [if_neg h]
      exact List.perm_middle.trans ((ih cur).cons it)

theorem fillOne_size (T cur : ℕ) (ts : List Item) : (fillOne T cur ts).2.2 = cur + sumSize (fillOne T cur ts).1 := by
  induction ts generalizing cur with
  | nil => simp [fillOne, sumSize]
  | cons it ts ih =>
    rw [fillOne]
    by_cases h : cur + it.2 ≤ T
    · rw [if_pos h]
      show (fillOne T (cur + it.2) ts).2.2 = _
      rw [ih]
      simp only [sumSize, List.map_cons, List.sum_cons]
      omega
    · rw [if_neg h]
      exact ih cur

theorem fillOne_le (T cur : ℕ) (ts : List Item) (h : cur ≤ T) : (fillOne T cur ts).2.2 ≤ T := by
  induction ts generalizing cur with
  | nil => simpa [fillOne] using h
  | cons it ts ih =>
    rw [fillOne]
    by_cases h' : cur + it.2 ≤ T
    · rw [if_pos h']; exact ih _ h'
    · rw [if_neg h']; exact ih _ h

theorem fillOne_rem (T cur : ℕ) (ts : List Item) : ∀ it ∈ (fillOne T cur ts).2.1, T < (fillOne T cur ts).2.2 + it.2 := by
  induction ts generalizing cur with
  | nil => simp [fillOne]
  | cons it ts ih =>
    rw [fillOne]
    by_cases h : cur + it.2 ≤ T
    · rw [if_pos h]; exact ih _
    · rw [if_neg h]
      intro x hx
      rcases List.mem_cons.1 hx with rfl | hx
      · show T < (fillOne T cur ts).2.2 + x.2
        rw [fillOne_size]; omega
      · exact ih _ x hx

theorem record_of_notMem (asg : ℕ → Option ℕ) (i : ℕ) (taken : List Item) (k : ℕ) (h : k ∉ taken.map Prod.fst) :
    record asg i taken k = asg k := by
  induction taken generalizing asg with
  | nil => rfl
  | cons it ts ih =>
    simp only [List.map_cons, List.mem_cons, not_or] at h
    show record (Function.update asg it.1 (some i)) i ts k = _
    rw [ih _ h.2, Function.update_of_ne h.1]

theorem record_of_mem (asg : ℕ → Option ℕ) (i : ℕ) (taken : List Item) (k : ℕ) (h : k ∈ taken.map Prod.fst) :
    record asg i taken k = some i := by
  induction taken generalizing asg with
  | nil => simp at h
  | cons it ts ih =>
    show record (Function.update asg it.1 (some i)) i ts k = _
    by_cases hk : k ∈ ts.map Prod.fst
    · exact ih _ hk
    · rw [record_of_notMem _ _ _ _ hk]
      have : k = it.1 := by
        rcases List.mem_cons.1 (by simpa using h : k ∈ it.1 :: ts.map Prod.fst) with h | h
        · exact h
        · exact absurd h hk
      rw [this, Function.update_self]

theorem fillAgents_of_notMem (T n i : ℕ) (ts : List Item) (asg : ℕ → Option ℕ) (k : ℕ) (h : k ∉ ts.map Prod.fst) :
    (fillAgents T n i ts asg).1 k = asg k := by
  induction n generalizing i ts asg with
  | zero => rfl
  | succ n ih =>
    have hp := fillOne_perm T 0 ts
    have hk := mt ((hp.map Prod.fst).mem_iff (a := k)).1 h
    rw [List.map_append, List.mem_append, not_or] at hk
    rw [fillAgents]
    split
    · exact record_of_notMem _ _ _ _ hk.1
    · rw [ih _ _ _ hk.2, record_of_notMem _ _ _ _ hk.1]

/-- A run of the agents' loop which leaves nothing: every item is on one of the agents `i .. i+n-1` and no agent
carries more than the threshold. -/
theorem fillAgents_good (T n i : ℕ) (ts : List Item) (asg : ℕ → Option ℕ) (hnd : (ts.map Prod.fst).Nodup)
    (hrem : (fillAgents T n i ts asg).2 = []) :
    (∀ it ∈ ts, ∃ j, i ≤ j ∧ j < i + n ∧ j < i + ts.length ∧ (fillAgents T n i ts asg).1 it.1 = some j) ∧
      ∀ j, load (fillAgents T n i ts asg).1 ts j ≤ T := by
  induction n generalizing i ts asg with
  | zero =>
    simp only [fillAgents] at hrem
    subst hrem
    simp [load]
  | succ n ih =>
    have hp := fillOne_perm T 0 ts
    set r := fillOne T 0 ts with hr
    have hnd' : ((r.1 ++ r.2.1).map Prod.fst).Nodup := (hp.map Prod.fst).nodup_iff.2 hnd
    rw [List.map_append, List.nodup_append] at hnd'
    obtain ⟨nd1, nd2, ndd⟩ := hnd'
    have hmem1 : ∀ it ∈ r.1, it.1 ∉ r.2.1.map Prod.fst := fun it hit h =>
      ndd _ (List.mem_map_of_mem hit) _ h rfl
    have hsz : sumSize r.1 ≤ T := by
      have h1 := fillOne_size T 0 ts
      have h2 := fillOne_le T 0 ts (Nat.zero_le _)
      rw [← hr] at h1 h2
      omega
    rw [fillAgents] at hrem ⊢
    simp only [← hr] at hrem ⊢
    by_cases hb : r.2.2 = 0
    · rw [if_pos hb] at hrem ⊢
      simp only [] at hrem
      rw [hrem, List.append_nil] at hp
      have hall : ∀ it ∈ ts, record asg i r.1 it.1 = some i := fun it hit =>
        record_of_mem _ _ _ _ (List.mem_map_of_mem (hp.mem_iff.2 hit))
      refine ⟨fun it hit => ⟨i, le_refl _, by omega, by have := List.length_pos_of_mem hit; omega, hall it hit⟩, fun j => ?_⟩
      by_cases hj : j = i
      · rw [hj, load_const _ _ _ hall, ← sumSize_perm hp]; exact hsz
      · rw [load_zero _ _ _ fun it hit => by
          show record asg i r.1 it.1 ≠ _
          rw [hall it hit]; simpa using Ne.symm hj]
        exact Nat.zero_le _
    · rw [if_neg hb] at hrem ⊢
      obtain ⟨g1, g2⟩ := ih (i + 1) r.2.1 (record asg i r.1) nd2 hrem
      set R := (fillAgents T n (i + 1) r.2.1 (record asg i r.1)).1 with hR
      have htaken : ∀ it ∈ r.1, R it.1 = some i := by
        intro it hit
        rw [hR, fillAgents_of_notMem _ _ _ _ _ _ (hmem1 it hit)]
        exact record_of_mem _ _ _ _ (List.mem_map_of_mem hit)
      refine ⟨fun it hit => ?_, fun j => ?_⟩
      · rcases List.mem_append.1 (hp.mem_iff.2 hit) with h | h
        · exact ⟨i, le_refl _, by omega, by have := List.length_pos_of_mem hit; omega, htaken it h⟩
        · obtain ⟨j, h1, h2, h4, h3⟩ := g1 it h
          refine ⟨j, by omega, by omega, ?_, h3⟩
          have hlen := hp.length_eq
          rw [List.length_append] at hlen
          have hne : r.1 ≠ [] := by
            intro h0
            have := fillOne_size T 0 ts
            rw [← hr, h0] at this
            exact hb (by rw [this]; rfl)
          have := List.length_pos_of_ne_nil hne
          omega
      · rw [← load_perm _ hp, load_append]
        by_cases hj : j = i
        · rw [hj, load_const _ _ _ htaken, load_zero _ r.2.1]
          · omega
          · intro it hit
            obtain ⟨j', h1, h2, h4, h3⟩ := g1 it hit
            rw [h3]; simp; omega
        · rw [load_zero _ r.1 _ fun it hit => by rw [htaken it hit]; simpa using Ne.symm hj, zero_add]
          exact g2 j

/-- If something remains, all agents are nearly full. -/
theorem fillAgents_rem (T n i : ℕ) (ts : List Item) (asg : ℕ → Option ℕ) (it : Item) (hT : it.2 ≤ T)
    (h : it ∈ (fillAgents T n i ts asg).2) : n * (T + 1 - it.2) + it.2 ≤ sumSize ts := by
  induction n generalizing i ts asg with
  | zero =>
    simp only [fillAgents] at h
    rw [zero_mul, zero_add]
    exact List.single_le_sum (by simp) _ (List.mem_map_of_mem h)
  | succ n ih =>
    have hp := fillOne_perm T 0 ts
    have hrem := fillOne_rem T 0 ts
    have hsz := fillOne_size T 0 ts
    rw [fillAgents] at h
    set r := fillOne T 0 ts with hr
    by_cases hb : r.2.2 = 0
    · rw [if_pos hb] at h
      have := hrem it h
      omega
    · rw [if_neg hb] at h
      have h1 := ih _ _ _ h
      have h2 : it ∈ r.2.1 := by
        by_contra hn
        have : ∀ n i ts asg, it ∈ (fillAgents T n i ts asg).2 → it ∈ ts := by
          intro n
          induction n with
          | zero => intro i ts asg h; exact h
          | succ n ih' =>
            intro i ts asg h
            have hp := fillOne_perm T 0 ts
            rw [fillAgents] at h
            split at h
            · exact hp.mem_iff.1 (List.mem_append_right _ h)
            · exact hp.mem_iff.1 (List.mem_append_right _ (ih' _ _ _ h))
        exact hn (this _ _ _ _ h)
      have h3 := hrem it h2
      rw [← sumSize_perm hp, sumSize_append, Nat.succ_mul]
      omega

theorem mem_of_mem_fillAgents (T n i : ℕ) (ts : List Item) (asg : ℕ → Option ℕ) (it : Item)
    (h : it ∈ (fillAgents T n i ts asg).2) : it ∈ ts := by
  induction n generalizing i ts asg with
  | zero => exact h
  | succ n ih =>
    have hp := fillOne_perm T 0 ts
    rw [fillAgents] at h
    split at h
    · exact hp.mem_iff.1 (List.mem_append_right _ h)
    · exact hp.mem_iff.1 (List.mem_append_right _ (ih _ _ _ h))

/-- The largest threshold tried always succeeds. -/
theorem fillAgents_success (L T n : ℕ) (ts : List Item) (asg : ℕ → Option ℕ) (hmax : ∀ it ∈ ts, it.2 ≤ L)
    (hsum : sumSize ts ≤ n * L) (hn : 0 < n) (hT : 2 * L ≤ T + 1) : (fillAgents T n 0 ts asg).2 = [] := by
  by_contra hne
  obtain ⟨it, hit⟩ := List.exists_mem_of_ne_nil _ hne
  have h1 := hmax it (mem_of_mem_fillAgents _ _ _ _ _ _ hit)
  have h2 := fillAgents_rem T n 0 ts asg it (by omega) hit
  have h3 : n * L ≤ n * (T + 1 - it.2) := Nat.mul_le_mul_left _ (by omega)
  have hz : it.2 = 0 := by omega
  have key : ∀ n i ts asg, it ∈ (fillAgents T (n + 1) i ts asg).2 → False := by
    intro n
    induction n with
    | zero =>
      intro i ts asg h
      have hrem := fillOne_rem T 0 ts
      have hle := fillOne_le T 0 ts (Nat.zero_le _)
      simp only [fillAgents, ite_self] at h
      have := hrem it h
      omega
    | succ n ih =>
      intro i ts asg h
      have hrem := fillOne_rem T 0 ts
      have hle := fillOne_le T 0 ts (Nat.zero_le _)
      rw [fillAgents] at h
      split at h
      · have := hrem it h; omega
      · exact ih _ _ _ h
  obtain ⟨m, rfl⟩ : ∃ m, n = m + 1 := ⟨n - 1, by omega⟩
  exact key m _ _ _ hit


/-- With at least as many agents as items every threshold which admits the largest item succeeds. -/
theorem fillAgents_few (T n i : ℕ) (ts : List Item) (asg : ℕ → Option ℕ) (hmax : ∀ it ∈ ts, it.2 ≤ T)
    (hlen : ts.length ≤ n) : (fillAgents T n i ts asg).2 = [] := by
  induction n generalizing i ts asg with
  | zero => simpa [fillAgents] using hlen
  | succ n ih =>
    have hp := fillOne_perm T 0 ts
    have hrem := fillOne_rem T 0 ts
    rw [fillAgents]
    by_cases hb : (fillOne T 0 ts).2.2 = 0
    · rw [if_pos hb]
      refine List.eq_nil_iff_forall_not_mem.2 fun it hit => ?_
      have h1 := hrem it hit
      have h2 := hmax it (hp.mem_iff.1 (List.mem_append_right _ hit))
      omega
    · rw [if_neg hb]
      refine ih _ _ _ (fun it hit => hmax it (hp.mem_iff.1 (List.mem_append_right _ hit))) ?_
      have h1 := hp.length_eq
      rw [List.length_append] at h1
      have h2 : (fillOne T 0 ts).1 ≠ [] := by
        intro h
        have := fillOne_size T 0 ts
        rw [h] at this
        exact hb (by rw [this]; rfl)
      have h3 := List.length_pos_of_ne_nil h2
      omega

/-- What `huang_lu` is to return: every item on an agent below `agents`, no agent above `B`. -/
def Packs (sizes : List Item) (agents B : ℕ) (a : ℕ → Option ℕ) : Prop :=
  (∀ it ∈ sizes, ∃ j < agents, a it.1 = some j) ∧ ∀ j, load a sizes j ≤ B

theorem Packs.mono {sizes : List Item} {agents B B' : ℕ} {a : ℕ → Option ℕ} (h : Packs sizes agents B a) (hB : B ≤ B') :
    Packs sizes agents B' a := ⟨h.1, fun j => (h.2 j).trans hB⟩

theorem packs_fillAgents {T n : ℕ} {ts : List Item} {asg : ℕ → Option ℕ} (hnd : (ts.map Prod.fst).Nodup)
    (hrem : (fillAgents T n 0 ts asg).2 = []) : Packs ts n T (fillAgents T n 0 ts asg).1 := by
  obtain ⟨h1, h2⟩ := fillAgents_good T n 0 ts asg hnd hrem
  exact ⟨fun it hit => let ⟨j, _, b, _, c⟩ := h1 it hit; ⟨j, by omega, c⟩, h2⟩

/-- `a` is the result of a run of the agents' loop which left nothing, for a threshold up to `B`. -/
def FromRun (ts : List Item) (n B : ℕ) (a : ℕ → Option ℕ) : Prop :=
  ∃ T asg, T ≤ B ∧ (fillAgents T n 0 ts asg).2 = [] ∧ a = (fillAgents T n 0 ts asg).1

theorem FromRun.packs {ts : List Item} {n B : ℕ} {a : ℕ → Option ℕ} (hnd : (ts.map Prod.fst).Nodup)
    (h : FromRun ts n B a) : Packs ts n B a := by
  obtain ⟨T, asg, h1, h2, rfl⟩ := h
  exact (packs_fillAgents hnd h2).mono h1

theorem FromRun.index {ts : List Item} {n B : ℕ} {a : ℕ → Option ℕ} (hnd : (ts.map Prod.fst).Nodup)
    (h : FromRun ts n B a) : ∀ it ∈ ts, ∃ j < ts.length, a it.1 = some j := by
  obtain ⟨T, asg, h1, h2, rfl⟩ := h
  intro it hit
  obtain ⟨j, _, _, h3, h4⟩ := (fillAgents_good T n 0 ts asg hnd h2).1 it hit
  exact ⟨j, by omega, h4⟩

theorem search_good (L n : ℕ) (ts : List Item) (hmax : ∀ it ∈ ts, it.2 ≤ L)
    (hsum : sumSize ts ≤ n * L) (hn : 0 < n) :
    ∀ k left right : ℕ, ∀ asg best : ℕ → Option ℕ, right - left ≤ k → right ≤ 2 * L →
      (left + 1 ≤ 2 * L ∧ right = 2 * L ∨ FromRun ts n (2 * L - 1) best) →
      FromRun ts n (2 * L - 1) (search ts n left right asg best) := by
  intro k
  induction k with
  | zero =>
    intro left right asg best h1 h2 h3
    rw [search]
    rw [dif_neg (by omega)]
    rcases h3 with h3 | h3
    · omega
    · exact h3
  | succ k ih =>
    intro left right asg best h1 h2 h3
    rw [search]
    by_cases hlt : left < right
    · rw [dif_pos hlt]
      simp only []
      set T := left + (right - left) / 2 with hT
      have hT1 : T < right := by omega
      have hT0 : left ≤ T := by omega
      by_cases hl : (fillAgents T n 0 ts asg).2.length = 0
      · rw [if_pos hl]
        have hg : FromRun ts n (2 * L - 1) (fillAgents T n 0 ts asg).1 :=
          ⟨T, asg, by omega, List.length_eq_zero_iff.1 hl, rfl⟩
        by_cases he : T = left
        · rw [if_pos he]; exact hg
        · rw [if_neg he]
          exact ih _ _ _ _ (by omega) (by omega) (Or.inr hg)
      · rw [if_neg hl, if_neg (by omega)]
        have hnot : ¬ 2 * L ≤ T + 1 := fun h =>
          hl (List.length_eq_zero_iff.2 (fillAgents_success L T n ts asg hmax hsum hn h))
        refine ih _ _ _ _ (by omega) h2 ?_
        rcases h3 with h3 | h3
        · exact Or.inl ⟨by omega, h3.2⟩
        · exact Or.inr h3
    · rw [dif_neg hlt]
      rcases h3 with h3 | h3
      · omega
      · exact h3

/-- If every threshold succeeds the search goes down to its lower end. -/
theorem search_few (n left : ℕ) (ts : List Item) (hnd : (ts.map Prod.fst).Nodup)
    (hs : ∀ T asg, left ≤ T → (fillAgents T n 0 ts asg).2 = []) :
    ∀ k right : ℕ, ∀ asg best : ℕ → Option ℕ, right - left ≤ k → left < right →
      Packs ts n left (search ts n left right asg best) := by
  intro k
  induction k with
  | zero => intro right asg best h1 h2; omega
  | succ k ih =>
    intro right asg best h1 hlt
    rw [search, dif_pos hlt]
    simp only []
    set T := left + (right - left) / 2 with hT
    have hg := hs T asg (by omega)
    rw [if_pos (List.length_eq_zero_iff.2 hg)]
    by_cases he : T = left
    · rw [if_pos he]
      exact he ▸ packs_fillAgents hnd hg
    · rw [if_neg he]
      exact ih _ _ _ (by omega) (by omega)

theorem foldl_max_le (ts : List Item) (m : ℕ) :
    (m ≤ ts.foldl (fun m it => max m it.2) m ∧ ∀ it ∈ ts, it.2 ≤ ts.foldl (fun m it => max m it.2) m) ∧
      (ts.foldl (fun m it => max m it.2) m = m ∨ ∃ it ∈ ts, it.2 = ts.foldl (fun m it => max m it.2) m) := by
  induction ts generalizing m with
  | nil => simp
  | cons x ts ih =>
    simp only [List.foldl_cons, List.mem_cons, forall_eq_or_imp, exists_eq_or_imp]
    obtain ⟨⟨h1, h2⟩, h3⟩ := ih (max m x.2)
    refine ⟨⟨le_trans (le_max_left _ _) h1, le_trans (le_max_right _ _) h1, h2⟩, ?_⟩
    rcases h3 with h3 | h3
    · rw [h3]
      rcases le_total m x.2 with h | h
      · right; left; rw [max_eq_right h]
      · left; exact max_eq_left h
    · exact Or.inr (Or.inr h3)

theorem le_maxItem (ts : List Item) : ∀ it ∈ ts, it.2 ≤ maxItem ts := (foldl_max_le ts 0).1.2

theorem maxItem_le (ts : List Item) (B : ℕ) (h : ∀ it ∈ ts, it.2 ≤ B) : maxItem ts ≤ B := by
  rcases (foldl_max_le ts 0).2 with h' | ⟨it, h1, h2⟩
  · exact le_trans (le_of_eq h') (Nat.zero_le _)
  · exact le_trans (le_of_eq h2.symm) (h it h1)

theorem total_eq (ts : List Item) : total ts = sumSize ts := by
  have : ∀ s, ts.foldl (fun s it => s + it.2) s = s + sumSize ts := by
    induction ts with
    | nil => simp [sumSize]
    | cons x ts ih =>
      intro s
      rw [List.foldl_cons, ih]
      simp only [sumSize, List.map_cons, List.sum_cons]
      omega
  rw [total, this, zero_add]

theorem maxItem_perm {l m : List Item} (h : l.Perm m) : maxItem l = maxItem m :=
  le_antisymm (maxItem_le _ _ fun it hit => le_maxItem _ it (h.mem_iff.1 hit))
    (maxItem_le _ _ fun it hit => le_maxItem _ it (h.mem_iff.2 hit))

theorem start_perm {l m : List Item} (h : l.Perm m) (n : ℕ) : start l n = start m n := by
  unfold start
  rw [total_eq, total_eq, sumSize_perm h, maxItem_perm h]

theorem packs_perm {l m : List Item} (h : l.Perm m) {n B : ℕ} {a : ℕ → Option ℕ} (hp : Packs l n B a) : Packs m n B a :=
  ⟨fun it hit => hp.1 it (h.mem_iff.2 hit), fun j => by rw [← load_perm a h]; exact hp.2 j⟩

theorem ceil_spec (s n : ℕ) (hn : 0 < n) : s ≤ n * ((s + n - 1) / n) ∧ ∀ B, s ≤ n * B → (s + n - 1) / n ≤ B := by
  constructor
  · have h1 := Nat.div_add_mod (s + n - 1) n
    have h2 := Nat.mod_lt (s + n - 1) hn
    omega
  · intro B hB
    refine Nat.le_of_lt_succ ((Nat.div_lt_iff_lt_mul hn).2 ?_)
    rw [Nat.succ_mul, mul_comm]
    omega

/-- Specification: the smallest makespan any assignment to `agents` agents could have is at least `B`. -/
def LowerBound (sizes : List Item) (agents B : ℕ) : Prop :=
  ∀ B' a, Packs sizes agents B' a → B ≤ B'

theorem sumSize_eq_loads (sizes : List Item) (n : ℕ) (a : ℕ → Option ℕ) (h : ∀ it ∈ sizes, ∃ j < n, a it.1 = some j) :
    sumSize sizes = ∑ j ∈ Finset.range n, load a sizes j := by
  induction sizes with
  | nil => simp [sumSize, load]
  | cons x ts ih =>
    obtain ⟨j, hj, hx⟩ := h x (by simp)
    have h1 : ∀ j', load a (x :: ts) j' = (if j = j' then x.2 else 0) + load a ts j' := by
      intro j'
      unfold load
      by_cases he : j = j'
      · subst he; simp [hx]
      · simp [hx, he]
    simp only [h1, Finset.sum_add_distrib, Finset.sum_ite_eq, Finset.mem_range, if_pos hj]
    rw [← ih fun it hit => h it (List.mem_cons_of_mem _ hit)]
    simp [sumSize]

/-- **C46**, lower bound: no assignment does better than the initial threshold. -/
theorem huangLu_lower (sizes : List Item) (agents : ℕ) (hn : 0 < agents) : LowerBound sizes agents (start sizes agents) := by
  intro B a ⟨h1, h2⟩
  refine max_le ?_ (maxItem_le _ _ fun it hit => ?_)
  · refine (ceil_spec _ _ hn).2 B ?_
    rw [total_eq, sumSize_eq_loads _ _ _ h1]
    exact le_trans (Finset.sum_le_sum fun j _ => h2 j) (by simp)
  · obtain ⟨j, _, hj⟩ := h1 it hit
    refine le_trans ?_ (h2 j)
    refine List.single_le_sum (by simp) _ ?_
    exact List.mem_map_of_mem (List.mem_filter.2 ⟨hit, by simp [hj]⟩)

theorem huangLu_fromRun (sizes : List Item) (agents : ℕ) (hn : 0 < agents)
    (hpos : ∃ it ∈ sizes, 0 < it.2) :
    FromRun (sizes.insertionSort fun a b => b.2 ≤ a.2) agents (2 * start sizes agents - 1) (huangLu sizes agents) := by
  have hp : (sizes.insertionSort fun a b => b.2 ≤ a.2).Perm sizes := List.perm_insertionSort _ _
  unfold huangLu
  simp only []
  rw [start_perm hp]
  obtain ⟨x, hx, hx0⟩ := hpos
  have hm := le_maxItem sizes x hx
  have hL : maxItem sizes ≤ start sizes agents := le_max_right _ _
  refine search_good _ _ _ ?_ ?_ hn _ _ _ _ _ (le_refl _) (le_refl _)
    (Or.inl ⟨by omega, rfl⟩)
  · intro it hit
    exact le_trans (le_maxItem _ it (hp.mem_iff.1 hit)) hL
  · rw [sumSize_perm hp, ← total_eq]
    exact le_trans (ceil_spec _ _ hn).1 (Nat.mul_le_mul_left _ (le_max_left _ _))

/-- **C46**: `huang_lu` puts every item on exactly one of the agents (a partial function holds one value per key)
and no agent's load reaches twice the best possible. -/
theorem huangLu_packs (sizes : List Item) (agents : ℕ) (hn : 0 < agents) (hnd : (sizes.map Prod.fst).Nodup)
    (hpos : ∃ it ∈ sizes, 0 < it.2) : Packs sizes agents (2 * start sizes agents - 1) (huangLu sizes agents) := by
  have hp : (sizes.insertionSort fun a b => b.2 ≤ a.2).Perm sizes := List.perm_insertionSort _ _
  exact packs_perm hp ((huangLu_fromRun sizes agents hn hpos).packs ((hp.map _).nodup_iff.2 hnd))

/-- The agents used are numbered below the number of items too, so `zone_rows[zone]`
(`component_stretcher.hpp:228-236`, a vector as long as there are zones) is in bounds. -/
theorem huangLu_index (sizes : List Item) (agents : ℕ) (hn : 0 < agents) (hnd : (sizes.map Prod.fst).Nodup)
    (hpos : ∃ it ∈ sizes, 0 < it.2) : ∀ it ∈ sizes, ∃ j < sizes.length, huangLu sizes agents it.1 = some j := by
  have hp : (sizes.insertionSort fun a b => b.2 ≤ a.2).Perm sizes := List.perm_insertionSort _ _
  intro it hit
  obtain ⟨j, h1, h2⟩ := (huangLu_fromRun sizes agents hn hpos).index ((hp.map _).nodup_iff.2 hnd) it (hp.mem_iff.2 hit)
  exact ⟨j, by rw [hp.length_eq] at h1; exact h1, h2⟩

/-- **C46** in one statement: the packing stays below twice the load of *any* assignment. -/
theorem huangLu_two_approx (sizes : List Item) (agents : ℕ) (hn : 0 < agents) (hnd : (sizes.map Prod.fst).Nodup)
    (hpos : ∃ it ∈ sizes, 0 < it.2) (opt : ℕ) (a : ℕ → Option ℕ) (ha : Packs sizes agents opt a) :
    (∀ it ∈ sizes, ∃ j < agents, huangLu sizes agents it.1 = some j) ∧
      ∀ j, load (huangLu sizes agents) sizes j < 2 * opt := by
  have h1 := huangLu_packs sizes agents hn hnd hpos
  have h2 := huangLu_lower sizes agents hn opt a ha
  obtain ⟨x, hx, hx0⟩ := hpos
  have h3 : x.2 ≤ start sizes agents := le_trans (le_maxItem sizes x hx) (le_max_right _ _)
  refine ⟨h1.1, fun j => ?_⟩
  have := h1.2 j
  omega

/-- The remaining case: when all sizes are zero nothing is assigned. -/
theorem huangLu_zero (sizes : List Item) (agents : ℕ) (hn : 0 < agents) (h0 : ∀ it ∈ sizes, it.2 = 0) (k : ℕ) :
    huangLu sizes agents k = none := by
  have hp : (sizes.insertionSort fun a b => b.2 ≤ a.2).Perm sizes := List.perm_insertionSort _ _
  have hs : start sizes agents = 0 := by
    have h1 : maxItem sizes = 0 := Nat.le_zero.1 (maxItem_le _ _ fun it hit => (h0 it hit).le)
    have h2 : sumSize sizes = 0 := List.sum_eq_zero fun x hx => by
      obtain ⟨it, hit, rfl⟩ := List.mem_map.1 hx; exact h0 it hit
    unfold start
    rw [h1, total_eq, h2, Nat.div_eq_of_lt (by omega)]
    rfl
  unfold huangLu
  rw [start_perm hp, hs, search, dif_neg (by omega)]

/-- With at least as many agents as items the optimum, the largest item, is reached. -/
theorem huangLu_few (sizes : List Item) (agents : ℕ) (hnd : (sizes.map Prod.fst).Nodup)
    (hpos : ∃ it ∈ sizes, 0 < it.2) (hlen : sizes.length ≤ agents) :
    Packs sizes agents (maxItem sizes) (huangLu sizes agents) := by
  have hp : (sizes.insertionSort fun a b => b.2 ≤ a.2).Perm sizes := List.perm_insertionSort _ _
  obtain ⟨x, hx, hx0⟩ := hpos
  have hn : 0 < agents := lt_of_lt_of_le (List.length_pos_of_mem hx) hlen
  have hs : start sizes agents = maxItem sizes := by
    refine max_eq_right ((ceil_spec _ _ hn).2 _ ?_)
    rw [total_eq]
    have : sumSize sizes ≤ sizes.length * maxItem sizes := by
      have := List.sum_le_card_nsmul (sizes.map Prod.snd) (maxItem sizes) (by
        intro y hy
        obtain ⟨it, hit, rfl⟩ := List.mem_map.1 hy
        exact le_maxItem _ it hit)
      simpa [sumSize] using this
    exact le_trans this (Nat.mul_le_mul_right _ hlen)
  have hm := le_maxItem sizes x hx
  unfold huangLu
  simp only []
  rw [start_perm hp, hs]
  refine packs_perm hp (search_few _ _ _ ((hp.map _).nodup_iff.2 hnd) ?_ _ _ _ _ (le_refl _) (by omega))
  intro T asg hT
  refine fillAgents_few _ _ _ _ _ (fun it hit => le_trans (le_maxItem _ it (hp.mem_iff.1 hit)) hT) ?_
  rw [hp.length_eq]; exact hlen

/-- The hypotheses are satisfiable. -/
example : (([(0, 3), (1, 2), (2, 2)] : List Item).map Prod.fst).Nodup ∧ (∃ it ∈ ([(0, 3), (1, 2), (2, 2)] : List Item), 0 < it.2) ∧
    start [(0, 3), (1, 2), (2, 2)] 2 = 4 := by decide

/-! ## C47: rows of a stretched component -/

theorem lineMapping_length (as : List ℕ) (cnt : ℕ → ℕ) : (lineMapping as cnt).length = as.length := by
  induction as generalizing cnt with
  | nil => rfl
  | cons a as ih => simp [lineMapping, ih]

theorem lineMapping_get (as : List ℕ) (cnt : ℕ → ℕ) (i : ℕ) (h : i < as.length) :
    (lineMapping as cnt)[i]'(by rw [lineMapping_length]; exact h) = cnt as[i] + (as.take i).count as[i] := by
  induction as generalizing cnt i with
  | nil => simp at h
  | cons a as ih =>
    cases i with
    | zero => simp [lineMapping]
    | succ i =>
      simp only [lineMapping, List.getElem_cons_succ, List.take_succ_cons]
      rw [ih _ i (by simpa using h), Function.update_apply, List.count_cons]
      by_cases he : as[i]'(by simpa using h) = a
      · simp only [he, if_true, beq_self_eq_true]
        omega
      · rw [if_neg he, if_neg (by simpa using Ne.symm he)]
        omega

theorem count_take_lt (as : List ℕ) (i : ℕ) (h : i < as.length) : (as.take i).count as[i] < as.count as[i] := by
  have h1 : as.count as[i] = (as.take i).count as[i] + (as.drop i).count as[i] := by
    rw [← List.count_append, List.take_append_drop]
  rw [h1, List.drop_eq_getElem_cons h, List.count_cons_self]
  omega

theorem count_take_mono (as : List ℕ) (i j : ℕ) (h : i < j) (hj : j < as.length) (he : as[i] = as[j]) :
    (as.take i).count as[i] < (as.take j).count as[j] := by
  have h1 := count_take_lt (as.take j) i (by simp; omega)
  rw [List.take_take, min_eq_left h.le] at h1
  simp only [List.getElem_take] at h1
  rw [← he]
  exact h1

/-- `zone_sizes` as `count_zones` computes it (`component_stretcher.hpp:80-92`): one entry per zone, its size the
number of rows. -/
structure ZoneSizes (zone : List ℕ) (zs : List Item) : Prop where
  nodup : (zs.map Prod.fst).Nodup
  mem : ∀ z ∈ zone, z ∈ zs.map Prod.fst
  size : ∀ it ∈ zs, it.2 = zone.count it.1

theorem sum_indicator (zs : List Item) (m : ℕ → Option ℕ) (j z : ℕ) (hnd : (zs.map Prod.fst).Nodup) (hz : z ∈ zs.map Prod.fst) :
    ((zs.filter fun it => m it.1 = some j).map fun it => if z = it.1 then 1 else 0).sum = if m z = some j then 1 else 0 := by
  induction zs with
  | nil => simp at hz
  | cons x zs ih =>
    simp only [List.map_cons, List.nodup_cons, List.mem_cons] at hnd hz
    by_cases hx : z = x.1
    · have h0 : ((zs.filter fun it => m it.1 = some j).map fun it => if z = it.1 then 1 else 0).sum = 0 := by
        refine List.sum_eq_zero fun y hy => ?_
        obtain ⟨it, hit, rfl⟩ := List.mem_map.1 hy
        refine if_neg fun h => hnd.1 ?_
        rw [← hx, h]
        exact List.mem_map_of_mem (List.mem_filter.1 hit).1
      by_cases hm : m x.1 = some j
      · rw [List.filter_cons_of_pos (by simp [hm]), List.map_cons, List.sum_cons, h0, hx]
        simp [hm]
      · rw [List.filter_cons_of_neg (by simp [hm]), h0, hx, if_neg hm]
    · have ih' := ih hnd.2 (hz.resolve_left hx)
      by_cases hm : m x.1 = some j
      · rw [List.filter_cons_of_pos (by simp [hm]), List.map_cons, List.sum_cons, ih', if_neg hx, zero_add]
      · rw [List.filter_cons_of_neg (by simp [hm]), ih']

/-- Rows per agent are the agent's load. -/
theorem count_eq_load (zone : List ℕ) (zs : List Item) (h : ZoneSizes zone zs) (m : ℕ → Option ℕ) (j : ℕ) :
    zone.countP (fun z => m z = some j) = load m zs j := by
  have key : ∀ zone' : List ℕ, (∀ z ∈ zone', z ∈ zs.map Prod.fst) →
      zone'.countP (fun z => m z = some j) =
        ((zs.filter fun it => m it.1 = some j).map fun it => zone'.count it.1).sum := by
    intro zone'
    induction zone' with
    | nil => intro _; simp
    | cons z zone' ih =>
      intro hmem
      simp only [List.countP_cons, List.count_cons]
      rw [ih fun y hy => hmem y (List.mem_cons_of_mem _ hy), List.sum_map_add]
      have := sum_indicator zs m j z h.nodup (hmem z (by simp))
      simp only [beq_iff_eq, decide_eq_true_eq]
      rw [this]
  rw [key zone h.mem]
  unfold load
  congr 1
  refine List.map_congr_left fun it hit => ?_
  exact (h.size it (List.mem_filter.1 hit).1).symm

/-- The agent (column block) of row `i`. -/
def rowAgent (zone : List ℕ) (zs : List Item) (stretch i : ℕ) : ℕ := (huangLu zs stretch (zone.getD i 0)).getD 0

theorem zoneSizes_pos {zone : List ℕ} {zs : List Item} (h : ZoneSizes zone zs) (hne : zone ≠ []) : ∃ it ∈ zs, 0 < it.2 := by
  obtain ⟨z, hz⟩ := List.exists_mem_of_ne_nil _ hne
  obtain ⟨it, hit, rfl⟩ := List.mem_map.1 (h.mem z hz)
  exact ⟨it, hit, by rw [h.size it hit]; exact List.count_pos_iff.2 hz⟩

theorem remap_get (zone : List ℕ) (zs : List Item) (stretch i : ℕ) (hi : i < zone.length) :
    (remap zone zs stretch).getD i 0 =
      ((zone.map fun z => (huangLu zs stretch z).getD 0).take i).count (rowAgent zone zs stretch i) := by
  have hl : i < (remap zone zs stretch).length := by simp [remap, lineMapping_length, hi]
  have h1 := lineMapping_get (zone.map fun z => (huangLu zs stretch z).getD 0) (fun _ => 0) i (by simpa using hi)
  have h2 : (remap zone zs stretch).getD i 0 = (remap zone zs stretch)[i] := by simp [List.getD, hl]
  rw [h2]
  refine h1.trans ?_
  simp only [zero_add, List.getElem_map]
  have : zone.getD i 0 = zone[i] := by simp [List.getD, hi]
  rw [rowAgent, this]

theorem remap_lt_of_packs (zone : List ℕ) (zs : List Item) (stretch B : ℕ) (h : ZoneSizes zone zs)
    (hp : Packs zs stretch B (huangLu zs stretch)) (i : ℕ) (hi : i < zone.length) :
    (remap zone zs stretch).getD i 0 < B := by
  rw [remap_get _ _ _ _ hi]
  have h1 := count_take_lt (zone.map fun z => (huangLu zs stretch z).getD 0) i (by simpa using hi)
  have hz : zone.getD i 0 = zone[i] := by simp [List.getD, hi]
  simp only [List.getElem_map] at h1
  rw [rowAgent, hz]
  refine lt_of_lt_of_le h1 ?_
  refine le_trans (le_of_eq ?_) (hp.2 ((huangLu zs stretch zone[i]).getD 0))
  rw [← count_eq_load zone zs h, List.count_eq_countP, List.countP_map]
  refine List.countP_congr fun z hz => ?_
  obtain ⟨it, hit, rfl⟩ := List.mem_map.1 (h.mem z hz)
  obtain ⟨j, _, hj⟩ := hp.1 it hit
  simp [hj]

/-- **C47** (what does hold, for every component): the rows written stay below twice the larger of the biggest zone
and the average, and rows put into the same block of columns get different rows. -/
theorem stretch_rows (zone : List ℕ) (zs : List Item) (stretch : ℕ) (hs : 0 < stretch) (h : ZoneSizes zone zs)
    (hne : zone ≠ []) :
    (∀ i < zone.length, (remap zone zs stretch).getD i 0 < 2 * start zs stretch - 1 ∧ rowAgent zone zs stretch i < stretch) ∧
    (∀ i < zone.length, ∀ j < zone.length, i ≠ j → rowAgent zone zs stretch i = rowAgent zone zs stretch j →
      (remap zone zs stretch).getD i 0 ≠ (remap zone zs stretch).getD j 0) := by
  have hp := huangLu_packs zs stretch hs h.nodup (zoneSizes_pos h hne)
  refine ⟨fun i hi => ⟨remap_lt_of_packs _ _ _ _ h hp i hi, ?_⟩, ?_⟩
  · have hz : zone.getD i 0 = zone[i] := by simp [List.getD, hi]
    obtain ⟨it, hit, he⟩ := List.mem_map.1 (h.mem zone[i] (List.getElem_mem hi))
    obtain ⟨j, hj1, hj2⟩ := hp.1 it hit
    rw [rowAgent, hz, ← he, hj2]
    exact hj1
  · have key : ∀ i j, i < j → j < zone.length → rowAgent zone zs stretch i = rowAgent zone zs stretch j →
        (remap zone zs stretch).getD i 0 < (remap zone zs stretch).getD j 0 := by
      intro i j hij hj he
      have hi : i < zone.length := hij.trans hj
      rw [remap_get _ _ _ _ hi, remap_get _ _ _ _ hj]
      have hzi : zone.getD i 0 = zone[i] := by simp [List.getD, hi]
      have hzj : zone.getD j 0 = zone[j] := by simp [List.getD, hj]
      have := count_take_mono (zone.map fun z => (huangLu zs stretch z).getD 0) i j hij (by simpa using hj)
        (by simpa [rowAgent, hzi, hzj, hi, hj] using he)
      simpa [rowAgent, hzi, hzj, hi, hj] using this
    intro i hi j hj hij he
    rcases Nat.lt_or_gt_of_ne hij with h' | h'
    · exact (key i j h' hj he).ne
    · exact (key j i h' hi he.symm).ne'

/-- **C47**, partial: with no more zones than column blocks the reported number of rows suffices. -/
theorem stretch_rows_partial (zone : List ℕ) (zs : List Item) (stretch : ℕ) (h : ZoneSizes zone zs)
    (hne : zone ≠ []) (hlen : zs.length ≤ stretch) :
    ∀ i < zone.length, (remap zone zs stretch).getD i 0 < reported zs := fun i hi =>
  remap_lt_of_packs _ _ _ _ h (huangLu_few zs stretch h.nodup (zoneSizes_pos h hne) hlen) i hi

/-- **C47** refuted: as soon as there are more zones than column blocks and the zones are single rows, the component
reports one row and writes more. -/
theorem stretch_rows_refuted (n stretch : ℕ) (hs : 0 < stretch) (hn : stretch < n) :
    ZoneSizes (List.range n) ((List.range n).map fun z => (z, 1)) ∧
      reported ((List.range n).map fun z => (z, 1)) = 1 ∧
      ∃ i < n, 1 ≤ (remap (List.range n) ((List.range n).map fun z => (z, 1)) stretch).getD i 0 := by
  have hz : ZoneSizes (List.range n) ((List.range n).map fun z => (z, 1)) := by
    refine ⟨?_, ?_, ?_⟩
    · simpa [List.map_map, Function.comp_def] using List.nodup_range
    · intro z hz; simpa [List.map_map, Function.comp_def] using hz
    · intro it hit
      obtain ⟨z, hz, rfl⟩ := List.mem_map.1 hit
      exact (List.count_eq_one_of_mem List.nodup_range hz).symm
  refine ⟨hz, ?_, ?_⟩
  · refine le_antisymm (maxItem_le _ _ ?_) ?_
    · intro it hit
      obtain ⟨z, hz, rfl⟩ := List.mem_map.1 hit
      exact le_refl _
    · exact le_maxItem ((List.range n).map fun z => (z, 1)) (0, 1) (List.mem_map.2 ⟨0, by simp; omega, rfl⟩)
  · obtain ⟨h1, h2⟩ := stretch_rows _ _ stretch hs hz (by intro h; have := congrArg List.length h; simp at this; omega)
    simp only [List.length_range] at h1 h2
    by_contra hcon
    push Not at hcon
    -- all rows are row 0, so the block is an injective function of the row
    obtain ⟨i, hi, j, hj, hij, he⟩ := Finset.exists_ne_map_eq_of_card_lt_of_maps_to
      (s := Finset.range n) (t := Finset.range stretch) (by simpa using hn)
      (f := rowAgent (List.range n) ((List.range n).map fun z => (z, 1)) stretch)
      (fun i hi => by simpa using (h1 i (by simpa using hi)).2)
    refine h2 i (by simpa using hi) j (by simpa using hj) hij he ?_
    have a := hcon i (by simpa using hi)
    have b := hcon j (by simpa using hj)
    omega

/-- Witness for the hypotheses of the positive statements. -/
example : ZoneSizes [5, 5, 7] [(5, 2), (7, 1)] := ⟨by decide, by decide, by decide⟩

end HuangLu
end Verif
