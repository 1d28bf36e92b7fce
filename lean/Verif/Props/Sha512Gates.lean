import Verif.Props.Sha512Calc
import Verif.Props.Sha256Complete

/-!
# The circuit of `sha512_process`: what its gates say about the cells
-/

set_option linter.unusedSimpArgs false
set_option linter.unusedSectionVars false

namespace Verif
namespace Sha512

open Sha256 (kk forall_rows)

variable {F : Type*} [Field F] {c : Cols} {inp : In} {srow : ℤ} {t : Table F}

/-! ## The gates -/

/-- `sigma0Gate` on the cells relative to the row of the gate. -/
def Sigma0OK (y : ℤ → ℤ → F) : Prop :=
  let k := fun (n : ℕ) => (n : F)
  y (-1) 0 - (y (-1) 1 + y (-1) 2 * k (2 ^ 1) + y (-1) 3 * k (2 ^ 7) + y (-1) 4 * k (2 ^ 8) + y (-1) 5 * k (2 ^ 22) + y (-1) 6 * k (2 ^ 36) + y (-1) 7 * k (2 ^ 50)) = 0 ∧
  (y (-1) 1 - k 1) * y (-1) 1 = 0 ∧
  (y (-1) 3 - k 1) * y (-1) 3 = 0 ∧
  y 0 6 + y 0 7 * k (2 ^ 28) + y 0 8 * k (2 ^ 56) + y 1 0 * k (2 ^ 84) + y 1 1 * k (2 ^ 112) - (y (-1) 8 * k (2 ^ 126 + 2 ^ 112) + y 0 0 * k (1 + 2 ^ 114) + y 0 1 * k (2 ^ 12 + 2 ^ 126 + 1) + y 0 2 * k (2 ^ 14 + 1 + 2 ^ 2) + y 0 3 * k (2 ^ 42 + 2 ^ 28 + 2 ^ 30) + y 0 4 * k (2 ^ 70 + 2 ^ 56 + 2 ^ 58) + y 0 5 * k (2 ^ 98 + 2 ^ 84 + 2 ^ 86)) = 0

theorem sat_Sigma0OK (rows : List ℤ) : Sat t [.gate (sigma0Gate c) rows] ↔
    ∀ row ∈ rows, Sigma0OK (fun r j => t .witness (c.w j) (row + r)) := by
  simp only [sigma0Gate, sat_cons, sat_nil, holds_gate, and_true]
  refine forall₂_congr fun row hr => ?_
  simp only [List.mem_cons, List.not_mem_nil, or_false, forall_eq_or_imp, forall_eq, kk,
    Expr.eval_add, Expr.eval_sub, Expr.eval_mul, Expr.eval_const, Expr.eval_var, Var.evalAt, Cols.eval_wv, and_assoc, if_true, Sigma0OK]

/-- `sigma1Gate` on the cells relative to the row of the gate. -/
def Sigma1OK (y : ℤ → ℤ → F) : Prop :=
  let k := fun (n : ℕ) => (n : F)
  y 1 0 - (y 1 1 + y 1 2 * k (2 ^ 6) + y 1 3 * k (2 ^ 19) + y 1 4 * k (2 ^ 33) + y 1 5 * k (2 ^ 47) + y 1 6 * k (2 ^ 61)) = 0 ∧
  (y 1 6 - k 7) * (y 1 6 - k 6) * (y 1 6 - k 5) * (y 1 6 - k 4) * (y 1 6 - k 3) * (y 1 6 - k 2) * (y 1 6 - k 1) * y 1 6 = 0 ∧
  y 0 4 + y 0 5 * k (2 ^ 28) + y 0 6 * k (2 ^ 56) + y 0 7 * k (2 ^ 84) + y 0 8 * k (2 ^ 112) - (y 1 7 * k (2 ^ 90 + 2 ^ 6) + y 1 8 * k (2 ^ 102 + 2 ^ 18 + 1) + y 0 0 * k (1 + 2 ^ 44 + 2 ^ 26) + y 0 1 * k (2 ^ 28 + 2 ^ 72 + 2 ^ 54) + y 0 2 * k (2 ^ 56 + 2 ^ 100 + 2 ^ 82) + y 0 3 * k (2 ^ 84 + 1 + 2 ^ 110)) = 0

theorem sat_Sigma1OK (rows : List ℤ) : Sat t [.gate (sigma1Gate c) rows] ↔
    ∀ row ∈ rows, Sigma1OK (fun r j => t .witness (c.w j) (row + r)) := by
  simp only [sigma1Gate, sat_cons, sat_nil, holds_gate, and_true]
  refine forall₂_congr fun row hr => ?_
  simp only [List.mem_cons, List.not_mem_nil, or_false, forall_eq_or_imp, forall_eq, kk,
    Expr.eval_add, Expr.eval_sub, Expr.eval_mul, Expr.eval_const, Expr.eval_var, Var.evalAt, Cols.eval_wv, and_assoc, if_true, Sigma1OK]

/-- `schedGate` on the cells relative to the row of the gate. -/
def SchedOK (y : ℤ → ℤ → F) : Prop :=
  let k := fun (n : ℕ) => (n : F)
  y 0 5 + k (2 ^ 64) * y 0 6 - (y (-1) 7 + y (-1) 8 + y (-1) 2 + y (-1) 3 * k (2 ^ 14) + y (-1) 4 * k (2 ^ 28) + y (-1) 5 * k (2 ^ 42) + y (-1) 6 * k (2 ^ 56) + y 0 0 + y 0 1 * k (2 ^ 14) + y 0 2 * k (2 ^ 28) + y 0 3 * k (2 ^ 42) + y 0 4 * k (2 ^ 56)) = 0 ∧
  (y 0 6 - k 3) * (y 0 6 - k 2) * (y 0 6 - k 1) * y 0 6 = 0

theorem sat_SchedOK (rows : List ℤ) : Sat t [.gate (schedGate c) rows] ↔
    ∀ row ∈ rows, SchedOK (fun r j => t .witness (c.w j) (row + r)) := by
  simp only [schedGate, sat_cons, sat_nil, holds_gate, and_true]
  refine forall₂_congr fun row hr => ?_
  simp only [List.mem_cons, List.not_mem_nil, or_false, forall_eq_or_imp, forall_eq, kk,
    Expr.eval_add, Expr.eval_sub, Expr.eval_mul, Expr.eval_const, Expr.eval_var, Var.evalAt, Cols.eval_wv, and_assoc, if_true, SchedOK]

/-- `bigSigma0Gate` on the cells relative to the row of the gate. -/
def BigSigma0OK (y : ℤ → ℤ → F) : Prop :=
  let k := fun (n : ℕ) => (n : F)
  y 1 0 - (y 1 1 + y 1 2 * k (2 ^ 14) + y 1 3 * k (2 ^ 28) + y 1 4 * k (2 ^ 34) + y 1 5 * k (2 ^ 39) + y 1 6 * k (2 ^ 53)) = 0 ∧
  y (-1) 5 - (y 1 7 + y 1 8 * k (4 ^ 14) + y 0 0 * k (4 ^ 28) + y 0 1 * k (4 ^ 34) + y 0 2 * k (4 ^ 39) + y 0 3 * k (4 ^ 53)) = 0

theorem sat_BigSigma0OK (rows : List ℤ) : Sat t [.gate (bigSigma0Gate c) rows] ↔
    ∀ row ∈ rows, BigSigma0OK (fun r j => t .witness (c.w j) (row + r)) := by
  simp only [bigSigma0Gate, sat_cons, sat_nil, holds_gate, and_true]
  refine forall₂_congr fun row hr => ?_
  simp only [List.mem_cons, List.not_mem_nil, or_false, forall_eq_or_imp, forall_eq, kk,
    Expr.eval_add, Expr.eval_sub, Expr.eval_mul, Expr.eval_const, Expr.eval_var, Var.evalAt, Cols.eval_wv, and_assoc, if_true, BigSigma0OK]

/-- `bigSigma1Gate` on the cells relative to the row of the gate. -/
def BigSigma1OK (y : ℤ → ℤ → F) : Prop :=
  let k := fun (n : ℕ) => (n : F)
  y (-1) 0 - (y (-1) 1 + y (-1) 2 * k (2 ^ 14) + y (-1) 3 * k (2 ^ 18) + y (-1) 4 * k (2 ^ 32) + y (-1) 5 * k (2 ^ 41) + y (-1) 6 * k (2 ^ 55)) = 0 ∧
  y 1 5 - (y (-1) 7 + y (-1) 8 * k (7 ^ 14) + y 0 0 * k (7 ^ 18) + y 0 1 * k (7 ^ 32) + y 0 2 * k (7 ^ 41) + y 0 3 * k (7 ^ 55)) = 0 ∧
  y 0 4 + y 0 5 * k (7 ^ 14) + y 0 6 * k (7 ^ 28) + y 0 7 * k (7 ^ 42) + y 0 8 * k (7 ^ 56) - (y (-1) 7 * k (7 ^ 50 + 7 ^ 46 + 7 ^ 23) + y (-1) 8 * k (1 + 7 ^ 60 + 7 ^ 37) + y 0 0 * k (7 ^ 4 + 1 + 7 ^ 41) + y 0 1 * k (7 ^ 18 + 7 ^ 14 + 7 ^ 55) + y 0 2 * k (7 ^ 27 + 7 ^ 23 + 1) + y 0 3 * k (7 ^ 41 + 7 ^ 37 + 7 ^ 14)) = 0

theorem sat_BigSigma1OK (rows : List ℤ) : Sat t [.gate (bigSigma1Gate c) rows] ↔
    ∀ row ∈ rows, BigSigma1OK (fun r j => t .witness (c.w j) (row + r)) := by
  simp only [bigSigma1Gate, sat_cons, sat_nil, holds_gate, and_true]
  refine forall₂_congr fun row hr => ?_
  simp only [List.mem_cons, List.not_mem_nil, or_false, forall_eq_or_imp, forall_eq, kk,
    Expr.eval_add, Expr.eval_sub, Expr.eval_mul, Expr.eval_const, Expr.eval_var, Var.evalAt, Cols.eval_wv, and_assoc, if_true, BigSigma1OK]

/-- `majGate` on the cells relative to the row of the gate. -/
def MajOK (y : ℤ → ℤ → F) : Prop :=
  let k := fun (n : ℕ) => (n : F)
  y 0 7 + y 0 8 * k (2 ^ 32) + y (-1) 0 * k (2 ^ 64) + y (-1) 1 * k (2 ^ 96) - (y 0 5 + y 0 6 + y (-1) 6) = 0

theorem sat_MajOK (rows : List ℤ) : Sat t [.gate (majGate c) rows] ↔
    ∀ row ∈ rows, MajOK (fun r j => t .witness (c.w j) (row + r)) := by
  simp only [majGate, sat_cons, sat_nil, holds_gate, and_true]
  refine forall₂_congr fun row hr => ?_
  simp only [List.mem_cons, List.not_mem_nil, or_false, forall_eq_or_imp, forall_eq, kk,
    Expr.eval_add, Expr.eval_sub, Expr.eval_mul, Expr.eval_const, Expr.eval_var, Var.evalAt, Cols.eval_wv, and_assoc, if_true, MajOK]

/-- `chGate` on the cells relative to the row of the gate. -/
def ChOK (y : ℤ → ℤ → F) : Prop :=
  let k := fun (n : ℕ) => (n : F)
  y 0 7 + y 0 8 * k (7 ^ 16) + y 1 0 * k (7 ^ 32) + y 1 1 * k (7 ^ 48) - (y 0 5 + k 2 * y 0 6 + k 3 * y 1 6) = 0

theorem sat_ChOK (rows : List ℤ) : Sat t [.gate (chGate c) rows] ↔
    ∀ row ∈ rows, ChOK (fun r j => t .witness (c.w j) (row + r)) := by
  simp only [chGate, sat_cons, sat_nil, holds_gate, and_true]
  refine forall₂_congr fun row hr => ?_
  simp only [List.mem_cons, List.not_mem_nil, or_false, forall_eq_or_imp, forall_eq, kk,
    Expr.eval_add, Expr.eval_sub, Expr.eval_mul, Expr.eval_const, Expr.eval_var, Var.evalAt, Cols.eval_wv, and_assoc, if_true, ChOK]

/-- `eGate` on the cells relative to the row of the gate. -/
def EOK (y : ℤ → ℤ → F) (κ : F) : Prop :=
  let k := fun (n : ℕ) => (n : F)
  y 1 1 - (y 0 8 + y 1 0 + y (-1) 0 + y (-1) 1 * k (2 ^ 14) + y (-1) 2 * k (2 ^ 28) + y (-1) 3 * k (2 ^ 42) + y (-1) 4 * k (2 ^ 56) + y 0 2 + y 0 3 * k (2 ^ 16) + y 0 4 * k (2 ^ 32) + y 0 5 * k (2 ^ 48) + κ) = 0 ∧
  y 1 1 + y 0 7 - (y 1 2 + k (2 ^ 64) * y 1 3) = 0 ∧
  (y 1 3 - k 5) * (y 1 3 - k 4) * (y 1 3 - k 3) * (y 1 3 - k 2) * (y 1 3 - k 1) * y 1 3 = 0

theorem sat_EOK (rows : List ℤ) : Sat t [.gate (eGate c) rows] ↔
    ∀ row ∈ rows, EOK (fun r j => t .witness (c.w j) (row + r)) (t .constant (c.w 0) (row + 0)) := by
  simp only [eGate, sat_cons, sat_nil, holds_gate, and_true]
  refine forall₂_congr fun row hr => ?_
  simp only [List.mem_cons, List.not_mem_nil, or_false, forall_eq_or_imp, forall_eq, kk,
    Expr.eval_add, Expr.eval_sub, Expr.eval_mul, Expr.eval_const, Expr.eval_var, Var.evalAt, Cols.eval_wv, and_assoc, if_true, EOK]

/-- `aGate` on the cells relative to the row of the gate. -/
def AOK (y : ℤ → ℤ → F) : Prop :=
  let k := fun (n : ℕ) => (n : F)
  y 0 7 + k (2 ^ 64) * y 0 8 - (y (-1) 1 + y 1 0 + y 1 1 * k (2 ^ 14) + y 1 2 * k (2 ^ 28) + y 1 3 * k (2 ^ 42) + y 1 4 * k (2 ^ 56) + y 0 2 + y 0 3 * k (2 ^ 16) + y 0 4 * k (2 ^ 32) + y 0 5 * k (2 ^ 48)) = 0 ∧
  (y 0 8 - k 6) * (y 0 8 - k 5) * (y 0 8 - k 4) * (y 0 8 - k 3) * (y 0 8 - k 2) * (y 0 8 - k 1) * y 0 8 = 0

theorem sat_AOK (rows : List ℤ) : Sat t [.gate (aGate c) rows] ↔
    ∀ row ∈ rows, AOK (fun r j => t .witness (c.w j) (row + r)) := by
  simp only [aGate, sat_cons, sat_nil, holds_gate, and_true]
  refine forall₂_congr fun row hr => ?_
  simp only [List.mem_cons, List.not_mem_nil, or_false, forall_eq_or_imp, forall_eq, kk,
    Expr.eval_add, Expr.eval_sub, Expr.eval_mul, Expr.eval_const, Expr.eval_var, Var.evalAt, Cols.eval_wv, and_assoc, if_true, AOK]

/-- `outGate` on the cells relative to the row of the gate. -/
def OutOK (y : ℤ → ℤ → F) : Prop :=
  let k := fun (n : ℕ) => (n : F)
  y 1 0 + k (2 ^ 64) * y 1 4 - (y 0 0 + y 0 4) = 0 ∧
  y 1 1 + k (2 ^ 64) * y 1 5 - (y 0 1 + y 0 5) = 0 ∧
  y 1 2 + k (2 ^ 64) * y 1 6 - (y 0 2 + y 0 6) = 0 ∧
  y 1 3 + k (2 ^ 64) * y 1 7 - (y 0 3 + y 0 7) = 0

theorem sat_OutOK (rows : List ℤ) : Sat t [.gate (outGate c) rows] ↔
    ∀ row ∈ rows, OutOK (fun r j => t .witness (c.w j) (row + r)) := by
  simp only [outGate, sat_cons, sat_nil, holds_gate, and_true]
  refine forall₂_congr fun row hr => ?_
  simp only [List.mem_cons, List.not_mem_nil, or_false, forall_eq_or_imp, forall_eq, kk,
    Expr.eval_add, Expr.eval_sub, Expr.eval_mul, Expr.eval_const, Expr.eval_var, Var.evalAt, Cols.eval_wv, and_assoc, if_true, OutOK]

/-! ## The blocks -/

/-- The cells of a block of rows. -/
def cells (t : Table F) (c : Cols) (base : ℤ) (m j : ℤ) : F := t .witness (c.w j) (base + m)

/-- The six rows of a step of the schedule. -/
def SchedBlock (x : ℤ → ℤ → F) : Prop :=
  Sigma0OK (fun r j => x (1 + r) j) ∧ Sigma1OK (fun r j => x (4 + r) j) ∧ SchedOK fun r j => x (3 + r) j

/-- The nine rows of a round with constant `κ`. -/
def RoundBlock (x : ℤ → ℤ → F) (κ : F) : Prop :=
  BigSigma1OK (fun r j => x (1 + r) j) ∧ BigSigma0OK (fun r j => x (7 + r) j) ∧ ChOK (fun r j => x (2 + r) j) ∧ MajOK (fun r j => x (6 + r) j) ∧
    EOK (fun r j => x (3 + r) j) κ ∧ AOK fun r j => x (5 + r) j

/-- The four rows of the output. -/
def OutBlock (x : ℤ → ℤ → F) : Prop := OutOK (fun r j => x (0 + r) j) ∧ OutOK fun r j => x (2 + r) j

theorem cells_off (base a m : ℤ) : (fun r j => t .witness (c.w j) (base + a + m + r)) = fun r j => cells t c (base + m) (a + r) j := by
  funext r j; unfold cells; congr 1; ring

theorem sat_sched : Sat t (schedOps c srow) ↔ ∀ n : ℕ, n < 64 → SchedBlock (cells t c (srow + 2 + 6 * (n : ℤ))) := by
  unfold schedOps
  have h1 := sat_Sigma0OK (t := t) (c := c) (rowsBetween (srow + 2 + 1) (srow + 2 + 383) 6)
  have h2 := sat_Sigma1OK (t := t) (c := c) (rowsBetween (srow + 2 + 4) (srow + 2 + 383) 6)
  have h3 := sat_SchedOK (t := t) (c := c) (rowsBetween (srow + 2 + 3) (srow + 2 + 383) 6)
  rw [forall_rows (N := 64) (by rw [show srow + 2 + 383 - (srow + 2 + 1) = 382 by ring]; rfl)] at h1
  rw [forall_rows (N := 64) (by rw [show srow + 2 + 383 - (srow + 2 + 4) = 379 by ring]; rfl)] at h2
  rw [forall_rows (N := 64) (by rw [show srow + 2 + 383 - (srow + 2 + 3) = 380 by ring]; rfl)] at h3
  simp only [sat_cons, sat_nil, and_true, cells_off, Nat.cast_ofNat, add_zero] at h1 h2 h3
  simp only [sat_cons, sat_nil, and_true]
  unfold SchedBlock
  simp only [forall₂_and]
  rw [h1, h2, h3]

theorem sat_const : (Sat t ((List.range 80).map fun (i : ℕ) => Op.constant (c.k 0) (srow + 386 + 3 + 9 * (i : ℤ)) ((roundConstant.getD i 0 : ℕ) : F))) ↔
    ∀ n : ℕ, n < 80 → t .constant (c.k 0) (srow + 389 + 9 * (n : ℤ)) = ((roundConstant.getD n 0 : ℕ) : F) := by
  unfold Sat
  simp only [List.mem_map, List.mem_range, forall_exists_index, and_imp, forall_apply_eq_imp_iff₂, holds_constant]
  refine forall₂_congr fun n _ => ?_
  rw [show srow + 386 + 3 = srow + 389 by ring]

theorem sat_round : Sat t (roundOps c srow) ↔
    (∀ n : ℕ, n < 80 → t .constant (c.k 0) (srow + 389 + 9 * (n : ℤ)) = ((roundConstant.getD n 0 : ℕ) : F)) ∧
    ∀ n : ℕ, n < 80 → RoundBlock (cells t c (srow + 386 + 9 * (n : ℤ))) (t .constant (c.w 0) (srow + 389 + 9 * (n : ℤ))) := by
  unfold roundOps
  have h1 := sat_BigSigma1OK (t := t) (c := c) (rowsBetween (srow + 386 + 1) (srow + 386 + 719) 9)
  have h2 := sat_BigSigma0OK (t := t) (c := c) (rowsBetween (srow + 386 + 7) (srow + 386 + 719) 9)
  have h3 := sat_ChOK (t := t) (c := c) (rowsBetween (srow + 386 + 2) (srow + 386 + 719) 9)
  have h4 := sat_MajOK (t := t) (c := c) (rowsBetween (srow + 386 + 6) (srow + 386 + 719) 9)
  have h5 := sat_EOK (t := t) (c := c) (rowsBetween (srow + 386 + 3) (srow + 386 + 719) 9)
  have h6 := sat_AOK (t := t) (c := c) (rowsBetween (srow + 386 + 5) (srow + 386 + 719) 9)
  rw [forall_rows (N := 80) (by rw [show srow + 386 + 719 - (srow + 386 + 1) = 718 by ring]; rfl)] at h1
  rw [forall_rows (N := 80) (by rw [show srow + 386 + 719 - (srow + 386 + 7) = 712 by ring]; rfl)] at h2
  rw [forall_rows (N := 80) (by rw [show srow + 386 + 719 - (srow + 386 + 2) = 717 by ring]; rfl)] at h3
  rw [forall_rows (N := 80) (by rw [show srow + 386 + 719 - (srow + 386 + 6) = 713 by ring]; rfl)] at h4
  rw [forall_rows (N := 80) (by rw [show srow + 386 + 719 - (srow + 386 + 3) = 716 by ring]; rfl)] at h5
  rw [forall_rows (N := 80) (by rw [show srow + 386 + 719 - (srow + 386 + 5) = 714 by ring]; rfl)] at h6
  simp only [sat_cons, sat_nil, and_true, cells_off, Nat.cast_ofNat, add_zero] at h1 h2 h3 h4 h5 h6
  have e : ∀ n : ℕ, srow + 386 + 3 + 9 * (n : ℤ) = srow + 389 + 9 * (n : ℤ) := fun n => by ring
  simp only [e] at h5
  simp only [sat_append, sat_cons, sat_nil, and_true, sat_const]
  unfold RoundBlock
  simp only [forall₂_and]
  rw [h1, h2, h3, h4, h5, h6]

theorem sat_out : Sat t (outOps c srow) ↔ OutBlock (cells t c (srow + 1106)) := by
  unfold outOps
  have h1 := sat_OutOK (t := t) (c := c) (rowsBetween (srow + 1106) (srow + 1106 + 2) 2)
  rw [forall_rows (N := 2) (by rw [show srow + 1106 + 2 - (srow + 1106) = 2 by ring]; rfl)] at h1
  refine h1.trans ?_
  unfold OutBlock
  have e0 : (fun r j => t .witness (c.w j) (srow + 1106 + ((2 : ℕ) : ℤ) * ((0 : ℕ) : ℤ) + r)) = fun r j => cells t c (srow + 1106) (0 + r) j := by
    funext r j; unfold cells; congr 1; push_cast; ring
  have e1 : (fun r j => t .witness (c.w j) (srow + 1106 + ((2 : ℕ) : ℤ) * ((1 : ℕ) : ℤ) + r)) = fun r j => cells t c (srow + 1106) (2 + r) j := by
    funext r j; unfold cells; congr 1; push_cast; ring
  constructor
  · intro h
    have a := h 0 (by omega)
    have b := h 1 (by omega)
    rw [e0] at a; rw [e1] at b
    exact ⟨a, b⟩
  · rintro ⟨a, b⟩ n hn
    interval_cases n
    · rw [e0]; exact a
    · rw [e1]; exact b

/-- The circuit, block by block. -/
theorem sat_iff : Sat t (circuit c inp srow) ↔
    (∀ n : ℕ, n < 64 → SchedBlock (cells t c (srow + 2 + 6 * (n : ℤ)))) ∧
    (∀ n : ℕ, n < 80 → t .constant (c.k 0) (srow + 389 + 9 * (n : ℤ)) = ((roundConstant.getD n 0 : ℕ) : F)) ∧
    (∀ n : ℕ, n < 80 → RoundBlock (cells t c (srow + 386 + 9 * (n : ℤ))) (t .constant (c.w 0) (srow + 389 + 9 * (n : ℤ)))) ∧
    OutBlock (cells t c (srow + 1106)) ∧
    Sat t (schedCopies c inp srow) ∧ Sat t (roundCopies c inp srow) ∧ Sat t (outCopies c inp srow) := by
  unfold circuit
  simp only [sat_append, and_assoc]
  rw [sat_sched, sat_round, sat_out]
  simp only [and_assoc]

/-! ## Copy constraints -/

theorem sat_schedCopies : Sat t (schedCopies c inp srow) ↔
    (∀ i < 15, t .witness (c.w 0) (srow + 2 + 6 * ((i : ℕ) : ℤ)) = (inp.words (i + 1)).value t) ∧
    (∀ i < 7, t .witness (c.w 7) (srow + 2 + 6 * ((i : ℕ) : ℤ) + 2) = (inp.words (i + 9)).value t) ∧
    (∀ i < 16, t .witness (c.w 8) (srow + 2 + 6 * ((i : ℕ) : ℤ) + 2) = (inp.words i).value t) ∧
    (∀ i < 2, t .witness (c.w 0) (srow + 2 + 6 * ((i : ℕ) : ℤ) + 5) = (inp.words (i + 14)).value t) := by
  unfold schedCopies
  simp only [sat_append, and_assoc]
  simp only [Sat, List.mem_map, List.mem_range, forall_exists_index, and_imp, forall_apply_eq_imp_iff₂, holds_copy, Cols.value_wa]

theorem sat_flatMap (f : ℕ → List (Op F)) (n : ℕ) : Sat t ((List.range n).flatMap f) ↔ ∀ r : ℕ, r < n → Sat t (f r) := by
  simp only [Sat, List.mem_flatMap, List.mem_range, forall_exists_index, and_imp]
  exact ⟨fun h r hr o ho => h o r hr ho, fun h o r hr ho => h r hr o ho⟩

theorem sat_roundCopies : Sat t (roundCopies c inp srow) ↔
    (t .witness (c.w 6) (srow + 386 + 2) = t .witness (c.w 5) (srow + 1) ∧ t .witness (c.w 6) (srow + 386 + 3) = t .witness (c.w 6) (srow + 1) ∧
     t .witness (c.w 6) (srow + 386 + 6) = t .witness (c.w 1) (srow + 1) ∧ t .witness (c.w 6) (srow + 386 + 5) = t .witness (c.w 2) (srow + 1)) ∧
    (∀ r : ℕ, r < 79 →
      t .witness (c.w 6) (srow + 386 + 9 * (r : ℤ) + 2 + 9) = t .witness (c.w 5) (srow + 386 + 9 * (r : ℤ) + 2) ∧
      t .witness (c.w 6) (srow + 386 + 9 * (r : ℤ) + 3 + 9) = t .witness (c.w 6) (srow + 386 + 9 * (r : ℤ) + 2) ∧
      t .witness (c.w 6) (srow + 386 + 9 * (r : ℤ) + 5 + 9) = t .witness (c.w 6) (srow + 386 + 9 * (r : ℤ) + 6) ∧
      t .witness (c.w 6) (srow + 386 + 9 * (r : ℤ) + 6 + 9) = t .witness (c.w 5) (srow + 386 + 9 * (r : ℤ) + 6)) ∧
    t .witness (c.w 0) (srow + 386 + 8) = (inp.state 0).value t ∧ t .witness (c.w 7) (srow + 386 + 3) = (inp.state 3).value t ∧
    t .witness (c.w 0) (srow + 386) = (inp.state 4).value t ∧ t .witness (c.w 8) (srow + 386 + 3) = (inp.state 7).value t := by
  unfold roundCopies
  simp only [sat_append, sat_flatMap, sat_cons, sat_nil, holds_copy, Cols.value_wa, and_true, and_assoc]

theorem sat_outCopies : Sat t (outCopies c inp srow) ↔ ∀ i : ℕ, i < 4 →
    t .witness (c.w (i : ℤ)) (srow + 1106) = (inp.state i).value t ∧ t .witness (c.w (i : ℤ)) (srow + 1106 + 2) = (inp.state (i + 4)).value t := by
  unfold outCopies
  simp only [sat_flatMap, sat_cons, sat_nil, holds_copy, Cols.value_wa, and_true]

/-! ## Filled tables -/

theorem fill_grid (g : ℕ → ℕ → F) :
    GridWrites c srow 9 1110 g (positions.map fun q => (⟨.witness, c.w (q.2 : ℤ), srow + (q.1 : ℤ), g q.1 q.2⟩ : Write F)) := by
  intro x hx
  obtain ⟨q, hq, rfl⟩ := List.mem_map.mp hx
  have h := (List.mem_filter.mp hq).1
  simp only [List.mem_flatMap, List.mem_range, List.mem_map] at h
  obtain ⟨r, hr, j, hj, rfl⟩ := h
  exact ⟨r, hr, j, hj, rfl⟩

theorem fill_frame (hc : c.OK 9) (g : ℕ → ℕ → F) : Frame c srow 1110 t (fill c srow g t) := ((fill_grid g).own hc).frame t

theorem fill_read (hc : c.OK 9) (g : ℕ → ℕ → F) (r j : ℕ) (hr : r < 1110) (hj : j < 9) (hw : written r j = true) :
    fill c srow g t .witness (c.w (j : ℤ)) (srow + (r : ℤ)) = g r j := by
  refine (fill_grid g).read hc t hj ?_
  refine List.mem_map.mpr ⟨(r, j), List.mem_filter.mpr ⟨?_, hw⟩, rfl⟩
  simp only [List.mem_flatMap, List.mem_range, List.mem_map]
  exact ⟨r, hr, j, hj, rfl⟩

/-- A grid made of an input block, step and round blocks, and an output block. -/
def grid (gi : ℕ → ℕ → F) (gs : ℕ → ℕ → ℕ → F) (gr : ℕ → ℕ → ℕ → F) (go : ℕ → ℕ → F) (r j : ℕ) : F :=
  if r < 2 then gi r j else if r < 386 then gs ((r - 2) / 6) ((r - 2) % 6) j else if r < 1106 then gr ((r - 386) / 9) ((r - 386) % 9) j
  else go (r - 1106) j

section
variable (gi : ℕ → ℕ → F) (gs : ℕ → ℕ → ℕ → F) (gr : ℕ → ℕ → ℕ → F) (go : ℕ → ℕ → F)

theorem read_in (hc : c.OK 9) (m j : ℕ) (hm : m < 2) (hj : j < 8) :
    fill c srow (grid gi gs gr go) t .witness (c.w (j : ℤ)) (srow + (m : ℤ)) = gi m j := by
  rw [fill_read hc _ m j (by omega) (by omega) (by simp [written, hm, hj])]
  simp [grid, hm]

theorem read_sched (hc : c.OK 9) (n m j : ℕ) (hn : n < 64) (hm : m < 6) (hj : j < 9) (hw : written (2 + m) j = true) :
    cells (fill c srow (grid gi gs gr go) t) c (srow + 2 + 6 * (n : ℤ)) (m : ℤ) (j : ℤ) = gs n m j := by
  have h := fill_read (srow := srow) (t := t) hc (grid gi gs gr go) (2 + 6 * n + m) j (by omega) hj (by
    unfold written at hw ⊢
    simp only [show ¬ (2 + 6 * n + m < 2) by omega, show 2 + 6 * n + m < 386 by omega, show (2 + 6 * n + m - 2) % 6 = m by omega, if_true, if_false]
    simpa only [show ¬ (2 + m < 2) by omega, show 2 + m < 386 by omega, show (2 + m - 2) % 6 = m by omega, if_true, if_false] using hw)
  unfold cells
  rw [show srow + 2 + 6 * (n : ℤ) + (m : ℤ) = srow + ((2 + 6 * n + m : ℕ) : ℤ) by push_cast; ring, h]
  unfold grid
  simp only [show ¬ (2 + 6 * n + m < 2) by omega, show 2 + 6 * n + m < 386 by omega, show (2 + 6 * n + m - 2) % 6 = m by omega,
    show (2 + 6 * n + m - 2) / 6 = n by omega, if_true, if_false]

theorem read_round (hc : c.OK 9) (n m j : ℕ) (hn : n < 80) (hm : m < 9) (hj : j < 9) (hw : written (386 + m) j = true) :
    cells (fill c srow (grid gi gs gr go) t) c (srow + 386 + 9 * (n : ℤ)) (m : ℤ) (j : ℤ) = gr n m j := by
  have h := fill_read (srow := srow) (t := t) hc (grid gi gs gr go) (386 + 9 * n + m) j (by omega) hj (by
    unfold written at hw ⊢
    simp only [show ¬ (386 + 9 * n + m < 2) by omega, show ¬ (386 + 9 * n + m < 386) by omega, show 386 + 9 * n + m < 1106 by omega,
      show (386 + 9 * n + m - 386) % 9 = m by omega, if_true, if_false]
    simpa only [show ¬ (386 + m < 2) by omega, show ¬ (386 + m < 386) by omega, show 386 + m < 1106 by omega, show (386 + m - 386) % 9 = m by omega,
      if_true, if_false] using hw)
  unfold cells
  rw [show srow + 386 + 9 * (n : ℤ) + (m : ℤ) = srow + ((386 + 9 * n + m : ℕ) : ℤ) by push_cast; ring, h]
  unfold grid
  simp only [show ¬ (386 + 9 * n + m < 2) by omega, show ¬ (386 + 9 * n + m < 386) by omega, show 386 + 9 * n + m < 1106 by omega,
    show (386 + 9 * n + m - 386) % 9 = m by omega, show (386 + 9 * n + m - 386) / 9 = n by omega, if_true, if_false]

theorem read_out (hc : c.OK 9) (m j : ℕ) (hm : m < 4) (hj : j < 8) :
    cells (fill c srow (grid gi gs gr go) t) c (srow + 1106) (m : ℤ) (j : ℤ) = go m j := by
  have h := fill_read (srow := srow) (t := t) hc (grid gi gs gr go) (1106 + m) j (by omega) (by omega) (by
    unfold written
    simp only [show ¬ (1106 + m < 2) by omega, show ¬ (1106 + m < 386) by omega, show ¬ (1106 + m < 1106) by omega, hj, if_true, if_false, decide_true])
  unfold cells
  rw [show srow + 1106 + (m : ℤ) = srow + ((1106 + m : ℕ) : ℤ) by push_cast; ring, h]
  unfold grid
  simp only [show ¬ (1106 + m < 2) by omega, show ¬ (1106 + m < 386) by omega, show ¬ (1106 + m < 1106) by omega, show 1106 + m - 1106 = m by omega, if_false]

end

/-! ## Constants -/

theorem mem_circuit_const (col : ℕ) (row : ℤ) (v : F) : Op.constant col row v ∈ circuit c inp srow ↔
    col = c.k 0 ∧ ∃ i : ℕ, i < 80 ∧ row = srow + 386 + 3 + 9 * (i : ℤ) ∧ v = ((roundConstant.getD i 0 : ℕ) : F) := by
  unfold circuit
  constructor
  · intro h
    simp only [List.mem_append] at h
    rcases h with ((((h | h) | h) | h) | h) | h
    · simp [schedOps] at h
    · unfold roundOps at h
      simp only [List.mem_append] at h
      rcases h with h | h
      · obtain ⟨i, hi, he⟩ := List.mem_map.1 h
        have := Op.constant.inj he
        exact ⟨this.1.symm, i, List.mem_range.1 hi, this.2.1.symm, this.2.2.symm⟩
      · simp at h
    · simp [outOps] at h
    · simp [schedCopies] at h
    · simp [roundCopies] at h
    · simp [outCopies] at h
  · rintro ⟨rfl, i, hi, rfl, rfl⟩
    simp only [List.mem_append]
    refine Or.inl (Or.inl (Or.inl (Or.inl (Or.inr ?_))))
    unfold roundOps
    simp only [List.mem_append]
    exact Or.inl (List.mem_map.2 ⟨i, List.mem_range.2 hi, rfl⟩)

theorem circuit_consts (n : ℕ) (hn : n < 80) :
    writeConsts (circuit c inp srow) t .constant (c.k 0) (srow + 389 + 9 * (n : ℤ)) = ((roundConstant.getD n 0 : ℕ) : F) := by
  refine Sha256.writeConsts_read _ _ _ _ _ (fun v' hv' => ?_) (Or.inr ((mem_circuit_const _ _ _).2 ⟨rfl, n, hn, by ring, rfl⟩))
  obtain ⟨-, i, hi, h1, h2⟩ := (mem_circuit_const _ _ _).1 hv'
  rw [h2, show i = n by omega]

/-- A constant column other than the one used is left alone. -/
theorem circuit_consts_ne {col : ℕ} (h : col ≠ c.k 0) (row : ℤ) :
    writeConsts (circuit c inp srow) t .constant col row = t .constant col row :=
  Sha256.writeConsts_read _ _ _ _ _ (fun _ hv' => absurd ((mem_circuit_const _ _ _).1 hv').1 h) (Or.inl rfl)

theorem fill_congr {g g' : ℕ → ℕ → F} (h : ∀ r j, r < 1110 → j < 9 → written r j = true → g r j = g' r j) :
    fill c srow g t = fill c srow g' t := by
  unfold fill
  refine congrArg (fun l => writeAll l t) (List.map_congr_left fun q hq => ?_)
  have hw := (List.mem_filter.mp hq).2
  have hq2 := (List.mem_filter.mp hq).1
  simp only [List.mem_flatMap, List.mem_range, List.mem_map] at hq2
  obtain ⟨r, hr, j, hj, rfl⟩ := hq2
  rw [h r j hr hj hw]

end Sha512
end Verif
