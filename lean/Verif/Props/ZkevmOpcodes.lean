import Verif.Model.ZkevmOpcodes
import Verif.Props.ZkevmSelector

/-!
# C175: bytes of the opcodes and the options of the selector

The map between opcodes and bytes is a bijection onto the bytes of the EVM. The selector of the circuit has as many
options as there are opcodes, and its options are numbered by the bytes, which are not the first 149 numbers.
-/

namespace Verif
namespace ZkevmOpcodes

/-! ### The map -/

section bimap
variable {α : Type*} [DecidableEq α]

/-- Both sets of keys. -/
def Unique (m : List (α × ℕ)) : Prop := ∀ x ∈ m, ∀ y ∈ m, x.1 = y.1 ∨ x.2 = y.2 → x = y

theorem insert_unique {m : List (α × ℕ)} (h : Unique m) (e : α × ℕ) : Unique (insert m e) := by
  unfold insert
  split
  · exact h
  · rename_i hn
    simp only [List.any_eq_true, decide_eq_true_eq, not_exists, not_and, not_or] at hn
    intro x hx y hy hxy
    rw [List.mem_append, List.mem_singleton] at hx hy
    rcases hx with hx | rfl <;> rcases hy with hy | rfl
    · exact h x hx y hy hxy
    · exact absurd hxy (not_or.2 (hn x hx))
    · exact absurd (hxy.imp Eq.symm Eq.symm) (not_or.2 (hn y hy))
    · rfl

theorem table_unique (l : List (α × ℕ)) : Unique (table l) := by
  have : ∀ m : List (α × ℕ), Unique m → Unique (l.foldl insert m) := by
    induction l with
    | nil => exact fun m h => h
    | cons e l ih => exact fun m h => ih _ (insert_unique h e)
  exact this [] fun x hx => absurd hx List.not_mem_nil

theorem value_iff {m : List (α × ℕ)} (h : Unique m) (a : α) (v : ℕ) : value m a = some v ↔ (a, v) ∈ m := by
  unfold value
  rw [Option.map_eq_some_iff]
  constructor
  · rintro ⟨⟨b, w⟩, h1, rfl⟩
    have h2 := List.find?_some h1
    simp only [decide_eq_true_eq] at h2
    rw [← h2]
    exact List.mem_of_find?_eq_some h1
  · intro hm
    have hs : (m.find? fun x => x.1 = a).isSome := by
      rw [List.find?_isSome]
      exact ⟨_, hm, by simp⟩
    obtain ⟨y, hy⟩ := Option.isSome_iff_exists.1 hs
    have h2 := List.find?_some hy
    simp only [decide_eq_true_eq] at h2
    exact ⟨y, hy, by rw [h y (List.mem_of_find?_eq_some hy) _ hm (.inl h2)]⟩

theorem opcode_iff {m : List (α × ℕ)} (h : Unique m) (a : α) (v : ℕ) : opcode m v = some a ↔ (a, v) ∈ m := by
  unfold opcode
  rw [Option.map_eq_some_iff]
  constructor
  · rintro ⟨⟨b, w⟩, h1, rfl⟩
    have h2 := List.find?_some h1
    simp only [decide_eq_true_eq] at h2
    rw [← h2]
    exact List.mem_of_find?_eq_some h1
  · intro hm
    have hs : (m.find? fun x => x.2 = v).isSome := by
      rw [List.find?_isSome]
      exact ⟨_, hm, by simp⟩
    obtain ⟨y, hy⟩ := Option.isSome_iff_exists.1 hs
    have h2 := List.find?_some hy
    simp only [decide_eq_true_eq] at h2
    exact ⟨y, hy, by rw [h y (List.mem_of_find?_eq_some hy) _ hm (.inr h2)]⟩

/-- **C175**: whatever is inserted, in whatever order, the two searches are inverse to each other. -/
theorem searches_inverse (l : List (α × ℕ)) (a : α) (v : ℕ) : value (table l) a = some v ↔ opcode (table l) v = some a := by
  rw [value_iff (table_unique l), opcode_iff (table_unique l)]

end bimap

/-! ### The bytes of the EVM -/

/-- The bytes that are opcodes (Cancun). -/
def EvmByte (v : ℕ) : Prop :=
  v ≤ 0x0b ∨ 0x10 ≤ v ∧ v ≤ 0x1d ∨ v = 0x20 ∨ 0x30 ≤ v ∧ v ≤ 0x4a ∨ 0x50 ≤ v ∧ v ≤ 0xa4 ∨ 0xf0 ≤ v ∧ v ≤ 0xf5 ∨
    v = 0xfa ∨ 0xfd ≤ v ∧ v ≤ 0xff

instance : DecidablePred EvmByte := fun v => by unfold EvmByte; infer_instance

theorem table_inserted : table inserted = inserted := by decide +kernel

theorem inserted_bytes : (∀ x ∈ inserted, x.2 < 256) ∧ ∀ v < 256, (v ∈ inserted.map Prod.snd ↔ EvmByte v) := by
  decide +kernel

/-- **C175**: no insertion is lost and the bytes with an opcode are those of the EVM. -/
theorem bytes_evm (v : ℕ) : (opcode (table inserted) v).isSome ↔ EvmByte v := by
  have h : (opcode (table inserted) v).isSome ↔ v ∈ inserted.map Prod.snd := by
    rw [Option.isSome_iff_exists]
    simp only [opcode_iff (table_unique inserted)]
    simp only [table_inserted, List.mem_map, Prod.exists, exists_eq_right]
  rw [h]
  rcases lt_or_ge v 256 with hv | hv
  · exact inserted_bytes.2 v hv
  · constructor
    · intro hm
      obtain ⟨x, hx, rfl⟩ := List.mem_map.1 hm
      exact absurd (inserted_bytes.1 x hx) (not_lt.2 hv)
    · intro he
      unfold EvmByte at he
      omega

theorem amount_opcodes : amount (table inserted) = 149 := by decide +kernel

/-- **C175**: the numbered families. -/
theorem families :
    (∀ n ≤ 32, value (table inserted) ("PUSH" ++ n.repr) = some (0x5f + n)) ∧
    (∀ n ≤ 15, value (table inserted) ("DUP" ++ (n + 1).repr) = some (0x80 + n)) ∧
    (∀ n ≤ 15, value (table inserted) ("SWAP" ++ (n + 1).repr) = some (0x90 + n)) ∧
    ∀ n ≤ 4, value (table inserted) ("LOG" ++ n.repr) = some (0xa0 + n) := by
  rw [table_inserted]
  decide +kernel

/-- The names as in the tables of the EVM: runs of consecutive bytes. -/
def evmNames : List (ℕ × List String) :=
  [(0x00, ["STOP", "ADD", "MUL", "SUB", "DIV", "SDIV", "MOD", "SMOD", "ADDMOD", "MULMOD", "EXP", "SIGNEXTEND"]),
   (0x10, ["LT", "GT", "SLT", "SGT", "EQ", "ISZERO", "AND", "OR", "XOR", "NOT", "BYTE", "SHL", "SHR", "SAR"]),
   (0x20, ["KECCAK256"]),
   (0x30, ["ADDRESS", "BALANCE", "ORIGIN", "CALLER", "CALLVALUE", "CALLDATALOAD", "CALLDATASIZE", "CALLDATACOPY", "CODESIZE",
     "CODECOPY", "GASPRICE", "EXTCODESIZE", "EXTCODECOPY", "RETURNDATASIZE", "RETURNDATACOPY", "EXTCODEHASH", "BLOCKHASH",
     "COINBASE", "TIMESTAMP", "NUMBER", "PREVRANDAO", "GASLIMIT", "CHAINID", "SELFBALANCE", "BASEFEE", "BLOBHASH",
     "BLOBBASEFEE"]),
   (0x50, ["POP", "MLOAD", "MSTORE", "MSTORE8", "SLOAD", "SSTORE", "JUMP", "JUMPI", "PC", "MSIZE", "GAS", "JUMPDEST", "TLOAD",
     "TSTORE", "MCOPY"]),
   (0x5f, (List.range 33).map fun n => "PUSH" ++ n.repr),
   (0x80, (List.range 16).map fun n => "DUP" ++ (n + 1).repr),
   (0x90, (List.range 16).map fun n => "SWAP" ++ (n + 1).repr),
   (0xa0, (List.range 5).map fun n => "LOG" ++ n.repr),
   (0xf0, ["CREATE", "CALL", "CALLCODE", "RETURN", "DELEGATECALL", "CREATE2"]),
   (0xfa, ["STATICCALL"]),
   (0xfd, ["REVERT", "INVALID", "SELFDESTRUCT"])]

/-- **C175**: every opcode has the byte of its name in the EVM, and there are no others. -/
theorem names_evm (name : String) (v : ℕ) :
    value (table inserted) name = some v ↔ ∃ run ∈ evmNames, ∃ j, run.2[j]? = some name ∧ v = run.1 + j := by
  have e : inserted = evmNames.flatMap fun run => run.2.mapIdx fun j n => (n, run.1 + j) := by decide +kernel
  rw [value_iff (table_unique inserted), table_inserted, e]
  simp only [List.mem_flatMap, List.mem_mapIdx, Prod.mk.injEq]
  refine exists_congr fun run => and_congr_right fun _ => exists_congr fun j => ?_
  constructor
  · rintro ⟨h, h1, h2⟩
    exact ⟨by rw [List.getElem?_eq_getElem h, h1], h2.symm⟩
  · rintro ⟨h1, h2⟩
    obtain ⟨h, h3⟩ := List.getElem?_eq_some_iff.1 h1
    exact ⟨h, h3, h2.symm⟩

/-! ### The selector -/

section selector
variable {p : ℕ} [Fact p.Prime]

/-- **C175**: the byte of an opcode can stand in an accepted row exactly if it is below the number of opcodes. -/
theorem selectable (hp : 256 ≤ p) (c : Cols) (hc : c.OK (StateSelector.width 149)) (row : ℤ) {name : String} {v : ℕ}
    (hv : value (table inserted) name = some v) :
    (∃ t : Table (ZMod p), (∀ e ∈ selector c, e.eval t row = 0) ∧ t .witness (c.w 0) row = (v : ZMod p)) ↔ v < 149 := by
  have h256 : v < 256 := by
    rw [value_iff (table_unique inserted), table_inserted] at hv
    exact inserted_bytes.1 _ hv
  unfold selector
  rw [amount_opcodes]
  constructor
  · rintro ⟨t, ht, h0⟩
    obtain ⟨k, ⟨hk, h1, -⟩, -⟩ := stateSelector_sound c 149 (by omega) t row ht
    rw [h0] at h1
    have := congrArg ZMod.val h1
    rw [ZMod.val_natCast_of_lt (by omega), ZMod.val_natCast_of_lt (by omega)] at this
    omega
  · intro h
    set t0 : Table (ZMod p) := fun _ _ _ => (v : ZMod p)
    have hval : (Var.value t0 ⟨0, 0, false, .witness⟩).val = v := ZMod.val_natCast_of_lt (by omega)
    obtain ⟨h1, h2⟩ := stateSelector_complete c 149 hc ⟨0, 0, false, .witness⟩ row t0 (by rw [hval]; exact h)
    refine ⟨_, ?_, h2⟩
    simpa only [StateSelector.circuit, sat_cons, sat_nil, and_true, holds_gate, List.mem_singleton, forall_eq] using h1

/-- **C175**: the opcodes that no accepted row can have. -/
theorem unselectable (hp : 256 ≤ p) (c : Cols) (t : Table (ZMod p)) (row : ℤ) (h : ∀ e ∈ selector c, e.eval t row = 0)
    {name : String} (hn : name ∈ ["SWAP6", "SWAP7", "SWAP8", "SWAP9", "SWAP10", "SWAP11", "SWAP12", "SWAP13", "SWAP14",
      "SWAP15", "SWAP16", "LOG0", "LOG1", "LOG2", "LOG3", "LOG4", "CREATE", "CALL", "CALLCODE", "RETURN", "DELEGATECALL",
      "CREATE2", "STATICCALL", "REVERT", "INVALID", "SELFDESTRUCT"]) :
    ∃ v, value (table inserted) name = some v ∧ t .witness (c.w 0) row ≠ (v : ZMod p) := by
  have key : ∀ name ∈ ["SWAP6", "SWAP7", "SWAP8", "SWAP9", "SWAP10", "SWAP11", "SWAP12", "SWAP13", "SWAP14",
      "SWAP15", "SWAP16", "LOG0", "LOG1", "LOG2", "LOG3", "LOG4", "CREATE", "CALL", "CALLCODE", "RETURN", "DELEGATECALL",
      "CREATE2", "STATICCALL", "REVERT", "INVALID", "SELFDESTRUCT"],
      149 ≤ (value inserted name).getD 0 ∧ (value inserted name).getD 0 < 256 ∧ (value inserted name).isSome := by
    decide +kernel
  obtain ⟨h1, h2, h3⟩ := key name hn
  obtain ⟨v, hv⟩ := Option.isSome_iff_exists.1 h3
  rw [hv, Option.getD_some] at h1 h2
  refine ⟨v, by rw [table_inserted, hv], fun h0 => ?_⟩
  unfold selector at h
  rw [amount_opcodes] at h
  obtain ⟨k, ⟨hk, h4, -⟩, -⟩ := stateSelector_sound c 149 (by omega) t row h
  rw [h0] at h4
  have := congrArg ZMod.val h4
  rw [ZMod.val_natCast_of_lt (by omega), ZMod.val_natCast_of_lt (by omega)] at this
  omega

/-- **C175**: a row whose byte belongs to no implemented opcode meets the constraints of all operations. -/
theorem unconstrained (hp : 256 ≤ p) (c : Cols) (t : Table (ZMod p)) (row : ℤ) (h : ∀ e ∈ selector c, e.eval t row = 0)
    {k : ℕ} (hk : k < 149) (h0 : t .witness (c.w 0) row = (k : ZMod p))
    (hn : ∀ name ∈ implemented, value (table inserted) name ≠ some k) :
    ∀ name ∈ implemented, ∀ cs : List (Expr (ZMod p)), ∀ e ∈ operation c name cs, e.eval t row = 0 := by
  intro name hname cs e he
  have key : ∀ name ∈ implemented, (value inserted name).getD 0 < 149 ∧ (value inserted name).isSome := by decide +kernel
  obtain ⟨h1, h2⟩ := key name hname
  obtain ⟨v, hv⟩ := Option.isSome_iff_exists.1 h2
  have hne := hn name hname
  rw [table_inserted, hv] at hne
  unfold operation Zkevm.guarded at he
  rw [amount_opcodes, table_inserted, hv, Option.getD_some] at he
  rw [hv, Option.getD_some] at h1
  unfold selector at h
  rw [amount_opcodes] at h
  obtain ⟨j, ⟨hj, h4, h5⟩, -⟩ := stateSelector_sound c 149 (by omega) t row h
  rw [h0] at h4
  have hjk := congrArg ZMod.val h4
  rw [ZMod.val_natCast_of_lt (by omega), ZMod.val_natCast_of_lt (by omega)] at hjk
  have hz : (StateSelector.option c 149 v).eval t row = 0 := by
    by_contra hne'
    exact hne (by rw [(h5 v h1).1 hne', ← hjk])
  obtain ⟨e', -, rfl⟩ := List.mem_map.1 he
  rw [Expr.eval_mul, hz, zero_mul]

/-- **C175**: a byte that is no opcode (0x0c) stands in an accepted row, and no operation constrains the row. -/
theorem stray_byte (hp : 256 ≤ p) (c : Cols) (hc : c.OK (StateSelector.width 149)) (row : ℤ) :
    opcode (table inserted) 0x0c = none ∧ ∃ t : Table (ZMod p), (∀ e ∈ selector c, e.eval t row = 0) ∧
      t .witness (c.w 0) row = ((0x0c : ℕ) : ZMod p) ∧
      ∀ name ∈ implemented, ∀ cs : List (Expr (ZMod p)), ∀ e ∈ operation c name cs, e.eval t row = 0 := by
  refine ⟨by rw [table_inserted]; decide +kernel, ?_⟩
  set t0 : Table (ZMod p) := fun _ _ _ => ((0x0c : ℕ) : ZMod p)
  have hval : (Var.value t0 ⟨0, 0, false, .witness⟩).val = 0x0c := ZMod.val_natCast_of_lt (by omega)
  obtain ⟨h1, h2⟩ := stateSelector_complete c 149 hc ⟨0, 0, false, .witness⟩ row t0 (by rw [hval]; norm_num)
  have h3 : ∀ e ∈ selector c, e.eval (StateSelector.assign c 149 ⟨0, 0, false, .witness⟩ row t0) row = 0 := by
    unfold selector
    rw [amount_opcodes]
    simpa only [StateSelector.circuit, sat_cons, sat_nil, and_true, holds_gate, List.mem_singleton, forall_eq] using h1
  have h4 : StateSelector.assign c 149 ⟨0, 0, false, .witness⟩ row t0 .witness (c.w 0) row = ((0x0c : ℕ) : ZMod p) := h2
  exact ⟨_, h3, h4, unconstrained hp c _ row h3 (by norm_num) h4 (by rw [table_inserted]; decide +kernel)⟩

end selector

/-- The hypotheses are met: ADD can be selected, RETURN cannot. -/
example : value (table inserted) "ADD" = some 1 ∧ value (table inserted) "RETURN" = some 0xf3 ∧ ¬ 0xf3 < 149 := by
  rw [table_inserted]
  decide +kernel

example : Cols.OK ⟨List.range 77, [], []⟩ (StateSelector.width 149) := by
  refine ⟨?_, ?_⟩ <;> decide

end ZkevmOpcodes
end Verif
