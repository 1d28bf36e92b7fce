{
 "claims": [
  {
   "property": "C01",
   "status": "proved",
   "theorems": [
    "Verif.isSatisfied_iff"
   ],
   "note": "For every command history. Gate ids are a parameter, assumed faithful on the gates of the history."
  },
  {
   "property": "C02",
   "status": "proved",
   "theorems": [
    "Verif.addGate_again",
    "Verif.addGate_distinct",
    "Verif.selectors_disjoint",
    "Verif.selectors_count",
    "Verif.single_and_list_get_two_selectors"
   ],
   "note": "Gates are identified by id; single_and_list_get_two_selectors shows the one-constraint overload and the list overload give the same constraint different ids."
  },
  {
   "property": "C03",
   "status": "proved",
   "theorems": [
    "Verif.read_after_history",
    "Verif.alloc_after_history"
   ],
   "note": "Any history of writes."
  },
  {
   "property": "C04",
   "status": "proved",
   "theorems": [
    "Verif.enableRange_active",
    "Verif.enableRange_alloc",
    "Verif.enableRange_alloc_le"
   ],
   "note": "Any range and positive step."
  },
  {
   "property": "C05",
   "status": "proved",
   "theorems": [
    "Verif.copies_exact"
   ],
   "note": "Any history."
  },
  {
   "property": "C06",
   "status": "proved",
   "theorems": [
    "Verif.col64_spec",
    "Verif.col64_eq_colAt"
   ],
   "note": "64-bit wrap-around arithmetic spelled out."
  },
  {
   "property": "C07",
   "status": "proved",
   "theorems": [
    "Verif.addition_sound",
    "Verif.addition_complete"
   ],
   "note": "Any field."
  },
  {
   "property": "C08",
   "status": "proved",
   "theorems": [
    "Verif.subtraction_sound",
    "Verif.subtraction_complete"
   ],
   "note": "Any field."
  },
  {
   "property": "C09",
   "status": "proved",
   "theorems": [
    "Verif.multiplication_sound",
    "Verif.multiplication_complete",
    "Verif.multiplication_complete_aliased"
   ],
   "note": "Any field."
  },
  {
   "property": "C10",
   "status": "proved",
   "theorems": [
    "Verif.division_sound",
    "Verif.division_by_zero_unsat",
    "Verif.division_complete"
   ],
   "note": "Any field."
  },
  {
   "property": "C100",
   "status": "partial",
   "theorems": [
    "Verif.R1cs.Voting.Vote.vote_sound_partial",
    "Verif.R1cs.Voting.Vote.vote_sound_small_chunks",
    "Verif.R1cs.Voting.Vote.ballot_iff",
    "Verif.R1cs.Voting.Vote.vote_complete",
    "Verif.R1cs.Voting.toy_law",
    "Verif.R1cs.Merkle.Read.read_sound_any_address"
   ],
   "note": "Root and serial number are compared as packed numbers modulo p; proved in full for chunk sizes c with 2^c <= p. The hash components are parameters with the law AnyLaw; the Pedersen hash is not instantiated. Bits as key and identifier are a hypothesis, since the component does not constrain them."
  },
  {
   "property": "C101",
   "status": "partial",
   "theorems": [
    "Verif.R1cs.Voting.Vote.serial_unique_partial",
    "Verif.R1cs.Voting.Vote.vote_other_sn",
    "Verif.R1cs.Voting.Ex.double_vote",
    "Verif.R1cs.Voting.Vote.vote_sound_small_chunks"
   ],
   "note": "False with the chunk size of the code: every serial number that agrees modulo p is accepted (vote_other_sn, double_vote). For chunks that fit and a hash function the serial number is determined (serial_unique_partial)."
  },
  {
   "property": "C102",
   "status": "partial",
   "theorems": [
    "Verif.ZkBytecode.layout_sound",
    "Verif.ZkBytecode.tag_bit",
    "Verif.ZkBytecode.length_sound_partial",
    "Verif.ZkBytecode.empty_contract_any_length"
   ],
   "note": "Layout in full. The length needs at least one byte and a row after the contract; the claim for an empty contract is refuted."
  },
  {
   "property": "C103",
   "status": "partial",
   "theorems": [
    "Verif.ZkBytecode.opcode_sound_partial",
    "Verif.ZkBytecode.opcode_exact",
    "Verif.ZkBytecode.undefined_first_byte_rejected",
    "Verif.ZkBytecode.flags_not_forced"
   ],
   "note": "Flags agree with the parse up to the last flagged byte, and everywhere if the counter of the last byte is at most 32; the full statement is refuted by flags_not_forced."
  },
  {
   "property": "C104",
   "status": "partial",
   "theorems": [
    "Verif.ZkBytecode.complete_partial",
    "Verif.ZkBytecode.honest_tuples",
    "Verif.ZkBytecode.orphan_byte",
    "Verif.ZkBytecode.tester_aside_unchecked"
   ],
   "note": "Restricted to contracts whose instruction bytes are in the opcode table (others are rejected, C103). The last part of the claim is refuted by orphan_byte."
  },
  {
   "property": "C105",
   "status": "proved",
   "theorems": [
    "Verif.LookupLogic.and_computes",
    "Verif.LookupLogic.xor_computes"
   ],
   "note": "Both components."
  },
  {
   "property": "C106",
   "status": "partial",
   "theorems": [
    "Verif.Proxy.used_gates_iff",
    "Verif.Proxy.used_gates_unique",
    "Verif.Proxy.used_lookups_iff",
    "Verif.Proxy.used_copies_own",
    "Verif.Proxy.used_copies_partial",
    "Verif.Proxy.used_copies_of_other"
   ],
   "note": "Gates and lookups in full. Copy constraints for provers none of whose constraints is dropped; refuted otherwise."
  },
  {
   "property": "C107",
   "status": "partial",
   "theorems": [
    "Verif.Proxy.provers_check_all",
    "Verif.Proxy.isSatisfied_eq_on",
    "Verif.Proxy.proxyCheck_iff",
    "Verif.Proxy.proxyCheck_ignores_gates"
   ],
   "note": "The sets recorded by the proxies are enough (check on the shared table); is_satisfied on the proxies themselves checks no gate, so the claim is refuted."
  },
  {
   "property": "C108",
   "status": "partial",
   "theorems": [
    "Verif.Proxy.selectors_partial",
    "Verif.Proxy.dynSelector_eq",
    "Verif.Proxy.dynSelector_collides",
    "Verif.Proxy.constants_collide"
   ],
   "note": "Proved for gates and lookup gates, refuted for selectors of dynamic tables and batched constants."
  },
  {
   "property": "C109",
   "status": "proved",
   "theorems": [
    "Verif.Proxy.run_shared",
    "Verif.Proxy.rows_recorded",
    "Verif.Proxy.enableRange_cols",
    "Verif.Proxy.enableRange_alloc_differs",
    "Verif.Proxy.save_shared"
   ],
   "note": "The number of allocated rows can be smaller than without proxies, see enableRange_alloc_differs."
  },
  {
   "property": "C11",
   "status": "proved",
   "theorems": [
    "Verif.divisionOrZero_sound",
    "Verif.divisionOrZero_complete"
   ],
   "note": "Any field."
  },
  {
   "property": "C110",
   "status": "proved",
   "theorems": [
    "Verif.Sha256Full.calculate_eq"
   ],
   "note": "Bits above the low 128 of an argument are dropped silently."
  },
  {
   "property": "C111",
   "status": "partial",
   "theorems": [
    "Verif.Sha256Full.hash_complete",
    "Verif.Sha256Full.hash_any_output",
    "Verif.Sha256Full.hash_sound_partial",
    "Verif.Sha256Full.lacks_honest"
   ],
   "note": "Completeness in full. Soundness is refuted (hash_any_output); it holds with the absent constraints (hash_sound_partial), which the honest table meets (lacks_honest)."
  },
  {
   "property": "C112",
   "status": "partial",
   "theorems": [
    "Verif.EdMul.bit_sound_partial",
    "Verif.EdMul.bit_complete_partial",
    "Verif.EdMul.bit_unsound"
   ],
   "note": "Refuted as it stands (bit_unsound); sound with the range checks' widths and the two copies missing in doubling (BitAbsent), which the generated table meets (bit_complete_partial). Completeness for points whose subtractions can be assigned and for components in the first table columns."
  },
  {
   "property": "C113",
   "status": "partial",
   "theorems": [
    "Verif.EdMul.mul_sound_partial",
    "Verif.EdMul.mul_complete_partial",
    "Verif.EdMul.mul_unsound",
    "Verif.EdMul.mul_lsb",
    "Verif.EdMul.mul_254"
   ],
   "note": "Refuted as it stands: an output outside the curve is accepted for k = 0 (mul_unsound); in LSB mode k = 1 gives 2^252 T (mul_lsb); with 254 bits the output is (k/2) T (mul_254). Sound in the default configuration with the absent constraints, by induction over the 252 steps."
  },
  {
   "property": "C114",
   "status": "proved",
   "theorems": [
    "Verif.Mocked.unsigned_small",
    "Verif.Mocked.unsigned_big",
    "Verif.Mocked.unsigned_big_cmp",
    "Verif.Mocked.unsigned_small_zero",
    "Verif.Mocked.exact_unique"
   ],
   "note": "Relative to the integer types of boost::multiprecision described in Model/Mocked.lean."
  },
  {
   "property": "C115",
   "status": "partial",
   "theorems": [
    "Verif.Mocked.signed_small",
    "Verif.Mocked.signed_abs_small",
    "Verif.Mocked.signed_abs_big",
    "Verif.Mocked.signed_big_partial",
    "Verif.Mocked.signed_big_cmp_partial",
    "Verif.Mocked.tripleInt_iff",
    "Verif.Mocked.signed_big_operand",
    "Verif.Mocked.signed_big_result",
    "Verif.Mocked.signed_big_cmp_refuted"
   ],
   "note": "Small sizes and absolute values proved. Refuted for 256 bits: the sign is applied to the top half only (signed_big_operand), negative results are split in two's complement (signed_big_result), comparisons are unsigned (signed_big_cmp_refuted). Proved for operands that are non-negative or have a zero bottom half with non-negative results, and for non-negative operands of comparisons."
  },
  {
   "property": "C116",
   "status": "partial",
   "theorems": [
    "Verif.Mocked.result_cells_partial",
    "Verif.Mocked.result_cell_refuted",
    "Verif.Mocked.circuit_unsound"
   ],
   "note": "Holds in the first table columns only; the circuit is empty, so the second half is refuted."
  },
  {
   "property": "C117",
   "status": "proved",
   "theorems": [
    "Verif.R1cs.Ext.school_ring",
    "Verif.R1cs.Ext.fp2Mul_iff",
    "Verif.R1cs.Ext.fp2Sq_iff",
    "Verif.R1cs.Ext.mulByLc_iff",
    "Verif.R1cs.Ext.fp2MulX_eq",
    "Verif.R1cs.Ext.fp3MulX_eq",
    "Verif.R1cs.Ext.fp3Mul_iff",
    "Verif.R1cs.Ext.fp2Mul_complete",
    "Verif.R1cs.Ext.fp2Sq_complete",
    "Verif.R1cs.Ext.mulByLc_complete",
    "Verif.R1cs.Ext.fp3Mul_complete"
   ],
   "note": "Iff statements: soundness and uniqueness of the auxiliary variables in one."
  },
  {
   "property": "C118",
   "status": "proved",
   "theorems": [
    "Verif.R1cs.Ext.fp4Tower_iff",
    "Verif.R1cs.Ext.fp4Direct_iff",
    "Verif.R1cs.Ext.fp4Sq_iff",
    "Verif.R1cs.Ext.fp4Cyc_iff",
    "Verif.R1cs.Ext.fp4Tower_complete",
    "Verif.R1cs.Ext.fp4Direct_complete",
    "Verif.R1cs.Ext.fp4Sq_complete",
    "Verif.R1cs.Ext.fp4Cyc_complete"
   ],
   "note": "The direct multiplication names its assignment function generate_r1cs_witness, see DESIGN.md."
  },
  {
   "property": "C119",
   "status": "proved",
   "theorems": [
    "Verif.R1cs.Ext.fp6Mul_iff",
    "Verif.R1cs.Ext.fp6Cyc_iff",
    "Verif.R1cs.Ext.fp6CycVal_eq",
    "Verif.R1cs.Ext.fp6Cyc_square",
    "Verif.R1cs.Ext.fp6Mul_complete",
    "Verif.R1cs.Ext.fp6Cyc_complete"
   ],
   "note": "Cyclotomic subgroup stated through the Frobenius W -> zeta W."
  },
  {
   "property": "C12",
   "status": "partial",
   "theorems": [
    "Verif.mulByConstant_sound_partial",
    "Verif.mulByConstant_complete_partial",
    "Verif.mulByConstant_unsound"
   ],
   "note": "The code reads constant column 0 in the gate but writes column C(0): refuted in general by mulByConstant_unsound, proved when C(0) = 0."
  },
  {
   "property": "C120",
   "status": "partial",
   "theorems": [
    "Verif.R1cs.Ext.fp6Mul2345_forged",
    "Verif.R1cs.Ext.fp6Mul2345_partial",
    "Verif.R1cs.Ext.fp6Mul2345_iff",
    "Verif.R1cs.Ext.fp6Mul2345_complete"
   ],
   "note": "Refuted: v0 is never constrained, so half of the coefficients of the result are arbitrary for all factors (fp6Mul2345_forged). With v0 = A0 * B0 and the two coefficients zero the product follows (fp6Mul2345_partial)."
  },
  {
   "property": "C121",
   "status": "partial",
   "theorems": [
    "Verif.R1cs.Ext.naf_value",
    "Verif.R1cs.Ext.expComp_partial",
    "Verif.R1cs.Ext.expComp_unique_partial",
    "Verif.R1cs.Ext.expComp_isSome",
    "Verif.R1cs.Ext.g2_sound",
    "Verif.R1cs.Ext.g4_sound",
    "Verif.R1cs.Ext.g4d_sound",
    "Verif.R1cs.Ext.g6_sound",
    "Verif.R1cs.Ext.expComp_zero_forged",
    "Verif.R1cs.Ext.toRing_inj"
   ],
   "note": "Proved for invertible bases. Refuted for the base 0 when a digit is -1: the division accepts every result (expComp_zero_forged). The component cannot be built for the exponent 0 (expComp_isSome). The calculated assignment is not modelled."
  },
  {
   "property": "C122",
   "status": "proved",
   "theorems": [
    "Verif.Sha512.values_eq",
    "Verif.Sha512.sched_W",
    "Verif.Sha512.step_emb",
    "Verif.Sha512.run_emb",
    "Verif.Sha512.inRange_W"
   ],
   "note": "For p >= 7^64 (the spread words in base 7 must not wrap); holds for pallas and vesta. inRange_W shows that no table lookup of the calculation leaves its range."
  },
  {
   "property": "C123",
   "status": "partial",
   "theorems": [
    "Verif.Sha512.sha512_honest",
    "Verif.Sha512.sha512_complete_partial",
    "Verif.Sha512.sha512_not_complete"
   ],
   "note": "Exact condition proved: the honest table is accepted iff the constant column numbered like the first witness column holds the round constants. Hence accepted when both have the same number and rejected for every input when they differ and that column is empty."
  },
  {
   "property": "C124",
   "status": "partial",
   "theorems": [
    "Verif.Sha512.sha512_any_output"
   ],
   "note": "Refuted: over every field with 2 != 0, for every state, block and every eight output elements there is an accepted table changed only inside the component. The component has no lookups and copies neither the derived words nor the new working variables."
  },
  {
   "property": "C125",
   "status": "partial",
   "theorems": [
    "Verif.Sha512Full.sha512_full_complete_partial",
    "Verif.Sha512Full.sha512_full_not_complete",
    "Verif.Sha512Full.word_eq",
    "Verif.Sha512Full.padded_leNat"
   ],
   "note": "Accepted when the witness columns 0, 2, 4, 6 and the constant column are numbered 0, 2, 4, 6 and 0; rejected for all limbs when the constants are in another column and column 0 is empty."
  },
  {
   "property": "C126",
   "status": "partial",
   "theorems": [
    "Verif.Sha512Full.sha512_full_any_output"
   ],
   "note": "Refuted: for all limbs and every eight field elements there is an accepted table with these outputs."
  },
  {
   "property": "C127",
   "status": "partial",
   "theorems": [
    "Verif.Sha512Full.sha512_pack_sound_partial",
    "Verif.Sha512Full.eqns_nat",
    "Verif.Sha512Full.honest_ranges"
   ],
   "note": "Proved under the hypotheses that the chunks are in range and that the cell of the padding bit holds one; the component enforces neither."
  },
  {
   "property": "C128",
   "status": "partial",
   "theorems": [
    "Verif.Sha512Full.sha512_not_padding"
   ],
   "note": "Refuted unless the four lowest bits of word 19 are 1000: no message has this padding."
  },
  {
   "property": "C129",
   "status": "partial",
   "theorems": [
    "Verif.Cip.cip_sound_partial",
    "Verif.Cip.cip_sound_zero",
    "Verif.Cip.cip_complete",
    "Verif.Cip.sound_cells"
   ],
   "note": "Completeness for all k (columns 0..14). Soundness when 5 divides k, or when xi = 0; sound_cells says what holds for every k."
  },
  {
   "property": "C13",
   "status": "proved",
   "theorems": [
    "Verif.logicAndFlag_sound",
    "Verif.logicAndFlag_complete",
    "Verif.logicOrFlag_sound",
    "Verif.logicOrFlag_complete",
    "Verif.logicAndFlag_rows",
    "Verif.logicOrFlag_rows"
   ],
   "note": "Every arrangement the manifests admit (2..5 and 2..6 columns)."
  },
  {
   "property": "C130",
   "status": "partial",
   "theorems": [
    "Verif.Cip.cip_accepts_iff",
    "Verif.Cip.cip_refuted"
   ],
   "note": "Exact: an output is provable iff it is the sum, or k is no multiple of 5 and xi is not 0 - then every output is provable."
  },
  {
   "property": "C131",
   "status": "proved",
   "theorems": [
    "Verif.R1cs.Knapsack.knapsack_hash_stateless",
    "Verif.R1cs.Knapsack.knapsack_hash_deterministic",
    "Verif.R1cs.Knapsack.cacheAfter_good",
    "Verif.R1cs.Knapsack.knapsack_trailing_zero"
   ],
   "note": "knapsack_trailing_zero: with dimension 1 inputs of different length collide."
  },
  {
   "property": "C132",
   "status": "proved",
   "theorems": [
    "Verif.R1cs.Knapsack.knapsack_field_iff",
    "Verif.R1cs.Knapsack.knapsack_field_complete"
   ],
   "note": ""
  },
  {
   "property": "C133",
   "status": "partial",
   "theorems": [
    "Verif.R1cs.Knapsack.knapsack_bit_iff",
    "Verif.R1cs.Knapsack.knapsack_bit_sound_partial",
    "Verif.R1cs.Knapsack.knapsack_bit_refuted",
    "Verif.R1cs.Knapsack.knapsack_bit_complete"
   ],
   "note": "Completeness proved. Soundness holds for parts of fewer bits than the modulus; with the number of bits of the code a second digest is accepted when hash + p fits."
  },
  {
   "property": "C134",
   "status": "proved",
   "theorems": [
    "Verif.R1cs.Merkle.Update.update_sound_small_chunks",
    "Verif.R1cs.Merkle.Update.update_sound_partial",
    "Verif.R1cs.Merkle.Update.nodes_sound",
    "Verif.R1cs.Merkle.Update.aux_iff"
   ],
   "note": "With the chunk size of the code, one bit less than the modulus, chunks fit in the field."
  },
  {
   "property": "C135",
   "status": "partial",
   "theorems": [
    "Verif.R1cs.Merkle.Update.update_incomplete",
    "Verif.R1cs.Merkle.Update.update_siblings_kept"
   ],
   "note": "Refuted: siblings of the next path are not copied, so the constraints fail unless the caller has filled them in. That they hold if it has is shown on an example only."
  },
  {
   "property": "C136",
   "status": "proved",
   "theorems": [
    "Verif.Kimchi.zkW3_sound",
    "Verif.Kimchi.zkW3_complete",
    "Verif.Kimchi.zkpm_sound",
    "Verif.Kimchi.zkpm_complete",
    "Verif.Kimchi.zkpm_zero_iff",
    "Verif.Kimchi.vanishes4_sound",
    "Verif.Kimchi.vanishes4_complete"
   ],
   "note": "Domain sizes from 3 (4) to 2^64; below that the size_t subtraction wraps around."
  },
  {
   "property": "C137",
   "status": "proved",
   "theorems": [
    "Verif.Kimchi.lagrangeBasis_sound",
    "Verif.Kimchi.lagrangeBasis_complete",
    "Verif.Kimchi.lagrangeBasis_incomplete"
   ],
   "note": "Completeness fails for one point only, and is shown to."
  },
  {
   "property": "C138",
   "status": "proved",
   "theorems": [
    "Verif.Kimchi.bPoly_sound",
    "Verif.Kimchi.bPoly_complete",
    "Verif.Kimchi.bPolyCoeffs_sound",
    "Verif.Kimchi.bPolyCoeffs_complete",
    "Verif.Kimchi.bPoly_coeffs_agree",
    "Verif.Kimchi.prevChalEvals_sound",
    "Verif.Kimchi.prevChalEvals_complete",
    "Verif.Kimchi.prevChalEval1_sound"
   ],
   "note": "The powers of the points for the chunks are given to prev_chal_evals and are assumed right."
  },
  {
   "property": "C139",
   "status": "proved",
   "theorems": [
    "Verif.Kimchi.lagrangeDenominators_sound",
    "Verif.Kimchi.lagrangeDenominators_complete",
    "Verif.Kimchi.publicEvaluations_sound",
    "Verif.Kimchi.publicEvaluations_complete",
    "Verif.Kimchi.publicEvaluations_interpolate",
    "Verif.Kimchi.elementPowers_sound",
    "Verif.Kimchi.elementPowers_complete"
   ],
   "note": ""
  },
  {
   "property": "C14",
   "status": "proved",
   "theorems": [
    "Verif.linearInter_sound",
    "Verif.linearInter_complete",
    "Verif.quadraticInter_sound",
    "Verif.quadraticInter_complete"
   ],
   "note": "Any field."
  },
  {
   "property": "C140",
   "status": "proved",
   "theorems": [
    "Verif.Kimchi.permScalars_sound",
    "Verif.Kimchi.permScalars_complete",
    "Verif.Kimchi.genericScalars_sound",
    "Verif.Kimchi.genericScalars_complete",
    "Verif.Kimchi.combineEvals_sound",
    "Verif.Kimchi.combineEvals_complete"
   ],
   "note": ""
  },
  {
   "property": "C141",
   "status": "proved",
   "theorems": [
    "Verif.Kimchi.zkW3_rows",
    "Verif.Kimchi.zkpm_rows",
    "Verif.Kimchi.vanishes4_rows",
    "Verif.Kimchi.lagrangeBasis_rows",
    "Verif.Kimchi.bPoly_rows",
    "Verif.Kimchi.permScalars_rows",
    "Verif.Kimchi.lagrangeDenominators_rows",
    "Verif.Kimchi.publicEvaluations_rows",
    "Verif.Kimchi.elementPowers_rows",
    "Verif.Kimchi.genericScalars_rows",
    "Verif.Kimchi.combineEvals_rows",
    "Verif.Kimchi.bPolyCoeffs_rows",
    "Verif.Kimchi.prevChalEvals_rows"
   ],
   "note": "b_poly with at least one round, prev_chal_evals with max_poly_size below 2^n."
  },
  {
   "property": "C142",
   "status": "proved",
   "theorems": [
    "Verif.Kimchi.toks_run",
    "Verif.Kimchi.varFromEvals_colNum",
    "Verif.Kimchi.rpn_sound",
    "Verif.Kimchi.rpn_complete",
    "Verif.Kimchi.rpn_rows"
   ],
   "note": "Ex is the expression language of kimchi with caching, Ex.toks its translation. A load of something that was not stored is undefined behaviour in the code; the theorem says nothing for such expressions (eval is none). The parser of the token string is modelled only for the column numbers."
  },
  {
   "property": "C143",
   "status": "partial",
   "theorems": [
    "Verif.Kimchi.ft_value",
    "Verif.Kimchi.ft_wrong",
    "Verif.Kimchi.ft_sound_partial",
    "Verif.Kimchi.ft_complete",
    "Verif.Kimchi.ft_rows"
   ],
   "note": "False with a public input: the evaluation is subtracted in a new variable of the inner block, which is then dropped. ft_wrong: wrong in every table where the evaluation is not 0. Without public input it is right."
  },
  {
   "property": "C144",
   "status": "partial",
   "theorems": [
    "Verif.OraclesCip.oracles_cip_sound_partial",
    "Verif.OraclesCip.oracles_cip_accepts",
    "Verif.OraclesCip.oracles_cip_complete_partial",
    "Verif.OraclesCip.oracles_cip_ignores",
    "Verif.OraclesCip.oracles_cip_wrong"
   ],
   "note": "Holds with one chunk and both selector gates, and number of entries divisible by 5 (C130 otherwise). With more chunks only the last one is used."
  },
  {
   "property": "C145",
   "status": "proved",
   "theorems": [
    "Verif.toLimbs_sound",
    "Verif.toLimbs_complete",
    "Verif.ToLimbs.exists_table",
    "Verif.limbs_low128"
   ],
   "note": "The constant column of the range checks must be column 0, as in C17."
  },
  {
   "property": "C146",
   "status": "proved",
   "theorems": [
    "Verif.fromLimbs_sound",
    "Verif.fromLimbs_complete",
    "Verif.fromLimbs_bits"
   ],
   "note": "The component does not check that the limbs have 64 bits, and does not claim to."
  },
  {
   "property": "C147",
   "status": "partial",
   "theorems": [
    "Verif.compare_any_output",
    "Verif.compare_one_always",
    "Verif.compare_zero_wrong",
    "Verif.compare_sound_partial",
    "Verif.compare_honest"
   ],
   "note": "False: the copy constraints are in a private function that nobody calls, so the output is free (compare_any_output); with them the prover may still always choose 1 (compare_one_always); the honest output for 0 is 0 (compare_zero_wrong). True: with the copies the output is a bit and 0 is right except for input 0; the honest output is right except for input 0."
  },
  {
   "property": "C148",
   "status": "partial",
   "theorems": [
    "Verif.digest_value",
    "Verif.digest_any",
    "Verif.digest_large_wrong",
    "Verif.digest_sound_partial",
    "Verif.digest_honest"
   ],
   "note": "False: every field element is accepted as the digest of an element other than 0. The honest digest is right; with the copy constraints elements below the modulus have the right digest. The squeezing itself is not part of this model."
  },
  {
   "property": "C149",
   "status": "proved",
   "theorems": [
    "Verif.KimchiSponge.sponge_sound",
    "Verif.KimchiSponge.reinit_stale"
   ],
   "note": "Rounds with at least one element in and one out; other orders are C150. reinit_stale: calling init on a used object leaves the counter, so the next element goes to the second place; no caller does so."
  },
  {
   "property": "C15",
   "status": "proved",
   "theorems": [
    "Verif.equalityFlag_sound",
    "Verif.equalityFlag_complete"
   ],
   "note": "Both variants."
  },
  {
   "property": "C150",
   "status": "proved",
   "theorems": [
    "Verif.KimchiSponge.transcript_sound",
    "Verif.KimchiSponge.transcript_complete",
    "Verif.KimchiSponge.absorb_evaluations_rows"
   ],
   "note": "The digest of transcript_fq is C148."
  },
  {
   "property": "C151",
   "status": "proved",
   "theorems": [
    "Verif.KimchiSponge.random_sound",
    "Verif.KimchiSponge.random_complete"
   ],
   "note": ""
  },
  {
   "property": "C152",
   "status": "partial",
   "theorems": [
    "Verif.KimchiGroup.toGroup_sound_partial",
    "Verif.KimchiGroup.cand_square",
    "Verif.KimchiGroup.cand_exists",
    "Verif.KimchiGroup.toGroup_complete",
    "Verif.KimchiGroup.toGroup_honest_partial",
    "Verif.KimchiGroup.pallas_valid",
    "Verif.KimchiGroup.vesta_valid",
    "Verif.KimchiGroup.toGroup_forged",
    "Verif.KimchiGroup.toGroup_any",
    "Verif.KimchiGroup.toGroup_honest_three",
    "Verif.KimchiGroup.toGroup_zero_off_curve",
    "Verif.KimchiGroup.pallas_zero_off_curve",
    "Verif.KimchiGroup.vesta_zero_off_curve",
    "Verif.KimchiGroup.toGroup_result_free"
   ],
   "note": "Proved: the three x are the candidates of the map, at least one is on the curve, the constants are right, the honest result is right when exactly one candidate is on the curve. False: the claim for all tables (y is free: any result (x3, v), or (0,0)); the honest result when all candidates are on the curve (t = 0 on both curves); the variables named by result_type for a start row of 65 or more."
  },
  {
   "property": "C153",
   "status": "proved",
   "theorems": [
    "Verif.KimchiPrep.prepare_sound",
    "Verif.KimchiPrep.prepare_complete"
   ],
   "note": ""
  },
  {
   "property": "C154",
   "status": "partial",
   "theorems": [
    "Verif.KimchiPrep.map_not_binding",
    "Verif.KimchiPrep.map_accepts_partial"
   ],
   "note": "The claim is false: generate_circuit adds no constraint. Only the acceptance of equal data is left."
  },
  {
   "property": "C155",
   "status": "partial",
   "theorems": [
    "Verif.KimchiPrep.table_pairs_partial",
    "Verif.KimchiPrep.table_out_of_bounds"
   ],
   "note": "Right with one part and no runtime table; otherwise the loop runs past the end of joint_combiner."
  },
  {
   "property": "C156",
   "status": "partial",
   "theorems": [
    "Verif.R1cs.Routing.benes_sound_partial",
    "Verif.R1cs.Routing.Benes.complete",
    "Verif.R1cs.Routing.benes_forged"
   ],
   "note": "Holds if all input packets are different. False otherwise: with equal packets one output may be anything, with one subpacket and with several (one switch bit for each packet, not for each switch)."
  },
  {
   "property": "C157",
   "status": "partial",
   "theorems": [
    "Verif.R1cs.Routing.Asw.sound_many",
    "Verif.R1cs.Routing.Asw.sound_partial",
    "Verif.R1cs.Routing.Asw.heads_cover",
    "Verif.R1cs.Routing.Asw.two_forged"
   ],
   "note": "Holds with several subpackets (one bit for each switch), also for equal packets; with one subpacket if all packets are different; false with one subpacket and equal packets."
  },
  {
   "property": "C158",
   "status": "partial",
   "theorems": [
    "Verif.KimchiPrep.inversion_wrong",
    "Verif.KimchiPrep.inversion_iff_partial",
    "Verif.KimchiPrep.inverse_right"
   ],
   "note": "The claim is false: the component is a copy of prepare_scalars. It is wrong for every scalar in one case and right for a single scalar in the other."
  },
  {
   "property": "C159",
   "status": "proved",
   "theorems": [
    "Verif.R1cs.Weier.wellFormed_iff",
    "Verif.R1cs.Weier.wellFormed_complete",
    "Verif.R1cs.Weier.add_sound",
    "Verif.R1cs.Weier.add_rejects",
    "Verif.R1cs.Weier.add_complete",
    "Verif.R1cs.Weier.dbl_sound",
    "Verif.R1cs.Weier.dbl_rejects",
    "Verif.R1cs.Weier.dbl_complete"
   ],
   "note": "Group of the curve as in Mathlib."
  },
  {
   "property": "C16",
   "status": "proved",
   "theorems": [
    "Verif.logicNot_computes",
    "Verif.logicAnd_computes",
    "Verif.logicOr_computes",
    "Verif.logicXor_computes",
    "Verif.logicNand_computes",
    "Verif.logicNor_computes",
    "Verif.select_sound",
    "Verif.select_complete"
   ],
   "note": ""
  },
  {
   "property": "C160",
   "status": "proved",
   "theorems": [
    "Verif.R1cs.Weier.Mul.sound",
    "Verif.R1cs.Weier.Mul.rejects",
    "Verif.R1cs.Weier.Mul.complete"
   ],
   "note": "The bits are the caller's duty (the component has no booleanity constraint). rejects: if the start is the first point or its opposite, nothing is accepted, even if the bit is 0, as every round adds."
  },
  {
   "property": "C161",
   "status": "proved",
   "theorems": [
    "Verif.R1cs.Ext.frob4_pow",
    "Verif.R1cs.Ext.frob6_pow",
    "Verif.R1cs.Ext.finalExp4_sound",
    "Verif.R1cs.Ext.finalExp6_sound"
   ],
   "note": "In Fq[X]/(X^n - beta), beta a non-residue in the sense that the n-th root of unity beta^((q-1)/n) is primitive. Completeness not proved (the assignment of the exponentiation component is not modelled)."
  },
  {
   "property": "C162",
   "status": "partial",
   "theorems": [
    "Verif.R1cs.Ext.finalExp_flag_partial",
    "Verif.R1cs.Ext.finalExp4_flag_forged"
   ],
   "note": "Only one direction is constrained: the flag is a bit and 1 only if the result is 1; it may be 0 if the result is 1."
  },
  {
   "property": "C163",
   "status": "partial",
   "theorems": [
    "Verif.R1cs.Ext.precComp_partial",
    "Verif.R1cs.Ext.addStep_forged",
    "Verif.R1cs.Ext.loopSteps_naf",
    "Verif.R1cs.Ext.mD4'"
   ],
   "note": "For points no multiple of which (before an addition step) equals the summand; otherwise the slope is free (addStep_forged). Points of large prime order meet the condition."
  },
  {
   "property": "C164",
   "status": "partial",
   "theorems": [
    "Verif.R1cs.Ext.millerComp_partial",
    "Verif.R1cs.Ext.miller4_partial",
    "Verif.R1cs.Ext.miller6_forged"
   ],
   "note": "Under the condition of C163. Over Fp4 without further hypotheses; over Fp6 the multiplication of the code is not sound (C120) and the result can be forged. P and Q variables, one Miller loop (not the products of Miller loops)."
  },
  {
   "property": "C165",
   "status": "partial",
   "theorems": [
    "Verif.R1cs.Ext.g2WellFormed_sound",
    "Verif.R1cs.Ext.g2WellFormed_twist_partial",
    "Verif.R1cs.Ext.g2WellFormed_rejects"
   ],
   "note": "True with the coefficients of the twist. The code uses those of G1."
  },
  {
   "property": "C166",
   "status": "partial",
   "theorems": [
    "Verif.R1cs.Ext.prodComp_partial",
    "Verif.R1cs.Ext.checkP_equal"
   ],
   "note": "Under the condition of C163 for every pair, for sound components of the tower (Fp4 over Fp2; over Fp6 see C120 and C164)."
  },
  {
   "property": "C167",
   "status": "partial",
   "theorems": [
    "Verif.R1cs.Ext.checkE4_partial",
    "Verif.R1cs.Ext.check_e_equals_e_partial",
    "Verif.R1cs.Ext.check_e_equals_ee_partial",
    "Verif.R1cs.Ext.checkP_equal",
    "Verif.R1cs.Ext.checkE4_flag_forged"
   ],
   "note": "Output 1 implies the equation (embedding degree 4, condition of C163). Output 0 does not imply that it is false: checkE4_flag_forged."
  },
  {
   "property": "C168",
   "status": "proved",
   "theorems": [
    "Verif.SetCommitment.isIn_iff",
    "Verif.SetCommitment.proof_valid",
    "Verif.SetCommitment.address_stable",
    "Verif.SetCommitment.binding",
    "Verif.SetCommitment.capacity_unchecked"
   ],
   "note": "capacity_unchecked: past the announced number of entries, which nothing checks, the proof of a member does not lead to the commitment."
  },
  {
   "property": "C169",
   "status": "partial",
   "theorems": [
    "Verif.R1cs.SetMembership.Member.member_sound",
    "Verif.R1cs.SetMembership.Member.member_of_set",
    "Verif.R1cs.SetMembership.Member.member_complete",
    "Verif.R1cs.SetMembership.Member.set_complete",
    "Verif.R1cs.SetMembership.Member.depth_zero_ignores_flag"
   ],
   "note": "For chunks that fit in the field (otherwise see C93). For depth 0 check_successful is ignored: depth_zero_ignores_flag."
  },
  {
   "property": "C17",
   "status": "proved",
   "theorems": [
    "Verif.rangeCheck_sound",
    "Verif.rangeCheck_complete",
    "Verif.rangeCheck_iff",
    "Verif.rangeCheck_unsound_other_constant_column"
   ],
   "note": "Holds with constant column 0 as the component's constant column; refuted for any other column (zero is read from column index 0 but written to C(0))."
  },
  {
   "property": "C170",
   "status": "partial",
   "theorems": [
    "Verif.EdFixed.fixed_sound_partial",
    "Verif.EdFixed.fixed_complete_partial",
    "Verif.EdFixed.any_points",
    "Verif.EdFixed.fixed_forged",
    "Verif.EdFixed.circuit_result_wrong"
   ],
   "note": "False as stated: no constraint ties the twelve points to the chunks of k, and every point of the curve is accepted as the multiple of every scalar (fixed_forged). What holds: the output is the sum of the twelve points, k B if they are the right ones; the honest table is accepted when the last subtractions can be assigned (AddLow, C70). The cells returned by generate_circuit do not hold the result (circuit_result_wrong)."
  },
  {
   "property": "C171",
   "status": "partial",
   "theorems": [
    "Verif.EdFixed.verify_forged",
    "Verif.EdFixed.forged_signature"
   ],
   "note": "False as stated: whatever s below the order is, the rows of the multiplication of the base point can be chosen so that the circuit accepts (verify_forged); forged_signature is such a table for a fixed key and every s. Range of s, points, SHA-512 and reduction are a parameter here; they have their own claims."
  },
  {
   "property": "C172",
   "status": "partial",
   "theorems": [
    "Verif.EndoMul.honest_rejected",
    "Verif.EndoMul.endo_forged",
    "Verif.EndoMul.endo_forged_any",
    "Verif.EndoMul.free_base",
    "Verif.EndoMul.endo_sound_partial",
    "Verif.EndoMul.endo_complete_partial",
    "Verif.EndoMul.honest_cells"
   ],
   "note": "False as stated, three times: the assigned table is never accepted, since the counter of bits starts at 0 in the assignment and is tied to the cell with endo in the circuit (honest_rejected); every scalar is accepted with the output 2(T + phi T) (endo_forged_any); the base of the steps is not tied to the input (free_base). What holds: if the base is the input, no step keeps the abscissa and no step is exceptional, the output is right and b is endo 2^128 plus the bits; for such b a table with the right output is accepted."
  },
  {
   "property": "C173",
   "status": "partial",
   "theorems": [
    "Verif.EdPoint.point_sound",
    "Verif.EdPoint.point_complete_partial",
    "Verif.EdPoint.point_without_constants",
    "Verif.EdPoint.point_forged"
   ],
   "note": "Soundness for every accepted table that holds the constants and has its chunks within their widths (no lookup checks these, see C49); the assigned table is accepted exactly for points of the curve, on the first columns. The constants are written by generate_assignments and not by generate_circuit: with zeros in their place every (x, 0) is accepted (point_without_constants, point_forged)."
  },
  {
   "property": "C174",
   "status": "proved",
   "theorems": [
    "Verif.ShaTables.table4",
    "Verif.ShaTables.table7",
    "Verif.ShaTables.table4_lookup",
    "Verif.ShaTables.table7_lookup",
    "Verif.ShaTables.finishes"
   ],
   "note": "Invariant over all interleavings; a pass of the loop is one step (its insertions are under the lock). The sets are the same when the number of threads does not divide 2^32 and words are left out. The memo of powers shared by the threads and the printed file are not modelled."
  },
  {
   "property": "C175",
   "status": "partial",
   "theorems": [
    "Verif.ZkevmOpcodes.searches_inverse",
    "Verif.ZkevmOpcodes.bytes_evm",
    "Verif.ZkevmOpcodes.names_evm",
    "Verif.ZkevmOpcodes.families",
    "Verif.ZkevmOpcodes.selectable",
    "Verif.ZkevmOpcodes.unselectable",
    "Verif.ZkevmOpcodes.unconstrained",
    "Verif.ZkevmOpcodes.stray_byte"
   ],
   "note": "The map is a bijection onto the bytes of the EVM. The claim about rows is false: the selector has 149 options (the number of opcodes) numbered by bytes, so the 26 opcodes from SWAP6 on cannot be selected (unselectable), and bytes that are no opcode can (stray_byte); rows of opcodes without an operation are not constrained (unconstrained)."
  },
  {
   "property": "C176",
   "status": "partial",
   "theorems": [
    "Verif.ZkevmStack.assign_evm",
    "Verif.ZkevmStack.div_rest",
    "Verif.ZkevmStack.assign_none",
    "Verif.ZkevmStack.swap_dup",
    "Verif.ZkevmStack.run_same",
    "Verif.ZkevmStack.stack_not_evm",
    "Verif.ZkevmStack.second_operand"
   ],
   "note": "Single opcodes are right for every stack. The claim about sequences is false: each operation pushes its operands back and the result never reaches the stack (run_same, stack_not_evm); after ADD, ISZERO is given the first summand (second_operand)."
  },
  {
   "property": "C18",
   "status": "proved",
   "theorems": [
    "Verif.bitDecomp_sound",
    "Verif.bitDecomp_complete",
    "Verif.bitDecomp_empty",
    "Verif.bitDecomp_empty_wrong_narrow"
   ],
   "note": "Constant column 0. bitDecomp_empty_wrong_narrow: the skipped generator's outputs overlap with fewer than nine columns."
  },
  {
   "property": "C19",
   "status": "proved",
   "theorems": [
    "Verif.bitComp_sound",
    "Verif.bitComp_complete"
   ],
   "note": "Constant column 0; any field for soundness."
  },
  {
   "property": "C20",
   "status": "proved",
   "theorems": [
    "Verif.bit_roundtrip",
    "Verif.bit_roundtrip'"
   ],
   "note": ""
  },
  {
   "property": "C21",
   "status": "proved",
   "theorems": [
    "Verif.comparisonUnchecked_sound",
    "Verif.comparisonUnchecked_complete",
    "Verif.comparisonUnchecked_wraps"
   ],
   "note": "Constant column 0, bits < modulus_bits - 1 as asserted by the constructor. comparisonUnchecked_wraps: the operand bound is a real precondition."
  },
  {
   "property": "C22",
   "status": "partial",
   "theorems": [
    "Verif.comparisonChecked_accepts_iff",
    "Verif.comparisonChecked_sound_partial",
    "Verif.comparisonChecked_complete",
    "Verif.comparisonChecked_refuted_upper",
    "Verif.comparisonChecked_refuted_odd"
   ],
   "note": "The order is enforced; the range claim is false of the code: the larger operand is never decomposed and odd sizes keep a spare bit. comparisonChecked_accepts_iff states exactly what is enforced."
  },
  {
   "property": "C23",
   "status": "partial",
   "theorems": [
    "Verif.comparisonFlag_accepts_iff",
    "Verif.comparisonFlag_sound_partial",
    "Verif.comparisonFlag_sound_bad_partial",
    "Verif.comparisonFlag_complete",
    "Verif.comparisonFlag_refuted",
    "Verif.comparisonFlag_bad_four"
   ],
   "note": "The claim is false of the code for odd sizes with an even number of witness columns when the first chunk lands in the last position (always for 4 columns): the first-chunk gate reads a free column instead of y. comparisonFlag_accepts_iff states exactly what is enforced; fields with p > 7."
  },
  {
   "property": "C24",
   "status": "partial",
   "theorems": [
    "Verif.divRem_accepts_iff",
    "Verif.divRem_complete",
    "Verif.divRem_refuted_full_remainder",
    "Verif.divRem_refuted_negative_remainder",
    "Verif.divRem_sound_partial"
   ],
   "note": "The claim is false of the code: r = y and negative r are accepted. divRem_accepts_iff states exactly what is enforced; divRem_sound_partial adds the two missing checks as hypotheses."
  },
  {
   "property": "C25",
   "status": "partial",
   "theorems": [
    "Verif.exponentiation_accepts_iff",
    "Verif.exponentiation_sound_partial",
    "Verif.exponentiation_refuted_large",
    "Verif.exponentiation_complete_partial",
    "Verif.exponentiation_incomplete_layout"
   ],
   "note": "exact acceptance condition; the full claim fails when 2^padded exceeds the field (exponent aliases mod p) and for layouts whose sixth witness column is not table column 5"
  },
  {
   "property": "C26",
   "status": "partial",
   "theorems": [
    "Verif.sqrt_accepts_iff",
    "Verif.sqrt_accepts_iff_spec_partial",
    "Verif.sqrt_sound_partial",
    "Verif.sqrt_refuted",
    "Verif.sqrt_complete_partial"
   ],
   "note": "refuted for every prime p > 3, p not 23, with (p-1)/2+p < 2^padded (all supported curve fields with 256-bit exponents); exact spec proved when (p-1)/2 has a single representation"
  },
  {
   "property": "C27",
   "status": "proved",
   "theorems": [
    "Verif.bitShift_sound",
    "Verif.bitShift_sound_val",
    "Verif.bitShift_complete"
   ],
   "note": "any width, shift and direction; constant column C(0) = 0 as for the sub-components"
  },
  {
   "property": "C28",
   "status": "proved",
   "theorems": [
    "Verif.swap_sound",
    "Verif.swap_complete"
   ],
   "note": ""
  },
  {
   "property": "C29",
   "status": "proved",
   "theorems": [
    "Verif.arrayOp_sound",
    "Verif.arrayOp_complete"
   ],
   "note": "Additions and multiplications, every length, at least 3 columns."
  },
  {
   "property": "C30",
   "status": "partial",
   "theorems": [
    "Verif.constantPow_sound_partial",
    "Verif.constantPow_complete_partial",
    "Verif.constantPow_unsound",
    "Verif.constantPow_wrong_output_cell",
    "Verif.constantPow_assert_fails"
   ],
   "note": "Refuted three ways: the first accumulator is unconstrained, the output cell is wrong when the digit count is a multiple of the digits per row, the constructor asserts on powers of 4. Proved under the complementary conditions."
  },
  {
   "property": "C31",
   "status": "proved",
   "theorems": [
    "Verif.powFactor_sound",
    "Verif.powFactor_complete"
   ],
   "note": "Columns 8k+2 for every k >= 1, every number of coefficients."
  },
  {
   "property": "C32",
   "status": "proved",
   "theorems": [
    "Verif.friLinInter_sound",
    "Verif.friLinInter_line_exists",
    "Verif.friLinInter_complete",
    "Verif.friLinInter_zero_unconstrained"
   ],
   "note": "friLinInter_zero_unconstrained shows that the hypothesis s != 0 is needed."
  },
  {
   "property": "C33",
   "status": "proved",
   "theorems": [
    "Verif.friArraySwap_sound",
    "Verif.friArraySwap_complete",
    "Verif.friArraySwap_control_unchecked"
   ],
   "note": "The control is not forced boolean by this component (friArraySwap_control_unchecked); the property assumes it."
  },
  {
   "property": "C34",
   "status": "proved",
   "theorems": [
    "Verif.UnifiedAddition.unifiedAddition_sound",
    "Verif.UnifiedAddition.unifiedAddition_complete",
    "Verif.UnifiedAddition.unifiedAddition_incomplete_two_torsion",
    "Verif.UnifiedAddition.unifiedAddition_unsound_zero_abscissa",
    "Verif.UnifiedAddition.pallas_ok",
    "Verif.UnifiedAddition.vesta_ok"
   ],
   "note": "Group law of Mathlib's Weierstrass curves; both side conditions are shown necessary and are met by Pallas and Vesta. The sum computed by crypto3 is modelled by the chord-and-tangent formulas."
  },
  {
   "property": "C35",
   "status": "proved",
   "theorems": [
    "Verif.stateSelector_sound",
    "Verif.stateSelector_complete",
    "Verif.stateSelector_input_unlinked"
   ],
   "note": "stateSelector_input_unlinked: generate_circuit never adds the copy constraint, so the component input is not tied to the selected index"
  },
  {
   "property": "C36",
   "status": "proved",
   "theorems": [
    "Verif.zkevm_word_chunks",
    "Verif.zkevm_chunk64"
   ],
   "note": ""
  },
  {
   "property": "C37",
   "status": "proved",
   "theorems": [
    "Verif.iszero_sound",
    "Verif.iszero_refuted_unranged",
    "Verif.iszero_complete"
   ],
   "note": "16-bit chunks are a hypothesis (no range check in the opcode); iszero_refuted_unranged shows that hypothesis is necessary"
  },
  {
   "property": "C38",
   "status": "proved",
   "theorems": [
    "Verif.addSub_sound",
    "Verif.add_sound",
    "Verif.sub_sound",
    "Verif.addSub_complete"
   ],
   "note": "16-bit chunks are a hypothesis; p >= 2^50"
  },
  {
   "property": "C39",
   "status": "proved",
   "theorems": [
    "Verif.mul_sound",
    "Verif.mul_complete"
   ],
   "note": "16-bit chunks are a hypothesis; p >= 2^194"
  },
  {
   "property": "C40",
   "status": "partial",
   "theorems": [
    "Verif.div_accepts_iff",
    "Verif.div_refuted",
    "Verif.div_refuted_any",
    "Verif.div_sound_partial",
    "Verif.div_complete"
   ],
   "note": "The claim is false of the code: the comparison part only enforces q != b and the product may wrap, so for a non-zero divisor almost any quotient is accepted. div_accepts_iff is the exact acceptance condition."
  },
  {
   "property": "C41",
   "status": "proved",
   "theorems": [
    "Verif.zkevm_transition_iff",
    "Verif.zkevm_frozen"
   ],
   "note": ""
  },
  {
   "property": "C42",
   "status": "proved",
   "theorems": [
    "Verif.gateMover_eval",
    "Verif.gateMover_vars",
    "Verif.gateMover_shift",
    "Verif.batchGate_iff"
   ],
   "note": ""
  },
  {
   "property": "C43",
   "status": "proved",
   "theorems": [
    "Verif.Batch.requests",
    "Verif.Batch.finalizeAll_spec",
    "Verif.Batch.finalizeAll_entry",
    "Verif.Batch.finalizeAll_enabled",
    "Verif.Batch.finalizeBatch_rows",
    "Verif.Batch.batch_sound",
    "Verif.Batch.batch_complete",
    "Verif.Batch.run_cons"
   ],
   "note": "For one-row components without constants and public inputs, the only ones the batching code handles; any number of batches, any widths, any request history including requests from circuit generation and requests whose inputs are results of other batched instances."
  },
  {
   "property": "C44",
   "status": "partial",
   "theorems": [
    "Verif.ConstBatch.requests",
    "Verif.ConstBatch.finalize_copies_partial",
    "Verif.ConstBatch.finalize_gates_partial",
    "Verif.ConstBatch.gate_cell_refuted",
    "Verif.ConstBatch.negative_rotation_undefined"
   ],
   "note": "Proved for sharing, distinct cells and cells read by copy constraints. For gates it holds only for offsets that are negative or at least the start row; refuted for offset 0 (an enabled gate's own-row constant is overwritten), and offset -1 on the start row is an out-of-range write."
  },
  {
   "property": "C45",
   "status": "partial",
   "theorems": [
    "Verif.Manifest.check_iff",
    "Verif.Manifest.intersect_iff_partial",
    "Verif.Manifest.intersect_refuted_aligned",
    "Verif.Manifest.intersect_refuted_empty",
    "Verif.Manifest.compiler_intersect_partial",
    "Verif.Manifest.setMax_refuted"
   ],
   "note": "The strict check is exact. Intersection is exact for every pair of kinds except ranges of equal step with different remainders (refuted) and non-empty ranges that is_satisfiable takes for empty (refuted). int32 overflow not modelled."
  },
  {
   "property": "C46",
   "status": "proved",
   "theorems": [
    "Verif.HuangLu.huangLu_packs",
    "Verif.HuangLu.huangLu_lower",
    "Verif.HuangLu.huangLu_two_approx",
    "Verif.HuangLu.huangLu_index",
    "Verif.HuangLu.huangLu_zero",
    "Verif.HuangLu.huangLu_few"
   ],
   "note": "sizes as naturals (no std::size_t overflow)"
  },
  {
   "property": "C47",
   "status": "partial",
   "theorems": [
    "Verif.HuangLu.stretch_rows",
    "Verif.HuangLu.stretch_rows_partial",
    "Verif.HuangLu.stretch_rows_refuted"
   ],
   "note": "The claim is false: rows_amount is the size of the largest zone whatever the packing. Refuted for every stretch factor; proved when zones do not outnumber column blocks; stretch_rows gives the true bound and shows rows of one block never collide."
  },
  {
   "property": "C48",
   "status": "partial",
   "theorems": [
    "Verif.NonNative.ed25519_roundtrip",
    "Verif.NonNative.pallasScalar_roundtrip_raw",
    "Verif.NonNative.pallasScalar_roundtrip",
    "Verif.NonNative.uint256_roundtrip_partial",
    "Verif.NonNative.uint256_roundtrip_refuted",
    "Verif.NonNative.signed_roundtrip_refuted",
    "Verif.NonNative.signed_roundtrip",
    "Verif.NonNative.signed256_roundtrip"
   ],
   "note": "Identity proved for Ed25519, Pallas scalars (canonical storage) and 256-bit unsigned integers over native integers of at least 256 bits; refuted for 256-bit integers over 255-bit native integers and for all positive signed integers."
  },
  {
   "property": "C49",
   "status": "proved",
   "theorems": [
    "Verif.Ed25519.add_sound",
    "Verif.Ed25519.sub_sound",
    "Verif.Ed25519.mul_sound",
    "Verif.Ed25519.add_undetermined",
    "Verif.Ed25519.sub_undetermined",
    "Verif.Ed25519.mul_undetermined",
    "Verif.Ed25519.add_noncanonical",
    "Verif.Ed25519.add_complete_partial",
    "Verif.Ed25519.sub_complete_partial",
    "Verif.Ed25519.mul_complete",
    "Verif.Ed25519.sub_refuted",
    "Verif.Ed25519.add_columns_refuted"
   ],
   "note": "Congruence for every satisfying table whose chunks are within their widths, native fields of odd characteristic above 2^254; without the widths three of four output limbs are arbitrary. Completeness: multiplication for all reduced operands, addition on table columns 0 to 3, subtraction only where the low limbs do not borrow too much (refuted elsewhere)."
  },
  {
   "property": "C50",
   "status": "partial",
   "theorems": [
    "Verif.Connectedness.zones_iff_partial",
    "Verif.Connectedness.strong_iff_partial",
    "Verif.Connectedness.weak_iff_partial",
    "Verif.Connectedness.islands_iff_partial",
    "Verif.Connectedness.zones_refuted"
   ],
   "note": "Proved for tables with at most one constant column; with two or more the address of a constant ignores its column and the claim is refuted."
  },
  {
   "property": "C51",
   "status": "proved",
   "theorems": [
    "Verif.gateId_perm",
    "Verif.addGate_perm",
    "Verif.gateId_single_iff"
   ],
   "note": "For every choice of random evaluation points."
  },
  {
   "property": "C52",
   "status": "partial",
   "theorems": [
    "Verif.lookupGateId_table_collision",
    "Verif.lookup_dropped",
    "Verif.lookupGateId_table_of_ne_partial"
   ],
   "note": "Refuted: lookups of the constant zero in different tables collide for every choice of random values. For a non-zero tuple the table is determined."
  },
  {
   "property": "C53",
   "status": "partial",
   "theorems": [
    "Verif.Stretcher.stretch_sat_iff_partial",
    "Verif.Stretcher.stretch_complete_partial",
    "Verif.Stretcher.stretch_refuted_input",
    "Verif.Stretcher.stretch_refuted_const",
    "Verif.Stretcher.stretch_scan_oob"
   ],
   "note": "False of the code in three ways, each proved: witness inputs are moved as if they were the component's own cells (inner generate_circuit gets the unconverted inputs), constants both read by a gate and copy constrained go astray, and the free-constant scan can run out of bounds. Proved for every component whose inputs are public inputs and whose gate constants are not copy constrained (WF)."
  },
  {
   "property": "C54",
   "status": "partial",
   "theorems": [
    "Verif.Manifest.iterate_spec_partial",
    "Verif.Manifest.iterate_refuted",
    "Verif.Manifest.isSat_iff_partial",
    "Verif.Manifest.isSat_refuted",
    "Verif.Manifest.maxValue_partial",
    "Verif.Manifest.maxValue_refuted",
    "Verif.Manifest.subtract_iff_partial",
    "Verif.Manifest.subtract_step_one",
    "Verif.Manifest.subtract_refuted",
    "Verif.Manifest.comp_isSat_iff_partial"
   ],
   "note": "Every part is false for some ranges (each refuted with a witness) and proved outside those."
  },
  {
   "property": "C55",
   "status": "partial",
   "theorems": [
    "Verif.Manifest.merge_enough_partial",
    "Verif.Manifest.merge_refuted",
    "Verif.Manifest.merge_oob",
    "Verif.Manifest.checkLoose_iff_partial",
    "Verif.Manifest.checkLoose_refuted",
    "Verif.Manifest.compMerge_constant",
    "Verif.Manifest.comp_check_iff",
    "Verif.Manifest.comp_checkLoose_iff_partial",
    "Verif.Manifest.merge_sat"
   ],
   "note": "Refuted for a single value with a range not starting at a multiple of its step, for set with range (end iterator dereferenced) and for the non-strict check of sets; proved otherwise."
  },
  {
   "property": "C56",
   "status": "proved",
   "theorems": [
    "Verif.Prog.checker_iff",
    "Verif.Prog.toTable_run",
    "Verif.Prog.program_sound",
    "Verif.Prog.program_complete",
    "Verif.Prog.program_results"
   ],
   "note": "Field addition, subtraction, multiplication and division; one component per row; any column layouts. Gate ids are a parameter, assumed faithful on the history."
  },
  {
   "property": "C57",
   "status": "proved",
   "theorems": [
    "Verif.Poseidon.poseidon_sound",
    "Verif.Poseidon.poseidon_complete",
    "Verif.Poseidon.perm_bijective",
    "Verif.Poseidon.pallas_perm_bijective",
    "Verif.Poseidon.vesta_perm_bijective",
    "Verif.Poseidon.pallas_mds",
    "Verif.Poseidon.vesta_mds"
   ],
   "note": "Soundness and completeness for arbitrary matrix and constants; bijectivity for the matrices of the code over the Pasta base fields. The 165 round constants are parameters."
  },
  {
   "property": "C58",
   "status": "partial",
   "theorems": [
    "Verif.Poseidon.Flex.flexPoseidon_sound",
    "Verif.Poseidon.Flex.flexPoseidon_complete",
    "Verif.Poseidon.Flex.generate_eq",
    "Verif.Poseidon.Flex.selectors_fresh",
    "Verif.Poseidon.Flex.selectors_again",
    "Verif.Poseidon.Flex.flexPoseidon_checked_partial",
    "Verif.Poseidon.Flex.flexPoseidon_refuted"
   ],
   "note": "Refuted in general: line 331 enables selector i instead of selector_indices[i], so after any other gate the checks run on the wrong rows. Proved for all widths when the Poseidon gates hold selectors 0, 1, 2, ... (component first in the circuit or used again), and for the obligations as meant."
  },
  {
   "property": "C59",
   "status": "partial",
   "theorems": [
    "Verif.PermVerifier.perm_sound_partial",
    "Verif.PermVerifier.perm_complete_partial",
    "Verif.PermVerifier.perm_one_unsound",
    "Verif.PermVerifier.perm_one_incomplete"
   ],
   "note": "Proved for all m >= 2; refuted for m = 1, where the second challenge is placed nowhere: a wrong second term is accepted and the honest table rejected."
  },
  {
   "property": "C60",
   "status": "partial",
   "theorems": [
    "Verif.F3Loop.f3_sound_partial",
    "Verif.F3Loop.f3_complete_partial",
    "Verif.F3Loop.f3_unsound",
    "Verif.F3Loop.f3_bad_complete_iff"
   ],
   "note": "Sound for every width that is 4 or not a multiple of 4. Refuted for 8, 12, ...: line 233 adds constraint_2 instead of constraint_, and any value is accepted. Completeness characterised exactly: with a single row (and for 8, 12, ... always) the honest table is accepted only if the cell before the component is zero."
  },
  {
   "property": "C61",
   "status": "proved",
   "theorems": [
    "Verif.F1Loop.f1_sound",
    "Verif.F1Loop.f1_complete",
    "Verif.F1Loop.gates_length"
   ],
   "note": "Sound and complete for every width from 4 up and every number of factors; the number of gates is the declared one."
  },
  {
   "property": "C62",
   "status": "proved",
   "theorems": [
    "Verif.GateComponent.gate_sound",
    "Verif.GateComponent.gate_complete",
    "Verif.GateComponent.gates_length"
   ],
   "note": "Sound and complete for every width from 3 up and every degree from 1 up, with and without the extra row; the number of gates is the declared one."
  },
  {
   "property": "C63",
   "status": "proved",
   "theorems": [
    "Verif.GateVerifier.verifier_sound",
    "Verif.GateVerifier.verifier_complete",
    "Verif.GateVerifier.consts_written",
    "Verif.seq_complete"
   ],
   "note": "Sound and complete for every list of sizes from one up (size zero makes the code compute size - 1 on an unsigned 0 and is excluded)."
  },
  {
   "property": "C64",
   "status": "partial",
   "theorems": [
    "Verif.LookupVerifier.verifier_sound_F012",
    "Verif.LookupVerifier.verifier_sound_partial",
    "Verif.LookupVerifier.verifier_complete",
    "Verif.LookupVerifier.verifier_unsound",
    "Verif.LookupVerifier.consts_written"
   ],
   "note": "Three terms proved for all widths from four up, all four for width 4 and widths not divisible by four; for widths 8, 12, ... the fourth term is proved undetermined (inherited from f3_loop). Completeness needs one unassigned cell to be zero, as it is in a fresh table."
  },
  {
   "property": "C65",
   "status": "partial",
   "theorems": [
    "Verif.ExprEval.eval_sound",
    "Verif.ExprEval.eval_complete",
    "Verif.ExprEval.eval_flow",
    "Verif.ExprEval.assign_nothing",
    "Verif.ExprEval.assign_incomplete",
    "Verif.ExprEval.stale_incomplete"
   ],
   "note": "Soundness for all tables, completeness when results are computed from final inputs, and the circuit-then-assignment order are proved. The claim fails for generate_assignments without a previous generate_circuit, and when inputs get their values after generate_circuit: witnesses are given."
  },
  {
   "property": "C66",
   "status": "proved",
   "theorems": [
    "Verif.FinalPoly.check_sound",
    "Verif.FinalPoly.check_complete",
    "Verif.FinalPoly.assign_after"
   ],
   "note": "Completeness for inputs that are cells (not results of other batches) assigned before generate_circuit."
  },
  {
   "property": "C67",
   "status": "partial",
   "theorems": [
    "Verif.FriCosets.cosets_sound",
    "Verif.FriCosets.sound_of_cells",
    "Verif.FriCosets.cosets_complete",
    "Verif.FriCosets.cosets_any_omega"
   ],
   "note": "Proved in full when C(0) is constant column 0. With any other constant column the claim is false: cosets_any_omega proves that omega is then not fixed (copy constraints name column 0)."
  },
  {
   "property": "C68",
   "status": "partial",
   "theorems": [
    "Verif.EndoScalar.endo_accepts",
    "Verif.EndoScalar.endo_sound_partial",
    "Verif.EndoScalar.endo_complete",
    "Verif.EndoScalar.endo_unsound",
    "Verif.EndoScalar.endo_short_rejected"
   ],
   "note": "The soundness claim is false of the code: nothing fixes the three accumulators of the first row, so every output is accepted for every input (endo_unsound). Missing from endo_sound_partial: its hypotheses on the first row are not enforced. Completeness holds for scalar size 128 and fails for smaller sizes (endo_short_rejected)."
  },
  {
   "property": "C69",
   "status": "proved",
   "theorems": [
    "Verif.BoolScalarMul.bool_sound",
    "Verif.BoolScalarMul.bool_complete",
    "Verif.BoolScalarMul.bool_rejects"
   ],
   "note": "Coordinates are any four limbs: the component does not look at their width."
  },
  {
   "property": "C70",
   "status": "partial",
   "theorems": [
    "Verif.EdCurve.complete",
    "Verif.EdCurve.add_sound",
    "Verif.EdCurve.add_complete_partial"
   ],
   "note": "Sound when the chunks are within their widths; the widths are not constrained by the circuit (see C49). Completeness for components on the first columns and for points whose last subtraction can be assigned (AddLow), both inherited from addition and subtraction (C49)."
  },
  {
   "property": "C71",
   "status": "partial",
   "theorems": [
    "Verif.EdCurve.dbl_sound_partial",
    "Verif.EdCurve.dbl_complete_partial",
    "Verif.EdCurve.dblWith_sat",
    "Verif.EdCurve.dbl_unsound",
    "Verif.EdCurve.dbl_sound_copies"
   ],
   "note": "The ordinate is not sound: the second loop of copy constraints compares columns 3 to 6 instead of 0 to 3. dbl_unsound doubles the neutral point to (0, 1 + 2^66) with all widths respected. The abscissa is sound; completeness as for C70."
  },
  {
   "property": "C72",
   "status": "partial",
   "theorems": [
    "Verif.XIndex.xIndex_sound_partial",
    "Verif.XIndex.xIndex_sign_partial",
    "Verif.XIndex.xIndex_complete",
    "Verif.XIndex.xIndex_not_bit",
    "Verif.XIndex.xIndex_wrong_sign",
    "Verif.XIndex.xIndex_free"
   ],
   "note": "The claim is false: b0 is not forced to be a bit, the first cell is not set to 1 (so both signs are accepted), and x is not connected at all when (w-1)/2 divides n. Proved: completeness, and what the constraints do say."
  },
  {
   "property": "C73",
   "status": "partial",
   "theorems": [
    "Verif.Colinear.colinear_vacuous",
    "Verif.Colinear.colinear_sound_partial",
    "Verif.Colinear.colinear_complete"
   ],
   "note": "The claim is false: there are no copy constraints, so zero rows are accepted for all inputs. Proved: completeness, and the meaning of the gate for rows tied to the inputs (steps that are not the first of their row)."
  },
  {
   "property": "C74",
   "status": "proved",
   "theorems": [
    "Verif.Verifier.transcript_sound",
    "Verif.Verifier.rows_exact"
   ],
   "note": "Hashes are the constraints the flexible Poseidon is meant to record (selectors in order: first user of the circuit, see C58)."
  },
  {
   "property": "C75",
   "status": "proved",
   "theorems": [
    "Verif.Verifier.merkle_sound",
    "Verif.Verifier.batchLoop_sound",
    "Verif.Verifier.roundLoop_sound"
   ],
   "note": "Round 0 is not opened: see C76."
  },
  {
   "property": "C76",
   "status": "partial",
   "theorems": [
    "Verif.Verifier.verifier_accepts_iff",
    "Verif.Verifier.verifier_ignores"
   ],
   "note": "Refuted: verifier_accepts_iff is the exact condition for an accepted table, and it consists of the challenge and of the Merkle openings of C75 only. The positions are not related to the transcript (the power component and the index component both accept zero), the colinearity checks constrain nothing, the opening of round 0, the final polynomial and the evaluations are not checked. verifier_ignores: the values of the last round and the siblings of the first round do not matter."
  },
  {
   "property": "C77",
   "status": "partial",
   "theorems": [
    "Verif.VarBaseMul.pallas_sound_partial",
    "Verif.VarBaseMul.vesta_sound_partial",
    "Verif.VarBaseMul.pallas_base_free",
    "Verif.VarBaseMul.vesta_alias",
    "Verif.VarBaseMul.pallas_neutral_any"
   ],
   "note": "Refuted as it stands: pallas_base_free (the input point is not copied into the rows of the multiplication), vesta_alias (the chain of chunks of aux lacks its last link, so b and b + modulus both decompose), pallas_neutral_any (any output for the neutral point). The two partial theorems hold for points of the order of the group when the three missing copy constraints are added."
  },
  {
   "property": "C78",
   "status": "partial",
   "theorems": [
    "Verif.VarBaseMul.pallas_complete",
    "Verif.VarBaseMul.vesta_complete_partial",
    "Verif.VarBaseMul.vesta_incomplete"
   ],
   "note": "Pallas: all points of the group (order the group order, or neutral), all scalars. Vesta: all scalars but three; vesta_incomplete shows that for one of the three no table exists. Assumes that the constant column addressed by W(0) holds zero (line 802-803 uses the index of a witness column for the constant column)."
  },
  {
   "property": "C79",
   "status": "partial",
   "theorems": [
    "Verif.Decomposition.decomposition_sound_partial",
    "Verif.Decomposition.accepts_iff",
    "Verif.Decomposition.decomposition_unsound",
    "Verif.Decomposition.decomposition_complete",
    "Verif.Decomposition.assign_result",
    "Verif.Decomposition.calculate_words"
   ],
   "note": "Refuted: accepts_iff is the exact condition for an accepted table, and any eight field elements that recombine to the inputs are accepted (no range check on the limbs). decomposition_complete: the honest table is accepted exactly for inputs below 2^128. decomposition_sound_partial: sound if the limbs are 16-bit."
  },
  {
   "property": "C80",
   "status": "proved",
   "theorems": [
    "Verif.Sha256.calculate_eq"
   ],
   "note": "Specification over 32-bit vectors in Core/Sha256Spec.lean, checked on the message abc."
  },
  {
   "property": "C81",
   "status": "partial",
   "theorems": [
    "Verif.Sha256.sha256_complete",
    "Verif.Sha256.sha256_any_output",
    "Verif.Sha256.schedule_sound",
    "Verif.Sha256.sha256_sound_partial",
    "Verif.Sha256.missing_honest"
   ],
   "note": "Completeness is proved. The second half is false: for every state, block and every choice of eight output words there is an accepted table. The schedule part is sound; the rounds are sound once the constraints listed in the structure Missing are added, and the honest table meets those."
  },
  {
   "property": "C82",
   "status": "partial",
   "theorems": [
    "Verif.Reduction.reduction_complete",
    "Verif.Reduction.assign_result",
    "Verif.Reduction.reduction_sound_partial",
    "Verif.Reduction.reduction_noncanonical",
    "Verif.Reduction.reduction_any_output"
   ],
   "note": "Completeness and the honest value are proved for every prime. The second half is false: no cell is range checked, so every output is accepted (reduction_any_output). With the intended widths the output is right modulo L (reduction_sound_partial) but not reduced (reduction_noncanonical)."
  },
  {
   "property": "C83",
   "status": "partial",
   "theorems": [
    "Verif.ScalarRange.range_complete",
    "Verif.ScalarRange.assign_result",
    "Verif.ScalarRange.range_sound_partial",
    "Verif.ScalarRange.accepts_iff",
    "Verif.ScalarRange.range_accepts_all",
    "Verif.ScalarRange.range_22_not_enough"
   ],
   "note": "The first half is proved for 253-bit integers. The second half is false: no limb is range checked, so every scalar is accepted (range_accepts_all), with any outputs that add up to it (accepts_iff); 22-bit checks on all limbs would not be enough (range_22_not_enough). range_sound_partial is soundness with 22-bit limbs and 11-bit highest limbs."
  },
  {
   "property": "C84",
   "status": "proved",
   "theorems": [
    "Verif.R1cs.conjunction_sound",
    "Verif.R1cs.conjunction_complete",
    "Verif.R1cs.disjunction_sound",
    "Verif.R1cs.disjunction_complete",
    "Verif.R1cs.disjunction_wraps"
   ],
   "note": "disjunction_wraps shows that the bound on the number of inputs is needed."
  },
  {
   "property": "C85",
   "status": "proved",
   "theorems": [
    "Verif.R1cs.packing_sound",
    "Verif.R1cs.packing_complete",
    "Verif.R1cs.packing_assign_complete",
    "Verif.R1cs.comparison_sound",
    "Verif.R1cs.comparison_complete",
    "Verif.R1cs.comparison_needs_bound"
   ],
   "note": "comparison_needs_bound shows that the bound on the inputs is needed; the component does not enforce it."
  },
  {
   "property": "C86",
   "status": "proved",
   "theorems": [
    "Verif.R1cs.inner_product_sound",
    "Verif.R1cs.inner_product_complete",
    "Verif.R1cs.multiplexer_sound",
    "Verif.R1cs.multiplexer_complete"
   ],
   "note": "An empty array is excluded: the constructor then allocates size_t(-1) variables."
  },
  {
   "property": "C87",
   "status": "proved",
   "theorems": [
    "Verif.R1cs.lookup1_iff",
    "Verif.R1cs.lookup1_complete",
    "Verif.R1cs.lookup3_sound",
    "Verif.R1cs.lookup3_complete"
   ],
   "note": ""
  },
  {
   "property": "C88",
   "status": "partial",
   "theorems": [
    "Verif.R1cs.f2b_complete",
    "Verif.R1cs.f2b_sound_partial",
    "Verif.R1cs.f2b_accepts_iff",
    "Verif.R1cs.f2b_not_strict"
   ],
   "note": "Completeness is proved. Uniqueness is false: the comparisons restrict nothing (f2b_accepts_iff), so every element x with x + p < 2^n is also accepted with the bits of x + p (f2b_not_strict). f2b_sound_partial: the bits are those of x or of x + p."
  },
  {
   "property": "C89",
   "status": "proved",
   "theorems": [
    "Verif.R1cs.bitcopy_sound",
    "Verif.R1cs.bitcopy_complete",
    "Verif.R1cs.fieldcopy_sound",
    "Verif.R1cs.fieldcopy_complete"
   ],
   "note": ""
  },
  {
   "property": "C90",
   "status": "proved",
   "theorems": [
    "Verif.R1cs.Sha.compression_sound",
    "Verif.R1cs.Sha.compression_complete",
    "Verif.R1cs.Sha.twoToOne_sound",
    "Verif.R1cs.Sha.twoToOne_complete"
   ],
   "note": ""
  },
  {
   "property": "C91",
   "status": "partial",
   "theorems": [
    "Verif.R1cs.Sha.HashC.hash_complete",
    "Verif.R1cs.Sha.HashC.hash_sound_partial",
    "Verif.R1cs.Sha.HashC.hash_sound_padded",
    "Verif.R1cs.Sha.HashC.hash_not_sha256",
    "Verif.R1cs.Sha.hash_counterexample"
   ],
   "note": "Proved for messages whose length is not 448 modulo 512. For length 448 modulo 512 merkle_damagard_padding appends only the length, without the bit 1, so the claim is false: hash_counterexample exhibits an accepted assignment whose output is not SHA-256 of the message, and hash_not_sha256 shows that no accepted assignment has the right output. hash_sound_padded says for all lengths what is computed."
  },
  {
   "property": "C92",
   "status": "partial",
   "theorems": [
    "Verif.R1cs.Sha.HmacC.hmac_complete",
    "Verif.R1cs.Sha.HmacC.hmac_sound_partial",
    "Verif.R1cs.Sha.HmacC.hmac_sound_padded",
    "Verif.R1cs.Sha.HmacC.hmac_not_hmac",
    "Verif.R1cs.Sha.HmacC.hmac_counterexample"
   ],
   "note": "Proved for messages whose length is not 448 modulo 512. For length 448 modulo 512 the padding error of C91 makes the inner hash wrong and the claim false: hmac_counterexample exhibits an accepted assignment whose output is not HMAC."
  },
  {
   "property": "C93",
   "status": "partial",
   "theorems": [
    "Verif.R1cs.Merkle.selector_iff",
    "Verif.R1cs.Merkle.Read.read_sound_partial",
    "Verif.R1cs.Merkle.Read.read_sound_small_chunks",
    "Verif.R1cs.Merkle.Read.read_sound_any_address",
    "Verif.R1cs.Merkle.sha2_read_sound",
    "Verif.R1cs.Merkle.Read.read_complete",
    "Verif.R1cs.Merkle.Read.read_other_root",
    "Verif.R1cs.Merkle.sha2_law",
    "Verif.R1cs.Merkle.read_wrong_root"
   ],
   "note": "Completeness is proved. Soundness is proved for chunk sizes c with 2^c <= p. The code uses the bit length of the modulus as chunk size, so that the root is only compared modulo p: every root that agrees modulo p is accepted (read_other_root), and read_wrong_root exhibits a wrong root with SHA-256 over the scalar field of BLS12-381."
  },
  {
   "property": "C94",
   "status": "proved",
   "theorems": [
    "Verif.R1cs.Curve.montAdd_sound",
    "Verif.R1cs.Curve.montAdd_complete",
    "Verif.R1cs.Curve.convert_sound",
    "Verif.R1cs.Curve.convert_complete",
    "Verif.R1cs.Curve.edAdd_sound",
    "Verif.R1cs.Curve.edAdd_complete",
    "Verif.R1cs.Curve.wellFormed_sound",
    "Verif.R1cs.Curve.wellFormed_complete",
    "Verif.Montgomery.toEd_add",
    "Verif.Montgomery.toEd_on",
    "Verif.TEd.on_add",
    "Verif.Montgomery.params_of",
    "Verif.Jubjub.params",
    "Verif.R1cs.Curve.montAdd_equal_points",
    "Verif.R1cs.Curve.convert_order_two"
   ],
   "note": "The conditions are needed: for equal points every slope is accepted (montAdd_equal_points), for the point of order two every abscissa (convert_order_two)."
  },
  {
   "property": "C95",
   "status": "partial",
   "theorems": [
    "Verif.R1cs.Curve.condAdd_sound_partial",
    "Verif.R1cs.Curve.condAdd_result_free"
   ],
   "note": "The selector is a bit and p_to_add is p2 or the neutral element. The addition itself is commented out in the code, so that any result is accepted (condAdd_result_free)."
  },
  {
   "property": "C96",
   "status": "proved",
   "theorems": [
    "Verif.R1cs.Pedersen.Mul.mul_sound",
    "Verif.R1cs.Pedersen.Mul.mul_complete",
    "Verif.R1cs.Pedersen.Mul.segment",
    "Verif.R1cs.Pedersen.Mul.start_eq"
   ],
   "note": "The input variables are assumed to hold bits; the component does not constrain them."
  },
  {
   "property": "C97",
   "status": "partial",
   "theorems": [
    "Verif.R1cs.Pedersen.Mul.padded_sound_partial",
    "Verif.R1cs.Pedersen.Mul.unpadded_sound",
    "Verif.R1cs.Pedersen.Mul.padding_unconstrained"
   ],
   "note": "False for lengths that are not multiples of 3: the padding variables are not constrained, and for every message there are accepted assignments with different results (padding_unconstrained). Proved for lengths divisible by 3, and if the padding variables are 0."
  },
  {
   "property": "C98",
   "status": "proved",
   "theorems": [
    "Verif.R1cs.Pedersen.Mul.mul_inj",
    "Verif.Pedersen.toPoint_inj",
    "Verif.Montgomery.toEd_inj"
   ],
   "note": ""
  },
  {
   "property": "C99",
   "status": "partial",
   "theorems": [
    "Verif.R1cs.Pedersen.Mul.input_not_bits",
    "Verif.R1cs.Pedersen.other_point",
    "Verif.R1cs.Pedersen.Mul.mul_inj"
   ],
   "note": "False: for every accepted assignment and every window there is another one with the same result whose first input variable of the window is not a bit (input_not_bits). For inputs that are bits the hash of one segment is injective (mul_inj)."
  }
 ]
}