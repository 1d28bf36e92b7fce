C01 | proved | isSatisfied_iff | For every command history. Gate ids are a parameter, assumed faithful on the gates of the history.
C02 | proved | addGate_again addGate_distinct selectors_disjoint selectors_count single_and_list_get_two_selectors | Gates are identified by id; single_and_list_get_two_selectors shows the one-constraint overload and the list overload give the same constraint different ids.
C03 | proved | read_after_history alloc_after_history | Any history of writes.
C04 | proved | enableRange_active enableRange_alloc enableRange_alloc_le | Any range and positive step.
C05 | proved | copies_exact | Any history.
C06 | proved | col64_spec col64_eq_colAt | 64-bit wrap-around arithmetic spelled out.
C07 | proved | addition_sound addition_complete | Any field.
C08 | proved | subtraction_sound subtraction_complete | Any field.
C09 | proved | multiplication_sound multiplication_complete multiplication_complete_aliased | Any field.
C10 | proved | division_sound division_by_zero_unsat division_complete | Any field.
C11 | proved | divisionOrZero_sound divisionOrZero_complete | Any field.
C12 | partial | mulByConstant_sound_partial mulByConstant_complete_partial mulByConstant_unsound | The code reads constant column 0 in the gate but writes column C(0): refuted in general by mulByConstant_unsound, proved when C(0) = 0.
C51 | proved | gateId_perm addGate_perm gateId_single_iff | For every choice of random evaluation points.
C52 | partial | lookupGateId_table_collision lookup_dropped lookupGateId_table_of_ne_partial | Refuted: lookups of the constant zero in different tables collide for every choice of random values. For a non-zero tuple the table is determined.
C13 | proved | logicAndFlag_sound logicAndFlag_complete logicOrFlag_sound logicOrFlag_complete logicAndFlag_rows logicOrFlag_rows | Every arrangement the manifests admit (2..5 and 2..6 columns).
C14 | proved | linearInter_sound linearInter_complete quadraticInter_sound quadraticInter_complete | Any field.
C15 | proved | equalityFlag_sound equalityFlag_complete | Both variants.
C16 | proved | logicNot_computes logicAnd_computes logicOr_computes logicXor_computes logicNand_computes logicNor_computes select_sound select_complete | 
C28 | proved | swap_sound swap_complete | 
C29 | proved | arrayOp_sound arrayOp_complete | Additions and multiplications, every length, at least 3 columns.
C32 | proved | friLinInter_sound friLinInter_line_exists friLinInter_complete friLinInter_zero_unconstrained | friLinInter_zero_unconstrained shows that the hypothesis s != 0 is needed.
C33 | proved | friArraySwap_sound friArraySwap_complete friArraySwap_control_unchecked | The control is not forced boolean by this component (friArraySwap_control_unchecked); the property assumes it.
C30 | partial | constantPow_sound_partial constantPow_complete_partial constantPow_unsound constantPow_wrong_output_cell constantPow_assert_fails | Refuted three ways: the first accumulator is unconstrained, the output cell is wrong when the digit count is a multiple of the digits per row, the constructor asserts on powers of 4. Proved under the complementary conditions.
C31 | proved | powFactor_sound powFactor_complete | Columns 8k+2 for every k >= 1, every number of coefficients.
C17 | proved | rangeCheck_sound rangeCheck_complete rangeCheck_iff rangeCheck_unsound_other_constant_column | Holds with constant column 0 as the component's constant column; refuted for any other column (zero is read from column index 0 but written to C(0)).
C18 | proved | bitDecomp_sound bitDecomp_complete bitDecomp_empty bitDecomp_empty_wrong_narrow | Constant column 0. bitDecomp_empty_wrong_narrow: the skipped generator's outputs overlap with fewer than nine columns.
C19 | proved | bitComp_sound bitComp_complete | Constant column 0; any field for soundness.
C20 | proved | bit_roundtrip bit_roundtrip' |
C21 | proved | comparisonUnchecked_sound comparisonUnchecked_complete comparisonUnchecked_wraps | Constant column 0, bits < modulus_bits - 1 as asserted by the constructor. comparisonUnchecked_wraps: the operand bound is a real precondition.
C22 | partial | comparisonChecked_accepts_iff comparisonChecked_sound_partial comparisonChecked_complete comparisonChecked_refuted_upper comparisonChecked_refuted_odd | The order is enforced; the range claim is false of the code: the larger operand is never decomposed and odd sizes keep a spare bit. comparisonChecked_accepts_iff states exactly what is enforced.
C24 | partial | divRem_accepts_iff divRem_complete divRem_refuted_full_remainder divRem_refuted_negative_remainder divRem_sound_partial | The claim is false of the code: r = y and negative r are accepted. divRem_accepts_iff states exactly what is enforced; divRem_sound_partial adds the two missing checks as hypotheses.
C23 | partial | comparisonFlag_accepts_iff comparisonFlag_sound_partial comparisonFlag_sound_bad_partial comparisonFlag_complete comparisonFlag_refuted comparisonFlag_bad_four | The claim is false of the code for odd sizes with an even number of witness columns when the first chunk lands in the last position (always for 4 columns): the first-chunk gate reads a free column instead of y. comparisonFlag_accepts_iff states exactly what is enforced; fields with p > 7.
C25 | partial | exponentiation_accepts_iff exponentiation_sound_partial exponentiation_refuted_large exponentiation_complete_partial exponentiation_incomplete_layout | exact acceptance condition; the full claim fails when 2^padded exceeds the field (exponent aliases mod p) and for layouts whose sixth witness column is not table column 5
C26 | partial | sqrt_accepts_iff sqrt_accepts_iff_spec_partial sqrt_sound_partial sqrt_refuted sqrt_complete_partial | refuted for every prime p > 3, p not 23, with (p-1)/2+p < 2^padded (all supported curve fields with 256-bit exponents); exact spec proved when (p-1)/2 has a single representation
C27 | proved | bitShift_sound bitShift_sound_val bitShift_complete | any width, shift and direction; constant column C(0) = 0 as for the sub-components
C35 | proved | stateSelector_sound stateSelector_complete stateSelector_input_unlinked | stateSelector_input_unlinked: generate_circuit never adds the copy constraint, so the component input is not tied to the selected index
C36 | proved | zkevm_word_chunks zkevm_chunk64 | 
C37 | proved | iszero_sound iszero_refuted_unranged iszero_complete | 16-bit chunks are a hypothesis (no range check in the opcode); iszero_refuted_unranged shows that hypothesis is necessary
C38 | proved | addSub_sound add_sound sub_sound addSub_complete | 16-bit chunks are a hypothesis; p >= 2^50
C39 | proved | mul_sound mul_complete | 16-bit chunks are a hypothesis; p >= 2^194
C40 | partial | div_accepts_iff div_refuted div_refuted_any div_sound_partial div_complete | The claim is false of the code: the comparison part only enforces q != b and the product may wrap, so for a non-zero divisor almost any quotient is accepted. div_accepts_iff is the exact acceptance condition.
C41 | proved | zkevm_transition_iff zkevm_frozen | 
C42 | proved | gateMover_eval gateMover_vars gateMover_shift batchGate_iff |
C46 | proved | HuangLu.huangLu_packs HuangLu.huangLu_lower HuangLu.huangLu_two_approx HuangLu.huangLu_index HuangLu.huangLu_zero HuangLu.huangLu_few | sizes as naturals (no std::size_t overflow)
C47 | partial | HuangLu.stretch_rows HuangLu.stretch_rows_partial HuangLu.stretch_rows_refuted | The claim is false: rows_amount is the size of the largest zone whatever the packing. Refuted for every stretch factor; proved when zones do not outnumber column blocks; stretch_rows gives the true bound and shows rows of one block never collide.
C53 | partial | Stretcher.stretch_sat_iff_partial Stretcher.stretch_complete_partial Stretcher.stretch_refuted_input Stretcher.stretch_refuted_const Stretcher.stretch_scan_oob | False of the code in three ways, each proved: witness inputs are moved as if they were the component's own cells (inner generate_circuit gets the unconverted inputs), constants both read by a gate and copy constrained go astray, and the free-constant scan can run out of bounds. Proved for every component whose inputs are public inputs and whose gate constants are not copy constrained (WF).
C50 | partial | Connectedness.zones_iff_partial Connectedness.strong_iff_partial Connectedness.weak_iff_partial Connectedness.islands_iff_partial Connectedness.zones_refuted | Proved for tables with at most one constant column; with two or more the address of a constant ignores its column and the claim is refuted.
C48 | partial | NonNative.ed25519_roundtrip NonNative.pallasScalar_roundtrip_raw NonNative.pallasScalar_roundtrip NonNative.uint256_roundtrip_partial NonNative.uint256_roundtrip_refuted NonNative.signed_roundtrip_refuted NonNative.signed_roundtrip NonNative.signed256_roundtrip | Identity proved for Ed25519, Pallas scalars (canonical storage) and 256-bit unsigned integers over native integers of at least 256 bits; refuted for 256-bit integers over 255-bit native integers and for all positive signed integers.
C45 | partial | Manifest.check_iff Manifest.intersect_iff_partial Manifest.intersect_refuted_aligned Manifest.intersect_refuted_empty Manifest.compiler_intersect_partial Manifest.setMax_refuted | The strict check is exact. Intersection is exact for every pair of kinds except ranges of equal step with different remainders (refuted) and non-empty ranges that is_satisfiable takes for empty (refuted). int32 overflow not modelled.
C54 | partial | Manifest.iterate_spec_partial Manifest.iterate_refuted Manifest.isSat_iff_partial Manifest.isSat_refuted Manifest.maxValue_partial Manifest.maxValue_refuted Manifest.subtract_iff_partial Manifest.subtract_step_one Manifest.subtract_refuted Manifest.comp_isSat_iff_partial | Every part is false for some ranges (each refuted with a witness) and proved outside those.
C55 | partial | Manifest.merge_enough_partial Manifest.merge_refuted Manifest.merge_oob Manifest.checkLoose_iff_partial Manifest.checkLoose_refuted Manifest.compMerge_constant Manifest.comp_check_iff Manifest.comp_checkLoose_iff_partial Manifest.merge_sat | Refuted for a single value with a range not starting at a multiple of its step, for set with range (end iterator dereferenced) and for the non-strict check of sets; proved otherwise.
C43 | proved | Batch.requests Batch.finalizeAll_spec Batch.finalizeAll_entry Batch.finalizeAll_enabled Batch.finalizeBatch_rows Batch.batch_sound Batch.batch_complete Batch.run_cons | For one-row components without constants and public inputs, the only ones the batching code handles; any number of batches, any widths, any request history including requests from circuit generation and requests whose inputs are results of other batched instances.
C44 | partial | ConstBatch.requests ConstBatch.finalize_copies_partial ConstBatch.finalize_gates_partial ConstBatch.gate_cell_refuted ConstBatch.negative_rotation_undefined | Proved for sharing, distinct cells and cells read by copy constraints. For gates it holds only for offsets that are negative or at least the start row; refuted for offset 0 (an enabled gate's own-row constant is overwritten), and offset -1 on the start row is an out-of-range write.
C34 | proved | UnifiedAddition.unifiedAddition_sound UnifiedAddition.unifiedAddition_complete UnifiedAddition.unifiedAddition_incomplete_two_torsion UnifiedAddition.unifiedAddition_unsound_zero_abscissa UnifiedAddition.pallas_ok UnifiedAddition.vesta_ok | Group law of Mathlib's Weierstrass curves; both side conditions are shown necessary and are met by Pallas and Vesta. The sum computed by crypto3 is modelled by the chord-and-tangent formulas.
C49 | proved | Ed25519.add_sound Ed25519.sub_sound Ed25519.mul_sound Ed25519.add_undetermined Ed25519.sub_undetermined Ed25519.mul_undetermined Ed25519.add_noncanonical Ed25519.add_complete_partial Ed25519.sub_complete_partial Ed25519.mul_complete Ed25519.sub_refuted Ed25519.add_columns_refuted | Congruence for every satisfying table whose chunks are within their widths, native fields of odd characteristic above 2^254; without the widths three of four output limbs are arbitrary. Completeness: multiplication for all reduced operands, addition on table columns 0 to 3, subtraction only where the low limbs do not borrow too much (refuted elsewhere).
C56 | proved | Prog.checker_iff Prog.toTable_run Prog.program_sound Prog.program_complete Prog.program_results | Field addition, subtraction, multiplication and division; one component per row; any column layouts. Gate ids are a parameter, assumed faithful on the history.
C57 | proved | Poseidon.poseidon_sound Poseidon.poseidon_complete Poseidon.perm_bijective Poseidon.pallas_perm_bijective Poseidon.vesta_perm_bijective Poseidon.pallas_mds Poseidon.vesta_mds | Soundness and completeness for arbitrary matrix and constants; bijectivity for the matrices of the code over the Pasta base fields. The 165 round constants are parameters.
C58 | partial | Poseidon.Flex.flexPoseidon_sound Poseidon.Flex.flexPoseidon_complete Poseidon.Flex.generate_eq Poseidon.Flex.selectors_fresh Poseidon.Flex.selectors_again Poseidon.Flex.flexPoseidon_checked_partial Poseidon.Flex.flexPoseidon_refuted | Refuted in general: line 331 enables selector i instead of selector_indices[i], so after any other gate the checks run on the wrong rows. Proved for all widths when the Poseidon gates hold selectors 0, 1, 2, ... (component first in the circuit or used again), and for the obligations as meant.
C59 | partial | PermVerifier.perm_sound_partial PermVerifier.perm_complete_partial PermVerifier.perm_one_unsound PermVerifier.perm_one_incomplete | Proved for all m >= 2; refuted for m = 1, where the second challenge is placed nowhere: a wrong second term is accepted and the honest table rejected.
C60 | partial | F3Loop.f3_sound_partial F3Loop.f3_complete_partial F3Loop.f3_unsound F3Loop.f3_bad_complete_iff | Sound for every width that is 4 or not a multiple of 4. Refuted for 8, 12, ...: line 233 adds constraint_2 instead of constraint_, and any value is accepted. Completeness characterised exactly: with a single row (and for 8, 12, ... always) the honest table is accepted only if the cell before the component is zero.
C61 | proved | F1Loop.f1_sound F1Loop.f1_complete F1Loop.gates_length | Sound and complete for every width from 4 up and every number of factors; the number of gates is the declared one.
C62 | proved | GateComponent.gate_sound GateComponent.gate_complete GateComponent.gates_length | Sound and complete for every width from 3 up and every degree from 1 up, with and without the extra row; the number of gates is the declared one.
C63 | proved | GateVerifier.verifier_sound GateVerifier.verifier_complete GateVerifier.consts_written seq_complete | Sound and complete for every list of sizes from one up (size zero makes the code compute size - 1 on an unsigned 0 and is excluded).
C64 | partial | LookupVerifier.verifier_sound_F012 LookupVerifier.verifier_sound_partial LookupVerifier.verifier_complete LookupVerifier.verifier_unsound LookupVerifier.consts_written | Three terms proved for all widths from four up, all four for width 4 and widths not divisible by four; for widths 8, 12, ... the fourth term is proved undetermined (inherited from f3_loop). Completeness needs one unassigned cell to be zero, as it is in a fresh table.
C65 | partial | ExprEval.eval_sound ExprEval.eval_complete ExprEval.eval_flow ExprEval.assign_nothing ExprEval.assign_incomplete ExprEval.stale_incomplete | Soundness for all tables, completeness when results are computed from final inputs, and the circuit-then-assignment order are proved. The claim fails for generate_assignments without a previous generate_circuit, and when inputs get their values after generate_circuit: witnesses are given.
C66 | proved | FinalPoly.check_sound FinalPoly.check_complete FinalPoly.assign_after | Completeness for inputs that are cells (not results of other batches) assigned before generate_circuit.
C67 | partial | FriCosets.cosets_sound FriCosets.sound_of_cells FriCosets.cosets_complete FriCosets.cosets_any_omega | Proved in full when C(0) is constant column 0. With any other constant column the claim is false: cosets_any_omega proves that omega is then not fixed (copy constraints name column 0).
C68 | partial | EndoScalar.endo_accepts EndoScalar.endo_sound_partial EndoScalar.endo_complete EndoScalar.endo_unsound EndoScalar.endo_short_rejected | The soundness claim is false of the code: nothing fixes the three accumulators of the first row, so every output is accepted for every input (endo_unsound). Missing from endo_sound_partial: its hypotheses on the first row are not enforced. Completeness holds for scalar size 128 and fails for smaller sizes (endo_short_rejected).
C69 | proved | BoolScalarMul.bool_sound BoolScalarMul.bool_complete BoolScalarMul.bool_rejects | Coordinates are any four limbs: the component does not look at their width.
C70 | partial | EdCurve.complete EdCurve.add_sound EdCurve.add_complete_partial | Sound when the chunks are within their widths; the widths are not constrained by the circuit (see C49). Completeness for components on the first columns and for points whose last subtraction can be assigned (AddLow), both inherited from addition and subtraction (C49).
C71 | partial | EdCurve.dbl_sound_partial EdCurve.dbl_complete_partial EdCurve.dblWith_sat EdCurve.dbl_unsound EdCurve.dbl_sound_copies | The ordinate is not sound: the second loop of copy constraints compares columns 3 to 6 instead of 0 to 3. dbl_unsound doubles the neutral point to (0, 1 + 2^66) with all widths respected. The abscissa is sound; completeness as for C70.
C72 | partial | XIndex.xIndex_sound_partial XIndex.xIndex_sign_partial XIndex.xIndex_complete XIndex.xIndex_not_bit XIndex.xIndex_wrong_sign XIndex.xIndex_free | The claim is false: b0 is not forced to be a bit, the first cell is not set to 1 (so both signs are accepted), and x is not connected at all when (w-1)/2 divides n. Proved: completeness, and what the constraints do say.
C73 | partial | Colinear.colinear_vacuous Colinear.colinear_sound_partial Colinear.colinear_complete | The claim is false: there are no copy constraints, so zero rows are accepted for all inputs. Proved: completeness, and the meaning of the gate for rows tied to the inputs (steps that are not the first of their row).
C74 | proved | Verifier.transcript_sound Verifier.rows_exact | Hashes are the constraints the flexible Poseidon is meant to record (selectors in order: first user of the circuit, see C58).
C75 | proved | Verifier.merkle_sound Verifier.batchLoop_sound Verifier.roundLoop_sound | Round 0 is not opened: see C76.
C76 | partial | Verifier.verifier_accepts_iff Verifier.verifier_ignores | Refuted: verifier_accepts_iff is the exact condition for an accepted table, and it consists of the challenge and of the Merkle openings of C75 only. The positions are not related to the transcript (the power component and the index component both accept zero), the colinearity checks constrain nothing, the opening of round 0, the final polynomial and the evaluations are not checked. verifier_ignores: the values of the last round and the siblings of the first round do not matter.
C77 | partial | VarBaseMul.pallas_sound_partial VarBaseMul.vesta_sound_partial VarBaseMul.pallas_base_free VarBaseMul.vesta_alias VarBaseMul.pallas_neutral_any | Refuted as it stands: pallas_base_free (the input point is not copied into the rows of the multiplication), vesta_alias (the chain of chunks of aux lacks its last link, so b and b + modulus both decompose), pallas_neutral_any (any output for the neutral point). The two partial theorems hold for points of the order of the group when the three missing copy constraints are added.
C78 | partial | VarBaseMul.pallas_complete VarBaseMul.vesta_complete_partial VarBaseMul.vesta_incomplete | Pallas: all points of the group (order the group order, or neutral), all scalars. Vesta: all scalars but three; vesta_incomplete shows that for one of the three no table exists. Assumes that the constant column addressed by W(0) holds zero (line 802-803 uses the index of a witness column for the constant column).
C79 | partial | Decomposition.decomposition_sound_partial Decomposition.accepts_iff Decomposition.decomposition_unsound Decomposition.decomposition_complete Decomposition.assign_result Decomposition.calculate_words | Refuted: accepts_iff is the exact condition for an accepted table, and any eight field elements that recombine to the inputs are accepted (no range check on the limbs). decomposition_complete: the honest table is accepted exactly for inputs below 2^128. decomposition_sound_partial: sound if the limbs are 16-bit.
C80 | proved | Sha256.calculate_eq | Specification over 32-bit vectors in Core/Sha256Spec.lean, checked on the message abc.
C81 | partial | Sha256.sha256_complete Sha256.sha256_any_output Sha256.schedule_sound Sha256.sha256_sound_partial Sha256.missing_honest | Completeness is proved. The second half is false: for every state, block and every choice of eight output words there is an accepted table. The schedule part is sound; the rounds are sound once the constraints listed in the structure Missing are added, and the honest table meets those.
C82 | partial | Reduction.reduction_complete Reduction.assign_result Reduction.reduction_sound_partial Reduction.reduction_noncanonical Reduction.reduction_any_output | Completeness and the honest value are proved for every prime. The second half is false: no cell is range checked, so every output is accepted (reduction_any_output). With the intended widths the output is right modulo L (reduction_sound_partial) but not reduced (reduction_noncanonical).
C83 | partial | ScalarRange.range_complete ScalarRange.assign_result ScalarRange.range_sound_partial ScalarRange.accepts_iff ScalarRange.range_accepts_all ScalarRange.range_22_not_enough | The first half is proved for 253-bit integers. The second half is false: no limb is range checked, so every scalar is accepted (range_accepts_all), with any outputs that add up to it (accepts_iff); 22-bit checks on all limbs would not be enough (range_22_not_enough). range_sound_partial is soundness with 22-bit limbs and 11-bit highest limbs.
C84 | proved | R1cs.conjunction_sound R1cs.conjunction_complete R1cs.disjunction_sound R1cs.disjunction_complete R1cs.disjunction_wraps | disjunction_wraps shows that the bound on the number of inputs is needed.
C85 | proved | R1cs.packing_sound R1cs.packing_complete R1cs.packing_assign_complete R1cs.comparison_sound R1cs.comparison_complete R1cs.comparison_needs_bound | comparison_needs_bound shows that the bound on the inputs is needed; the component does not enforce it.
C86 | proved | R1cs.inner_product_sound R1cs.inner_product_complete R1cs.multiplexer_sound R1cs.multiplexer_complete | An empty array is excluded: the constructor then allocates size_t(-1) variables.
C87 | proved | R1cs.lookup1_iff R1cs.lookup1_complete R1cs.lookup3_sound R1cs.lookup3_complete | 
C88 | partial | R1cs.f2b_complete R1cs.f2b_sound_partial R1cs.f2b_accepts_iff R1cs.f2b_not_strict | Completeness is proved. Uniqueness is false: the comparisons restrict nothing (f2b_accepts_iff), so every element x with x + p < 2^n is also accepted with the bits of x + p (f2b_not_strict). f2b_sound_partial: the bits are those of x or of x + p.
C89 | proved | R1cs.bitcopy_sound R1cs.bitcopy_complete R1cs.fieldcopy_sound R1cs.fieldcopy_complete | 
C90 | proved | R1cs.Sha.compression_sound R1cs.Sha.compression_complete R1cs.Sha.twoToOne_sound R1cs.Sha.twoToOne_complete | 
C91 | partial | R1cs.Sha.HashC.hash_complete R1cs.Sha.HashC.hash_sound_partial R1cs.Sha.HashC.hash_sound_padded R1cs.Sha.HashC.hash_not_sha256 R1cs.Sha.hash_counterexample | Proved for messages whose length is not 448 modulo 512. For length 448 modulo 512 merkle_damagard_padding appends only the length, without the bit 1, so the claim is false: hash_counterexample exhibits an accepted assignment whose output is not SHA-256 of the message, and hash_not_sha256 shows that no accepted assignment has the right output. hash_sound_padded says for all lengths what is computed.
C92 | partial | R1cs.Sha.HmacC.hmac_complete R1cs.Sha.HmacC.hmac_sound_partial R1cs.Sha.HmacC.hmac_sound_padded R1cs.Sha.HmacC.hmac_not_hmac R1cs.Sha.HmacC.hmac_counterexample | Proved for messages whose length is not 448 modulo 512. For length 448 modulo 512 the padding error of C91 makes the inner hash wrong and the claim false: hmac_counterexample exhibits an accepted assignment whose output is not HMAC.
C93 | partial | R1cs.Merkle.selector_iff R1cs.Merkle.Read.read_sound_partial R1cs.Merkle.Read.read_sound_small_chunks R1cs.Merkle.Read.read_sound_any_address R1cs.Merkle.sha2_read_sound R1cs.Merkle.Read.read_complete R1cs.Merkle.Read.read_other_root R1cs.Merkle.sha2_law R1cs.Merkle.read_wrong_root | Completeness is proved. Soundness is proved for chunk sizes c with 2^c <= p. The code uses the bit length of the modulus as chunk size, so that the root is only compared modulo p: every root that agrees modulo p is accepted (read_other_root), and read_wrong_root exhibits a wrong root with SHA-256 over the scalar field of BLS12-381.
C94 | proved | R1cs.Curve.montAdd_sound R1cs.Curve.montAdd_complete R1cs.Curve.convert_sound R1cs.Curve.convert_complete R1cs.Curve.edAdd_sound R1cs.Curve.edAdd_complete R1cs.Curve.wellFormed_sound R1cs.Curve.wellFormed_complete Montgomery.toEd_add Montgomery.toEd_on TEd.on_add Montgomery.params_of Jubjub.params R1cs.Curve.montAdd_equal_points R1cs.Curve.convert_order_two | The conditions are needed: for equal points every slope is accepted (montAdd_equal_points), for the point of order two every abscissa (convert_order_two).
C95 | partial | R1cs.Curve.condAdd_sound_partial R1cs.Curve.condAdd_result_free | The selector is a bit and p_to_add is p2 or the neutral element. The addition itself is commented out in the code, so that any result is accepted (condAdd_result_free).
C96 | proved | R1cs.Pedersen.Mul.mul_sound R1cs.Pedersen.Mul.mul_complete R1cs.Pedersen.Mul.segment R1cs.Pedersen.Mul.start_eq | The input variables are assumed to hold bits; the component does not constrain them.
C97 | partial | R1cs.Pedersen.Mul.padded_sound_partial R1cs.Pedersen.Mul.unpadded_sound R1cs.Pedersen.Mul.padding_unconstrained | False for lengths that are not multiples of 3: the padding variables are not constrained, and for every message there are accepted assignments with different results (padding_unconstrained). Proved for lengths divisible by 3, and if the padding variables are 0.
C98 | proved | R1cs.Pedersen.Mul.mul_inj Pedersen.toPoint_inj Montgomery.toEd_inj | 
C99 | partial | R1cs.Pedersen.Mul.input_not_bits R1cs.Pedersen.other_point R1cs.Pedersen.Mul.mul_inj | False: for every accepted assignment and every window there is another one with the same result whose first input variable of the window is not a bit (input_not_bits). For inputs that are bits the hash of one segment is injective (mul_inj).
C100 | partial | R1cs.Voting.Vote.vote_sound_partial R1cs.Voting.Vote.vote_sound_small_chunks R1cs.Voting.Vote.ballot_iff R1cs.Voting.Vote.vote_complete R1cs.Voting.toy_law R1cs.Merkle.Read.read_sound_any_address | Root and serial number are compared as packed numbers modulo p; proved in full for chunk sizes c with 2^c <= p. The hash components are parameters with the law AnyLaw; the Pedersen hash is not instantiated. Bits as key and identifier are a hypothesis, since the component does not constrain them.
C101 | partial | R1cs.Voting.Vote.serial_unique_partial R1cs.Voting.Vote.vote_other_sn R1cs.Voting.Ex.double_vote R1cs.Voting.Vote.vote_sound_small_chunks | False with the chunk size of the code: every serial number that agrees modulo p is accepted (vote_other_sn, double_vote). For chunks that fit and a hash function the serial number is determined (serial_unique_partial).
C102 | partial | ZkBytecode.layout_sound ZkBytecode.tag_bit ZkBytecode.length_sound_partial ZkBytecode.empty_contract_any_length | Layout in full. The length needs at least one byte and a row after the contract; the claim for an empty contract is refuted.
C103 | partial | ZkBytecode.opcode_sound_partial ZkBytecode.opcode_exact ZkBytecode.undefined_first_byte_rejected ZkBytecode.flags_not_forced | Flags agree with the parse up to the last flagged byte, and everywhere if the counter of the last byte is at most 32; the full statement is refuted by flags_not_forced.
C104 | partial | ZkBytecode.complete_partial ZkBytecode.honest_tuples ZkBytecode.orphan_byte ZkBytecode.tester_aside_unchecked | Restricted to contracts whose instruction bytes are in the opcode table (others are rejected, C103). The last part of the claim is refuted by orphan_byte.
C105 | proved | LookupLogic.and_computes LookupLogic.xor_computes | Both components.
C106 | partial | Proxy.used_gates_iff Proxy.used_gates_unique Proxy.used_lookups_iff Proxy.used_copies_own Proxy.used_copies_partial Proxy.used_copies_of_other | Gates and lookups in full. Copy constraints for provers none of whose constraints is dropped; refuted otherwise.
C107 | partial | Proxy.provers_check_all Proxy.isSatisfied_eq_on Proxy.proxyCheck_iff Proxy.proxyCheck_ignores_gates | The sets recorded by the proxies are enough (check on the shared table); is_satisfied on the proxies themselves checks no gate, so the claim is refuted.
C108 | partial | Proxy.selectors_partial Proxy.dynSelector_eq Proxy.dynSelector_collides Proxy.constants_collide | Proved for gates and lookup gates, refuted for selectors of dynamic tables and batched constants.
C109 | proved | Proxy.run_shared Proxy.rows_recorded Proxy.enableRange_cols Proxy.enableRange_alloc_differs Proxy.save_shared | The number of allocated rows can be smaller than without proxies, see enableRange_alloc_differs.
C110 | proved | Sha256Full.calculate_eq | Bits above the low 128 of an argument are dropped silently.
C111 | partial | Sha256Full.hash_complete Sha256Full.hash_any_output Sha256Full.hash_sound_partial Sha256Full.lacks_honest | Completeness in full. Soundness is refuted (hash_any_output); it holds with the absent constraints (hash_sound_partial), which the honest table meets (lacks_honest).
C112 | partial | EdMul.bit_sound_partial EdMul.bit_complete_partial EdMul.bit_unsound | Refuted as it stands (bit_unsound); sound with the range checks' widths and the two copies missing in doubling (BitAbsent), which the generated table meets (bit_complete_partial). Completeness for points whose subtractions can be assigned and for components in the first table columns.
C113 | partial | EdMul.mul_sound_partial EdMul.mul_complete_partial EdMul.mul_unsound EdMul.mul_lsb EdMul.mul_254 | Refuted as it stands: an output outside the curve is accepted for k = 0 (mul_unsound); in LSB mode k = 1 gives 2^252 T (mul_lsb); with 254 bits the output is (k/2) T (mul_254). Sound in the default configuration with the absent constraints, by induction over the 252 steps.
C114 | proved | Mocked.unsigned_small Mocked.unsigned_big Mocked.unsigned_big_cmp Mocked.unsigned_small_zero Mocked.exact_unique | Relative to the integer types of boost::multiprecision described in Model/Mocked.lean.
C115 | partial | Mocked.signed_small Mocked.signed_abs_small Mocked.signed_abs_big Mocked.signed_big_partial Mocked.signed_big_cmp_partial Mocked.tripleInt_iff Mocked.signed_big_operand Mocked.signed_big_result Mocked.signed_big_cmp_refuted | Small sizes and absolute values proved. Refuted for 256 bits: the sign is applied to the top half only (signed_big_operand), negative results are split in two's complement (signed_big_result), comparisons are unsigned (signed_big_cmp_refuted). Proved for operands that are non-negative or have a zero bottom half with non-negative results, and for non-negative operands of comparisons.
C116 | partial | Mocked.result_cells_partial Mocked.result_cell_refuted Mocked.circuit_unsound | Holds in the first table columns only; the circuit is empty, so the second half is refuted.
C117 | proved | R1cs.Ext.school_ring R1cs.Ext.fp2Mul_iff R1cs.Ext.fp2Sq_iff R1cs.Ext.mulByLc_iff R1cs.Ext.fp2MulX_eq R1cs.Ext.fp3MulX_eq R1cs.Ext.fp3Mul_iff R1cs.Ext.fp2Mul_complete R1cs.Ext.fp2Sq_complete R1cs.Ext.mulByLc_complete R1cs.Ext.fp3Mul_complete | Iff statements: soundness and uniqueness of the auxiliary variables in one.
C118 | proved | R1cs.Ext.fp4Tower_iff R1cs.Ext.fp4Direct_iff R1cs.Ext.fp4Sq_iff R1cs.Ext.fp4Cyc_iff R1cs.Ext.fp4Tower_complete R1cs.Ext.fp4Direct_complete R1cs.Ext.fp4Sq_complete R1cs.Ext.fp4Cyc_complete | The direct multiplication names its assignment function generate_r1cs_witness, see DESIGN.md.
C119 | proved | R1cs.Ext.fp6Mul_iff R1cs.Ext.fp6Cyc_iff R1cs.Ext.fp6CycVal_eq R1cs.Ext.fp6Cyc_square R1cs.Ext.fp6Mul_complete R1cs.Ext.fp6Cyc_complete | Cyclotomic subgroup stated through the Frobenius W -> zeta W.
C120 | partial | R1cs.Ext.fp6Mul2345_forged R1cs.Ext.fp6Mul2345_partial R1cs.Ext.fp6Mul2345_iff R1cs.Ext.fp6Mul2345_complete | Refuted: v0 is never constrained, so half of the coefficients of the result are arbitrary for all factors (fp6Mul2345_forged). With v0 = A0 * B0 and the two coefficients zero the product follows (fp6Mul2345_partial).
C121 | partial | R1cs.Ext.naf_value R1cs.Ext.expComp_partial R1cs.Ext.expComp_unique_partial R1cs.Ext.expComp_isSome R1cs.Ext.g2_sound R1cs.Ext.g4_sound R1cs.Ext.g4d_sound R1cs.Ext.g6_sound R1cs.Ext.expComp_zero_forged R1cs.Ext.toRing_inj | Proved for invertible bases. Refuted for the base 0 when a digit is -1: the division accepts every result (expComp_zero_forged). The component cannot be built for the exponent 0 (expComp_isSome). The calculated assignment is not modelled.
C122 | proved | Sha512.values_eq Sha512.sched_W Sha512.step_emb Sha512.run_emb Sha512.inRange_W | For p >= 7^64 (the spread words in base 7 must not wrap); holds for pallas and vesta. inRange_W shows that no table lookup of the calculation leaves its range.
C123 | partial | Sha512.sha512_honest Sha512.sha512_complete_partial Sha512.sha512_not_complete | Exact condition proved: the honest table is accepted iff the constant column numbered like the first witness column holds the round constants. Hence accepted when both have the same number and rejected for every input when they differ and that column is empty.
C124 | partial | Sha512.sha512_any_output | Refuted: over every field with 2 != 0, for every state, block and every eight output elements there is an accepted table changed only inside the component. The component has no lookups and copies neither the derived words nor the new working variables.
C125 | partial | Sha512Full.sha512_full_complete_partial Sha512Full.sha512_full_not_complete Sha512Full.word_eq Sha512Full.padded_leNat | Accepted when the witness columns 0, 2, 4, 6 and the constant column are numbered 0, 2, 4, 6 and 0; rejected for all limbs when the constants are in another column and column 0 is empty.
C126 | partial | Sha512Full.sha512_full_any_output | Refuted: for all limbs and every eight field elements there is an accepted table with these outputs.
C127 | partial | Sha512Full.sha512_pack_sound_partial Sha512Full.eqns_nat Sha512Full.honest_ranges | Proved under the hypotheses that the chunks are in range and that the cell of the padding bit holds one; the component enforces neither.
C128 | partial | Sha512Full.sha512_not_padding | Refuted unless the four lowest bits of word 19 are 1000: no message has this padding.
C129 | partial | Cip.cip_sound_partial Cip.cip_sound_zero Cip.cip_complete Cip.sound_cells | Completeness for all k (columns 0..14). Soundness when 5 divides k, or when xi = 0; sound_cells says what holds for every k.
C130 | partial | Cip.cip_accepts_iff Cip.cip_refuted | Exact: an output is provable iff it is the sum, or k is no multiple of 5 and xi is not 0 - then every output is provable.
C131 | proved | R1cs.Knapsack.knapsack_hash_stateless R1cs.Knapsack.knapsack_hash_deterministic R1cs.Knapsack.cacheAfter_good R1cs.Knapsack.knapsack_trailing_zero | knapsack_trailing_zero: with dimension 1 inputs of different length collide.
C132 | proved | R1cs.Knapsack.knapsack_field_iff R1cs.Knapsack.knapsack_field_complete | 
C133 | partial | R1cs.Knapsack.knapsack_bit_iff R1cs.Knapsack.knapsack_bit_sound_partial R1cs.Knapsack.knapsack_bit_refuted R1cs.Knapsack.knapsack_bit_complete | Completeness proved. Soundness holds for parts of fewer bits than the modulus; with the number of bits of the code a second digest is accepted when hash + p fits.
C134 | proved | R1cs.Merkle.Update.update_sound_small_chunks R1cs.Merkle.Update.update_sound_partial R1cs.Merkle.Update.nodes_sound R1cs.Merkle.Update.aux_iff | With the chunk size of the code, one bit less than the modulus, chunks fit in the field.
C135 | partial | R1cs.Merkle.Update.update_incomplete R1cs.Merkle.Update.update_siblings_kept | Refuted: siblings of the next path are not copied, so the constraints fail unless the caller has filled them in. That they hold if it has is shown on an example only.
C136 | proved | Kimchi.zkW3_sound Kimchi.zkW3_complete Kimchi.zkpm_sound Kimchi.zkpm_complete Kimchi.zkpm_zero_iff Kimchi.vanishes4_sound Kimchi.vanishes4_complete | Domain sizes from 3 (4) to 2^64; below that the size_t subtraction wraps around.
C137 | proved | Kimchi.lagrangeBasis_sound Kimchi.lagrangeBasis_complete Kimchi.lagrangeBasis_incomplete | Completeness fails for one point only, and is shown to.
C138 | proved | Kimchi.bPoly_sound Kimchi.bPoly_complete Kimchi.bPolyCoeffs_sound Kimchi.bPolyCoeffs_complete Kimchi.bPoly_coeffs_agree Kimchi.prevChalEvals_sound Kimchi.prevChalEvals_complete Kimchi.prevChalEval1_sound | The powers of the points for the chunks are given to prev_chal_evals and are assumed right.
C139 | proved | Kimchi.lagrangeDenominators_sound Kimchi.lagrangeDenominators_complete Kimchi.publicEvaluations_sound Kimchi.publicEvaluations_complete Kimchi.publicEvaluations_interpolate Kimchi.elementPowers_sound Kimchi.elementPowers_complete | 
C140 | proved | Kimchi.permScalars_sound Kimchi.permScalars_complete Kimchi.genericScalars_sound Kimchi.genericScalars_complete Kimchi.combineEvals_sound Kimchi.combineEvals_complete | 
C141 | proved | Kimchi.zkW3_rows Kimchi.zkpm_rows Kimchi.vanishes4_rows Kimchi.lagrangeBasis_rows Kimchi.bPoly_rows Kimchi.permScalars_rows Kimchi.lagrangeDenominators_rows Kimchi.publicEvaluations_rows Kimchi.elementPowers_rows Kimchi.genericScalars_rows Kimchi.combineEvals_rows Kimchi.bPolyCoeffs_rows Kimchi.prevChalEvals_rows | b_poly with at least one round, prev_chal_evals with max_poly_size below 2^n.
C142 | proved | Kimchi.toks_run Kimchi.varFromEvals_colNum Kimchi.rpn_sound Kimchi.rpn_complete Kimchi.rpn_rows | Ex is the expression language of kimchi with caching, Ex.toks its translation. A load of something that was not stored is undefined behaviour in the code; the theorem says nothing for such expressions (eval is none). The parser of the token string is modelled only for the column numbers.
C143 | partial | Kimchi.ft_value Kimchi.ft_wrong Kimchi.ft_sound_partial Kimchi.ft_complete Kimchi.ft_rows | False with a public input: the evaluation is subtracted in a new variable of the inner block, which is then dropped. ft_wrong: wrong in every table where the evaluation is not 0. Without public input it is right.
C144 | partial | OraclesCip.oracles_cip_sound_partial OraclesCip.oracles_cip_accepts OraclesCip.oracles_cip_complete_partial OraclesCip.oracles_cip_ignores OraclesCip.oracles_cip_wrong | Holds with one chunk and both selector gates, and number of entries divisible by 5 (C130 otherwise). With more chunks only the last one is used.
C145 | proved | toLimbs_sound toLimbs_complete ToLimbs.exists_table limbs_low128 | The constant column of the range checks must be column 0, as in C17.
C146 | proved | fromLimbs_sound fromLimbs_complete fromLimbs_bits | The component does not check that the limbs have 64 bits, and does not claim to.
C147 | partial | compare_any_output compare_one_always compare_zero_wrong compare_sound_partial compare_honest | False: the copy constraints are in a private function that nobody calls, so the output is free (compare_any_output); with them the prover may still always choose 1 (compare_one_always); the honest output for 0 is 0 (compare_zero_wrong). True: with the copies the output is a bit and 0 is right except for input 0; the honest output is right except for input 0.
C148 | partial | digest_value digest_any digest_large_wrong digest_sound_partial digest_honest | False: every field element is accepted as the digest of an element other than 0. The honest digest is right; with the copy constraints elements below the modulus have the right digest. The squeezing itself is not part of this model.
C149 | proved | KimchiSponge.sponge_sound KimchiSponge.reinit_stale | Rounds with at least one element in and one out; other orders are C150. reinit_stale: calling init on a used object leaves the counter, so the next element goes to the second place; no caller does so.
C150 | proved | KimchiSponge.transcript_sound KimchiSponge.transcript_complete KimchiSponge.absorb_evaluations_rows | The digest of transcript_fq is C148.
C151 | proved | KimchiSponge.random_sound KimchiSponge.random_complete | 
C152 | partial | KimchiGroup.toGroup_sound_partial KimchiGroup.cand_square KimchiGroup.cand_exists KimchiGroup.toGroup_complete KimchiGroup.toGroup_honest_partial KimchiGroup.pallas_valid KimchiGroup.vesta_valid KimchiGroup.toGroup_forged KimchiGroup.toGroup_any KimchiGroup.toGroup_honest_three KimchiGroup.toGroup_zero_off_curve KimchiGroup.pallas_zero_off_curve KimchiGroup.vesta_zero_off_curve KimchiGroup.toGroup_result_free | Proved: the three x are the candidates of the map, at least one is on the curve, the constants are right, the honest result is right when exactly one candidate is on the curve. False: the claim for all tables (y is free: any result (x3, v), or (0,0)); the honest result when all candidates are on the curve (t = 0 on both curves); the variables named by result_type for a start row of 65 or more.
C153 | proved | KimchiPrep.prepare_sound KimchiPrep.prepare_complete | 
C154 | partial | KimchiPrep.map_not_binding KimchiPrep.map_accepts_partial | The claim is false: generate_circuit adds no constraint. Only the acceptance of equal data is left.
C155 | partial | KimchiPrep.table_pairs_partial KimchiPrep.table_out_of_bounds | Right with one part and no runtime table; otherwise the loop runs past the end of joint_combiner.
C156 | partial | R1cs.Routing.benes_sound_partial R1cs.Routing.Benes.complete R1cs.Routing.benes_forged | Holds if all input packets are different. False otherwise: with equal packets one output may be anything, with one subpacket and with several (one switch bit for each packet, not for each switch).
C157 | partial | R1cs.Routing.Asw.sound_many R1cs.Routing.Asw.sound_partial R1cs.Routing.Asw.heads_cover R1cs.Routing.Asw.two_forged | Holds with several subpackets (one bit for each switch), also for equal packets; with one subpacket if all packets are different; false with one subpacket and equal packets.
C158 | partial | KimchiPrep.inversion_wrong KimchiPrep.inversion_iff_partial KimchiPrep.inverse_right | The claim is false: the component is a copy of prepare_scalars. It is wrong for every scalar in one case and right for a single scalar in the other.
C159 | proved | R1cs.Weier.wellFormed_iff R1cs.Weier.wellFormed_complete R1cs.Weier.add_sound R1cs.Weier.add_rejects R1cs.Weier.add_complete R1cs.Weier.dbl_sound R1cs.Weier.dbl_rejects R1cs.Weier.dbl_complete | Group of the curve as in Mathlib.
C160 | proved | R1cs.Weier.Mul.sound R1cs.Weier.Mul.rejects R1cs.Weier.Mul.complete | The bits are the caller's duty (the component has no booleanity constraint). rejects: if the start is the first point or its opposite, nothing is accepted, even if the bit is 0, as every round adds.
C161 | proved | R1cs.Ext.frob4_pow R1cs.Ext.frob6_pow R1cs.Ext.finalExp4_sound R1cs.Ext.finalExp6_sound | In Fq[X]/(X^n - beta), beta a non-residue in the sense that the n-th root of unity beta^((q-1)/n) is primitive. Completeness not proved (the assignment of the exponentiation component is not modelled).
C162 | partial | R1cs.Ext.finalExp_flag_partial R1cs.Ext.finalExp4_flag_forged | Only one direction is constrained: the flag is a bit and 1 only if the result is 1; it may be 0 if the result is 1.
C163 | partial | R1cs.Ext.precComp_partial R1cs.Ext.addStep_forged R1cs.Ext.loopSteps_naf R1cs.Ext.mD4' | For points no multiple of which (before an addition step) equals the summand; otherwise the slope is free (addStep_forged). Points of large prime order meet the condition.
C164 | partial | R1cs.Ext.millerComp_partial R1cs.Ext.miller4_partial R1cs.Ext.miller6_forged | Under the condition of C163. Over Fp4 without further hypotheses; over Fp6 the multiplication of the code is not sound (C120) and the result can be forged. P and Q variables, one Miller loop (not the products of Miller loops).
C165 | partial | R1cs.Ext.g2WellFormed_sound R1cs.Ext.g2WellFormed_twist_partial R1cs.Ext.g2WellFormed_rejects | True with the coefficients of the twist. The code uses those of G1.
C166 | partial | R1cs.Ext.prodComp_partial R1cs.Ext.checkP_equal | Under the condition of C163 for every pair, for sound components of the tower (Fp4 over Fp2; over Fp6 see C120 and C164).
C167 | partial | R1cs.Ext.checkE4_partial R1cs.Ext.check_e_equals_e_partial R1cs.Ext.check_e_equals_ee_partial R1cs.Ext.checkP_equal R1cs.Ext.checkE4_flag_forged | Output 1 implies the equation (embedding degree 4, condition of C163). Output 0 does not imply that it is false: checkE4_flag_forged.
C168 | proved | SetCommitment.isIn_iff SetCommitment.proof_valid SetCommitment.address_stable SetCommitment.binding SetCommitment.capacity_unchecked | capacity_unchecked: past the announced number of entries, which nothing checks, the proof of a member does not lead to the commitment.
C169 | partial | R1cs.SetMembership.Member.member_sound R1cs.SetMembership.Member.member_of_set R1cs.SetMembership.Member.member_complete R1cs.SetMembership.Member.set_complete R1cs.SetMembership.Member.depth_zero_ignores_flag | For chunks that fit in the field (otherwise see C93). For depth 0 check_successful is ignored: depth_zero_ignores_flag.
C170 | partial | EdFixed.fixed_sound_partial EdFixed.fixed_complete_partial EdFixed.any_points EdFixed.fixed_forged EdFixed.circuit_result_wrong | False as stated: no constraint ties the twelve points to the chunks of k, and every point of the curve is accepted as the multiple of every scalar (fixed_forged). What holds: the output is the sum of the twelve points, k B if they are the right ones; the honest table is accepted when the last subtractions can be assigned (AddLow, C70). The cells returned by generate_circuit do not hold the result (circuit_result_wrong).
C171 | partial | EdFixed.verify_forged EdFixed.forged_signature | False as stated: whatever s below the order is, the rows of the multiplication of the base point can be chosen so that the circuit accepts (verify_forged); forged_signature is such a table for a fixed key and every s. Range of s, points, SHA-512 and reduction are a parameter here; they have their own claims.
C172 | partial | EndoMul.honest_rejected EndoMul.endo_forged EndoMul.endo_forged_any EndoMul.free_base EndoMul.endo_sound_partial EndoMul.endo_complete_partial EndoMul.honest_cells | False as stated, three times: the assigned table is never accepted, since the counter of bits starts at 0 in the assignment and is tied to the cell with endo in the circuit (honest_rejected); every scalar is accepted with the output 2(T + phi T) (endo_forged_any); the base of the steps is not tied to the input (free_base). What holds: if the base is the input, no step keeps the abscissa and no step is exceptional, the output is right and b is endo 2^128 plus the bits; for such b a table with the right output is accepted.
C173 | partial | EdPoint.point_sound EdPoint.point_complete_partial EdPoint.point_without_constants EdPoint.point_forged | Soundness for every accepted table that holds the constants and has its chunks within their widths (no lookup checks these, see C49); the assigned table is accepted exactly for points of the curve, on the first columns. The constants are written by generate_assignments and not by generate_circuit: with zeros in their place every (x, 0) is accepted (point_without_constants, point_forged).
C174 | proved | ShaTables.table4 ShaTables.table7 ShaTables.table4_lookup ShaTables.table7_lookup ShaTables.finishes | Invariant over all interleavings; a pass of the loop is one step (its insertions are under the lock). The sets are the same when the number of threads does not divide 2^32 and words are left out. The memo of powers shared by the threads and the printed file are not modelled.
C175 | partial | ZkevmOpcodes.searches_inverse ZkevmOpcodes.bytes_evm ZkevmOpcodes.names_evm ZkevmOpcodes.families ZkevmOpcodes.selectable ZkevmOpcodes.unselectable ZkevmOpcodes.unconstrained ZkevmOpcodes.stray_byte | The map is a bijection onto the bytes of the EVM. The claim about rows is false: the selector has 149 options (the number of opcodes) numbered by bytes, so the 26 opcodes from SWAP6 on cannot be selected (unselectable), and bytes that are no opcode can (stray_byte); rows of opcodes without an operation are not constrained (unconstrained).
C176 | partial | ZkevmStack.assign_evm ZkevmStack.div_rest ZkevmStack.assign_none ZkevmStack.swap_dup ZkevmStack.run_same ZkevmStack.stack_not_evm ZkevmStack.second_operand | Single opcodes are right for every stack. The claim about sequences is false: each operation pushes its operands back and the result never reaches the stack (run_same, stack_not_evm); after ADD, ISZERO is given the first summand (second_operand).
