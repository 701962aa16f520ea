# Axioms of each theorem

Generated by `tools/axioms.py` from `#print axioms`. Only Lean's own axioms occur.

* 402 theorems: propext, Classical.choice, Quot.sound
* 84 theorems: propext, Quot.sound
* 37 theorems: propext
* 2 theorems: none

| property | theorem | axioms |
|---|---|---|
| C01 | `Reparsec.C01_recovery_keeps_success` | propext, Quot.sound |
| C02 | `Reparsec.C02_no_false_success` | propext, Quot.sound |
| C03 | `Reparsec.C03_failure_carries_over` | propext, Quot.sound |
| C03 | `Reparsec.C03_exception_carries_over` | propext, Quot.sound |
| C03 | `Reparsec.C03_divergence_carries_over` | propext, Quot.sound |
| C04 | `Reparsec.C04_errors_describe_something` | propext, Classical.choice, Quot.sound |
| C05 | `Reparsec.C05_plain` | propext, Classical.choice, Quot.sound |
| C05 | `Reparsec.C05_success` | propext, Classical.choice, Quot.sound |
| C05 | `Reparsec.C05_repairs` | propext, Classical.choice, Quot.sound |
| C05 | `Reparsec.C05_parse` | propext, Classical.choice, Quot.sound |
| C06 | `Reparsec.C06_plain` | propext, Classical.choice, Quot.sound |
| C06 | `Reparsec.C06_recovering` | propext, Classical.choice, Quot.sound |
| C07 | `Reparsec.C07_first_success` | propext, Quot.sound |
| C07 | `Reparsec.C07_first_committed` | propext, Quot.sound |
| C07 | `Reparsec.C07_first_raises` | propext, Quot.sound |
| C07 | `Reparsec.C07_first_hangs` | propext, Quot.sound |
| C07 | `Reparsec.C07_second` | propext, Classical.choice, Quot.sound |
| C07 | `Reparsec.C07_recovering_first` | propext |
| C07 | `Reparsec.C07_recovering_second` | propext, Quot.sound |
| C08 | `Reparsec.C08_success` | propext |
| C08 | `Reparsec.C08_failure` | propext |
| C08 | `Reparsec.C08_raises` | propext |
| C08 | `Reparsec.C08_hangs` | propext |
| C08 | `Reparsec.C08_backtracks` | propext, Classical.choice, Quot.sound |
| C08 | `Reparsec.C08_maybe_never_fails` | propext, Quot.sound |
| C08 | `Reparsec.C08_recovering` | propext |
| C08 | `Reparsec.C08_trying` | propext, Quot.sound |
| C09 | `Reparsec.C09_maybe` | propext, Quot.sound |
| C10 | `Reparsec.C10_many` | propext, Classical.choice, Quot.sound |
| C10 | `Reparsec.C10_success_iff` | propext, Classical.choice, Quot.sound |
| C10 | `Reparsec.C10_failure_iff` | propext, Classical.choice, Quot.sound |
| C10 | `Reparsec.C10_hangs_iff` | propext, Classical.choice, Quot.sound |
| C11 | `Reparsec.C11_raises_iff` | propext, Classical.choice, Quot.sound |
| C11 | `Reparsec.C11_recovering` | propext, Classical.choice, Quot.sound |
| C11 | `Reparsec.C11_after_repair` | propext, Quot.sound |
| C12 | `Reparsec.C12_empty_iff` | propext, Classical.choice, Quot.sound |
| C12 | `Reparsec.C12_items_iff` | propext, Classical.choice, Quot.sound |
| C12 | `Reparsec.C12_dangling` | propext, Classical.choice, Quot.sound |
| C13 | `Reparsec.C13_same` | propext, Quot.sound |
| C13 | `Reparsec.C13_chainl1_iff` | propext, Classical.choice, Quot.sound |
| C13 | `Reparsec.C13_raises` | propext, Classical.choice, Quot.sound |
| C14 | `Reparsec.C14_same` | propext, Quot.sound |
| C14 | `Reparsec.C14_chainr1_iff` | propext, Classical.choice, Quot.sound |
| C14 | `Reparsec.C14_raises` | propext, Classical.choice, Quot.sound |
| C15 | `Reparsec.C15_first_fails` | propext |
| C15 | `Reparsec.C15_first_raises` | propext |
| C15 | `Reparsec.C15_first_hangs` | propext |
| C15 | `Reparsec.C15_second` | propext, Classical.choice, Quot.sound |
| C15 | `Reparsec.C15_success_iff` | propext, Classical.choice, Quot.sound |
| C15 | `Reparsec.C15_failure_iff` | propext, Classical.choice, Quot.sound |
| C15 | `Reparsec.C15_seq` | propext, Classical.choice, Quot.sound |
| C15 | `Reparsec.C15_seql` | propext, Classical.choice, Quot.sound |
| C15 | `Reparsec.C15_seqr` | propext, Classical.choice, Quot.sound |
| C15 | `Reparsec.C15_between` | propext, Classical.choice, Quot.sound |
| C15 | `Reparsec.C15_then` | propext, Classical.choice, Quot.sound |
| C16 | `Reparsec.C16_seq` | propext, Quot.sound |
| C16 | `Reparsec.C16_seql` | propext, Quot.sound |
| C16 | `Reparsec.C16_seqr` | propext, Quot.sound |
| C16 | `Reparsec.C16_then` | propext, Quot.sound |
| C17 | `Reparsec.C17_fmap_id` | propext, Quot.sound |
| C17 | `Reparsec.C17_fmap_comp` | propext, Quot.sound |
| C18 | `Reparsec.C18_left_identity` | propext, Quot.sound |
| C18 | `Reparsec.C18_right_identity` | propext, Quot.sound |
| C18 | `Reparsec.C18_associativity` | propext, Classical.choice, Quot.sound |
| C19 | `Reparsec.C19_alt_assoc` | propext, Classical.choice, Quot.sound |
| C20 | `Reparsec.C20_plain` | propext, Classical.choice, Quot.sound |
| C20 | `Reparsec.C20_recovering` | propext, Quot.sound |
| C20 | `Reparsec.C20_label_label` | propext, Quot.sound |
| C21 | `Reparsec.C21_behaves_as_definition` | propext, Classical.choice, Quot.sound |
| C21 | `Reparsec.C21_undefined_raises` | propext |
| C21 | `Reparsec.C21_history` | propext, Classical.choice, Quot.sound |
| C21 | `Reparsec.C21_history_parse` | propext, Classical.choice, Quot.sound |
| C21 | `Reparsec.C21_second_define` | propext, Classical.choice, Quot.sound |
| C21 | `Reparsec.C21_defines_one` | propext, Classical.choice, Quot.sound |
| C21 | `Reparsec.C21_define_itself` | propext, Classical.choice, Quot.sound |
| C22 | `Reparsec.C22_terminates` | propext, Classical.choice, Quot.sound |
| C23 | `Reparsec.C23_terminates` | propext, Classical.choice, Quot.sound |
| C23 | `Reparsec.C23_no_left_recursion` | propext, Classical.choice, Quot.sound |
| C23 | `Reparsec.C23_left_recursion_hangs` | propext |
| C23 | `Reparsec.C23_negative_budget_hangs` | propext, Quot.sound |
| C24 | `Reparsec.C24_accepted` | propext, Classical.choice, Quot.sound |
| C24 | `Reparsec.C24_accepted_whole` | propext, Classical.choice, Quot.sound |
| C24 | `Reparsec.C24_accepted_text` | propext, Classical.choice, Quot.sound |
| C25 | `Reparsec.C25_candidates` | propext, Classical.choice, Quot.sound |
| C25 | `Reparsec.C25_candidates_default` | propext, Classical.choice, Quot.sound |
| C25 | `Reparsec.C25_candidates_text` | propext, Classical.choice, Quot.sound |
| C25 | `Reparsec.C25_reported` | propext, Classical.choice, Quot.sound |
| C25 | `Reparsec.C25_reported_text` | propext, Classical.choice, Quot.sound |
| C26 | `Reparsec.C26_cost` | propext, Classical.choice, Quot.sound |
| C27 | `Reparsec.C27_candidates` | propext, Classical.choice, Quot.sound |
| C27 | `Reparsec.C27_default` | propext, Classical.choice, Quot.sound |
| C27 | `Reparsec.C27_text` | propext, Classical.choice, Quot.sound |
| C27 | `Reparsec.C27_zero` | propext, Classical.choice, Quot.sound |
| C28 | `Reparsec.C28_not_cheapest_of_all` | propext, Classical.choice, Quot.sound |
| C28 | `Reparsec.C28_reported` | propext, Classical.choice, Quot.sound |
| C28 | `Reparsec.C28_reported_by_operations` | propext, Classical.choice, Quot.sound |
| C28 | `Reparsec.C28_repeated_mistake` | propext, Classical.choice, Quot.sound |
| C28 | `Reparsec.C28_unwrap_uses_best` | propext, Quot.sound |
| C28 | `Reparsec.C28_minimal` | propext, Classical.choice, Quot.sound |
| C28 | `Reparsec.C28_choice_unique` | propext, Quot.sound |
| C29 | `Reparsec.C29_choice_repairs` | propext, Classical.choice, Quot.sound |
| C29 | `Reparsec.C29_prio_is_automatic` | propext, Classical.choice, Quot.sound |
| C29 | `Reparsec.C29_automatic_inserts` | propext, Classical.choice, Quot.sound |
| C29 | `Reparsec.C29_automatic_iff_inserts` | propext, Classical.choice, Quot.sound |
| C29 | `Reparsec.C29_recover_asks` | propext, Classical.choice, Quot.sound |
| C29 | `Reparsec.C29_user_insertions` | propext, Classical.choice, Quot.sound |
| C29 | `Reparsec.C29_choice_by_operations` | propext, Classical.choice, Quot.sound |
| C29 | `Reparsec.C29_choice_recover` | propext, Classical.choice, Quot.sound |
| C30 | `Reparsec.C30_recover_with_fn` | propext, Quot.sound |
| C30 | `Reparsec.C30_recover_with` | propext, Quot.sound |
| C30 | `Reparsec.C30_callback_raises` | propext, Quot.sound |
| C30 | `Reparsec.C30_trying` | propext |
| C30 | `Reparsec.C30_otherwise_fn` | propext, Quot.sound |
| C30 | `Reparsec.C30_otherwise` | propext, Quot.sound |
| C30 | `Reparsec.C30_raises` | propext, Quot.sound |
| C31 | `Reparsec.C31_match` | propext, Classical.choice, Quot.sound |
| C31 | `Reparsec.C31_no_match` | propext, Classical.choice, Quot.sound |
| C31 | `Reparsec.C31_raises` | propext, Classical.choice, Quot.sound |
| C31 | `Reparsec.C31_skip` | propext, Classical.choice, Quot.sound |
| C31 | `Reparsec.C31_insert_only` | propext, Classical.choice, Quot.sound |
| C31 | `Reparsec.C31_no_repair` | propext, Classical.choice, Quot.sound |
| C31 | `Reparsec.C31_skip_raises` | propext, Classical.choice, Quot.sound |
| C32 | `Reparsec.C32_success_iff` | propext |
| C32 | `Reparsec.C32_failure` | propext |
| C32 | `Reparsec.C32_repair` | propext |
| C33 | `Reparsec.C33_default` | propext, Classical.choice, Quot.sound |
| C33 | `Reparsec.C33_bounds` | propext, Classical.choice, Quot.sound |
| C34 | `Reparsec.C34_exact` | propext, Classical.choice, Quot.sound |
| C34 | `Reparsec.C34_bounds` | propext, Classical.choice, Quot.sound |
| C34 | `Reparsec.C34_scannerless_parse` | propext, Classical.choice, Quot.sound |
| C34 | `Reparsec.C34_display` | propext, Classical.choice, Quot.sound |
| C35 | `Reparsec.C35_source_locations` | propext, Classical.choice, Quot.sound |
| C35 | `Reparsec.C35_token_locations` | propext, Classical.choice, Quot.sound |
| C36 | `Reparsec.C36_exact` | propext, Classical.choice, Quot.sound |
| C36 | `Reparsec.C36_layout_partial` | propext, Classical.choice, Quot.sound |
| C36 | `Reparsec.C36_accepted_partial` | propext, Classical.choice, Quot.sound |
| C36 | `Reparsec.C36_all_tokens_partial` | propext, Classical.choice, Quot.sound |
| C36 | `Reparsec.C36_all_accepted_partial` | propext, Classical.choice, Quot.sound |
| C36 | `Reparsec.C36_right_partial` | propext |
| C36 | `Reparsec.C36_false_accept` | propext, Classical.choice, Quot.sound |
| C36 | `Reparsec.C36_false_reject` | propext, Classical.choice, Quot.sound |
| C37 | `Reparsec.C37_returns_iff` | propext, Classical.choice, Quot.sound |
| C37 | `Reparsec.C37_raises_iff` | propext, Classical.choice, Quot.sound |
| C37 | `Reparsec.C37_spans` | propext, Classical.choice, Quot.sound |
| C38 | `Reparsec.C38_hangs_iff` | propext, Classical.choice, Quot.sound |
| C38 | `Reparsec.C38_terminates` | propext, Quot.sound |
| C39 | `Reparsec.C39_plain` | propext, Classical.choice, Quot.sound |
| C39 | `Reparsec.C39_success` | propext, Classical.choice, Quot.sound |
| C39 | `Reparsec.C39_repairs` | propext, Classical.choice, Quot.sound |
| C40 | `Reparsec.C40_start` | propext, Quot.sound |
| C40 | `Reparsec.C40_next` | propext, Classical.choice, Quot.sound |
| C40 | `Reparsec.C40_next_repair` | propext, Classical.choice, Quot.sound |
| C40 | `Reparsec.C40_block` | propext, Classical.choice, Quot.sound |
| C40 | `Reparsec.C40_block_recovering` | propext, Classical.choice, Quot.sound |
| C40 | `Reparsec.C40_aligned` | propext, Classical.choice, Quot.sound |
| C40 | `Reparsec.C40_aligned_recovering` | propext, Classical.choice, Quot.sound |
| C40 | `Reparsec.C40_not_aligned` | propext, Classical.choice, Quot.sound |
| C40 | `Reparsec.C40_indented` | propext, Classical.choice, Quot.sound |
| C40 | `Reparsec.C40_indented_recovering` | propext, Classical.choice, Quot.sound |
| C40 | `Reparsec.C40_not_indented` | propext, Classical.choice, Quot.sound |
| C41 | `Reparsec.C41_default` | propext, Classical.choice, Quot.sound |
| C41 | `Reparsec.C41_text` | propext, Classical.choice, Quot.sound |
| C41 | `Reparsec.C41_meaning` | propext, Classical.choice, Quot.sound |
| C41 | `Reparsec.C41_tokens` | propext, Classical.choice, Quot.sound |
| C42 | `Reparsec.C42_default` | propext, Classical.choice, Quot.sound |
| C42 | `Reparsec.C42_text` | propext, Classical.choice, Quot.sound |
| C42 | `Reparsec.C42_tokens` | propext, Classical.choice, Quot.sound |
| C42 | `Reparsec.C42_exceptions` | propext, Classical.choice, Quot.sound |
| C42 | `Reparsec.C42_needs_no_attempt` | propext, Classical.choice, Quot.sound |
| C42 | `Reparsec.C42_needs_no_nesting` | propext, Classical.choice, Quot.sound |
| C42 | `Reparsec.C42_needs_no_insert` | propext, Classical.choice, Quot.sound |
| C43 | `Reparsec.C43_message` | propext, Quot.sound |
| C43 | `Reparsec.C43_message_iff` | propext, Quot.sound |
| C43 | `Reparsec.C43_str` | propext |
| C44 | `Reparsec.C44_fmap_unwrap` | propext |
| C44 | `Reparsec.C44_fmap_returns` | propext, Quot.sound |
| C44 | `Reparsec.C44_fmap_raises_iff` | propext, Quot.sound |
| C44 | `Reparsec.C44_fmap_ends` | propext |
| C45 | `Reparsec.C45_same_result` | propext, Classical.choice, Quot.sound |
| C45 | `Reparsec.C45_old_results_unchanged` | propext, Classical.choice, Quot.sound |
| C45 | `Reparsec.C45_result_not_shared` | propext, Classical.choice, Quot.sound |
| C45 | `Reparsec.C45_session` | propext, Classical.choice, Quot.sound |
| C46 | `Reparsec.C46_candidates` | propext, Classical.choice, Quot.sound |
| C46 | `Reparsec.C46_reported` | propext, Classical.choice, Quot.sound |
| C46 | `Reparsec.C46_reported_text` | propext, Classical.choice, Quot.sound |
| C46 | `Reparsec.C46_reported_tokens` | propext, Classical.choice, Quot.sound |
| C47 | `Reparsec.C47_empty` | none |
| C47 | `Reparsec.C47_literal` | propext, Quot.sound |
| C48 | `Reparsec.C48_accumulate` | propext, Classical.choice, Quot.sound |
| C48 | `Reparsec.C48_replaced` | propext, Classical.choice, Quot.sound |
| C49 | `Reparsec.C49_default` | propext, Classical.choice, Quot.sound |
| C49 | `Reparsec.C49_default_sharp` | propext, Classical.choice, Quot.sound |
| C49 | `Reparsec.C49_text` | propext, Classical.choice, Quot.sound |
| C49 | `Reparsec.C49_text_sharp` | propext, Classical.choice, Quot.sound |
| C49 | `Reparsec.C49_tokens` | propext, Classical.choice, Quot.sound |
| C49 | `Reparsec.C49_exception_needed` | propext, Classical.choice, Quot.sound |
| C50 | `Reparsec.C50_recover_plain` | propext |
| C50 | `Reparsec.C50_recover_with_plain` | propext |
| C50 | `Reparsec.C50_recover_with_fn_plain` | propext |
| C50 | `Reparsec.C50_recover` | propext, Classical.choice, Quot.sound |
| C50 | `Reparsec.C50_recover_recover` | propext, Quot.sound |
| C50 | `Reparsec.C50_second_alternative` | propext, Classical.choice, Quot.sound |
| C51 | `Reparsec.C51_default` | propext, Classical.choice, Quot.sound |
| C51 | `Reparsec.C51_somewhere` | propext, Classical.choice, Quot.sound |
| C51 | `Reparsec.C51_exact` | propext, Classical.choice, Quot.sound |
| C51 | `Reparsec.C51_text` | propext, Classical.choice, Quot.sound |
| C51 | `Reparsec.C51_tokens` | propext, Classical.choice, Quot.sound |
| C52 | `Reparsec.C52_left` | propext, Classical.choice, Quot.sound |
| C52 | `Reparsec.C52_left_text` | propext, Classical.choice, Quot.sound |
| C52 | `Reparsec.C52_insertion_offered` | propext, Classical.choice, Quot.sound |
| C53 | `Reparsec.C53_first_fails` | propext, Classical.choice, Quot.sound |
| C53 | `Reparsec.C53_first_raises` | propext |
| C53 | `Reparsec.C53_first_hangs` | propext |
| C53 | `Reparsec.C53_first_succeeds` | propext, Classical.choice, Quot.sound |
| C53 | `Reparsec.C53_first_repaired` | propext, Classical.choice, Quot.sound |
| C53 | `Reparsec.C53_bind_repaired` | propext, Classical.choice, Quot.sound |
| C53 | `Reparsec.C53_candidates` | propext, Classical.choice, Quot.sound |
| C53 | `Reparsec.C53_totals` | propext, Quot.sound |
| C53 | `Reparsec.C53_bind_succeeds` | propext, Classical.choice, Quot.sound |
| C53 | `Reparsec.C53_bind_fails` | propext, Classical.choice, Quot.sound |
| C53 | `Reparsec.C53_bind_raises` | propext, Quot.sound |
| C53 | `Reparsec.C53_bind_hangs` | propext, Quot.sound |
| C54 | `Reparsec.C54_many` | propext, Classical.choice, Quot.sound |
| C54 | `Reparsec.C54_exhaustive` | propext, Classical.choice, Quot.sound |
| C54 | `Reparsec.C54_only_begun` | propext, Classical.choice, Quot.sound |
| C55 | `Reparsec.C55_complete` | propext, Classical.choice, Quot.sound |
| C55 | `Reparsec.C55_complete_default` | propext, Classical.choice, Quot.sound |
| C55 | `Reparsec.C55_complete_text` | propext, Classical.choice, Quot.sound |
| C55 | `Reparsec.C55_exact` | propext, Classical.choice, Quot.sound |
| C55 | `Reparsec.C55_recovering` | propext, Classical.choice, Quot.sound |
| C55 | `Reparsec.C55_unambiguous` | propext, Classical.choice, Quot.sound |
| C55 | `Reparsec.C55_needs_ll1` | propext, Quot.sound |
| C56 | `Reparsec.C56_always_repaired` | propext, Classical.choice, Quot.sound |
| C56 | `Reparsec.C56_total` | propext, Classical.choice, Quot.sound |
| C56 | `Reparsec.C56_needs_budget` | propext, Classical.choice, Quot.sound |
| C56 | `Reparsec.C56_nesting_unbounded` | propext, Classical.choice, Quot.sound |
| C56 | `Reparsec.C56_nesting_not_fixable` | propext, Quot.sound |
| C56 | `Reparsec.C56_order_matters` | propext, Classical.choice, Quot.sound |
| C57 | `Reparsec.C57_token_reads` | propext, Classical.choice, Quot.sound |
| C57 | `Reparsec.C57_token_fails` | propext, Classical.choice, Quot.sound |
| C57 | `Reparsec.C57_token_ins_plain` | propext |
| C57 | `Reparsec.C57_token_there` | propext, Classical.choice, Quot.sound |
| C57 | `Reparsec.C57_skip` | propext, Classical.choice, Quot.sound |
| C57 | `Reparsec.C57_no_skip` | propext, Classical.choice, Quot.sound |
| C57 | `Reparsec.C57_kind` | propext, Quot.sound |
| C57 | `Reparsec.C57_sym_reads` | propext |
| C57 | `Reparsec.C57_sym_fails` | propext |
| C58 | `Reparsec.C58_default` | propext, Classical.choice, Quot.sound |
| C58 | `Reparsec.C58_default_hangs` | propext, Classical.choice, Quot.sound |
| C58 | `Reparsec.C58_any` | propext, Classical.choice, Quot.sound |
| C58 | `Reparsec.C58_functional` | propext, Classical.choice, Quot.sound |
| C58 | `Reparsec.C58_text` | propext, Classical.choice, Quot.sound |
| C58 | `Reparsec.C58_text_hangs` | propext, Classical.choice, Quot.sound |
| C58 | `Reparsec.C58_tokens` | propext, Classical.choice, Quot.sound |
| C58 | `Reparsec.C58_value` | propext, Classical.choice, Quot.sound |
| C58 | `Reparsec.C58_parse_error` | propext, Classical.choice, Quot.sound |
| C58 | `Reparsec.C58_recovering_value` | propext, Classical.choice, Quot.sound |
| C59 | `Reparsec.C59_candidates` | propext, Classical.choice, Quot.sound |
| C59 | `Reparsec.C59_reported` | propext, Classical.choice, Quot.sound |
| C59 | `Reparsec.C59_reported_whole` | propext, Classical.choice, Quot.sound |
| C59 | `Reparsec.C59_reported_text` | propext, Classical.choice, Quot.sound |
| C59 | `Reparsec.C59_reported_text_whole` | propext, Classical.choice, Quot.sound |
| C59 | `Reparsec.C59_reported_tokens` | propext, Classical.choice, Quot.sound |
| C59 | `Reparsec.C59_attempt_false` | propext, Classical.choice, Quot.sound |
| C59 | `Reparsec.C59_drop_false` | propext, Classical.choice, Quot.sound |
| C60 | `Reparsec.C60_default` | propext, Classical.choice, Quot.sound |
| C60 | `Reparsec.C60_default_hangs` | propext, Classical.choice, Quot.sound |
| C60 | `Reparsec.C60_any` | propext, Classical.choice, Quot.sound |
| C60 | `Reparsec.C60_functional` | propext, Classical.choice, Quot.sound |
| C60 | `Reparsec.C60_text` | propext, Classical.choice, Quot.sound |
| C60 | `Reparsec.C60_text_hangs` | propext, Classical.choice, Quot.sound |
| C60 | `Reparsec.C60_tokens` | propext, Classical.choice, Quot.sound |
| C60 | `Reparsec.C60_unwrap` | propext, Classical.choice, Quot.sound |
| C60 | `Reparsec.C60_unwrap_text` | propext, Classical.choice, Quot.sound |
| C60 | `Reparsec.C60_unwrap_tokens` | propext, Classical.choice, Quot.sound |
| C61 | `Reparsec.Eff.C61_accepted_same_effects` | propext, Quot.sound |
| C61 | `Reparsec.Eff.C61_no_error_same_effects` | propext, Quot.sound |
| C61 | `Reparsec.Eff.C61_exception_same_effects` | propext, Quot.sound |
| C61 | `Reparsec.Eff.C61_hangs` | propext, Quot.sound |
| C61 | `Reparsec.Eff.C61_failure_effects_first` | propext, Quot.sound |
| C62 | `Reparsec.Eff.C62_returns` | propext |
| C62 | `Reparsec.Eff.C62_raises` | propext |
| C62 | `Reparsec.Eff.C62_hangs` | propext |
| C62 | `Reparsec.Eff.C62_repeatable` | propext |
| C62 | `Reparsec.Eff.C62_instrumented` | propext |
| C62 | `Reparsec.Eff.C62_extends` | propext, Quot.sound |
| C63 | `Reparsec.Eff.C63_default` | propext, Classical.choice, Quot.sound |
| C63 | `Reparsec.Eff.C63_default_hangs` | propext, Classical.choice, Quot.sound |
| C63 | `Reparsec.Eff.C63_any` | propext, Classical.choice, Quot.sound |
| C63 | `Reparsec.Eff.C63_functional` | propext, Classical.choice, Quot.sound |
| C63 | `Reparsec.Eff.C63_text` | propext, Classical.choice, Quot.sound |
| C63 | `Reparsec.Eff.C63_text_hangs` | propext, Classical.choice, Quot.sound |
| C63 | `Reparsec.Eff.C63_tokens` | propext, Classical.choice, Quot.sound |
| C63 | `Reparsec.Eff.C63_fmap` | propext |
| C64 | `Reparsec.Eff.C64_terminates` | propext, Classical.choice, Quot.sound |
| C64 | `Reparsec.Eff.C64_linear` | propext, Classical.choice, Quot.sound |
| C64 | `Reparsec.Eff.C64_attempt_exponential` | propext, Classical.choice, Quot.sound |
| C65 | `Reparsec.Eff.C65_default` | propext, Classical.choice, Quot.sound |
| C65 | `Reparsec.Eff.C65_default_hangs` | propext, Classical.choice, Quot.sound |
| C65 | `Reparsec.Eff.C65_any` | propext, Classical.choice, Quot.sound |
| C65 | `Reparsec.Eff.C65_functional` | propext, Classical.choice, Quot.sound |
| C65 | `Reparsec.Eff.C65_text` | propext, Classical.choice, Quot.sound |
| C65 | `Reparsec.Eff.C65_text_hangs` | propext, Classical.choice, Quot.sound |
| C65 | `Reparsec.Eff.C65_tokens` | propext, Classical.choice, Quot.sound |
| C65 | `Reparsec.Eff.C65_unwrap` | propext, Classical.choice, Quot.sound |
| C65 | `Reparsec.Eff.C65_unwrap_text` | propext, Classical.choice, Quot.sound |
| C66 | `Reparsec.C66_threads` | propext, Classical.choice, Quot.sound |
| C66 | `Reparsec.C66_existing_unchanged` | propext, Classical.choice, Quot.sound |
| C66 | `Reparsec.C66_no_waiting` | propext, Classical.choice, Quot.sound |
| C66 | `Reparsec.C66_completes` | propext, Classical.choice, Quot.sound |
| C66 | `Reparsec.C66_stops` | propext, Classical.choice, Quot.sound |
| C66 | `Reparsec.C66_returns` | propext, Classical.choice, Quot.sound |
| C67 | `Reparsec.C67_ends` | propext, Classical.choice, Quot.sound |
| C67 | `Reparsec.C67_unique` | propext, Classical.choice, Quot.sound |
| C67 | `Reparsec.C67_same` | propext, Classical.choice, Quot.sound |
| C67 | `Reparsec.C67_more` | propext, Classical.choice, Quot.sound |
| C67 | `Reparsec.C67_enough` | propext, Classical.choice, Quot.sound |
| C67 | `Reparsec.C67_hangs` | propext, Classical.choice, Quot.sound |
| C67 | `Reparsec.C67_plain` | propext, Classical.choice, Quot.sound |
| C67 | `Reparsec.C67_linear` | propext, Classical.choice, Quot.sound |
| C67 | `Reparsec.C67_accepted` | propext, Classical.choice, Quot.sound |
| C67 | `Reparsec.C67_height` | propext, Quot.sound |
| C67 | `Reparsec.C67_errors_overflow` | propext, Classical.choice, Quot.sound |
| C67 | `Reparsec.C67_nesting_overflow` | propext, Quot.sound |
| C68 | `Reparsec.C68_race` | propext, Classical.choice, Quot.sound |
| C68 | `Reparsec.C68_one_outcome` | propext, Classical.choice, Quot.sound |
| C68 | `Reparsec.C68_exact` | propext, Classical.choice, Quot.sound |
| C68 | `Reparsec.C68_settled` | propext, Classical.choice, Quot.sound |
| C68 | `Reparsec.C68_interrupted` | propext, Classical.choice, Quot.sound |
| C68 | `Reparsec.C68_alone` | propext, Quot.sound |
| C68 | `Reparsec.C68_captured` | propext, Quot.sound |
| C68 | `Reparsec.C68_two_defines` | propext, Quot.sound |
| C69 | `Reparsec.C69_plain` | propext, Classical.choice, Quot.sound |
| C69 | `Reparsec.C69_recovering` | propext, Classical.choice, Quot.sound |
| C69 | `Reparsec.C69_text` | propext, Classical.choice, Quot.sound |
| C69 | `Reparsec.C69_library` | propext, Classical.choice, Quot.sound |
| C69 | `Reparsec.C69_only` | propext, Classical.choice, Quot.sound |
| C69 | `Reparsec.C69_never` | propext, Classical.choice, Quot.sound |
| C69 | `Reparsec.C69_total` | propext, Classical.choice, Quot.sound |
| C70 | `Reparsec.C70_exact` | propext, Classical.choice, Quot.sound |
| C70 | `Reparsec.C70_unambiguous` | propext, Classical.choice, Quot.sound |
| C70 | `Reparsec.C70_recovering` | propext, Classical.choice, Quot.sound |
| C70 | `Reparsec.C70_repaired` | propext, Classical.choice, Quot.sound |
| C70 | `Reparsec.C70_repaired_text` | propext, Classical.choice, Quot.sound |
| C70 | `Reparsec.C70_reparse` | propext, Classical.choice, Quot.sound |
| C70 | `Reparsec.C70_exceptions` | propext, Classical.choice, Quot.sound |
| C70 | `Reparsec.C70_total` | propext, Classical.choice, Quot.sound |
| C70 | `Reparsec.C70_leading_space` | propext |
| C70 | `Reparsec.C70_written` | propext, Classical.choice, Quot.sound |
| C70 | `Reparsec.C70_text` | propext, Classical.choice, Quot.sound |
| C70 | `Reparsec.C70_trees` | propext, Classical.choice, Quot.sound |
| C70 | `Reparsec.C70_texts_differ` | propext, Classical.choice, Quot.sound |
| C70 | `Reparsec.C70_same` | propext, Classical.choice, Quot.sound |
| C71 | `Reparsec.C71_longest_text` | propext, Classical.choice, Quot.sound |
| C71 | `Reparsec.C71_longest_tokens` | propext, Classical.choice, Quot.sound |
| C71 | `Reparsec.C71_local` | propext, Classical.choice, Quot.sound |
| C71 | `Reparsec.C71_local_success` | propext, Classical.choice, Quot.sound |
| C71 | `Reparsec.C71_no_word` | propext, Classical.choice, Quot.sound |
| C71 | `Reparsec.C71_viable` | propext, Classical.choice, Quot.sound |
| C71 | `Reparsec.C71_longest` | propext, Classical.choice, Quot.sound |
| C71 | `Reparsec.C71_text` | propext, Classical.choice, Quot.sound |
| C71 | `Reparsec.C71_viable_text` | propext, Classical.choice, Quot.sound |
| C71 | `Reparsec.C71_calculator` | propext, Classical.choice, Quot.sound |
| C71 | `Reparsec.C71_calculator_longest` | propext, Classical.choice, Quot.sound |
| C71 | `Reparsec.C71_attempt_false` | propext, Classical.choice, Quot.sound |
| C71 | `Reparsec.C71_literal_false` | propext, Classical.choice, Quot.sound |
| C72 | `Reparsec.C72_doubles` | propext, Classical.choice, Quot.sound |
| C72 | `Reparsec.C72_not_polynomial` | propext, Classical.choice, Quot.sound |
| C73 | `Reparsec.C73_flat` | propext, Classical.choice, Quot.sound |
| C73 | `Reparsec.C73_apply` | propext, Classical.choice, Quot.sound |
| C73 | `Reparsec.C73_nine` | propext, Classical.choice, Quot.sound |
| C73 | `Reparsec.C73_add` | propext, Classical.choice, Quot.sound |
| C73 | `Reparsec.C73_values` | propext, Classical.choice, Quot.sound |
| C74 | `Reparsec.C74_default` | propext, Classical.choice, Quot.sound |
| C74 | `Reparsec.C74_any` | propext, Classical.choice, Quot.sound |
| C74 | `Reparsec.C74_text` | propext, Classical.choice, Quot.sound |
| C74 | `Reparsec.C74_tokens` | propext, Classical.choice, Quot.sound |
| C74 | `Reparsec.C74_still_repaired` | propext, Quot.sound |
| C74 | `Reparsec.C74_unwrap` | propext, Classical.choice, Quot.sound |
| C74 | `Reparsec.C74_false` | propext, Classical.choice, Quot.sound |
| C75 | `Reparsec.C75_longest` | propext, Classical.choice, Quot.sound |
| C75 | `Reparsec.C75_exact` | propext, Classical.choice, Quot.sound |
| C75 | `Reparsec.C75_unambiguous` | propext, Classical.choice, Quot.sound |
| C75 | `Reparsec.C75_recovering` | propext, Classical.choice, Quot.sound |
| C75 | `Reparsec.C75_dict` | propext, Quot.sound |
| C75 | `Reparsec.C75_loads` | propext, Classical.choice, Quot.sound |
| C75 | `Reparsec.C75_repaired` | propext, Classical.choice, Quot.sound |
| C75 | `Reparsec.C75_reparse` | propext, Classical.choice, Quot.sound |
| C75 | `Reparsec.C75_exceptions` | propext, Classical.choice, Quot.sound |
| C75 | `Reparsec.C75_total` | propext, Classical.choice, Quot.sound |
| C76 | `Reparsec.C76_any` | propext, Classical.choice, Quot.sound |
| C76 | `Reparsec.C76_raises` | propext, Classical.choice, Quot.sound |
| C76 | `Reparsec.C76_hangs` | propext, Classical.choice, Quot.sound |
| C76 | `Reparsec.C76_unwrap` | propext, Classical.choice, Quot.sound |
| C76 | `Reparsec.C76_text` | propext, Classical.choice, Quot.sound |
| C76 | `Reparsec.C76_tokens` | propext, Classical.choice, Quot.sound |
| C76 | `Reparsec.C76_layout_false` | propext |
| C77 | `Reparsec.C77_exact` | propext, Classical.choice, Quot.sound |
| C77 | `Reparsec.C77_unambiguous` | propext, Classical.choice, Quot.sound |
| C77 | `Reparsec.C77_recovering` | propext, Classical.choice, Quot.sound |
| C77 | `Reparsec.C77_total` | propext, Classical.choice, Quot.sound |
| C77 | `Reparsec.C77_rejects` | propext, Classical.choice, Quot.sound |
| C78 | `Reparsec.C78_next` | propext, Classical.choice, Quot.sound |
| C78 | `Reparsec.C78_split_returns` | propext, Classical.choice, Quot.sound |
| C78 | `Reparsec.C78_split_raises` | propext, Classical.choice, Quot.sound |
| C78 | `Reparsec.C78_endless` | none |
| C78 | `Reparsec.C78_hangs` | propext, Classical.choice, Quot.sound |
| C79 | `Reparsec.Eff.C79_terminates` | propext, Classical.choice, Quot.sound |
| C79 | `Reparsec.Eff.C79_no_left_recursion` | propext, Classical.choice, Quot.sound |
| C79 | `Reparsec.Eff.C79_no_delay` | propext, Classical.choice, Quot.sound |
| C80 | `Reparsec.C80_exact` | propext, Classical.choice, Quot.sound |
| C80 | `Reparsec.C80_unambiguous` | propext, Classical.choice, Quot.sound |
| C80 | `Reparsec.C80_recovering` | propext, Classical.choice, Quot.sound |
| C80 | `Reparsec.C80_exceptions` | propext, Classical.choice, Quot.sound |
| C80 | `Reparsec.C80_total` | propext, Classical.choice, Quot.sound |
| C80 | `Reparsec.C80_ends` | propext, Classical.choice, Quot.sound |
| C80 | `Reparsec.C80_rejects` | propext, Classical.choice, Quot.sound |
| C80 | `Reparsec.Samples.C80_counterexample_empty_string` | propext, Classical.choice, Quot.sound |
| C80 | `Reparsec.C80_repaired` | propext, Classical.choice, Quot.sound |
| C80 | `Reparsec.C80_reparse` | propext, Classical.choice, Quot.sound |
| C81 | `Reparsec.C81_exact` | propext, Classical.choice, Quot.sound |
| C81 | `Reparsec.C81_same` | propext, Classical.choice, Quot.sound |
| C81 | `Reparsec.C81_lexes` | propext, Classical.choice, Quot.sound |
| C81 | `Reparsec.C81_total` | propext, Classical.choice, Quot.sound |
| C81 | `Reparsec.C81_exceptions` | propext, Classical.choice, Quot.sound |
| C81 | `Reparsec.C81_same_rejects` | propext, Classical.choice, Quot.sound |
| C82 | `Reparsec.C82_json_repaired` | propext, Classical.choice, Quot.sound |
| C82 | `Reparsec.C82_reads` | propext, Classical.choice, Quot.sound |
| C82 | `Reparsec.C82_sound` | propext, Classical.choice, Quot.sound |
| C82 | `Reparsec.C82_fails` | propext, Classical.choice, Quot.sound |
| C82 | `Reparsec.C82_ends` | propext, Classical.choice, Quot.sound |
| C82 | `Reparsec.C82_only` | propext, Classical.choice, Quot.sound |
| C82 | `Reparsec.C82_group` | propext, Classical.choice, Quot.sound |
| C82 | `Reparsec.C82_first_alternative` | propext, Classical.choice, Quot.sound |
| C82 | `Reparsec.C82_second_alternative` | propext, Classical.choice, Quot.sound |
| C82 | `Reparsec.C82_greedy` | propext, Classical.choice, Quot.sound |
| C82 | `Reparsec.C82_skips` | propext, Classical.choice, Quot.sound |
| C82 | `Reparsec.C82_splits` | propext, Classical.choice, Quot.sound |
| C82 | `Reparsec.C82_lex_ends` | propext, Classical.choice, Quot.sound |
| C82 | `Reparsec.C82_lex_error` | propext, Classical.choice, Quot.sound |
| C82 | `Reparsec.C82_json` | propext, Classical.choice, Quot.sound |
| C82 | `Reparsec.C82_json_lexer` | propext, Classical.choice, Quot.sound |
| C82 | `Reparsec.C82_lexes` | propext, Classical.choice, Quot.sound |
| C82 | `Reparsec.C82_yamlish` | propext, Classical.choice, Quot.sound |
| C82 | `Reparsec.C82_calculator` | propext, Classical.choice, Quot.sound |
| C82 | `Reparsec.Samples.C82_counterexample_whole` | propext, Classical.choice, Quot.sound |
| C83 | `Reparsec.C83_same` | propext, Quot.sound |
| C83 | `Reparsec.C83_same_unlimited` | propext, Quot.sound |
| C83 | `Reparsec.C83_iterate` | propext, Classical.choice, Quot.sound |
| C83 | `Reparsec.C83_shallow` | propext, Quot.sound |
| C83 | `Reparsec.C83_unwrap` | propext, Classical.choice, Quot.sound |
| C83 | `Reparsec.C83_height` | propext, Quot.sound |
| C83 | `Reparsec.C83_height_unwrap` | propext, Classical.choice, Quot.sound |
| C83 | `Reparsec.Samples.C83_deep` | propext, Classical.choice, Quot.sound |
| C84 | `Reparsec.C84_anywhere` | propext, Classical.choice, Quot.sound |
| C84 | `Reparsec.C84_definitions` | propext, Classical.choice, Quot.sound |
| C84 | `Reparsec.C84_ends` | propext, Classical.choice, Quot.sound |
| C84 | `Reparsec.C84_no_left_recursion` | propext, Classical.choice, Quot.sound |
| C84 | `Reparsec.C84_unfold` | propext, Classical.choice, Quot.sound |
| C84 | `Reparsec.C84_returns_anywhere` | propext, Classical.choice, Quot.sound |
| C84 | `Reparsec.C84_returns_definitions` | propext, Classical.choice, Quot.sound |
| C84 | `Reparsec.Samples.C84_fold_hangs` | propext, Classical.choice, Quot.sound |
| C85 | `Reparsec.Eff.C85_anywhere` | propext, Quot.sound |
| C85 | `Reparsec.Eff.C85_anywhere_plain` | propext, Quot.sound |
| C85 | `Reparsec.Eff.C85_definitions` | propext, Quot.sound |
| C85 | `Reparsec.Eff.C85_ends` | propext, Quot.sound |
| C85 | `Reparsec.Eff.C85_no_left_recursion` | propext, Classical.choice, Quot.sound |
| C85 | `Reparsec.Eff.C85_delay` | propext, Quot.sound |
| C85 | `Reparsec.Eff.C85_unfold` | propext, Quot.sound |
| C86 | `Reparsec.Eff.C86_fmap_id` | propext, Quot.sound |
| C86 | `Reparsec.Eff.C86_fmap_fmap` | propext, Quot.sound |
| C86 | `Reparsec.Eff.C86_left_identity` | propext, Quot.sound |
| C86 | `Reparsec.Eff.C86_right_identity` | propext, Quot.sound |
| C86 | `Reparsec.Eff.C86_bind_assoc` | propext, Quot.sound |
| C86 | `Reparsec.Eff.C86_alt_assoc` | propext, Quot.sound |
| C86 | `Reparsec.Eff.C86_maybe` | propext, Quot.sound |
| C86 | `Reparsec.Eff.C86_seq` | propext, Quot.sound |
| C86 | `Reparsec.Eff.C86_label_label` | propext, Quot.sound |
| C86 | `Reparsec.Eff.C86_accepted` | propext, Quot.sound |
| C86 | `Reparsec.Eff.Sample.C86_fmap_fmap_order` | propext, Classical.choice, Quot.sound |
| C86 | `Reparsec.Eff.Sample.C86_bind_order` | propext, Classical.choice, Quot.sound |
| C86 | `Reparsec.Eff.Sample.C86_alt_runs` | propext, Classical.choice, Quot.sound |
| C87 | `Reparsec.Eff.C87_representation` | propext, Quot.sound |
| C88 | `Reparsec.C88_unescape` | propext, Classical.choice, Quot.sound |
| C88 | `Reparsec.C88_unescape_total` | propext, Classical.choice, Quot.sound |
| C88 | `Reparsec.C88_unescape_plain` | propext, Classical.choice, Quot.sound |
| C88 | `Reparsec.C88_string` | propext, Classical.choice, Quot.sound |
| C88 | `Reparsec.C88_integer` | propext, Classical.choice, Quot.sound |
| C88 | `Reparsec.C88_integer_total` | propext, Classical.choice, Quot.sound |
| C88 | `Reparsec.C88_exceptions` | propext, Classical.choice, Quot.sound |
| C88 | `Reparsec.C88_loads` | propext, Classical.choice, Quot.sound |
| C88 | `Reparsec.C88_loads_int` | propext, Classical.choice, Quot.sound |
| C89 | `Reparsec.C89_text` | propext, Classical.choice, Quot.sound |
| C89 | `Reparsec.C89_loads` | propext, Classical.choice, Quot.sound |
| C89 | `Reparsec.C89_loads_regex` | propext, Classical.choice, Quot.sound |
| C89 | `Reparsec.C89_recovering` | propext, Classical.choice, Quot.sound |
| C89 | `Reparsec.C89_injective` | propext, Classical.choice, Quot.sound |
| C89 | `Reparsec.C89_again` | propext, Classical.choice, Quot.sound |
| C89 | `Reparsec.C89_surrogates` | propext, Classical.choice, Quot.sound |
| C89 | `Reparsec.Samples.C89_counterexample_empty` | propext, Classical.choice, Quot.sound |
| C89 | `Reparsec.Samples.C89_counterexample_surrogates` | propext, Classical.choice, Quot.sound |
| C90 | `Reparsec.C90_always_repaired` | propext, Classical.choice, Quot.sound |
| C90 | `Reparsec.C90_total` | propext, Classical.choice, Quot.sound |
| C90 | `Reparsec.C90_fixable` | propext, Quot.sound |
| C90 | `Reparsec.C90_json` | propext, Classical.choice, Quot.sound |
| C90 | `Reparsec.C90_json_repaired` | propext, Classical.choice, Quot.sound |
| C90 | `Reparsec.C90_json_lexer` | propext, Classical.choice, Quot.sound |
| C90 | `Reparsec.C90_json_text` | propext, Classical.choice, Quot.sound |
| C90 | `Reparsec.C90_needs_one_more` | propext, Classical.choice, Quot.sound |
| C90 | `Reparsec.C90_json_needs_one_more` | propext |
| C90 | `Reparsec.C90_json_default_not_enough` | propext |
| C91 | `Reparsec.C91_literal` | propext, Classical.choice, Quot.sound |
| C91 | `Reparsec.C91_denotes` | propext, Classical.choice, Quot.sound |
| C91 | `Reparsec.C91_injective` | propext, Classical.choice, Quot.sound |
| C91 | `Reparsec.C91_symbols` | propext, Classical.choice, Quot.sound |
| C91 | `Reparsec.C91_printable` | propext, Classical.choice, Quot.sound |
| C91 | `Reparsec.C91_plain` | propext, Classical.choice, Quot.sound |
| C91 | `Reparsec.C91_quotes` | propext, Classical.choice, Quot.sound |
| C91 | `Reparsec.C91_sym` | propext, Classical.choice, Quot.sound |
| C91 | `Reparsec.C91_literal_parser` | propext, Classical.choice, Quot.sound |
| C91 | `Reparsec.C91_defaults` | propext, Classical.choice, Quot.sound |
| C91 | `Reparsec.C91_reader` | propext, Classical.choice, Quot.sound |
| C91 | `Reparsec.C91_reported` | propext, Classical.choice, Quot.sound |
| C91 | `Reparsec.C91_reported_default` | propext, Classical.choice, Quot.sound |
| C91 | `Reparsec.C91_recover_with` | propext, Classical.choice, Quot.sound |
