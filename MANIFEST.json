{
 "claims": [
  {
   "property": "C01",
   "status": "proved",
   "theorems": [
    "Reparsec.C01_recovery_keeps_success"
   ],
   "note": ""
  },
  {
   "property": "C02",
   "status": "proved",
   "theorems": [
    "Reparsec.C02_no_false_success"
   ],
   "note": ""
  },
  {
   "property": "C03",
   "status": "proved",
   "theorems": [
    "Reparsec.C03_failure_carries_over",
    "Reparsec.C03_exception_carries_over",
    "Reparsec.C03_divergence_carries_over"
   ],
   "note": ""
  },
  {
   "property": "C04",
   "status": "proved",
   "theorems": [
    "Reparsec.C04_errors_describe_something"
   ],
   "note": ""
  },
  {
   "property": "C05",
   "status": "proved",
   "theorems": [
    "Reparsec.C05_plain",
    "Reparsec.C05_success",
    "Reparsec.C05_repairs",
    "Reparsec.C05_parse"
   ],
   "note": ""
  },
  {
   "property": "C06",
   "status": "proved",
   "theorems": [
    "Reparsec.C06_plain",
    "Reparsec.C06_recovering"
   ],
   "note": ""
  },
  {
   "property": "C07",
   "status": "proved",
   "theorems": [
    "Reparsec.C07_first_success",
    "Reparsec.C07_first_committed",
    "Reparsec.C07_first_raises",
    "Reparsec.C07_first_hangs",
    "Reparsec.C07_second",
    "Reparsec.C07_recovering_first",
    "Reparsec.C07_recovering_second"
   ],
   "note": ""
  },
  {
   "property": "C08",
   "status": "proved",
   "theorems": [
    "Reparsec.C08_success",
    "Reparsec.C08_failure",
    "Reparsec.C08_raises",
    "Reparsec.C08_hangs",
    "Reparsec.C08_backtracks",
    "Reparsec.C08_maybe_never_fails",
    "Reparsec.C08_recovering",
    "Reparsec.C08_trying"
   ],
   "note": ""
  },
  {
   "property": "C09",
   "status": "proved",
   "theorems": [
    "Reparsec.C09_maybe"
   ],
   "note": ""
  },
  {
   "property": "C10",
   "status": "proved",
   "theorems": [
    "Reparsec.C10_many",
    "Reparsec.C10_success_iff",
    "Reparsec.C10_failure_iff",
    "Reparsec.C10_hangs_iff"
   ],
   "note": ""
  },
  {
   "property": "C11",
   "status": "proved",
   "theorems": [
    "Reparsec.C11_raises_iff",
    "Reparsec.C11_recovering",
    "Reparsec.C11_after_repair"
   ],
   "note": ""
  },
  {
   "property": "C12",
   "status": "proved",
   "theorems": [
    "Reparsec.C12_empty_iff",
    "Reparsec.C12_items_iff",
    "Reparsec.C12_dangling"
   ],
   "note": ""
  },
  {
   "property": "C13",
   "status": "proved",
   "theorems": [
    "Reparsec.C13_same",
    "Reparsec.C13_chainl1_iff",
    "Reparsec.C13_raises"
   ],
   "note": ""
  },
  {
   "property": "C14",
   "status": "proved",
   "theorems": [
    "Reparsec.C14_same",
    "Reparsec.C14_chainr1_iff",
    "Reparsec.C14_raises"
   ],
   "note": ""
  },
  {
   "property": "C15",
   "status": "proved",
   "theorems": [
    "Reparsec.C15_first_fails",
    "Reparsec.C15_first_raises",
    "Reparsec.C15_first_hangs",
    "Reparsec.C15_second",
    "Reparsec.C15_success_iff",
    "Reparsec.C15_failure_iff",
    "Reparsec.C15_seq",
    "Reparsec.C15_seql",
    "Reparsec.C15_seqr",
    "Reparsec.C15_between",
    "Reparsec.C15_then"
   ],
   "note": ""
  },
  {
   "property": "C16",
   "status": "proved",
   "theorems": [
    "Reparsec.C16_seq",
    "Reparsec.C16_seql",
    "Reparsec.C16_seqr",
    "Reparsec.C16_then"
   ],
   "note": ""
  },
  {
   "property": "C17",
   "status": "proved",
   "theorems": [
    "Reparsec.C17_fmap_id",
    "Reparsec.C17_fmap_comp"
   ],
   "note": ""
  },
  {
   "property": "C18",
   "status": "proved",
   "theorems": [
    "Reparsec.C18_left_identity",
    "Reparsec.C18_right_identity",
    "Reparsec.C18_associativity"
   ],
   "note": "During recovery associativity is proved for runs that return, from positions within the input; which of several exceptions is raised first may differ."
  },
  {
   "property": "C19",
   "status": "proved",
   "theorems": [
    "Reparsec.C19_alt_assoc"
   ],
   "note": ""
  },
  {
   "property": "C20",
   "status": "proved",
   "theorems": [
    "Reparsec.C20_plain",
    "Reparsec.C20_recovering",
    "Reparsec.C20_label_label"
   ],
   "note": ""
  },
  {
   "property": "C21",
   "status": "proved",
   "theorems": [
    "Reparsec.C21_behaves_as_definition",
    "Reparsec.C21_undefined_raises",
    "Reparsec.C21_history",
    "Reparsec.C21_history_parse",
    "Reparsec.C21_second_define",
    "Reparsec.C21_defines_one",
    "Reparsec.C21_define_itself"
   ],
   "note": "e.define(e) is the one exception: it leaves e raising 'was not defined' (C21_define_itself). C21_history covers every order of building and defining."
  },
  {
   "property": "C22",
   "status": "proved",
   "theorems": [
    "Reparsec.C22_terminates"
   ],
   "note": "Callbacks are total functions in the model (they may raise but not hang)."
  },
  {
   "property": "C23",
   "status": "proved",
   "theorems": [
    "Reparsec.C23_terminates",
    "Reparsec.C23_no_left_recursion",
    "Reparsec.C23_left_recursion_hangs",
    "Reparsec.C23_negative_budget_hangs"
   ],
   "note": "With max_insertions < 0 it is false (C23_negative_budget_hangs), as it is with left recursion (C23_left_recursion_hangs)."
  },
  {
   "property": "C24",
   "status": "proved",
   "theorems": [
    "Reparsec.C24_accepted",
    "Reparsec.C24_accepted_whole",
    "Reparsec.C24_accepted_text"
   ],
   "note": ""
  },
  {
   "property": "C25",
   "status": "proved",
   "theorems": [
    "Reparsec.C25_candidates",
    "Reparsec.C25_candidates_default",
    "Reparsec.C25_candidates_text",
    "Reparsec.C25_reported",
    "Reparsec.C25_reported_text"
   ],
   "note": ""
  },
  {
   "property": "C26",
   "status": "proved",
   "theorems": [
    "Reparsec.C26_cost"
   ],
   "note": ""
  },
  {
   "property": "C27",
   "status": "proved",
   "theorems": [
    "Reparsec.C27_candidates",
    "Reparsec.C27_default",
    "Reparsec.C27_text",
    "Reparsec.C27_zero"
   ],
   "note": ""
  },
  {
   "property": "C28",
   "status": "proved",
   "theorems": [
    "Reparsec.C28_not_cheapest_of_all",
    "Reparsec.C28_reported",
    "Reparsec.C28_reported_by_operations",
    "Reparsec.C28_repeated_mistake",
    "Reparsec.C28_unwrap_uses_best",
    "Reparsec.C28_minimal",
    "Reparsec.C28_choice_unique"
   ],
   "note": ""
  },
  {
   "property": "C29",
   "status": "proved",
   "theorems": [
    "Reparsec.C29_choice_repairs",
    "Reparsec.C29_prio_is_automatic",
    "Reparsec.C29_automatic_inserts",
    "Reparsec.C29_automatic_iff_inserts",
    "Reparsec.C29_recover_asks",
    "Reparsec.C29_user_insertions",
    "Reparsec.C29_choice_by_operations",
    "Reparsec.C29_choice_recover"
   ],
   "note": ""
  },
  {
   "property": "C30",
   "status": "proved",
   "theorems": [
    "Reparsec.C30_recover_with_fn",
    "Reparsec.C30_recover_with",
    "Reparsec.C30_callback_raises",
    "Reparsec.C30_trying",
    "Reparsec.C30_otherwise_fn",
    "Reparsec.C30_otherwise",
    "Reparsec.C30_raises"
   ],
   "note": ""
  },
  {
   "property": "C31",
   "status": "proved",
   "theorems": [
    "Reparsec.C31_match",
    "Reparsec.C31_no_match",
    "Reparsec.C31_raises",
    "Reparsec.C31_skip",
    "Reparsec.C31_insert_only",
    "Reparsec.C31_no_repair",
    "Reparsec.C31_skip_raises"
   ],
   "note": ""
  },
  {
   "property": "C32",
   "status": "proved",
   "theorems": [
    "Reparsec.C32_success_iff",
    "Reparsec.C32_failure",
    "Reparsec.C32_repair"
   ],
   "note": ""
  },
  {
   "property": "C33",
   "status": "proved",
   "theorems": [
    "Reparsec.C33_default",
    "Reparsec.C33_bounds"
   ],
   "note": ""
  },
  {
   "property": "C34",
   "status": "proved",
   "theorems": [
    "Reparsec.C34_exact",
    "Reparsec.C34_bounds",
    "Reparsec.C34_scannerless_parse",
    "Reparsec.C34_display"
   ],
   "note": ""
  },
  {
   "property": "C35",
   "status": "proved",
   "theorems": [
    "Reparsec.C35_source_locations",
    "Reparsec.C35_token_locations"
   ],
   "note": ""
  },
  {
   "property": "C36",
   "status": "partial",
   "theorems": [
    "Reparsec.C36_exact",
    "Reparsec.C36_layout_partial",
    "Reparsec.C36_accepted_partial",
    "Reparsec.C36_all_tokens_partial",
    "Reparsec.C36_all_accepted_partial",
    "Reparsec.C36_right_partial",
    "Reparsec.C36_false_accept",
    "Reparsec.C36_false_reject"
   ],
   "note": "The property is false of the code: update_loc compares a token index with a character offset under lexer.parse. C36_false_accept and C36_false_reject prove the two ways in which it fails. C36_all_tokens_partial and C36_all_accepted_partial say for every token list how wrong a location can be (it is the token's, or one whose character offset equals the token's index); C36_layout_partial and C36_accepted_partial prove the property for token lists in which the two cannot be confused (IndexSafe), and C36_exact shows that these are exactly the token lists for which every parser reports its errors at the right token."
  },
  {
   "property": "C37",
   "status": "proved",
   "theorems": [
    "Reparsec.C37_returns_iff",
    "Reparsec.C37_raises_iff",
    "Reparsec.C37_spans"
   ],
   "note": ""
  },
  {
   "property": "C38",
   "status": "proved",
   "theorems": [
    "Reparsec.C38_hangs_iff",
    "Reparsec.C38_terminates"
   ],
   "note": ""
  },
  {
   "property": "C39",
   "status": "proved",
   "theorems": [
    "Reparsec.C39_plain",
    "Reparsec.C39_success",
    "Reparsec.C39_repairs"
   ],
   "note": ""
  },
  {
   "property": "C40",
   "status": "proved",
   "theorems": [
    "Reparsec.C40_start",
    "Reparsec.C40_next",
    "Reparsec.C40_next_repair",
    "Reparsec.C40_block",
    "Reparsec.C40_block_recovering",
    "Reparsec.C40_aligned",
    "Reparsec.C40_aligned_recovering",
    "Reparsec.C40_not_aligned",
    "Reparsec.C40_indented",
    "Reparsec.C40_indented_recovering",
    "Reparsec.C40_not_indented"
   ],
   "note": ""
  },
  {
   "property": "C41",
   "status": "proved",
   "theorems": [
    "Reparsec.C41_default",
    "Reparsec.C41_text",
    "Reparsec.C41_meaning",
    "Reparsec.C41_tokens"
   ],
   "note": ""
  },
  {
   "property": "C42",
   "status": "proved",
   "theorems": [
    "Reparsec.C42_default",
    "Reparsec.C42_text",
    "Reparsec.C42_tokens",
    "Reparsec.C42_exceptions",
    "Reparsec.C42_needs_no_attempt",
    "Reparsec.C42_needs_no_nesting",
    "Reparsec.C42_needs_no_insert"
   ],
   "note": "The side conditions are needed: C42_needs_no_attempt, C42_needs_no_nesting, C42_needs_no_insert."
  },
  {
   "property": "C43",
   "status": "proved",
   "theorems": [
    "Reparsec.C43_message",
    "Reparsec.C43_message_iff",
    "Reparsec.C43_str"
   ],
   "note": ""
  },
  {
   "property": "C44",
   "status": "proved",
   "theorems": [
    "Reparsec.C44_fmap_unwrap",
    "Reparsec.C44_fmap_returns",
    "Reparsec.C44_fmap_raises_iff",
    "Reparsec.C44_fmap_ends"
   ],
   "note": ""
  },
  {
   "property": "C45",
   "status": "proved",
   "theorems": [
    "Reparsec.C45_same_result",
    "Reparsec.C45_old_results_unchanged",
    "Reparsec.C45_result_not_shared",
    "Reparsec.C45_session"
   ],
   "note": "Model/Heap.lean is a second model with result objects on a heap and the in-place updates as assignments; it is proved to refine the functional model."
  },
  {
   "property": "C46",
   "status": "proved",
   "theorems": [
    "Reparsec.C46_candidates",
    "Reparsec.C46_reported",
    "Reparsec.C46_reported_text",
    "Reparsec.C46_reported_tokens"
   ],
   "note": "eof is read as matching the empty string here: eof() in the middle of a grammar can be followed by insertions."
  },
  {
   "property": "C47",
   "status": "proved",
   "theorems": [
    "Reparsec.C47_empty",
    "Reparsec.C47_literal"
   ],
   "note": ""
  },
  {
   "property": "C48",
   "status": "proved",
   "theorems": [
    "Reparsec.C48_accumulate",
    "Reparsec.C48_replaced"
   ],
   "note": ""
  },
  {
   "property": "C49",
   "status": "proved",
   "theorems": [
    "Reparsec.C49_default",
    "Reparsec.C49_default_sharp",
    "Reparsec.C49_text",
    "Reparsec.C49_text_sharp",
    "Reparsec.C49_tokens",
    "Reparsec.C49_exception_needed"
   ],
   "note": "The exception for items of many() is needed (C49_exception_needed); the *_sharp theorems drop it for parsers in which no item of many() looks for anything at the end of what it accepts. For lexer.parse see also C51_tokens."
  },
  {
   "property": "C50",
   "status": "proved",
   "theorems": [
    "Reparsec.C50_recover_plain",
    "Reparsec.C50_recover_with_plain",
    "Reparsec.C50_recover_with_fn_plain",
    "Reparsec.C50_recover",
    "Reparsec.C50_recover_recover",
    "Reparsec.C50_second_alternative"
   ],
   "note": ""
  },
  {
   "property": "C51",
   "status": "proved",
   "theorems": [
    "Reparsec.C51_default",
    "Reparsec.C51_somewhere",
    "Reparsec.C51_exact",
    "Reparsec.C51_text",
    "Reparsec.C51_tokens"
   ],
   "note": ""
  },
  {
   "property": "C52",
   "status": "proved",
   "theorems": [
    "Reparsec.C52_left",
    "Reparsec.C52_left_text",
    "Reparsec.C52_insertion_offered"
   ],
   "note": ""
  },
  {
   "property": "C53",
   "status": "proved",
   "theorems": [
    "Reparsec.C53_first_fails",
    "Reparsec.C53_first_raises",
    "Reparsec.C53_first_hangs",
    "Reparsec.C53_first_succeeds",
    "Reparsec.C53_first_repaired",
    "Reparsec.C53_bind_repaired",
    "Reparsec.C53_candidates",
    "Reparsec.C53_totals",
    "Reparsec.C53_bind_succeeds",
    "Reparsec.C53_bind_fails",
    "Reparsec.C53_bind_raises",
    "Reparsec.C53_bind_hangs"
   ],
   "note": ""
  },
  {
   "property": "C54",
   "status": "proved",
   "theorems": [
    "Reparsec.C54_many",
    "Reparsec.C54_exhaustive",
    "Reparsec.C54_only_begun"
   ],
   "note": ""
  },
  {
   "property": "C55",
   "status": "proved",
   "theorems": [
    "Reparsec.C55_complete",
    "Reparsec.C55_complete_default",
    "Reparsec.C55_complete_text",
    "Reparsec.C55_exact",
    "Reparsec.C55_recovering",
    "Reparsec.C55_unambiguous",
    "Reparsec.C55_needs_ll1"
   ],
   "note": ""
  },
  {
   "property": "C56",
   "status": "proved",
   "theorems": [
    "Reparsec.C56_always_repaired",
    "Reparsec.C56_total",
    "Reparsec.C56_needs_budget",
    "Reparsec.C56_nesting_unbounded",
    "Reparsec.C56_nesting_not_fixable",
    "Reparsec.C56_order_matters"
   ],
   "note": ""
  },
  {
   "property": "C57",
   "status": "proved",
   "theorems": [
    "Reparsec.C57_token_reads",
    "Reparsec.C57_token_fails",
    "Reparsec.C57_token_ins_plain",
    "Reparsec.C57_token_there",
    "Reparsec.C57_skip",
    "Reparsec.C57_no_skip",
    "Reparsec.C57_kind",
    "Reparsec.C57_sym_reads",
    "Reparsec.C57_sym_fails"
   ],
   "note": ""
  },
  {
   "property": "C58",
   "status": "proved",
   "theorems": [
    "Reparsec.C58_default",
    "Reparsec.C58_default_hangs",
    "Reparsec.C58_any",
    "Reparsec.C58_functional",
    "Reparsec.C58_text",
    "Reparsec.C58_text_hangs",
    "Reparsec.C58_tokens",
    "Reparsec.C58_value",
    "Reparsec.C58_parse_error",
    "Reparsec.C58_recovering_value"
   ],
   "note": ""
  },
  {
   "property": "C59",
   "status": "proved",
   "theorems": [
    "Reparsec.C59_candidates",
    "Reparsec.C59_reported",
    "Reparsec.C59_reported_whole",
    "Reparsec.C59_reported_text",
    "Reparsec.C59_reported_text_whole",
    "Reparsec.C59_reported_tokens",
    "Reparsec.C59_attempt_false",
    "Reparsec.C59_drop_false"
   ],
   "note": ""
  },
  {
   "property": "C60",
   "status": "proved",
   "theorems": [
    "Reparsec.C60_default",
    "Reparsec.C60_default_hangs",
    "Reparsec.C60_any",
    "Reparsec.C60_functional",
    "Reparsec.C60_text",
    "Reparsec.C60_text_hangs",
    "Reparsec.C60_tokens",
    "Reparsec.C60_unwrap",
    "Reparsec.C60_unwrap_text",
    "Reparsec.C60_unwrap_tokens"
   ],
   "note": ""
  },
  {
   "property": "C61",
   "status": "proved",
   "theorems": [
    "Reparsec.Eff.C61_accepted_same_effects",
    "Reparsec.Eff.C61_no_error_same_effects",
    "Reparsec.Eff.C61_exception_same_effects",
    "Reparsec.Eff.C61_hangs",
    "Reparsec.Eff.C61_failure_effects_first"
   ],
   "note": ""
  },
  {
   "property": "C62",
   "status": "proved",
   "theorems": [
    "Reparsec.Eff.C62_returns",
    "Reparsec.Eff.C62_raises",
    "Reparsec.Eff.C62_hangs",
    "Reparsec.Eff.C62_repeatable",
    "Reparsec.Eff.C62_instrumented",
    "Reparsec.Eff.C62_extends"
   ],
   "note": ""
  },
  {
   "property": "C63",
   "status": "proved",
   "theorems": [
    "Reparsec.Eff.C63_default",
    "Reparsec.Eff.C63_default_hangs",
    "Reparsec.Eff.C63_any",
    "Reparsec.Eff.C63_functional",
    "Reparsec.Eff.C63_text",
    "Reparsec.Eff.C63_text_hangs",
    "Reparsec.Eff.C63_tokens",
    "Reparsec.Eff.C63_fmap"
   ],
   "note": ""
  },
  {
   "property": "C64",
   "status": "proved",
   "theorems": [
    "Reparsec.Eff.C64_terminates",
    "Reparsec.Eff.C64_linear",
    "Reparsec.Eff.C64_attempt_exponential"
   ],
   "note": ""
  },
  {
   "property": "C65",
   "status": "proved",
   "theorems": [
    "Reparsec.Eff.C65_default",
    "Reparsec.Eff.C65_default_hangs",
    "Reparsec.Eff.C65_any",
    "Reparsec.Eff.C65_functional",
    "Reparsec.Eff.C65_text",
    "Reparsec.Eff.C65_text_hangs",
    "Reparsec.Eff.C65_tokens",
    "Reparsec.Eff.C65_unwrap",
    "Reparsec.Eff.C65_unwrap_text"
   ],
   "note": ""
  },
  {
   "property": "C66",
   "status": "proved",
   "theorems": [
    "Reparsec.C66_threads",
    "Reparsec.C66_existing_unchanged",
    "Reparsec.C66_no_waiting",
    "Reparsec.C66_completes",
    "Reparsec.C66_stops",
    "Reparsec.C66_returns"
   ],
   "note": ""
  },
  {
   "property": "C67",
   "status": "proved",
   "theorems": [
    "Reparsec.C67_ends",
    "Reparsec.C67_unique",
    "Reparsec.C67_same",
    "Reparsec.C67_more",
    "Reparsec.C67_enough",
    "Reparsec.C67_hangs",
    "Reparsec.C67_plain",
    "Reparsec.C67_linear",
    "Reparsec.C67_accepted",
    "Reparsec.C67_height",
    "Reparsec.C67_errors_overflow",
    "Reparsec.C67_nesting_overflow"
   ],
   "note": ""
  },
  {
   "property": "C68",
   "status": "proved",
   "theorems": [
    "Reparsec.C68_race",
    "Reparsec.C68_one_outcome",
    "Reparsec.C68_exact",
    "Reparsec.C68_settled",
    "Reparsec.C68_interrupted",
    "Reparsec.C68_alone",
    "Reparsec.C68_captured",
    "Reparsec.C68_two_defines"
   ],
   "note": "C68_race is the safety claim for every interleaving; C68_exact and C68_settled are the exactness claims for programs that build no parser from a half-defined Delay; C68_alone links the step-by-step model with that of C21. C68_interrupted, C68_captured and C68_two_defines establish defects."
  },
  {
   "property": "C69",
   "status": "proved",
   "theorems": [
    "Reparsec.C69_plain",
    "Reparsec.C69_recovering",
    "Reparsec.C69_text",
    "Reparsec.C69_library",
    "Reparsec.C69_only",
    "Reparsec.C69_never",
    "Reparsec.C69_total"
   ],
   "note": ""
  },
  {
   "property": "C70",
   "status": "proved",
   "theorems": [
    "Reparsec.C70_exact",
    "Reparsec.C70_unambiguous",
    "Reparsec.C70_recovering",
    "Reparsec.C70_repaired",
    "Reparsec.C70_repaired_text",
    "Reparsec.C70_reparse",
    "Reparsec.C70_exceptions",
    "Reparsec.C70_total",
    "Reparsec.C70_leading_space",
    "Reparsec.C70_written",
    "Reparsec.C70_text",
    "Reparsec.C70_trees",
    "Reparsec.C70_texts_differ",
    "Reparsec.C70_same"
   ],
   "note": ""
  },
  {
   "property": "C71",
   "status": "proved",
   "theorems": [
    "Reparsec.C71_longest_text",
    "Reparsec.C71_longest_tokens",
    "Reparsec.C71_local",
    "Reparsec.C71_local_success",
    "Reparsec.C71_no_word",
    "Reparsec.C71_viable",
    "Reparsec.C71_longest",
    "Reparsec.C71_text",
    "Reparsec.C71_viable_text",
    "Reparsec.C71_calculator",
    "Reparsec.C71_calculator_longest",
    "Reparsec.C71_attempt_false",
    "Reparsec.C71_literal_false"
   ],
   "note": ""
  },
  {
   "property": "C72",
   "status": "proved",
   "theorems": [
    "Reparsec.C72_doubles",
    "Reparsec.C72_not_polynomial"
   ],
   "note": ""
  },
  {
   "property": "C73",
   "status": "proved",
   "theorems": [
    "Reparsec.C73_flat",
    "Reparsec.C73_apply",
    "Reparsec.C73_nine",
    "Reparsec.C73_add",
    "Reparsec.C73_values"
   ],
   "note": ""
  },
  {
   "property": "C74",
   "status": "proved",
   "theorems": [
    "Reparsec.C74_default",
    "Reparsec.C74_any",
    "Reparsec.C74_text",
    "Reparsec.C74_tokens",
    "Reparsec.C74_still_repaired",
    "Reparsec.C74_unwrap",
    "Reparsec.C74_false"
   ],
   "note": ""
  },
  {
   "property": "C75",
   "status": "proved",
   "theorems": [
    "Reparsec.C75_longest",
    "Reparsec.C75_exact",
    "Reparsec.C75_unambiguous",
    "Reparsec.C75_recovering",
    "Reparsec.C75_dict",
    "Reparsec.C75_loads",
    "Reparsec.C75_repaired",
    "Reparsec.C75_reparse",
    "Reparsec.C75_exceptions",
    "Reparsec.C75_total"
   ],
   "note": ""
  },
  {
   "property": "C76",
   "status": "proved",
   "theorems": [
    "Reparsec.C76_any",
    "Reparsec.C76_raises",
    "Reparsec.C76_hangs",
    "Reparsec.C76_unwrap",
    "Reparsec.C76_text",
    "Reparsec.C76_tokens",
    "Reparsec.C76_layout_false"
   ],
   "note": ""
  },
  {
   "property": "C77",
   "status": "proved",
   "theorems": [
    "Reparsec.C77_exact",
    "Reparsec.C77_unambiguous",
    "Reparsec.C77_recovering",
    "Reparsec.C77_total",
    "Reparsec.C77_rejects"
   ],
   "note": ""
  },
  {
   "property": "C78",
   "status": "proved",
   "theorems": [
    "Reparsec.C78_next",
    "Reparsec.C78_split_returns",
    "Reparsec.C78_split_raises",
    "Reparsec.C78_endless",
    "Reparsec.C78_hangs"
   ],
   "note": ""
  },
  {
   "property": "C79",
   "status": "proved",
   "theorems": [
    "Reparsec.Eff.C79_terminates",
    "Reparsec.Eff.C79_no_left_recursion",
    "Reparsec.Eff.C79_no_delay"
   ],
   "note": ""
  },
  {
   "property": "C80",
   "status": "proved",
   "theorems": [
    "Reparsec.C80_exact",
    "Reparsec.C80_unambiguous",
    "Reparsec.C80_recovering",
    "Reparsec.C80_exceptions",
    "Reparsec.C80_total",
    "Reparsec.C80_ends",
    "Reparsec.C80_rejects",
    "Reparsec.Samples.C80_counterexample_empty_string",
    "Reparsec.C80_repaired",
    "Reparsec.C80_reparse"
   ],
   "note": "The regular expressions are given by hand as functions for the length of the match (Model/JsonText); C82_json proves it for the expressions as written. C80_counterexample_empty_string is the one deviation from RFC 8259."
  },
  {
   "property": "C81",
   "status": "proved",
   "theorems": [
    "Reparsec.C81_exact",
    "Reparsec.C81_same",
    "Reparsec.C81_lexes",
    "Reparsec.C81_total",
    "Reparsec.C81_exceptions",
    "Reparsec.C81_same_rejects"
   ],
   "note": "As for C80, the alternatives of the regular expression of the lexer are given by hand as functions for the length of the match (Model/JsonLexer); C82_json_lexer proves it for the expression as written."
  },
  {
   "property": "C82",
   "status": "proved",
   "theorems": [
    "Reparsec.C82_json_repaired",
    "Reparsec.C82_reads",
    "Reparsec.C82_sound",
    "Reparsec.C82_fails",
    "Reparsec.C82_ends",
    "Reparsec.C82_only",
    "Reparsec.C82_group",
    "Reparsec.C82_first_alternative",
    "Reparsec.C82_second_alternative",
    "Reparsec.C82_greedy",
    "Reparsec.C82_skips",
    "Reparsec.C82_splits",
    "Reparsec.C82_lex_ends",
    "Reparsec.C82_lex_error",
    "Reparsec.C82_json",
    "Reparsec.C82_json_lexer",
    "Reparsec.C82_lexes",
    "Reparsec.C82_yamlish",
    "Reparsec.C82_calculator",
    "Reparsec.Samples.C82_counterexample_whole"
   ],
   "note": "For the part of re in Model/Regex (classes, sequences, alternatives, greedy repetition, groups). The re module itself is trusted to behave like that matcher."
  },
  {
   "property": "C83",
   "status": "proved",
   "theorems": [
    "Reparsec.C83_same",
    "Reparsec.C83_same_unlimited",
    "Reparsec.C83_iterate",
    "Reparsec.C83_shallow",
    "Reparsec.C83_unwrap",
    "Reparsec.C83_height",
    "Reparsec.C83_height_unwrap",
    "Reparsec.Samples.C83_deep"
   ],
   "note": "The frames of fmt_loc, of the key of min and of constructors are not counted. C83_deep is the counterexample for a stack smaller than that of parse."
  },
  {
   "property": "C84",
   "status": "proved",
   "theorems": [
    "Reparsec.C84_anywhere",
    "Reparsec.C84_definitions",
    "Reparsec.C84_ends",
    "Reparsec.C84_no_left_recursion",
    "Reparsec.C84_unfold",
    "Reparsec.C84_returns_anywhere",
    "Reparsec.C84_returns_definitions",
    "Reparsec.Samples.C84_fold_hangs"
   ],
   "note": "In definitions exactness needs that the new program ends: Samples.C84_fold_hangs. For the associativity of bind, with recovery, only runs that return are compared (C84_returns_*)."
  },
  {
   "property": "C85",
   "status": "proved",
   "theorems": [
    "Reparsec.Eff.C85_anywhere",
    "Reparsec.Eff.C85_anywhere_plain",
    "Reparsec.Eff.C85_definitions",
    "Reparsec.Eff.C85_ends",
    "Reparsec.Eff.C85_no_left_recursion",
    "Reparsec.Eff.C85_delay",
    "Reparsec.Eff.C85_unfold"
   ],
   "note": ""
  },
  {
   "property": "C86",
   "status": "proved",
   "theorems": [
    "Reparsec.Eff.C86_fmap_id",
    "Reparsec.Eff.C86_fmap_fmap",
    "Reparsec.Eff.C86_left_identity",
    "Reparsec.Eff.C86_right_identity",
    "Reparsec.Eff.C86_bind_assoc",
    "Reparsec.Eff.C86_alt_assoc",
    "Reparsec.Eff.C86_maybe",
    "Reparsec.Eff.C86_seq",
    "Reparsec.Eff.C86_label_label",
    "Reparsec.Eff.C86_accepted",
    "Reparsec.Eff.Sample.C86_fmap_fmap_order",
    "Reparsec.Eff.Sample.C86_bind_order",
    "Reparsec.Eff.Sample.C86_alt_runs"
   ],
   "note": "fmap composition and the associativity of bind and choice hold without recovery, and for accepted inputs also with it (C86_accepted); for other inputs the order of calls differs (C86_fmap_fmap_order, C86_bind_order, C86_alt_runs)."
  },
  {
   "property": "C87",
   "status": "proved",
   "theorems": [
    "Reparsec.Eff.C87_representation"
   ],
   "note": ""
  },
  {
   "property": "C88",
   "status": "proved",
   "theorems": [
    "Reparsec.C88_unescape",
    "Reparsec.C88_unescape_total",
    "Reparsec.C88_unescape_plain",
    "Reparsec.C88_string",
    "Reparsec.C88_integer",
    "Reparsec.C88_integer_total",
    "Reparsec.C88_exceptions",
    "Reparsec.C88_loads",
    "Reparsec.C88_loads_int"
   ],
   "note": "re.sub is modelled for expressions that match no empty text. Where the string has surrogates (which no String of Lean has) the model of unescape raises, in Python it does not; unescapeCodes is exact. The limit of 4300 digits of int in Python 3.11 is not modelled."
  },
  {
   "property": "C89",
   "status": "proved",
   "theorems": [
    "Reparsec.C89_text",
    "Reparsec.C89_loads",
    "Reparsec.C89_loads_regex",
    "Reparsec.C89_recovering",
    "Reparsec.C89_injective",
    "Reparsec.C89_again",
    "Reparsec.C89_surrogates",
    "Reparsec.Samples.C89_counterexample_empty",
    "Reparsec.Samples.C89_counterexample_surrogates"
   ],
   "note": "json.dumps (of the standard library) and its options are in Spec/JsonString; floats are any type with a repr that is a JSON number and that float reads back."
  },
  {
   "property": "C90",
   "status": "proved",
   "theorems": [
    "Reparsec.C90_always_repaired",
    "Reparsec.C90_total",
    "Reparsec.C90_fixable",
    "Reparsec.C90_json",
    "Reparsec.C90_json_repaired",
    "Reparsec.C90_json_lexer",
    "Reparsec.C90_json_text",
    "Reparsec.C90_needs_one_more",
    "Reparsec.C90_json_needs_one_more",
    "Reparsec.C90_json_default_not_enough"
   ],
   "note": ""
  },
  {
   "property": "C91",
   "status": "proved",
   "theorems": [
    "Reparsec.C91_literal",
    "Reparsec.C91_denotes",
    "Reparsec.C91_injective",
    "Reparsec.C91_symbols",
    "Reparsec.C91_printable",
    "Reparsec.C91_plain",
    "Reparsec.C91_quotes",
    "Reparsec.C91_sym",
    "Reparsec.C91_literal_parser",
    "Reparsec.C91_defaults",
    "Reparsec.C91_reader",
    "Reparsec.C91_reported",
    "Reparsec.C91_reported_default",
    "Reparsec.C91_recover_with"
   ],
   "note": "repr of str is modelled after CPython (Model/Repr); which characters beyond ASCII count as printable is a parameter; lone surrogates are not characters of the model."
  }
 ]
}
