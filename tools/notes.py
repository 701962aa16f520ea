PARTIAL = {
 "C36": "The property is false of the code: update_loc compares a token index with a character offset under lexer.parse. C36_false_accept and C36_false_reject prove the two ways in which it fails. C36_all_tokens_partial and C36_all_accepted_partial say for every token list how wrong a location can be (it is the token's, or one whose character offset equals the token's index); C36_layout_partial and C36_accepted_partial prove the property for token lists in which the two cannot be confused (IndexSafe), and C36_exact shows that these are exactly the token lists for which every parser reports its errors at the right token.",
}
NOTES = {
 "C89": "json.dumps (of the standard library) and its options are in Spec/JsonString; floats are any type with a repr that is a JSON number and that float reads back.",
 "C91": "repr of str is modelled after CPython (Model/Repr); which characters beyond ASCII count as printable is a parameter; lone surrogates are not characters of the model.",
 "C88": "re.sub is modelled for expressions that match no empty text. Where the string has surrogates (which no String of Lean has) the model of unescape raises, in Python it does not; unescapeCodes is exact. The limit of 4300 digits of int in Python 3.11 is not modelled.",
 "C86": "fmap composition and the associativity of bind and choice hold without recovery, and for accepted inputs also with it (C86_accepted); for other inputs the order of calls differs (C86_fmap_fmap_order, C86_bind_order, C86_alt_runs).",
 "C84": "In definitions exactness needs that the new program ends: Samples.C84_fold_hangs. For the associativity of bind, with recovery, only runs that return are compared (C84_returns_*).",
 "C83": "The frames of fmt_loc, of the key of min and of constructors are not counted. C83_deep is the counterexample for a stack smaller than that of parse.",
 "C82": "For the part of re in Model/Regex (classes, sequences, alternatives, greedy repetition, groups). The re module itself is trusted to behave like that matcher.",
 "C81": "As for C80, the alternatives of the regular expression of the lexer are given by hand as functions for the length of the match (Model/JsonLexer); C82_json_lexer proves it for the expression as written.",
 "C80": "The regular expressions are given by hand as functions for the length of the match (Model/JsonText); C82_json proves it for the expressions as written. C80_counterexample_empty_string is the one deviation from RFC 8259.",
 "C49": "The exception for items of many() is needed (C49_exception_needed); the *_sharp theorems drop it for parsers in which no item of many() looks for anything at the end of what it accepts. For lexer.parse see also C51_tokens.",
 "C42": "The side conditions are needed: C42_needs_no_attempt, C42_needs_no_nesting, C42_needs_no_insert.",
 "C18": "During recovery associativity is proved for runs that return, from positions within the input; which of several exceptions is raised first may differ.",
 "C68": "C68_race is the safety claim for every interleaving; C68_exact and C68_settled are the exactness claims for programs that build no parser from a half-defined Delay; C68_alone links the step-by-step model with that of C21. C68_interrupted, C68_captured and C68_two_defines establish defects.",
 "C21": "e.define(e) is the one exception: it leaves e raising 'was not defined' (C21_define_itself). C21_history covers every order of building and defining.",
 "C22": "Callbacks are total functions in the model (they may raise but not hang).",
 "C23": "With max_insertions < 0 it is false (C23_negative_budget_hangs), as it is with left recursion (C23_left_recursion_hangs).",
 "C45": "Model/Heap.lean is a second model with result objects on a heap and the in-place updates as assignments; it is proved to refine the functional model.",
 "C46": "eof is read as matching the empty string here: eof() in the middle of a grammar can be followed by insertions.",
}
