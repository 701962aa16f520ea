{"id": "C01", "title": "Recovery mode does not change successful parses", "statement": "If parser.parse(s) succeeds with value v, then parser.parse(s, recover=True, max_insertions=k) also succeeds with exactly v: unwrap() and unwrap(recover=True) both return v and no error is reported.", "quantifier": "every parser built from the public API (including recursive ones through Delay, and user callbacks that raise), every input, every max_insertions, every get_loc", "why_tests_cant": "Both modes are separate implementations of every primitive and combinator; agreement has to hold for every nesting of them on every input.", "anchors": ["src/reparsec/core/combinators.py:_alt_fast,_alt,_bind_fast,_bind,_seq_h_fast,_seq_h,_maybe,_many,_attempt", "src/reparsec/parser.py:Parser.parse", "src/reparsec/types.py:ResultWrapper.unwrap"]}
{"id": "C02", "title": "No false success in recovery mode", "statement": "If parser.parse(s, recover=True).unwrap() returns a value, then parser.parse(s).unwrap() returns the same value. So an input that is rejected without recovery is never silently accepted with recovery on: unwrap() raises ParseError.", "quantifier": "every parser built from the public API (including recursive ones through Delay, and user callbacks that raise), every input, every max_insertions, every get_loc", "why_tests_cant": "A repaired value leaking out as a clean success would need just one combination of combinators; tests sample a few.", "anchors": ["src/reparsec/core/combinators.py:_alt,_maybe,_many,_attempt", "src/reparsec/core/recovery.py:continue_parse", "src/reparsec/types.py:ResultWrapper.unwrap"]}
{"id": "C03", "title": "Failures without recovery carry over", "statement": "If parser.parse(s) fails (ParseError), raises, or does not return, then parser.parse(s, recover=True) does not produce a clean success; if it raises or does not return without recovery, it does exactly the same with recovery on.", "quantifier": "every parser built from the public API (including recursive ones through Delay, and user callbacks that raise), every input, every max_insertions", "why_tests_cant": "Needs a simulation argument between two implementations over all parsers.", "anchors": ["src/reparsec/core/combinators.py:_many_fast,_many,_fmap_fast,_fmap,_bind_fast,_bind", "src/reparsec/parser.py:Delay"]}
{"id": "C04", "title": "A ParseError always describes something", "statement": "A ParseError raised by unwrap() has a non-empty errors list. Without recovery it has exactly one item and that item has op None. With recovery on, if a repair was found every item carries the Skip or Insert that was applied.", "quantifier": "every parser built from the public API (including recursive ones through Delay, and user callbacks that raise), every input, both modes", "why_tests_cant": "An empty repair (no operations) reaching unwrap would give ParseError([]); excluding it needs an invariant over all repairs ever built.", "anchors": ["src/reparsec/types.py:ResultWrapper.unwrap,ParseError", "src/reparsec/core/repair.py:Repair", "src/reparsec/core/recovery.py:continue_parse"]}
{"id": "C05", "title": "Positions stay within the input and never move backwards", "statement": "Whatever a parser started at position i of a stream returns, in either mode: the position it ends at (of the value or of any candidate repair) lies between i and the length of the stream.", "quantifier": "every parser built from the public API (including recursive ones through Delay, and user callbacks that raise), every input, every start position within the input, both modes", "why_tests_cant": "Inductive over all combinators and repairs; an off-by-one in one skip loop would only show on particular inputs.", "anchors": ["src/reparsec/core/sequence.py:_satisfy,_sym,_eof", "src/reparsec/core/scannerless.py:_literal,_regexp", "src/reparsec/core/recovery.py:continue_parse"]}
{"id": "C06", "title": "Success consumes input iff the position advanced", "statement": "A successful parser is treated as having consumed input (by |, maybe, many, label and by the reset of the insertion budget) exactly when it ended at a later position than it started from.", "quantifier": "every parser built from the public API (including recursive ones through Delay, and user callbacks that raise), every input, both modes", "why_tests_cant": "The flag is maintained separately from the position in every combinator.", "anchors": ["src/reparsec/core/result.py:Ok.prepend_expected", "src/reparsec/core/combinators.py:_bind,_seq_h,_many", "src/reparsec/core/scannerless.py:_regexp"]}
{"id": "C07", "title": "Choice is ordered and commits on consumption", "statement": "p | q gives p's outcome if p succeeds or fails after consuming input; otherwise q is run from the same position and its outcome is given, where, if q consumed nothing, the expected descriptions are p's followed by q's; if both fail without consuming, the error is reported at p's error location.", "quantifier": "all parsers p and q, all inputs and positions, without recovery; with recovery on for the first two clauses", "why_tests_cant": "Quantifies over arbitrary pairs of parsers.", "anchors": ["src/reparsec/core/combinators.py:_alt_fast,_alt"]}
{"id": "C08", "title": "attempt turns a failure into one that consumed nothing", "statement": "p.attempt() succeeds exactly when p does, with the same result; when p fails it fails with the same location and expected list but p.attempt() | q then always runs q from the original position, and p.attempt().maybe() never fails.", "quantifier": "all parsers p, q, all inputs, without recovery", "why_tests_cant": "Quantifies over arbitrary parsers.", "anchors": ["src/reparsec/core/combinators.py:_attempt_fast,_attempt"]}
{"id": "C09", "title": "maybe is choice with Pure(None)", "statement": "p.maybe() is identical to p | Pure(None) (as documented), in both modes: same outcome, same value, same end position, same expected list, same repairs.", "quantifier": "all parsers p, all inputs, positions, insertion budgets", "why_tests_cant": "An equation between two parsers for all arguments.", "anchors": ["src/reparsec/core/combinators.py:_maybe_fast,_maybe,_alt_fast,_alt", "src/reparsec/core/primitive.py:Pure"]}
{"id": "C10", "title": "many collects the longest run of items", "statement": "Without recovery p.many() succeeds with [v1..vn] iff p succeeds n times in a row, each consuming input, with these values, and then fails without consuming; it ends where the last item ended. If p fails after consuming input on some iteration, p.many() fails with that error.", "quantifier": "all parsers p, all inputs, any number of iterations", "why_tests_cant": "Unbounded number of iterations, arbitrary p.", "anchors": ["src/reparsec/core/combinators.py:_many_fast"]}
{"id": "C11", "title": "many rejects items that accept the empty string", "statement": "If on some iteration p succeeds without consuming input, p.many() raises RuntimeError, in both modes (it does not loop, and it does not return a value).", "quantifier": "all parsers p, all inputs, both modes", "why_tests_cant": "Must hold at every iteration for arbitrary p.", "anchors": ["src/reparsec/core/combinators.py:_many_fast,_many"]}
{"id": "C12", "title": "sep_by returns the items in order", "statement": "Without recovery p.sep_by(sep) succeeds with [] iff p fails without consuming, and with [v0..vn] iff p, then n times sep followed by p, succeed with these values and then sep followed by p fails without consuming; a separator that is consumed but not followed by an item makes it fail.", "quantifier": "all parsers p and sep (sep followed by p consuming input), all inputs, any number of items", "why_tests_cant": "Unbounded number of items, arbitrary parsers.", "anchors": ["src/reparsec/parser.py:sep_by", "src/reparsec/core/combinators.py:_many_fast,_maybe_fast"]}
{"id": "C13", "title": "chainl1 associates to the left", "statement": "arg.chainl1(op) returns (..((a0 f1 a1) f2 a2)..) for the operands a0..an and operators f1..fn it parsed, i.e. the left fold, including which operator call raises first.", "quantifier": "all argument and operator parsers, all inputs, any number of operators", "why_tests_cant": "Unbounded number of operators.", "anchors": ["src/reparsec/parser.py:chainl1"]}
{"id": "C14", "title": "chainr1 associates to the right", "statement": "arg.chainr1(op) returns (a0 f1 (a1 f2 (.. an))) for the operands and operators it parsed, i.e. the right fold, including which operator call raises first.", "quantifier": "all argument and operator parsers, all inputs, any number of operators", "why_tests_cant": "The implementation uses two loops and a reversal; unbounded number of operators.", "anchors": ["src/reparsec/parser.py:chainr1"]}
{"id": "C15", "title": "Sequencing runs left to right and keeps the right values", "statement": "p + q, p << q, p >> q, between and then run their parsers one after the other, each from where the previous one ended, succeed iff all succeed, and return respectively the pair, the first, the second, the middle value, the tuple in order.", "quantifier": "all parsers, all inputs", "why_tests_cant": "Quantifies over arbitrary parsers.", "anchors": ["src/reparsec/core/combinators.py:_seq_h_fast,seq,seql,seqr,tuple3", "src/reparsec/parser.py:between,TupleParser.then"]}
{"id": "C16", "title": "Sequencing is bind followed by fmap", "statement": "p + q behaves exactly like p.bind(lambda a: q.fmap(lambda b: (a, b))), likewise << and >>: in both modes the same outcome, value, position, expected list, repairs.", "quantifier": "all parsers p, q, all inputs, positions, insertion budgets", "why_tests_cant": "The two are implemented separately (_seq_h and _bind); an equation for all arguments.", "anchors": ["src/reparsec/core/combinators.py:_seq_h,_bind"]}
{"id": "C17", "title": "Functor laws", "statement": "p.fmap(identity) behaves like p; p.fmap(f).fmap(g) behaves like p.fmap(lambda x: g(f(x))) (f, g not raising), in both modes, on values and on repaired values.", "quantifier": "all parsers p, all f, g, all inputs", "why_tests_cant": "Equations between parsers.", "anchors": ["src/reparsec/core/combinators.py:_fmap_fast,_fmap", "src/reparsec/core/result.py:Ok.fmap,Recovered.fmap"]}
{"id": "C18", "title": "Monad laws, including during recovery", "statement": "Pure(x).bind(f) behaves like f(x); p.bind(Pure) behaves like p; p.bind(f).bind(g) behaves like p.bind(lambda x: f(x).bind(g)), with the same repairs, costs, expected lists and insertion budgets. (With recovery on, associativity is about runs that return: which of several exceptions is raised first may differ.)", "quantifier": "all parsers p, all f, g, all inputs, both modes", "why_tests_cant": "Equations between parsers whose sides nest continue_parse differently.", "anchors": ["src/reparsec/core/combinators.py:_bind_fast,_bind", "src/reparsec/core/recovery.py:continue_parse,_join_ops,_append_expected"]}
{"id": "C19", "title": "Choice is associative, including during recovery", "statement": "(p | q) | r behaves like p | (q | r): same outcome, expected list, and the same list of candidate repairs in the same order.", "quantifier": "all parsers p, q, r, all inputs, both modes", "why_tests_cant": "Equations between parsers; relies on an invariant of repair priorities.", "anchors": ["src/reparsec/core/combinators.py:_alt_fast,_alt", "src/reparsec/core/recovery.py:join_repairs"]}
{"id": "C20", "title": "label replaces the expected list iff nothing was consumed", "statement": "p.label(x) has the outcome of p, except that when p fails (or succeeds) without consuming, the expected list is exactly [x]; a failure after consuming input is unchanged. p.label(x).label(y) behaves like p.label(y).", "quantifier": "all parsers p, all labels, all inputs, both modes for the last clause", "why_tests_cant": "Quantifies over arbitrary parsers.", "anchors": ["src/reparsec/core/combinators.py:_label_fast,_label", "src/reparsec/core/result.py:set_expected"]}
{"id": "C21", "title": "A Delay behaves as its definition", "statement": "After define(p), a Delay parser behaves in both modes exactly as p, whether it was captured by other parsers before or after the definition; before the definition running it raises RuntimeError; a second define raises RuntimeError and leaves the first definition in force. (Except d.define(d), which leaves d raising RuntimeError.)", "quantifier": "all histories of define calls and all parsers, including ones where p refers to the Delay itself", "why_tests_cant": "Quantifies over histories and over recursion depth.", "anchors": ["src/reparsec/parser.py:Delay"]}
{"id": "C22", "title": "Parsers without Delay always terminate", "statement": "For a parser that uses no Delay, parse returns (or raises) on every input, with and without recovery.", "quantifier": "every Delay-free parser, every input, both modes, every non-negative or negative max_insertions", "why_tests_cant": "Termination is not testable; recovery inside many restarts many recursively on repaired positions.", "anchors": ["src/reparsec/core/combinators.py:_many", "src/reparsec/core/recovery.py:continue_parse", "src/reparsec/core/sequence.py:_satisfy,_sym"]}
{"id": "C23", "title": "Recursive grammars without left recursion always terminate", "statement": "If no Delay can call itself again without input having been consumed in between, parse returns (or raises) on every input, in both modes with max_insertions >= 0: although inserting tokens consumes no input, the insertion budget bounds it.", "quantifier": "every grammar that is free of left recursion, every input, both modes, every max_insertions >= 0", "why_tests_cant": "Termination over all grammars and inputs.", "anchors": ["src/reparsec/parser.py:Delay", "src/reparsec/core/combinators.py:_many,_alt,_bind", "src/reparsec/core/repair.py:make_insert,make_user_insert"]}
{"id": "C24", "title": "Accepted input is in the language", "statement": "If parser.parse(s).unwrap() returns v, then v is a value that the grammar denoted by the parser (read as a context-free specification: | is choice, many is repetition, + is concatenation) assigns to the part of the input between the start and the end position.", "quantifier": "every parser built from the public API (including recursive ones through Delay, and user callbacks that raise), every input", "why_tests_cant": "Soundness for all grammars and inputs.", "anchors": ["src/reparsec/core/*.py"]}
{"id": "C25", "title": "Repaired values are derivable from the repaired input", "statement": "Every candidate repair, in particular the one unwrap uses, is explained by its operations: there is a derivation of its value in which exactly the reported Skip and Insert operations, in the reported order, are applied, and every input element up to the end position is either consumed by the derivation or skipped by a reported Skip.", "quantifier": "every parser built from the public API (including recursive ones through Delay, and user callbacks that raise), every input, every max_insertions", "why_tests_cant": "Soundness of error recovery over all grammars and inputs.", "anchors": ["src/reparsec/core/recovery.py:continue_parse,join_repairs,_join_ops", "src/reparsec/core/sequence.py:_sym,_satisfy,_eof", "src/reparsec/core/scannerless.py:_literal,_regexp", "src/reparsec/core/combinators.py:_recover_with"]}
{"id": "C26", "title": "The cost of a repair is the size of its edit", "statement": "The cost by which unwrap ranks a repair is exactly the number of inserted tokens plus the number of skipped tokens it reports, and it is at least 1.", "quantifier": "every parser built from the public API (including recursive ones through Delay, and user callbacks that raise), every input", "why_tests_cant": "Invariant over all repairs.", "anchors": ["src/reparsec/core/repair.py:make_insert,make_user_insert,make_skip,make_pending_skip", "src/reparsec/core/recovery.py:continue_parse"]}
{"id": "C27", "title": "max_insertions bounds the insertions in a row", "statement": "No candidate repair inserts more than max_insertions tokens at one input position; with max_insertions=0 nothing is ever inserted.", "quantifier": "every parser built from the public API (including recursive ones through Delay, and user callbacks that raise), every input, every max_insertions >= 0", "why_tests_cant": "The budget is threaded through every combinator, reset on consumption and skipping.", "anchors": ["src/reparsec/parser.py:Parser.parse", "src/reparsec/core/recovery.py:continue_parse", "src/reparsec/core/combinators.py:_bind,_seq_h,_many,_recover_with", "src/reparsec/core/sequence.py:_sym", "src/reparsec/core/scannerless.py:_literal"]}
{"id": "C28", "title": "unwrap picks a cheapest repair", "statement": "Among the candidate repairs unwrap uses one with the smallest cost; among those, one that got furthest; among those one that does not start with an automatically inserted token; among those the first. unwrap() and unwrap(recover=True) use the same repair. The choice is only among the repairs the parser found: for (sym(a).many() << eof()) on b followed by n times a, every repair costs n+1, though leaving out b alone would give an accepted input. And as the tie is decided by the first operation only, the same mistake made again is repaired differently: for ((sym(x)+sym(y)).many() << eof()) on n+1 times x,x,y the first extra x is skipped, at all later ones y is inserted.", "quantifier": "all lists of candidate repairs; all n", "why_tests_cant": "Quantifies over all candidate lists.", "anchors": ["src/reparsec/types.py:ResultWrapper.unwrap"]}
{"id": "C29", "title": "Repairs offered by a choice", "statement": "When both alternatives of p | q fail without consuming input, the candidate repairs are all of p's followed by those of q's that do not start with an automatic insertion (one that a sym or literal offers by itself, not under recover()), nothing else; if p offers no repairs at all, they are all of q's.", "quantifier": "all parsers p, q, all inputs, budgets", "why_tests_cant": "The code compares priorities with a running minimum; equivalence to the documented rule needs an invariant.", "anchors": ["src/reparsec/core/recovery.py:join_repairs", "src/reparsec/core/combinators.py:_alt,_recover"]}
{"id": "C30", "title": "recover_with inserts the given value", "statement": "During recovery, when p fails without consuming input and the insertion budget is not exhausted, p.recover_with(x, l) offers, before p's own repairs, a repair of cost 1 that reports Insert(l) at the current position, has value x and consumes nothing. In every other case it behaves as p, in particular without recovery.", "quantifier": "all parsers p, values x, inputs, budgets; likewise recover_with_fn", "why_tests_cant": "Quantifies over arbitrary parsers and budgets.", "anchors": ["src/reparsec/core/combinators.py:_recover_with,_recover_with_fn"]}
{"id": "C31", "title": "Terminals skip to the nearest match", "statement": "During recovery a failing sym/satisfy/literal/regexp offers to skip k >= 1 elements where k is the smallest number for which the terminal matches after them, if there is any such k within the input, and then returns what it matches there; sym and literal moreover offer to insert iff the budget is not exhausted.", "quantifier": "all terminals, inputs, positions, budgets", "why_tests_cant": "All inputs and positions; boundary conditions of the skip loops.", "anchors": ["src/reparsec/core/sequence.py:_sym,_satisfy", "src/reparsec/core/scannerless.py:_literal,_regexp"]}
{"id": "C32", "title": "eof succeeds exactly at the end and otherwise drops the rest", "statement": "eof() succeeds iff the position is the end of the input; during recovery it otherwise offers exactly one repair, skipping all remaining elements.", "quantifier": "all inputs and positions", "why_tests_cant": "All inputs and positions.", "anchors": ["src/reparsec/core/sequence.py:_eof_fast,_eof"]}
{"id": "C33", "title": "parse reports positions as element indices", "statement": "With Parser.parse's default arguments every reported location (error or repair) has as pos the index of the input element at which it happened, between 0 and the length of the input.", "quantifier": "every parser built from the public API (including recursive ones through Delay, and user callbacks that raise), every input, both modes", "why_tests_cant": "Location state is carried lazily through contexts.", "anchors": ["src/reparsec/parser.py:_get_loc", "src/reparsec/core/types.py:Ctx"]}
{"id": "C34", "title": "scannerless.parse reports exact lines and columns", "statement": "With scannerless.parse every reported location (pos, line, col) is exact: line is the number of newlines before pos, col the number of characters between the last newline before pos (or the start) and pos. The text shown for it is line:col counted from 1.", "quantifier": "every parser built from the public API (including recursive ones through Delay, and user callbacks that raise), every input over str, both modes, arbitrary nesting of layout combinators", "why_tests_cant": "Locations are computed incrementally from a lagging context that layout combinators reset.", "anchors": ["src/reparsec/core/scannerless.py:get_loc", "src/reparsec/core/types.py:Ctx.update_loc", "src/reparsec/core/layout.py:_block,_indented", "src/reparsec/scannerless.py:parse"]}
{"id": "C35", "title": "lexer.parse reports token locations", "statement": "With lexer.parse every error location is the start location of the token at which the error happened, or the end location of the last token at the end of input, provided the parser does not use layout combinators.", "quantifier": "every parser built from the public API (including recursive ones through Delay, and user callbacks that raise), every input over token lists, both modes", "why_tests_cant": "Invariant over all parsers.", "anchors": ["src/reparsec/lexer.py:_loc_from_stream,parse"]}
{"id": "C36", "title": "Layout errors under lexer.parse are located at the token", "statement": "With lexer.parse, block/aligned/indented use the column of the current token, and an indentation error is reported at it.", "quantifier": "every layout-using parser over token lists", "why_tests_cant": "Fails only when a token index coincides with a character offset (Ctx.update_loc's shortcut).", "anchors": ["src/reparsec/core/types.py:Ctx.update_loc", "src/reparsec/lexer.py:parse", "src/reparsec/core/layout.py:_block,_aligned,_indented"]}
{"id": "C37", "title": "split_tokens tiles the source with exact locations", "statement": "If split_tokens(src, spec) returns tokens, their spans lie in order within the source without overlap, the gaps and the spans are exactly the successive matches of spec starting at 0 and ending at the end of src, the start and end locations have exact lines and columns, and the kinds and values are those of the matches with a capture group. If it raises LexError, the location is exact and is the first position at which spec does not match.", "quantifier": "all sources and lexer specifications", "why_tests_cant": "Unbounded number of tokens, incremental line/column state.", "anchors": ["src/reparsec/lexer.py:iter_tokens,split_tokens"]}
{"id": "C38", "title": "split_tokens terminates", "statement": "split_tokens returns or raises on every source, if spec never matches the empty string. (If spec matches the empty string at some position it reaches, it never returns.)", "quantifier": "all sources and specifications", "why_tests_cant": "Termination.", "anchors": ["src/reparsec/lexer.py:iter_tokens"]}
{"id": "C39", "title": "The layout mark is lexically scoped", "statement": "Whatever a parser does, the column mark in force after it (for the parsers that follow) is the one that was in force before it; block and indented change it only for the parser they wrap.", "quantifier": "every parser built from the public API (including recursive ones through Delay, and user callbacks that raise), every input, both modes, including every candidate repair", "why_tests_cant": "Invariant over all nestings.", "anchors": ["src/reparsec/core/layout.py:_block,_indented", "src/reparsec/core/result.py:set_ctx"]}
{"id": "C40", "title": "block, aligned and indented compare actual columns", "statement": "With scannerless.parse: block(p) runs p with the mark set to the column of the current position; aligned(p) runs p iff the current column equals the mark, and indented(d, p) iff it equals the mark plus d (then with the mark set to it); otherwise they fail without consuming, expecting 'indentation', at the current location. Parsing starts with the mark 0.", "quantifier": "all parsers p, all inputs and positions, all reachable contexts, both modes", "why_tests_cant": "Columns are computed incrementally; all nestings.", "anchors": ["src/reparsec/core/layout.py:_block,_aligned,_indented", "src/reparsec/core/types.py:Ctx.update_loc"]}
{"id": "C41", "title": "Reported errors are in input order", "statement": "The operations reported for a repair are ordered by position in the input, the skipped ranges are disjoint, and none reaches beyond the end of the input.", "quantifier": "every parser built from the public API (including recursive ones through Delay, and user callbacks that raise), every input", "why_tests_cant": "Invariant over all repairs.", "anchors": ["src/reparsec/core/recovery.py:continue_parse,_join_ops"]}
{"id": "C42", "title": "The first error is the same with and without recovery", "statement": "For parsers without attempt, and in which no recover_with(_fn) is wrapped directly around a parser that starts with another recover_with(_fn): if parse(s) fails with an error at loc expecting xs, then parse(s, recover=True) either fails with the same error, or has candidate repairs all of which start with an operation at the same loc with the same expected list xs. If no candidate repair is left, the reported loc is the same, and so is the expected list if there is no recover_with(_fn) at all.", "quantifier": "every such parser, every input, every budget; default locations, scannerless.parse, and lexer.parse without layout combinators", "why_tests_cant": "Relates expected-list bookkeeping of Error and of repair operations through every combinator.", "anchors": ["src/reparsec/core/combinators.py:_alt,_bind,_seq_h,_label,_recover_with", "src/reparsec/core/recovery.py:continue_parse,_join_ops", "src/reparsec/core/repair.py:ops_set_expected,ops_prepend_expected"]}
{"id": "C43", "title": "Error messages", "statement": "str of an error item is 'at L: unexpected input' iff nothing is expected, 'at L: expected x' for one, 'at L: expected x1, .., xn-1 or xn' for more, followed by the repair in parentheses iff there is one; str(ParseError) joins them with ', '.", "quantifier": "all error items", "why_tests_cant": "All list lengths.", "anchors": ["src/reparsec/types.py:ErrorItem.msg,ParseError.__str__"]}
{"id": "C44", "title": "ParseResult.fmap only changes the value", "statement": "parse(..).fmap(f).unwrap(recover) returns f(v) when parse(..).unwrap(recover) returns v, and raises the same ParseError when that raises. If f raises for the value, or for the value of any candidate repair, fmap raises what f raises for the first of them.", "quantifier": "all results, all f (raising or not)", "why_tests_cant": "All results including every list of repairs.", "anchors": ["src/reparsec/types.py:ResultWrapper.fmap", "src/reparsec/core/result.py:Recovered.fmap"]}
{"id": "C45", "title": "Parsing has no hidden state", "statement": "In-place updates of result objects are not observable: a parser gives the same result as one that copies instead of mutating, so using a parser (or sub-parser) several times, in any order and on any inputs, gives the same results as using fresh copies.", "quantifier": "all parsers, all inputs, all interleavings of result construction within a parse", "why_tests_cant": "Repair and operation objects are shared between lists and mutated in place; aliasing bugs appear only for particular combinations.", "anchors": ["src/reparsec/core/result.py:Recovered.set_expected,Recovered.prepend_expected", "src/reparsec/core/recovery.py:_join_ops,join_repairs", "src/reparsec/core/repair.py:ops_prepend_expected"]}
{"id": "C46", "title": "Applying the reported edits gives an input of the language", "statement": "Suppose each label of an insertion stands for a token sequence: for sym and literal the inserted tokens, for recover_with / recover_with_fn a sequence to which the grammar assigns the inserted value. Then applying the reported operations to the input (deleting skipped elements, inserting what the labels of the Insert operations stand for) gives a token sequence to which the grammar assigns the repaired value. With default and scannerless locations the edits are those at the reported positions; with lexer.parse there are edits that are reported, in order, at the locations of the tokens at their positions.", "quantifier": "every such grammar (for lexer.parse: without layout, or with tokens on which layout can be indexed), every input", "why_tests_cant": "Soundness of recovery over all grammars and inputs.", "anchors": ["src/reparsec/core/recovery.py:continue_parse", "src/reparsec/core/sequence.py:_sym,_satisfy"]}
{"id": "C47", "title": "literal rejects the empty string", "statement": "literal('') raises ValueError; literal(s) for any other s succeeds at a position iff s occurs there, returns s and ends len(s) further.", "quantifier": "all strings and inputs", "why_tests_cant": "All strings and positions.", "anchors": ["src/reparsec/core/scannerless.py:literal,_literal_fast"]}
{"id": "C48", "title": "Expected lists accumulate in order", "statement": "When p succeeds without consuming and q then fails without consuming, p + q expects p's expected list followed by q's; after consumption by q only q's list is reported.", "quantifier": "all parsers p and q, all inputs, without recovery", "why_tests_cant": "Arbitrary parsers.", "anchors": ["src/reparsec/core/result.py:prepend_expected", "src/reparsec/core/combinators.py:_seq_h_fast,_bind_fast"]}
{"id": "C49", "title": "Everything the last position could accept is reported", "statement": "When a parse fails at some position, everything that was looked for at that position and not found there is mentioned in the expected list (a terminal through its label, or through the label of a parser that started there), except what an accepted item of many() looked for at the position where it ended; and nothing was looked for further on.", "quantifier": "all attempt-free parsers, all inputs; default locations, scannerless.parse, and lexer.parse without layout combinators", "why_tests_cant": "Arbitrary grammars.", "anchors": ["src/reparsec/core/combinators.py:_many_fast", "src/reparsec/core/result.py:prepend_expected"]}
{"id": "C50", "title": "recover() only promotes automatic insertions", "statement": "p.recover() behaves as p in every respect, except that its repairs starting with an automatic insertion are no longer discarded in a second alternative nor ranked below others of the same cost and extent. p.recover().recover() behaves like p.recover(); without recovery p.recover(), p.recover_with(x) and p.recover_with_fn(f) behave exactly like p.", "quantifier": "all parsers p, inputs, budgets", "why_tests_cant": "Arbitrary parsers.", "anchors": ["src/reparsec/core/combinators.py:_recover,_recover_fast,_recover_with_fast,_recover_with_fn_fast"]}
{"id": "C51", "title": "Nothing is reported as expected that was not looked for there", "statement": "When a parse without recovery fails, each description in the expected list of the error was looked for at the position of the error and not found there: it is the label of a terminal that was tried there, or of a labelled parser that started there and got no further.", "quantifier": "all attempt-free parsers, all inputs; default locations, scannerless.parse, and lexer.parse without layout combinators", "why_tests_cant": "Arbitrary grammars: the expected lists travel through choices, sequences and loops.", "anchors": ["src/reparsec/core/combinators.py:_alt_fast,_bind_fast,_many_fast,_label_fast", "src/reparsec/core/result.py:prepend_expected,set_expected"]}
{"id": "C52", "title": "The insertion budget is per position, and exact", "statement": "A candidate repair has inserted at most max_insertions elements at the position where it ends, and may go on inserting there until there are exactly max_insertions: whenever the next terminal of a sequence is missing at that position, the candidate extended with its insertion is offered if and only if fewer than max_insertions were inserted there. Insertions at earlier positions do not count.", "quantifier": "all parsers, all inputs, all max_insertions >= 0, all candidates; default locations and scannerless.parse", "why_tests_cant": "Arbitrary grammars and sequences of repairs; the tests insert a few tokens in one grammar.", "anchors": ["src/reparsec/core/combinators.py:_bind,_seq,_many", "src/reparsec/core/recovery.py:continue_parse", "src/reparsec/core/primitive.py:insert_on_error,pure"]}
{"id": "C53", "title": "The candidates of a sequence are those of its first part, carried on", "statement": "With recovery, if the first part of p + q, p >> q, p << q, p.bind(f) is repaired, the second part is run after each of its candidates, in order, with what remains of the insertion budget: where it succeeds the candidate is kept, where it is repaired there is one candidate for each repair, with operations concatenated and costs added, where it fails the candidate is dropped. Location, expected list and consumption of the failure stay those of the first part. If the first part succeeds the second runs where it ended, with the full budget if something was read; if it fails, raises or hangs, so does the sequence.", "quantifier": "all parsers p, q, functions f, inputs, positions, contexts, budgets", "why_tests_cant": "Arbitrary parsers and arbitrarily many candidates.", "anchors": ["src/reparsec/core/recovery.py:continue_parse", "src/reparsec/core/combinators.py:_bind,_seq,_seql,_seqr"]}
{"id": "C54", "title": "many() repairs only items that have begun, and goes on after the repair", "statement": "With recovery, p.many() collects the items p accepts; at the first position where p does not succeed, it stops there successfully if p failed without reading anything, fails with p if p failed after reading something, and if p was repaired carries on with many() after each candidate, the items read before the repair included. p is repaired there only if it has read something, and every such candidate ends further on: many() never inserts an item out of nothing.", "quantifier": "all parsers p, inputs, positions, contexts, budgets, numbers of items", "why_tests_cant": "Unbounded numbers of items and nested repairs.", "anchors": ["src/reparsec/core/combinators.py:_many"]}
{"id": "C55", "title": "LL(1) grammars are parsed completely", "statement": "If one element of lookahead decides every choice, option and repetition of the grammar (it is LL(1), as usual defined by first, empty and follow sets for each Delay object), then choice that commits and greedy repetition lose nothing: whenever the grammar derives v from the whole input, parse returns v. For a grammar p without regular expressions, inner eof, layout and left recursion, (p << eof()).parse(s).unwrap() returns v if and only if p read as a context-free grammar assigns v to s; recover=True then makes no repair; and the grammar is unambiguous. Grammars that are not LL(1) may reject words of their language.", "quantifier": "all LL(1) grammars (with any combinators, mutually recursive Delay objects, dependent bind), all inputs, all get_loc; with layout: default and text columns", "why_tests_cant": "Quantifies over all grammars and all words of their (infinite) languages.", "anchors": ["src/reparsec/core/combinators.py:_alt,_many,_maybe,_bind,_seq", "src/reparsec/core/primitive.py", "src/reparsec/parser.py:Parser.parse,Delay"]}
{"id": "C56", "title": "Grammars for which recovery always finds a repair", "statement": "Call a grammar fixable with k insertions if at each place of any input at most k insertions in a row can be needed: sym, literal and recover_with need one where they begin; a sequence adds what its second part needs where it begins to what its first part needs at its last place; the second part of a sequence must not be able to fail; maybe and many need nothing where they begin; an alternative tried after another one is only needed if the first can fail; wrong indentation and terminals that cannot be inserted may fail, where another alternative or the end of a repetition can take over. Then with recover=True and max_insertions >= k, parse(s).unwrap(recover=True) never raises ParseError, whatever the input. Nested brackets are not fixable with any k: with the default budget six open brackets are not closed. The order of alternatives matters: what the second alternative would insert is dropped once the first was tried with recovery, even if that found nothing.", "quantifier": "all grammars meeting the condition (any combinators, recursive Delay objects), all inputs, all budgets >= k, all get_loc", "why_tests_cant": "Every input, including every kind of garbage, must be repaired.", "anchors": ["src/reparsec/core/recovery.py:continue_parse,join_repairs", "src/reparsec/core/combinators.py", "src/reparsec/core/primitive.py", "src/reparsec/core/sequence.py", "src/reparsec/core/scannerless.py", "src/reparsec/types.py:ParseResult.unwrap"]}
{"id": "C57", "title": "token and token_ins", "statement": "token(kind) succeeds exactly where there is a token of this kind, returns that token and moves on by one; elsewhere it fails there, without consuming, expecting kind. token_ins(kind, v) does the same without recovery. With recovery, where the token is missing, token(kind) can be repaired by skipping to the next token of this kind and fails if there is none; token_ins offers before that, while an insertion is left, the insertion of Token(kind, v), located where the token there starts or, at the end of the input, where the last token ends. So in every repair the value of token_ins(kind, v) is a token of this kind: one of the input, or the inserted one. sym(t) with a token t succeeds exactly where there is a token with the kind and the value of t, wherever t is located.", "quantifier": "all kinds, values, token streams, positions, contexts, budgets", "why_tests_cant": "All token streams and positions.", "anchors": ["src/reparsec/lexer.py:token,token_ins,_loc_from_stream"]}
{"id": "C58", "title": "Without recovery, parsing computes exactly a given evaluation relation", "statement": "There is one set of evaluation rules, over parsers, inputs and positions only (PEG-like: ordered choice that commits after consuming, greedy repetition, labels, attempt, layout marks, recursive definitions), and p.parse(s) agrees with it completely: it returns value v ending at j with expected list w iff the rules give exactly that; it fails at position q with expected list w (and consumed flag b) iff the rules say so; it raises exactly the exceptions the rules give; and it fails to return iff the rules give nothing. The rules determine at most one outcome. With recovery, unwrap() returns v without error iff the rules give v.", "quantifier": "every parser, environment of recursive definitions, input, position, mark; default, scannerless and lexer get_loc (with layout only for token lists where token indices and character offsets are not confused)", "why_tests_cant": "It is an equivalence between the implementation and an independent semantics, for all parsers, inputs and unbounded recursion, including non-termination.", "anchors": ["src/reparsec/core/combinators.py:_fmap_fast,_alt_fast,_bind_fast,_seq_h_fast,_maybe_fast,_many_fast,_attempt_fast,_label_fast", "src/reparsec/core/primitive.py", "src/reparsec/core/sequence.py", "src/reparsec/core/scannerless.py", "src/reparsec/core/layout.py", "src/reparsec/parser.py:Parser.parse,Delay"]}
{"id": "C59", "title": "What a repair says was expected is what was looked for at that place", "statement": "For a parser without attempt(), every candidate repair (and so the ParseError that unwrap() raises) is the list of edits of a derivation of the repaired value, and every description in the expected list of its n-th error is something that the grammar, after applying the n edits before it, looks for at the location of that error and does not find there. The only exception: errors after one where eof() dropped all the rest of the input; for q << eof() with no eof() in q there is none. Both conditions are needed (counterexamples).", "quantifier": "every attempt-free parser, environment, input, insertion budget; default, scannerless and (without layout) lexer get_loc", "why_tests_cant": "All parsers and inputs, every candidate repair and every error of it.", "anchors": ["src/reparsec/core/recovery.py", "src/reparsec/core/combinators.py:alt,bind,_seq,many,label", "src/reparsec/core/repair.py:OpItem,RepairOp", "src/reparsec/types.py:ResultWrapper.unwrap"]}
{"id": "C60", "title": "With recovery, parsing computes exactly a given evaluation relation", "statement": "There is one set of evaluation rules for recover=True, over parsers, inputs, positions and insertion budgets only, which says which candidate repairs a parser has and in which order: terminals offer an insertion (while one is left) and a skip to the next place where they match; eof() skips the rest; a choice repairs only if no alternative works without, and then drops the automatic insertions of the later alternative if the earlier one has candidates; sequences and repetitions carry on from every candidate, with the full budget again once something was read; recover() and recover_with() change priority and offer the user's value first; labels rename what was looked for as long as nothing was consumed. p.parse(s, recover=True, max_insertions=k) agrees with the rules completely: same success, same error, same list of repairs in the same order (cost, value, end, operations with position and expected list, remaining budget), same exception, and it fails to return iff the rules give nothing. unwrap(recover=b) gives the value or the ParseError items of the first candidate that is cheapest, then furthest, then not automatic. The rules determine at most one outcome.", "quantifier": "every parser, environment of recursive definitions, input, position, mark, max_insertions and budget; default, scannerless and lexer get_loc (with layout only for token lists where token indices and character offsets are not confused)", "why_tests_cant": "It is an equivalence between the recovering implementation and an independent semantics, for all parsers, inputs and unbounded recursion, including non-termination.", "anchors": ["src/reparsec/core/recovery.py:continue_parse,join_repairs", "src/reparsec/core/combinators.py:_fmap,_alt,_bind,_seq_h,_maybe,_many,_attempt,_label,_recover,_recover_with_fn", "src/reparsec/core/repair.py", "src/reparsec/core/primitive.py", "src/reparsec/core/sequence.py", "src/reparsec/core/scannerless.py", "src/reparsec/core/layout.py", "src/reparsec/types.py:ResultWrapper.unwrap", "src/reparsec/parser.py:Parser.parse,Delay"]}
{"id": "C61", "title": "Recovery does not change the side effects of callbacks", "statement": "Callbacks may read and write state of the user's, and their results may depend on it (symbol tables, counters, logs). If p.parse(s) gives a value, p.parse(s, recover=True) gives the same value and leaves the state the same; the same callbacks have been called in the same order, each finding the same state. The converse holds when unwrap() reports no error. If plain parsing raises an exception other than ParseError, recovering raises the same exception in the same state; if it does not return, neither does recovering. If plain parsing fails, recovering fails too (unwrap() raises), and before it does anything else to the state it makes exactly the calls that plain parsing makes.", "quantifier": "every parser, recursive definition, callback (with arbitrary effects on an arbitrary state, possibly raising), input, get_loc, max_insertions and initial state", "why_tests_cant": "It quantifies over all callbacks and states, and over every point at which an error can occur.", "anchors": ["src/reparsec/core/combinators.py:_alt,_alt_fast,_bind,_bind_fast,_fmap,_fmap_fast,_many,_many_fast,_attempt,_maybe,recover_with_fn", "src/reparsec/core/sequence.py:satisfy", "src/reparsec/core/primitive.py:PureFn", "src/reparsec/parser.py:Parser.parse"]}
{"id": "C62", "title": "Callbacks that only write state may be taken as functions", "statement": "If what the callbacks return or raise depends only on their arguments, then whatever they do to some state (logging, counting, filling tables read later), parse returns, raises or hangs exactly as it does with the callbacks taken as functions without effects; in particular independently of the state at the beginning and of earlier calls of parse, and adding such effects to the callbacks of a parser changes nothing it returns. Every property listed here for callbacks without effects therefore holds for them.", "quantifier": "every parser and recursive definition whose callbacks are such, every state, input, mode, budget and get_loc", "why_tests_cant": "It is an equivalence of two semantics for all parsers, callbacks and states.", "anchors": ["src/reparsec/core/combinators.py", "src/reparsec/core/recovery.py:continue_parse", "src/reparsec/core/result.py:Recovered.fmap", "src/reparsec/parser.py:Parser.parse"]}
{"id": "C63", "title": "Without recovery callbacks are called in parse order, and their effects are never taken back", "statement": "p.parse(s) with callbacks that read and write state of the user's: the state is threaded through the parse from left to right. Each predicate is called once per token it is asked about; map/bind callbacks once after their parser succeeded, with the state it left; the second alternative of p | q starts in the state that the failed first one left (nothing is undone by | , maybe, many or attempt); an exception of a callback ends the parse in the state the callback left. The value or error, the position, the expected list, the state afterwards and the sequence of calls are exactly those given by these rules; parse does not return if and only if the rules give no outcome; and they give at most one.", "quantifier": "every parser, recursive definition, callback (with arbitrary effects on an arbitrary state, possibly raising), input and initial state; the default get_loc, the text and token ones, and any get_loc for parsers without layout combinators", "why_tests_cant": "It is an exact characterisation of all runs, for all callbacks and states.", "anchors": ["src/reparsec/core/combinators.py:_alt_fast,_bind_fast,_fmap_fast,_many_fast,_attempt_fast,_maybe_fast,_seq_fast", "src/reparsec/core/sequence.py:satisfy", "src/reparsec/core/primitive.py:PureFn", "src/reparsec/parser.py:Parser.parse"]}
{"id": "C64", "title": "Without recovery and unbounded lookahead, callbacks are called at most linearly often", "statement": "For a grammar of finitely many Delay objects that is not left-recursive, p.parse(s) returns or raises whatever the callbacks do. If moreover it does not use bind, and attempt only around parsers that read a fixed amount of input (no many, no Delay inside), there is a constant K, depending on the grammar only, such that the callbacks (predicates of satisfy, functions of fmap and of PureFn) are called at most K * (len(s) + 1) times in total, on every input. With attempt around a recursive parser the number of calls can be exponential.", "quantifier": "every such grammar, every input of any length, every behaviour of the callbacks and initial state, every get_loc", "why_tests_cant": "It is an asymptotic bound: a constant for all inputs of all lengths.", "anchors": ["src/reparsec/core/combinators.py:_alt_fast,_seq_h_fast,_many_fast,_maybe_fast,_attempt_fast,_fmap_fast", "src/reparsec/core/sequence.py:satisfy", "src/reparsec/parser.py:Parser.parse,Delay"]}
{"id": "C65", "title": "With recovery callbacks are called exactly as the repair rules say: for every candidate, in order, kept or not", "statement": "p.parse(s, recover=True, max_insertions=k) with callbacks that read and write state of the user's: the state is threaded through the search for repairs. A predicate is called on one token after the other up to the first that passes; a mapped function is called once per candidate repair, in their order; what follows a failed parser is run once per candidate, in order, each run starting in the state the previous one left; both alternatives of p | q are first run without repairs and only if both fail again with repairs, from the state the failed runs left; an exception in any candidate ends the whole parse. Nothing is undone when a candidate is dropped or not chosen. The repairs, their costs, operations, positions, values and expected lists, the state afterwards and the sequence of calls are exactly those given by these rules; parse does not return if and only if the rules give no outcome; and they give at most one.", "quantifier": "every parser, recursive definition, callback (with arbitrary effects on an arbitrary state, possibly raising), input, budget and initial state; the default get_loc, the text and token ones, and any get_loc for parsers without layout combinators", "why_tests_cant": "It is an exact characterisation of all recovering runs, for all callbacks and states.", "anchors": ["src/reparsec/core/combinators.py:_alt,_bind,_fmap,_many,_attempt,_maybe,_seq,_continue_parse,_join_repairs,_recover,_recover_with", "src/reparsec/core/sequence.py:satisfy,sym", "src/reparsec/core/recovery.py", "src/reparsec/parser.py:Parser.parse"]}
{"id": "C66", "title": "Parsers may be shared between threads, and parsing may be interrupted at any point", "statement": "Any number of threads call parse on parsers they share (parsers do not change while parsing), with their own streams and options. However the single steps of the threads (creating a result, repair or operation object, reading one of its attributes, assigning to it) are interleaved: a thread that returns holds a result that has, from then on, exactly the attributes it has when the thread is alone, and it raises an exception if and only if it does so alone. Objects that existed before, such as results of earlier parses, never change, also if a thread is interrupted (KeyboardInterrupt, killed) between two steps and never goes on. No thread waits for another, each can run to its end while the others stand still, and no thread takes infinitely many steps.", "quantifier": "every family of parses (of any size), parser, recursive definition, stream, options, initial memory, interleaving of steps and point of interruption", "why_tests_cant": "The interleavings and points of interruption are unboundedly many; races do not show up in tests.", "anchors": ["src/reparsec/core/result.py:Ok,Error,Recovered", "src/reparsec/core/repair.py:Repair,make_pending_recovery", "src/reparsec/core/recovery.py", "src/reparsec/core/combinators.py", "src/reparsec/parser.py:Parser.parse"]}
{"id": "C67", "title": "The recursion limit: a parse that fits into the stack is unaffected, one that does not raises RecursionError", "statement": "CPython raises RecursionError when calls are nested too deeply. Whatever the limit is, every call of parse ends, also with a left-recursive grammar: it returns or raises. A limit changes what the call does only to RecursionError; a larger limit never changes any other outcome; a call that ends without a limit needs only a fixed number of frames, and a call that would not end raises RecursionError under every limit. Without recovery a parser built without Delay needs no more frames than its expression is high, however long the input is; the same holds with recovery if the input is accepted. With recovery and errors in the input the number of frames is at most linear in the length of the input, and it does grow: for every limit there is an input with so many errors that (sym('a') >> satisfy(..)).many() raises RecursionError instead of repairing them. Likewise for every limit there is an accepted input of a recursive grammar that nests too deeply.", "quantifier": "every limit, parser, recursive definition, input, mode, max_insertions and get_loc", "why_tests_cant": "The limit, the input and the grammar range over infinitely many values; that a parse needs no more than a fixed number of frames for all inputs cannot be observed in finitely many runs.", "anchors": ["src/reparsec/parser.py:Parser.parse,Delay", "src/reparsec/core/combinators.py:many,bind,_seq", "src/reparsec/core/recovery.py:continue_parse"]}
{"id": "C68", "title": "Delay objects may be defined while other threads build and run parsers, up to 'was not defined'", "statement": "Any number of threads create Delay objects, build parsers from them, call define (each Delay object is defined by one expression) and run parsers; define is not one step but reads and sets _defined, calls to_fns of its argument and assigns _fns, and any thread may be stopped for good between two steps. Whatever a parser object does when it is run, also while definitions change under it, is what the expression it was built from does with every Delay read as its definition, or else it raises RuntimeError('Delayed parser was not defined'): no parser ever returns something that comes from half a definition. A parser whose Delay objects have been defined completely, and which was not built while one of these was halfway defined, does exactly what its expression does, whatever other threads do meanwhile. Undisturbed, define does in several steps what C21 takes it to do in one. Defects: a define interrupted between its two assignments leaves a Delay that raises 'was not defined' when run and 'already defined' when defined again, forever; a parser built from a Delay by another thread at that moment raises 'was not defined' forever even after the definition was finished; two threads may both get past the check.", "quantifier": "every number of threads, interleaving of their steps, point of interruption, expression, order of definitions, input, mode, max_insertions and get_loc", "why_tests_cant": "Interleavings and points of interruption are unboundedly many and not under the control of a test; the window between the two assignments is a few bytecodes wide.", "anchors": ["src/reparsec/parser.py:Delay.define,Delay.to_fns,Delay.parse_fn,Delay.parse_fast_fn", "src/reparsec/core/parser.py:ParseObj.to_fns"]}
{"id": "C69", "title": "Every exception is accounted for", "statement": "An exception that leaves parse was raised by a function the user supplied, applied to arguments that really occur there: the function of fmap/bind, a predicate, an insertion function, a value thunk, applied to a value its parser gives at a position the grammar reaches (without edits if recovery is off, after some edits if it is on), or by a regular expression that lacks the requested group, or it is one of the library's two RuntimeErrors: a Delay that is not defined is reached, or an item of many has accepted the empty string. Nothing else is ever raised. If the functions raise only exceptions of some set E when applied to values their parsers can give, every Delay is defined and no item of many accepts the empty string, then parse raises only exceptions in E. So if the functions do not raise, every Delay is defined and no item of many accepts the empty string, nothing is raised, on any input, in any mode, with any budget and any get_loc; without left recursion parse(..).unwrap() then always gives a value or a ParseError.", "quantifier": "all parsers, inputs, budgets, both modes, all get_loc functions", "why_tests_cant": "All grammars, inputs and callbacks; recovery runs callbacks on values of hypothetical repairs.", "anchors": ["src/reparsec/core/combinators.py", "src/reparsec/core/sequence.py", "src/reparsec/core/scannerless.py", "src/reparsec/core/parser.py:Delay", "src/reparsec/parser.py:FnParser"]}
{"id": "C70", "title": "The calculator of the README computes the values of expressions", "statement": "For the parser of README.md (tests/parsers/expr.py): parser.parse(s).unwrap() returns v if and only if s is an arithmetic expression whose value is v (numbers, parentheses, * binding more tightly than + and -, left associativity, spaces after every token and none in front); an expression has only one value. In terms of trees: however an expression tree is written out (any spaces after its tokens, the parentheses that precedence and associativity require, any further pairs), the calculator returns its value, and it accepts nothing else. With recover=True expressions give the same value without errors; for any other text, if unwrap(recover=True) returns v, then v is the value of the expression that results from the text by the reported edits, and parsing this edited text gives v without errors. The only exceptions raised are those of int on a number in the text; if there are none parse returns for every text in both modes.", "quantifier": "all texts, all classes of digits and spaces that are disjoint and contain none of ( ) * + -, all int functions, both modes, all budgets, default and scannerless locations", "why_tests_cant": "All texts: the test suite checks a dozen expressions.", "anchors": ["README.md:26-58", "tests/parsers/expr.py", "src/reparsec/parser.py:chainl1,between,Delay"]}
{"id": "C71", "title": "Errors are found as early as possible (correct prefix property)", "statement": "Without recovery and without attempt, for parsers whose terminals look at one element ahead (sym, satisfy, eof, literals of length one, regular expressions that look at no more than the element after their match): if p.parse(s) fails at position q, every input with the same first q+1 elements (or ending at the same place) fails with the same error, so the text after the error plays no role and no input that begins like that is accepted; a success that ends at j depends only on the first j+1 elements. For LL(1) grammars no word of the grammar begins with the elements up to and including the one at q. If every part of the grammar has a word and no mapped function raises, what was read before q begins a word of the grammar (also with attempt, long literals and grammars that are not LL(1)). So for LL(1) grammars the position of the error is the length of the longest prefix of the input that begins a word; in particular for the calculator of the README.", "quantifier": "all grammars of the class, all inputs, all continuations of the input; default and scannerless locations", "why_tests_cant": "It quantifies over all grammars, all inputs and all possible continuations of the part of the input already read.", "anchors": ["src/reparsec/core/combinators.py:alt,bind,seq,many,maybe,label", "src/reparsec/core/primitive.py", "src/reparsec/core/sequence.py", "src/reparsec/core/scannerless.py", "README.md:26-58"]}
{"id": "C72", "title": "Candidate repairs multiply: recovery can take exponential time and memory", "statement": "Candidates are never dropped in favour of better ones that stop at the same place. For (sym(x) + sym(y)).many() << eof() and an input of n damaged pairs x x y (3n tokens, n >= 1), parse(s, recover=True, max_insertions=k) with k != 0 returns a Recovered result with exactly 2^n repairs, all of which stop at the end of the input and have cost n; so no polynomial in the length of the input bounds the number of repairs the result holds (or the time it takes to compute them).", "quantifier": "all token types, all pairs of distinct symbols and labels, all n, all budgets but 0, all get_loc functions", "why_tests_cant": "The growth rate is a statement about all sizes; the tests contain texts with at most a few errors.", "anchors": ["src/reparsec/core/recovery.py:continue_parse", "src/reparsec/core/combinators.py:many,bind", "src/reparsec/core/sequence.py:sym"]}
{"id": "C73", "title": "then builds flat tuples of up to eight values, apply passes them as arguments", "statement": "p.then(q1)...then(qn) with two to eight parsers succeeds iff the parsers succeed one after the other, and returns the flat tuple of their values in order; apply(fn) calls fn with exactly these values as arguments. In both modes every value the result holds, also that of every candidate repair, is a tuple with as many components as there are parsers, each derivable by its parser from its part of the (edited) input. A ninth then raises AttributeError (Tuple8 has none). (p + q).then(r) is not flat: it returns ((a, b), c), and p + q has no apply.", "quantifier": "all parsers, all inputs and positions, all numbers of parsers, both modes", "why_tests_cant": "tests/test_tuples.py checks one input per arity with single-character parsers and no recovery; the claim ranges over all parsers, all inputs and all candidate repairs.", "anchors": ["src/reparsec/parser.py:TupleParser,Tuple2,Tuple3,Tuple4,Tuple5,Tuple6,Tuple7,Tuple8", "src/reparsec/core/combinators.py:tuple3,tuple4,tuple5,tuple6,tuple7,tuple8"]}
{"id": "C74", "title": "Raising max_insertions never loses repairs", "statement": "If parse(recover=True, max_insertions=k2) returns, then so does the call with any smaller limit k1 (a negative limit means no limit), and: a success is the same success; an error with k1 is an error or a list of repairs with k2; repairs found with k1 are all found with k2, in the same order, with the same operations at the same locations, the same value, cost, end and expected list. So what unwrap(recover=True) could repair with k1 it can repair with k2, at no greater cost. This holds for parsers that use attempt or recover_with, but not both; with both it is false (C74_false: a repair of cost 2 is lost when the limit is raised from 1 to 2).", "quantifier": "all parsers using at most one of attempt and recover_with/recover_with_fn, all inputs, all pairs of limits, default/scannerless/lexer locations and any get_loc without layout", "why_tests_cant": "A test compares two limits on one grammar and input; the claim ranges over all of them, and every candidate.", "anchors": ["src/reparsec/core/combinators.py:bind,seq,alt,many,attempt,recover_with,recover_with_fn", "src/reparsec/core/recovery.py:continue_parse,join_repairs", "src/reparsec/core/repair.py:make_insert,make_user_insert", "src/reparsec/core/sequence.py:sym"]}
{"id": "C75", "title": "The JSON parser of the tests computes the values of JSON texts", "statement": "For the parser of tests/parsers/json.py over tokens: parse(parser, tokens).unwrap() returns v if and only if the tokens are a JSON text whose value is v (scalars by unescape, int and float; lists; objects, where dict keeps each key once, in the order of first occurrence, with its last value); a JSON text has only one value. loads(src) returns v if and only if src splits into tokens that are the JSON text of v. With recover=True JSON texts give the same value without errors; for other tokens, if unwrap(recover=True) returns v, then v is the value of the JSON text that results from the tokens by the reported edits (with 1 for an inserted value and \"a\" for an inserted key), and parsing that gives v without errors. The only exceptions raised are those of unescape, int and float on tokens of the input; if there are none parse returns for all tokens in both modes.", "quantifier": "all token sequences, all lexer specifications, all functions unescape, int and float, both modes, all budgets; every get_loc for accepted input, lexer.parse locations for repaired input", "why_tests_cant": "All token sequences: the test suite checks some forty texts.", "anchors": ["tests/parsers/json.py:parser,value,json_dict,json_list,loads", "src/reparsec/lexer.py:parse,token,split_tokens", "src/reparsec/parser.py:sep_by,between,recover_with,Delay"]}
{"id": "C76", "title": "get_loc only decides which locations are reported", "statement": "For a parser without the layout combinators (block, same, indented): calls of parse that differ only in get_loc (two arbitrary functions, also ones that are not monotone or that ignore the stream) do the same up to locations, with and without recover=True and for every max_insertions: both return the same success (value, end, expected), the same error (expected, consumed) or the same candidate repairs in the same order (operations, cost, value, end, expected); both raise the same exception; or neither returns. unwrap() gives the same value or errors that differ in their locations only. In particular lexer.parse and scannerless.parse report, for every error and every repair operation, the token location or the exact line and column of the position that plain parse reports.", "quantifier": "all grammars without layout combinators, all inputs, both modes, every max_insertions, every pair of get_loc functions", "why_tests_cant": "A test compares two get_loc functions on some inputs; that no location ever flows into a decision (choice of an alternative, of a repair, of an insertion) is a non-interference property over all functions, grammars and inputs.", "anchors": ["src/reparsec/core/types.py:Ctx.get_loc,Ctx.update_loc", "src/reparsec/parser.py:Parser.parse", "src/reparsec/scannerless.py:parse", "src/reparsec/lexer.py:parse"]}
{"id": "C77", "title": "The indentation-sensitive parser of the tests computes the values of indented documents", "statement": "For the parser of tests/parsers/yamlish.py: scannerless.parse(parser, text).unwrap() returns v if and only if the text is a document with the value v: spaces only (the empty dict), or spaces up to column 0 of some line and entries 'key: value' in column 0, where a value is an identifier or a line break and entries exactly 4 columns further to the right, an entry ends with a line break that leads to the column of the next entry (of whatever block) or with the end of the text, and dict keeps each key once, with its last value. A document has only one value; recover=True gives the same value and no errors. For every text parse returns in both modes, without exceptions; unwrap() raises ParseError exactly for the texts that are no documents.", "quantifier": "all texts, every class of spaces \\s that contains no letter or underscore, both modes, all budgets", "why_tests_cant": "All texts with all depths of nesting and all columns: the test suite checks four documents.", "anchors": ["tests/parsers/yamlish.py:parser,pair,pairs,value,loads", "src/reparsec/layout.py:aligned,indented", "src/reparsec/scannerless.py:parse,regexp"]}
{"id": "C78", "title": "iter_tokens gives the tokens one by one, before it raises", "statement": "Calls of next on iter_tokens(src, spec) give exactly the tokens of the successive matches of spec that have a named group, in order and with exact locations; after the last one StopIteration, if the matches exhaust the source, or LexError with the exact location of the first position where nothing matches; after that StopIteration for ever. split_tokens returns these tokens, or raises this LexError. A call of next does not return if and only if it comes to an empty match without a named group; at an empty match with a named group, next gives the same token for ever (where split_tokens never returns).", "quantifier": "all sources and lexer specifications, all numbers of calls of next", "why_tests_cant": "All sources, specifications and numbers of calls; a generator that does not return or does not end cannot be tested.", "anchors": ["src/reparsec/lexer.py:iter_tokens,split_tokens,LexError"]}
{"id": "C79", "title": "Parsing with recovery ends, whatever the callbacks do", "statement": "For a grammar that is not left-recursive (no infinite chain of Delay objects each of which may call the next before consuming anything, in whatever state the callbacks may have put things), p.parse(s, recover=True, max_insertions=k) with k >= 0 returns or raises on every input, also when the callbacks (predicates, functions of fmap, bind, PureFn and recover_with_fn) read and write shared state and their results depend on it, so that the same parser run twice at the same place, as happens during recovery, does different things. Without Delay objects it does so with every k.", "quantifier": "every such grammar, every input of any length, every max_insertions >= 0, both modes, every get_loc, every behaviour of the callbacks, every initial state", "why_tests_cant": "Termination for all inputs and all behaviours of callbacks; a test can only see that one run ended.", "anchors": ["src/reparsec/core/combinators.py:_alt,_bind,_seq_h,_many,_maybe,_attempt,_recover_with,_recover_with_fn", "src/reparsec/core/recovery.py:continue_parse", "src/reparsec/core/sequence.py:satisfy,sym,eof", "src/reparsec/core/scannerless.py:literal,regexp", "src/reparsec/parser.py:Parser.parse,Delay"]}
{"id": "C80", "title": "The scannerless JSON parser accepts exactly JSON texts, with their values", "statement": "loads(src) of the scannerless JSON parser of the tests (scannerless.parse(parser, src).unwrap()) returns v if and only if src is optional white space followed by a JSON text of the value v: a mark or word may be followed by white space; numbers have no leading zeros and a dot or exponent is followed by digits; strings contain no control characters and only the escapes of JSON; lists and objects have items separated by commas, with no trailing comma; of several equal keys the last value counts. (One deviation from RFC 8259: strings are not empty.) A text has only one value. With recover=True the value is the same and no error is reported. If unescape, int and float do not raise on parts of the text of their form, parse returns on every text in both modes, and loads raises ParseError exactly on the texts that are no JSON texts; otherwise the only exceptions are theirs. If recover=True and errors are reported, the value returned is that of the JSON text which results from the input by the reported edits, and parsing that text again gives the same value (int must read 1, and unescape leave a alone, as these are the values the parser inserts).", "quantifier": "every text of any length and nesting depth, every unescape, int and float function, both modes, every max_insertions >= 0", "why_tests_cant": "The tables of the tests sample some texts; that the ordered choice of overlapping regular expressions (number before integer), committed choice and white space handling together accept exactly the grammar needs an argument about all texts.", "anchors": ["tests/parsers/json_scannerless.py:parser,loads,token,punct", "src/reparsec/core/scannerless.py:literal,regexp", "src/reparsec/scannerless.py:parse", "src/reparsec/parser.py:Parser.sep_by,Parser.between,Parser.recover_with,Delay.define"]}
{"id": "C81", "title": "The lexer-based and the scannerless JSON parser agree on every text", "statement": "loads(src) of tests/parsers/json.py (split_tokens with a regular expression of named groups, then a parser of tokens) returns v if and only if src is a JSON text of the value v, and so if and only if loads(src) of tests/parsers/json_scannerless.py returns v. Its lexer splits every text into tokens: it raises no LexError and always ends. If unescape, int and float do not raise on parts of the text of their form, parse returns in both modes on every text, and both parsers raise ParseError on the same texts; otherwise the only exceptions are those of these functions.", "quantifier": "every text of any length and nesting depth, every unescape, int and float function", "why_tests_cant": "Equality of two languages and of the values over all texts: maximal munch, the order of the groups of the lexer, white space and ordered choice must fit together; the tests compare both parsers on a few texts only.", "anchors": ["tests/parsers/json.py:spec,parser,loads", "tests/parsers/json_scannerless.py:parser,loads", "src/reparsec/lexer.py:split_tokens,iter_tokens,token,parse", "src/reparsec/scannerless.py:parse,literal,regexp"]}
{"id": "C82", "title": "regexp finds what the regular expression describes", "statement": "For regular expressions of classes of characters, sequences, alternatives, greedy repetition and groups: wherever regexp(pat, group) is tried, it reads exactly the preferred match at that place (alternatives from left to right, one more repetition before none), and its value is the whole match, or the last text of the group; the text read is described by the expression, the text of a group by the expression of the group; it fails if and only if no beginning of the rest of the text is described by the expression (or the group took no part), so no match is missed; it never raises and always ends, also for repetitions of what may match nothing; with recovery it offers to skip to the nearest place with a match. With their regular expressions as written, the JSON parsers, the yamlish parser of the tests and the calculator of the README accept exactly the texts of C80, C81, C77 and C70, with the same values. The preferred match is not given up for what follows: regexp(r'a|ab') << eof() rejects 'ab'.", "quantifier": "every regular expression of that form, every text and position, both modes; for the parsers of the tests every text", "why_tests_cant": "Whether a backtracking search finds a match whenever there is one, and whether a repetition ever has to give characters back, are statements about all texts and all nestings of repetition and alternative.", "anchors": ["src/reparsec/core/scannerless.py:regexp,_regexp,_regexp_fast", "src/reparsec/scannerless.py:regexp", "src/reparsec/lexer.py:iter_tokens", "tests/parsers/json_scannerless.py:token,ows,parser", "tests/parsers/json.py:spec", "tests/parsers/yamlish.py:eol,ows,ident,colon", "README.md:26-58"]}
{"id": "C83", "title": "Looking at a result needs no more stack than parsing did", "statement": "The descriptions of what was expected are kept in nested objects that are only iterated when an error is looked at, one generator inside the other. What is iterated is exactly the list of descriptions that the other properties speak of, in the same order; iterating needs as many stack frames as objects are nested. If parse returned a result within d stack frames, then unwrap, called from the same place, never raises RecursionError: it returns the value or raises ParseError with the full lists. For parsers without Delay the nesting is bounded by the height of the parser expression, in both modes, for every input and every number of errors, so many() and recovery do not make results that cannot be looked at. For recursive parsers there is no such bound: for every number of frames there is an input whose error cannot be reported within that number of frames, so unwrap must be called with as much stack as parse.", "quantifier": "every parser, Delay environment, input, mode, stack limit, result, fmt_loc; the bound for parsers without Delay ranges over all inputs", "why_tests_cant": "How deep lazily concatenated descriptions nest depends on the length of the input, the number of repetitions and errors and the nesting of the grammar; a test sees one of them.", "anchors": ["src/reparsec/core/chain.py:Append,__iter__", "src/reparsec/types.py:ResultWrapper.unwrap", "src/reparsec/core/result.py:prepend_expected", "src/reparsec/core/repair.py:ops_prepend_expected", "src/reparsec/core/recovery.py:continue_parse,join_repairs", "src/reparsec/core/combinators.py:alt,many,bind"]}
{"id": "C84", "title": "Parsers that behave in the same way can be exchanged anywhere", "statement": "If parts of a parser, any number of them and anywhere in it (also in the parsers a bind callback returns), are exchanged for parsers that behave in the same way, then the whole behaves as before, in both modes: same results, same errors, same repairs, same exceptions, and it hangs on the same inputs. So the laws of C16 to C21 may be used inside any parser. If parts of the definitions of Delay objects are exchanged, the new program returns or raises only what the old one did, and does exactly the same wherever it does not hang, in particular if the new grammar has no left recursion. Delay objects may always be replaced by their definitions, in definitions too, without any change. Putting a Delay object in the place of a parser that behaves as it does can make the program hang.", "quantifier": "every parser, every set of (mutually recursive) definitions, any number of exchanged parts at any depth, every input, mode, max_insertions and get_loc", "why_tests_cant": "That no combinator looks at how a part is made, or does something with it that its behaviour does not determine, is a statement about all contexts and all pairs of equivalent parsers; and exchanging parts of a recursive definition changes the behaviour of the part itself.", "anchors": ["src/reparsec/core/parser.py:ParseFns,ParseObj", "src/reparsec/parser.py:Parser,Delay,bind,seq,alt,maybe,many,attempt,label,recover,recover_with,recover_with_fn", "src/reparsec/core/combinators.py:*", "src/reparsec/core/layout.py:*"]}
{"id": "C85", "title": "With callbacks that have side effects, parsers that do the same can be exchanged anywhere", "statement": "The callbacks given to satisfy, fmap, bind, PureFn and recover_with_fn may read and write some state of the user's. If parts of a parser are exchanged for parsers that do the same (from every state and at every position they return or raise the same and leave the same state), then the whole does the same as before, in both modes: same result or exception, same state afterwards, and it hangs in the same cases. Without recovery it is enough that the parts do the same without recovery. If parts of the definitions of Delay objects are exchanged, the new program does only what the old one did, and the same wherever it ends, in particular if the new grammar has no left recursion. Delay objects may always be replaced by their definitions.", "quantifier": "every parser and every callbacks with any state, every set of definitions, any number of exchanged parts at any depth, every input, initial state, mode, max_insertions and get_loc", "why_tests_cant": "It speaks of all contexts in which a parser can occur, including those that run it several times or on the candidates of another parser, and of the user's state at every moment in between.", "anchors": ["src/reparsec/core/parser.py:ParseFns,ParseObj", "src/reparsec/parser.py:Parser,Delay,bind,fmap,alt,seq", "src/reparsec/core/combinators.py:fmap,alt,bind,many,attempt,recover_with_fn", "src/reparsec/core/recovery.py:continue_parse"]}
{"id": "C86", "title": "The laws of the combinators with callbacks that have side effects", "statement": "With callbacks that read and write a state, p.fmap(identity) is p; Pure(x).bind(f) is f(x) and p.bind(Pure) is p; p.maybe() is choice with Pure(None); +, << and >> are bind followed by fmap; the outer label wins: all in both modes, with the same results and the same state afterwards. Without recovery also p.fmap(c).fmap(d) is p.fmap of c and then d, bind is associative and choice is associative, with callbacks of any kind. With recovery these three hold for accepted inputs, and otherwise do not: for an input with errors the callbacks are called in another order, or another number of times.", "quantifier": "every parser p, q, r, every callback with any state, every input, initial state, position, mode", "why_tests_cant": "A law is about all parsers and callbacks; that the order of calls is kept without recovery but not with it shows only for particular combinations of errors and callbacks.", "anchors": ["src/reparsec/core/combinators.py:fmap,alt,bind,seq,maybe,label", "src/reparsec/core/result.py:Ok,Error,Recovered", "src/reparsec/core/recovery.py:continue_parse", "src/reparsec/core/primitive.py:Pure"]}
{"id": "C87", "title": "How the user keeps their state does not matter", "statement": "If the callbacks of a grammar are replaced by callbacks that work on another representation of the user's state (a dictionary for a list, a state with an additional log or counter, ...), such that from states that correspond to each other they return or raise the same and leave states that correspond, then parsing from states that correspond returns or raises the same, in both modes, and leaves states that correspond; and it hangs exactly if it hung before. So the library uses the state only through the callbacks, and passes nothing else from one call to the next.", "quantifier": "every parser, every two state types and every relation between them, every pair of corresponding callbacks, every set of definitions, input, mode, max_insertions and get_loc", "why_tests_cant": "A test runs one program with one representation; the property relates two programs over all inputs and all relations between their states.", "anchors": ["src/reparsec/core/combinators.py:fmap,bind,recover_with_fn", "src/reparsec/core/sequence.py:satisfy", "src/reparsec/core/primitive.py:PureFn", "src/reparsec/parser.py:Parser.parse,Delay"]}
{"id": "C88", "title": "Strings and integers in JSON texts mean what JSON says", "statement": "unescape(s) of the JSON parsers of the tests returns, for every string s, the string in which every escape (a backslash and one of \"\\/bfnrt, or u and four hexadecimal digits of either case) is replaced by the character it stands for and everything else is kept, from left to right; it never raises. So both JSON parsers read a string literal as the string that the text between the quotes stands for, and an integer literal as its decimal value; the only exceptions that can leave them are those of float on a number of the text.", "quantifier": "every string, every string literal and every integer literal of any length", "why_tests_cant": "The tests have one escape (\\n). That matches of the expression never overlap wrongly (an escaped backslash before an n), that lastgroup picks the right branch, and that every four digits have the right value is a statement about all strings.", "anchors": ["tests/parsers/json_scannerless.py:escape,simple,unescape,string,integer", "tests/parsers/json.py:escape,simple,unescape"]}
{"id": "C89", "title": "loads undoes json.dumps", "statement": "For every value v built from None, bool, int, float, str, list and dict, and every choice of ensure_ascii, indent and separators (a comma and a colon with any white space), loads(json.dumps(v, ...)) == v for both JSON parsers of the tests, also with recover=True and then without reported errors, if float(repr(x)) == x for the floats in it, no string in it is empty, and, with ensure_ascii, no character is beyond the basic plane. So two different values are never written in the same way, and reading and writing again gives the same text. The two conditions on strings are needed: empty strings are rejected, and surrogate pairs are not joined.", "quantifier": "every value of any size and nesting depth, all options of json.dumps, both parsers, both modes", "why_tests_cant": "A round trip over all values is an induction over values; the tests contain 16 texts.", "anchors": ["tests/parsers/json_scannerless.py:parser,loads,unescape", "tests/parsers/json.py:parser,loads,unescape,spec", "src/reparsec/core/scannerless.py:literal,regexp", "src/reparsec/parser.py:Parser.sep_by,Parser.between,Delay.define"]}
{"id": "C90", "title": "Nested grammars: recovery always finds a repair if max_insertions is large enough for the input", "statement": "Brackets that may be nested have no constant bound on the insertions that a repair needs at one place (C56), but a bound that grows with the input: each bracket left open was read from the input. Give for each part of a grammar the insertions needed where it begins, and a function rest(m) for any later place, m being the number of elements left where the part begins; a part that comes after something was read is counted with fewer elements left; what is optional, repeated, or a later alternative than one that is always repaired needs nothing where it begins. If such numbers exist with bound k(m), then with recover=True and max_insertions >= k(len(input)) parse(input).unwrap(recover=True) never raises ParseError. Every grammar that C56 covers is covered. For both JSON parsers of the tests k(m) = m+1: if max_insertions is greater than the number of tokens (characters), every input whatever is repaired unless unescape, int or float raise; the value is that of the JSON text that the reported edits give. The bound is sharp for nested brackets and for `{\"a\"`; with the default max_insertions=5, six open brackets are not repaired.", "quantifier": "all grammars meeting the condition (any combinators, recursive Delay objects), all inputs, all max_insertions >= the bound, all get_loc; the JSON parsers: all token sequences and all texts, all unescape, int and float", "why_tests_cant": "Every input, of any length and nesting depth and including every kind of garbage, must be repaired.", "anchors": ["src/reparsec/core/recovery.py:continue_parse,join_repairs", "src/reparsec/core/combinators.py", "src/reparsec/core/primitive.py", "src/reparsec/core/sequence.py", "src/reparsec/core/scannerless.py", "src/reparsec/types.py:ParseResult.unwrap", "tests/parsers/json.py", "tests/parsers/json_scannerless.py"]}
{"id": "C91", "title": "The default labels say exactly what is inserted", "statement": "repr(s), the label of sym(s), literal(s) and recover_with(s) if the user gives none, is a Python string literal that denotes s and nothing else; so different symbols and literals have different labels. It has printable characters only (so no line breaks); a string of printable characters without quotes and backslashes is shown as it is in single quotes; double quotes are used just for strings with single quotes and no double quotes. If the labels of a grammar are the default ones, the reported errors can be carried out on the text mechanically: skipping what is to be skipped and inserting what the label denotes, read as a string literal (ast.literal_eval), gives a text of the language, with the value that unwrap(recover=True) returns.", "quantifier": "all strings (of characters, whichever of those beyond ASCII are printable), all grammars with default labels, all texts, all max_insertions", "why_tests_cant": "Quantifies over all strings, all grammars and all texts.", "anchors": ["src/reparsec/core/sequence.py:sym", "src/reparsec/core/scannerless.py:_literal", "src/reparsec/core/combinators.py:recover_with", "src/reparsec/core/combinators.py:recover_with_fn", "src/reparsec/types.py:ParseError"]}
