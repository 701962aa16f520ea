# A Lean 4 model of reparsec, and what is proved about it

## Layout

* `lean/Verif/Model/` — the model, file by file after `/repo/src/reparsec`:
  `Out` (Python control flow as values), `Core` (`core/types|chain|repair|result|recovery|parser.py`),
  `Prims` (`core/primitive|sequence|scannerless.py`), `Combs` (`core/combinators|layout.py`),
  `Parser` (parser objects, `parser.py`, `types.py`, `scannerless.py`, ...), `Lexer` (`lexer.py`),
  `Delay` (`Delay` objects with a history of `define` calls, `parser.py:740-806`),
  `Heap` (a second model of everything, with result objects on a heap and every in-place update
  of the code as an assignment).
* `lean/Verif/Spec/` — small specifications, written without reference to the model's helpers.
* `lean/Verif/Lemmas/` — invariants and helper lemmas.
* `lean/Verif/Props/` — the property theorems, with examples showing the hypotheses are met.
* `lean/Verif/Tests/` — the documentation examples and test tables of `/repo`, evaluated in the
  model by the kernel (these are tests of the model, not proofs of properties).

## How the code is modelled

Each combinator is a function on pairs of parse functions (`ParseFns`: the plain one and the
recovering one), as in `core/`.  Parser objects are the inductive family `P τ ρ Γ α`
(stream elements `τ`, `Delay` objects `ρ` with value types `Γ`), with one constructor per public
parser/combinator; `denote env fuel p` composes the `core/` functions.  "For every parser" is
"for every `p : P ..` and every environment `env` of `Delay` definitions".

Possibly non-terminating code (`many`'s loop, `Delay` recursion, the lexer's loop) takes fuel and
yields `Out.diverge` when it runs out; theorems hold for every fuel, and termination theorems say
that some fuel suffices (and then every larger one gives the same).  Exceptions are values
(`Out.raise`).  User callbacks (`fmap`'s, `satisfy`'s, `bind`'s, `PureFn`'s, `recover_with_fn`'s,
chain operators) may raise.

Invariants are lifted from combinators to all parsers by one induction principle
(`Lemmas/Induct.lean`): a predicate closed under every combinator holds of every parser.

## Plan per property

| Property | What is modelled | How it is proved |
|---|---|---|
| C01-C03 modes agree | both parse functions of every combinator, `parse`, `unwrap` | simulation between the plain and the recovering function (`Lemmas/Sim`), closed under every combinator, hence for every parser |
| C04 errors describe something | repairs, `unwrap` | invariant "every repair has at least one operation"; cases of `unwrap` |
| C05, C06 positions, consumption | positions, `consumed` | frame invariant (`Lemmas/Frame`) |
| C07, C08, C09 choice, attempt, maybe | `alt`, `attempt`, `maybe`, both modes | complete case analysis for arbitrary argument parsers |
| C10, C11 many | the loop of `many`, with fuel | induction on the iterations, in both directions (`iff`) |
| C12 sep_by, C13 chainl1, C14 chainr1 | the derived parsers | from C10 and an independent specification of the item list (`Spec/Items`) |
| C15 sequencing | `seq`, `seql`, `seqr`, `between`, `then` | case analysis + frame invariant |
| C16 seq is bind, C17 functor, C18 monad laws, C19 choice associative | `fmap`, `bind`, `continue_parse`, `join_repairs` | equality of complete results (values, repairs, costs, budgets, expected lists) for arbitrary parsers |
| C20 label | `label`, `set_expected` | case analysis |
| C21 Delay | `Delay` as an environment, and as an object with a history (`Model/Delay`) | unfolding + induction on the history |
| C22, C23 termination | fuel | measure (remaining input, remaining insertions, rank of the `Delay` object); fuel monotonicity |
| C24, C25, C46 language | declarative grammar semantics `Spec/Grammar`, `Spec/Insertions` | soundness invariant (`Lemmas/Sound`, `SoundAll`, `LangLemmas`); C46: the labels of insertions stand for words (`P.labelled`), user insertions included; for `lexer.parse` the edits are reported by their locations (`ReportsEdits`) |
| C26 cost, C27 budget, C41 order | repairs, costs, budget, operations | the same invariant |
| C28 cheapest | `unwrap`; the two samples in the rules of recovery | induction on the list of candidates; the samples for every n by induction on the number of items (`C28_not_cheapest_of_all`, `C28_repeated_mistake`) |
| C29 choice of repairs | `join_repairs`, priorities | case analysis; priorities are tied to the first operation by tagged derivations |
| C30 recover_with, C50 recover | `recover`, `recover_with(_fn)` | case analysis |
| C31 terminals, C32 eof, C47 literal | primitives | characterisation of the scan loop |
| C33-C36, C40 locations, layout | `Ctx`, the three `get_loc` functions, layout combinators | location invariant over an abstract discipline (`Lemmas/Locs`) |
| C37, C38 lexer | `iter_tokens` | induction on fuel / the rest of the source, against `Spec/Lexing` |
| C39 mark scoped | contexts | frame invariant |
| C42 first error, C48 accumulation | expected lists | relation between the plain error and the first operation of each repair (`Lemmas/FirstError*`) |
| C43 messages, C44 result.fmap | `types.py` | induction on lists |
| C45 no hidden state | `Model/Heap` | ownership invariant and refinement of the functional model |
| C49, C51 expected lists are complete and correct | expected lists | declarative specification of "what was looked for where" (`Spec/Wants`), invariant (`Lemmas/Wants`) |
| C52 the budget is per gap | budget of repairs | exactness of the remaining budget, by the soundness invariant |
| C53 sequences, C54 many, with recovery | `continue_parse`, the loop of `many` | exact equations against `Spec/Repairs` (what follows a candidate), for arbitrary argument parsers; totality makes them exhaustive |
| C55 LL(1) completeness | everything of plain mode | `Spec/LL1` defines first/empty/follow conditions on the syntax; induction over derivations `Der` shows that no step can be preempted (`begins_denote`: what a parser does that reads something is predicted by the table); with C24 and C23 an exact iff against the context-free reading `Lang` |
| C56 repairability | everything of recovery mode | `Spec/Fixable` is a condition on the syntax with, for each `Delay` object, bounds for the insertions needed where it begins and later; invariant `Fixes` on the parse functions (an error is never after consumption; among the candidates of a repair one has enough budget left), by the closed induction; negative results by evaluation and, for nested brackets, a proof that no bound exists |
| C57 token, token_ins | `lexer.token`, `token_ins`, `_loc_from_stream` | reduced to C30, C31 (satisfy under label under recover_with_fn); the location by a small inductive `InsertedAt`; the value in every repair by inversion of derivations |
| C58 evaluation relation | every `_*_fast`, `Parser.parse`, `Delay` | `Spec/Eval.lean`: `Eval env s col p m i o`, big-step rules for every parser constructor, with outcomes `accepts v j wants` / `rejects q wants begun` / `raises e`; no fuel, contexts, result objects or consumed flags of successes. Soundness (`eval_closed`, the `Closed` induction: every run that ends shows an outcome of the relation) and completeness (`eval_complete`, induction on the rules, giving enough fuel), hence iff for the three `get_loc`s, iff for non-termination, functionality, and the `unwrap` forms. |
| C59 expected lists of repairs | `continue_parse`, `join_repairs`, `OpItem.set_expected/prepend_expected`, `label`, `ResultWrapper.unwrap` | `Spec/Looks.lean`: `Looks env s col p m i es l q`: reading from `i` and applying the edits `es`, the grammar comes to `q` and looks there for `l`, in vain (declarative: no expected lists, no consumed flags). `Lemmas/Looks*.lean`: induction over the parse functions with an invariant that relates the `consumed` flag of each operation to its place (`OpsLook`). `C59_reported*`: the errors of the `ParseError`. `C59_attempt_false`, `C59_drop_false`: the two conditions are needed. |
| C60 exact semantics with recovery | all `_xxx` (recovering) functions of `core/combinators.py`, `core/primitive.py`, `core/sequence.py`, `core/scannerless.py`, `core/layout.py`; `continue_parse`, `join_repairs`, `Repair`, `Recovered`; `ResultWrapper.unwrap` | `Spec/Recovery.lean`: inductive relation `Rec env s col k p m i b o` with candidate lists (`Cand`, `Fix`), no contexts, result objects or fuel; `Finding.Gives`: what `unwrap` makes of it. `Lemmas/Recovery*.lean`: soundness by induction over the parse functions (`rec_closed`), completeness by induction over the rules (`rec_complete`). `C60_default`, `C60_text`: iff; `C60_unwrap*`: the value or the exact error items. |
| C61 effects and recovery | everything of `core/` once more, with callbacks that read and write a state: `Model/Effects` (a state and a record of calls threaded through every function) | simulation between the plain and the recovering function of every parser, from every world (`Eff.sim_denote`): same outcome and same world unless the plain one fails, and then the recovering one only adds calls; fuel monotonicity (`Lemmas/EffectsMono`) |
| C62 effects that do not matter | `Model/Effects` against `Model/Combs`, `Model/Prims` | `Spec/Effects`: `Steady` callbacks, `erase` (the same parser with functions for callbacks); by induction every function of the one model does what that of the other does in every world (`Lemmas/EffectsErase`); `ofP` embeds every parser of the pure model |
| C63 effects in order | `Model/Effects`, the plain functions | `Spec/EffectsEval`: evaluation rules as for C58 with the world threaded through, `Calls` for one call of a callback; soundness (`eval_denote`) and completeness (`eval_complete`), hence iff for the `get_loc`s, iff for non-termination, functionality |
| C64 linear number of calls | `Model/Effects`, the plain functions | `Spec/EffectsCost`: left recursion (semantic, as for C23) and `Predictive`; amortised bound by induction over the evaluation rules of C63: a run that consumes nothing makes at most `before p` calls, one that consumes pays `first p` for its first element and `K` for every further one; the constants exist by well-founded recursion over left calls. Termination by induction on the rest of the input and left calls. `C64_attempt_exponential`: a lower bound 2^n for a grammar with `attempt` |
| C65 effects with recovery, in order | `Model/Effects`, the recovering functions | `Spec/EffectsRecovery`: the rules of C60 with the world threaded through (a sequence of worlds where something is done for every candidate); soundness (`Eff.rec_denote`) and completeness (`Eff.rec_complete`), hence iff for the `get_loc`s, iff for non-termination, functionality, and iff for what `unwrap` gives |
| C66 threads and interruption | everything of `core/` and `Parser.parse` once more, as sequences of single steps on a shared memory: `Model/Threads` (`Prog`: create an object, read it, assign to it) | `Spec/Threads`: threads, steps, interleavings (`Reachable`, `Endless`), `look` (the attributes of a result in memory). Each thread's steps simulate the heap model of C45 under a map of addresses (`Lemmas/Threads*`, by induction over the parse functions); invariant: the threads' objects are disjoint and disjoint from what was there (`Inv`) |
| C67 stack limit | every parse function once more, with the number of stack frames that are left as a parameter: `Model/Stack` | `Spec/Stack`: `ReturnsIn d`, `RaisesIn d`, `Suffices`, `Height`. One relation between runs with different amounts of stack and fuel (`Lemmas/Stack`), by induction over the parser; that every run ends: unrolling the `Delay` objects as often as there are frames leaves a parser without any, to which C22 applies (`Lemmas/StackEnds`); bounds by induction on the height, `many` nests only after progress (`Lemmas/StackRun`), and not at all on accepted input (`Lemmas/StackAccept`); two families of inputs that overflow (`Props/StackOverflow`) |
| C68 races of `Delay.define` | `Delay` attribute by attribute: `Model/Race` (`Move`: the steps of `define` and of building a parser; `parse` of an object while what the bound methods find in `_fns` changes, `Race.table`) | `Spec/Race`: threads, interleavings (`Later`, `Reachable`), what a parse may see (`Sees`), careful programs. Invariant: everything a thread holds is its expression with some `Delay` objects replaced by definitions or by the functions that raise (`Exp true`); a parse over changing objects is related to the parse of the expression (`Lemmas/Race`, `RaceLe`), by induction on fuel and expression. For careful programs the invariant holds without the raising functions. The defects: executions |
| C69 every exception is accounted for | nothing new: the model of C60 | `Spec/Throws`: `Throws env s col ed p m i src e`, an inductive relation saying which user function (or which of the library's two errors) raises `e`, stated with the declarative grammar `Der` (edits allowed or not). `Lemmas/Throws`: induction over the declarative evaluation (`Spec/Eval`, plain) and the declarative recovery (`Spec/Recovery`), which C55..C60 prove equivalent to the code; `C69_never` and `C69_total` exclude all sources |
| C70 the calculator of the README | `Model/Calculator`: `README.md:26-58` as a parser of the model; `\d`, `\s`, `int` are parameters | `Spec/Calculator`: expressions and their values as an inductive relation on texts. Soundness: C24/C46 give a word of the grammar, `Lemmas/Chain` turns `chainl1` into left recursion, induction on the length. Completeness: every expression is derived wherever it stands (induction on the expression), the grammar is LL(1), C55. Exceptions: `C69_only`. `Spec/Arith`: trees, their values and the ways to write them, shown to be the same by induction on trees and on texts |
| C71 correct prefix property | plain mode of every combinator | `Spec/Prefix` (`SameUpTo`, `oneAhead`, `productive`). `Lemmas/Prefix`: induction on the evaluation relation of C58: what is reached at `k` depends on the first `k+1` elements (`Eval.local`), what was read before a failure can be completed to a word (`Eval.viable`). With C55/C70 for the converse. `C71_attempt_false`, `C71_literal_false`: the conditions are needed |
| C72 number of candidates | `continue_parse`, `many`, `bind`, `sym` | `Props/Blowup`: induction on the number of damaged pairs in the recovering evaluation relation of C60 (`many_damaged`); the candidates correspond one to one to the repairs of the result (`FindsTo`) |
| C73 tuples | `TupleParser`, `Tuple2`..`Tuple8`, `tuple3`..`tuple8` | `Model/Tuples`: untyped Python values with flat tuples, parser objects with a class. `ReadsAll`, `DerAll` (the parsers one after the other) are the specification; induction on the list of parsers, with C15 (plain mode) and C24/C25 (every candidate) |
| C74 more insertions | everything recovery does with the budget | `Lemmas/Budget`: induction on the recovering evaluation relation of C60 for the larger budget; the smaller budget leads to an evaluation whose candidates are, in order, among the others (`Among`), and to the same `accepts`. Transferred to results with `findsTo_cases`/`rec_findsTo`. Counterexample for parsers with both `attempt` and `recover_with` by evaluation |
| C75 the JSON parser of the tests | `Model/Json`: `tests/parsers/json.py:44-76` as a parser of the model; `unescape`, `int`, `float` and the lexer specification are parameters | `Spec/Json`: JSON values as an inductive relation on token sequences, `IsDict` for Python's `dict`. The context-free reading of the grammar is this relation (`Lemmas/Json`, both directions by induction); the grammar is LL(1) and not left recursive, so C55 gives an iff; C46 with labels that stand for tokens; C69 for exceptions; C37 for `loads` |
| C76 `get_loc` only decides which locations are reported | the whole model, `Ctx.getLoc`/`updateLoc` | `Spec/AnyLoc`: results related up to locations. C58/C60 characterise a run under any location discipline by the same relation when there is no layout, so two runs with different `get_loc` come to the same outcome/finding; `unwrap` then follows since its choice reads no location. `C76_layout_false`: layout does read columns. C71 and C75 get `lexer.parse`/`scannerless.parse` versions from it (`C71_longest_text`, `_tokens`, `C75_longest`) |
| C77 the indentation-sensitive parser of the tests | `Model/Yamlish`: `tests/parsers/yamlish.py:8-21` as a parser of the model; its regular expressions as functions that give the length of the match, over any class of spaces | `Spec/Yamlish`: documents as an inductive relation on texts (no positions: columns are counted from the last line break). `Lemmas/Yamlish`: soundness by strong induction on the length of a derivation of the grammar (C24), completeness by induction on documents into the evaluation relation of C58 (maximal munch, the end of each block by its column); C23 and C69 for totality |
| C78 `iter_tokens` as a generator | `Model/IterTokens`: the loop of `iter_tokens` up to the next `yield`, with its local variables, and `next` on the generator | `Spec/IterTokens`: what successive calls of `next` give, as an inductive relation on the matches of the specification. An iteration at an exact location leads to an exact location; soundness by induction on the fuel, completeness by induction on the matches that are skipped; connected to C37/C38 |
| C79 recovery ends with stateful callbacks | `Model/Effects`, all functions | left recursion as for C64. From the evaluation relation of C65, by induction: every candidate repair lies further on or has fewer insertions left (`rec_moves`). Rules for each combinator (`Lemmas/EffectsHalts`), for every world; then induction on the rest of the input, the insertions left, the chain of `Delay` calls and the parser, as for C23 |
| C80 the scannerless JSON parser of the tests | `Model/JsonText`: `tests/parsers/json_scannerless.py:27-70` as a parser of the model; its regular expressions as functions that give the length of the match; `unescape`, `int` and `float` are any functions that may raise | `Spec/JsonText`: the grammar of JSON as inductive relations on texts. `Lemmas/JsonText`: each matcher against its part of the grammar (soundness, and completeness where the next character does not continue it); soundness of the parser by strong induction on the length of a derivation (C24), completeness by induction on JSON texts into the evaluation relation of C58; C23 and C69 for totality and exceptions; wrong input by C46 (`C80_repaired`, `C80_reparse`: `Props/JsonTextRepair`): the words of the grammar are JSON texts, by induction on their length |
| C81 the two JSON parsers agree | `Model/JsonLexer`: the lexer specification `tests/parsers/json.py:8-22`, its alternatives as functions that give the length of the match, tried in order; `Model/Json` and `Model/JsonText` | the same `Spec/JsonText`. `Lemmas/JsonLexer`: a list of tokens that tiles a text (C37) spells it, and JSON over tokens (C75) over what it spells is JSON over characters; conversely by induction on JSON texts the lexer reads them as such tokens. Then C75, C37 and C80 |
| C82 regexp finds what the expression describes | `Model/Regex`: the part of `re` that the parsers of the tests and the README use (classes, sequences, alternatives, greedy repetition, groups) as a backtracking matcher; `Model/RegexParsers`: the regular expressions of `tests/parsers/*.py` and `README.md` as written, and the parsers made of them | `Spec/Regex`: the language of an expression (`Lang`) and all its matches in order of preference (`Tries`), inductively. `Lemmas/Regex`, `RegexTries`: induction on expressions and on derivations; `Lemmas/RegexCalc`, `RegexParsers`: what each expression matches is calculated (where a repetition gives up a character, what follows does not match), so the parsers are those of C70, C77, C80, C81 and their theorems hold of the expressions as written |
| C83 looking at results | every parse function once more, with `Append` objects that are kept (`core/chain.py`) and the number of stack frames that are left as a parameter: `Model/AppendCore`, `AppendCombs`, `AppendStack`; `Append.__iter__` and `unwrap` with frames (`types.py:109-142`) | `Spec/Append`: the list an object stands for, how deep objects are nested. `Lemmas/AppendFlat`: flattening the objects gives the model with lists, function by function. `Lemmas/AppendDepth`: every `Append` made is paid for by a frame of the function that makes it, by induction over the parser. `Lemmas/AppendStatic`: the same with the height of the expression; `C83_deep`: induction on the length of the input |
| C84 exchanging parts | the parsers and definitions of `Model/Parser` | `Spec/Exchange`: `Exchanged R p q`, `q` is `p` with parts exchanged according to `R`; `Same` (of C16–C21) for `R`. Refinement, `Follows`, is a congruence because all combinators are continuous (`Lemmas/Conv`, from C21); for definitions by induction on the fuel of the one side (`Lemmas/Exchange`). With the associativity of `bind`, which holds for positions within the input and runs that return, the same with these conditions (`Lemmas/ConvRet`, with the frame lemmas of C05) |
| C85 exchanging parts, side effects | `Model/Effects`, all functions | `Spec/EffectsExchange`: outcomes compared are the result (or exception) and the user's state; the record of calls is not. As C84, with "with enough fuel `x` does from every state what `y` does" (`Lemmas/EffectsConv`) for each combinator; `Lemmas/EffectsExchange` |
| C86 laws, side effects | the combinators of `Model/Effects` | equations between parse functions where no callback is exchanged (`Lemmas/EffectsLaws`); callbacks that only compute something are exchanged for returning it by the continuity lemmas of C85. Counterexamples for the recovering mode are evaluated |
| C87 representation of the state | `Model/Effects`, all functions | the continuity lemmas of C85 are proved for two state types and a relation `R` between the states; induction on the fuel and the parser |
| C88 strings and integers in JSON texts | `Model/JsonString`: `unescape` with its regular expression (`Model/Regex`) and `re.sub`; `int` on digits. Strings of Python are lists of code points there, as `chr` makes surrogates | `Spec/JsonString`: `Spells`, an inductive relation; induction on the length of the string; then C80, C81 |
| C89 `loads` undoes `json.dumps` | nothing more; `json.dumps` is part of the specification (`Spec/JsonString`) | induction on the value gives a text in the sense of `Spec/JsonText`; then C80, C81, C82 |
| C90 nested repairability | everything of recovery mode; both JSON parsers | `Spec/Mendable` is a condition on the syntax: as `Spec/Fixable`, with the bound for later places a function of the number of elements left where the part begins, and a mode in which nothing is said about repairs where the part begins (for what is run without recovery until it has read something); whether a part can succeed without reading is the semantic `CanBeEmpty`. Invariant `Mends` on the parse functions, by induction on fuel and parser, using the frame lemmas (what is consumed moves the position). `C90_fixable`: C56 is the special case of constant functions. For JSON the table is `first = 1`, `rest m = m + 1`; with C23/C75/C80/C81 this gives totality of repair. Sharpness by evaluation |
| C91 default labels | `Model/Repr`: `repr` of `str` as CPython does it, with the printable characters beyond ASCII as a parameter; without lone surrogates | `Spec/Repr`: what a string literal denotes, as an inductive relation, which is shown to be functional; `repr(s)` denotes `s` by induction on `s`; then C46 with any function that reads literals |

## Trusted base

* Lean 4.33.0's kernel. Of Mathlib only `Mathlib.Data.Fintype.Card` and `.EquivFin` (by
  `Props/Termination` and `Props/EffectsCost`: a transitive irreflexive relation on a finite type is
  well-founded) and `Mathlib.Data.Finset.Lattice.Fold` (the maximum over a finite type) are imported.
* Axioms: only `propext`, `Classical.choice` and `Quot.sound`, Lean's own. `AXIOMS.md` lists them
  for each theorem of the manifest (regenerate with `tools/axioms.py`). No axiom is added, no
  proof is left open, nothing rests on compiled evaluation.
* The correspondence between the Python code and the model, which is by reading: each definition
  cites the lines it models. As a check, `Verif/Tests` evaluates in the model, by kernel reduction,
  the tables of `/repo/tests` (expression, JSON over tokens, scannerless JSON, yamlish, parsing,
  recovery, layout, validation, tuples) and the examples of the README, the tutorial and the lexer
  docstrings: all of them give the outcome the repository states, including the complete error
  messages of the recovery tables.
* The statements: the definitions in `Spec/` and the theorem statements in `Props/`.

### What is modelled

All of `/repo/src/reparsec`:

| File | Modelled in |
|---|---|
| `core/types.py`, `core/chain.py`, `core/repair.py`, `core/result.py`, `core/recovery.py`, `core/parser.py` | `Model/Core` (and `Model/Heap`) |
| `core/primitive.py`, `core/sequence.py`, `core/scannerless.py` | `Model/Prims` (and `Model/Heap`) |
| `core/combinators.py`, `core/layout.py` | `Model/Combs` (and `Model/Heap`) |
| `parser.py`, `primitive.py`, `sequence.py`, `scannerless.py`, `layout.py`, `types.py` | `Model/Parser`, `Model/Delay` |
| `lexer.py` | `Model/Lexer`; `iter_tokens` as a generator: `Model/IterTokens` |
| `core/*` and `parser.py` with callbacks that have side effects | `Model/Effects` |
| the `Tuple` classes of `parser.py`, with flat tuples | `Model/Tuples` |
| `README.md:26-58`, `tests/parsers/expr.py` (the calculator) | `Model/Calculator` |
| `tests/parsers/json.py:44-76` (JSON over tokens) | `Model/Json` |
| `tests/parsers/yamlish.py:8-21` (indented documents) | `Model/Yamlish` |
| `tests/parsers/json_scannerless.py:27-70` (JSON texts) | `Model/JsonText` |
| `unescape` and `int` of the JSON parsers (`tests/parsers/json_scannerless.py:8-24`, `json.py:25-42`), `re.sub` | `Model/JsonString` |
| `repr` of strings, which gives the default labels (`core/sequence.py:138-141`, `core/scannerless.py:25,38`, `core/combinators.py:497,526`) | `Model/Repr` |
| `tests/parsers/json.py:8-22` (its lexer specification) | `Model/JsonLexer` |
| the regular expressions of `tests/parsers/*.py` and `README.md` as written; `pat.match`, `match.group`, `match.lastgroup` for them | `Model/Regex`, `Model/RegexParsers` |
| `core/*` and `Parser.parse` as steps of threads on a shared memory | `Model/Threads` |
| `core/*` and `Parser.parse` with a limited number of stack frames | `Model/Stack` |
| `core/chain.py` as objects; `core/*` and `Parser.parse` with them and a limited number of stack frames; `ResultWrapper.unwrap` with frames | `Model/AppendCore`, `Model/AppendCombs`, `Model/AppendStack` |
| `Delay` as steps of threads, and parsing while `Delay` objects change | `Model/Race` |

### What is not modelled

* `__repr__` and `repr` of user values: where the code uses `repr(x)` as a label, the label is a
  parameter. `repr` of strings is modelled for C91 (`Model/Repr`). `satisfy(str.isdigit)` etc. take the predicate as a parameter.
* Python's `re`: a compiled expression is an arbitrary function from source and position to a
  match, assumed only to end between the position and the end of the source. For C82 the part of `re` that
  the parsers of the tests use is modelled by a backtracking matcher (`Model/Regex`); the syntax of
  expressions (`re.compile`), anchors, look-around, back references, lazy repetition and flags are not.
* Iterables of expected descriptions (`Append` in `core/chain.py`) are modelled as lists in
  all models but `Model/Append*` (C83) and `Model/Heap`. There the frames of `fmt_loc`, of the `key` of `min`
  and of constructors are not counted, and a list comprehension has a frame (CPython before 3.12).
* Memory, and (in all models but `Model/Stack`) the recursion limit: there left recursion is "hangs". In
  `Model/Stack` (C67) the frames of functions that call parse functions are counted; those of functions
  that return before the next parse function is called (constructors, `fmap` of results, callbacks,
  ...) are not: they add a constant, unless a callback of the user needs more. Frames that are used when
  the result is looked at (`unwrap`, iterating over `expected`) are counted in `Model/AppendStack` (C83).
* User-defined subclasses of `ParseObj`. Tuples are nested pairs in all models but `Model/Tuples` (C73).
* Callbacks (`fmap`, `bind`, `satisfy`, ...) are functions that return or raise, always the same
  for the same argument, in all models but `Model/Effects` (C61 on), where they may read and write a
  state of the user's. Not modelled: callbacks that call `define` or `parse`, that change the stream
  or a list they have been given, or that do not return; side effects of `==`, `__repr__` and
  `get_loc`. Exceptions carry no traceback.
* Threads (`Model/Threads`, C66; `Model/Race`, C68): callbacks that share state between threads,
  `define` called for the same `Delay` object with different expressions at the same time, and memory models weaker than sequential consistency are not modelled. All threads
  of one theorem parse streams of the same element type; local variables are not objects of the memory.
* Typing (`Protocol`s, overloads), `bench.py`, the documentation build.
* Integer fields that are never negative are natural numbers (`Loc`, positions, skip counts, costs).
  `max_insertions` and the budget are integers, as the code does not exclude negative ones.

## Findings

Things the proofs showed about the code:

1. **Layout combinators under `lexer.parse` can use a wrong column** (C36). `Ctx.update_loc`
   returns the stored context if `pos == self.loc.pos`. Under `lexer.parse`, `pos` is a token index
   and `loc.pos` a character offset. The tokens of `x = 1` have offsets 0, 2, 4, so at token 2 the
   location of token 1 is taken for current. `C36_false_accept`/`C36_false_reject` are two parses
   with the wrong outcome; `C36_exact` says for exactly which token lists nothing goes wrong.
2. **Negative `max_insertions`** makes recovery of a grammar that is not left-recursive run forever
   (`C23_negative_budget_hangs`): the test is `rem`, not `rem > 0`.
3. **`many()` forgets what its last item could still have accepted**: `(a << b.maybe()).many() <<
   eof()` on `ac` does not mention `b` (`C49_exception_needed`).
4. **`e.define(e)`** leaves `e` raising "was not defined" forever (`C21_define_itself`).
5. The comparison of `prio` with `min_prio` in `join_repairs` is always true: priorities are only
   ever `None` or 0 and `min_prio` is at least 1.
6. A second alternative's automatic insertions are dropped even if the first alternative's repairs
   lead nowhere, so some inputs have no repair although one insertion would do (C29 says exactly
   which are kept).
7. With `attempt`, the expected list of the first error depends on the mode: `attempt(a + b) | c` on
   `ax` (`C42_needs_no_attempt`); nested `recover_with` loses the expected list
   (`C42_needs_no_nesting`); when all repairs die after a `recover_with`, "unexpected input" is
   reported (`C42_needs_no_insert`).
8. `recover_with` around an `attempt` reports its own start position, although the plain error is
   reported further on.
9. `eof()` in the middle of a grammar may be followed by insertions at the end of the input, so in
   C46 `eof` is read as matching the empty string.
10. `ParseResult.fmap(f)` applies `f` to the value of every candidate repair, so it can raise
    because of a repair that is not used (C44).
11. `label` on a parser that succeeds without consuming puts its label into the expected lists of
    what follows (`Wants.labelEmpty`).
12. With recovery, `p.bind(f).bind(g)` and `p.bind(lambda x: f(x).bind(g))` may differ in which of
    several exceptions is raised first (C18 is about runs that return).
13. `lexer.parse` of an empty token list reports line 1, column 1.
14. Recovery gives up on `e = sym("(") >> e << sym(")") | sym("x")` applied to the empty input,
    although inserting `x` repairs it: `join_repairs` drops the automatic insertions of the second
    alternative even when the first alternative has no repairs (`C56_order_matters`).
15. Expected lists of repairs can name things that were not expected there: with `attempt` what a
    failed attempt wanted further on is reported at its start (`C59_attempt_false`); and after `eof()`
    dropped the rest of the input, whose repair is not marked as having consumed anything, what was
    expected before that is repeated for later insertions (`C59_drop_false`: `(eof() >> sym("a")) |
    sym("b")` on `x` claims that the end of file or `b` was expected where it inserts `a`).
16. Effects of callbacks are never taken back, and with recovery the callbacks of an alternative that
    failed are called again (C61, C63): a callback with state may be called several times for the same
    token, and may see the state that a rejected alternative left.
17. With recovery `many()` calls itself once for every error in its items, three frames deeper each
    time: an input with some 300 errors raises `RecursionError` under CPython's default limit, where the
    same parser without recovery needs a fixed number of frames (`C67_errors_overflow`, `C67_plain`).
18. `Delay.define` is not atomic (`parser.py:790-791`): interrupted between `self._defined = True` and
    `self._fns = parser.to_fns()` (by a signal handler that raises, or because `to_fns` of a
    user-defined parser raises) it leaves an object that can be neither run nor defined
    (`C68_interrupted`); another thread that builds a parser from the `Delay` in between keeps the
    functions that raise "was not defined", forever (`C68_captured`); two threads may both pass the check
    (`C68_two_defines`). Assigning `_fns` first would avoid the first two.
19. The calculator of the README rejects texts that begin with a space (`C70_leading_space`): its parsers
    skip spaces only after a token.
20. With recovery the number of candidate repairs (`core/recovery.py:18-45`) can double with every error:
    `(sym("a") + sym("b")).many() << eof()` on `"aab" * n` gives `2**n` repairs of the same cost, all at
    the end of the input (`C72_doubles`, `C72_not_polynomial`). Keeping one best candidate per position and
    number of insertions left would avoid it.
21. Raising `max_insertions` can make the repair worse when `attempt` and `recover_with` are combined
    (`C74_false`): `sym("x") >> (satisfy(str.isdigit).recover_with("1") | attempt(sym("c") >> sym("d")))
    << eof()` on `"c"` is repaired at cost 2 with one insertion in a row and at cost 3 with two. Without
    one of the two it cannot happen (`C74_default`).
22. The scannerless JSON parser of the tests rejects empty strings (`C80_counterexample_empty_string`): its
    regular expression (`tests/parsers/json_scannerless.py:42`) has `+` where `*` is meant. Otherwise it
    accepts exactly JSON (`C80_exact`).
23. Error messages of recursive parsers can be too deep to look at: `unwrap` needs as much stack as `parse` did
    (`C83_deep`), so a `ParseResult` that is unwrapped deeper in the call stack than it was made can raise
    `RecursionError` instead of `ParseError`. Called from the same place it cannot (`C83_unwrap`).
24. With callbacks that have side effects, laws that hold without recovery fail with `recover=True` for inputs
    with errors, as to the order and the number of calls: `p.fmap(f).fmap(g)` calls `f` for all repairs and then
    `g` (`C86_fmap_fmap_order`), `bind` likewise (`C86_bind_order`), and `(p | q) | r` runs `p` three times where
    `p | (q | r)` runs it twice (`C86_alt_runs`). For accepted inputs they hold (`C86_accepted`).
25. `unescape` of the JSON parsers does not join surrogate pairs (`C89_surrogates`,
    `C89_counterexample_surrogates`): a character beyond the basic plane that is written as `\ud83d\ude00`, as
    `json.dumps` does by default, is read as two lone surrogates.
26. The repair `unwrap` uses may be far from the cheapest one there is (`C28_not_cheapest_of_all`): once
    `many` has decided that there is no item, what comes after it can only be skipped, one symbol at a time.
27. A mistake that is made several times is repaired in two ways (`C28_repeated_mistake`): the preference for
    skipping looks at the first operation of the whole repair only. So `sym("a").sep_by(sym(","))` on `a,,a,,a` skips
    the first extra comma, and inserts `a` at the later one.
28. The JSON parsers do not repair six open brackets with the default `max_insertions=5`
    (`C90_json_default_not_enough`), though every bracket alone is repaired.

## Tests against wrong programs

`seeded/LOG.jsonl` records the mutations of the model that were tried (in a scratch copy), which
theorems failed, and which theorems were tightened because they did not.
