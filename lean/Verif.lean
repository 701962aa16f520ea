import Verif.Lemmas.AppendDepth
import Verif.Lemmas.AppendFlat
import Verif.Lemmas.AppendStatic
import Verif.Lemmas.Basic
import Verif.Lemmas.Budget
import Verif.Lemmas.Calculator
import Verif.Lemmas.Chain
import Verif.Lemmas.Conv
import Verif.Lemmas.ConvRet
import Verif.Lemmas.Effects
import Verif.Lemmas.EffectsConv
import Verif.Lemmas.EffectsCost
import Verif.Lemmas.EffectsErase
import Verif.Lemmas.EffectsEval
import Verif.Lemmas.EffectsExchange
import Verif.Lemmas.EffectsHalts
import Verif.Lemmas.EffectsLaws
import Verif.Lemmas.EffectsMono
import Verif.Lemmas.EffectsRecovery
import Verif.Lemmas.EffectsRecoveryAll
import Verif.Lemmas.Eval
import Verif.Lemmas.Exchange
import Verif.Lemmas.FirstError
import Verif.Lemmas.FirstErrorAll
import Verif.Lemmas.Fixable
import Verif.Lemmas.Frame
import Verif.Lemmas.GrammarLemmas
import Verif.Lemmas.Halts
import Verif.Lemmas.Heap
import Verif.Lemmas.HeapCont
import Verif.Lemmas.HeapRefine
import Verif.Lemmas.Induct
import Verif.Lemmas.Json
import Verif.Lemmas.JsonDumps
import Verif.Lemmas.JsonLexer
import Verif.Lemmas.JsonString
import Verif.Lemmas.JsonText
import Verif.Lemmas.LL1
import Verif.Lemmas.LangLemmas
import Verif.Lemmas.Locs
import Verif.Lemmas.Looks
import Verif.Lemmas.LooksAll
import Verif.Lemmas.Mendable
import Verif.Lemmas.Mono
import Verif.Lemmas.Prefix
import Verif.Lemmas.Race
import Verif.Lemmas.RaceAll
import Verif.Lemmas.RaceExact
import Verif.Lemmas.RaceLe
import Verif.Lemmas.Recovery
import Verif.Lemmas.RecoveryAll
import Verif.Lemmas.RecoveryPrims
import Verif.Lemmas.Regex
import Verif.Lemmas.RegexCalc
import Verif.Lemmas.RegexParsers
import Verif.Lemmas.RegexTries
import Verif.Lemmas.Sim
import Verif.Lemmas.Sound
import Verif.Lemmas.SoundAll
import Verif.Lemmas.Stack
import Verif.Lemmas.StackAccept
import Verif.Lemmas.StackEnds
import Verif.Lemmas.StackRun
import Verif.Lemmas.Threads
import Verif.Lemmas.ThreadsAll
import Verif.Lemmas.ThreadsRefine
import Verif.Lemmas.ThreadsRun
import Verif.Lemmas.Throws
import Verif.Lemmas.Wants
import Verif.Lemmas.Yamlish
import Verif.Lemmas.Yields
import Verif.Model.AppendCombs
import Verif.Model.AppendCore
import Verif.Model.AppendStack
import Verif.Model.Calculator
import Verif.Model.Combs
import Verif.Model.Core
import Verif.Model.Delay
import Verif.Model.Effects
import Verif.Model.Heap
import Verif.Model.IterTokens
import Verif.Model.Json
import Verif.Model.JsonLexer
import Verif.Model.JsonString
import Verif.Model.JsonText
import Verif.Model.Lexer
import Verif.Model.Out
import Verif.Model.Parser
import Verif.Model.Prims
import Verif.Model.Race
import Verif.Model.Regex
import Verif.Model.RegexParsers
import Verif.Model.Repr
import Verif.Model.Stack
import Verif.Model.Threads
import Verif.Model.Tuples
import Verif.Model.Yamlish
import Verif.Props.AnyLoc
import Verif.Props.Append
import Verif.Props.Blowup
import Verif.Props.Budget
import Verif.Props.Calculator
import Verif.Props.CalculatorText
import Verif.Props.Cheapest
import Verif.Props.Choice
import Verif.Props.Delay
import Verif.Props.Effects
import Verif.Props.EffectsCost
import Verif.Props.EffectsEval
import Verif.Props.EffectsExchange
import Verif.Props.EffectsHalts
import Verif.Props.EffectsRecovery
import Verif.Props.Eval
import Verif.Props.Exceptions
import Verif.Props.Exchange
import Verif.Props.Expected
import Verif.Props.FirstError
import Verif.Props.Fixable
import Verif.Props.Heap
import Verif.Props.IterTokens
import Verif.Props.Iteration
import Verif.Props.Json
import Verif.Props.JsonLexer
import Verif.Props.JsonString
import Verif.Props.JsonText
import Verif.Props.JsonTextRepair
import Verif.Props.LL1
import Verif.Props.Label
import Verif.Props.Language
import Verif.Props.Laws
import Verif.Props.LexerLayout
import Verif.Props.Lexing
import Verif.Props.Locations
import Verif.Props.Looks
import Verif.Props.Mendable
import Verif.Props.Modes
import Verif.Props.Monad
import Verif.Props.Origin
import Verif.Props.Positions
import Verif.Props.Prefix
import Verif.Props.Race
import Verif.Props.RaceExamples
import Verif.Props.Recovery
import Verif.Props.Regex
import Verif.Props.Repairs
import Verif.Props.Repeated
import Verif.Props.Repr
import Verif.Props.Run
import Verif.Props.Samples
import Verif.Props.Sequencing
import Verif.Props.Stack
import Verif.Props.StackOverflow
import Verif.Props.Terminals
import Verif.Props.Termination
import Verif.Props.Threads
import Verif.Props.Tokens
import Verif.Props.Tuples
import Verif.Props.Unwrap
import Verif.Props.Yamlish
import Verif.Spec.AnyLoc
import Verif.Spec.Append
import Verif.Spec.Arith
import Verif.Spec.Calculator
import Verif.Spec.Effects
import Verif.Spec.EffectsCost
import Verif.Spec.EffectsEval
import Verif.Spec.EffectsExchange
import Verif.Spec.EffectsRecovery
import Verif.Spec.Eval
import Verif.Spec.Exchange
import Verif.Spec.Fixable
import Verif.Spec.Grammar
import Verif.Spec.Insertions
import Verif.Spec.Items
import Verif.Spec.IterTokens
import Verif.Spec.Json
import Verif.Spec.JsonString
import Verif.Spec.JsonText
import Verif.Spec.LL1
import Verif.Spec.LeftCalls
import Verif.Spec.Lexing
import Verif.Spec.Location
import Verif.Spec.Looks
import Verif.Spec.Mendable
import Verif.Spec.Objects
import Verif.Spec.Prefix
import Verif.Spec.Race
import Verif.Spec.Recovery
import Verif.Spec.Regex
import Verif.Spec.Repairs
import Verif.Spec.Repr
import Verif.Spec.Run
import Verif.Spec.Stack
import Verif.Spec.Threads
import Verif.Spec.Throws
import Verif.Spec.Wants
import Verif.Spec.Yamlish
import Verif.Tests.Basic
import Verif.Tests.Expr
import Verif.Tests.Json
import Verif.Tests.JsonScannerless
import Verif.Tests.Parsing
import Verif.Tests.Recovery
import Verif.Tests.Tutorial
import Verif.Tests.Yamlish
