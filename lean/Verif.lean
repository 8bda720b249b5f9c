import Verif.Props.EvaluationMemory
import Verif.Props.Trie
import Verif.Props.TrieMemory
import Verif.Props.Tokenizer
import Verif.Props.Context
import Verif.Props.Parser
import Verif.Props.Grammar
import Verif.Props.Printer
import Verif.Props.PrinterRounded
import Verif.Props.TreeUtil
import Verif.Props.Matching
import Verif.Props.SuffixTree
import Verif.Props.Rewrite
import Verif.Props.Simplification
import Verif.Props.RuleParsing
import Verif.Props.Session
import Verif.Props.SessionRuns
import Verif.Props.Evaluation
import Verif.Props.Functions
import Verif.Props.Vector
import Verif.Props.LinkedList
import Verif.Props.StringUtil
import Verif.Props.Table
import Verif.Props.Commands
import Verif.Props.CommandRuns
import Verif.Model.ShippedRules
import Verif.Model.RuleNumbers
import Verif.Spec.RealValue
import Verif.Lemmas.StringChars
import Verif.Lemmas.ParserMap
import Verif.Lemmas.RealValue
import Verif.Lemmas.RulePatterns
import Verif.Lemmas.RuleConditions
import Verif.Lemmas.RuleTexts
import Verif.Lemmas.RuleSimp
import Verif.Lemmas.RuleValues
import Verif.Lemmas.RuleData
import Verif.Lemmas.RuleCheck1
import Verif.Lemmas.RuleCheck2
import Verif.Lemmas.RuleCheck3
import Verif.Lemmas.RuleCheck4
import Verif.Lemmas.RuleChecks
import Verif.Lemmas.RuleProofs
import Verif.Lemmas.RuleDerivs
import Verif.Lemmas.RuleFile
import Verif.Spec.RuleSound
import Verif.Lemmas.RuleIndex
import Verif.Lemmas.RuleSoundness
import Verif.Lemmas.KernelRfl
import Verif.Lemmas.ExactUnique
import Verif.Props.RuleSoundness
import Verif.Model.TableLayout
import Verif.Spec.Layout
import Verif.Spec.LayoutRows
import Verif.Spec.LayoutOrder
import Verif.Lemmas.LayoutText
import Verif.Lemmas.LayoutDims
import Verif.Lemmas.LayoutInv
import Verif.Lemmas.LayoutGeo
import Verif.Lemmas.LayoutPrint
import Verif.Lemmas.LayoutPlain
import Verif.Lemmas.LayoutShown
import Verif.Lemmas.LayoutMarked
import Verif.Lemmas.LayoutCount
import Verif.Lemmas.LayoutGrid
import Verif.Lemmas.LayoutOrder
import Verif.Lemmas.LayoutBox
import Verif.Props.Layout
import Verif.Model.Simplify
import Verif.Spec.Simplify
import Verif.Lemmas.ShippedParts
import Verif.Lemmas.ShippedTrees
import Verif.Lemmas.SimplifyInv
import Verif.Lemmas.Shorthand
import Verif.Lemmas.SimpInit
import Verif.Lemmas.SimplifyAll
import Verif.Lemmas.SimplifySafe
import Verif.Lemmas.ShippedFit
import Verif.Lemmas.ShippedConds
import Verif.Props.Simplify
import Verif.Props.SimplifyRuns
import Verif.Lemmas.FoldValues
import Verif.Props.SimplifyValues
import Verif.Props.SimplifyErrors
import Verif.Lemmas.Weights
import Verif.Lemmas.RuleWeights
import Verif.Lemmas.OrderingEnds
import Verif.Props.SimplifyEnds
import Verif.Model.TrieIter
import Verif.Lemmas.TrieIter
import Verif.Props.TrieIter
import Verif.Model.Console
import Verif.Props.Console
import Verif.Props.ErrorMarks
import Verif.Model.Main
import Verif.Props.Main
import Verif.Model.Drawing
import Verif.Spec.Drawing
import Verif.Lemmas.Drawing
import Verif.Props.Drawing
import Verif.Model.Help
import Verif.Props.Help
import Verif.Props.HelpCommand
import Verif.Props.HelpOperators
import Verif.Props.HelpRuns
import Verif.Lemmas.Texts
import Verif.Lemmas.Words
import Verif.Model.TableOutput
import Verif.Spec.TableOutput
import Verif.Lemmas.TableOutput
import Verif.Model.Printf
import Verif.Lemmas.PrintfText
import Verif.Props.TableOutput
import Verif.Lemmas.Printf
import Verif.Spec.Printf
import Verif.Props.Printf
import Verif.Lemmas.Names
import Verif.Props.EvaluationOutput
import Verif.Model.Transcript
import Verif.Spec.Transcript
import Verif.Lemmas.Transcript
import Verif.Props.Transcript
import Verif.Props.TranscriptTotal
import Verif.Props.TranscriptMain
import Verif.Props.TranscriptNotices
import Verif.Props.TranscriptRuns
import Verif.Spec.Binary64
import Verif.Lemmas.Binary64
import Verif.Lemmas.EvalClosed
import Verif.Props.Doubles
import Verif.Props.Rounding
import Verif.Model.SignedZero
import Verif.Lemmas.EvalHom
import Verif.Props.SignedZero
import Verif.Model.NodeHeap
import Verif.Model.ParserHeap
import Verif.Spec.Ownership
import Verif.Spec.Operands
import Verif.Lemmas.NodeHeap
import Verif.Lemmas.NodeHeapOps
import Verif.Lemmas.NodeHeapRules
import Verif.Lemmas.Bound
import Verif.Lemmas.ParserHeap
import Verif.Lemmas.ParserOwed
import Verif.Props.Ownership
import Verif.Props.ParserMemory
import Verif.Model.DefinitionHeap
import Verif.Spec.MemorySession
import Verif.Lemmas.DefinitionHeap
import Verif.Lemmas.DefinitionHeapSession
import Verif.Lemmas.SessionMemory
import Verif.Props.SessionMemory
import Verif.Model.RuleHeap
import Verif.Spec.MemoryProgram
import Verif.Lemmas.RuleHeap
import Verif.Lemmas.RuleHeapLoad
import Verif.Lemmas.RuleHeapSets
import Verif.Lemmas.RuleHeapSimp
import Verif.Lemmas.ProgramMemory
import Verif.Props.ProgramMemory
import Verif.Model.TableHeap
import Verif.Spec.MemoryTable
import Verif.Lemmas.TableHeap
import Verif.Props.TableMemory
import Verif.Model.LayoutHeap
import Verif.Spec.LayoutMemory
import Verif.Lemmas.LayoutHeap
import Verif.Props.LayoutMemory
import Verif.Model.TextHeap
import Verif.Spec.TextMemory
import Verif.Lemmas.TextHeap
import Verif.Lemmas.TextSession
import Verif.Props.TextMemory
import Verif.Spec.OperatorMemory
import Verif.Lemmas.OperatorMemory
import Verif.Lemmas.OperatorLists
import Verif.Props.OperatorMemory
import Verif.Props.Primitives
