import Verif.Conformance.Files
import Verif.Conformance.Grammar
import Verif.Conformance.Matchers
import Verif.Conformance.Parsers
import Verif.Conformance.Utils
import Verif.Instances.Answers
import Verif.Instances.Basic
import Verif.Instances.Change
import Verif.Instances.CloneStack
import Verif.Instances.CompileWork
import Verif.Instances.CompiledSize
import Verif.Instances.Converted
import Verif.Instances.Deleted
import Verif.Instances.Files
import Verif.Instances.Front
import Verif.Instances.Grammar
import Verif.Instances.Histories
import Verif.Instances.Kept
import Verif.Instances.Lengths
import Verif.Instances.Looser
import Verif.Instances.Messages
import Verif.Instances.Parsers
import Verif.Instances.Regex
import Verif.Instances.Rename
import Verif.Instances.Runs
import Verif.Instances.Suffix
import Verif.Instances.Testable
import Verif.Instances.Trie
import Verif.Instances.Values
import Verif.Model.Boxed
import Verif.Model.Cause
import Verif.Model.Clone
import Verif.Model.CommonPrefix
import Verif.Model.Cost
import Verif.Model.CostAdd
import Verif.Model.CostGrammar
import Verif.Model.Description
import Verif.Model.Deser
import Verif.Model.Display
import Verif.Model.Grammar
import Verif.Model.Loader
import Verif.Model.ParserApi
import Verif.Model.Parsers
import Verif.Model.Pattern
import Verif.Model.PatternApi
import Verif.Model.Pdb2adb
import Verif.Model.PdbWarn
import Verif.Model.PdbXml
import Verif.Model.SortedVec
import Verif.Model.Stack
import Verif.Model.StackAdd
import Verif.Model.StackClone
import Verif.Model.SuffixClone
import Verif.Model.SuffixTable
import Verif.Model.TestMessage
import Verif.Model.Trace
import Verif.Model.Trie
import Verif.Proofs.Again
import Verif.Proofs.CmpBytes
import Verif.Proofs.CommonPrefix
import Verif.Proofs.Deser
import Verif.Proofs.Family
import Verif.Proofs.GrammarBase
import Verif.Proofs.GrammarExpected
import Verif.Proofs.GrammarProps
import Verif.Proofs.GrammarRules
import Verif.Proofs.GrammarRun
import Verif.Proofs.GrammarShow
import Verif.Proofs.GrammarSound
import Verif.Proofs.GrammarTop
import Verif.Proofs.GrammarUtf8
import Verif.Proofs.Loader
import Verif.Proofs.Matching
import Verif.Proofs.Parsers
import Verif.Proofs.Path
import Verif.Proofs.PdbXml
import Verif.Proofs.Peg
import Verif.Proofs.Reorder
import Verif.Proofs.Replace
import Verif.Proofs.Search
import Verif.Proofs.Suffix
import Verif.Proofs.SuffixChange
import Verif.Proofs.SuffixFam
import Verif.Proofs.SuffixPanic
import Verif.Proofs.SuffixParse
import Verif.Proofs.SuffixReach
import Verif.Proofs.SuffixTableAnswer
import Verif.Proofs.TableAnswer
import Verif.Proofs.TableChange
import Verif.Proofs.TrieAdd
import Verif.Proofs.TrieClash
import Verif.Proofs.TrieEffect
import Verif.Proofs.TrieEntries
import Verif.Proofs.TrieHeads
import Verif.Proofs.TrieInsert
import Verif.Proofs.TrieInv
import Verif.Proofs.TrieMore
import Verif.Proofs.TriePanic
import Verif.Proofs.TriePartial
import Verif.Proofs.TrieSearch
import Verif.Proofs.TrieSingle
import Verif.Proofs.TrieSound
import Verif.Proofs.TrieStops
import Verif.Proofs.TrieTable
import Verif.Proofs.TrieVal
import Verif.Proofs.TrieWalk
import Verif.Proofs.Utf8
import Verif.Props.C01_C02_CommonPrefix
import Verif.Props.C03_C04_SortedVec
import Verif.Props.C05_C10_Parsers
import Verif.Props.C100_SuffixOrder
import Verif.Props.C101_Again
import Verif.Props.C102_Local
import Verif.Props.C103_PatternDbXml
import Verif.Props.C103_Readable
import Verif.Props.C103_TextBetween
import Verif.Props.C103_TextPieces
import Verif.Props.C105_PatternApi
import Verif.Props.C106_Pieces
import Verif.Props.C107_PatternDbAnswer
import Verif.Props.C108_Description
import Verif.Props.C110_Filled
import Verif.Props.C111_AnyScript
import Verif.Props.C111_Satisfiable
import Verif.Props.C112_Additional
import Verif.Props.C113_AnyScript
import Verif.Props.C113_Extension
import Verif.Props.C114_CostAdd
import Verif.Props.C115_Labels
import Verif.Props.C116_Kept
import Verif.Props.C118_SuffixKept
import Verif.Props.C119_Tested
import Verif.Props.C11_C14_TrieSound
import Verif.Props.C120_EveryText
import Verif.Props.C121_AnyHash
import Verif.Props.C122_Formats
import Verif.Props.C123_EntryOrder
import Verif.Props.C124_Spelling
import Verif.Props.C125_ActAlike
import Verif.Props.C126_Reports
import Verif.Props.C127_Rerun
import Verif.Props.C128_Deleted
import Verif.Props.C129_Cause
import Verif.Props.C130_Regex
import Verif.Props.C131_Looser
import Verif.Props.C132_CloneStack
import Verif.Props.C133_Front
import Verif.Props.C134_CompileWork
import Verif.Props.C135_Rename
import Verif.Props.C136_Lengths
import Verif.Props.C136_Unbounded
import Verif.Props.C137_Testable
import Verif.Props.C138_Values
import Verif.Props.C139_Messages
import Verif.Props.C140_Histories
import Verif.Props.C141_CompiledSize
import Verif.Props.C142_Duplicates
import Verif.Props.C143_Fewer
import Verif.Props.C144_Programs
import Verif.Props.C145_Together
import Verif.Props.C146_Led
import Verif.Props.C147_Compact
import Verif.Props.C148_Blocked
import Verif.Props.C149_Three
import Verif.Props.C150_Triples
import Verif.Props.C151_SuffixPairs
import Verif.Props.C152_SuffixLoads
import Verif.Props.C153_OneMore
import Verif.Props.C154_SmallPanics
import Verif.Props.C155_AnyScript
import Verif.Props.C156_Anywhere
import Verif.Props.C157_Minimal
import Verif.Props.C158_PartAscii
import Verif.Props.C15_C24_Trie
import Verif.Props.C20_Order
import Verif.Props.C24_Readd
import Verif.Props.C25_C31_SuffixArray
import Verif.Props.C32_C39_Grammar
import Verif.Props.C40_C45_Loader
import Verif.Props.C46_C48_Files
import Verif.Props.C49_Hash
import Verif.Props.C49_Merge
import Verif.Props.C52_EndToEnd
import Verif.Props.C53_Greedy
import Verif.Props.C65_Table
import Verif.Props.C66_Panics
import Verif.Props.C67_C68_Expected
import Verif.Props.C69_C72_Messages
import Verif.Props.C73_C74_SuffixAnswer
import Verif.Props.C75_C76_Families
import Verif.Props.C75_C76_Panics
import Verif.Props.C77_C78_FileToAnswer
import Verif.Props.C78_SuffixPanics
import Verif.Props.C78_TriePanics
import Verif.Props.C79_Change
import Verif.Props.C80_Agree
import Verif.Props.C81_Validated
import Verif.Props.C82_LoadErrors
import Verif.Props.C83_Lines
import Verif.Props.C84_Settings
import Verif.Props.C85_Calls
import Verif.Props.C86_GrammarFile
import Verif.Props.C87_Size
import Verif.Props.C88_Stack
import Verif.Props.C89_C90_Converted
import Verif.Props.C92_C93_ConvertedFile
import Verif.Props.C95_Cost
import Verif.Props.C96_AddPanics
import Verif.Props.C97_AnyStack
import Verif.Props.C97_StackAdd
import Verif.Props.C98_SuffixChange
import Verif.Props.C99_SuffixValidated
import Verif.Rust.Path
import Verif.Rust.SipHash
import Verif.Rust.Std
import Verif.Rust.Str
import Verif.Spec.ActAlike
import Verif.Spec.Alike
import Verif.Spec.Begins
import Verif.Spec.Cause
import Verif.Spec.Compact
import Verif.Spec.CompiledSize
import Verif.Spec.ConvertedFile
import Verif.Spec.Documents
import Verif.Spec.Expected
import Verif.Spec.Extension
import Verif.Spec.Family
import Verif.Spec.FamilyPanics
import Verif.Spec.FilePanics
import Verif.Spec.Filled
import Verif.Spec.Formats
import Verif.Spec.Found
import Verif.Spec.Front
import Verif.Spec.Grammar
import Verif.Spec.Histories
import Verif.Spec.Independent
import Verif.Spec.Kept
import Verif.Spec.Led
import Verif.Spec.Lengths
import Verif.Spec.Loader
import Verif.Spec.Looser
import Verif.Spec.Matching
import Verif.Spec.Messages
import Verif.Spec.Newer
import Verif.Spec.Order
import Verif.Spec.Panics
import Verif.Spec.Parsers
import Verif.Spec.Paths
import Verif.Spec.PatternApi
import Verif.Spec.PatternDb
import Verif.Spec.PatternDbAnswer
import Verif.Spec.PatternDbXml
import Verif.Spec.Peg
import Verif.Spec.Pieces
import Verif.Spec.Readable
import Verif.Spec.Regex
import Verif.Spec.Relabel
import Verif.Spec.Rename
import Verif.Spec.Render
import Verif.Spec.Reports
import Verif.Spec.Rerun
import Verif.Spec.SameData
import Verif.Spec.Samples
import Verif.Spec.Satisfiable
import Verif.Spec.SatisfiableAny
import Verif.Spec.Spelling
import Verif.Spec.Strings
import Verif.Spec.SuffixAnswer
import Verif.Spec.SuffixPanics
import Verif.Spec.Table
import Verif.Spec.TextBetween
import Verif.Spec.TextPieces
