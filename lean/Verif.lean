import Verif.Token
import Verif.Lexer
import Verif.Pos
import Verif.Iter
import Verif.Balanced
import Verif.Ast
import Verif.Builder
import Verif.Monad
import Verif.Num
import Verif.ParserLex
import Verif.ParserArith
import Verif.ParserWord
import Verif.ParserCmd
import Verif.Compress
import Verif.DefaultBuilder
import Verif.LexSpec
import Verif.LexProofs
import Verif.LexInv
import Verif.PropsLexer
import Verif.IterRefine
import Verif.PropsIter
import Verif.BalancedSpec
import Verif.BalancedProofs
import Verif.IterSim
import Verif.PropsBalanced
import Verif.CallSpec
import Verif.PartSpec
import Verif.Hoare
import Verif.BlankSpec
import Verif.Exact
import Verif.ExactLex
import Verif.PassLex
import Verif.PassArith
import Verif.ScanLemmas
import Verif.PassWord
import Verif.ScanDq
import Verif.HereScan
import Verif.PassRedirect
import Verif.PassCmd
import Verif.Hom
import Verif.Rel
import Verif.RelLex
import Verif.RelWord
import Verif.RelCmd
import Verif.Api
import Verif.Parts
import Verif.PropsParse
import Verif.PropsBuilder
import Verif.PartPos
import Verif.PropsPos
import Verif.PropsBlank
import Verif.AstMap
import Verif.PropsCompress
import Verif.PropsDefault
import Verif.ArithGrammar
import Verif.NumProofs
import Verif.ArithFollow
import Verif.ArithSound
import Verif.ArithComplete
import Verif.Same
import Verif.PropsArith
import Verif.GramLex
import Verif.Grammar
import Verif.GramRun
import Verif.GramLen
import Verif.GramScan0
import Verif.GramScan
import Verif.GramHere
import Verif.GramWord
import Verif.GramSubst
import Verif.GramCmd
import Verif.GramCmd2
import Verif.GramCmd3
import Verif.GramComplete
import Verif.GramSnd
import Verif.GramSndWord
import Verif.GramSndHere
import Verif.GramSndCmd
import Verif.PropsGram
import Verif.LexPrint
import Verif.PropsQuote
import Verif.PropsParam
import Verif.GramErr
import Verif.PropsDquote
import Verif.PropsIncomplete
import Verif.PropsAst
import Verif.PropsRedirect
import Verif.PropsAssign
import Verif.LexAppend
import Verif.HereText
import Verif.HereLex
import Verif.PropsHeredoc
import Verif.RoundTrip
import Verif.LocalLive
import Verif.LocalLex
import Verif.LocalHere
import Verif.Local
import Verif.LocalEnd
import Verif.PropsLocal
import Verif.PropsBudget
import Verif.PropsErr
import Verif.Display
import Verif.PropsDisplay
import Verif.PropsArgs
import Verif.Forward
import Verif.Lazy
import Verif.LazyLex
import Verif.LazyCmd
import Verif.LexStream
import Verif.PropsLazy
import Verif.Cost
import Verif.CostLex
import Verif.CostCmd
import Verif.PropsCost
import Verif.Layout
import Verif.LayoutLex
import Verif.LayoutWord
import Verif.LayoutSimple
import Verif.LayoutGroup
import Verif.LayoutComp
import Verif.PropsLayout
import Verif.NormalForm
import Verif.NormalWord
import Verif.NormalTree
import Verif.PropsNormal
import Verif.PropsOrder
import Verif.Final
import Verif.FinalLex
import Verif.FinalCmd
import Verif.FinalHere
import Verif.FinalRun
import Verif.PropsFinal
import Verif.PropsAfter
import Verif.NlEnd
import Verif.NlRead
import Verif.PropsNl
import Verif.Compose
import Verif.PropsCompose
import Verif.PropsEmbed
import Verif.TextSpec
import Verif.TextKind
import Verif.TextRead
import Verif.TextTree
import Verif.PropsText
import Verif.PropsTick
import Verif.Alike
import Verif.AlikeKind
import Verif.AlikeArith
import Verif.AlikeTree
import Verif.PropsAlike
import Verif.Written
import Verif.PropsWritten
import Verif.CallOrder
import Verif.PropsCallOrder
import Verif.Given
import Verif.GivenTree
import Verif.PropsGiven
import Verif.Replay
import Verif.ReplayMaps
import Verif.PropsReplay
import Verif.PropsCases
import Verif.PropsComment
import Verif.OpEnd
import Verif.OpRead
import Verif.OpJoin
import Verif.PropsOps
import Verif.AppEnd
import Verif.AppRead
import Verif.AppJoin
import Verif.PropsAppend
import Verif.PropsNest
import Verif.PropsLines
import Verif.PropsWoven
