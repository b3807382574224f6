import Verif.Props.LexerRun
import Verif.Props.LexerPositions
import Verif.Props.LexerFloat
import Verif.Props.LexerEquality
import Verif.Props.LexerTokens
import Verif.Props.LexerCompose
import Verif.Props.LexerImage
import Verif.Props.ParserIterator
import Verif.Props.ParserExpr
import Verif.Props.ParserProgram
import Verif.Props.ParserTree
import Verif.Props.ParserFlat
import Verif.Props.ParserMap
import Verif.Props.ParserCompose
import Verif.Props.SourceText
import Verif.Props.TreePrint
import Verif.Props.ParserCost
import Verif.Props.ParserStatements
import Verif.Props.ParserBlocks
import Verif.Props.TreeEquality
import Verif.Props.Conversions
import Verif.Props.Layout
import Verif.Props.ParserEdit
import Verif.Props.ParserErrors
import Verif.Props.ParserStack
import Verif.Props.LexerCost
import Verif.Props.Cut
import Verif.Props.Words
import Verif.Props.LexerStrings
import Verif.Props.Ranges
import Verif.Props.Keep
import Verif.Props.EditLine
import Verif.Props.Bodies
import Verif.Props.Append
import Verif.Props.EditRun
import Verif.Props.Panics
import Verif.Props.Rename
import Verif.Props.Close
import Verif.Props.Incremental
import Verif.Props.Counting
import Verif.Props.Tidy
import Verif.Props.Joined
import Verif.Props.Fixed
import Verif.Lexer.RunSpec
import Verif.Props.LexerComplete
import Verif.Tests.UnitTests
import Verif.Parser.CoverSpec
import Verif.Parser.CoverLemmas
import Verif.Props.Cover
import Verif.Lexer.CrlfSpec
import Verif.Lexer.CrlfLemmas
import Verif.Lexer.TrailSpec
import Verif.Lexer.TrailLemmas
import Verif.Parser.ErrorCount
import Verif.Props.Crlf
import Verif.Props.Trail
import Verif.Props.Comments
import Verif.Parser.ErrorList
import Verif.Props.ErrorOrder
import Verif.Lexer.SepLemmas
import Verif.Props.Separators
import Verif.Lexer.DotsLemmas
import Verif.Props.Continuation
import Verif.Props.UndoContinuation
import Verif.Parser.NoiseSpec
import Verif.Parser.NoiseLemmas
import Verif.Parser.RetouchLemmas
import Verif.Props.OptionalWords
import Verif.Parser.SubstSpec
import Verif.Parser.SubstLemmas
import Verif.Parser.SubstBack
import Verif.Props.Substitution
import Verif.Parser.SwapSpec
import Verif.Parser.SwapLemmas
import Verif.Props.Roles
import Verif.Lexer.WordSpec
import Verif.Lexer.WordLemmas
import Verif.Props.NewWords
import Verif.Lexer.BlankSpec
import Verif.Lexer.BlankLemmas
import Verif.Props.LeaveOut
import Verif.Parser.GraftSpec
import Verif.Lexer.GraftLemmas
import Verif.Parser.GraftSplit
import Verif.Props.Graft
import Verif.Props.InsertProgram
import Verif.Parser.ExchangeLemmas
import Verif.Props.Exchange
import Verif.Parser.EditPanic
import Verif.Props.DeleteLines
import Verif.Props.Wrap
import Verif.Parser.ClosedIn
import Verif.Props.InsertErrors
import Verif.Props.WrapErrors
import Verif.Props.WrapMebbe
