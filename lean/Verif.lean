import Verif.Model.Lexer
import Verif.Model.Ast.Visit
import Verif.Model.Ast.Operators
import Verif.Model.Parser.Parse
import Verif.Spec.Trees
import Verif.Spec.Events
import Verif.Spec.Operators
import Verif.Proofs.Text
import Verif.Proofs.LexerCore
import Verif.Proofs.LexerStep
import Verif.Proofs.Stream
import Verif.Proofs.StreamAll
import Verif.Proofs.StreamFacts
import Verif.Props.Tokenizer
import Verif.Props.Streaming
import Verif.Props.Symbols
import Verif.Props.Versions
import Verif.Props.Order
import Verif.Props.Punctuated
import Verif.Proofs.Ast.Basic
import Verif.Proofs.Ast.View
import Verif.Proofs.Ast.Tokens
import Verif.Proofs.Ast.VisitMut
import Verif.Proofs.Ast.Pointwise
import Verif.Proofs.Ast.Similar
import Verif.Proofs.Ast.Ends
import Verif.Proofs.Ast.Visit
import Verif.Proofs.Ast.Positions
import Verif.Props.Operators
import Verif.Props.Trees
import Verif.Props.Visitors
import Verif.Spec.Parsing
import Verif.Proofs.Parser.Logic
import Verif.Proofs.Parser.Tactics
import Verif.Proofs.Parser.Nonempty
import Verif.Proofs.Parser.Types
import Verif.Proofs.Parser.Tables
import Verif.Proofs.Parser.Expr
import Verif.Proofs.Parser.Stmt
import Verif.Proofs.Parser.Safe
import Verif.Proofs.Parser.Source
import Verif.Proofs.Eval
import Verif.Props.Parsing
import Verif.Spec.Grammar
import Verif.Proofs.Parser.Kinds
import Verif.Proofs.Parser.Clean
import Verif.Proofs.Parser.CleanTypes
import Verif.Proofs.Parser.CleanExpr
import Verif.Proofs.Parser.CleanStmt
import Verif.Proofs.Parser.Accept
import Verif.Spec.Accepted
import Verif.Proofs.Parser.Grammar
import Verif.Props.Accepted
import Verif.Props.Parsed
import Verif.Proofs.Parser.Forward
import Verif.Proofs.Parser.Fits
import Verif.Proofs.Parser.View
import Verif.Proofs.Parser.ViewStmt
import Verif.Proofs.Parser.ForwardExpr
import Verif.Proofs.Parser.ForwardExpr2
import Verif.Proofs.Parser.ForwardOp
import Verif.Proofs.Parser.ForwardStmt
import Verif.Proofs.Parser.ForwardBlock
import Verif.Proofs.Parser.Ordinary
import Verif.Props.Complete
import Verif.Spec.Formatting
import Verif.Proofs.Parser.Format
import Verif.Proofs.Parser.FormatTac
import Verif.Proofs.Parser.FormatFns
import Verif.Proofs.Parser.FormatTypes
import Verif.Proofs.Parser.FormatExpr
import Verif.Proofs.Parser.FormatStmt
import Verif.Proofs.Parser.FormatParse
import Verif.Props.Formatting
import Verif.Spec.Spacing
import Verif.Proofs.Respace
import Verif.Proofs.RespaceRead
import Verif.Proofs.RespaceFill
import Verif.Proofs.RespaceChain
import Verif.Proofs.RespaceOrig
import Verif.Proofs.RespaceLaid
import Verif.Spec.Layout
import Verif.Proofs.Layout
import Verif.Props.Spacing
import Verif.Spec.Nesting
import Verif.Proofs.Nesting
import Verif.Proofs.NestingAll
import Verif.Props.Nesting
import Verif.Model.Ast.Builders
import Verif.Spec.Builders
import Verif.Props.Builders
import Verif.Model.Ast.Build
import Verif.Spec.Building
import Verif.Proofs.Touch
import Verif.Proofs.Building
import Verif.Props.Building
import Verif.Spec.Luau
import Verif.Proofs.Parser.ViewTypes
import Verif.Proofs.Parser.ForwardTypes
import Verif.Proofs.Parser.ForwardTypes2
import Verif.Proofs.Parser.ForwardTypes3
import Verif.Proofs.Parser.ForwardFirst
import Verif.Proofs.Parser.Decide
import Verif.Spec.Lexical
import Verif.Proofs.LexicalNumber
import Verif.Proofs.LexicalText
import Verif.Proofs.LexicalTokens
import Verif.Proofs.LexicalSymbol
import Verif.Proofs.LexicalStep
import Verif.Proofs.LexicalChain
import Verif.Props.Lexical
import Verif.Proofs.Ast.Hooks
import Verif.Proofs.Ast.HooksSame
import Verif.Proofs.Ast.HooksSpan
import Verif.Props.Hooks
import Verif.Model.Errors
import Verif.Props.Errors
import Verif.Spec.Source
import Verif.Proofs.Attach
import Verif.Props.Source
import Verif.Props.Changing
import Verif.Model.Ast.Kinds
import Verif.Model.Ast.Node
import Verif.Model.Ast.VisitChanging
import Verif.Model.Basic
import Verif.Model.Config
import Verif.Model.Parser.Expr
import Verif.Model.Parser.State
import Verif.Model.Parser.Stmt
import Verif.Model.Parser.Types
import Verif.Model.Punctuated
import Verif.Model.Symbol
import Verif.Model.Token
import Verif.Proofs.Ast.Changing
import Verif.Proofs.Ast.Ranges
import Verif.Proofs.Ast.Shown
import Verif.Proofs.Parser.KindsLuau
import Verif.Proofs.Parser.Listed
import Verif.Proofs.Parser.Reading
import Verif.Proofs.Symbol
import Verif.Spec.Cursor
import Verif.Spec.Expand
import Verif.Spec.Ranges
import Verif.Spec.Separated
import Verif.Spec.Text
import Verif.Spec.Tokens
import Verif.Spec.Visited
import Verif.Model.Ast.Shapes
import Verif.Model.Ast.Saved
import Verif.Model.SavedErrors
import Verif.Spec.Saved
import Verif.Proofs.Ast.Saved
import Verif.Proofs.Ast.SavedSame
import Verif.Props.Saved
import Verif.Props.Recovered
import Verif.Proofs.Parser.Count
import Verif.Proofs.Parser.CountTypes
import Verif.Proofs.Parser.CountExpr
import Verif.Proofs.Parser.CountStmt
import Verif.Proofs.Parser.CountTop
import Verif.Proofs.Parser.Kept
import Verif.Spec.Kept
import Verif.Spec.Slots
import Verif.Props.Kept
import Verif.Model.Api
import Verif.Props.Api
import Verif.Spec.Later
import Verif.Props.Later
import Verif.Spec.FromLua51
import Verif.Props.FromLua51
import Verif.Spec.Within
import Verif.Proofs.Within
import Verif.Proofs.Braces
import Verif.Proofs.LexSlice
import Verif.Proofs.FlatMap
import Verif.Props.Within
import Verif.Spec.Shebang
import Verif.Props.Shebang
import Verif.Spec.Append
import Verif.Proofs.Append
import Verif.Props.Append
import Verif.Spec.Exchange
import Verif.Proofs.Exchange
import Verif.Props.Exchange
import Verif.Proofs.Splice
import Verif.Props.Splice
import Verif.Proofs.Parser.SaysTac
import Verif.Proofs.Parser.Says
import Verif.Spec.Recovery
import Verif.Proofs.Recovery
import Verif.Props.Recovery
import Verif.Spec.Before
import Verif.Proofs.Before
import Verif.Props.Before
import Verif.Spec.Alike
import Verif.Proofs.Parser.Alike
import Verif.Proofs.Parser.AlikeTac
import Verif.Proofs.Parser.AlikeFns
import Verif.Proofs.Parser.AlikeExpr
import Verif.Proofs.Parser.AlikeTypes
import Verif.Proofs.Parser.AlikeStmt
import Verif.Proofs.Parser.AlikeParse
import Verif.Proofs.Relabel
import Verif.Props.Alike
import Verif.Spec.FirstError
import Verif.Proofs.FirstError
import Verif.Props.FirstError
import Verif.Proofs.PrintedErrors
import Verif.Props.Constructed
import Verif.Props.References
import Verif.Props.Naming
