import Verif.Model.Backtrace
import Verif.Model.Basic
import Verif.Model.Cfg
import Verif.Model.Chumsky
import Verif.Model.Diagnostics
import Verif.Model.Index
import Verif.Model.Locks
import Verif.Model.Parser
import Verif.Model.Rename
import Verif.Model.Rope
import Verif.Model.SemanticToken
import Verif.Model.Server
import Verif.Model.Tokenizer
import Verif.Spec.Agreement
import Verif.Spec.Answers
import Verif.Spec.Backtrace
import Verif.Spec.Below
import Verif.Spec.BlankLines
import Verif.Spec.Broken
import Verif.Spec.Builds
import Verif.Spec.Clear
import Verif.Spec.Compose
import Verif.Spec.Consistency
import Verif.Spec.CrashSites
import Verif.Spec.Crashes
import Verif.Spec.Determined
import Verif.Spec.Diagnostics
import Verif.Spec.Edit
import Verif.Spec.Edits
import Verif.Spec.Exact
import Verif.Spec.Flow
import Verif.Spec.Grammar
import Verif.Spec.Highlight
import Verif.Spec.Hints
import Verif.Spec.History
import Verif.Spec.Insert
import Verif.Spec.Inside
import Verif.Spec.Join
import Verif.Spec.Kept
import Verif.Spec.KeptViews
import Verif.Spec.Layout
import Verif.Spec.Lexical
import Verif.Spec.Locks
import Verif.Spec.Mentions
import Verif.Spec.Module
import Verif.Spec.Names
import Verif.Spec.Numbers
import Verif.Spec.Outline
import Verif.Spec.Position
import Verif.Spec.Reading
import Verif.Spec.Recovery
import Verif.Spec.Remarks
import Verif.Spec.Rename
import Verif.Spec.Schedule
import Verif.Spec.Server
import Verif.Spec.Stretches
import Verif.Spec.Symbols
import Verif.Spec.Taken
import Verif.Spec.Text
import Verif.Spec.Together
import Verif.Spec.Unread
import Verif.Spec.Views
import Verif.Spec.Wide
import Verif.Proofs.Analysis
import Verif.Proofs.Annotations
import Verif.Proofs.Answers
import Verif.Proofs.Applied
import Verif.Proofs.Backtrace
import Verif.Proofs.Blame
import Verif.Proofs.Bodies
import Verif.Proofs.Broken
import Verif.Proofs.Combinators
import Verif.Proofs.Combinators2
import Verif.Proofs.Compose
import Verif.Proofs.CrashSites
import Verif.Proofs.Diagnostics
import Verif.Proofs.EditorRange
import Verif.Proofs.Effects
import Verif.Proofs.Equivariant
import Verif.Proofs.Errors
import Verif.Proofs.Exact
import Verif.Proofs.External
import Verif.Proofs.Flow
import Verif.Proofs.Index
import Verif.Proofs.IndexDoc
import Verif.Proofs.IndexFacts
import Verif.Proofs.IndexMain
import Verif.Proofs.InsertLines
import Verif.Proofs.Join
import Verif.Proofs.JoinLines
import Verif.Proofs.JoinProblems
import Verif.Proofs.JoinViews
import Verif.Proofs.JoinViews2
import Verif.Proofs.Kept
import Verif.Proofs.KeptLines
import Verif.Proofs.KeptStructure
import Verif.Proofs.KeptViews
import Verif.Proofs.LabelBefore
import Verif.Proofs.LaidDoc
import Verif.Proofs.LaidDocs
import Verif.Proofs.LaidServer
import Verif.Proofs.LexErrors
import Verif.Proofs.LexFacts
import Verif.Proofs.LexFollow
import Verif.Proofs.LexInsert
import Verif.Proofs.LexRename
import Verif.Proofs.LexToken
import Verif.Proofs.Local
import Verif.Proofs.Lost
import Verif.Proofs.Mentions
import Verif.Proofs.MovedIndex
import Verif.Proofs.MovedLines
import Verif.Proofs.MovedServer
import Verif.Proofs.Natural
import Verif.Proofs.Navigation
import Verif.Proofs.Numbers
import Verif.Proofs.ParserComplete
import Verif.Proofs.ParserInstr
import Verif.Proofs.ParserPrims
import Verif.Proofs.ParserSound
import Verif.Proofs.PlacedIndex
import Verif.Proofs.Reading
import Verif.Proofs.Recovery
import Verif.Proofs.Relabel
import Verif.Proofs.RelabelDoc
import Verif.Proofs.RemarkDoc
import Verif.Proofs.RemarkLex
import Verif.Proofs.RemarkLines
import Verif.Proofs.Rename
import Verif.Proofs.RenameMany
import Verif.Proofs.RenameMeaning
import Verif.Proofs.RenameTwice
import Verif.Proofs.Rope
import Verif.Proofs.Shut
import Verif.Proofs.ShutDoc
import Verif.Proofs.Slices
import Verif.Proofs.Squeeze
import Verif.Proofs.SqueezeParser
import Verif.Proofs.Stretches
import Verif.Proofs.Tables
import Verif.Proofs.Tokenizer
import Verif.Proofs.TwinServer
import Verif.Proofs.Wide
import Verif.Props.Agreement
import Verif.Props.Analysis
import Verif.Props.Answers
import Verif.Props.Backtrace
import Verif.Props.Below
import Verif.Props.BlankLines
import Verif.Props.Broken
import Verif.Props.Builds
import Verif.Props.Clear
import Verif.Props.Compose
import Verif.Props.Consistency
import Verif.Props.CrashSites
import Verif.Props.Crashes
import Verif.Props.Determined
import Verif.Props.Diagnostics
import Verif.Props.Edit
import Verif.Props.Effects
import Verif.Props.Exact
import Verif.Props.Flow
import Verif.Props.Hints
import Verif.Props.History
import Verif.Props.Index
import Verif.Props.Insert
import Verif.Props.Inside
import Verif.Props.Instances
import Verif.Props.Join
import Verif.Props.JoinProblems
import Verif.Props.JoinViews
import Verif.Props.Kept
import Verif.Props.Layout
import Verif.Props.Lexer
import Verif.Props.Locks
import Verif.Props.Modules
import Verif.Props.Names
import Verif.Props.Navigation
import Verif.Props.OneLine
import Verif.Props.Outline
import Verif.Props.Parser
import Verif.Props.Position
import Verif.Props.Reading
import Verif.Props.Recovery
import Verif.Props.Remarks
import Verif.Props.Rename
import Verif.Props.RenameBack
import Verif.Props.RenameText
import Verif.Props.RenameTwice
import Verif.Props.Schedule
import Verif.Props.SemanticToken
import Verif.Props.Shift
import Verif.Props.ShiftText
import Verif.Props.Stretches
import Verif.Props.Structure
import Verif.Props.Taken
import Verif.Props.Together
import Verif.Props.UnitTests
import Verif.Props.Unread
import Verif.Props.Views
import Verif.Props.Wide
