import Verif.Lemmas.Bytes
import Verif.Lemmas.Comments
import Verif.Lemmas.Factory
import Verif.Lemmas.FactoryParsed
import Verif.Lemmas.FormatArgs
import Verif.Lemmas.FormatChain
import Verif.Lemmas.FormatFree
import Verif.Lemmas.FormatNeat
import Verif.Lemmas.FormatSource
import Verif.Lemmas.GramAnnotate
import Verif.Lemmas.LexFlow
import Verif.Lemmas.LexFormat
import Verif.Lemmas.LexGlue
import Verif.Lemmas.LexParsed
import Verif.Lemmas.LexSource
import Verif.Lemmas.LexTidy
import Verif.Lemmas.LexTrack
import Verif.Lemmas.LexTree
import Verif.Lemmas.LexWord
import Verif.Lemmas.Lexer
import Verif.Lemmas.Ordinary
import Verif.Lemmas.Parsed
import Verif.Lemmas.ParsedLists
import Verif.Lemmas.ParserCrlf
import Verif.Lemmas.Pieces
import Verif.Lemmas.Placement
import Verif.Lemmas.PlacementCalm
import Verif.Lemmas.PlacementFate
import Verif.Lemmas.PlacementProper
import Verif.Lemmas.PlacementRoot
import Verif.Lemmas.PlacementSound
import Verif.Lemmas.PlacementVerb
import Verif.Lemmas.PlacementVerbs
import Verif.Lemmas.Prints
import Verif.Lemmas.PrintsList
import Verif.Lemmas.ReaderSound
import Verif.Lemmas.Reread
import Verif.Lemmas.StableArgs
import Verif.Lemmas.StableBase
import Verif.Lemmas.StableBody
import Verif.Lemmas.StableCalls
import Verif.Lemmas.StableCore
import Verif.Lemmas.StableFile
import Verif.Lemmas.StableHead
import Verif.Lemmas.StableItems
import Verif.Lemmas.StableMain
import Verif.Lemmas.StableRoot
import Verif.Lemmas.StableStmts
import Verif.Lemmas.Written
import Verif.Model.Factory
import Verif.Model.Pipeline
import Verif.Model.Placement
import Verif.Props.AirFormat
import Verif.Props.Assignment
import Verif.Props.Braces
import Verif.Props.Cli
import Verif.Props.Comments
import Verif.Props.Config
import Verif.Props.Session
import Verif.Props.Directive
import Verif.Props.DiscoverFiles
import Verif.Props.DiscoverSettings
import Verif.Props.Documents
import Verif.Props.EndToEnd
import Verif.Props.Factory
import Verif.Props.FilePatterns
import Verif.Props.Format
import Verif.Props.Formatting
import Verif.Props.Lexer
import Verif.Props.LineEnding
import Verif.Props.Lines
import Verif.Props.MainLoop
import Verif.Props.NamedFiles
import Verif.Props.Neat
import Verif.Props.Parser
import Verif.Props.Persistent
import Verif.Props.Positions
import Verif.Props.Preorder
import Verif.Props.RangeFormat
import Verif.Props.Resolver
import Verif.Props.Settings
import Verif.Props.Skip
import Verif.Props.SortedStrings
import Verif.Props.Source
import Verif.Props.Stable
import Verif.Props.Statements
import Verif.Props.Arguments
import Verif.Props.Codec
import Verif.Props.ArgumentsText
import Verif.Props.Table
import Verif.Props.TextChanges
import Verif.Props.TextEdit
import Verif.Props.Workspaces
import Verif.Spec.Comments
import Verif.Spec.Lexer
import Verif.Spec.Neat
import Verif.Spec.Persistent
import Verif.Spec.Slots
import Verif.Spec.Spelled
import Verif.Spec.Stable
import Verif.Spec.Written
import Verif.Lemmas.ContextGram
import Verif.Lemmas.ContextTree
import Verif.Lemmas.Contexts
import Verif.Lemmas.SpliceEls
import Verif.Spec.Contexts
import Verif.Lemmas.Splice
import Verif.Lemmas.SplicePrint
import Verif.Lemmas.SpliceRange
import Verif.Lemmas.SpliceText
import Verif.Props.RangeProgram
import Verif.Spec.Layout
import Verif.Lemmas.FormatJoin
import Verif.Lemmas.Typesets
import Verif.Lemmas.TypesetsAll
import Verif.Lemmas.FlatChain
import Verif.Props.Layout
import Verif.Spec.Inline
import Verif.Lemmas.Inline
import Verif.Lemmas.InlineDocs
import Verif.Lemmas.InlineAll
import Verif.Lemmas.InlineChunk
import Verif.Props.Inline
import Verif.Spec.Respaced
import Verif.Lemmas.Respaced
import Verif.Lemmas.Skim
import Verif.Props.Respaced
import Verif.Spec.Noted
import Verif.Lemmas.NotedBase
import Verif.Lemmas.NotedTree
import Verif.Lemmas.NotedSim
import Verif.Lemmas.NotedArgs
import Verif.Lemmas.NotedMain
import Verif.Lemmas.NotedGram
import Verif.Lemmas.NotedCalm
import Verif.Lemmas.NotedPut
import Verif.Lemmas.NotedRew
import Verif.Lemmas.NotedSaid
import Verif.Lemmas.NotedSay
import Verif.Lemmas.NotedSays
import Verif.Lemmas.NotedText
import Verif.Lemmas.NotedOf
import Verif.Lemmas.NotedRoot
import Verif.Lemmas.NotedRead
import Verif.Props.Noted
import Verif.Model.Editor
import Verif.Model.Zed
import Verif.Props.Editor
import Verif.Props.EditorFiles
import Verif.Props.EditorWork
import Verif.Props.Zed
import Verif.Model.Logging
import Verif.Model.Transport
import Verif.Props.Logging
import Verif.Lemmas.Transport
import Verif.Lemmas.TransportStep
import Verif.Props.Transport
import Verif.Props.Paths
import Verif.Props.Ungrammar
import Verif.Props.Codegen
import Verif.Props.RGrammar
import Verif.Props.Accessors
import Verif.Props.Schema
import Verif.Props.KindTables
import Verif.Props.KindGen
import Verif.Props.FormatterGen
import Verif.Props.DocEdit
import Verif.Props.SortedDisplay
