import Verif.Props.Text
import Verif.Props.Span
import Verif.Props.Warn
import Verif.Props.Options
import Verif.Props.Instrument
import Verif.Props.Guard
import Verif.Props.RunDemo
import Verif.Props.Interrupt
import Verif.Props.Results
import Verif.Model.Sqlite
import Verif.Lemmas.RunResume
import Verif.Props.Report
import Verif.Spec.Span
import Verif.Spec.Resume
import Verif.Lemmas.Sqlite
import Verif.Props.Database
import Verif.Props.Resume
import Verif.Props.Config
import Verif.Props.Directives
import Verif.Props.VisitorDemo
import Verif.Props.ParseDemo
import Verif.Props.Framework
import Verif.Props.Skill
import Verif.Props.Kill
import Verif.Props.Lock
import Verif.Props.Exec
import Verif.Props.ItMessage
import Verif.Props.Cursor
import Verif.Props.Columns
import Verif.Props.Foundry
import Verif.Props.FoundryTests
import Verif.Props.FoundryDemo
import Verif.Props.Go
import Verif.Props.Cache
import Verif.Props.Rust
import Verif.Props.Url
import Verif.Props.Main
import Verif.Props.MainRun
import Verif.Props.MainMore
import Verif.Props.MainDemo
import Verif.Props.Anchor
import Verif.Props.AnchorRun
import Verif.Props.AnchorDemo
import Verif.Props.Limit
import Verif.Props.LimitDemo
import Verif.Props.LimitProgram
import Verif.Props.AnchorProgram
import Verif.Props.ProgramDemo
import Verif.Props.GoVisitor
import Verif.Props.GoVisitorDemo
import Verif.Props.PhpVisitor
import Verif.Props.PhpVisitorDemo
import Verif.Props.TypeScript
import Verif.Props.TypeScriptDemo
import Verif.Props.RustVisitor
import Verif.Props.RustVisitorDemo
import Verif.Props.RustVisitorError
import Verif.Props.Commands
import Verif.Props.CommandsDemo
import Verif.Props.Walk
import Verif.Props.Builtins
import Verif.Model.Sources
import Verif.Spec.Sources
import Verif.Lemmas.Sources
import Verif.Lemmas.SourcesSpans
import Verif.Props.Sources
import Verif.Props.SourcesDemo
import Verif.Model.Results
import Verif.Spec.Results
import Verif.Lemmas.Results
import Verif.Props.Meaning
import Verif.Props.MeaningDemo
import Verif.Spec.Warnings
import Verif.Lemmas.Warnings
import Verif.Spec.RunWarnings
import Verif.Lemmas.RunWarnings
import Verif.Spec.MainWarnings
import Verif.Lemmas.MainWarnings
import Verif.Props.MainWarnings
import Verif.Props.MainWarningsDemo
import Verif.Lemmas.RunChanged
import Verif.Props.FilesChanged
import Verif.Spec.Ambiguous
import Verif.Lemmas.VisitorWarn
import Verif.Props.Ambiguous
import Verif.Props.AmbiguousMain
import Verif.Props.AmbiguousFw
import Verif.Spec.Notices
import Verif.Lemmas.RunNotices
import Verif.Props.Notices
import Verif.Spec.UnknownModules
import Verif.Lemmas.UnknownModules
import Verif.Props.UnknownModules
import Verif.Props.UnknownModulesMain
import Verif.Props.UnknownModulesDemo
import Verif.Props.Paths
import Verif.Spec.Reported
import Verif.Lemmas.Reported
import Verif.Lemmas.Told
import Verif.Lemmas.ToldFw
import Verif.Props.Reported
import Verif.Props.ReportedDemo
import Verif.Model.Cli
import Verif.Spec.Cli
import Verif.Lemmas.Cli
import Verif.Lemmas.CliSays
import Verif.Props.Cli
import Verif.Spec.Arguments
import Verif.Props.Arguments
import Verif.Props.ArgumentsDemo
import Verif.Props.SpanExact
import Verif.Props.MainInterrupt
import Verif.Props.MainVerdict
import Verif.Props.MainHints
import Verif.Props.Verbose
import Verif.Props.VerboseFw
