import Verif.Analysis.DecimalTimes
import Verif.Analysis.DecimalTiny
import Verif.Analysis.FloatBreakdown
import Verif.Analysis.FracDoc
import Verif.Analysis.FracHot
import Verif.Analysis.FracTrace
import Verif.Analysis.FracTypes
import Verif.Analysis.Hot
import Verif.Analysis.HotTree
import Verif.Analysis.Report
import Verif.Analysis.Share
import Verif.Analysis.Stdio
import Verif.Analysis.WholeTrace
import Verif.Analysis.Witness
import Verif.Build.Clang
import Verif.Build.Csv
import Verif.Build.Database
import Verif.Build.DatabaseJson
import Verif.Build.EndToEnd
import Verif.Build.FloatText
import Verif.Build.JsonFiles
import Verif.Build.ProfileCsv
import Verif.Build.ProfileTable
import Verif.Build.Shlex
import Verif.Build.Unit
import Verif.Build.WallTime
import Verif.Build.Witness
import Verif.Cpp.Ast
import Verif.Cpp.Atoms
import Verif.Cpp.AtomsProps
import Verif.Cpp.DisplayLimits
import Verif.Cpp.DisplayMain
import Verif.Cpp.DisplayNew
import Verif.Cpp.DisplayRound
import Verif.Cpp.DisplayText
import Verif.Cpp.EntityDisplay
import Verif.Cpp.EntityProps
import Verif.Cpp.Grammar
import Verif.Cpp.GrammarFacts
import Verif.Cpp.GrammarProps
import Verif.Cpp.GrammarSafe
import Verif.Cpp.Keys
import Verif.Cpp.Nom
import Verif.Cpp.Operators
import Verif.Cpp.Simpp
import Verif.Cpp.Spelling
import Verif.Cpp.SpellingArgs
import Verif.Cpp.SpellingDecl
import Verif.Cpp.SpellingExample
import Verif.Cpp.SpellingExpr
import Verif.Cpp.SpellingLead
import Verif.Cpp.SpellingMain
import Verif.Cpp.SpellingNames
import Verif.Cpp.SpellingNew
import Verif.Cpp.SpellingOps
import Verif.Cpp.SpellingRun
import Verif.Cpp.SpellingTrail
import Verif.Cpp.SpellingTypes
import Verif.Cpp.SpellingValues
import Verif.Cpp.Witness
import Verif.Display.Bounded
import Verif.Display.Columns
import Verif.Display.Duration
import Verif.Display.DurationFloat
import Verif.Display.PathModel
import Verif.Display.PathProps
import Verif.Display.Str
import Verif.Display.Text
import Verif.Display.Witness
import Verif.Intern.Interner
import Verif.Intern.Path
import Verif.Intern.PathStats
import Verif.Intern.Progress
import Verif.Intern.Rec
import Verif.Intern.Seq
import Verif.Intern.SeqKey
import Verif.Intern.Witness
import Verif.Measure.Concurrency
import Verif.Measure.Futex
import Verif.Measure.Job
import Verif.Measure.Liveness
import Verif.Measure.Oom
import Verif.Measure.PollClock
import Verif.Measure.ProcTree
import Verif.Measure.Protocol
import Verif.Measure.StopFlags
import Verif.Measure.Termination
import Verif.Measure.WeakMemory
import Verif.Measure.WeakStop
import Verif.Measure.Witness
import Verif.Measure.Youngest
import Verif.Trace.Accept
import Verif.Trace.ArgParse
import Verif.Trace.Args
import Verif.Trace.Infer
import Verif.Trace.Json
import Verif.Trace.JsonDoc
import Verif.Trace.JsonMalformed
import Verif.Trace.JsonProps
import Verif.Trace.JsonText
import Verif.Trace.JsonWrite
import Verif.Trace.Model
import Verif.Trace.Props
import Verif.Trace.Witness
import Verif.Tree.Binary64
import Verif.Tree.F64
import Verif.Tree.Float
import Verif.Tree.FracTimes
import Verif.Tree.Lemmas
import Verif.Tree.Model
import Verif.Tree.Props
import Verif.Tree.Witness
import Verif.Tui.BuildBackup
import Verif.Tui.Files
import Verif.Tui.Navigation
import Verif.Tui.Processing
import Verif.Tui.Prompt
import Verif.Tui.Sorting
import Verif.Tui.Stack
import Verif.Tui.StackInv
import Verif.Tui.StackProps
import Verif.Tui.TraceBackup
import Verif.Tui.TraceWait
import Verif.Tui.Witness
import Verif.Tui.Wizard
