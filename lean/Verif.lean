import Verif.BoundInner.All
import Verif.BoundInner.Hier
import Verif.BoundInner.Inv
import Verif.BoundInner.Lemmas
import Verif.BoundInner.Model
import Verif.BoundInner.Mro
import Verif.BoundInner.Props
import Verif.BoundInner.ThreadAlone
import Verif.BoundInner.ThreadInv
import Verif.BoundInner.ThreadModel
import Verif.BoundInner.ThreadProps
import Verif.Builtin.Model
import Verif.Builtin.Props
import Verif.Delims.Args
import Verif.Delims.ArgsModel
import Verif.Delims.Cache
import Verif.Delims.CacheModel
import Verif.Delims.Code
import Verif.Delims.CodeProps
import Verif.Delims.Lemmas
import Verif.Delims.Loop
import Verif.Delims.Main
import Verif.Delims.Model
import Verif.Delims.Msg
import Verif.Delims.MsgModel
import Verif.Delims.Order
import Verif.Delims.Props
import Verif.Delims.Reread
import Verif.Delims.Resume
import Verif.Delims.Single
import Verif.Deprecated.Comments
import Verif.Deprecated.CommentsFault
import Verif.Deprecated.CommentsModel
import Verif.Deprecated.Parse
import Verif.Deprecated.ParseProps
import Verif.Deprecated.Quoted
import Verif.Deprecated.QuotedProps
import Verif.Encode.Exact
import Verif.Encode.Model
import Verif.Encode.Props
import Verif.File.Code
import Verif.File.Fs
import Verif.File.FsProps
import Verif.File.Grep
import Verif.File.GrepModel
import Verif.File.LinkModel
import Verif.File.Links
import Verif.File.Pushd
import Verif.File.Race
import Verif.File.RaceModel
import Verif.File.Text
import Verif.File.TextAgain
import Verif.File.TextProps
import Verif.Graph.Copy
import Verif.Graph.CopyModel
import Verif.Graph.CycleLemmas
import Verif.Graph.Gen
import Verif.Graph.GenModel
import Verif.Graph.GraphLemmas
import Verif.Graph.Inv
import Verif.Graph.Model
import Verif.Graph.Msg
import Verif.Graph.MsgModel
import Verif.Graph.Props
import Verif.Graph.Raise
import Verif.Graph.RaiseModel
import Verif.Graph.Spec
import Verif.Graph.SysLemmas
import Verif.Graph.Tsort
import Verif.Graph.TsortModel
import Verif.Graph.ViewLemmas
import Verif.Graph.ViewLemmas2
import Verif.Heap.Container
import Verif.Heap.ContainerModel
import Verif.Heap.Exact
import Verif.Heap.Fault
import Verif.Heap.FaultExact
import Verif.Heap.FaultLemmas
import Verif.Heap.FaultModel
import Verif.Heap.Lemmas
import Verif.Heap.Lemmas2
import Verif.Heap.Model
import Verif.Heap.Props
import Verif.Heap.Slice
import Verif.Heap.SliceModel
import Verif.IntWords.Layout
import Verif.IntWords.Lemmas
import Verif.IntWords.Model
import Verif.IntWords.Props
import Verif.Lines.Args
import Verif.Lines.ArgsExact
import Verif.Lines.ArgsModel
import Verif.Lines.Chain
import Verif.Lines.Clip
import Verif.Lines.ClipExact
import Verif.Lines.ClipModel
import Verif.Lines.Code
import Verif.Lines.Code2
import Verif.Lines.Code3
import Verif.Lines.CodeProps
import Verif.Lines.Comments
import Verif.Lines.Filters
import Verif.Lines.Indent
import Verif.Lines.Iter
import Verif.Lines.IterModel
import Verif.Lines.Kwargs
import Verif.Lines.KwargsModel
import Verif.Lines.Laws
import Verif.Lines.Model
import Verif.Lines.Msg
import Verif.Lines.MsgModel
import Verif.Lines.Multi
import Verif.Lines.Order
import Verif.Lines.Props
import Verif.Lines.Splitlines
import Verif.Lines.Streaming
import Verif.Lines.Strip
import Verif.Log.End
import Verif.Log.Model
import Verif.Log.Print
import Verif.Log.PrintModel
import Verif.Log.Props
import Verif.Log.Raise
import Verif.Log.RaiseModel
import Verif.Log.TimeExact
import Verif.Multisplit.Args
import Verif.Multisplit.ArgsModel
import Verif.Multisplit.Builtins
import Verif.Multisplit.ByteLines
import Verif.Multisplit.Cache
import Verif.Multisplit.CacheExact
import Verif.Multisplit.CacheModel
import Verif.Multisplit.Code
import Verif.Multisplit.CodeProps
import Verif.Multisplit.IterArgs
import Verif.Multisplit.Lemmas
import Verif.Multisplit.Main
import Verif.Multisplit.Model
import Verif.Multisplit.Norm
import Verif.Multisplit.Order
import Verif.Multisplit.Pattern
import Verif.Multisplit.PatternModel
import Verif.Multisplit.Progressive
import Verif.Multisplit.Props
import Verif.Multisplit.Props2
import Verif.Multisplit.PyStr
import Verif.Multisplit.Readme
import Verif.Multisplit.Spec
import Verif.Multisplit.SplitLemmas
import Verif.Multisplit.Strip
import Verif.Multisplit.StripExact
import Verif.Multisplit.Tables
import Verif.Multisplit.Tables2
import Verif.Pushback.Exc
import Verif.Pushback.Model
import Verif.Pushback.Props
import Verif.Quoted.Args
import Verif.Quoted.Call
import Verif.Quoted.CallErrors
import Verif.Quoted.CallModel
import Verif.Quoted.Code
import Verif.Quoted.CodeProps
import Verif.Quoted.Exact
import Verif.Quoted.Main
import Verif.Quoted.Model
import Verif.Quoted.Props
import Verif.Quoted.Resume
import Verif.RePart.Exact
import Verif.RePart.Forward
import Verif.RePart.Literal
import Verif.RePart.LiteralRev
import Verif.RePart.Model
import Verif.RePart.Props56
import Verif.RePart.Props57
import Verif.RePart.Reverse
import Verif.RePart.Rx
import Verif.RePart.Twice
import Verif.Regex.Basic
import Verif.Regex.First
import Verif.Scheduler.Lemmas
import Verif.Scheduler.Lock
import Verif.Scheduler.LockCalls
import Verif.Scheduler.LockModel
import Verif.Scheduler.LockProps
import Verif.Scheduler.Model
import Verif.Scheduler.Props
import Verif.Scheduler.Single
import Verif.Scheduler.SingleModel
import Verif.State.Exact
import Verif.State.Model
import Verif.State.Props
import Verif.Subclass.LinesModel
import Verif.Subclass.LinesProps
import Verif.Subclass.Model
import Verif.Subclass.PartProps
import Verif.Subclass.Props
import Verif.Time.Calendar
import Verif.Time.Model
import Verif.Time.Parse
import Verif.Time.ParseModel
import Verif.Time.Props
import Verif.Time.Stamp
import Verif.Time.Struct
import Verif.Time.StructModel
import Verif.Version.Access
import Verif.Version.AccessModel
import Verif.Version.Args
import Verif.Version.ArgsModel
import Verif.Version.Case
import Verif.Version.Exact
import Verif.Version.Model
import Verif.Version.Order
import Verif.Version.ParseLemmas
import Verif.Version.ParseLemmas2
import Verif.Version.Props
import Verif.Version.Sound
import Verif.Version.Spec
import Verif.Version.Spelling
import Verif.Words.Args
import Verif.Words.ArgsModel
import Verif.Words.Code
import Verif.Words.CodeProps
import Verif.Words.CombineLaws
import Verif.Words.CombineProps
import Verif.Words.CombineSplits
import Verif.Words.GentlyTitle
import Verif.Words.Spec
import Verif.Words.SplitTitle
import Verif.Words.TitleAgain
import Verif.Words.TitleExact
import Verif.Words.TitleLaws
import Verif.Wrap.Exact
import Verif.Wrap.Merge
import Verif.Wrap.MergeLemmas
import Verif.Wrap.MergeProps
import Verif.Wrap.MergeRows
import Verif.Wrap.Reflow
import Verif.Wrap.ReflowProps
import Verif.Wrap.SizedModel
import Verif.Wrap.SizedProps
import Verif.Wrap.Split
import Verif.Wrap.SplitExact
import Verif.Wrap.SplitLemmas
import Verif.Wrap.SplitLines
import Verif.Wrap.SplitProps
import Verif.Wrap.Words
