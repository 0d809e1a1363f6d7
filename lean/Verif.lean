import Verif.Model.Append
import Verif.Model.Assign
import Verif.Model.Basic
import Verif.Model.Broadcast
import Verif.Model.BrokenOff
import Verif.Model.CacheDir
import Verif.Model.CacheLoader
import Verif.Model.CacheSize
import Verif.Model.Checkpoint
import Verif.Model.CheckpointStore
import Verif.Model.Children
import Verif.Model.ChunkFile
import Verif.Model.Client
import Verif.Model.Collate
import Verif.Model.Combined
import Verif.Model.CombinedLoader
import Verif.Model.Config
import Verif.Model.Counter
import Verif.Model.Dataset
import Verif.Model.Decompress
import Verif.Model.DiskSpace
import Verif.Model.Dns
import Verif.Model.Download
import Verif.Model.Entry
import Verif.Model.Env
import Verif.Model.Epochs
import Verif.Model.FailedDownload
import Verif.Model.Fetch
import Verif.Model.Floats
import Verif.Model.Format
import Verif.Model.FsProvider
import Verif.Model.IndexPlace
import Verif.Model.InputFiles
import Verif.Model.Json
import Verif.Model.Keys
import Verif.Model.Loader
import Verif.Model.LoaderInput
import Verif.Model.LoaderIter
import Verif.Model.LoaderSettings
import Verif.Model.MainLoop
import Verif.Model.Mds
import Verif.Model.Merge
import Verif.Model.MergeDatasets
import Verif.Model.Modes
import Verif.Model.NodeRegistry
import Verif.Model.Nodes
import Verif.Model.NumpyItems
import Verif.Model.Opening
import Verif.Model.Packing
import Verif.Model.Parquet
import Verif.Model.ParquetIndex
import Verif.Model.Persistent
import Verif.Model.PersistentLoaded
import Verif.Model.Pipeline
import Verif.Model.Prepare
import Verif.Model.Processes
import Verif.Model.Profiling
import Verif.Model.Pytree
import Verif.Model.Reader
import Verif.Model.ReaderFine
import Verif.Model.Registry
import Verif.Model.RemoteJob
import Verif.Model.Resolver
import Verif.Model.ResumedCombined
import Verif.Model.ResumedLoop
import Verif.Model.Rewrite
import Verif.Model.Sample
import Verif.Model.Sampler
import Verif.Model.Serializers
import Verif.Model.Sessions
import Verif.Model.SkipDelete
import Verif.Model.Slice
import Verif.Model.Streaming
import Verif.Model.Subsample
import Verif.Model.Tokens
import Verif.Model.TokensBatch
import Verif.Model.TokensStream
import Verif.Model.TokensThreads
import Verif.Model.TreeMap
import Verif.Model.Upload
import Verif.Model.UserCall
import Verif.Model.Validate
import Verif.Model.Wait
import Verif.Model.Walk
import Verif.Model.Writer
import Verif.Spec.Leaves
import Verif.Spec.Opening
import Verif.Spec.Regions
import Verif.Spec.RoundRobin
import Verif.Spec.Samples
import Verif.Spec.Sessions
import Verif.Spec.Slice
import Verif.Spec.Stream
import Verif.Spec.TreeMap
import Verif.Spec.Walk
import Verif.Lemmas.Assign
import Verif.Lemmas.AssignRank
import Verif.Lemmas.Budget
import Verif.Lemmas.Checkpoint
import Verif.Lemmas.CheckpointStore
import Verif.Lemmas.ChunkFile
import Verif.Lemmas.Combined
import Verif.Lemmas.CombinedLoader
import Verif.Lemmas.CombinedResume
import Verif.Lemmas.CombinedZero
import Verif.Lemmas.Config
import Verif.Lemmas.Dataset
import Verif.Lemmas.Fetch
import Verif.Lemmas.Floats
import Verif.Lemmas.Format
import Verif.Lemmas.FsProvider
import Verif.Lemmas.Json
import Verif.Lemmas.Leaves
import Verif.Lemmas.LoaderIter
import Verif.Lemmas.Merge
import Verif.Lemmas.Names
import Verif.Lemmas.Nodes
import Verif.Lemmas.NumpyItems
import Verif.Lemmas.Opening
import Verif.Lemmas.Packing
import Verif.Lemmas.Pipeline
import Verif.Lemmas.Processes
import Verif.Lemmas.ProcessesEnd
import Verif.Lemmas.ProcessesRun
import Verif.Lemmas.Pytree
import Verif.Lemmas.Reader
import Verif.Lemmas.Replay
import Verif.Lemmas.Sample
import Verif.Lemmas.Sampler
import Verif.Lemmas.Serializers
import Verif.Lemmas.Shuffle
import Verif.Lemmas.SkipDelete
import Verif.Lemmas.SkipDeleteAll
import Verif.Lemmas.SkipDeleteAssign
import Verif.Lemmas.SkipDeleteExact
import Verif.Lemmas.Sorted
import Verif.Lemmas.Splits
import Verif.Lemmas.Subsample
import Verif.Lemmas.TreeMap
import Verif.Lemmas.Writer
import Verif.Lemmas.WriterAny
import Verif.Lemmas.WriterJob
import Verif.Props.Append
import Verif.Props.AppendMany
import Verif.Props.AppendRun
import Verif.Props.Assign
import Verif.Props.Broadcast
import Verif.Props.BrokenOff
import Verif.Props.CacheDir
import Verif.Props.CacheLoader
import Verif.Props.CacheSize
import Verif.Props.Checkpoint
import Verif.Props.CheckpointStore
import Verif.Props.Children
import Verif.Props.ChunkFile
import Verif.Props.Client
import Verif.Props.Collate
import Verif.Props.Combined
import Verif.Props.CombinedLoader
import Verif.Props.CombinedWhole
import Verif.Props.Config
import Verif.Props.Counter
import Verif.Props.Dataset
import Verif.Props.Decompress
import Verif.Props.DiskSpace
import Verif.Props.Dns
import Verif.Props.Download
import Verif.Props.EndToEnd
import Verif.Props.Entry
import Verif.Props.EntryMore
import Verif.Props.Env
import Verif.Props.Epochs
import Verif.Props.EpochsBroken
import Verif.Props.EpochsCombined
import Verif.Props.EpochsWhole
import Verif.Props.FailedDownload
import Verif.Props.Fetch
import Verif.Props.FetchMore
import Verif.Props.Floats
import Verif.Props.Format
import Verif.Props.FormatMore
import Verif.Props.FsProvider
import Verif.Props.IndexPlace
import Verif.Props.InputFiles
import Verif.Props.Interrupted
import Verif.Props.Jpeg
import Verif.Props.Keys
import Verif.Props.Loader
import Verif.Props.LoaderInput
import Verif.Props.LoaderIter
import Verif.Props.LoaderSettings
import Verif.Props.MainLoop
import Verif.Props.Mds
import Verif.Props.Merge
import Verif.Props.MergeDatasets
import Verif.Props.Modes
import Verif.Props.NodeRegistry
import Verif.Props.Nodes
import Verif.Props.NodesRun
import Verif.Props.NumpyItems
import Verif.Props.Opening
import Verif.Props.OpeningFields
import Verif.Props.OpeningMain
import Verif.Props.OptimizeNodes
import Verif.Props.OptimizeStream
import Verif.Props.Packing
import Verif.Props.Parquet
import Verif.Props.ParquetIndex
import Verif.Props.ParquetLayout
import Verif.Props.ParquetRows
import Verif.Props.PerStream
import Verif.Props.PerStreamLength
import Verif.Props.Persistent
import Verif.Props.PersistentLoaded
import Verif.Props.Pipeline
import Verif.Props.Prepare
import Verif.Props.PrepareMore
import Verif.Props.Processes
import Verif.Props.Profiling
import Verif.Props.Pytree
import Verif.Props.Reader
import Verif.Props.ReaderFine
import Verif.Props.ReaderMore
import Verif.Props.ReaderPass
import Verif.Props.ReaderRandom
import Verif.Props.Refusals
import Verif.Props.Registry
import Verif.Props.Release
import Verif.Props.RemoteJob
import Verif.Props.Resolver
import Verif.Props.ResumedCombined
import Verif.Props.ResumedLoop
import Verif.Props.Rewrite
import Verif.Props.Sample
import Verif.Props.Sampler
import Verif.Props.Serializers
import Verif.Props.Sessions
import Verif.Props.SessionsMain
import Verif.Props.Shuffle
import Verif.Props.SkipDelete
import Verif.Props.SkipDeleteIter
import Verif.Props.Slice
import Verif.Props.Streaming
import Verif.Props.Subsample
import Verif.Props.Tokens
import Verif.Props.TokensBatch
import Verif.Props.TokensRoi
import Verif.Props.TokensStream
import Verif.Props.TokensThreads
import Verif.Props.TokensThreadsAlone
import Verif.Props.TokensThreadsClose
import Verif.Props.TokensThreadsMain
import Verif.Props.TokensThreadsReader
import Verif.Props.TokensThreadsRun
import Verif.Props.TokensThreadsSafe
import Verif.Props.TokensWhole
import Verif.Props.TreeMap
import Verif.Props.TreeMapArgs
import Verif.Props.TreeMapMain
import Verif.Props.TreeMapMore
import Verif.Props.Upload
import Verif.Props.UserCall
import Verif.Props.Validate
import Verif.Props.Wait
import Verif.Props.Walk
import Verif.Props.WarmCache
import Verif.Props.WholeRun
import Verif.Props.Writer
