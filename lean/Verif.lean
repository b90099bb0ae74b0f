import Verif.Props.Nixbase32
import Verif.Props.Nixhash
import Verif.Props.Wire
import Verif.Props.NarHeader
import Verif.Props.NarReader
import Verif.Props.NarWriter
import Verif.Props.NarWriterIff
import Verif.Props.NarDump
import Verif.Props.NarLang
import Verif.Props.NarUnordered
import Verif.Props.NarLs
import Verif.Props.Storepath
import Verif.Props.References
import Verif.Props.Signature
import Verif.Props.Narinfo
import Verif.Props.Derivation
import Verif.Props.DrvPaths
import Verif.Props.DrvPathsFiles
import Verif.Props.Store
import Verif.Props.Cmd
import Verif.Props.Sqlite
import Verif.Props.SqliteNix
import Verif.Props.NarConc
import Verif.Props.NarConcW
import Verif.Props.StoreConc
import Verif.Props.DrvGrammar
import Verif.Props.HashText
import Verif.Props.StorepathText
import Verif.Props.StorepathRe
import Verif.Props.BadgerExact
import Verif.Props.CmdExact
import Verif.Props.NarReads
import Verif.Model.Show
import Verif.Props.Show
import Verif.Model.Attrs
import Verif.Props.Attrs
import Verif.Props.ShowRead
import Verif.Model.LsText
import Verif.Props.LsText
import Verif.Props.NarinfoAgain
import Verif.Props.StoreUri
import Verif.GoUrl
import Verif.Lemmas.GoUrl
import Verif.Lemmas.UrlText
import Verif.Model.Heap
import Verif.Props.Heap
import Verif.Props.DrvExact
import Verif.Props.NarWriterExact
import Verif.Spec.NarText
import Verif.Props.NarText
import Verif.Props.Pipeline
import Verif.Props.NarinfoTrust
import Verif.Props.NarFrag
import Verif.Props.NarPrefix
import Verif.Props.NarDumpSink
import Verif.Props.Scan
import Verif.Model.Out
import Verif.Lemmas.Out
import Verif.Lemmas.OutDump
import Verif.Props.Out
import Verif.Props.RepoTests
import Verif.Props.RepoTestsDrv
import Verif.Props.NarParen
import Verif.Props.NarParenPaths
import Verif.Props.NarValidExact
import Verif.Props.Substitute
import Verif.Props.NarRefs
import Verif.Props.Pool
import Verif.Props.SqliteHash
import Verif.Props.FsStore
import Verif.Props.NarConcStop
import Verif.Props.NarWriterCalls
import Verif.Props.Modulo
import Verif.Props.Handles
import Verif.Props.NarMany
import Verif.Props.WireMany
import Verif.Props.HashHeap
import Verif.Props.Memory
import Verif.Props.Streams
import Verif.Props.ShowExact
import Verif.Props.DrvJson
import Verif.Model.Gonix
import Verif.Spec.Gonix
import Verif.Props.Gonix
import Verif.Props.BadgerGraph
import Verif.Props.NarinfoRefs
import Verif.Props.Instances
import Verif.Model.Nixbase32Mem
import Verif.Props.Nixbase32Mem
import Verif.Model.NarDumpFs
import Verif.Spec.NarDumpFs
import Verif.Props.NarDumpFs
import Verif.Model.Beside
import Verif.Props.Beside
import Verif.Props.NarStream
import Verif.Model.MapConc
import Verif.Spec.MapConc
import Verif.Props.MapConc
import Verif.Model.DrvMem
import Verif.Spec.DrvMem
import Verif.Lemmas.DrvMem
import Verif.Props.DrvMem
import Verif.Props.DrvText
import Verif.Props.SqliteTx
import Verif.Props.SqliteRows
import Verif.Props.NarDumpFilter
import Verif.Lemmas.DrvCut
import Verif.Props.DrvCut
import Verif.Spec.NarinfoCut
import Verif.Props.NarinfoCut
import Verif.Props.JsonCut
import Verif.Props.LsCut
import Verif.Spec.DrvAgain
import Verif.Props.DrvAgain
import Verif.Props.TextCut
import Verif.Props.StorepathCut
import Verif.Props.IntWidth
import Verif.Props.NarinfoWidth
import Verif.Props.LsWidth
import Verif.Props.Complete
import Verif.Props.BuildUp
import Verif.Props.CopyNar
import Verif.Props.NarSame
import Verif.Props.CopyAgain
import Verif.Props.MapNar
import Verif.Props.FilterNar
import Verif.Props.MergeNar
import Verif.Props.Unpack
