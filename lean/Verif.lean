import Verif.Base.Sort
import Verif.Thm.Codec
import Verif.Thm.Dimension
import Verif.Thm.Store
import Verif.Thm.StoreProps
import Verif.Thm.StoreProps2
import Verif.Thm.Search
import Verif.Thm.FilterParse
import Verif.Thm.FilterSearch
import Verif.Thm.Chat
import Verif.Thm.Filter
import Verif.Thm.RagChunk
import Verif.Thm.RagPack
import Verif.Thm.Memory
import Verif.Thm.Knowledge
import Verif.Thm.Lexical
import Verif.Thm.Router
import Verif.Thm.Similarity
import Verif.Thm.Hindsight
import Verif.Thm.Geo
import Verif.Thm.GeoDist
import Verif.Thm.GraphAlgo
import Verif.Thm.GraphStore
import Verif.Thm.GraphTraverse
import Verif.Thm.GraphHybrid
import Verif.Thm.GraphHnsw
import Verif.Thm.GraphExport
import Verif.Thm.Hnsw
import Verif.Thm.HnswHist
import Verif.Thm.HnswInv
import Verif.Thm.HnswLayer
import Verif.Thm.HnswPar
import Verif.Thm.Flat
import Verif.Thm.Ivf
import Verif.Thm.Lsh
import Verif.Thm.MultiIndex
import Verif.Thm.ProductQuant
import Verif.Thm.Quant
import Verif.Thm.Stream
import Verif.Thm.Lock
import Verif.Thm.Recover
import Verif.Thm.Aggregate
import Verif.Thm.Io
import Verif.Thm.Range
import Verif.Thm.Rerank
import Verif.Thm.Diversity
import Verif.Thm.MultiVector
import Verif.Thm.Fts
import Verif.Thm.RagLexical
import Verif.Thm.RagSearch
import Verif.Thm.GraphTools
import Verif.Thm.GraphToolsRead
import Verif.Thm.LexTools
import Verif.Thm.FuncRouter
import Verif.Thm.Ingest
import Verif.Thm.IngestProps
import Verif.Thm.Facade
import Verif.Thm.StoreColl
import Verif.Thm.StoreIndex
import Verif.Thm.StoreIvf
import Verif.Thm.KMeans
import Verif.Thm.KnowRecord
import Verif.Thm.Train
import Verif.Thm.Reflect
import Verif.Thm.ReflectMem
import Verif.Thm.SearchRefuse
import Verif.Thm.MetaCompare
import Verif.Thm.QuantIndex
import Verif.Thm.QuantSnap
import Verif.Thm.Tools
import Verif.Thm.ChatWrites
import Verif.Thm.Csv
import Verif.Thm.IndexFile
import Verif.Thm.TextSearch
import Verif.Thm.MemoryRecord
import Verif.Thm.MemoryWrites
import Verif.Thm.KnowledgeDocs
import Verif.Thm.DimStats
import Verif.Thm.Errors
import Verif.Thm.GraphRead
import Verif.Thm.KnowSearch
import Verif.Thm.Logger
import Verif.Thm.ObserveText
import Verif.Thm.AutoSave
import Verif.Thm.IndexStats
import Verif.Thm.RouteBatch
import Verif.Thm.Interleave
import Verif.Thm.DimRace
import Verif.Thm.Alias
import Verif.Thm.RetainCover
import Verif.Thm.GraphRace
import Verif.Thm.KnowRace
import Verif.Thm.MemRace
import Verif.Thm.SearchHistory
import Verif.Thm.Counts
import Verif.Thm.StoreExact
import Verif.Thm.StoreIvfExact
import Verif.Thm.FtsChunks
import Verif.Thm.FtsMemory
import Verif.Thm.FtsQuery
import Verif.Thm.RagMode
import Verif.Thm.Titles
import Verif.Thm.FilterMemory
import Verif.Thm.FilterSql
import Verif.Thm.FilterText
import Verif.Thm.SqlVars
import Verif.Thm.HindStore
import Verif.Thm.HybridRouter
import Verif.Thm.MemoryAll
import Verif.Thm.RouterAll
import Verif.Thm.StreamStore
import Verif.Thm.Wider
import Verif.Thm.Patterns
import Verif.Thm.Documents
import Verif.Thm.GraphMaps
import Verif.Thm.FtsWords
import Verif.Thm.FilterAny
import Verif.Thm.FtsAny
import Verif.Thm.HindClose
import Verif.Thm.HindsightAny
import Verif.Thm.IncStore
import Verif.Thm.KnowRaceAny
import Verif.Thm.MultiVectorAny
import Verif.Thm.SearchAny
import Verif.Thm.ChatMemory
import Verif.Thm.BankGraph
import Verif.Thm.CollAny
import Verif.Thm.Details
import Verif.Thm.GeoAny
import Verif.Thm.Handles
import Verif.Thm.KnowStore
import Verif.Thm.StoreSeparate
import Verif.Thm.Details2
import Verif.Thm.Any2
import Verif.Thm.BinaryIndex
import Verif.Thm.QuantFile
import Verif.Thm.Details3
import Verif.Thm.Any3
import Verif.Thm.Any4
import Verif.Thm.Any5
import Verif.Thm.AnyOrder
import Verif.Thm.Retry
import Verif.Thm.Retry2
import Verif.Thm.Details4
import Verif.Thm.Any6
import Verif.Thm.Details5
import Verif.Thm.Ratio
import Verif.Thm.Details6
import Verif.Thm.Details7
import Verif.Thm.Repeat
import Verif.Thm.Empty
import Verif.Thm.Limits
import Verif.Thm.Local
import Verif.Thm.Narrow
import Verif.Thm.OwnVector
import Verif.Thm.Prefix
import Verif.Thm.Widen
import Verif.Thm.Details8
import Verif.Thm.MockEmbed
import Verif.Thm.Normalize
import Verif.Thm.RouterConf
import Verif.Thm.Details9
