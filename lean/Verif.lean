import Verif.Props.Util
import Verif.Props.Item
import Verif.Props.List
import Verif.Props.HTree
import Verif.Props.BKey
import Verif.Props.BTree
import Verif.Props.Assoc
import Verif.Props.Prefix
import Verif.Props.LogRec
import Verif.Props.LogFile
import Verif.Props.LogBuf
import Verif.Props.Snapshot
import Verif.Props.Checkpoint
import Verif.Model.Smget
import Verif.Spec.Smget
import Verif.Lemmas.SmgetKey
import Verif.Lemmas.SmgetScan
import Verif.Lemmas.SmgetBegin
import Verif.Lemmas.SmgetEnt
import Verif.Lemmas.SmgetMerge
import Verif.Lemmas.SmgetSort
import Verif.Lemmas.SmgetPlace
import Verif.Lemmas.SmgetKeys
import Verif.Lemmas.SmgetTrim
import Verif.Lemmas.SmgetAnswer
import Verif.Model.SmgetDb
import Verif.Spec.SmgetDb
import Verif.Props.Smget
import Verif.Model.Cluster
import Verif.Spec.Cluster
import Verif.Lemmas.Cluster
import Verif.Lemmas.ClusterRing
import Verif.Lemmas.ClusterBuild
import Verif.Lemmas.ClusterRun
import Verif.Props.Cluster
import Verif.Model.KeyBlocks
import Verif.Spec.KeyBlocks
import Verif.Lemmas.KeyPieces
import Verif.Lemmas.KeyConcat
import Verif.Lemmas.KeyLoop
import Verif.Lemmas.KeyFeed
import Verif.Props.KeyBlocks
import Verif.Model.Slabs
import Verif.Spec.Slabs
import Verif.Lemmas.SlabClass
import Verif.Lemmas.SlabList
import Verif.Lemmas.SlabGeo
import Verif.Lemmas.SlabFree
import Verif.Lemmas.SlabLink
import Verif.Lemmas.SlabUnlink
import Verif.Lemmas.SlabBlock
import Verif.Lemmas.SlabCount
import Verif.Lemmas.SlabUse
import Verif.Lemmas.SlabAlloc
import Verif.Lemmas.SlabRel
import Verif.Lemmas.SlabTile
import Verif.Lemmas.SlabSim
import Verif.Lemmas.SlabChunk
import Verif.Lemmas.SlabBig
import Verif.Lemmas.SlabStat
import Verif.Props.Slabs
import Verif.Model.ConnIn
import Verif.Model.ConnCmd
import Verif.Model.ConnOut
import Verif.Spec.ConnIn
import Verif.Spec.ConnCmd
import Verif.Spec.ConnOut
import Verif.Lemmas.ConnIn
import Verif.Lemmas.ConnStep
import Verif.Lemmas.ConnRun
import Verif.Lemmas.ConnFrame
import Verif.Lemmas.ConnCmd
import Verif.Lemmas.ConnServe
import Verif.Lemmas.ConnPipe
import Verif.Lemmas.ConnSafe
import Verif.Lemmas.ConnOut
import Verif.Lemmas.ConnSend
import Verif.Lemmas.ConnUdp
import Verif.Props.ConnIn
import Verif.Props.ConnCmd
import Verif.Props.ConnOut
import Verif.Model.Token
import Verif.Model.Auth
import Verif.Model.AuthData
import Verif.Spec.Token
import Verif.Spec.Auth
import Verif.Lemmas.Token
import Verif.Lemmas.Auth
import Verif.Lemmas.AuthLine
import Verif.Props.Token
import Verif.Props.Auth
import Verif.Props.AuthData
import Verif.Model.Lru
import Verif.Spec.Lru
import Verif.Lemmas.LruMarks
import Verif.Lemmas.Lru
import Verif.Lemmas.LruOps
import Verif.Lemmas.LruReplace
import Verif.Lemmas.LruSearch
import Verif.Lemmas.LruStep
import Verif.Lemmas.LruKeep
import Verif.Lemmas.LruTime
import Verif.Lemmas.LruSums
import Verif.Lemmas.LruRoom
import Verif.Props.Lru
import Verif.Props.Bin
import Verif.Lemmas.CmdLogEnd
import Verif.Props.CmdLog
import Verif.Model.Resp
import Verif.Spec.Resp
import Verif.Lemmas.Resp
import Verif.Lemmas.RespRead
import Verif.Lemmas.RespMany
import Verif.Lemmas.RespGet
import Verif.Lemmas.RespCmd
import Verif.Props.Resp
import Verif.Model.TopKeys
import Verif.Spec.TopKeys
import Verif.Lemmas.TopKeysMem
import Verif.Lemmas.TopKeysStep
import Verif.Lemmas.TopKeysCount
import Verif.Lemmas.TopKeysSpec
import Verif.Lemmas.TopKeysText
import Verif.Props.TopKeys
import Verif.Model.LqDetect
import Verif.Spec.LqDetect
import Verif.Lemmas.LqText
import Verif.Lemmas.LqRun
import Verif.Lemmas.LqThreads
import Verif.Props.LqDetect
import Verif.Model.StatsPrefix
import Verif.Spec.StatsPrefix
import Verif.Lemmas.StatsPrefixTab
import Verif.Lemmas.StatsPrefixRun
import Verif.Props.StatsPrefix
import Verif.Model.Config
import Verif.Spec.Config
import Verif.Lemmas.Config
import Verif.Lemmas.ConfigSafe
import Verif.Props.Config
import Verif.Model.Restart
import Verif.Spec.Restart
import Verif.Lemmas.RestartMap
import Verif.Lemmas.RestartIds
import Verif.Props.Restart
import Verif.Model.Wake
import Verif.Spec.Wake
import Verif.Lemmas.Wake
import Verif.Lemmas.WakeStep
import Verif.Lemmas.WakeRun
import Verif.Props.Wake
import Verif.Model.Attr
import Verif.Spec.Attr
import Verif.Lemmas.Attr
import Verif.Lemmas.AttrText
import Verif.Props.Attr
import Verif.Lemmas.BinPieces
import Verif.Lemmas.BinObey
