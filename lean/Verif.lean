import Verif.Model.Balance
import Verif.Model.Ledger
import Verif.Lemmas.Ledger
import Verif.Lemmas.Posting
import Verif.Lemmas.Effects
import Verif.Lemmas.RowRel
import Verif.Lemmas.Columns
import Verif.Model.Inflight
import Verif.Lemmas.Round
import Verif.Lemmas.Complete
import Verif.Lemmas.BatchSeq
import Verif.Props.Posting
import Verif.Props.Refusal
import Verif.Props.Amounts
import Verif.Props.References
import Verif.Props.Batch
import Verif.Model.Concurrent
import Verif.Lemmas.Concurrent
import Verif.Lemmas.ConcurrentExec
import Verif.Props.Concurrent
import Verif.Lemmas.Growth
import Verif.Lemmas.Holds
import Verif.Lemmas.Funds
import Verif.Props.Inflight
import Verif.Model.InflightQueue
import Verif.Props.InflightQueue
import Verif.Props.HoldFloors
import Verif.Model.Bulk
import Verif.Props.Bulk
import Verif.Model.Lock
import Verif.Props.Lock
import Verif.Model.Split
import Verif.Props.Split
import Verif.Model.Refund
import Verif.Props.Refund
import Verif.Model.Queue
import Verif.Props.Queue
import Verif.Model.Worker
import Verif.Props.Worker
import Verif.Model.HotPairs
import Verif.Props.HotPairs
import Verif.Model.Lineage
import Verif.Props.Lineage
import Verif.Model.Chain
import Verif.Props.Chain
import Verif.Model.Auth
import Verif.Model.KeyCache
import Verif.Props.Auth
import Verif.Props.KeyCache
import Verif.Model.Token
import Verif.Props.Token
import Verif.Model.Filter
import Verif.Props.Filter
import Verif.Model.Snapshot
import Verif.Props.Snapshot
import Verif.Model.Trigger
import Verif.Props.Trigger
import Verif.Model.Monitor
import Verif.Props.Monitor
import Verif.Model.AtomicBulk
import Verif.Props.AtomicBulk
import Verif.Model.Preview
import Verif.Props.Preview
import Verif.Model.Paging
import Verif.Props.Paging
import Verif.Model.Metadata
import Verif.Props.Metadata
import Verif.Lemmas.Names
import Verif.Model.GetOrCreate
import Verif.Props.GetOrCreate
import Verif.Model.Recon
import Verif.Props.Recon
import Verif.Model.ReconGroup
import Verif.Props.ReconGroup
import Verif.Model.ReconRun
import Verif.Props.ReconRun
import Verif.Model.Upload
import Verif.Props.Upload
import Verif.Props.QueueTerms
import Verif.Model.Provenance
import Verif.Lemmas.Provenance
import Verif.Props.Provenance
import Verif.Props.ProvenanceFunds
import Verif.Props.ProvenanceSettle
import Verif.Props.ProvenanceOutbox
import Verif.Props.ProvenanceTotals
import Verif.Model.Schedule
import Verif.Lemmas.Schedule
import Verif.Props.Schedule
import Verif.Model.Hooks
import Verif.Lemmas.Hooks
import Verif.Props.Hooks
import Verif.Props.HookCalls
import Verif.Props.HookLists
import Verif.Props.HookDelivery
import Verif.Model.Webhooks
import Verif.Props.Webhooks
import Verif.Model.Search
import Verif.Lemmas.Search
import Verif.Props.SearchDocs
import Verif.Model.SearchIndex
import Verif.Lemmas.SearchIndex
import Verif.Props.SearchIndex
import Verif.Model.Reindex
import Verif.Props.Reindex
import Verif.Props.ReindexReport
import Verif.Model.Errors
import Verif.Lemmas.Errors
import Verif.Lemmas.ErrorTexts
import Verif.Props.ErrorCodes
import Verif.Props.ErrorAnswers
import Verif.Props.ErrorPaths
import Verif.Model.Request
import Verif.Props.RequestSpec
import Verif.Lemmas.Float
import Verif.Lemmas.Request
import Verif.Props.RequestAmount
import Verif.Props.RequestParties
import Verif.Props.RequestForm
import Verif.Props.CommitAmount
import Verif.Model.Backpressure
import Verif.Props.Backpressure
import Verif.Model.Settings
import Verif.Props.Settings
import Verif.Model.Csv
import Verif.Props.Csv
import Verif.Props.Currency
import Verif.Model.Download
import Verif.Props.Download
import Verif.Model.Front
import Verif.Props.Front
import Verif.Model.Export
import Verif.Props.Export
import Verif.Model.Records
import Verif.Lemmas.Records
import Verif.Props.Records
import Verif.Props.RecordAnswers
import Verif.Model.Lists
import Verif.Props.Lists
import Verif.Model.Views
import Verif.Props.Views
import Verif.Model.Rules
import Verif.Props.Rules
import Verif.Props.ReconRuns
import Verif.Props.ReconAsked
import Verif.Model.RefundCall
import Verif.Props.RefundPreview
import Verif.Props.RefundCall
import Verif.Model.SettleCall
import Verif.Props.SettlePreview
import Verif.Model.SettleRun
import Verif.Props.SettleRun
import Verif.Model.Pick
import Verif.Props.Pick
import Verif.Model.BulkPreview
import Verif.Props.BulkPreview
import Verif.Model.BatchWrite
import Verif.Props.BatchWrite
import Verif.Model.Processor
import Verif.Props.Processor
import Verif.Model.QueuedSettle
import Verif.Props.QueuedSettle
import Verif.Model.FundNote
import Verif.Props.FundNote
import Verif.Model.TokenCall
import Verif.Props.TokenCall
import Verif.Model.QueuedSplit
import Verif.Props.QueuedSplit
import Verif.Model.Window
import Verif.Props.Window
import Verif.Model.ReconLedger
import Verif.Props.ReconLedger
import Verif.Model.FilterDates
import Verif.Props.FilterDates
import Verif.Props.QueuedChecks
import Verif.Model.SiblingPage
import Verif.Props.SiblingPage
import Verif.Model.GroupUndo
import Verif.Props.GroupUndo
import Verif.Model.HotPairClock
import Verif.Props.HotPairClock
import Verif.Model.Backup
import Verif.Props.Backup
import Verif.Model.RedisAddr
import Verif.Props.RedisAddr
import Verif.Model.Restart
import Verif.Props.Restart
import Verif.Model.Memory
import Verif.Lemmas.Memory
import Verif.Lemmas.MemoryOps
import Verif.Lemmas.MemoryClone
import Verif.Props.Memory
import Verif.Model.HookAdmin
import Verif.Props.HookAdmin
import Verif.Model.Marks
import Verif.Props.Marks
import Verif.Model.Routes
import Verif.Props.Routes
import Verif.Model.SearchUpgrade
import Verif.Props.SearchUpgrade
import Verif.Model.Migrations
import Verif.Props.Migrations
import Verif.Model.Telemetry
import Verif.Props.Telemetry
import Verif.Model.ExportUrl
import Verif.Props.ExportUrl
