# Design: a machine-checked model of blnk

## Approach

The Go sources in /repo are read as text and modelled function by function in Lean 4
(`lean/Verif/Model/*.lean`). Every definition cites the file and lines it models and says where it
simplifies. Property theorems live in `lean/Verif/Props/*.lean`, helper lemmas in
`lean/Verif/Lemmas/*.lean`. Each property theorem is stated against a small specification of its own
and is followed by an `example` with a concrete case that meets its hypotheses.

Where the code violates a property, the full statement is kept as a `def …Full : Prop`, its negation is
proved with a concrete witness (`…_fails`) or, where possible, for every input of a class, and the
strongest true part is proved under a name ending in `_partial`. The status in MANIFEST.json is then
`partial`.

The ledger (balances and transactions) is a state machine: `step`/`run` (creating balances, posting,
batches, storing rows), `act`/`acts` (adding commit and void of holds), `rstep`/`rsteps` (adding
refunds), and the relation `Queue.Step` (adding the queue, workers, recovery and crashes). System-level
models take ledger steps as atomic. That is justified by `Concurrent`: statement-level interleavings
of any number of workers under PostgreSQL's row locks, with crashes, reach only states that some
sequence of atomic steps reaches (C10). Other services (keys, filters, monitors, snapshots, lineage,
chain, reconciliation, uploads) have state machines of their own, on top of the ledger's where they
read it.

## Trusted base

* Lean 4.33.0's kernel. The axioms each theorem depends on are listed at the end; they are at most
  `propext`, `Classical.choice` and `Quot.sound`. There are no axioms of our own, no `sorry`, no
  `native_decide` and no `bv_decide`. Concrete witnesses are evaluated by the kernel
  (`decide +kernel`).
* The reading of /repo. The theorems are about the model; the citations are the only tie to the code.
* The specifications in the property files (`…Full`, and small predicates such as `Given`, `Listing`,
  `TwoDecimals`), which say what the English statements mean.
* The semantics of things outside /repo, each modelled explicitly where it matters:
  * PostgreSQL: transactions are atomic; READ COMMITTED; a statement that writes a row locked by an open
    transaction waits; `UPDATE … WHERE version = v` changes the row iff the version matches then; unique
    indexes refuse duplicates; triggers run as written; `ORDER BY` leaves the order of ties open; `jsonb`
    `||` merges at the top level; sessions run in UTC; `NUMERIC(12,2)` rounds half away from zero and
    refuses larger values.
  * Redis: one store that runs commands one at a time (`SET NX PX`, compare-and-delete scripts) and
    expires exactly. Fail-over is not modelled.
  * go-redis/cache: a local copy per process in front of Redis; `Delete` removes Redis and the local
    copy of the calling process only.
  * asynq: at-least-once delivery; task-id conflicts refuse a second enqueue.
  * Go: `math/big` is unbounded (`Int`); `shopspring/decimal` is exact except where cited (`Rat`); map
    iteration order is arbitrary; `select` among ready cases is arbitrary; channels block when full.
  * UUIDs generated by the service are new.
  * SHA-256, HMAC, AES-GCM and bcrypt are parameters. No theorem assumes that a hash has no collisions:
    where two texts with one hash would be needed, the theorem's conclusion exhibits them.

## What is modelled

| Model | Code | Left out |
|---|---|---|
| Balance | `model/model.go`, `model/balance.go`, `applyTransactionToBalances` | `float64` amounts are the exact value of their shortest decimal text; how a written number becomes that value is in Request |
| Ledger | `transaction_execution.go`, `transaction_coalescing.go`, `database/transaction.go`, `database/balance.go` (posting, batches, creation, get-or-create) | tracing, post-commit hooks, webhooks, search index |
| Concurrent | the same, statement by statement, any number of workers, crashes | |
| Inflight, InflightQueue, Bulk | `transaction_inflight.go`, `cmd/workers.go` (actions), bulk commit/void pool | dates: Schedule |
| Schedule | `transaction_queue.go:69-134`, `queue.go` (delayed tasks), `cmd/workers.go:292-347` over time | asynq internals; queued split requests |
| Refund | `transaction_refunds.go`, `database/transaction_refunds.go` | |
| Lock | `internal/lock/lock.go` | Redis fail-over |
| Split | `model/transaction.go:124-467`, `updateSplitTransactions` | parsing of the number texts |
| Queue, QueueTerms, Worker | `transaction_queue.go`, `cmd/workers.go`, `transaction_rejection.go`, `queue_recovery.go`, coalescing | asynq internals |
| HotPairs | `queue.go` (queue names), `internal/hotpairs` | |
| Lineage | `lineage_allocation.go`, `lineage_debit.go`, `lineage_worker.go`, `database/lineage.go` | see the file |
| Provenance | `lineage_outbox.go`, `lineage_processing.go`, `lineage_credit.go`, `lineage_debit.go`, `lineage_shadow.go`, `lineage_queries.go` as one system over all histories | posting of the rows (Ledger), clients posting on lineage accounts or setting `_shadow_for`, names outside ASCII |
| Chain | `model/chain.go`, `database/chain.go`, `chain_worker.go`, `sql/1781162328.sql` | rendering of times |
| Auth, KeyCache | `api/middleware/{auth,scope}.go`, `api/apikeys.go`, `model/api_key.go`, `database/api_key.go`, `internal/cache` | rate limiter |
| Token | `internal/tokenization`, `identity.go` | the cipher |
| Filter | `internal/filter`, the callers' SQL text | arrays and objects as values |
| Snapshot | `sql/1740493523.sql`, `database/balance.go:1404-1679` | sessions outside UTC |
| Trigger | `sql/1742101752.sql` | metadata other than the flag |
| Monitor | `balance.go`, `model/model.go`, `database/balance.go` (monitors and cache) | delivery of webhooks |
| AtomicBulk | `transaction_bulk.go` | |
| Preview | `transaction_dryrun*.go` | wording of notes and rejections |
| RefundCall | `transaction_dryrun.go:85-212`, `transaction_batch_processing.go:59-133` with the refund worker, `api/transactions.go` (answer) | one page; failing queries and cancelled calls |
| SettleCall | `transaction_dryrun_inflight.go`, `transaction_inflight.go:106-159` | the holds are listed once, not page by page |
| SettleRun | `transaction_batch_processing.go:59-218` with the commit and void workers (`transaction_inflight.go:106-159`), `api/transactions.go:548-573` (answer) | failing queries, held locks, cancelled calls; rows are listed by the order they were stored in |
| BulkPreview | `api/transactions.go:735-805` (dry run of a bulk commit or void), run against the pool of Bulk | the codes of the rejections; the texts of the notes |
| BatchWrite | `database/balance.go:910-1063`, `database/lineage.go:170-248`, `database/transaction.go:326-367`, `transaction_execution.go:761-773` (how a coalesced batch is written) | that a statement takes at most 65535 parameters is assumed of PostgreSQL and its driver; ledger id and creation time of a balance; the payload of an outbox entry |
| Processor | `chain_worker.go:37-128`, `lineage_worker.go:31-160`, `queue_recovery.go:29-117` (starting and stopping the background loops, interleaved) | what a batch does (Chain, Lineage, Worker); the lengths of the intervals: a tick may come at any time; the sections under the mutex are single steps |
| QueuedSettle | `transaction_inflight.go:697-879`, `queue.go:69-107`, `cmd/workers.go:292-327`, `api/transactions.go:888-905` (commits and voids through the queue: pre-check, task, delivery, retries, archive) | Redis not answering; asynq: a task is handed out until acknowledged, archived after the last retry, its id taken in any state; the holds are listed in one query |
| FundNote | `lineage_allocation_metadata.go:28-70`, `lineage_debit.go:83-107`, `lineage_queries.go:131-186`, `database/metadata.go:43-58`, `database/transaction_lineage.go:30-92` (the note of a debit about whose money it spent, and the view that shows it) | the rows that credit a destination which keeps track too; the order of the shadow rows |
| TokenCall | `api/identity.go:254-452`, `identity.go:150-321`, `model/identity.go:47-117` (tokenize and detokenize calls with the names clients give) | calls that overlap (C64); names that start outside ASCII; the database not answering |
| QueuedSplit | `transaction_queue.go:136-163`, `298-319`, `379-428` (storing and enqueueing the parts of a split request) | the lane; Redis refusing a task; a statement that fails after it was done |
| Window | `database/transaction_recovery.go:33-105`, `queue_recovery.go:126-156`, `api/transactions.go:701-719` (the rows a recovery sweep looks at, and its answer) | two sweeps at once; a failed metadata write (C32); clients writing `recovery_attempts` |
| ReconLedger | `database/transaction_criteria.go:33-141`, `database/transaction_grouping.go:33-322`, `transaction_batch_processing.go:171-222` (which rows of the ledger a reconciliation is given, and from which kept pages) | descriptions; the local copy of a kept page next to the one in Redis; two page sizes at once |
| FilterDates | `internal/filter/datetime.go:9-70`, `internal/filter/values.go:23-30`, `internal/filter/parser.go:104-141`, `api/filter_helper.go:85-140` (reading dates in filters) | Go's `time.Parse` is described for the fourteen layouts, not modelled line by line; limits on values; metadata keys |
| QueuedChecks (Props only) | `database/transaction_queue.go:34-55`, `model/model.go:153-205`, `transaction_queue.go:379-385`, `cmd/workers.go:61-165` (waiting payments under queued checks; definitions in Ledger, Queue, Worker) | deliveries without siblings, faults or retries for lack of funds |
| SiblingPage | `database/transaction_queue.go:120-217`, `internal/cache/cache.go:84-87`, `:109-112`, `queue_recovery.go:160-224` (the page of rows under a request that recovery looks at, and how long it is kept) | one request at a time; errors of cache and database; how the library stretches the minute of a local copy (any length is allowed) |
| GroupUndo | `transaction_queue.go:228-256` (parts recorded at once), `transaction_rejection.go:69-76`, `transaction_bulk.go:57-98`, `:141-166` (what a failing or rejected part takes back) | the message sent; rows to take back are read once and nobody acts while they are taken back at a rejection |
| HotPairClock | `internal/hotpairs/hotpairs.go:41-194`, `internal/hotpairs/router.go:22-117` with a clock: which keys are still there at a moment | failing Redis or database; interleaving of the reads and writes of two requests (HotPairs) |
| Backup | `internal/pg-backups/pg-backup-drive.go:96-202`, `api/admin.go:36-72` | two backups at the same time; the connection test and the parsing of the address; `pg_dump` itself (a dump is whole or broken) |
| RedisAddr | `internal/redis-db/redisdb.go:43-185` | `redis.ParseURL` is any function (for the concrete cases a small version of it); number of the database, pool sizes, the ping |
| Restart | `queue.go:289-315`, `cmd/workers.go:349-380`, `:464-481`, `database/transaction_recovery.go:33-50` | what is done with a payment (it is finished), failures of workers, the limit of a recovery pass |
| Memory | `model/model.go:94-147`, `:228-308`, `:467-496`, `model/clone.go:25-67`, `transaction_execution.go:320-365`, `transaction_dryrun.go:261-291`, `database/balance.go:50-56`, `:336-425` | temporaries of `canProcessTransaction`, metadata, queued credits, caveats of a dry run; that the amount of a transaction is no figure of a balance is a premise |
| HookAdmin | `api/hooks.go:23-121`, `api/middleware/auth.go:194-284`, `internal/hooks/manager.go` | reading hooks, answers; composition of `Auth` and `Hooks`. Someone with access to Redis can write hooks without the API |
| Marks | `reconciliation.go:465-475, 507-524`, `database/metadata.go:43-59`, `transaction_refunds.go:199-238`, `transaction_inflight.go:403-442` | which matches are found; the date and amount are texts; the goroutines of a run interleave with everything else |
| Routes | `api/api.go:45-151`, `api/middleware/auth.go`, `metadata.go:25-40` | which input makes a handler show or change something (the table lists what each handler may do, read off by hand); gin's choice between patterns that fit is any of them in the general theorems |
| SearchUpgrade | `cmd/server.go:108-120`, `226-267`, `internal/search/search.go:175-212`, `414-504` | Typesense: a request is done, refused, or done with the answer lost (its own reasons to refuse, such as a required field that documents already there lack, are among the refusals); references, facets; the ending of the context |
| Migrations | `cmd/migrate.go:52-116`, `sql/*.sql` | sql-migrate itself (files in order, each in a transaction unless it says otherwise, recorded files are the first ones); types of columns and casts, `CHECK` constraints, foreign keys inside `CREATE TABLE`, indexes for speed; rows, except for the statement that fills in effective dates; an invalid index left by an interrupted `CONCURRENTLY` |
| Telemetry | `internal/monitoringexporter/config.go`, `exporters.go`, `logs.go:115-138`, `internal/traces/otel.go:57-123, 141-265`, `config/config.go:263-268`, `cmd/server.go:321-333` | `url.Parse` is a parameter; the exporters of OpenTelemetry do what the documentation of their options says (an option given in code wins over the environment); redirects; failures of exporters; PostHog |
| ExportUrl | `internal/monitoringexporter/redact.go:33, 105, 113-129` | `net/url` is a parameter: reading an address, replacing its user, replacing the values of its query, writing it |
| Pick | `transaction_coalescing.go:45-88`, `:286-380`, `:537-608`, `database/transaction_coalescing.go:32-188` | failing queries; rounding of times to microseconds |
| Paging | `transaction_batch_processing.go`, `collectInflightLegs` | failing queries |
| Metadata | `metadata.go`, `database/metadata.go` | other writers of the column |
| GetOrCreate | `balance.go:154-209` | failing statements other than unique constraints |
| Recon, ReconGroup, ReconRun | `reconciliation.go`, `database/reconciliation.go`, `database/transaction_criteria.go`, `database/transaction_grouping.go` | text similarity is a parameter; progress records; a fetch error in the middle of a walk |
| Hooks | `internal/hooks/*.go`, `api/hooks.go`, Redis command by command | hook names; JSON of a hook; asynq's timing |
| Webhooks | `webhooks.go` and its callers, signatures of both channels | JSON text, HMAC (parameters); nested payload fields |
| Search | `internal/search/search.go`, (schemas and documents), the JSON of the models, the rows of a rebuild | text of times, nested meta data; JSON library; the search server |
| SearchIndex | which changes queue an index task, `cmd/workers.go` index worker, `HandleBatchNotification` | asynq (keeps accepted tasks, any order); server accepts or refuses any write |
| Reindex | `internal/search/reindex.go`, `api/reindex.go`, page sizes and order of the four table queries | record contents (a version stands for them), texts of errors, waiting times |
| Errors | `api/errors.go`, `internal/apierror/*.go`, the texts of failures of posting, settling, bulk and preview, `transaction_inflight.go:classifyInflightError`, `cmd/workers.go:61-160`, `internal/hotpairs/router.go:165-175` | request validation errors; an error chain is a prefix and a leaf; texts as lists of characters, case folding of ASCII only |
| Request | `api/model/model.go:35-160, 246-395`, `api/model/transaction.go`, `api/transactions.go:134-190, 471-525, 588-619, 938-949`, `model/model.go:285-439`, reading and printing of `float64` | JSON syntax (a body is its fields); the double printer is any function that reads back and is shortest (proved to exist); NaN, infinities and the sign of zero; date texts are parsed or not |
| Backpressure | `queue_backpressure.go`, `transaction_queue.go:69-165, 231-256, 413-428` | one gate; a check and the note of its result are one step |
| Settings | `config/config.go:50-93, 186-226, 251-256, 318-343, 407-440, 489-493, 588-613`, `api/middleware/middleware.go:41-78`, `cmd/workers.go:349-372`, `queue.go:313` | decoding of files and environment (a setting is given with a value or left out); rates are rationals; one bucket per client, which does not expire |
| Rules | `api/reconciliation_api.go:242-477`, `reconciliation.go:145-265, 334-423, 544-619, 1170-1370`, `database/reconciliation.go:40-125, 349-364, 414-436, 495-600`, `sql/1721922047.sql` | what a run finds is given by the event; JSON syntax; sizes of index entries |
| Upload | `internal/files/files.go`, `database/reconciliation.go:349-366` | JSON syntax |
| Csv | `internal/files/files.go:229-249, 381-457`, the reader of `encoding/csv` | case folding and white space of ASCII only |
| Download | `api/reconciliation_api.go:124-230`, `config/config.go:554-587`, `internal/files/files.go:64-87, 112-139, 168-226` | `net/url`, the tables of `mime` and the signatures of `net/http` are parameters; name resolution, TLS |
| Front | `api/middleware/middleware.go:90-173, 212-225`, `api/middleware/auth.go:128-144, 269-274`, `api/reconciliation_api.go:48-57` | bodies are their lengths; the handler is taken to read all it is allowed to |
| Export | `internal/monitoringexporter/redact.go`, `logs.go` | the URL step is any function (for the failures: one that leaves texts without `http` alone; the step itself is ExportUrl); requests to the monitoring server; the deadline of the shutdown |
| Records | `account.go`, `ledger.go`, `identity.go`, `balance.go` (owners), `database/account.go`, `ledger.go`, `identity.go`, `lineage.go`, `sql/` keys, `api/accounts.go`, `ledger.go`, `identity.go` | of balances only what others refer to; every SQL statement one step; texts of the PostgreSQL driver and the behaviour of `uuid.Parse` are assumed as documented; order and pages of lists; details of errors |
| Lists | `api/transactions.go`, `balance.go`, `ledger.go`, `identity.go`, `accounts.go` (lists), `api/filter_helper.go`, the list queries in `database/`, `internal/filter/sql_builder.go` (order) | rows and the order of a column are given; which rows a filter selects is Filter; failing queries |
| Views | `database/transaction_queries.go`, `transaction_filters.go`, `balance.go` (columns read), `api/transactions.go` (`transformTransaction`), `transaction_queue.go` (`setTransactionMetadata`), `transaction_inflight.go` (`clearTerminalInflightMetadata`) | amounts are exact; one source and destination; transactions applied at once only; queued amounts |

Not modelled at all: HTTP routing and request decoding (except the re-encoding of C63 and the numbers of C122–C129), tracing,
contents of metrics, PostHog, Slack notifications, search queries (only indexing is modelled), the CLI except migrations, configuration decoding,
the account number service.

## Validation

`seeded/LOG.jsonl` records mutation tests: a definition is edited in a scratch copy as a realistic bug
would edit it, everything is rebuilt, and the theorems that fail are noted, together with those
that were tightened because they did not.

## Properties

The first theorems named carry the claim; `…_fails` are proved violations.

* **C01 Every posting is double-entry: total debits equal total credits.** *proved*. all runs of create/post/batch/store operations, accepted or refused. Theorems: `c01_double_entry`, `c01_posting_two_sided`.
* **C02 Reported balance is always credits minus debits.** *proved*. Theorems: `c02_balance_is_credit_minus_debit`.
* **C03 No posting overdraws a source that did not allow it.** *proved*. exact acceptance condition plus the run invariant. Theorems: `c03_no_overdraft_with_holds`, `c03_no_overdraft_without_permission`, `c03_accepted_debit_is_funded`, `c03_accepted_iff_covered`.
* **C04 An overdraft limit is a hard floor.** *proved*. floor over all runs; acceptance iff for limits whose minor-unit value fits in int64; c04_any_limit_fails shows that larger limits wrap and wrongly refuse. Theorems: `c04_overdraft_floor_with_holds`, `c04_overdraft_floor`, `c04_accepted_iff_within_limit`, `c04_any_limit_fails`.
* **C05 A refused posting has no effect on any balance.** *proved*. a refused posting by indicator may leave freshly opened zero accounts, nothing else. Theorems: `c05_refused_changes_nothing`, `c05_refused_by_id_is_identity`, `c05_refused_batch_is_identity`.
* **C06 Posting amounts are strictly positive.** *proved*. Theorems: `c06_posted_amount_positive`, `c06_nonpositive_refused`, `c06_columns_never_decrease`.
* **C07 Decimal amounts convert to minor units exactly.** *proved*. positive integer precisions; c07_any_precision_fails shows the claim does not extend to fractional precisions. Theorems: `c07_exact_amounts_convert_exactly`, `c07_rounds_to_nearest`, `c07_missing_precision`, `c07_any_precision_fails`.
* **C08 A caller-supplied minor-unit amount is authoritative.** *proved*. Theorems: `c08_precise_amount_authoritative`, `c08_conversion_idempotent`.
* **C09 Posting is all-or-nothing at every crash point.** *proved*. statement-level interleaving model of the SQL transactions with crashes at every point. Theorems: `c09_all_or_nothing`, `c09_outbox_matches_posted`.
* **C10 No lost updates under any interleaving.** *proved*. any number of workers, no lock assumed; PostgreSQL READ COMMITTED row locking as described in the model. Theorems: `c10_no_lost_updates`, `c10_version_counts_updates`, `c10_double_entry_under_races`.
* **C11 No overdraft even under races.** *proved*. Theorems: `c11_no_overdraft_under_races`, `c11_committed_debit_was_funded`.
* **C12 A reference is used at most once.** *proved*. Theorems: `c12_reference_at_most_once`, `c12_second_use_refused`, `c12_race_loser_refused`, `c12_batch_with_used_reference_refused`, `c12_reference_once_under_races`.
* **C13 Moving money from a balance to itself.** *partial*. violated by the code: alone a self-transfer conflicts with itself, in a batch it is applied. Theorems: `c13_full_fails`, `c13_self_transfer_partial`.
* **C14 Coalesced batches equal one-by-one processing.** *proved*. transfers between two different accounts (self-transfers are C13); the converse (accepted one by one implies accepted as a batch) holds without queued checks and fails with them, both proved. Theorems: `c14_batch_equals_one_by_one`, `c14_batch_all_or_nothing`, `c14_batch_accepted_iff`, `c14_converse_fails`.
* **C15 Coalesced batches never repeat a reference.** *proved*. Theorems: `c15_batch_references_fresh`.
* **C16 A held lock excludes every other holder until it expires.** *proved*. Lock values are assumed distinct (fresh UUIDs); Redis is one store that executes commands one at a time and expires exactly. ExtendLock has no callers but is covered by the first theorem. Theorems: `Lock.c16_exclusive_until_expiry`, `Lock.c16_free_after_expiry_or_release`, `Lock.c16_critical_sections_disjoint`.
* **C17 Multi-balance locking cannot deadlock.** *partial*. Proved for a connection that delivers every unlock. If an unlock issued by rollback is lost, the code ignores the error and the client is then blocked by its own lock until it expires: Lock.c17_full_fails. Theorems: `Lock.c17_no_deadlock_partial`, `Lock.c17_waiting_owns_nothing`, `Lock.c17_full_fails`.
* **C18 A failed multi-lock leaves nothing locked; a released one frees everything.** *partial*. That a failed attempt leaves nothing locked is proved for a reliable connection and refuted for a lossy one (Lock.c18_full_fails); the other theorems hold for both. Theorems: `Lock.c18_keys_normalised`, `Lock.c18_failed_or_released_owns_nothing_partial`, `Lock.c18_only_owner_ends_a_lock`, `Lock.c18_locks_only_its_keys`, `Lock.c18_leak_is_bounded`, `Lock.c18_full_fails`.
* **C19 Splits add up to the whole.** *partial*. Proved for distinct named parties of which one asks for at least one minor unit (and, without that, that the split has no positive leg or adds up). Refuted in general: an all-zero list is accepted and gets nothing; one minor unit split over a repeated party vanishes. Theorems: `Split.c19_adds_up_or_nothing_positive_partial`, `Split.c19_adds_up_partial`, `Split.c19_full_fails`, `Split.c19_repeated_party_fails`.
* **C20 No split leg is negative.** *partial*. Proved when the entries together do not ask for more than the total. Refuted in general: fixed amounts and percentages are compared with the total separately. Theorems: `Split.c20_no_negative_leg_partial`, `Split.c20_full_fails`, `Split.c20_overcommitted_without_left`.
* **C21 Split legs are complete, distinct and traceable.** *partial*. Order is Go's map order, and zero fixed entries and second left entries get no leg; the rest is proved. Theorems: `Split.c21_legs_distinct_and_traceable_partial`, `Split.c21_every_claimant_has_a_leg_partial`, `Split.c21_full_fails`, `Split.c21_order_fails`.
* **C22 An inflight transaction is never committed for more than its amount.** *partial*. per stored row the claim is proved for all histories; for a queued hold, which is stored as a QUEUED row and an INFLIGHT row, both rows can be committed (c22_full_fails). Theorems: `c22_never_over_committed`, `c22_accepted_commit_within_remainder`, `c22_late_commit_is_atomic`, `c22_late_void_is_atomic`, `c22_full_fails`.
* **C23 Void releases exactly what was not committed.** *partial*. void amount proved for all histories; the column equation needs settlements to name the INFLIGHT row, and fails otherwise (c23_full_fails: expiry of a committed queued hold releases another hold). Theorems: `c23_void_releases_remainder`, `c23_void_effect`, `c23_columns_are_open_holds_partial`, `c23_full_fails`.
* **C24 Voided and fully committed are final.** *proved*. per stored row, any later state. Theorems: `c24_void_is_final`, `c24_full_commit_is_final`.
* **C25 A queued commit or void takes effect at most once.** *proved*. a leg is a stored row; c25_full_fails records that a hold still waiting in the queue has two rows, and one action delivered twice can settle both. Theorems: `c25_redelivery_no_effect`, `c25_acked_delivery_finishes_every_leg`, `c25_references_distinct`, `c25_acked_full_action_closes_every_hold`, `c25_full_fails`.
* **C26 Settlement cannot fail for lack of funds.** *partial*. proved when settlements name INFLIGHT rows and the two accounts differ; both restrictions are shown necessary. Theorems: `c26_commit_succeeds_partial`, `c26_void_succeeds_partial`, `c26_full_fails`, `c26_self_hold_cannot_settle`.
* **C27 Bulk commit/void answers every item in order.** *proved*. last part for INFLIGHT holds between two different accounts. Theorems: `Bulk.c27_one_result_per_item_in_order`, `Bulk.c27_terminates`, `Bulk.c27_counts_add_up`, `c27_distinct_holds_all_succeed`.
* **C28 A transaction is refunded at most once.** *partial*. Each stored row is refunded at most once over every history, even without the lock. The request-level claim is false: a second synchronous request for the same transaction finds the refund row itself and refunds it, which re-applies the payment (c28_full_fails). Theorems: `c28_each_row_refunded_once_partial`, `c28_second_refund_refused_partial`, `c28_full_fails`, `c28_second_request_undoes_refund`.
* **C29 A refund exactly reverses the original.** *proved*. Synchronous refunds of APPLIED rows; the row itself must not be a hold id (a hold is INFLIGHT, so it is not refundable). Theorems: `c29_refund_moves_amount_back`, `c29_refund_accepted`, `c29_as_if_never_posted`, `c29_only_settled_refunded`.
* **C30 A queued transaction is applied at most once.** *proved*. Relational model of the queue: acceptance, storing, enqueueing (or not), any number of deliveries, coalesced batches, recovery copies, rejections, crashes and all other ledger work in any order. Theorems: `Queue.c30_at_most_one_outcome`, `Queue.c30_later_attempts_change_nothing`, `Queue.c30_attempts_carry_submission`.
* **C31 A queued transaction is never silently dropped by the worker.** *partial*. Partial: the worker decides by error text, and the not-found text quotes the client's account name, so a name containing the duplicate message is acknowledged with no outcome (c31_full_fails); a client reference equal to another's derived reference has that task acknowledged (c31_own_fails). Proved for all other names and faults. Theorems: `Queue.c31_acknowledged_has_outcome_partial`, `Queue.c31_limit_not_returned`, `Queue.duplicate_recognised`, `Queue.c31_full_fails`, `Queue.c31_own_fails`.
* **C32 Stuck transactions are retried a bounded number of times.** *partial*. Partial: the bound needs the counter write to succeed and the counter to start at zero; it is lost on a failed write (c32_full_fails), client metadata can set it (c32_client_counter), and an atomic leg with a rejected sibling is never counted (c32_atomic_leg_left_queued). Theorems: `Queue.c32_at_most_three_replays_partial`, `Queue.c32_then_rejected`, `Queue.c32_outcome_untouched`, `Queue.c32_full_fails`, `Queue.c32_client_counter`, `Queue.c32_atomic_leg_left_queued`.
* **C33 Same source, same queue.** *partial*. Partial: a task enqueued after its row could not be stored may still name an indicator and lands in another queue (c33_full_fails). Theorems: `Queue.c33_number_in_range`, `Queue.c33_queue_is_served`, `Queue.c33_same_source_same_queue_partial`, `Queue.c33_full_fails`.
* **C34 Hot-lane switching never reorders a pair.** *partial*. Partial: holds for histories without state-key expiry while hot work is pending, without errors while hot, and with lane decision and row storage in one step; each exception is shown to break it. Theorems: `Queue.c34_single_lane_partial`, `Queue.c34_switch_only_when_drained`, `Queue.c34_full_fails`, `Queue.c34_error_fails`, `Queue.c34_race_fails`, `Queue.c34_split_lanes_differ`.
* **C35 Sequential fund allocation is exact.** *proved*. Exact total, per-provider cap and date order for FIFO and LIFO, over all source lists and amounts. Sorting is modelled as stable; sort.Slice does not promise an order among mappings created at the same instant, and the theorems do not depend on it. Theorems: `Lineage.c35_total`, `Lineage.c35_within`, `Lineage.c35_fifo_oldest_first`, `Lineage.c35_lifo_newest_first`.
* **C36 Proportional fund allocation is exact.** *partial*. The full statement is false: with three or more providers rounding can leave part of the debit unallocated (c36_full_fails). Proved: never more than the debit or any holding; shortfall at most providers minus two; exact for two providers or when everything is needed. Theorems: `Lineage.c36_total_partial`, `Lineage.c36_two_providers_partial`, `Lineage.c36_all_partial`, `Lineage.c36_within`, `Lineage.c36_full_fails`.
* **C37 Lineage release survives retries.** *partial*. The full statement is false in five ways (witnesses: proportional retry, hold retry, crash between release and receive, unprepared destination, late credit). Proved: FIFO/LIFO non-hold debits release exactly the undisturbed amounts after any interruptions; nothing is ever released twice or beyond the debit; receives match releases when no attempt stops between the two rows. Theorems: `Lineage.c37_releases_partial`, `Lineage.c37_never_too_much_partial`, `Lineage.c37_receives_partial`, `Lineage.c37_proportional_fails`, `Lineage.c37_hold_fails`, `Lineage.c37_receive_lost`, `Lineage.c37_unprepared_lost`, `Lineage.c37_late_credit_fails`.
* **C38 Lineage outbox entries are retried, bounded, and never lost.** *partial*. The full statement is false: a late answer of a worker whose lock expired moves a completed item back to pending (c38_full_fails). Proved for all histories: never stuck; under exclusive claims the attempt bound and finality. Theorems: `Lineage.c38_never_stuck_partial`, `Lineage.c38_bounded_attempts_partial`, `Lineage.c38_terminal_partial`, `Lineage.c38_full_fails`.
* **C39 The audit chain is contiguous and covers each transaction once.** *proved*. All histories of inserts, sealing rounds and crashed rounds, any hash function, any batch and page size. A sealing round is one database transaction holding the chain_state row, so rounds are steps. Theorems: `Chain.c39_contiguous`, `Chain.c39_sealed_for_good`, `Chain.c39_backlog_cleared`, `Chain.c39_honest_verifies`.
* **C40 Tampering with a sealed transaction is detected.** *partial*. The full statement is false for every hash function: moving the separator between currency and reference is not seen (c40_ambiguous_fails), and removing or inserting with the later links recomputed is not seen because the head is only compared when the length matches (c40_other_length_fails). Proved: every other change that keeps the number of sealed rows is reported or exhibits two hashed texts with one hash; a hole in the numbers is reported unconditionally. Theorems: `Chain.c40_detected_partial`, `Chain.c40_contents_partial`, `Chain.c40_removed_partial`, `Chain.c40_full_fails`, `Chain.c40_ambiguous_fails`, `Chain.c40_other_length_fails`.
* **C41 Deleting the newest sealed transactions is detected.** *partial*. The full statement is false, for every history, hash and cut: truncation is always reported as verified (c41_truncation_never_reported). Only the reported count reveals it (c41_reported_length_partial). Theorems: `Chain.c41_truncation_never_reported`, `Chain.c41_full_fails`, `Chain.c41_reported_length_partial`.
* **C42 The sealed fields determine the seal.** *partial*. The full statement is false for both hashes (unescaped separator; plain concatenation). Proved: the chain text determines every field when only the reference may contain the separator; the per-row text changes with any single field. Theorems: `Chain.c42_full_fails`, `Chain.c42_chain_text_fails`, `Chain.c42_row_text_fails`, `Chain.c42_chain_text_partial`, `Chain.c42_row_text_partial`.
* **C43 Posted transactions are immutable.** *proved*. All sequences of INSERT and UPDATE statements under the trigger. DELETE is not prevented by the trigger and is outside the property; effective_date and parent_transaction are not protected (c43_unprotected_fails). Theorems: `Chain.c43_immutable`, `Chain.c43_refused_whole`, `Chain.c43_metadata_only`, `Chain.c43_unprotected_fails`.
* **C44 API keys cannot escalate privileges.** *partial*. Permissions never grow along any chain of delegated creations (all histories, all scope texts). The full statement is false in time: a key may expire later than its creator and survives its creator's expiry and revocation (c44_outlives_fails, c44_survives_revocation). Theorems: `Auth.c44_grant_sound`, `Auth.c44_no_new_permission_partial`, `Auth.c44_requests_partial`, `Auth.c44_outlives_fails`, `Auth.c44_survives_revocation`.
* **C45 Requests are denied by default.** *proved*. Exact characterisation for all requests, keys and scope texts. Public paths are /, /health and /metrics. bcrypt is modelled as equality of secrets; the lookup is any function, so the cache of C46 is covered. Theorems: `Auth.c45_default_deny`, `Auth.c45_no_configuration`.
* **C46 A revoked key stops working immediately.** *partial*. The full statement is false (overlapping lookup refills the cache; another server keeps its local copy; failed cache deletion). Proved: immediate when one server and no overlapping lookup; in every case refused once both cache lifetimes have passed. The behaviour of the go-redis/cache library (two levels, local deletion only) is assumed. Theorems: `KeyCache.c46_full_fails`, `KeyCache.c46_race_fails`, `KeyCache.c46_two_servers_fails`, `KeyCache.c46_failed_deletion_fails`, `KeyCache.c46_quiet_partial`, `KeyCache.c46_bounded_partial`.
* **C47 API key management is confined to the owner.** *proved*. All callers, owners and stores. Theorems: `Auth.c47_create`, `Auth.c47_list`, `Auth.c47_revoke`, `Auth.c47_confined`.
* **C48 Tokenized personal data can be recovered.** *partial*. Standard tokens: all values. Format-preserving tokens (the mode identities use): exactly the values without a colon; one with a colon is never recovered (c48_colon_lost). AES-GCM and base64 are a parameter assumed to open what they seal and to reject texts with a colon. Theorems: `Token.c48_standard`, `Token.c48_format_partial`, `Token.c48_colon_lost`, `Token.c48_full_fails`, `Token.c48_shape`.
* **C49 Query filters cannot inject SQL and bind every argument.** *proved*. All tables, filter lists and values except arrays and objects as values. The text is modelled as tokens with their exact spelling; PostgreSQL's parser is trusted to read them so. Theorems: `Filter.c49_mentions`, `Filter.c49_values_bound`.
* **C50 No accepted filter is silently ignored.** *partial*. The full statement is false: an equality filter on a metadata key with NaN or an infinity (accepted from the URL) is dropped and the listing is complete (c50_dropped_returns_all). Proved for every other list, for AND and OR: one condition per filter, and the text with its arguments, read with SQL's precedence, selects exactly the rows asked for. Theorems: `Filter.c50_partial`, `Filter.c50_full_fails`, `Filter.c50_dropped_returns_all`.
* **C51 Historical balance equals the sum of effective postings.** *partial*. The full statement is false. From source it holds for timestamps in UTC and rows dated after the zero time, and at the present it is the stored balance. From a snapshot the error is computed exactly, for every execution and any number of overlapping snapshot runs; it is zero when every row lies on the right side of the snapshot. It is not for backdated rows, for queued requests accepted before and posted after a snapshot, and for postings made while a run is under way (counted twice). Theorems: `Snap.c51_source_partial`, `Snap.c51_source_now`, `Snap.c51_error_exact`, `Snap.c51_snapshot_partial`, `Snap.c51_full_fails`, `Snap.c51_backdated_fails`, `Snap.c51_queued_posting_fails`, `Snap.c51_posting_during_run_counted_twice`, `Snap.c51_source_zero_date_fails`, `Snap.c51_source_offset_fails`.
* **C52 Balance monitors fire exactly on their condition.** *partial*. The full statement is false for equality: the table accepts = only, the check understands == only, so no stored equality monitor ever fires. Proved: the check is exact for every other monitor and balance, unknown fields and operators never fire, and end to end, for every sequence of requests served by one process with whole thresholds that no update changes, exactly the monitors whose condition holds are notified. Fractional and zero thresholds are refused. float64 products are modelled as exact. Theorems: `Mon.c52_check_exact`, `Mon.c52_unknown_field_never_fires`, `Mon.c52_unknown_operator_never_fires`, `Mon.c52_partial`, `Mon.c52_equality_never_fires`, `Mon.c52_full_fails`, `Mon.c52_fraction_refused`, `Mon.c52_zero_refused`.
* **C53 A failed atomic bulk request leaves no net effect.** *partial*. Inflight requests are fully rolled back at every failure position, also while others work on the same accounts. For ordinary requests the full statement is false: the answer is given when the refunds are only queued (c53_answer_before_refund); the balances are restored once the workers applied them, in any order. Split items are never rolled back (c53_split_items_stay). Requests with skip_queue; without it see C73. Theorems: `Atomic.c53_inflight_rolled_back`, `Atomic.c53_inflight_as_before`, `Atomic.c53_refunded_once_delivered_partial`, `Atomic.c53_refunded_as_before_partial`, `Atomic.c53_failed_inflight_request`, `Atomic.c53_failed_request_refunded_partial`, `Atomic.c53_full_fails`, `Atomic.c53_answer_before_refund`, `Atomic.c53_split_items_stay`.
* **C54 A dry run predicts the real outcome and writes nothing.** *partial*. Proved for synchronous requests on an unchanged ledger, both directions and with exact final figures: single movements, splits, batches of unsplit items, commits and voids of one hold. The full statement is false: queued checks with a source named by indicator, queued requests counting themselves, split leg references in use, one balance under two names, two currencies in a batch. That a dry run writes nothing holds by construction of the model: every datasource call on these paths is a read. Refund previews and parents with several holds are not covered. Theorems: `Preview.c54_would_apply_partial`, `Preview.c54_rejection_partial`, `Preview.c54_split_would_apply_partial`, `Preview.c54_split_rejection_partial`, `Preview.c54_bulk_would_apply_partial`, `Preview.c54_bulk_rejection_partial`, `Preview.c54_settle_would_apply_partial`, `Preview.c54_settle_rejection_partial`, `Preview.c54_queued_checks_fail`, `Preview.c54_queued_request_fails`, `Preview.c54_split_reference_fails`, `Preview.c54_two_names_fail`, `Preview.c54_two_currencies_fail`.
* **C55 A balance indicator names one balance.** *proved*. Any number of calls, any interleaving of their statements with each other and with every other ledger action. Assumes generated ids are new (uuid) and that statements do not fail other than by unique constraints. Theorems: `Indicator.c55_one_balance`, `Indicator.c55_same_balance`, `Indicator.c55_returns`.
* **C56 Metadata updates merge.** *partial*. The full statement is false: two overlapping updates of a ledger, balance or identity lose keys (read-modify-write), a balance update with the reconcile key rewrites it, and a transaction update answers only the given keys. Proved otherwise: exact merge, kept keys, idempotence, refused updates change nothing, overlapping transaction updates lose nothing. Theorems: `Meta.c56_merges_partial`, `Meta.c56_refused`, `Meta.c56_repeat_partial`, `Meta.c56_answer_partial`, `Meta.c56_transactions_concurrent`, `Meta.c56_entity_concurrent_partial`, `Meta.c56_lost_update`, `Meta.c56_full_fails`, `Meta.c56_reconcile_fails`, `Meta.c56_answer_fails`.
* **C57 Batch walking visits every leg exactly once.** *partial*. Both page walkers, all page sizes and leg counts, with arbitrary steps of the ledger between the queries. Once a leg is on the books and creation times differ, no leg is skipped whatever happens, and each is handed out exactly once unless a further hold is created under the parent. Refunds: nothing skipped. Fails (witnesses) for legs with equal creation time, for legs still queued when the walk starts, and refunds may be handed out twice. Theorems: `Paging.c57_legs_walk_once_partial`, `Paging.c57_legs_collect_once_partial`, `Paging.c57_legs_walk_covers_partial`, `Paging.c57_legs_collect_covers_partial`, `Paging.c57_refund_walk_covers_partial`, `Paging.c57_legs_walk_ends`, `Paging.c57_full_fails`, `Paging.c57_ties_fail`, `Paging.c57_queued_leg_skipped`, `Paging.c57_refund_twice`.
* **C58 Reconciliation finds every match its rules allow.** *partial*. The full statement is false: the query that preselects transactions is narrower than the rules (drift counted from the wrong side, bounds of one rule applied to all, case of the currency, fractions of a second), and an unreadable page counts as no match. Proved: transactions the query admits are all looked at when every page can be read; every reported match satisfies a rule. Theorems: `Recon.c58_unmatched_partial`, `Recon.c58_exact_rules_partial`, `Recon.c58_matches_hold`, `Recon.c58_one_verdict_partial`, `Recon.c58_full_fails`, `Recon.c58_two_rules_fail`, `Recon.c58_currency_fails`, `Recon.c58_subsecond_fails`, `Recon.c58_unreadable_page_fails`.
* **C59 Reconciliation reports each record once.** *partial*. The full statement is false over two pages (a record is reported matched and unmatched) and for two records that fit the same group. Proved: exactly one verdict if the grouped rows fit on one page; a record whose run ends is always reported; matches hold. Theorems: `Recon.c59_one_page_partial`, `Recon.c59_reported`, `Recon.c59_matches_hold`, `Recon.c59_two_pages_fail`, `Recon.c59_full_fails`, `Recon.c59_group_twice_fails`.
* **C60 Balances can be recomputed from the transaction table.** *proved*. Theorems: `c60_balance_is_sum_of_applied_rows`.
* **C61 No column is ever negative.** *proved*. Theorems: `c61_columns_never_negative`.
* **C62 Each party of a split gets its share to within rounding.** *partial*. Upper bound for lists that say where everything goes. Refuted in general: what the list leaves over goes to the largest party. Theorems: `Split.c62_at_least_the_share`, `Split.c62_within_rounding_partial`, `Split.c62_full_fails`, `Split.c62_one_unit_goes_to_the_first`.
* **C63 Authentication does not alter the request.** *partial*. The full statement is false: POST bodies sent with an API key are decoded into float64 and encoded again, so whole numbers above 2^53 change (10^18+1 becomes 10^18). Below 2^53 they are preserved, given that Go prints such floats exactly. Theorems: `Auth.c63_full_fails`, `Auth.c63_wei_fails`, `Auth.c63_small_partial`.
* **C64 A tokenized identity field stays tokenized and recoverable.** *partial*. Proved for any number of requests served one after the other. The full statement is false: two overlapping requests for different fields always put one of them back in clear text, and a client update with meta_data removes the mark, after which the value is lost. Theorems: `Token.c64_one_request`, `Token.c64_sequential`, `Token.c64_concurrent_fails`, `Token.c64_full_fails`, `Token.c64_update_partial`, `Token.c64_update_fails`.
* **C65 An equality filter compares with the text given.** *partial*. The full statement is false: 007 in the URL becomes the number 7 (c65_full_fails). Proved for texts that read neither as a number nor as a date. Theorems: `Filter.c65_partial`, `Filter.c65_full_fails`.
* **C66 Every accepted filter and sort request can be executed.** *partial*. The full statement is false: sorting transactions by balance_id or indicator names a column that does not exist; two indicator filters name one CTE twice. Proved: every other sort field is a column of its table; C49 shows that filters name existing columns only. Theorems: `Filter.c66_sort_partial`, `Filter.c66_sort_fails`, `Filter.c66_two_indicators`.
* **C67 No filter in the URL is silently dropped.** *partial*. The full statement is false: further values of a repeated parameter and parameters with an unknown operator are skipped silently. Proved: a parameter given once with a known operator becomes its filter, whatever underscores the field has. Theorems: `Filter.c67_partial`, `Filter.c67_full_fails`.
* **C68 Not-equal is the opposite of equal.** *partial*. The full statement is false for dates and times: eq asks for the whole period, ne for another instant than its start. Proved for all other values. Theorems: `Filter.c68_partial`, `Filter.c68_full_fails`.
* **C69 Snapshot runs cover every balance, once a day.** *partial*. Covering and termination are proved for all interleavings. At most one snapshot a day is proved when runs do not overlap and false when they do (c69_overlapping_runs_fail). Theorems: `Snap.c69_commit_covers`, `Snap.c69_run_covers_and_ends`, `Snap.c69_once_a_day_partial`, `Snap.c69_overlapping_runs_fail`, `Snap.c69_snapshots_stay`.
* **C70 Recorded snapshots cannot be altered.** *partial*. The figures are never changed by an update. The metadata can be changed only if the balance had a transaction when the snapshot was taken: NULL last_tx_id blocks every update (c70_full_fails). Deletion is not prevented by the trigger and not claimed. Theorems: `Snap.c70_figures_kept`, `Snap.c70_metadata_can_change_partial`, `Snap.c70_full_fails`.
* **C71 Balance metadata has no influence on the figures.** *partial*. The full statement is false: a balance created with BLNK_RUN_RECONCILIATION=SOURCE in its metadata loses the effect of its first posting, because the trigger fires on the posting's own UPDATE before the transaction row exists. Proved for every execution without such a creation: the ledger is exactly what the postings produce; and reconciling repairs any state. Theorems: `Trig.c71_metadata_inert_partial`, `Trig.c71_reconciliation_repairs`, `Trig.c71_full_fails`, `Trig.c71_first_posting_lost`, `Trig.c71_first_credit_lost`.
* **C72 Changes to monitors take effect.** *partial*. The full statement is false: an update never changes the threshold the check uses; a moved monitor keeps notifying for its old balance; other processes use their local copy; an overlapping posting refills the cache with what it read before. Proved for one process and non-overlapping requests that leave monitors with their balance. Theorems: `Mon.c72_create_delete`, `Mon.c72_update_keeps_threshold`, `Mon.c72_threshold_fails`, `Mon.c72_full_fails`, `Mon.c72_moved_fails`, `Mon.c72_other_process_fails`, `Mon.c72_race_fails`.
* **C73 An atomic bulk request is all or nothing also when it is queued.** *partial*. The full statement is false: the rollback of a queued request never finds an item, and the items are applied all the same. Theorems: `Atomic.c73_rollback_finds_nothing`, `Atomic.c73_full_fails`.
* **C74 One-to-one reconciliation pairs one with one.** *partial*. The full statement is false: every worker reports its first match, and nothing marks a transaction as taken. Proved: at most as many matches as workers; at most one if only one transaction satisfies the rules. Theorems: `Recon.c74_at_most_workers_partial`, `Recon.c74_unambiguous_partial`, `Recon.c74_one_record_fails`, `Recon.c74_full_fails`.
* **C75 A reconciliation handles the records of its upload.** *partial*. The full statement is false: the page cache does not name the upload, so a run started while another upload's page is cached handles that page; rows of equal date may move between pages. Proved for any number of interleaved runs of one upload with different dates. Theorems: `Recon.c75_one_upload_partial`, `Recon.c75_second_upload_gets_first`, `Recon.c75_full_fails`, `Recon.c75_same_date_fails`.
* **C76 A started reconciliation ends.** *partial*. The full statement is false: any record that fits no group of a table of two or more pages blocks its run forever. Proved for tables of one page. Theorems: `Recon.c76_one_page_partial`, `Recon.c76_unmatched_never_ends`, `Recon.c76_full_fails`.
* **C77 Groups are compared whole.** *partial*. The full statement is false for groups that lie across two pages. Proved for tables of one page. Theorems: `Recon.c77_one_page_partial`, `Recon.c77_full_fails`, `Recon.c77_group_missed_fails`.
* **C78 The figures of a reconciliation are what it stored.** *proved*. All lists of outcomes. The only storage error modelled is the one of the amount column; the updates of the matched transactions' metadata are not modelled here. Theorems: `Recon.c78_figures`, `Recon.c78_dry_run`.
* **C79 A stored match carries the record's amount.** *partial*. The full statement is false: matches.amount is NUMERIC(12,2), so further decimals are rounded and an amount from 10^10 fails the whole run. Proved for amounts with two decimals below that. Theorems: `Recon.c79_amounts_partial`, `Recon.c79_full_fails`, `Recon.c79_large_fails`.
* **C80 An upload is stored as given or not at all.** *partial*. The full statement is false: unreadable amounts become 0 and unreadable dates the year 1, a refused upload leaves its rows so the corrected file is always refused, rows are dropped silently when the time is over, and a JSON array that breaks off after a record is accepted. Proved: accepted uploads of legible files that were not given up stored every row once, for all interleavings and failing inserts. Theorems: `Upload.c80_accepted_partial`, `Upload.c80_resend_refused`, `Upload.c80_others_kept`, `Upload.c80_full_fails`, `Upload.c80_date_fails`, `Upload.c80_refused_stays_fails`, `Upload.c80_timeout_fails`, `Upload.c80_json_partial`, `Upload.c80_json_truncated`, `Upload.c80_json_truncated_fails`.
* **C81 Every upload is answered.** *partial*. The full statement is false: a CSV file with more bad rows than workers is never answered, and its goroutines never end. Proved for files with at most as many bad rows as workers and new ids. Theorems: `Upload.c81_answered_partial`, `Upload.c81_reaches_answer_partial`, `Upload.c81_bad_file_never_answered`, `Upload.c81_hangs_for_good`, `Upload.c81_full_fails`.
* **C82 A queued transaction is applied on the terms submitted.** *partial*. The full statement is false: coalescing and recovery rebuild the transaction from its row, which keeps neither overdraft limit nor effective date, and take the flags from client-writable metadata. Proved for all runs: amount, currency, parties, reference and link always; all terms for tasks from Redis; all terms for requests without limit, date and contradicting metadata; and the floor of an account whose debits carry no unlimited permission (other ledger work there: accounts, postings, batches, stored rows). Theorems: `Queue.c82_applied_as_submitted_partial`, `Queue.c82_delivered_task_keeps_terms`, `Queue.c82_queue_respects_floor_partial`, `Queue.c82_full_fails`, `Queue.c82_limit_lost`, `Queue.c82_metadata_grants_overdraft`, `Queue.c82_metadata_makes_hold`, `Queue.c82_date_lost`.
* **C83 Refunding a voided hold takes nothing.** *partial*. The full statement is false: the refund of a VOID row is a new hold against the payee with overdraft allowed, and committing it takes money that was never paid. Proved: no settled column changes by the refund itself. Theorems: `c83_no_settled_move_partial`, `c83_payee_pays`, `c83_full_fails`.
* **C84 A lineage report adds up to the customer's lineage account.** *partial*. The full statement is false: the total account belongs to the identity, not to the balance, and a mapping that could not be written is never written again. Proved for all histories, with anything failing: an identity's total account holds what its providers' accounts hold together (no renames, no shared accounts, payments in the balance's currency); and the report adds up to it when nothing fails and the balance is the identity's only one in its currency. Theorems: `Prov.c84_accounts_partial`, `Prov.c84_report_partial`, `Prov.c84_two_balances_fails`, `Prov.c84_lost_mapping_fails`.
* **C85 Providers' funds are never overspent.** *partial*. The full statement is false: two holds are allocated to the same money of a provider. Proved for all histories, with anything failing: all providers of an identity together are never overspent; and no single provider is, if no hold is placed on a tracked balance. Theorems: `Prov.c85_together_partial`, `Prov.c85_no_holds_partial`, `Prov.c85_two_holds_fails`.
* **C86 A balance has no more money with lineage than money.** *partial*. The full statement is false: a tagged transfer is counted twice, balances of one identity share a provider's account, a debit may overtake a credit, and proportional allocation leaves a remainder. Proved for histories in which the outbox is emptied after each movement, without holds, tags on debits, overdraft, shared identities or proportional allocation. Theorems: `Prov.c86_in_order_partial`, `Prov.c86_tagged_fails`, `Prov.c86_shared_fails`, `Prov.c86_late_fails`, `Prov.c86_proportional_fails`.
* **C87 Every tracked movement gets its lineage.** *partial*. The full statement is false in five ways: queued holds get no outbox item, a crash between row and mapping leaves an item that can only fail, an unreadable balance completes the item, a hold blocks later debits, and a rename hides the total account. Proved: the item is written with the movement and never lost; what undisturbed attempts at credits and debits store; a tracked source that names a provider it has no money of attributes nothing. Theorems: `Prov.c87_item_partial`, `Prov.c87_credit_partial`, `Prov.c87_debit_partial`, `Prov.c87_unknown_provider`, `Prov.c87_queued_hold_fails`, `Prov.c87_crash_fails`, `Prov.c87_unread_fails`, `Prov.c87_hold_blocks_fails`, `Prov.c87_rename_fails`.
* **C88 Settling a hold settles its lineage.** *partial*. The full statement is false: lineage written after the hold was settled stays held, and committing a part commits the lineage in full. Proved: settling the whole hold settles exactly its rows, with what that does to every lineage account; rows that could not be settled are retried; nothing stays held if the hold's item was finished first. Theorems: `Prov.c88_settles_partial`, `Prov.c88_columns_partial`, `Prov.c88_retry`, `Prov.c88_over_partial`, `Prov.c88_early_fails`, `Prov.c88_part_fails`.
* **C89 Different customers have different lineage accounts.** *partial*. The full statement is false: accounts are named by customer name and the first eight characters of the identity's id, `idt_` and four digits. Proved for ids that differ in them. Theorems: `Prov.c89_different_ids_partial`, `Prov.c89_same_name_fails`, `Prov.c89_joined_fails`.
* **C90 A hold does not outlive its expiry date.** *partial*. The full statement is false: the expiry task carries the id of the request, which for a queued hold is the QUEUED row and for a split no row at all. Proved for unsplit skip_queue holds: the task is kept until nothing is left or asynq gives up; an attempt leaves nothing and later settlements are refused; nothing is released early. Theorems: `Sched.c90_watched_partial`, `Sched.c90_expired_partial`, `Sched.c90_not_early_partial`, `Sched.c90_early_partial`, `Sched.c90_queued_fails`, `Sched.c90_split_fails`.
* **C91 A scheduled transaction has no effect before its date.** *partial*. The full statement is false: with skip_queue the date is ignored. Proved for queued requests: before the date all rows stay SCHEDULED; the task is kept until a row with the amount is posted or asynq gives up. Theorems: `Sched.c91_not_early_partial`, `Sched.c91_kept_partial`, `Sched.c91_skip_queue_fails`.
* **C92 A hold with a commit date is committed then, in full and once.** *partial*. The full statement is false for queued holds: a commit task that runs first commits the stand-in with another hold's funds, or finds nothing and is dropped. Proved for skip_queue holds, split or not. Theorems: `Sched.c92_watched_partial`, `Sched.c92_acknowledged_partial`, `Sched.c92_settled_partial`, `Sched.c92_not_early_partial`, `Sched.c92_late_fails`, `Sched.c92_scheduled_fails`.
* **C93 A change to a hook holds.** *partial*. The full statement is false: a worker that finishes an older task stores the hook as that task has it, which undoes updates and deletions. Proved: changes made while nothing of the hook is under way stick whatever follows; stored hooks and calls are always as some one request made them. Theorems: `Hooks.c93_update_partial`, `Hooks.c93_delete_partial`, `Hooks.c93_nothing_made_up`, `Hooks.c93_update_fails`, `Hooks.c93_delete_fails`.
* **C94 A hook is called at its stage.** *partial*. The full statement is false: registering an id again for the other stage leaves it on both lists. Proved if nobody changes the type of a hook; with changes of type, for requests one after the other, no failures and no id registered twice. Theorems: `Hooks.c94_stage_partial`, `Hooks.c94_lists_partial`, `Hooks.c94_twice_fails`.
* **C95 A hook is called a bounded number of times.** *partial*. The full statement is false: updates are not validated and can ask for any number of retries. Proved: at most one more call than the hook's retries; eleven if updates ask for at most ten. Theorems: `Hooks.c95_bounded_partial`, `Hooks.c95_update_fails`.
* **C96 Active hooks are told.** *partial*. The full statement is false: a failed enqueue is dropped, a failed change of type leaves an active hook on no list, and an update without a timeout makes every attempt fail unsent. Proved: listed hooks get a task for every transaction of a firing whose commands work; delivered tasks were received, given-up ones used all attempts, each a call if the hook has a timeout and the network works. Theorems: `Hooks.c96_queued_partial`, `Hooks.c96_called_partial`, `Hooks.c96_not_queued_fails`, `Hooks.c96_unlisted_fails`, `Hooks.c96_no_timeout_fails`.
* **C97 A receiver's answer decides as its status says.** *partial*. The full statement is false: a JSON body decides regardless of the status, and redirects with a body count as success. Proved: what counts as success exactly, and that it is final. Theorems: `Hooks.c97_answer_partial`, `Hooks.c97_final_partial`, `Hooks.c97_status_fails`.
* **C98 A webhook carries what happened.** *partial*. The full statement is false: payloads pass through float64. Proved: every delivery is of a deed of the history, exact but for whole numbers from 2^53 on, which still read as the same float. Theorems: `Web.c98_content_partial`, `Web.c98_wide_fails`.
* **C99 Signed notifications verify and only the service can sign.** *partial*. The full statement is false: without a secret, hook calls are signed with the empty key. Proved for webhooks; the signed text determines timestamp and body. Theorems: `Web.c99_webhook_partial`, `Web.c99_signed_text`, `Web.c99_hook_fails`.
* **C100 Everything that happens is announced once.** *partial*. The full statement is false: worker refusals are announced twice, queued and scheduled transactions never, renamed ledgers as created. Proved for all other deeds. Theorems: `Web.c100_once_partial`, `Web.c100_outcome_partial`, `Web.c100_twice_fails`, `Web.c100_silent_fails`, `Web.c100_rename_fails`.
* **C101 Webhooks are delivered or given up after a known number of attempts.** *partial*. The full statement is false: while no URL is configured queued webhooks count as delivered. Proved otherwise. Theorems: `Web.c101_delivered_partial`, `Web.c101_accepted_partial`, `Web.c101_off_partial`, `Web.c101_dropped_fails`.
* **C102 Search shows amounts as they are.** *partial*. The full statement is false: amounts pass through float64 before they are turned into text. Proved: exact below 2^53, and never off by more than one part in 2^53. Theorems: `Srch.c102_amounts_partial`, `Srch.c102_wide_fails`.
* **C103 Every record fits its collection.** *proved*. For every record with a numeric amount field, from either way of indexing. Theorems: `Srch.c103_fits`, `Srch.c103_id`.
* **C104 A rebuilt index shows the same.** *partial*. The full statement is false: the rebuild's queries do not read version and inflight expiry of balances, and four columns of transactions. Proved for every other field. Theorems: `Srch.c104_rest_partial`, `Srch.c104_hold_fails`, `Srch.c104_version_fails`.
* **C105 Search never shows a state that never was.** *partial*. The full statement is false for the general ledger, which every index task overwrites with a fixed text, and for reconciliations, which are sent before they are stored. Proved for all others. Theorems: `Srch.c105_known_partial`, `Srch.c105_general_fails`, `Srch.c105_recon_fails`.
* **C106 Once caught up, search shows the ledger as it is.** *partial*. The full statement is false: tasks overtake each other, and identity updates (tokenization included), deletions, owner changes and queued transactions are never sent. Proved for the changes that are sent, when the queue is worked off in order. Theorems: `Srch.c106_follows_partial`, `Srch.c106_overtaken_fails`, `Srch.c106_tokenized_fails`, `Srch.c106_deleted_fails`, `Srch.c106_owner_fails`, `Srch.c106_queued_fails`.
* **C107 A transaction is found only with its balances.** *partial*. The full statement is false: rejected transactions and meta data updates carry no balances, and a rebuild drops them. Proved for executed transactions otherwise. Theorems: `Srch.c107_linked_partial`, `Srch.c107_refused_fails`, `Srch.c107_meta_fails`, `Srch.c107_drop_fails`.
* **C108 A search update is given up only after real failures.** *proved*. The queue (asynq) keeps accepted tasks; its default of 25 retries is part of the model. Theorems: `Srch.c108_given_up`, `Srch.c108_attempt`, `Srch.c108_dead_stays`.
* **C109 A completed rebuild holds every record.** *partial*. The full statement is false: reconciliations are dropped and never rebuilt, a deletion or rows of equal time make pages skip records, refused documents are left out, and a second accepted rebuild empties the index. Proved: without deletions, equal times and other rebuilds every record is found or named among the errors. Theorems: `Reidx.c109_complete_partial`, `Reidx.c109_recon_fails`, `Reidx.c109_deleted_fails`, `Reidx.c109_ties_fails`, `Reidx.c109_refused_fails`, `Reidx.c109_second_fails`.
* **C110 The progress of a rebuild is reported right.** *partial*. The full statement is false: from the second page of a collection on records are counted again, and the total always equals the processed number. Proved: never too small, and right if each collection but the ledgers fits one page. Theorems: `Reidx.c110_counts_partial`, `Reidx.c110_exact_partial`, `Reidx.c110_pages_fails`, `Reidx.c110_total_fails`.
* **C111 Only one rebuild runs at a time.** *partial*. The full statement is false: a second request is accepted until the first rebuild has begun, and the rebuild of a server start is unknown to requests. Proved otherwise. Theorems: `Reidx.c111_one_partial`, `Reidx.c111_requests_fails`, `Reidx.c111_startup_fails`.
* **C112 A restart takes nothing away from search.** *partial*. The full statement is false: an installation without transactions is emptied at every start, and one transaction in the index hides any loss. Proved: exactly when a start begins a rebuild, and that it does nothing else. Theorems: `Reidx.c112_start_partial`, `Reidx.c112_emptied_fails`, `Reidx.c112_lost_fails`.
* **C113 A rebuild does not set search back.** *partial*. The full statement is false: a document read before a change is written after the change was indexed. Proved: never older than at the beginning of the rebuild. Theorems: `Reidx.c113_fresh_partial`, `Reidx.c113_overtaken_fails`.
* **C114 Reusing a reference is answered as a duplicate.** *partial*. The full statement is false: a reference that contains a phrase searched for earlier is answered with that phrase's code, and two racing posts of one reference end in an internal error for the second. Proved: exactly which references are answered as duplicates, and that all without a blank are, alone and in bulk. Theorems: `Errs.c114_full_fails`, `Errs.c114_race_fails`, `Errs.c114_duplicate_partial`, `Errs.c114_noBlank_partial`.
* **C115 Every error answer pairs a current code with its status.** *proved*. For every error chain and every handler option naming catalogue codes. Theorems: `Errs.c115_catalogue`, `Errs.c115_bulk`, `Errs.c115_never_success`.
* **C116 Error answers keep internals to themselves.** *partial*. The full statement is false: details of typed errors and texts of hook failures reach the client. Proved: where no default code is named unclassified texts are replaced, and the bulk and batch answers drop details. Theorems: `Errs.c116_full_fails`, `Errs.c116_details_fails`, `Errs.c116_hook_text_fails`, `Errs.c116_sanitized_partial`, `Errs.c116_flattened_partial`.
* **C117 Failures of the server are not blamed on the client.** *partial*. The full statement is false: settling and bulk requests answer every failure 4xx, and a failing listing can be answered as success or not found. Proved: which failures of a single post are answered 5xx, and that a listing that succeeds reports its errors. Theorems: `Errs.c117_full_fails`, `Errs.c117_post_partial`, `Errs.c117_settle_blames_client_fails`, `Errs.c117_bulk_blames_client_fails`, `Errs.c117_listing_fails`, `Errs.c117_listed_partial`.
* **C118 A preview announces the code the post would return.** *partial*. The full statement is false: a used reference and a transfer to oneself are announced differently from what the post returns. Proved: exactly when both agree. Theorems: `Errs.c118_full_fails`, `Errs.c118_self_fails`, `Errs.c118_agree_partial`.
* **C119 The queue worker gives up only for good reasons.** *partial*. The full statement is false: names containing the phrases searched for decide the fate of a transaction, and a Redis failure while locking counts as contention. Proved for all texts that do not contain the phrases. Theorems: `Errs.c119_full_fails`, `Errs.c119_name_fails`, `Errs.c119_redis_fails`, `Errs.c119_worker_partial`, `Errs.c119_dropped_partial`, `Errs.c119_patient_partial`.
* **C120 A hold is refused alike however it is settled.** *partial*. The full statement is false: negative amounts and precisions, among others, get a different code on each endpoint. Proved: the table of codes and exactly which refusals correspond, for texts without the phrases searched for. Theorems: `Errs.c120_full_fails`, `Errs.c120_currency_fails`, `Errs.c120_negative_fails`, `Errs.c120_same_partial`, `Errs.c120_table_partial`.
* **C121 A bulk item is refused like the transaction alone.** *partial*. The full statement is false: storage failures and others are answered differently in bulk. Proved: exactly which failures get the same code. Theorems: `Errs.c121_full_fails`, `Errs.c121_same_partial`.
* **C122 The amount recorded is the amount written.** *partial*. The full statement is false: digits beyond the double are dropped before they are counted, so 0.1000000000000000055 is accepted as 0.1, and a precision such as 10^24 is replaced by the nearest double. Proved: exact for amounts of at most fifteen digits and precisions a double holds; within one part in 2^51 for every accepted amount; precise amounts as given. Theorems: `Request.c122_full_fails`, `Request.c122_precision_fails`, `Request.c122_recorded_partial`, `Request.c122_close_partial`, `Request.c122_precise_partial`.
* **C123 Amounts that can be kept are accepted, others are not.** *partial*. The full statement is false: trailing zeros are counted, so 10^15 and everything above is refused. Proved: every amount with at most fifteen digits before and after the point together is accepted, and what is accepted is kept with at most fifteen digits. Theorems: `Request.c123_full_fails`, `Request.c123_accepted_partial`, `Request.c123_kept_partial`.
* **C124 The amount shown is the amount recorded.** *partial*. The full statement is false: the quotient is cut after sixteen decimals, so one minor unit at precision 10^18 is stored as 0. Proved: exact and returned digit for digit for precisions dividing 10^16, and within half a unit of the sixteenth decimal otherwise. Theorems: `Request.c124_full_fails`, `Request.c124_exact_partial`, `Request.c124_close_partial`, `Request.c124_roundtrip_partial`.
* **C125 Committing an amount settles that amount.** *partial*. The full statement is false: an amount that rounds to zero, even a negative one, settles the whole hold, and a failed lookup of the precision is replaced by 1. Proved: otherwise exactly the amount is settled, never more than is left. Theorems: `Request.c125_full_fails`, `Request.c125_negative_fails`, `Request.c125_lookup_fails`, `Request.c125_settles_partial`, `Request.c125_precise_partial`.
* **C126 A batch is accepted like its items.** *partial*. The full statement is false: one number no double can hold makes the whole batch malformed. Proved: acceptance is that of the items, and otherwise the code and index are those of the first refused item. Theorems: `Request.c126_full_fails`, `Request.c126_accepts_partial`, `Request.c126_refused_partial`.
* **C127 Every accepted movement has two different ends.** *partial*. The full statement is false: lists on both sides are accepted and the legs have no destination; identifiers in lists may be empty. Proved for all other requests; amounts are never negative. Theorems: `Request.c127_full_fails`, `Request.c127_blank_identifier_fails`, `Request.c127_ends_partial`, `Request.c127_nonneg_partial`.
* **C128 A fractional precision is answered with its own code.** *partial*. The full statement is false: no request is ever answered with that code, because the error is filed under the JSON name and looked up under the Go name. Proved: the two codes that do occur. Theorems: `Request.c128_full_fails`, `Request.c128_never`, `Request.c128_refusals_partial`.
* **C129 A bulk commit item means what a single commit means.** *partial*. The full statement is false: precise_amount 0 is refused alone and settles the whole hold in bulk. Proved for every other request. Theorems: `Request.c129_full_fails`, `Request.c129_same_partial`.
* **C130 A full queue takes no more tasks.** *partial*. The full statement is false: the answer of a check is used for the whole interval, so any number of tasks enter a full queue, and a check that fails lets everything through. Proved: refused when the queue was full, and Redis answered, throughout the last interval. Theorems: `Press.c130_full_partial`, `Press.c130_any_number_fails`, `Press.c130_full_fails`, `Press.c130_failed_check_fails`.
* **C131 A queue with room takes every task.** *partial*. The full statement is false: an old answer is used for the whole interval. Proved: let through when the queue had room throughout the last interval. Theorems: `Press.c131_room_partial`, `Press.c131_full_fails`.
* **C132 A submission the queue cannot take is refused, or it waits.** *partial*. The full statement is false: the client is told before the gate is asked, a submission whose row could not be stored is lost, and a dated one is never attempted. Proved: the tasks queued are those before the first refusal, and a stored submission without a date can be attempted at any later time. Theorems: `Press.c132_full_fails`, `Press.c132_lost_fails`, `Press.c132_prefix_partial`, `Press.c132_waits_partial`, `Press.c132_scheduled_fails`.
* **C133 A setting given is the setting used.** *partial*. The full statement is false: coalescing and retries cannot be switched off, lock times below a second are multiplied by a billion, and no time a pair stays hot is used as written. Proved: which values are kept. Theorems: `Conf.c133_full_fails`, `Conf.c133_coalescing_fails`, `Conf.c133_retries_fails`, `Conf.c133_lock_fails`, `Conf.c133_hot_ttl_fails`, `Conf.c133_kept_partial`.
* **C134 A setting left out takes its default.** *partial*. The full statement is false: the gate in front of the queue is listed as on and is off. Proved for every other setting. Theorems: `Conf.c134_full_fails`, `Conf.c134_backpressure_fails`, `Conf.c134_defaults_partial`.
* **C135 Every queue that is used is served.** *partial*. The full statement is false: with a negative number of queues the service starts and serves none. Proved otherwise. Theorems: `Conf.c135_full_fails`, `Conf.c135_negative_fails`, `Conf.c135_served_partial`.
* **C136 The rate limit lets through what it should and no more.** *partial*. The full statement is false: a rate below one a second given without a burst refuses every request. Proved: requests pass after a pause if the rate is at least one or a burst is given; the upper bound holds for every window. Theorems: `Conf.c136_full_fails`, `Conf.c136_slow_fails`, `Conf.c136_passes_partial`, `Conf.c136_rate_alone_partial`, `Conf.c136_bound`, `Conf.c136_burst_alone`.
* **C137 Only hosts on the operator's list are contacted.** *proved*. Theorems: `Down.c137_contacted`, `Down.c137_empty`.
* **C138 A host on the list can be downloaded from.** *partial*. The full statement is false: an entry with a port and without a scheme never matches. Proved: every other listed host passes. Theorems: `Down.c138_full_fails`, `Down.c138_admits_partial`.
* **C139 A download is stored whole or refused.** *partial*. The full statement is false: a longer file is cut and what is left is accepted, with rows missing and the last amount shortened. Proved for files within the limit. Theorems: `Down.c139_whole_partial`, `Down.c139_amount_fails`, `Down.c139_rows_fail`, `Down.c139_full_fails`.
* **C140 A file without a known extension is recognised by its content.** *partial*. The full statement is false: no text of 512 bytes or more is recognised, and JSON never is, because the header is padded with zeros. Proved: known extensions decide, and short regular CSV files are recognised. Theorems: `Down.c140_text_fails`, `Down.c140_json_fails`, `Down.c140_full_fails`, `Down.c140_extension_partial`, `Down.c140_short_partial`.
* **C141 Quoting, line ends and column order of a CSV file do not matter.** *partial*. The full statement is false: with two columns of one name every row is refused, and a byte order mark hides the first column. Proved for all tables with distinct column names. Theorems: `Csv.c141_table_partial`, `Csv.c141_ragged_partial`, `Csv.c141_same_name_fails`, `Csv.c141_full_fails`, `Csv.c141_mark_fails`.
* **C142 Metrics are shown only with the token.** *proved*. Theorems: `Front.c142_shown`, `Front.c142_workers`, `Front.c142_refused`.
* **C143 A request is read only up to the limit.** *partial*. The full statement is false: a request that calls itself a form is read whole on any route, and an upload with an API key is read whole before its limit is set. Proved for all other requests. Theorems: `Front.c143_form_fails`, `Front.c143_upload_fails`, `Front.c143_full_fails`, `Front.c143_partial`.
* **C144 Values under secret names stay inside.** *partial*. The full statement is false: structs, pointers to them and maps with other keys are sent as they are. Proved for lists and maps whose keys are texts. Theorems: `Export.c144_hidden_partial`, `Export.c144_kept`, `Export.c144_struct_fails`, `Export.c144_full_fails`.
* **C145 Query values, bearer tokens and passwords in addresses do not leave with the logs.** *partial*. The full statement is false: after Bearer Bearer the token is sent, and so is the password in an address that is not http. Proved: query values never remain and have no influence, nor has the token after the first mention of Bearer, nor user and password of a web address in a message that does not say Bearer. Theorems: `Export.c145_query_partial`, `Export.c145_query_hidden_partial`, `Export.c145_sent_partial`, `Export.c145_bearer_partial`, `Export.c145_user_partial`, `Export.c145_unreadable`, `Export.c145_url_kept`, `Export.c145_user_fails`, `Export.c145_doubled_fails`, `Export.c145_address_fails`, `Export.c145_full_fails`.
* **C146 Logging never brings the service down.** *partial*. The full statement is false: a thread that found the hook open panics if the queue is closed before it puts its entry. Proved: no panic otherwise, every entry is in one place once, and what is queued can be sent. Theorems: `Export.c146_full_fails`, `Export.c146_quiet_partial`, `Export.c146_open_partial`, `Export.c146_entries`, `Export.c146_drains`.
* **C147 An account can be opened for a ledger, an owner and a currency.** *partial*. The full statement is false: no request without a balance opens an account in any state, because the balance is always looked up. Proved for requests that name a balance. Theorems: `Book.c147_never`, `Book.c147_full_fails`, `Book.c147_partial`.
* **C148 An account agrees with its balance.** *partial*. The full statement is false for the owner, after the balance is moved and where it has none. Proved for ledger and currency always, and for the owner while nobody moves the balance. Theorems: `Book.c148_partial`, `Book.c148_owner_partial`, `Book.c148_full_fails`, `Book.c148_full_fails_unowned`.
* **C149 References lead somewhere.** *proved*. Theorems: `Book.c149`, `Book.c149_refused`, `Book.c149_deleted`.
* **C150 Fund lineage outlives the records of former owners.** *partial*. The full statement is false: after a balance is moved, deleting the former owner deletes the mapping. Proved for everything else, and while the balance belongs to the owner the mapping names. Theorems: `Book.c150_partial`, `Book.c150_full_fails`.
* **C151 An update of an identity takes effect as sent.** *partial*. The full statement is false: an empty text does not clear a value. Proved for updates of values none of which is empty. Theorems: `Book.c151_partial`, `Book.c151_refused`, `Book.c151_full_fails`.
* **C152 A UUID chosen for an identity is given out once.** *partial*. The full statement is false: another spelling of a UUID makes a second identity, and repeats are answered as invalid requests. Proved: ids are unique letter by letter, kept as sent, and in the usual spelling no UUID is given out twice. Theorems: `Book.c152_partial`, `Book.c152_usual_partial`, `Book.c152_two`, `Book.c152_never_conflict`, `Book.c152_full_fails`.
* **C153 Refusals for accounts carry the codes for them.** *partial*. The full statement is false: a number in use is always answered with an internal error, and an unknown id that contains transaction or field with codes of other things. Proved: which code the answer has for ids without blanks, and that numbers are unique. Theorems: `Book.c153_missing`, `Book.c153_missing_partial`, `Book.c153_numbers`, `Book.c153_taken_never`, `Book.c153_taken_fails`, `Book.c153_missing_fails`.
* **C154 Accounts are shown as they were created.** *partial*. The full statement is false for the plain list, which leaves out ledger, owner and balance. Proved for single reads, filters and the rest of the list. Theorems: `Book.c154_partial`, `Book.c154_rows`, `Book.c154_full_fails`.
* **C155 Creation times read as they were answered.** *partial*. The full statement is false where the server is not in UTC, and for ledgers, whose time is the database's. Proved for the other records in UTC; elsewhere they are off by the offset. Theorems: `Book.c155_partial`, `Book.c155_shifted`, `Book.c155_full_fails`.
* **C156 Renaming a ledger changes its name.** *proved*. Theorems: `Book.c156`, `Book.c156_refused`.
* **C157 A balance gets the owner it is given.** *partial*. The full statement is false: an unknown owner is answered as an unknown balance. Proved: what the request changes, and that refused ones change nothing. Theorems: `Book.c157_partial`, `Book.c157_missing`, `Book.c157_wrong_code`, `Book.c157_full_fails`.
* **C158 Paging through a list shows every record once.** *partial*. The full statement is false: rows that agree in the column sorted by may come in another order each time, a page size over the limit is cut down so that the client stops early, and identities and accounts without filters are listed whole on every page. Proved for page sizes that are honoured and rows that differ in the column: at rest all rows, each once; while newer records are created all rows of the beginning, oldest first each once. Theorems: `Lists.c158_at_rest_partial`, `Lists.c158_ends`, `Lists.c158_newest_first`, `Lists.c158_oldest_first`, `Lists.c158_ties`, `Lists.c158_capped`, `Lists.c158_endless`.
* **C159 A page has as many rows as asked for.** *partial*. The full statement is false beyond the limits (100 or 1000) and for numbers that make no sense to three of the lists. Proved: exactly which page sizes are honoured and which numbers refused, and that no page is longer than asked for but those of identities and accounts without filters. Theorems: `Lists.c159_size_iff_partial`, `Lists.c159_refused_iff`, `Lists.c159_never_more`, `Lists.c159_all_shown`, `Lists.c159_violated`, `Lists.c159_nonsense_accepted`.
* **C160 The count is the number of matches.** *partial*. The full statement is false: no count comes with an empty page. Proved: a count that is given is right, and it is given exactly when the offset is before the end. Theorems: `Lists.c160_count_partial`, `Lists.c160_violated`.
* **C161 An empty list is a list.** *partial*. The full statement is false: empty lists of balances, identities and accounts are null. Proved: these and no others. Theorems: `Lists.c161_array_iff_partial`, `Lists.c161_violated`.
* **C162 Lists come in the order asked for.** *partial*. The full statement is false: sort_by and sort_order in a URL have no effect, and two fields accepted for transactions are no columns. Proved for requests by body and columns. Theorems: `Lists.c162_body_order_partial`, `Lists.c162_url_ignored`, `Lists.c162_url_order`, `Lists.c162_no_column`, `Lists.c162_unknown`.
* **C163 A transaction reads as it was submitted.** *partial*. The full statement is false: by reference there is no precision, only lists have the effective date, overdraft, atomic and schedule are never shown, and keys of the metadata that the ledger uses are changed. Proved: everything else is shown as submitted, and exactly when these are. Theorems: `Views.c163_shown_partial`, `Views.c163_fields_iff_partial`, `Views.c163_flags`, `Views.c163_never_shown`, `Views.c163_precision_lost`, `Views.c163_effective_date_lost`, `Views.c163_metadata_lost`.
* **C164 A transaction is shown the same wherever it is read.** *partial*. The full statement is false for precision, hash and effective date. Proved for everything else, and exactly when the requests agree. Theorems: `Views.c164_same_but_partial`, `Views.c164_same_iff`, `Views.c164_violated`.
* **C165 A transaction is shown inflight when it is.** *partial*. The full statement is false: a client can write the key inflight. Proved for updates that do not. Theorems: `Views.c165_inflight_partial`, `Views.c165_violated`.
* **C166 A balance is shown the same wherever it is read.** *partial*. The full statement is false: lists show version 0 and no tracking, and by indicator there is no metadata. Proved for amounts, currency, ledger, owner, indicator and time, and exactly when the requests agree. Theorems: `Views.c166_same_but_partial`, `Views.c166_same_iff`, `Views.c166_violated`.
* **C167 A balance is shown with what is asked for.** *partial*. The full statement is false: a balance without an owner, asked for with it, is answered with an internal error, and what is included lacks type and metadata. Proved for the others. Theorems: `Views.c167_included_partial`, `Views.c167_no_owner`, `Views.c167_missing`, `Views.c167_violated`.
* **C168 An indicator finds its balance or nothing.** *partial*. The full statement is false for indicators that contain certain words. Proved for indicators without blanks and these words; the other answers are stated too. Theorems: `Views.c168_answer_partial`, `Views.c168_missing`, `Views.c168_violated`.
* **C169 A group's money changes only by what crosses its border.** *proved*. For every predicate on balance ids and every history of the sequential model (postings, batches, stored rows, commits and voids, double settlements included). Theorems: `c169_border`.
* **C170 Every currency balances on its own.** *partial*. The full statement is false: the currency of a transaction is not compared with that of balances named by id, only previews note it. Proved for histories in which transactions name by id only balances of their own currency; names always do. Theorems: `c170_partial`, `c170_by_name`, `c170_full_fails`.
* **C171 A matching rule that is accepted can match something.** *partial*. The full statement is false: a rule may ask an amount or a date to contain something, a text to be greater, or a number to be greater and smaller. Proved: exactly these rules cannot match (texts compared as ASCII). Theorems: `Rules.c171_partial`, `Rules.c171_full_fails`.
* **C172 A rule is stored exactly when it is valid.** *partial*. The full statement is false: a valid rule whose name is longer than its column is answered with an internal error. Everything else is proved, including that what is invalid changes nothing. Theorems: `Rules.c172_invalid`, `Rules.c172_update`, `Rules.c172_partial`, `Rules.c172_full_fails`.
* **C173 A reconciliation uses its rules as they were when it was asked for.** *partial*. The full statement is false: rules are read in the background after the answer. Proved when these rules are not written in between. Theorems: `Rules.c173_partial`, `Rules.c173_full_fails`.
* **C174 A reconciliation shows how it was asked for.** *partial*. The full statement is false: whether it is a dry run is not stored and always shown as false. Proved for the rest. Theorems: `Rules.c174_partial`, `Rules.c174_never`, `Rules.c174_full_fails`.
* **C175 A reconciliation that cannot work is refused.** *partial*. The full statement is false: nothing is checked before the answer. Proved: with a rule that is never there it is never completed; with an unknown strategy, or nothing stored under the upload, it never shows anything found. Theorems: `Rules.c175_rules_partial`, `Rules.c175_nothing_partial`, `Rules.c175_full_fails`.
* **C176 A refused instant reconciliation leaves nothing behind.** *partial*. The full statement is false: the records before the conflicting one and a failed reconciliation stay. Proved: exactly these are stored, no run is started, the same request is refused again, and the answer does not depend on the cause. Theorems: `Rules.c176_partial`, `Rules.c176_retry`, `Rules.c176_cause`, `Rules.c176_full_fails`.
* **C177 A reconciliation only moves forward.** *partial*. The full statement is false when the answer to the statement that completes a reconciliation is lost: completed becomes failed. Proved otherwise; the part on figures and time is proved without exception. Theorems: `Rules.c177_partial`, `Rules.c177_shown`, `Rules.c177_full_fails`.
* **C178 A reconciliation that is not there is answered with 404.** *partial*. The full statement is false for ids that contain certain words. For ids without blanks it is proved which answer they get. Theorems: `Rules.c178_partial`, `Rules.c178_full_fails`.
* **C179 Equal values satisfy equality.** *partial*. The full statement is false for texts with a bar between blanks. Proved without it (texts compared as ASCII). Theorems: `Rules.c179_partial`, `Rules.c179_full_fails`.
* **C180 A reconciliation that was accepted ends.** *partial*. The full statement is false: when the server stops, its reconciliations stay as they are for ever, which is proved for all later histories. Proved while it does not stop and no failure goes unrecorded. Theorems: `Rules.c180_partial`, `Rules.c180_stuck`, `Rules.c180_full_fails`.
* **C181 A request is accepted exactly when it is properly filled in.** *proved*. Numbers are meant as a double holds them; requests whose numbers no double can hold are refused as unreadable. Theorems: `Request.c181_accepted_iff`, `Request.c181_refused_iff`, `Request.c181_carried`, `Request.c181_no_item_skipped`, `Request.c181_batch_iff`.
* **C182 A dry run of a refund predicts the refund.** *partial*. The full statement is false: the dry run never looks at the reference of the refund, which another payment may have taken. Proved for free references and without checks of queued totals. Theorems: `Undo.c182_predicts_partial`, `Undo.c182_not_found`, `Undo.c182_error_partial`, `Undo.c182_reference_fails`.
* **C183 What a refund call answers is what it did.** *partial*. The last part is false: with skip_queue a payment may be fetched again after it was refunded, and the call is then answered with an error though the money went back. What answers of success and of nothing found mean is proved for every schedule; that only listed payments are worked on, while no other request interferes. Theorems: `Undo.c183_created`, `Undo.c183_not_found`, `Undo.c183_only_listed`, `Undo.c183_queued_once_partial`, `Undo.c183_error_fails`.
* **C184 A dry run of a commit or void predicts what the call does.** *partial*. The full statement is false: the dry run does not ask whether a hold of a batch was voided, and takes a queued request's row for its hold. Proved where the dry run and the call agree on the holds and none was voided. Theorems: `Undo.c184_predicts_partial`, `Undo.c184_error_partial`, `Undo.c184_voided`, `Undo.c184_voided_hold_fails`, `Undo.c184_queued_id_fails`.
* **C185 A coalesced batch takes along only what waits and belongs with it.** *proved*. each of the three queries may read another database state; rows created at the same time come in any order. Theorems: `Pick.c185_members`, `Pick.c185_once`, `Pick.c185_size`, `Pick.c185_order`, `Pick.c185_no_gap`, `Pick.c185_done`.
* **C186 Coalescing does not let a payment overtake an earlier one of the same account.** *partial*. The full statement is false: payments of the same pair are looked for first, so a payment of the same account to somebody else submitted in between is overtaken, and may find no money. Proved: payments between the same two accounts submitted since the leader are never overtaken, and a batch of the whole account overtakes nothing of it submitted since the leader. Theorems: `Pick.c186_same_pair_partial`, `Pick.c186_source_partial`, `Pick.c186_full_fails`, `Pick.c186_outcome_fails`.
* **C187 The answer to a commit or void of a request tells what became of its holds.** *partial*. The full statement is false: an error does not mean that nothing was settled (with several holds some may be), and success for holds that are still queued does not mean all were looked at. Proved: success with a hold on the books means all are settled, 'nothing' means none was on the books, a call running alone works on each hold exactly once and stores exactly what it reports, and after one hold is closed every later call on the id ends with an error. Theorems: `Undo.c187_settled_partial`, `Undo.c187_nothing_partial`, `Undo.c187_again`, `Undo.c187_alone_partial`, `Undo.c187_error_fails`, `Undo.c187_queued_fails`, `Undo.c187_full_fails`.
* **C188 The dry run of a bulk commit or void says what the batch does.** *partial*. The full statement is false: of an id given twice both items may be shown to apply where one is refused, the note that only one can succeed is wrong for partial commits, and an id standing for a batch is shown to apply but refused. Proved for batches of different ids that are INFLIGHT rows between two accounts, or rows standing for no hold, in every schedule of the pool and with any other requests that do not settle the same holds; the note names exactly the repeated ids. Theorems: `Undo.c188_distinct_partial`, `Undo.c188_batch_partial`, `Undo.c188_note`, `Undo.c188_unknown`, `Undo.c188_full_fails`, `Undo.c188_note_fails`, `Undo.c188_parent_fails`.
* **C189 A coalesced batch is stored whole, however large it is.** *partial*. The full statement is false: the lineage outbox is written by one statement with ten parameters an entry, and PostgreSQL takes 65535, so a batch with more than 6553 entries is refused every time (batches of up to 10000 are allowed). Proved for all batches with at most 6553 entries, any number of accounts and any order of them; in every case either nothing or the whole batch is stored. The limit of 65535 is an assumption about PostgreSQL. Theorems: `Big.c189_stored_partial`, `Big.c189_too_many`, `Big.c189_whole`, `Big.c189_order`, `Big.c189_accounts`, `Big.c189_marked`, `Big.c189_exact`, `Big.c189_full_fails`.
* **C190 A background processor works one batch at a time and not after it has been stopped.** *partial*. That no channel is closed twice and the wait group stays in order is proved for all interleavings. The rest is false when calls overlap: a Start that overtakes a waiting Stop leaves two loops and a Stop that does not return, a Stop that overtakes a Start returns before the loop begins, and after the context is cancelled IsRunning stays true. Proved for calls made one after the other, as the commands make them, with every choice of select. Theorems: `Proc.c190_no_panic`, `Proc.c190_one_partial`, `Proc.c190_stopped_partial`, `Proc.c190_idle_partial`, `Proc.c190_returns_partial`, `Proc.c190_flag_partial`, `Proc.c190_one_fails`, `Proc.c190_stopped_fails`, `Proc.c190_returns_fails`, `Proc.c190_flag_fails`.
* **C191 A commit or void answered "queued" is carried out as it was asked.** *partial*. The full statement is false for ids that stand for several holds or for a QUEUED row: such an id is accepted though all its holds were voided, or for more than any hold has, and is acknowledged though a hold with less left was skipped; a negative amount is taken in for it, given up, and then every later action is answered 'already queued'; a bulk item counts as succeeded when another action waits. Proved: acceptance is exact for the id of a hold, a refusal is always right, an accepted action is kept until it is acknowledged, at most one action exists for an id, a delivery settles exactly the holds that can be settled as asked, and the chain from 'queued' to the settlement for one hold; bulk calls with distinct ids of which none had an action before. Theorems: `Ask.c191_hold`, `Ask.c191_refused`, `Ask.c191_unchanged`, `Ask.c191_waits`, `Ask.c191_kept`, `Ask.c191_one`, `Ask.c191_delivered`, `Ask.c191_carried_partial`, `Ask.c191_already_partial`, `Ask.c191_bulk_partial`, `Ask.c191_accepted_fails`, `Ask.c191_amount_fails`, `Ask.c191_carried_fails`, `Ask.c191_again_fails`, `Ask.c191_already_fails`, `Ask.c191_bulk_fails`.
* **C192 The lineage of a payment says whose money was spent.** *partial*. The full statement is false: after a retry only the last attempt's part is noted, the note is lost by a crash after the last row or a failed statement, a proportional retry notes shares that were not drawn, amounts above 2^53 are rounded, and the id of a queued payment shows nothing. Proved: exact when the first attempt ends well; in every history the note names each provider once, only providers drawn from, and adds up to no more than the payment; for FIFO and LIFO payments every noted amount was drawn; the view shows the note and the rows of the id. Theorems: `Lineage.c192_once_partial`, `Lineage.c192_note_partial`, `Lineage.c192_listed_partial`, `Lineage.c192_view`, `Lineage.c192_child`, `Lineage.c192_retry_fails`, `Lineage.c192_lost_fails`, `Lineage.c192_unwritten_fails`, `Lineage.c192_wrong_fails`, `Lineage.c192_large_fails`, `Lineage.c192_queued_fails`.
* **C193 Tokenize and detokenize calls do what they say for the fields they name.** *partial*. The full statement is false: a refused call has done the fields before the refused one, one value with a colon or one mark written by a client makes a detokenize call without names fail, and of the JSON names only street is understood. Proved for all calls on identities whose marks were made by tokenize calls: exactly which fields are done, when a call succeeds, what is listed, and what each detokenize call answers. Theorems: `Token.c193_does`, `Token.c193_accepts`, `Token.c193_answers`, `Token.c193_listed`, `Token.c193_round_partial`, `Token.c193_half_fails`, `Token.c193_colon_fails`, `Token.c193_names_fails`, `Token.c193_mark_fails`.
* **C194 A split request that the queue could not take whole moves no money.** *partial*. The full statement is false: parts stored before the one that failed stay QUEUED and are paid by recovery after the request was rejected (c194_replayed for every such part, c194_full_fails with a witness). Proved: exactly what is stored and enqueued, that the request itself is never posted, that the stored parts stay stuck, and that recovery leaves them when the request is an atomic item of a bulk. Theorems: `Halves.c194_taken`, `Halves.c194_request_never_posted`, `Halves.c194_legs_left`, `Halves.c194_replayed`, `Halves.c194_bulk_item_partial`, `Halves.c194_full_fails`.
* **C195 Recovery applies no part of an all-or-nothing transaction after another part was rejected.** *partial*. The full statement is false: rejected queue copies stand under the part, not under the id the check looks at. Proved: exactly when the check stops recovery, that no rejection of a queue copy makes it do so, and that it works for rejected requests inside a bulk. Theorems: `Halves.c195_check`, `Halves.c195_blind`, `Halves.c194_bulk_item_partial`, `Halves.c195_full_fails`.
* **C196 Recovery deals with every stuck transaction in the end.** *partial*. The full statement is false: rows that recovery passes over are never counted and stay in the window of the hundred oldest, so a hundred of them keep recovery from everything younger (c196_starved for any number of sweeps). Proved: with m < 100 such rows among the k ahead of it every other stuck row has left after n sweeps once n(100-m) > 4k + 4(100-m), whatever others do meanwhile. Theorems: `Window.c196_leaves_partial`, `Window.c196_starved`, `Window.c196_full_fails`.
* **C197 A recovery call that answers zero means that nothing is stuck.** *partial*. The full statement is false: a failed query answers 0, and a threshold below two minutes is echoed but not used. Proved for thresholds of at least two minutes when the database answers and all metadata can be read. Theorems: `Window.c197_none_partial`, `Window.c197_failed_fails`, `Window.c197_threshold_fails`, `Window.c197_busy_fails`.
* **C198 A reconciliation sees every transaction that was there when it began.** *partial*. The full statement is false: kept pages are not removed when transactions are recorded. Proved: many_to_one sees everything exactly once if transactions are recorded in the order of their times, whatever pages are kept; every strategy does if nothing is recorded while pages are kept and the database answers alike. Theorems: `Recon.c198_in_turn_partial`, `Recon.c198_at_rest_partial`, `Recon.c198_late_fails`, `Recon.c198_hidden_fails`, `Recon.c198_hidden_rows`.
* **C199 A record is matched with money that moved.** *partial*. The full statement is false: no status is asked for, so rejected payments match records, and queued payments count twice in groups. Proved for ledgers in which every row that fits was applied or has a row that was. Theorems: `Recon.c199_settled_partial`, `Recon.c199_rejected_fails`, `Recon.c199_unnoticed`, `Recon.c199_by_reference`, `Recon.c199_group_missed`, `Recon.c199_group_rows`, `Recon.c199_no_empty_group`.
* **C200 A date in a filter stands for the period it names.** *partial*. The full statement is false: only eq uses the period. Proved, for every date of the calendar in every spelling: gte and lt are right, eq is right for days, minutes, seconds, milliseconds and microseconds, every operator is right for moments written to the microsecond; the others compare with the beginning of the period. Theorems: `Filter.c200_partial`, `Filter.c200_start`, `Filter.c200_full_fails`, `Filter.c200_ends_fail`, `Filter.c200_digits_fails`, `Filter.parse_text`, `Filter.precision_text`, `Filter.c200_calendar`, `Filter.c200_days`, `Filter.c200_times`, `Filter.c200_blanks`.
* **C201 A moment is the same in every zone.** *partial*. The full statement is false: the column drops the offset. Proved: only the digits count, so dates with the same offset, or without a zone and with Z, select the same rows. Theorems: `Filter.c201_partial`, `Filter.c201_digits`, `Filter.c201_full_fails`.
* **C202 A filter means the same in the URL and in a body.** *partial*. The full statement is false for eq of a day. Proved for every other operator, and for eq of moments written to the microsecond. Theorems: `Filter.c202_partial`, `Filter.c202_full_fails`.
* **C203 A queued payment that the account covers is paid.** *partial*. The full statement is false: a waiting payment counts against itself. Proved: the exact outcome of any waiting payments in any order; all are paid when the account covers what it owes plus the largest of them once more; the second half of the statement, that nothing past the queue takes the money, in full. Theorems: `Queue.c203_paid_partial`, `Queue.c203_judged`, `Queue.c203_endings`, `Queue.c203_half`, `Queue.c203_kept`, `Queue.c203_full_fails`.
* **C204 Recovery knows of every rejected part.** *partial*. The full statement is false: the page may be old, and shows the newest hundred rows only. Proved: with at most a hundred rows every rejection is seen at once if no page is kept and after the lifetime of both caches otherwise, for every history; recovery never passes over a part without cause (the second half, in full); what a hundred newer rows hide. Theorems: `Sib.c204_late_partial`, `Sib.c204_first_partial`, `Sib.c204_cause`, `Sib.c204_hundred`, `Sib.c204_passed_over`, `Sib.c204_as_modelled`, `Sib.c204_full_fails`, `Sib.c204_large_fails`, `Sib.c204_bound`, `Sib.c204_paid_anyway`.
* **C205 A failed all-or-nothing split leaves nothing behind.** *partial*. The full statement is false for ordinary payments: their refunds are only queued when the error is answered. Proved: holds are as before at the answer; ordinary balances are as before once the refunds were applied, in any order; a success means every part has its row; a part of no units always fails the request; the request refines an atomic bulk. Theorems: `Group.c205_is_bulk`, `Group.c205_holds`, `Group.c205_paid_partial`, `Group.c205_all`, `Group.c205_zero`, `Group.c205_full_fails`, `Group.c205_not_atomic`.
* **C206 A rejected part takes the others back.** *partial*. The full statement is false: parts delivered after the rejection stay. Proved for the parts paid or held up to the rejection, in any history, with coalescing and others acting in between. Theorems: `Group.c206_undone_partial`, `Group.c206_holds_partial`, `Group.undone_once_delivered`, `Group.deliver_leads`, `Group.c206_full_fails`, `Group.c206_stays`, `Group.c206_hold_stays`.
* **C207 Only a pair that is being contended uses the hot lane.** *partial*. The full statement is false. Proved: threshold contentions in a row with each gap below the span, and less than twelve spans since the last contention (five with nothing waiting in the hot lane), both bounds reached; conversely such a row marks the pair; the machine refines the one without a clock. Theorems: `Hot.c207_cause_partial`, `Hot.c207_end_partial`, `Hot.c207_few`, `Hot.c207_span`, `Hot.c207_marked`, `Hot.c207_taken`, `Hot.c207_manager`, `Hot.c207_lane`, `Hot.c207_view_resolve`, `Hot.c207_view_contend`, `Hot.c207_burst_fails`, `Hot.c207_recent_fails`, `Hot.c207_recent_fails_idle`, `Hot.c207_cooling_contended`, `Hot.c207_full_fails`.
* **C208 A successful backup is kept.** *partial*. The full statement is false: objects in the bucket are named by database and time of day only. Proved: on disk a backup is kept unless a later request reads its date for the directory and its time of day for the name; in the bucket unless a later upload has its time of day, and then it is gone. Theorems: `Backup.c208_disk_partial`, `Backup.c208_bucket_partial`, `Backup.c208_disk_days`, `Backup.c208_bucket_lost`, `Backup.c208_broken`, `Backup.c208_upload_failed`, `Backup.base_path`, `Backup.c208_midnight`, `Backup.c208_full_fails`.
* **C209 A Redis address that asks for TLS gets TLS.** *partial*. The full statement is false for addresses the library refuses. Proved for every sound parser: accepted addresses get TLS, alone and among several; refused ones do exactly when the host is one of Azure; certificates are left unchecked only when configured. Theorems: `RedisAddr.c209_tls_partial`, `RedisAddr.c209_tls_lost`, `RedisAddr.c209_verify`, `RedisAddr.c209_cluster_partial`, `RedisAddr.c209_password`, `RedisAddr.goParse_sound`, `RedisAddr.goParse_verify`, `RedisAddr.c209_hash`, `RedisAddr.c209_full_fails`, `RedisAddr.c209_hash_plain`, `RedisAddr.c209_password_fails`, `RedisAddr.c209_cluster_user`.
* **C210 What was accepted can be carried out after a restart with other queue settings.** *partial*. The full statement is false for payments with a date when queues are taken away. Proved: it holds when each restart serves at least the queues served before, always for QUEUED payments, and exactly which dated payments are stranded. Theorems: `Restart.c210_growing_partial`, `Restart.c210_queued_partial`, `Restart.c210_task_partial`, `Restart.c210_exactly`, `Restart.c210_stranded`, `Restart.c210_wider`, `Restart.c210_served_iff`, `Restart.c210_salary`, `Restart.c210_full_fails`, `Restart.c210_two_queues`.
* **C211 Working out a payment changes its two balances and nothing else.** *proved*. Refinement: the methods on pointers do to memory what the functions of Model/Balance do to values, for sequences of payments too; so the value model used elsewhere is right about aliasing. Theorems: `Mem.c211_figures`, `Mem.c211_rest`, `Mem.c211_copy`, `Mem.c211_preview`, `Mem.c211_loaded`, `Mem.c211_shallow`, `Mem.c211_half`, `Mem.c211_alias`.
* **C212 Transactions are sent to hook receivers only at addresses given with the master key.** *proved*. End to end: check of keys, handlers, hook manager and worker; addresses as a taint that only requests with the master key bring in. Theorems: `HookAdmin.c212_calls`, `HookAdmin.c212_stored`, `HookAdmin.c212_master`, `HookAdmin.c212_may`, `HookAdmin.c212_insecure`.
* **C213 A transaction that says it was reconciled was matched, and a matched one says so.** *partial*. What a transaction says is a stored match of itself or of a transaction above it (proved for all histories); refunds and settlements inherit the mark, so the full statement fails. Every matched transaction says so when no mark fails and no process ends early. Theorems: `Marks.c213_family`, `Marks.c213_own_partial`, `Marks.c213_dry`, `Marks.c213_marked_partial`, `Marks.c213_refund`, `Marks.c213_child`, `Marks.c213_lost`, `Marks.c213_full_fails`.
* **C214 A key sees and changes only what its scopes name.** *partial*. The full statement is false: search, included records and dry runs show other kinds. Proved for all requests and scope texts: exactly which scopes let a key see or change which kind of record, and that a key that may only read changes nothing. Theorems: `Routes.c214_seen`, `Routes.c214_changed`, `Routes.c214_seen_iff`, `Routes.c214_changed_iff`, `Routes.c214_scopes_partial`, `Routes.c214_read_only`, `Routes.c214_never`, `Routes.c214_search`, `Routes.c214_balances`, `Routes.c214_clear`, `Routes.c214_full_fails`.
* **C215 After an upgrade the search index takes the records of the new version.** *partial*. The full statement is false: changed types and given-up required fields are not noticed. Proved for all earlier collections and faults: exactly which fields a successful start leaves, that none is removed, that a second start changes nothing, and that every record is taken when the earlier collection only lacked fields. Theorems: `Upgrade.c215_fields`, `Upgrade.c215_kept`, `Upgrade.c215_again`, `Upgrade.c215_taken_partial`, `Upgrade.c215_new`, `Upgrade.c215_stuck`, `Upgrade.c215_retired_fails`, `Upgrade.c215_type_fails`, `Upgrade.c215_full_fails`.
* **C216 The database can be upgraded, whatever happened to earlier upgrades.** *partial*. The full statement is false: see the findings. Proved for all histories: a database with every file recorded is that of a new installation and has all guards; exactly when going up succeeds; going down always succeeds and leaves at most two tables; exactly which stored transactions stop the filling in of effective dates. Theorems: `Migr.c216_same`, `Migr.c216_guards`, `Migr.c216_up_iff`, `Migr.c216_up_partial`, `Migr.c216_down_partial`, `Migr.c216_again`, `Migr.c216_backfill_iff`, `Migr.c216_backfill`, `Migr.c216_stuck`, `Migr.c216_left`, `Migr.c216_unprotected`, `Migr.c216_backfill_fails`, `Migr.c216_full_fails`.
* **C217 Telemetry goes where the settings say, and encrypted where they say so.** *partial*. The full statement is false for metrics: see the findings. Proved: nothing unless switched on; exactly which requests a DSN leads to; where a key can go; a refused DSN changes nothing else; where requests without a key go; traces, logs and monitoring are never in the clear where HTTPS is set. Theorems: `Tele.c217_off`, `Tele.c217_sent`, `Tele.c217_key`, `Tele.c217_refused`, `Tele.c217_project`, `Tele.c217_legacy`, `Tele.c217_own`, `Tele.c217_clear_partial`, `Tele.c217_metrics_clear`, `Tele.c217_legacy_lost`, `Tele.c217_full_fails`.

## Findings outside the property list

Seen while reading the code and not (yet) stated as properties:

* Splits: response ids come in Go's map order; an all-zero list yields no legs and the request is then
  processed as a single transaction with a blank destination; if both lists are given the destinations
  are ignored; a persist failure of an asynchronous split leaves the legs stored before it.
* Metadata flags sent by clients are trusted: `{"inflight": true}` on a queued transaction makes its
  QUEUED row committable, and the recovery counter can be preset.
* Refunds: a REJECTED or QUEUED refund row blocks further
  refunds; a client that uses the reference `<id>_refund` first blocks the refund; the refund of a
  self-transfer never posts.
* A queued transaction is answered before its row is stored.
* An `lte` filter with a date excludes the rest of that day; an invalid `sort_by` in a JSON body is
  silently replaced.
* Lineage: `_shadow_for` in client metadata makes a transaction part of another's settlement.
* Chain: an appended forged link with recomputed head also verifies; DELETE is not prevented.
* Reconciliation: an error of the fetching goroutine races with the end of the walk (`select` on two
  ready channels) and may be overlooked, or leave workers sending on a closed channel, which panics;
  `many_to_one` stores internal ids in `unmatched.external_transaction_id`; pages of internal
  transactions are cached for an hour; a fetching goroutine leaks once all workers have matched.
* Uploads: a CSV row the reader rejects after the context has ended may be sent on a closed channel, which
  panics; a download over the size limit is cut and, for CSV, stored up to the cut.
* An update of a matching rule is answered with a new `updated_at` that is not stored
  (`database/reconciliation.go:507-509`); no request shows the stored one.
* A completed reconciliation is announced to webhooks and the search index before the statement that
  completes it (`reconciliation.go:601-612`).
* A coalesced batch looks for payments of the same pair first (`transaction_coalescing.go:302-318`), so a payment
  of the same account to somebody else that was submitted in between is overtaken; with little money in the account
  the later payment goes through and the earlier one is rejected (C186).
* A commit of one amount for an id with several holds takes the amount from each; if one is too small the client gets
  an error while the others are committed (C187, `c187_error_fails`). A hold keeps status INFLIGHT for ever, so a retry
  works on the settled holds again and always ends with an error, even when it settles the rest (`c187_again`).
* The dry run of a bulk commit or void notes for a repeated id that "only one of them can succeed"
  (`api/transactions.go:764-768`). Two commits of part of a hold both succeed; and two that are shown to apply may
  together be too much (C188, `c188_note_fails`, `c188_full_fails`). An id that stands for a batch is expanded by the dry run
  but not by the batch with `skip_queue` (`c188_parent_fails`).
- **Large coalesced batches.** Balances are written in chunks of 1000 (`database/balance.go:36`), the lineage outbox in
  one statement with ten parameters an entry (`database/lineage.go:182-212`). With more than 6553 entries that statement
  exceeds what PostgreSQL takes, the batch is refused, its leader is posted alone, and the next leader tries the large
  batch again (C189, `c189_too_many`, `c189_full_fails`). `maxQueuedCoalescingBatchSize` is 10000.
- **Starting and stopping the processors.** `run` reads `p.stopCh` anew in every round without the mutex, and `wg.Add(1)`
  comes after the mutex is released (`chain_worker.go:82-84`, `:122`). A `Start` while a `Stop` waits gives two loops, and
  that `Stop` waits until the processor is stopped again; a `Stop` between the two returns before the loop begins; a
  cancelled context leaves `running` set, so that `Start` does nothing (C190, `c190_*_fails`). The commands call them one
  after the other, for which all is proved.
- **Commits and voids through the queue.** For an id that is no hold itself the pre-check looks only at what was committed
  of the holds under it, not at voids nor at the amount (`transaction_inflight.go:780-793`, `:815-826`): a commit is
  accepted when all were voided, or for more than any has, and is acknowledged when a hold with too little left was
  skipped. A negative amount is taken in for such an id; the worker fails on it until the task is archived, and then every
  later action of the id is answered "already queued". A bulk item counts as succeeded when an action of the other kind waits
  (`api/transactions.go:896-898`). The id of a hold that went through the queue is accepted again after the hold was
  settled (C191, `c191_*_fails`). For the id of a hold itself all is proved.
- **The lineage of a payment shows what the last attempt allocated** (`lineage_allocation_metadata.go:28-44`). After a retry
  the part drawn by an earlier attempt is missing from `fund_allocation`; the note is lost when the process dies after the
  last row (the retry finds nothing left to do) or when the statement fails (only logged). A retry of a proportional debit
  notes a share of a provider that it skipped. Amounts above 2^53 are rounded. A payment that went through the queue has
  note and rows under the id of the copy; the id the client was given shows nothing (C192, `c192_*_fails`).
- **A tokenize call refused for one field has done the fields before it** (`identity.go:267-275`, `c193_half_fails`). Of the
  JSON names of fields only `street` is understood (`c193_names_fails`). One value with a colon, or one mark that a client
  wrote into `tokenized_fields` for a field without a token, and a detokenize call without names fails for all fields
  (`c193_colon_fails`, `c193_mark_fails`).
- **A split request that is REJECTED may still be paid in part** (`transaction_queue.go:136-163`, `c194_full_fails`,
  `c194_replayed`). The parts are stored one by one; when one cannot be stored (an unknown account, a used reference) the
  error is only traced, the parts before it stay QUEUED without a task, and the request itself is enqueued, which no worker
  can post (`c194_request_never_posted`). The client sees REJECTED; recovery later pays the stored parts.
- **Recovery does not see that another part of an atomic request was rejected** (`queue_recovery.go:183-199`,
  `c195_full_fails`, `c195_blind`): it looks for REJECTED rows under the request's id, but a part is rejected as a queue copy,
  whose parent is the part. Only a rejected request inside a bulk is found (`c194_bulk_item_partial`).
- **A hundred rows that recovery passes over stop recovery for everybody** (`queue_recovery.go:137`, `c196_starved`,
  `c196_full_fails`). Items of an atomic bulk with a REJECTED row under the bulk are passed over and not counted, so they stay
  the oldest; each sweep reads the oldest hundred only. With fewer than a hundred such rows everything else leaves, with a
  bound on the number of sweeps (`c196_leaves_partial`).
- **`recovered: 0` can mean that the database did not answer, or that a larger threshold was used than the one named**
  (`c197_failed_fails`, `c197_threshold_fails`); a number above zero can mean that nothing was done (`c197_busy_fails`).
- **A grouped reconciliation does not see what was recorded in the last five minutes if another one ran before**
  (`database/transaction_grouping.go:152-160`, `reconciliation.go:980`; `c198_hidden_fails`, `c198_hidden_rows`). Kept pages are
  not removed when transactions are recorded, and the offset goes on by the page size, past the rows that a short page lacks.
  `many_to_one` goes on by the rows it got and so loses nothing as long as transactions are recorded in the order of their
  times (`c198_in_turn_partial`); one that is recorded late is passed over and another handed out twice (`c198_late_fails`).
- **Reconciliation matches records with payments that were rejected** (`database/transaction_criteria.go:37-42`, `c199_rejected_fails`):
  no query asks for a status. Under exact rules a record that any row fits, queued or rejected, is never reported unmatched
  (`c199_unnoticed`). Payments that went through the queue are in the ledger twice, so the group of an account adds up to the double
  and a record of the true total does not fit it (`c199_group_missed`); by reference only the QUEUED row is found
  (`c199_by_reference`).
- **`created_at_lte` and the end of `between` leave out the day that is written, `gt` takes it in**
  (`internal/filter/sql_builder.go:142-197`; `c200_full_fails`, `c200_ends_fail`): only `eq` uses the period of a date, all other operators
  compare with its first moment (`c200_start`). A tenth of a second counts as a millisecond and four digits as three (`c200_digits_fails`).
- **The zone of a date in a filter is ignored** (`c201_digits`, `c201_full_fails`): the driver sends the digits with their offset, and a
  `TIMESTAMP` column drops the offset.
- **`created_at` equal to a day selects the day in the URL and only midnight in a JSON body** (`api/filter_helper.go:118-121`,
  `c202_full_fails`): dates of a body stay texts.
- **With queued checks on, a queued payment needs its money twice** (`database/transaction_queue.go:34-55`, `model/model.go:165-176`;
  `Queue.c203_full_fails`, `Queue.c203_half`): the row of the payment still counts as waiting while its copy is judged, so a payment of more than
  half of what the account has is always rejected. `Queue.c203_endings` gives the outcome of every set of waiting payments in every order.
- **Recovery may not know that a part was rejected** (`database/transaction_queue.go:128-145`, `:205-209`, `queue_recovery.go:191`;
  `Sib.c204_full_fails`, `Sib.c204_bound`, `Sib.c204_large_fails`, `Sib.c204_paid_anyway`): the page it looks at is kept for five minutes in Redis and
  another in each process and nothing drops it when a part is rejected; and it is the newest hundred rows only, so a rejected row with a hundred
  newer ones is not seen however long recovery waits. `Sib.c204_late_partial` gives the bound for smaller requests.
- **An all-or-nothing split is only undone as far as it had come** (`transaction_rejection.go:69-76`, `cmd/workers.go:154-165`; `Group.c206_full_fails`,
  `Group.c206_stays`, `Group.c206_hold_stays`): a rejected part takes back the parts paid by then; a part delivered afterwards is paid, or held, and stays.
- **The error of an all-or-nothing payment with `skip_queue` comes before the money is back** (`transaction_queue.go:240-244`; `Group.c205_full_fails`):
  the parts already paid are refunded through the queue. Holds are released before the answer (`Group.c205_holds`). A part of no units always makes
  the request fail (`Group.c205_zero`), and without `atomic` the parts before it stay paid (`Group.c205_not_atomic`).
- **hot_pair_ttl bounds neither how close contentions must be nor how long a pair stays hot** (`internal/hotpairs/hotpairs.go:107-111`, `:144-161`, `:192-194`;
  `Hot.c207_burst_fails`, `Hot.c207_recent_fails`, `Hot.c207_recent_fails_idle`): each contention renews the counter, so three contentions over nearly two spans
  promote; a pair can take the hot lane until just before twelve spans after its last contention (the bound of `Hot.c207_end_partial`), five with nothing waiting there.
  A pair contended again while it cools down is sent back to the normal lane all the same (`Hot.c207_cooling_contended`).
- **A daily backup to S3 overwrites the one of the day before** (`internal/pg-backups/pg-backup-drive.go:187-195`; `Backup.c208_full_fails`, `Backup.c208_bucket_lost`):
  the key of the object is the database name and the time of day, without the date, so two uploads at the same second of two days leave one object.
- **A backup just before midnight can overwrite the one of the midnight before** (`internal/pg-backups/pg-backup-drive.go:126`, `:135`; `Backup.c208_midnight`):
  the clock is read once for the directory and once for the name. A failed dump breaks an earlier file of the same name (`Backup.c208_broken`).
- **A rediss:// address with a special character in the password is connected to in the clear** (`internal/redis-db/redisdb.go:66-93`; `RedisAddr.c209_full_fails`,
  `RedisAddr.c209_tls_lost`): what the library refuses is read by hand, where only Azure hosts get TLS and everything before the `@`, scheme included, is sent as
  the password. For `redis://:…` the password keeps its colon (`RedisAddr.c209_hash_plain`). A password alone is understood after `redis://` but not after
  `rediss://` (`RedisAddr.c209_password_fails`), and with several addresses the user is dropped (`RedisAddr.c209_cluster_user`).
- **A scheduled payment is lost when the number of queues is reduced** (`cmd/workers.go:349-380`, `database/transaction_recovery.go:42`; `Restart.c210_full_fails`,
  `Restart.c210_salary`): its task stays in a queue that no worker consumes and recovery looks for QUEUED rows only, so it is never carried out
  (`Restart.c210_stranded`, `Restart.c210_exactly`). QUEUED payments are picked up after two hours. When the number changes at all, waiting and new payments of
  one source may be in two queues (`Restart.c210_two_queues`).
With secure mode off hooks cannot be managed at all, even with the master key: the check of keys returns before it looks at the key, so no request is marked as the master's (C212 `c212_insecure`).
A refund or settlement of a reconciled transaction takes its metadata over and so says that it was itself matched with the external record; marks are also merged into the rows under a matched transaction. Marks lost by a failure or the end of the process are not written again (C213 `c213_refund`, `c213_child`, `c213_lost`).
Scopes give more and less than they say: search:write, balances:read, accounts:read and accounts:write show identities; identities:read shows the clear text of tokenized values; backup:read makes backups; listing with a filter in the body needs write. No key can update metadata, take snapshots or back up to S3, whatever its scopes, because the first path segment of those routes names no resource (C214 `c214_seen_iff`, `c214_changed_iff`, `c214_search`, `c214_clear`, `c214_never`).
Upgrading the search collections compares names only: a field whose type changed keeps its old type and a required field that was given up stays, so a start reports success and every later document of that collection is refused. A given-up required field in `ledgers` makes every start fail before anything is migrated, because the general ledger is put first (C215 `c215_type_fails`, `c215_retired_fails`, `c215_stuck`).
`sql/1712749737.sql` has no way down and creates its triggers without a guard: a `migrate down` that ends among the first four files leaves a database on which no `migrate up` succeeds, until it is taken down to the end. `migrate down` leaves `unmatched` and `lineage_outbox` with their rows, so that waiting lineage entries outlive the transactions they belong to. Undoing `sql/1742400213.sql` removes the protection of transactions that an earlier file had put there. `sql/1766887982.sql` fills in effective dates while the trigger of that time compares with `=`: one transaction without an effective date and with an empty compared column stops the upgrade (C216 `c216_up_iff`, `c216_left`, `c216_unprotected`, `c216_backfill_iff`).
`newMeterProvider` passes `WithInsecure` for every endpoint of the environment: with `OTEL_EXPORTER_OTLP_ENDPOINT=https://…` traces go over HTTPS and metrics to the same host in the clear. The project of a monitoring DSN is required and never sent. `BLNK_CLOUD_DSN`, which `FromEnv` reads, has no effect: the server only uses `monitoring_dsn` (C217 `c217_metrics_clear`, `c217_project`, `c217_legacy_lost`).
A web address after the word Bearer is sent with its password: the scheme is taken for the token, and what is left is no address (C145 `c145_user_fails`).
## Axioms

As reported by `#print axioms` for every theorem named in MANIFEST.json.

* none: `Queue.c34_split_lanes_differ`, `Lineage.c38_full_fails`, `Chain.c43_unprotected_fails`, `Auth.c47_revoke`, `Auth.c63_full_fails`, `Auth.c63_wei_fails`, `Auth.c63_small_partial`, `Press.c132_lost_fails`, `Front.c142_refused`, `Views.c166_violated`, `Hot.c207_lane`.
* `propext`: `Queue.c34_switch_only_when_drained`, `Queue.c34_full_fails`, `Queue.c34_error_fails`, `Queue.c34_race_fails`, `Lineage.c36_full_fails`, `Lineage.c37_proportional_fails`, `Lineage.c37_hold_fails`, `Lineage.c37_receive_lost`, `Lineage.c37_unprepared_lost`, `Lineage.c37_late_credit_fails`, `Chain.c42_row_text_fails`, `KeyCache.c46_full_fails`, `KeyCache.c46_race_fails`, `KeyCache.c46_two_servers_fails`, `KeyCache.c46_failed_deletion_fails`, `Auth.c47_list`, `Filter.c66_sort_fails`, `Filter.c68_partial`, `Snap.c70_figures_kept`, `Snap.c70_metadata_can_change_partial`, `Snap.c70_full_fails`, `Recon.c75_second_upload_gets_first`, `Upload.c80_json_truncated`, `Hooks.c93_update_fails`, `Hooks.c93_delete_fails`, `Hooks.c94_twice_fails`, `Hooks.c95_update_fails`, `Hooks.c97_status_fails`, `Web.c99_hook_fails`, `Web.c100_rename_fails`, `Web.c101_off_partial`, `Web.c101_dropped_fails`, `Srch.c104_hold_fails`, `Srch.c104_version_fails`, `Srch.c105_general_fails`, `Srch.c105_recon_fails`, `Srch.c107_refused_fails`, `Srch.c107_meta_fails`, `Srch.c107_drop_fails`, `Reidx.c109_recon_fails`, `Reidx.c109_deleted_fails`, `Reidx.c109_ties_fails`, `Reidx.c109_refused_fails`, `Reidx.c109_second_fails`, `Reidx.c110_pages_fails`, `Reidx.c110_total_fails`, `Reidx.c111_requests_fails`, `Reidx.c111_startup_fails`, `Reidx.c112_emptied_fails`, `Reidx.c112_lost_fails`, `Reidx.c113_overtaken_fails`, `Press.c132_full_fails`, `Down.c138_full_fails`, `Down.c139_whole_partial`, `Down.c139_rows_fail`, `Csv.c141_full_fails`, `Csv.c141_mark_fails`, `Front.c142_workers`, `Export.c145_user_fails`, `Export.c145_doubled_fails`, `Export.c145_address_fails`, `Export.c145_full_fails`, `Export.c146_full_fails`, `Export.c146_quiet_partial`, `Export.c146_open_partial`, `Export.c146_drains`, `Book.c155_full_fails`, `Lists.c159_refused_iff`, `Lists.c159_all_shown`, `Lists.c159_nonsense_accepted`, `Lists.c161_array_iff_partial`, `Lists.c161_violated`, `Lists.c162_url_order`, `Lists.c162_no_column`, `Lists.c162_unknown`, `Views.c166_same_but_partial`, `Views.c166_same_iff`, `Hot.c207_recent_fails_idle`, `Hot.c207_cooling_contended`, `Backup.c208_upload_failed`, `Backup.base_path`, `Backup.c208_midnight`, `RedisAddr.c209_verify`, `RedisAddr.goParse_verify`, `RedisAddr.c209_hash`, `RedisAddr.c209_full_fails`, `RedisAddr.c209_hash_plain`, `RedisAddr.c209_password_fails`, `RedisAddr.c209_cluster_user`, `Marks.c213_refund`, `Marks.c213_child`, `Marks.c213_lost`, `Migr.c216_left`, `Migr.c216_unprotected`, `Migr.c216_backfill_fails`, `Migr.c216_full_fails`, `Tele.c217_off`, `Tele.c217_legacy`, `Tele.c217_legacy_lost`, `Tele.c217_full_fails`.
* `Quot.sound`, `propext`: `c12_race_loser_refused`, `Bulk.c27_counts_add_up`, `Lock.c16_exclusive_until_expiry`, `Lock.c16_free_after_expiry_or_release`, `Lock.c18_leak_is_bounded`, `Queue.c33_number_in_range`, `Queue.c33_queue_is_served`, `Queue.c34_single_lane_partial`, `Lineage.c35_total`, `Lineage.c35_within`, `Lineage.c36_all_partial`, `Lineage.c36_within`, `Lineage.c37_releases_partial`, `Lineage.c37_receives_partial`, `Lineage.c38_never_stuck_partial`, `Chain.c43_immutable`, `Chain.c43_refused_whole`, `Chain.c43_metadata_only`, `KeyCache.c46_quiet_partial`, `KeyCache.c46_bounded_partial`, `Trig.c71_reconciliation_repairs`, `Mon.c52_unknown_field_never_fires`, `Mon.c72_update_keeps_threshold`, `Upload.c80_json_partial`, `Upload.c81_hangs_for_good`, `Hooks.c93_update_partial`, `Hooks.c93_delete_partial`, `Hooks.c93_nothing_made_up`, `Hooks.c94_stage_partial`, `Hooks.c96_not_queued_fails`, `Hooks.c96_unlisted_fails`, `Hooks.c96_no_timeout_fails`, `Hooks.c97_answer_partial`, `Web.c98_content_partial`, `Web.c98_wide_fails`, `Web.c100_once_partial`, `Web.c100_twice_fails`, `Web.c100_silent_fails`, `Web.c101_accepted_partial`, `Srch.c102_wide_fails`, `Srch.c105_known_partial`, `Srch.c106_overtaken_fails`, `Srch.c106_tokenized_fails`, `Srch.c106_deleted_fails`, `Srch.c106_owner_fails`, `Srch.c106_queued_fails`, `Srch.c108_given_up`, `Srch.c108_dead_stays`, `Reidx.c110_counts_partial`, `Press.c132_prefix_partial`, `Down.c139_amount_fails`, `Down.c139_full_fails`, `Down.c140_text_fails`, `Down.c140_json_fails`, `Down.c140_full_fails`, `Front.c142_shown`, `Front.c143_form_fails`, `Front.c143_upload_fails`, `Front.c143_full_fails`, `Front.c143_partial`, `Export.c144_hidden_partial`, `Export.c144_kept`, `Export.c144_struct_fails`, `Export.c144_full_fails`, `Export.c145_query_partial`, `Export.c145_query_hidden_partial`, `Export.c145_sent_partial`, `Export.c145_bearer_partial`, `Export.c145_user_partial`, `Export.c145_unreadable`, `Export.c145_url_kept`, `Export.c146_entries`, `Book.c155_partial`, `Book.c155_shifted`, `Lists.c158_endless`, `Lists.c160_violated`, `Lists.c162_body_order_partial`, `Lists.c162_url_ignored`, `Views.c163_shown_partial`, `Views.c163_fields_iff_partial`, `Views.c163_flags`, `Views.c163_never_shown`, `Views.c163_precision_lost`, `Views.c163_effective_date_lost`, `Views.c163_metadata_lost`, `Views.c164_same_but_partial`, `Views.c164_same_iff`, `Views.c164_violated`, `Views.c165_inflight_partial`, `Views.c165_violated`, `Big.c189_accounts`, `Proc.c190_no_panic`, `Proc.c190_one_fails`, `Proc.c190_stopped_fails`, `Proc.c190_returns_fails`, `Proc.c190_flag_fails`, `Ask.c191_unchanged`, `Ask.c191_waits`, `Ask.c191_already_partial`, `Ask.c191_bulk_partial`, `Lineage.c192_listed_partial`, `Lineage.c192_retry_fails`, `Lineage.c192_lost_fails`, `Lineage.c192_unwritten_fails`, `Lineage.c192_wrong_fails`, `Lineage.c192_large_fails`, `Token.c193_listed`, `Window.c197_none_partial`, `Window.c197_failed_fails`, `Recon.c198_in_turn_partial`, `Recon.c198_hidden_rows`, `Recon.c199_group_rows`, `Recon.c199_no_empty_group`, `Filter.precision_text`, `Sib.c204_late_partial`, `Sib.c204_first_partial`, `Sib.c204_cause`, `Sib.c204_full_fails`, `Sib.c204_bound`, `Hot.c207_span`, `Hot.c207_marked`, `Hot.c207_taken`, `Hot.c207_manager`, `Hot.c207_view_resolve`, `Hot.c207_view_contend`, `Hot.c207_burst_fails`, `Hot.c207_recent_fails`, `Hot.c207_full_fails`, `Backup.c208_disk_partial`, `Backup.c208_bucket_partial`, `Backup.c208_bucket_lost`, `Backup.c208_broken`, `Restart.c210_growing_partial`, `Restart.c210_queued_partial`, `Restart.c210_task_partial`, `Restart.c210_stranded`, `Restart.c210_wider`, `Restart.c210_salary`, `Restart.c210_full_fails`, `Restart.c210_two_queues`, `Mem.c211_loaded`, `Marks.c213_full_fails`, `Migr.c216_same`, `Migr.c216_guards`, `Migr.c216_up_iff`, `Migr.c216_up_partial`, `Migr.c216_down_partial`, `Migr.c216_again`, `Migr.c216_backfill`, `Migr.c216_stuck`, `Tele.c217_sent`, `Tele.c217_project`, `Tele.c217_metrics_clear`.
* `propext`, `Classical.choice`, `Quot.sound`: the other 747 theorems.
