{"id": "C01", "title": "Every posting is double-entry: total debits equal total credits", "statement": "After any history of accepted and refused postings, holds, commits and voids, the sum of debit_balance over all balances equals the sum of credit_balance over all balances, the same holds for the inflight debit and credit columns, and therefore the sum of all balances is zero when it started at zero.", "quantifier": "all sequences of postings (plain, inflight hold, commit, void) over any number of balances, with any amounts, precisions and overdraft flags", "why_tests_cant": "A test fixes a handful of postings; conservation must survive every sequence, including sequences with refusals in the middle.", "anchors": ["model/model.go:UpdateBalances", "model/model.go:addDebit", "model/model.go:addCredit", "model/model.go:CommitInflightDebit", "model/model.go:RollbackInflightDebit", "transaction_execution.go:applyTransactionToBalances"]}
{"id": "C02", "title": "Reported balance is always credits minus debits", "statement": "For every balance the API can return, balance = credit_balance - debit_balance and inflight_balance = inflight_credit_balance - inflight_debit_balance, after every posting, commit or void.", "quantifier": "all histories of operations and all balances", "why_tests_cant": "The derived columns are stored, not computed on read; a missed recomputation on one branch would only show in the history that takes that branch.", "anchors": ["model/model.go:computeBalance", "model/model.go:CommitInflightDebit", "model/model.go:CommitInflightCredit", "model/model.go:RollbackInflightCredit", "model/model.go:RollbackInflightDebit"]}
{"id": "C03", "title": "No posting overdraws a source that did not allow it", "statement": "A posting or hold without allow_overdraft and without an overdraft limit is accepted exactly when the source's spendable amount (balance minus money on hold minus queued debits when loaded) covers it; so such a posting never leaves spendable funds negative.", "quantifier": "all balances, all amounts, all histories of postings and holds without overdraft", "why_tests_cant": "The boundary and the interaction with holds ranges over unbounded integers and unbounded histories.", "anchors": ["model/model.go:canProcessTransaction", "model/model.go:UpdateBalances"]}
{"id": "C04", "title": "An overdraft limit is a hard floor", "statement": "When a posting carries a positive overdraft limit and unlimited overdraft is not granted, it is accepted only if spendable funds after it are at or above minus the limit expressed in minor units; when it would go below, it is refused with the overdraft-limit error and nothing changes.", "quantifier": "all balances, amounts, precisions and limits", "why_tests_cant": "The floor is computed from a rational limit times precision with rounding; a test checks sample points only.", "anchors": ["model/model.go:canProcessTransaction"]}
{"id": "C05", "title": "A refused posting has no effect on any balance", "statement": "If a posting, hold, commit or void is refused with an error at any stage (validation, funds, overdraft, commit amount, duplicate reference, version conflict), every stored balance and the transaction table are exactly as before.", "quantifier": "all states, all requests, all refusal reasons", "why_tests_cant": "Each refusal path must be shown effect-free from every state.", "anchors": ["transaction_execution.go:applyTransactionToBalances", "model/model.go:UpdateBalances", "database/transaction.go:RecordTransactionWithBalancesAndOutbox"]}
{"id": "C06", "title": "Posting amounts are strictly positive", "statement": "No posting with a non-positive minor-unit amount ever changes a balance; consequently credit_balance and debit_balance of every balance never decrease over any history of postings.", "quantifier": "all histories, all amounts including negative and zero", "why_tests_cant": "Monotonicity is a statement over unbounded histories.", "anchors": ["model/model.go:validate", "model/model.go:UpdateBalances", "transaction_execution.go:buildTransactionExecutionWork"]}
{"id": "C07", "title": "Decimal amounts convert to minor units exactly", "statement": "An amount with no more decimal places than the precision is converted to minor units without error and converting back returns the same amount; otherwise the result is the nearest integer, halves away from zero, never off by more than one half.", "quantifier": "all rational amounts and all positive integer precisions", "why_tests_cant": "Rounding laws over all rationals are not testable by sampling.", "anchors": ["model/model.go:ApplyPrecision", "model/model.go:convertDecimalToPrecise", "model/model.go:convertPreciseToDecimal"]}
{"id": "C08", "title": "A caller-supplied minor-unit amount is authoritative", "statement": "If precise_amount is given and positive, it is what is moved, whatever amount says, and the reported amount is recomputed from it; applying the conversion twice gives the same result as once.", "quantifier": "all transactions, amounts and precisions", "why_tests_cant": "Idempotence on all inputs.", "anchors": ["model/model.go:ApplyPrecision"]}
{"id": "C09", "title": "Posting is all-or-nothing at every crash point", "statement": "If the process dies or any statement fails at any point while a posting is being persisted, then either the transaction row, both balance updates and its lineage outbox entry are all visible afterwards, or none of them is.", "quantifier": "all crash points and failing statements, all initial database states", "why_tests_cant": "The crash point ranges over every statement boundary.", "anchors": ["database/transaction.go:RecordTransactionWithBalancesAndOutbox", "database/balance.go:updateBalance"]}
{"id": "C10", "title": "No lost updates under any interleaving", "statement": "With any number of concurrent workers, each reading two balances and later writing them back with an optimistic version check, under any interleaving and with no mutual exclusion at all, the stored balances equal the result of applying exactly the transactions that committed, one after the other, in commit order; and each balance version equals the number of committed updates of it.", "quantifier": "all interleavings of reads and writes of any number of workers, all balances and amounts", "why_tests_cant": "Tests sample a few schedules; lost updates live in rare ones.", "anchors": ["database/balance.go:updateBalance", "database/transaction.go:RecordTransactionWithBalancesAndOutbox", "transaction_execution.go:recordTransactionSingle"]}
{"id": "C11", "title": "No overdraft even under races", "statement": "If every committed posting was checked against the values it read, then under every interleaving no committed posting without overdraft ever left a source with negative spendable funds at the moment it committed.", "quantifier": "all interleavings of concurrent postings", "why_tests_cant": "Check-then-act races depend on the schedule.", "anchors": ["model/model.go:canProcessTransaction", "database/balance.go:updateBalance"]}
{"id": "C12", "title": "A reference is used at most once", "statement": "Over any history of concurrent submissions, retries and crashes, at most one stored transaction carries a given non-null reference, and the second submission is refused without effect.", "quantifier": "all histories and interleavings of submissions with repeated references", "why_tests_cant": "The pre-check races with the insert; only the unique index closes the race, on every schedule.", "anchors": ["transaction_execution.go:validateTxn", "database/transaction.go:recordTransactionInTx", "sql/1770611011.sql", "transaction_execution.go:IsDuplicateReferenceError"]}
{"id": "C13", "title": "Moving money from a balance to itself", "statement": "A posting whose source and destination are the same balance either has the same outcome whichever execution path (one-by-one or coalesced batch) picks it up, or is refused by both.", "quantifier": "all balances, amounts, both execution paths", "why_tests_cant": "Path selection depends on queue contents at run time.", "anchors": ["database/transaction.go:RecordTransactionWithBalancesAndOutbox", "transaction_coalescing.go:coalescingBalancesForTransaction", "transaction_dryrun.go:sameBalanceErr"]}
{"id": "C14", "title": "Coalesced batches equal one-by-one processing", "statement": "Processing a batch of queued transactions in one database transaction leaves exactly the balances that posting its members one by one in the same order would leave, and if any member would be refused the batch has no effect at all.", "quantifier": "all batches, all initial balances", "why_tests_cant": "Equivalence over all batches of all sizes.", "anchors": ["transaction_coalescing.go:persistQueuedTransactionBatchLocked", "transaction_coalescing.go:prepareQueuedBatchTransaction", "database/transaction.go:RecordTransactionsWithBalanceSetAndOutboxes"]}
{"id": "C15", "title": "Coalesced batches never repeat a reference", "statement": "Every batch that is persisted has pairwise distinct, non-empty references none of which was stored before.", "quantifier": "all batches and all stored reference sets", "why_tests_cant": "All sets of references.", "anchors": ["transaction_coalescing.go:validateQueuedBatchTransactionReference", "transaction_coalescing.go:queuedBatchReferenceSets"]}
{"id": "C16", "title": "A held lock excludes every other holder until it expires", "statement": "While a lock is held and its time-to-live has not elapsed, no other client can acquire it, extend it or release it; releasing with a wrong token has no effect.", "quantifier": "all interleavings of lock, unlock, extend and clock ticks by any clients", "why_tests_cant": "Interleavings are unbounded.", "anchors": ["internal/lock/lock.go:Lock", "internal/lock/lock.go:Unlock", "internal/lock/lock.go:ExtendLock"]}
{"id": "C17", "title": "Multi-balance locking cannot deadlock", "statement": "When any number of workers each acquire the locks of their balances through the multi-lock, there is never a cycle of workers each waiting for a lock held by the next: in every reachable state where somebody waits, some lock holder is not waiting.", "quantifier": "all sets of workers, all key sets, all interleavings", "why_tests_cant": "Deadlock freedom quantifies over all schedules and key sets.", "anchors": ["internal/lock/lock.go:NewMultiLocker", "internal/lock/lock.go:MultiLocker.Lock", "internal/lock/lock.go:MultiLocker.WaitLock"]}
{"id": "C18", "title": "A failed multi-lock leaves nothing locked; a released one frees everything", "statement": "If acquiring the set of locks fails part-way, every lock taken by the attempt is free again and no other lock is touched; after releasing a multi-lock, none of its keys is held by it.", "quantifier": "all key lists (with duplicates and blanks), all lock states, all failure positions", "why_tests_cant": "Failure position and prior lock state range over everything.", "anchors": ["internal/lock/lock.go:MultiLocker.Lock", "internal/lock/lock.go:rollback", "internal/lock/lock.go:MultiLocker.Unlock"]}
{"id": "C19", "title": "Splits add up to the whole", "statement": "When a transaction is split over several sources or destinations, the leg amounts add up exactly to the transaction's minor-unit amount.", "quantifier": "all totals, precisions and distribution lists (fixed, percentage, left) the API accepts", "why_tests_cant": "The rounding and remainder logic ranges over all lists.", "anchors": ["model/transaction.go:CalculateDistributionsPrecise", "model/transaction.go:balanceDistributions", "model/transaction.go:combineDistributions"]}
{"id": "C20", "title": "No split leg is negative", "statement": "Every leg produced by an accepted split is non-negative.", "quantifier": "all accepted distribution lists with non-negative entries", "why_tests_cant": "The combination of fixed, percentage and left entries is unbounded.", "anchors": ["model/transaction.go:validateDistributions", "model/transaction.go:processLeftDistribution", "model/transaction.go:CalculateDistributionsPrecise"]}
{"id": "C21", "title": "Split legs are complete, distinct and traceable", "statement": "Splitting yields exactly one leg per listed party, in order; each leg keeps the currency, status and counterparty of the original, carries the original as parent, and all leg references derived from one transaction are distinct.", "quantifier": "all transactions with sources or destinations lists", "why_tests_cant": "All list lengths and identifiers.", "anchors": ["model/transaction.go:SplitTransactionPrecise", "transaction_queue.go:updateSplitTransactions"]}
{"id": "C22", "title": "An inflight transaction is never committed for more than its amount", "statement": "Over any history of full and partial commits and voids (including concurrent ones serialised by the per-transaction lock and failed ones), the sum committed never exceeds the held amount.", "quantifier": "all sequences and interleavings of commit (any amount) and void requests", "why_tests_cant": "Unbounded number of partial commits.", "anchors": ["transaction_inflight.go:validateRequestedAmount", "transaction_inflight.go:checkTransactionCommitStatus", "database/transaction_inflight.go:GetTotalCommittedTransactions", "transaction_inflight.go:CommitInflightTransactionWithRef"]}
{"id": "C23", "title": "Void releases exactly what was not committed", "statement": "Voiding returns precisely the uncommitted remainder of the hold; after a void or full commit, what was committed plus what was released equals the original hold and the hold's contribution to the inflight columns of both balances is zero.", "quantifier": "all histories of partial commits followed by a void or full commit", "why_tests_cant": "Unbounded histories.", "anchors": ["transaction_inflight.go:finalizeVoidTransaction", "transaction_inflight.go:calculateRemainingAmount", "model/model.go:RollbackInflightDebit", "model/model.go:RollbackInflightCredit"]}
{"id": "C24", "title": "Voided and fully committed are final", "statement": "After a void, every later commit or void of that transaction is refused; after the full amount is committed, every later commit or void is refused.", "quantifier": "all later sequences of requests", "why_tests_cant": "Quantifies over all futures.", "anchors": ["transaction_inflight.go:fetchAndValidateInflightTransaction", "database/transaction_queries.go:IsParentTransactionVoid", "transaction_inflight.go:checkTransactionCommitStatus"]}
{"id": "C25", "title": "A queued commit or void takes effect at most once", "statement": "However many times a queued commit/void with the same action id is delivered, redelivered after a crash, or repeated, each leg is settled at most once by it.", "quantifier": "all delivery counts and crash points", "why_tests_cant": "At-least-once delivery gives unbounded repetitions.", "anchors": ["transaction_inflight.go:inflightActionReference", "transaction_inflight.go:applyInflightActionToLeg", "transaction_inflight.go:RunInflightActionByParent", "queue.go:EnqueueInflightAction"]}
{"id": "C26", "title": "Settlement cannot fail for lack of funds", "statement": "Once a hold was accepted, committing any part of the remainder always succeeds arithmetically, whatever other postings happened to the two balances in between.", "quantifier": "all histories of other operations between hold and commit", "why_tests_cant": "All histories in between.", "anchors": ["model/model.go:CommitInflightDebit", "model/model.go:CommitInflightCredit", "model/model.go:checkSufficientInflightDebit"]}
{"id": "C27", "title": "Bulk commit/void answers every item in order", "statement": "A bulk inflight request returns exactly one result per requested item, in request order, and each is the outcome of exactly one ledger call made for that item, whatever the worker count and scheduling; it never hangs; the reported success and failure counts add up to the number of items; and items naming distinct open holds do not disturb each other: all of them succeed.", "quantifier": "all item lists, worker counts and schedules", "why_tests_cant": "All schedules of the worker pool.", "anchors": ["transaction_inflight.go:BulkInflightUpdate", "transaction_inflight.go:classifyInflightError"]}
{"id": "C28", "title": "A transaction is refunded at most once", "statement": "Over any sequence of refund requests for the same transaction, including concurrent ones, at most one refund is created.", "quantifier": "all sequences and interleavings of refund requests", "why_tests_cant": "Race between check and insert.", "anchors": ["transaction_refunds.go:RefundTransactionWithOptions", "transaction_refunds.go:validateTransactionForRefund", "database/transaction_queue.go:IsTransactionRefunded"]}
{"id": "C29", "title": "A refund exactly reverses the original", "statement": "Refunding an applied transaction moves the same minor-unit amount and currency back from destination to source; after it both balances equal what they would be without the original.", "quantifier": "all applied transactions, all balances, all operations in between", "why_tests_cant": "All histories between posting and refund.", "anchors": ["transaction_refunds.go:prepareRefundTransaction"]}
{"id": "C30", "title": "A queued transaction is applied at most once", "statement": "Whatever the number of deliveries, worker crashes, recovery re-enqueues and coalesced batch pickups, a queued transaction changes balances at most once, and it is never both applied and rejected.", "quantifier": "all delivery schedules, crash points and recovery runs", "why_tests_cant": "At-least-once delivery, recovery and batch sweep overlap in unbounded ways.", "anchors": ["transaction_queue.go:createQueueCopy", "queue_recovery.go:processStuckTransaction", "transaction_coalescing.go:buildForScope", "cmd/workers.go:processTransaction", "sql/1770611011.sql"]}
{"id": "C31", "title": "A queued transaction is never silently dropped by the worker", "statement": "Each delivery of a queued transaction ends in one of: applied, recorded as rejected, recognised as an already-processed duplicate, or returned to the queue for retry; and a delivery at the retry limit is never returned to the queue for a processing error.", "quantifier": "all configurations, error kinds and retry counts", "why_tests_cant": "Error classification is by message text over all errors and configs.", "anchors": ["cmd/workers.go:processTransaction", "cmd/workers.go:handleTransactionRejection", "cmd/workers.go:hasReachedMaxRetryAttempt"]}
{"id": "C32", "title": "Stuck transactions are retried a bounded number of times", "statement": "A transaction found stuck is re-enqueued by recovery at most three times before recovery rejects it, and recovery never touches a transaction that already has an outcome.", "quantifier": "all recovery histories", "why_tests_cant": "Counter in metadata over unbounded recovery runs.", "anchors": ["queue_recovery.go:processStuckTransaction", "queue_recovery.go:updateRecoveryMetadata", "database/transaction_recovery.go:GetStuckQueuedTransactions"]}
{"id": "C33", "title": "Same source, same queue", "statement": "Transactions from the same source balance always go to the same numbered queue, and the queue number is always within the configured range.", "quantifier": "all source ids, all queue counts", "why_tests_cant": "All strings.", "anchors": ["queue.go:transactionQueueName", "queue.go:hashBalanceID"]}
{"id": "C34", "title": "Hot-lane switching never reorders a pair", "statement": "A source/destination pair's transactions are moved to the hot lane only when none of its earlier transactions is pending in the normal lane and back only when none is pending in the hot lane; so at any time all pending transactions of a pair that was routed consistently sit in a single lane.", "quantifier": "all sequences of contention reports, enqueues and completions", "why_tests_cant": "State machine over unbounded histories.", "anchors": ["internal/hotpairs/router.go:ResolveQueueLane", "internal/hotpairs/hotpairs.go:RecordContention"]}
{"id": "C35", "title": "Sequential fund allocation is exact", "statement": "FIFO and LIFO allocation take min(amount, total available) in total, never more than any source has, and exhaust each source before touching the next in date order.", "quantifier": "all source lists and amounts", "why_tests_cant": "All lists and amounts.", "anchors": ["lineage_allocation.go:sequentialAllocation", "lineage_allocation.go:calculateAllocation"]}
{"id": "C36", "title": "Proportional fund allocation is exact", "statement": "Proportional allocation takes min(amount, total available) in total, never more than any source has.", "quantifier": "all source lists and amounts", "why_tests_cant": "Integer division remainders over all inputs.", "anchors": ["lineage_allocation.go:proportionalAllocation"]}
{"id": "C37", "title": "Lineage release survives retries", "statement": "If lineage processing of a debit is interrupted at any point and retried until it succeeds, the total released per provider adds up to what an uninterrupted run releases, and every released provider's funds are received by the destination.", "quantifier": "all crash points, all allocation strategies", "why_tests_cant": "Crash points and retries.", "anchors": ["lineage_debit.go:processLineageDebit", "lineage_debit.go:remainingDebitAmount", "lineage_debit.go:processAllocations"]}
{"id": "C38", "title": "Lineage outbox entries are retried, bounded, and never lost", "statement": "A lineage work item is either completed, failed after its maximum number of attempts, or will be claimable again; it is never attempted more than its maximum plus crash re-deliveries and never leaves a terminal state.", "quantifier": "all worker histories, crashes and claim races", "why_tests_cant": "Unbounded worker histories.", "anchors": ["database/lineage.go:ClaimPendingOutboxEntries", "database/lineage.go:MarkOutboxFailed", "lineage_worker.go:processBatch"]}
{"id": "C39", "title": "The audit chain is contiguous and covers each transaction once", "statement": "After any number of sealing rounds, with crashes between them, sealed transactions carry consecutive sequence numbers from 1, each linked to the previous one's hash, each transaction sealed exactly once, and the chain head matches the last link.", "quantifier": "all histories of inserts and sealing rounds", "why_tests_cant": "Unbounded histories.", "anchors": ["database/chain.go:ChainPendingTransactions", "chain_worker.go:processTick"]}
{"id": "C40", "title": "Tampering with a sealed transaction is detected", "statement": "If any sealed transaction's committed fields are altered, or a sealed transaction is removed or inserted in the middle, or two are swapped, chain verification reports failure, assuming the hash function has no collisions.", "quantifier": "all chains, all single-row alterations", "why_tests_cant": "All modifications of all chains.", "anchors": ["chain_worker.go:VerifyChain", "model/chain.go:ComputeChainHash"]}
{"id": "C41", "title": "Deleting the newest sealed transactions is detected", "statement": "If the last sealed transactions are deleted while the recorded chain head is left alone, verification reports failure.", "quantifier": "all chains and all non-empty suffixes", "why_tests_cant": "All suffixes.", "anchors": ["chain_worker.go:VerifyChain"]}
{"id": "C42", "title": "The sealed fields determine the seal", "statement": "Two transactions that differ in any sealed field have different seal preimages.", "quantifier": "all field values, including ones containing the separator", "why_tests_cant": "All strings.", "anchors": ["model/chain.go:ComputeChainHash", "model/model.go:HashTxn"]}
{"id": "C43", "title": "Posted transactions are immutable", "statement": "No update can change the amount, parties, currency, reference, status, description, creation time or hash of a stored transaction; metadata updates change only metadata.", "quantifier": "all update statements over all rows", "why_tests_cant": "All updates.", "anchors": ["sql/1781162328.sql:prevent_transaction_update", "database/metadata.go:UpdateTransactionMetadata"]}
{"id": "C44", "title": "API keys cannot escalate privileges", "statement": "A key created by another key can never do anything its creator cannot do, and this holds along any chain of delegated key creations; the master key excepted.", "quantifier": "all scope lists including wildcards, all chains of key creation, all requests", "why_tests_cant": "Scope lists and delegation depth are unbounded.", "anchors": ["api/middleware/scope.go:CanGrantScopes", "api/middleware/scope.go:ScopeCovers", "api/middleware/scope.go:HasPermission", "api/apikeys.go:validateGrantedScopes"]}
{"id": "C45", "title": "Requests are denied by default", "statement": "When secure mode is on, a request outside the public paths is let through only with the master key or a known, unexpired, unrevoked API key whose scopes cover the resource and method; unknown resources and methods are refused.", "quantifier": "all requests, keys and scope lists", "why_tests_cant": "All requests.", "anchors": ["api/middleware/auth.go:Authenticate", "api/middleware/auth.go:getResourceFromPath", "api/middleware/scope.go:HasPermission", "model/api_key.go:IsValid"]}
{"id": "C46", "title": "A revoked key stops working immediately", "statement": "Once revocation of an API key has been acknowledged, no later request with that key is accepted.", "quantifier": "all interleavings of lookups, cache fills and revocations", "why_tests_cant": "Cache fill races with revocation.", "anchors": ["database/api_key.go:GetAPIKey", "database/api_key.go:RevokeAPIKey"]}
{"id": "C47", "title": "API key management is confined to the owner", "statement": "A non-master caller can create, list and revoke keys only for its own owner id.", "quantifier": "all callers and requested owners", "why_tests_cant": "All strings.", "anchors": ["api/apikeys.go:resolveAPIKeyOwner", "database/api_key.go:RevokeAPIKey"]}
{"id": "C48", "title": "Tokenized personal data can be recovered", "statement": "Detokenizing the token of any value returns exactly that value, in both modes.", "quantifier": "all strings, all random pads", "why_tests_cant": "All strings.", "anchors": ["internal/tokenization/tokenization.go:TokenizeWithMode", "internal/tokenization/tokenization.go:Detokenize"]}
{"id": "C49", "title": "Query filters cannot inject SQL and bind every argument", "statement": "Whatever field names, operators and values a caller supplies, accepted filters only ever mention whitelisted columns and alphanumeric JSON keys, values only travel as bound arguments, and the placeholders used are exactly the argument positions from the start position up to the next free one.", "quantifier": "all filter lists, all tables", "why_tests_cant": "All strings as field names and values.", "anchors": ["internal/filter/sql_builder.go:Build", "internal/filter/sql_json.go:buildJSONPathCondition", "internal/filter/validation.go:Validate"]}
{"id": "C50", "title": "No accepted filter is silently ignored", "statement": "For every accepted filter list, the built query has one condition per filter, so results are never wider than asked.", "quantifier": "all accepted filter lists", "why_tests_cant": "All lists.", "anchors": ["internal/filter/sql_builder.go:Build", "internal/filter/validation.go:Validate"]}
{"id": "C51", "title": "Historical balance equals the sum of effective postings", "statement": "The balance at a past time computed from source equals credits minus debits of applied transactions effective at or before that time; the snapshot-based answer is the same.", "quantifier": "all transaction histories, snapshot times and query times, including backdated postings", "why_tests_cant": "All histories.", "anchors": ["database/balance.go:GetBalanceAtTime", "database/balance.go:fetchTransactions", "database/balance.go:applyTransaction", "database/balance.go:getMostRecentSnapshot"]}
{"id": "C52", "title": "Balance monitors fire exactly on their condition", "statement": "A monitor fires for an update if and only if the monitored column compares as requested with the threshold; an unknown field or operator never fires.", "quantifier": "all balances, thresholds, fields and operators", "why_tests_cant": "All integers.", "anchors": ["model/model.go:CheckCondition", "model/model.go:compare"]}
{"id": "C53", "title": "A failed atomic bulk request leaves no net effect", "statement": "If an atomic bulk request fails at any item, the items already applied are reversed so that every balance is what it was before the request.", "quantifier": "all item lists and failure positions, inflight or not", "why_tests_cant": "All positions.", "anchors": ["transaction_bulk.go:CreateBulkTransactions", "transaction_bulk.go:rollbackBatchTransactions"]}
{"id": "C54", "title": "A dry run predicts the real outcome and writes nothing", "statement": "If a dry run reports would_apply with resulting balances, posting the same transaction against the same stored state is accepted and produces exactly those balances; if it reports a rejection, the real posting is refused; the dry run itself changes nothing.", "quantifier": "all states and requests", "why_tests_cant": "Two code paths compared on all inputs.", "anchors": ["transaction_dryrun.go:PreviewTransaction", "transaction_dryrun.go:previewSingleTransaction", "transaction_dryrun.go:balanceProjection"]}
{"id": "C55", "title": "A balance indicator names one balance", "statement": "Concurrent get-or-create calls for the same indicator and currency always end with one balance and all return it.", "quantifier": "all interleavings", "why_tests_cant": "Race between get and create.", "anchors": ["balance.go:getOrCreateBalanceByIndicator", "database/balance.go:CreateBalance", "sql/1748323024.sql"]}
{"id": "C56", "title": "Metadata updates merge", "statement": "Updating metadata sets exactly the given keys, keeps every other key, and repeating the update changes nothing more.", "quantifier": "all metadata maps", "why_tests_cant": "All maps.", "anchors": ["metadata.go:mergeMetadata", "database/metadata.go:UpdateTransactionMetadata"]}
{"id": "C57", "title": "Batch walking visits every leg exactly once", "statement": "Walking the legs of a parent transaction in pages processes every leg exactly once.", "quantifier": "all leg counts, page sizes, and changes to the underlying rows while walking", "why_tests_cant": "Page boundaries and concurrent status changes.", "anchors": ["transaction_batch_processing.go:fetchTransactions", "transaction_inflight.go:collectInflightLegs"]}
{"id": "C58", "title": "Reconciliation finds every match its rules allow", "statement": "In one-to-one reconciliation, an external record is reported unmatched only if no internal transaction satisfies any of the rules.", "quantifier": "all external records, internal transactions and valid rule sets", "why_tests_cant": "All rule sets.", "anchors": ["reconciliation.go:findMatchingInternalTransaction", "reconciliation.go:calculateMatchingBounds", "reconciliation.go:matchesRules"]}
{"id": "C59", "title": "Reconciliation reports each record once", "statement": "In grouped reconciliation each input record is reported either matched or unmatched, not both and not twice, and no group is claimed by two records.", "quantifier": "all record lists, groupings, page sizes and worker schedules", "why_tests_cant": "Schedules and pages.", "anchors": ["reconciliation.go:oneToMany", "reconciliation.go:matchSingleTransaction", "reconciliation.go:processGroupedTransactions"]}
{"id": "C60", "title": "Balances can be recomputed from the transaction table", "statement": "At any time a balance's settled debit and credit are the sums of the APPLIED transactions leaving and entering it, and its balance is the difference; queued, scheduled, rejected, inflight and void rows count for nothing.", "quantifier": "all histories of postings, batches, holds, commits and voids", "why_tests_cant": "All histories, including interrupted and repeated settlements.", "anchors": ["transaction_execution.go:applyTransactionToBalances", "model/model.go:UpdateBalances", "model/model.go:CommitInflightDebit", "database/transaction.go:RecordTransactionWithBalancesAndOutbox"]}
{"id": "C61", "title": "No column is ever negative", "statement": "In every state any history of postings, batches, holds, commits and voids reaches, no account shows a negative debit_balance, credit_balance, inflight_debit_balance or inflight_credit_balance; no settlement releases more than is on hold.", "quantifier": "all histories", "why_tests_cant": "Histories and orders of partial settlements are unbounded.", "anchors": ["model/model.go:CommitInflightDebit", "model/model.go:RollbackInflightDebit", "model/model.go:checkSufficientInflight"]}
{"id": "C62", "title": "Each party of a split gets its share to within rounding", "statement": "When a transaction is split over distinct parties, each party's leg is more than its exact share minus one minor unit and at most its exact share plus one minor unit per other party.", "quantifier": "all totals, precisions and lists of distinct parties whose entries are non-negative and together do not exceed the total", "why_tests_cant": "Rounding, the adjustment of the percentages and the final rebalancing interact over all lists.", "anchors": ["model/transaction.go:processPercentageDistributions", "model/transaction.go:adjustPercentageAmounts", "model/transaction.go:balanceDistributions"]}
{"id": "C63", "title": "Authentication does not alter the request", "statement": "A request body sent with an API key reaches the handler with every amount exactly as the client wrote it; only the attribution in meta_data is added.", "quantifier": "all whole-number fields of all POST bodies", "why_tests_cant": "Unit tests send small amounts; the loss starts above 2^53.", "anchors": ["api/middleware/auth.go:injectAPIKeyToMetadata", "api/model/transaction.go:RecordTransaction"]}
{"id": "C64", "title": "A tokenized identity field stays tokenized and recoverable", "statement": "After a successful tokenize request for an identity field, the field holds a token of its value, detokenizing it returns the value, the other fields are unchanged, and this remains so whatever other tokenize requests or profile updates (not naming that field) are made, also concurrently.", "quantifier": "all identities, all fields, all sequences and interleavings of tokenize requests and updates", "why_tests_cant": "Each tokenize request reads the whole identity and writes all of it back; tests issue one request at a time, so the interleavings in which a late write restores clear text are never run.", "anchors": ["identity.go:150-205", "identity.go:216-257", "database/identity.go:211-299", "model/identity.go:55-117", "api/identity.go:94-115"]}
{"id": "C65", "title": "An equality filter compares with the text given", "statement": "A filter field_eq=text in the URL on a text column selects exactly the rows whose column is that text, character by character.", "quantifier": "all texts", "why_tests_cant": "All texts; only those that happen to read as numbers, booleans or dates are converted.", "anchors": ["internal/filter/values.go:7-31", "internal/filter/parser.go:17-148", "internal/filter/helpers.go:24-29"]}
{"id": "C66", "title": "Every accepted filter and sort request can be executed", "statement": "A listing request whose filters and sort field pass validation is never answered with a database error caused by the query text: all columns it names exist and no name is defined twice.", "quantifier": "all tables, filter lists and sort fields", "why_tests_cant": "Combinations of individually valid filters.", "anchors": ["internal/filter/sql_special.go:66-168", "internal/filter/sql_builder.go:245-255", "internal/filter/validation.go:70-180", "sql/1708676327.sql"]}
{"id": "C67", "title": "No filter in the URL is silently dropped", "statement": "A query parameter that looks like a filter is either applied, with all its values, or the request is refused.", "quantifier": "all parameter names and value lists", "why_tests_cant": "All names; the silent path is the absence of an effect.", "anchors": ["internal/filter/parser.go:17-148", "api/filter_helper.go:52-62"]}
{"id": "C68", "title": "Not-equal is the opposite of equal", "statement": "For every value, a row with a non-null column is selected by exactly one of the eq filter and the ne filter with that value.", "quantifier": "all values, columns and rows", "why_tests_cant": "All values, including the precisions with which dates can be written.", "anchors": ["internal/filter/sql_builder.go:106-215", "internal/filter/datetime.go:104-134"]}
{"id": "C69", "title": "Snapshot runs cover every balance, once a day", "statement": "A completed snapshot run leaves every balance that existed when it started with a snapshot of that day, it always completes, and a balance never has two snapshots of one day.", "quantifier": "all batch sizes, all interleavings of iterations with postings, new balances and other runs, failed and repeated runs", "why_tests_cant": "All interleavings of a batched loop with concurrent writers.", "anchors": ["sql/1740493523.sql:take_daily_balance_snapshots_batched", "database/balance.go:TakeBalanceSnapshots", "api/balance.go:TakeBalanceSnapshots"]}
{"id": "C70", "title": "Recorded snapshots cannot be altered", "statement": "No update changes a figure of a recorded snapshot; its metadata can be updated.", "quantifier": "all old and new rows, including NULL columns", "why_tests_cant": "All rows, SQL's three-valued logic.", "anchors": ["sql/1742099489.sql:prevent_snapshot_update"]}
{"id": "C71", "title": "Balance metadata has no influence on the figures", "statement": "What a posting does to a balance does not depend on the metadata of the balance, and asking for reconciliation through the metadata makes the figures the sums over the applied transactions.", "quantifier": "all histories mixing postings, metadata updates and identity changes", "why_tests_cant": "All histories; the effect happens inside a database trigger.", "anchors": ["sql/1742101752.sql:reconcile_balance_from_transactions", "database/balance.go:updateBalance", "database/metadata.go:UpdateBalanceMetadata"]}
{"id": "C72", "title": "Changes to monitors take effect", "statement": "After a monitor was created, updated or deleted, every later posting is judged by the monitors and thresholds as they are then.", "quantifier": "all sequences and overlaps of monitor requests and postings, any number of server processes", "why_tests_cant": "Cache coherence over all interleavings.", "anchors": ["balance.go:CreateMonitor", "balance.go:UpdateMonitor", "balance.go:DeleteMonitor", "balance.go:getBalanceMonitorsCached", "database/balance.go:UpdateMonitor"]}
{"id": "C73", "title": "An atomic bulk request is all or nothing also when it is queued", "statement": "If an atomic bulk request without skip_queue is answered with a failure, none of its items is ever applied.", "quantifier": "all item lists, failure positions and later worker deliveries", "why_tests_cant": "The items are stored in the background and applied after the answer; the outcome depends on every later delivery.", "anchors": ["transaction_bulk.go:CreateBulkTransactions", "transaction_queue.go:QueueTransaction", "transaction_queue.go:processTransactionAsync", "database/transaction_refunds.go:GetRefundableTransactionsByParentID"]}
{"id": "C74", "title": "One-to-one reconciliation pairs one with one", "statement": "In one-to-one reconciliation an external record is matched with at most one internal transaction, and an internal transaction with at most one external record.", "quantifier": "all rule sets, tables, page sizes, numbers of workers and schedules", "why_tests_cant": "Depends on how concurrent workers share the pages.", "anchors": ["reconciliation.go:oneToOneReconciliation", "reconciliation.go:findMatchingInternalTransaction"]}
{"id": "C75", "title": "A reconciliation handles the records of its upload", "statement": "A finished reconciliation has handled every external record of its upload exactly once and no record of another upload.", "quantifier": "all uploads, page sizes, and interleavings of reconciliations and cache expiry", "why_tests_cant": "Depends on what other reconciliations cached and on the order of rows with equal dates.", "anchors": ["database/reconciliation.go:GetExternalTransactionsPaginated", "transaction_batch_processing.go:fetchTransactions", "reconciliation.go:processTransactions"]}
{"id": "C76", "title": "A started reconciliation ends", "statement": "A grouped reconciliation of any records and tables reaches the status completed or failed.", "quantifier": "all record lists, tables, groupings and page sizes", "why_tests_cant": "Termination; the blocking needs more pages than a test has.", "anchors": ["reconciliation.go:oneToMany", "reconciliation.go:manyToOne", "reconciliation.go:processGroupedTransactions"]}
{"id": "C77", "title": "Groups are compared whole", "statement": "In grouped reconciliation a record is matched with a group exactly if the combined amount, date and currency of all of the group's rows satisfy a rule.", "quantifier": "all tables, groupings, page sizes", "why_tests_cant": "Groups that straddle pages.", "anchors": ["reconciliation.go:buildGroupMap", "reconciliation.go:matchesGroup", "reconciliation.go:findMatchingGroup"]}
{"id": "C78", "title": "The figures of a reconciliation are what it stored", "statement": "The matched and unmatched figures of a completed reconciliation are the numbers of matches and unmatched reports stored for it; a dry run stores nothing and gives the same figures.", "quantifier": "all runs", "why_tests_cant": "All lists of outcomes.", "anchors": ["reconciliation.go:process", "reconciliation.go:finalizeReconciliation", "database/reconciliation.go:RecordMatches", "database/reconciliation.go:RecordUnmatched"]}
{"id": "C79", "title": "A stored match carries the record's amount", "statement": "Every match found is stored with the external record's amount, whatever amount could be uploaded.", "quantifier": "all amounts", "why_tests_cant": "All amounts; the column is narrower than the one of the records.", "anchors": ["database/reconciliation.go:recordMatchInTransaction", "sql/1721922047.sql", "sql/1765154909.sql"]}
{"id": "C80", "title": "An upload is stored as given or not at all", "statement": "An accepted upload of external records stored each row of the file once, with the amount and date given, and answers their number; a refused upload stored nothing, so that the corrected file can be sent.", "quantifier": "all files, numbers of workers, interleavings, failing inserts and given-up requests", "why_tests_cant": "Concurrent workers, batches and failures; all texts.", "anchors": ["internal/files/files.go:processCSVRowsParallel", "internal/files/files.go:processWorker", "internal/files/files.go:parseExternalTransaction", "internal/files/files.go:ProcessJSON", "database/reconciliation.go:RecordExternalTransaction"]}
{"id": "C81", "title": "Every upload is answered", "statement": "An upload of external records ends with an answer, whatever is in the file.", "quantifier": "all files, numbers of workers and interleavings", "why_tests_cant": "Blocking on a full channel needs more bad rows than workers; termination over all schedules.", "anchors": ["internal/files/files.go:processCSVRowsParallel", "internal/files/files.go:processWorker"]}
{"id": "C82", "title": "A queued transaction is applied on the terms submitted", "statement": "However a queued transaction comes to be applied - delivered once or again, coalesced with others or recovered - the stored result moves the submitted amount and currency between the accounts named, as a hold exactly if one was asked for, under exactly the overdraft permission, overdraft limit and effective date of the request; and no account goes below what its debits permit.", "quantifier": "all submissions, interleavings of acceptance, storing, delivery, batches, recovery and other ledger work", "why_tests_cant": "Coalescing and recovery rebuild the transaction from its stored row; every interleaving and every request field matters.", "anchors": ["transaction_queue.go:processTransactionAsync", "transaction_queue.go:createQueueCopy", "transaction_coalescing.go:restoreTransactionFlagsFromMetadata", "database/transaction_coalescing.go:GetQueuedTransactionsForCoalescing", "database/transaction_recovery.go:GetStuckQueuedTransactions", "queue_recovery.go:processStuckTransaction"]}
{"id": "C83", "title": "Refunding a voided hold takes nothing", "statement": "A voided hold moved no money; refunding its VOID transaction changes no account's settled balance and puts nothing on hold.", "quantifier": "all histories and all VOID transactions in them", "why_tests_cant": "All histories; the effect shows only when the new hold is committed later.", "anchors": ["transaction_refunds.go:validateTransactionForRefund", "transaction_refunds.go:prepareRefundTransaction"]}
{"id": "C84", "title": "A lineage report adds up to the customer's lineage account", "statement": "The total a balance's lineage report shows equals what the lineage account of its identity (in that currency) has received and not spent, however movements, retries, crashes and failing steps of the outbox worker interleave.", "quantifier": "all histories of identities, tracked balances, movements, outbox attempts with failing or interrupted steps, settled and voided holds", "why_tests_cant": "The report is summed from per-provider rows written in separate steps; only an invariant over all histories relates them.", "anchors": ["lineage_queries.go:GetBalanceLineage", "lineage_queries.go:populateLineageProviders", "lineage_credit.go:processLineageCredit", "lineage_debit.go:processLineageDebit", "database/lineage.go:UpsertLineageMapping"]}
{"id": "C85", "title": "Providers' funds are never overspent", "statement": "What debits of tracked balances have taken, or hold, of a provider's funds never exceeds what that provider put in: no provider's available amount is negative, and held plus settled spending is covered.", "quantifier": "all histories, including concurrent holds, retries and failed steps", "why_tests_cant": "Depends on all interleavings of credits, holds and settlements between reading the availability and posting.", "anchors": ["lineage_allocation.go:getLineageSources", "lineage_debit.go:processLineageDebit", "lineage_shadow.go:commitShadowTransactions"]}
{"id": "C86", "title": "A balance has no more money with lineage than money", "statement": "Once the outbox is empty, the total a tracked balance reports as coming from providers is at most what the balance holds.", "quantifier": "all histories of movements and outbox work", "why_tests_cant": "Relates two sets of books written at different times; needs all orders of movements and outbox work.", "anchors": ["lineage_outbox.go:ProcessLineageFromOutbox", "lineage_debit.go:processLineageDebit", "lineage_allocation.go:calculateAllocation"]}
{"id": "C87", "title": "Every tracked movement gets its lineage", "statement": "Every accepted movement that names a provider and enters a tracked balance, or leaves one, is recorded: after the outbox has emptied, the credited provider shows the amount, and a debit has been allocated to providers as far as they have funds.", "quantifier": "all histories, failing steps, crashes and retries", "why_tests_cant": "Crashes between steps and repeated attempts; the effect is a missing row noticed much later.", "anchors": ["lineage_outbox.go:PrepareLineageOutbox", "lineage_outbox.go:ProcessLineageFromOutbox", "lineage_worker.go:processEntry", "lineage_credit.go:getOrCreateLineageBalances"]}
{"id": "C88", "title": "Settling a hold settles its lineage", "statement": "Committing a hold settles its lineage by the committed amount and voiding it releases all; never is more lineage settled than the movement moved, and repeating the settlement changes nothing.", "quantifier": "all histories, orders of outbox items, partial commits and retries", "why_tests_cant": "Order of outbox items against commits, partial amounts, retries after interruption.", "anchors": ["lineage_shadow.go:commitShadowTransactions", "lineage_shadow.go:voidShadowTransactions", "lineage_shadow.go:queueShadowWork"]}
{"id": "C89", "title": "Different customers have different lineage accounts", "statement": "The lineage accounts of two different identities are different accounts, for all providers, names and currencies.", "quantifier": "all identities, providers and currencies", "why_tests_cant": "All strings: names are joined with underscores and identity ids cut to eight characters.", "anchors": ["lineage_allocation_metadata.go:getIdentityIdentifier", "lineage_credit.go:getOrCreateLineageBalances"]}
{"id": "C90", "title": "A hold does not outlive its expiry date", "statement": "When a hold is placed with an expiry date, what is still open of it is released at that date and not before: once its expiry has been carried out, no row of the request can be committed any more, and its accounts hold nothing for it.", "quantifier": "all histories of requests, commits, voids, time and task attempts, repeated or given up", "why_tests_cant": "Depends on time, on which row the delayed task names, and on everything that happens between request and date.", "anchors": ["transaction_queue.go:QueueTransaction", "queue.go:queueInflightExpiry", "cmd/workers.go:processInflightExpiry", "transaction_inflight.go:VoidInflightTransaction"]}
{"id": "C91", "title": "A scheduled transaction has no effect before its date", "statement": "A transaction submitted with `scheduled_for` moves, holds and releases nothing before that date, whatever else happens; from that date on its task waits until it has been applied with the requested amount.", "quantifier": "all histories of requests, settlements, time and task attempts", "why_tests_cant": "Tests would have to wait for dates and try all other paths that apply stored rows in between.", "anchors": ["transaction_queue.go:QueueTransaction", "queue.go:geTask", "transaction_execution.go:recordTransactionSingle", "database/transaction_coalescing.go"]}
{"id": "C92", "title": "A hold with a commit date is committed then, in full and once", "statement": "A hold placed with a commit date, split or not, is committed in full at that date and not before: once the commit task is acknowledged nothing of any hold of the request is open, and later commits and voids are refused.", "quantifier": "all histories, deliveries, concurrent settlements between the legs", "why_tests_cant": "Redelivery, concurrent settlements between legs, and the order of the commit task and the hold's own task.", "anchors": ["queue.go:queueInflightCommit", "cmd/workers.go:processInflightCommit", "transaction_inflight.go:RunInflightActionByParent", "database/transaction_grouping.go:GetInflightTransactionsByParentID"]}
{"id": "C93", "title": "A change to a hook holds", "statement": "When the API has answered that a hook was updated or deleted, the hook is as the answer says until the next request for it: it is listed and called with the new address and settings, and a deleted or inactive hook stays so.", "quantifier": "all interleavings of requests, firing transactions and workers at the level of single Redis commands, with failing commands and stopping processes", "why_tests_cant": "The worker writes the hook it was given back to Redis after a call; whether that undoes a change depends on timing.", "anchors": ["internal/hooks/manager.go:UpdateHook", "internal/hooks/manager.go:DeleteHook", "internal/hooks/client.go:updateHookStatus", "internal/hooks/worker.go"]}
{"id": "C94", "title": "A hook is called at its stage", "statement": "A hook registered for one stage (before or after posting) is called at that stage only, with that stage in the header.", "quantifier": "all interleavings and failures", "why_tests_cant": "Needs overlapping registrations, updates and firings.", "anchors": ["internal/hooks/manager.go:RegisterHook", "internal/hooks/manager.go:UpdateHook", "internal/hooks/manager.go:ListHooks"]}
{"id": "C95", "title": "A hook is called a bounded number of times", "statement": "For one transaction and one queued task a receiver is called at most eleven times, the ten retries registration allows and the first attempt.", "quantifier": "all histories of attempts, stopping workers and answers", "why_tests_cant": "All histories.", "anchors": ["internal/hooks/manager.go:queueHook", "internal/hooks/manager.go:validateHook", "internal/hooks/worker.go"]}
{"id": "C96", "title": "Active hooks are told", "statement": "An active hook of a stage is queued for every transaction that reaches the stage; a queued call is made, and given up only after all its attempts.", "quantifier": "all histories, interleavings and failures of commands, workers and network", "why_tests_cant": "Failures between Redis commands, and combinations of earlier failed updates.", "anchors": ["internal/hooks/manager.go:ExecuteHooks", "internal/hooks/manager.go:UpdateHook", "internal/hooks/worker.go", "internal/hooks/client.go:executeHook"]}
{"id": "C97", "title": "A receiver's answer decides as its status says", "statement": "A hook call is successful exactly if the receiver answers with a 2xx status; a successful call is not repeated.", "quantifier": "all states of all histories, all answers", "why_tests_cant": "All combinations of status and body, and everything that can happen after the answer.", "anchors": ["internal/hooks/client.go:executeHook"]}
{"id": "C98", "title": "A webhook carries what happened", "statement": "Every webhook the receiver gets announces something that happened, and its data, amounts included, is exactly that of the thing announced.", "quantifier": "all histories and payloads, all encodings of floats", "why_tests_cant": "Tests use small amounts; the loss starts at 2^53.", "anchors": ["webhooks.go:SendWebhook", "webhooks.go:ProcessWebhook", "webhooks.go:processHTTP"]}
{"id": "C99", "title": "Signed notifications verify and only the service can sign", "statement": "A webhook or hook call verifies with the configured secret against the body and timestamp received, and carries no signature if no secret is configured; a signature is good for one timestamp and body only.", "quantifier": "all histories, configurations, bodies and times; HMAC is a parameter", "why_tests_cant": "All configurations and texts.", "anchors": ["webhooks.go:processHTTP", "internal/hooks/client.go:executeHook"]}
{"id": "C100", "title": "Everything that happens is announced once", "statement": "With a webhook configured, each ledger, balance, identity and transaction event is announced exactly once, under an event name that tells what happened.", "quantifier": "all histories of deeds and attempts", "why_tests_cant": "The announcements are spread over the code, some in goroutines; a refused transaction takes two paths.", "anchors": ["webhooks.go:getEventFromStatus", "transaction_execution.go:postTransactionActions", "transaction_rejection.go:RejectTransaction", "cmd/workers.go:handleTransactionRejection", "ledger.go:postLedgerActions"]}
{"id": "C101", "title": "Webhooks are delivered or given up after a known number of attempts", "statement": "A webhook that counts as delivered was received; one that is given up was tried twenty-six times; the receiver never gets more than that.", "quantifier": "all histories of attempts, answers and configuration changes", "why_tests_cant": "All histories.", "anchors": ["webhooks.go:ProcessWebhook", "webhooks.go:processHTTP"]}
{"id": "C102", "title": "Search shows amounts as they are", "statement": "Every amount of a balance or transaction found by search is the amount of the record, digit by digit, whether the document came from an index task or a rebuild.", "quantifier": "all records and amounts, all documents sent for them", "why_tests_cant": "Tests use small amounts; what passes through a float loses digits from 2^53 on.", "anchors": ["internal/search/search.go:HandleNotification", "internal/search/search.go:convertLargeNumbers", "internal/search/reindex.go"]}
{"id": "C103", "title": "Every record fits its collection", "statement": "The document sent for any record has every field its collection requires, with the declared type, and goes by the id of the record; so no record is refused by the search server for its shape.", "quantifier": "all records of all kinds, both ways of indexing", "why_tests_cant": "A test covers the records it lists; the schema must hold for all.", "anchors": ["internal/search/search.go:HandleNotification", "internal/search/search.go:CollectionConfig"]}
{"id": "C104", "title": "A rebuilt index shows the same", "statement": "A rebuild sends for every record the document its index task sent.", "quantifier": "all records and fields", "why_tests_cant": "The rows a rebuild reads are selected by other queries than the ones used when a record is made.", "anchors": ["internal/search/reindex.go", "database/balance.go:GetAllBalances", "database/transaction_queries.go:GetAllTransactions"]}
{"id": "C105", "title": "Search never shows a state that never was", "statement": "A document found by search shows a state its record has had.", "quantifier": "all interleavings of changes, index tasks, failures, repetitions and rebuilds", "why_tests_cant": "All interleavings.", "anchors": ["internal/search/search.go:EnsureCollectionsExist", "cmd/workers.go", "reconciliation.go:finalizeReconciliation"]}
{"id": "C106", "title": "Once caught up, search shows the ledger as it is", "statement": "When every index task has run to its end, search shows every record in its present state, and nothing else.", "quantifier": "all histories and orders of tasks", "why_tests_cant": "Needs overtaking tasks; missing notifications show only over a history.", "anchors": ["cmd/workers.go:indexData", "queue.go:queueIndexData", "identity.go:UpdateIdentity", "identity.go:DeleteIdentity", "balance.go:UpdateBalanceIdentity"]}
{"id": "C107", "title": "A transaction is found only with its balances", "statement": "Whenever search finds a transaction, it finds the source and the destination balance too.", "quantifier": "all interleavings of tasks, failures at any write, repetitions", "why_tests_cant": "Failures between the writes of a batch, and overtaking.", "anchors": ["internal/search/search.go:HandleBatchNotification", "transaction_execution.go:postTransactionActions", "cmd/workers.go:indexData"]}
{"id": "C108", "title": "A search update is given up only after real failures", "statement": "An update queued for search is dropped only after 26 attempts failed for another reason than the server being short of memory; until then one undisturbed attempt completes it, and then everything it carries is found as sent.", "quantifier": "all histories of attempts and failures", "why_tests_cant": "All histories.", "anchors": ["cmd/workers.go:isWorkerFailure", "cmd/workers.go:indexData", "queue.go"]}
{"id": "C109", "title": "A completed rebuild holds every record", "statement": "Whenever the rebuild of the search index is reported as completed, every record that existed when it began and still exists is found.", "quantifier": "all databases, page sizes and interleavings of the rebuild with records made, changed and deleted, index tasks, refusals and other rebuilds; any order among rows of equal time", "why_tests_cant": "Pages are cut by offset over a table that changes; needs a change at the right moment.", "anchors": ["internal/search/reindex.go:StartReindex", "internal/search/reindex.go:DropAllCollections", "database/identity.go:GetAllIdentitiesPaginated", "database/ledger.go:GetAllLedgers", "database/balance.go:GetAllBalances", "database/transaction_queries.go:GetAllTransactions"]}
{"id": "C110", "title": "The progress of a rebuild is reported right", "statement": "A completed rebuild reports as processed the number of documents it wrote; while records are left, the reported total exceeds the processed number.", "quantifier": "all histories, page sizes and collections", "why_tests_cant": "Shows only from the second page on; page sizes differ from the requested batch.", "anchors": ["internal/search/reindex.go:updateProgress", "internal/search/reindex.go:indexIdentities", "internal/search/reindex.go:indexBalances", "internal/search/reindex.go:indexTransactions"]}
{"id": "C111", "title": "Only one rebuild runs at a time", "statement": "A rebuild is refused while another is in progress, so at most one is in progress at any time.", "quantifier": "all interleavings of requests, server starts and rebuilds", "why_tests_cant": "The status is set by the goroutine, not by the request.", "anchors": ["api/reindex.go:StartReindex", "internal/search/reindex.go:TryReindexIfNeeded"]}
{"id": "C112", "title": "A restart takes nothing away from search", "statement": "A server that starts leaves documents of existing records in place, and begins a rebuild if search has lost a record.", "quantifier": "all contents of database and index at a start", "why_tests_cant": "All contents of both.", "anchors": ["internal/search/reindex.go:shouldReindex", "internal/search/reindex.go:dbHasData", "internal/search/reindex.go:typesenseHasData", "cmd/server.go"]}
{"id": "C113", "title": "A rebuild does not set search back", "statement": "If every change is indexed at once, a completed rebuild shows every record as it is; in any case no older than it was when the rebuild began.", "quantifier": "all interleavings of the rebuild with changes and index tasks", "why_tests_cant": "A change must fall between reading a page and writing its document.", "anchors": ["internal/search/reindex.go:indexBalances", "internal/search/reindex.go:indexDocument"]}
{"id": "C114", "title": "Reusing a reference is answered as a duplicate", "statement": "A request that reuses a reference is answered 409 with TXN_DUPLICATE_REFERENCE, whatever the reference is and whether it is posted alone, as a leg of a split or in a bulk request.", "quantifier": "all references, all other texts of the request, races included", "why_tests_cant": "The answer is found by searching phrases in a text that contains the reference; tests use tame references.", "anchors": ["api/errors.go:classifyMessage", "transaction_execution.go:validateTxn", "api/transactions.go:QueueTransaction"]}
{"id": "C115", "title": "Every error answer pairs a current code with its status", "statement": "Every error answer carries a code of the current catalogue together with the one status the catalogue lists for it, a 4xx or 5xx; legacy codes never appear.", "quantifier": "all errors, wrapped any number of times, and all handler options that name catalogue codes", "why_tests_cant": "All combinations of error chain, default and upgrade.", "anchors": ["api/errors.go:respondError", "api/errors.go:writeError", "internal/apierror/codes.go:StatusForCode", "internal/apierror/codes.go:Normalize"]}
{"id": "C116", "title": "Error answers keep internals to themselves", "statement": "The answer to a failure of the server does not depend on what the database or Redis said.", "quantifier": "all texts and details of inner errors", "why_tests_cant": "A noninterference property: it speaks of pairs of runs.", "anchors": ["api/errors.go:respondError", "internal/apierror/apierror.go:APIError", "transaction_batch_processing.go:ProcessTransactionInBatches"]}
{"id": "C117", "title": "Failures of the server are not blamed on the client", "statement": "A request is answered 5xx exactly when the database or Redis failed it, on posting, settling, refunding and in bulk.", "quantifier": "all failures of each step, all texts, both outcomes of racing channels", "why_tests_cant": "Needs failures injected at each step and the wrong side of a race.", "anchors": ["api/errors.go:respondError", "api/transactions.go:UpdateInflightStatus", "api/transactions.go:CreateBulkTransactions", "transaction_batch_processing.go:ProcessTransactionInBatches"]}
{"id": "C118", "title": "A preview announces the code the post would return", "statement": "When a preview announces a rejection, posting the same transaction at that moment is refused with the same error code.", "quantifier": "all combinations of obstacles and all references", "why_tests_cant": "Obstacles in combination; codes are derived from texts on two different ways.", "anchors": ["api/transactions.go:resolvePreviewRejectionCode", "transaction_dryrun.go:previewSingleTransaction", "transaction_dryrun.go:notePreviewCaveats"]}
{"id": "C119", "title": "The queue worker gives up only for good reasons", "statement": "A queued transaction is dropped without a record only if its reference is used, and rejected only for lack of funds, for contention where so configured, or when its attempts are used up.", "quantifier": "all failures, texts, settings and attempt numbers", "why_tests_cant": "Decisions are taken by searching phrases in error texts that contain names chosen by clients.", "anchors": ["cmd/workers.go:processTransaction", "transaction_execution.go:IsDuplicateReferenceError", "internal/hotpairs/router.go:IsLockContentionError"]}
{"id": "C120", "title": "A hold is refused alike however it is settled", "statement": "A commit or void that is refused gets corresponding codes from the synchronous, the queued and the bulk endpoint.", "quantifier": "all refusals, amounts, currencies and identifiers", "why_tests_cant": "Three classifiers over the same texts.", "anchors": ["transaction_inflight.go:classifyInflightError", "api/transactions.go:UpdateInflightStatus", "api/errors.go:classifyMessage"]}
{"id": "C121", "title": "A bulk item is refused like the transaction alone", "statement": "An item of a bulk request that fails is answered with the code the same transaction gets when it is posted alone.", "quantifier": "all failures, all texts around them, all endings of the request", "why_tests_cant": "The bulk handler has its own answer, which sees only text.", "anchors": ["api/transactions.go:CreateBulkTransactions", "transaction_bulk.go:processBulkTransactions", "api/errors.go:classifyMessage"]}
{"id": "C122", "title": "The amount recorded is the amount written", "statement": "A request with a decimal amount that is accepted moves exactly that amount, to the nearest minor unit of the precision it names; a precise amount is recorded as it is.", "quantifier": "all decimal numbers a client can write, all precisions, any double printer that keeps strconv's promise", "why_tests_cant": "Amounts pass through binary floating point; whether some digit is lost is a question about all numbers.", "anchors": ["api/model/model.go:ValidateRecordTransaction", "api/model/model.go:ToTransaction", "model/model.go:convertDecimalToPrecise"]}
{"id": "C123", "title": "Amounts that can be kept are accepted, others are not", "statement": "A properly filled-in request is accepted if its amount has at most fifteen significant digits, and whatever is accepted is kept with at most fifteen.", "quantifier": "all requests and all decimal amounts", "why_tests_cant": "The digit check works on the printed double, so it ranges over all doubles.", "anchors": ["api/model/model.go:ValidateRecordTransaction"]}
{"id": "C124", "title": "The amount shown is the amount recorded", "statement": "The decimal amount stored and answered with a transaction is its minor units divided by its precision; an amount that was sent comes back digit for digit.", "quantifier": "all minor units, all precisions", "why_tests_cant": "Decimal division is cut off and the result passes through a double again; exactness for all values is arithmetic, not sampling.", "anchors": ["model/model.go:convertPreciseToDecimal", "transaction_queue.go:setTransactionMetadata", "database/transaction.go:RecordTransaction"]}
{"id": "C125", "title": "Committing an amount settles that amount", "statement": "A commit request naming a decimal amount of a hold settles that amount, to the nearest minor unit of the hold, or nothing.", "quantifier": "all holds, ledgers, amounts, and outcomes of the precision lookup", "why_tests_cant": "Needs amounts near every rounding boundary and failures of a lookup that is silently replaced by a default.", "anchors": ["api/transactions.go:UpdateInflightStatus", "model/model.go:ApplyPrecisionWithDBLookup", "transaction_inflight.go:updateTransactionAmount"]}
{"id": "C126", "title": "A batch is accepted like its items", "statement": "The bulk endpoint accepts a list exactly when the single endpoint accepts every item, hands on the same transactions, and refuses it with the code of the first item refused.", "quantifier": "all lists of requests within the size limit", "why_tests_cant": "Quantifies over lists of arbitrary requests.", "anchors": ["api/transactions.go:CreateBulkTransactions", "api/transactions.go:QueueTransaction", "api/model/transaction.go:ToBulkTransactionRequest"]}
{"id": "C127", "title": "Every accepted movement has two different ends", "statement": "Every movement an accepted request leads to has a named source and a named destination, they differ, and its amount is not negative.", "quantifier": "all requests, with or without lists of sources and destinations, all orders of map iteration", "why_tests_cant": "Combinations of list and single fields.", "anchors": ["api/model/model.go:sourceOrSourcesValidation", "api/model/model.go:destinationOrDestinationsValidation", "api/model/model.go:sameBalanceValidation", "model/transaction.go:SplitTransactionPrecise"]}
{"id": "C128", "title": "A fractional precision is answered with its own code", "statement": "A request whose precision is not a whole number is refused with TXN_PRECISION_NOT_INTEGER; every other refusal is a malformed body or a validation error.", "quantifier": "all requests", "why_tests_cant": "That a code is unreachable is a statement about all requests.", "anchors": ["api/transactions.go:handleRecordTransactionValidationError", "api/model/model.go:validatePrecisionIsInteger"]}
{"id": "C129", "title": "A bulk commit item means what a single commit means", "statement": "An item of a bulk commit settles what the same request settles alone, or is refused like it.", "quantifier": "all items, ledgers and lookup outcomes", "why_tests_cant": "Two handlers compute the amount separately.", "anchors": ["api/transactions.go:BulkCommitInflight", "api/transactions.go:UpdateInflightStatus"]}
{"id": "C130", "title": "A full queue takes no more tasks", "statement": "With the gate switched on, a task is refused while Redis is over its memory threshold or the served queues hold as many tasks as they may.", "quantifier": "all configurations, all histories of queue sizes and Redis answers, all times of attempts", "why_tests_cant": "The gate caches its answer and trusts failed checks; this shows only over time.", "anchors": ["queue_backpressure.go:assertEnqueueAllowed", "queue_backpressure.go:shouldRejectEnqueue", "queue_backpressure.go:evaluateBackpressure"]}
{"id": "C131", "title": "A queue with room takes every task", "statement": "A task is refused only while the queue is full.", "quantifier": "all configurations, histories of queue sizes and times of attempts", "why_tests_cant": "Cached answers outlive their reason; needs all schedules.", "anchors": ["queue_backpressure.go:shouldRejectEnqueue", "queue_backpressure.go:evaluateBackpressure"]}
{"id": "C132", "title": "A submission the queue cannot take is refused, or it waits", "statement": "If the gate refuses a task of a submission, the client is told so with QUEUE_BACKPRESSURE, or the submission stays stored and is attempted later.", "quantifier": "all submissions, split or not, dated or not, all outcomes of storing and of the gate, everything that happens later", "why_tests_cant": "The refusal happens after the answer, in the background, and what becomes of the rows depends on everything that follows.", "anchors": ["transaction_queue.go:QueueTransaction", "transaction_queue.go:enqueueTransactions", "queue_backpressure.go:assertEnqueueAllowed", "transaction_queue.go:processTxns"]}
{"id": "C133", "title": "A setting given is the setting used", "statement": "A value the operator gives for a setting is the value in force.", "quantifier": "all values of all modelled settings", "why_tests_cant": "Defaults are filled in where the decoded value is zero, and units are converted; the values that are lost have to be found among all.", "anchors": ["config/config.go:validateAndAddDefaults", "config/config.go:setTransactionDefaults", "config/config.go:setQueueDefaults"]}
{"id": "C134", "title": "A setting left out takes its default", "statement": "A setting the operator leaves out takes the default the code lists for it.", "quantifier": "all configurations", "why_tests_cant": "Interplay of listed defaults and zero values.", "anchors": ["config/config.go:defaultTransaction", "config/config.go:defaultQueue", "config/config.go:setQueueDefaults"]}
{"id": "C135", "title": "Every queue that is used is served", "statement": "Under every configuration that starts, the queue a transaction is put into has a worker.", "quantifier": "all configurations and all sources", "why_tests_cant": "Ranges over all hash values and all numbers of queues.", "anchors": ["queue.go:getQueueNameForBalance", "cmd/workers.go:initializeQueues", "config/config.go:setQueueDefaults"]}
{"id": "C136", "title": "The rate limit lets through what it should and no more", "statement": "A request that comes after a pause of one over the rate passes; and in any window no more requests pass than the burst and the rate times the length of the window.", "quantifier": "all rates and bursts, all sequences of requests, all windows of them", "why_tests_cant": "Ranges over all request times and windows.", "anchors": ["config/config.go:setupRateLimiting", "api/middleware/middleware.go:RateLimitMiddleware"]}
{"id": "C137", "title": "Only hosts on the operator's list are contacted", "statement": "An upload by address contacts only hosts that the operator listed, redirects included, and none at all if the list is empty.", "quantifier": "all lists, addresses, servers and chains of redirects of any length", "why_tests_cant": "Redirect chains are unbounded and servers may answer differently each time.", "anchors": ["api/reconciliation_api.go:downloadAndUpload", "api/reconciliation_api.go:hostAllowed", "config/config.go:UploadDomainWhitelistHosts"]}
{"id": "C138", "title": "A host on the list can be downloaded from", "statement": "An address whose host and port the operator listed passes the check of hosts.", "quantifier": "all lists and addresses", "why_tests_cant": "Ranges over all ways to write an entry.", "anchors": ["config/config.go:UploadDomainWhitelistHosts", "api/reconciliation_api.go:downloadAndUpload"]}
{"id": "C139", "title": "A download is stored whole or refused", "statement": "The rows of a download that is accepted are the rows of the whole file.", "quantifier": "all limits and all files", "why_tests_cant": "Where the cut falls depends on every byte before it.", "anchors": ["api/reconciliation_api.go:downloadAndUpload", "internal/files/files.go:ProcessCSV"]}
{"id": "C140", "title": "A file without a known extension is recognised by its content", "statement": "A CSV or JSON file whose name says nothing is given to the reader of its format.", "quantifier": "all names, all contents, all system tables of types", "why_tests_cant": "Depends on the length of the file and on the tables of the system it runs on.", "anchors": ["internal/files/files.go:DetectFileType", "internal/files/files.go:DetectByContent", "internal/files/files.go:LooksLikeCSV"]}
{"id": "C141", "title": "Quoting, line ends and column order of a CSV file do not matter", "statement": "The rows read from a CSV file are those of the table it writes, whichever fields are quoted, however lines end and in whatever order the columns stand.", "quantifier": "all tables and all ways to write them", "why_tests_cant": "There are unboundedly many ways to write one table.", "anchors": ["internal/files/files.go:ProcessCSV", "internal/files/files.go:createColumnMap", "internal/files/files.go:parseExternalTransaction"]}
{"id": "C142", "title": "Metrics are shown only with the token", "statement": "Metrics of server and workers are shown to a request exactly if it carries the configured token, or if there is none and secure mode is off; whoever is refused gets 401 or 403.", "quantifier": "all configurations and all headers", "why_tests_cant": "Ranges over all headers, and over two separate implementations.", "anchors": ["api/middleware/middleware.go:MetricsAuth", "api/middleware/middleware.go:MetricsAuthHandler"]}
{"id": "C143", "title": "A request is read only up to the limit", "statement": "Of an upload no more is read than the limit of uploads, of any other request no more than the limit of requests.", "quantifier": "all limits, routes, callers, content types and lengths", "why_tests_cant": "Three layers read the body; which limits apply depends on all of them.", "anchors": ["api/middleware/middleware.go:RequestSizeLimit", "api/middleware/auth.go:injectAPIKeyToMetadata", "api/reconciliation_api.go:UploadExternalData"]}
{"id": "C144", "title": "Values under secret names stay inside", "statement": "What a log entry sent to remote monitoring shows below a name such as password, token or api_key is the word [REDACTED], at any depth; the rest still arrives.", "quantifier": "all entries, values of any depth, all spellings of names", "why_tests_cant": "Nesting is unbounded and depends on the Go type of the value.", "anchors": ["internal/monitoringexporter/redact.go:RedactFields", "internal/monitoringexporter/redact.go:RedactValue", "internal/monitoringexporter/redact.go:IsSensitiveKey"]}
{"id": "C145", "title": "Query values, bearer tokens and passwords in addresses do not leave with the logs", "statement": "The text that is sent does not depend on the value of a query parameter, on a token after the word Bearer or on the password in an address.", "quantifier": "all texts", "why_tests_cant": "Independence compares all pairs of texts; what a pattern consumes depends on everything before it.", "anchors": ["internal/monitoringexporter/redact.go:RedactString", "internal/monitoringexporter/redact.go:redactURL"]}
{"id": "C146", "title": "Logging never brings the service down", "statement": "No thread that logs panics, no entry is sent twice, and entries queued before the end can still be sent.", "quantifier": "all interleavings of any number of logging threads with the shutdown", "why_tests_cant": "The failing schedules are a few instructions wide.", "anchors": ["internal/monitoringexporter/logs.go:Fire", "internal/monitoringexporter/logs.go:Shutdown", "internal/monitoringexporter/logs.go:run"]}
{"id": "C147", "title": "An account can be opened for a ledger, an owner and a currency", "statement": "POST /accounts with ledger_id, identity_id and currency and without balance_id, which its validation allows, opens the account; with balance_id the account gets the ledger, the currency, the owner and the owner's name of the balance.", "quantifier": "all histories of requests, all account requests", "why_tests_cant": "That no request of this form ever succeeds is a statement about all states; a test sees one.", "anchors": ["account.go:CreateAccount", "account.go:overrideLedgerAndIdentity", "api/model/model.go:ValidateCreateAccount"]}
{"id": "C148", "title": "An account agrees with its balance", "statement": "In every state the ledger, the currency and the owner an account shows are those of its balance.", "quantifier": "all histories of creating, changing, moving and deleting", "why_tests_cant": "The disagreement arises from requests that never mention the account.", "anchors": ["account.go:overrideLedgerAndIdentity", "database/balance.go:UpdateBalanceIdentity", "api/balance.go:UpdateBalanceIdentity"]}
{"id": "C149", "title": "References lead somewhere", "statement": "The ledger and owner of every balance, the ledger, owner and balance of every account and the owner and balance of every fund-lineage mapping can be read in every state; an identity that is referred to is not deleted.", "quantifier": "all histories of creating, changing, moving and deleting", "why_tests_cant": "An invariant over all histories and all records at once.", "anchors": ["database/identity.go:DeleteIdentity", "database/balance.go:CreateBalance", "database/account.go:CreateAccount", "sql/1708676327.sql"]}
{"id": "C150", "title": "Fund lineage outlives the records of former owners", "statement": "Once funds of a balance from a provider are known, nothing that happens to other records makes them unknown.", "quantifier": "all histories, all events", "why_tests_cant": "Needs a balance moved between owners before one of them is deleted.", "anchors": ["database/lineage.go:UpsertLineageMapping", "database/identity.go:DeleteIdentity", "sql/1769343506.sql"]}
{"id": "C151", "title": "An update of an identity takes effect as sent", "statement": "After an accepted PUT /identities/:id each value that was sent is there, each other value, every other identity and every other record is as before.", "quantifier": "all histories, all updates", "why_tests_cant": "The frame condition quantifies over all fields and all other records; the failing case is an empty value.", "anchors": ["database/identity.go:UpdateIdentity", "api/identity.go:UpdateIdentity"]}
{"id": "C152", "title": "A UUID chosen for an identity is given out once", "statement": "A client may choose the id of an identity; a UUID that is taken, in whatever spelling, is refused with a conflict, an id that is accepted is kept as sent.", "quantifier": "all histories, all ids", "why_tests_cant": "The spellings of a UUID that the parser accepts are many; uniqueness is a statement about all pairs.", "anchors": ["database/identity.go:CreateIdentity", "api/identity.go:CreateIdentity"]}
{"id": "C153", "title": "Refusals for accounts carry the codes for them", "statement": "An account number in use is refused as ACC_DUPLICATE, an unknown account as ACC_NOT_FOUND; numbers are unique.", "quantifier": "all histories, all requests, all ids", "why_tests_cant": "The code depends on words inside the id that is asked for; tests use ordinary ids.", "anchors": ["api/accounts.go:CreateAccount", "api/accounts.go:GetAccount", "database/account.go:CreateAccount", "api/errors.go:respondError"]}
{"id": "C154", "title": "Accounts are shown as they were created", "statement": "An account reads, in lists and on its own, as it was answered when it was created, whatever has happened since.", "quantifier": "all histories before and after the creation", "why_tests_cant": "Stability under all later histories.", "anchors": ["database/account.go:GetAllAccounts", "database/account.go:GetAccountByID", "api/accounts.go:GetAllAccounts"]}
{"id": "C155", "title": "Creation times read as they were answered", "statement": "The created_at of a record that is read is the one answered on creation, up to a microsecond.", "quantifier": "all clocks, all server offsets from UTC, all kinds of records", "why_tests_cant": "Tests run in one time zone, usually UTC.", "anchors": ["database/ledger.go:CreateLedger", "database/identity.go:CreateIdentity", "database/balance.go:CreateBalance", "database/account.go:CreateAccount", "sql/1708676327.sql"]}
{"id": "C156", "title": "Renaming a ledger changes its name", "statement": "PUT /ledgers/:id answers the ledger as it reads afterwards: as it was, with the new name; nothing else changes, and refused requests change nothing.", "quantifier": "all histories, all names", "why_tests_cant": "The frame condition quantifies over all records.", "anchors": ["database/ledger.go:UpdateLedger", "api/ledger.go:UpdateLedger"]}
{"id": "C157", "title": "A balance gets the owner it is given", "statement": "PUT /balances/:id/identity changes the owner of that balance and nothing else; a request that fails because of the owner says so.", "quantifier": "all histories, all balances and owners", "why_tests_cant": "The frame condition quantifies over all records; the wrong code shows only for a balance that exists.", "anchors": ["balance.go:UpdateBalanceIdentity", "api/balance.go:UpdateBalanceIdentity", "database/balance.go:UpdateBalanceIdentity"]}
{"id": "C158", "title": "Paging through a list shows every record once", "statement": "A client that asks a list for L rows from 0, L, 2L, \u2026 on and stops at the first page with fewer than L rows has seen every record, each once; records created meanwhile do not hide others.", "quantifier": "all lists, page sizes, orders the database may choose, records created between the pages", "why_tests_cant": "The database may order records of the same moment differently each time; a test database returns them in the same order, and tests use small page sizes.", "anchors": ["api/transactions.go:GetAllTransactions", "api/balance.go:GetBalances", "api/ledger.go:GetAllLedgers", "api/identity.go:GetAllIdentities", "api/accounts.go:GetAllAccounts", "database/transaction_queries.go:GetAllTransactions"]}
{"id": "C159", "title": "A page has as many rows as asked for", "statement": "A request for L rows from an offset on shows L rows, or as many as there are from there; a limit or offset that is no sensible number is refused.", "quantifier": "all lists, limits, offsets, tables", "why_tests_cant": "The limits differ between lists, with and without filters and between URL and body; each is crossed silently.", "anchors": ["api/filter_helper.go:ParseFiltersFromBody", "database/ledger.go:GetAllLedgers", "database/transaction_filters.go:GetTransactionsByParams", "api/identity.go:GetAllIdentities"]}
{"id": "C160", "title": "The count is the number of matches", "statement": "The total_count that comes with a page on request is the number of rows that match the filters.", "quantifier": "all lists, filters, pages", "why_tests_cant": "It is missing exactly for the pages tests do not ask for.", "anchors": ["database/transaction_filters.go", "api/filter_helper.go:FilterResponse"]}
{"id": "C161", "title": "An empty list is a list", "statement": "A list endpoint answers with a JSON array, also when there is nothing to show.", "quantifier": "all lists, all contents", "why_tests_cant": "Depends on how the slice came about in each of the five lists.", "anchors": ["api/balance.go:GetBalances", "database/balance.go:GetAllBalances", "database/identity.go:GetAllIdentities", "database/account.go:GetAllAccounts"]}
{"id": "C162", "title": "Lists come in the order asked for", "statement": "A request that names a field to sort by and a direction shows the rows in that order.", "quantifier": "all lists, fields, directions, rows", "why_tests_cant": "Tests check the SQL text for a few fields; whether each accepted field is a column of its table needs the migrations.", "anchors": ["api/filter_helper.go:ParseFiltersFromBody", "api/filter_helper.go:ParseQueryOptions", "internal/filter/sql_builder.go:BuildOrderBy"]}
{"id": "C163", "title": "A transaction reads as it was submitted", "statement": "A transaction applied at once shows, wherever it is read, what was submitted: balances, amounts, precision, flags, dates and metadata.", "quantifier": "all transactions, all ways to read one", "why_tests_cant": "Quantifies over all metadata; the columns selected differ between the queries.", "anchors": ["database/transaction_queries.go:GetTransaction", "database/transaction_queries.go:GetTransactionByRef", "database/transaction_filters.go", "api/transactions.go:transformTransaction", "transaction_queue.go:setTransactionMetadata"]}
{"id": "C164", "title": "A transaction is shown the same wherever it is read", "statement": "By id, by reference, in a list and in a filtered list a transaction shows the same values.", "quantifier": "all rows, all pairs of requests", "why_tests_cant": "Relates four queries; each is tested alone.", "anchors": ["database/transaction_queries.go:GetTransaction", "database/transaction_queries.go:GetTransactionByRef", "database/transaction_queries.go:GetAllTransactions"]}
{"id": "C165", "title": "A transaction is shown inflight when it is", "statement": "Whatever is written to its metadata, a transaction is shown with inflight true exactly when its status is INFLIGHT.", "quantifier": "all transactions, all sequences of metadata updates", "why_tests_cant": "The flag is read from metadata that clients can write.", "anchors": ["api/transactions.go:transformTransaction", "transaction_inflight.go:clearTerminalInflightMetadata", "database/metadata.go:UpdateTransactionMetadata"]}
{"id": "C166", "title": "A balance is shown the same wherever it is read", "statement": "By id, by indicator, in a list and in a filtered list a balance shows the same values.", "quantifier": "all rows, all pairs of requests", "why_tests_cant": "Relates four queries; each is tested alone.", "anchors": ["database/balance.go:GetBalanceByID", "database/balance.go:GetBalanceByIndicator", "database/balance.go:GetAllBalances"]}
{"id": "C167", "title": "A balance is shown with what is asked for", "statement": "A balance that exists is shown with its owner and its ledger when they are asked for, each as it is; one that does not exist is not found.", "quantifier": "all databases in which references lead somewhere, all balances, all words asked for", "why_tests_cant": "Tests include the owner of balances that have one.", "anchors": ["database/balance.go:prepareQueries", "database/balance.go:scanRow", "api/balance.go:GetBalance"]}
{"id": "C168", "title": "An indicator finds its balance or nothing", "statement": "A balance asked for by indicator and currency is shown, or answered with BAL_NOT_FOUND.", "quantifier": "all balances, indicators, currencies", "why_tests_cant": "The code depends on words inside the indicator; tests use ordinary ones.", "anchors": ["database/balance.go:GetBalanceByIndicator", "api/balance.go:GetBalanceByIndicator", "api/errors.go:classifyMessage"]}
{"id": "C169", "title": "A group's money changes only by what crosses its border", "statement": "Take any group of balances, such as those of one ledger, of one identity or of one customer. What the group owns together is what applied transactions brought into it from outside less what applied transactions took out of it.", "quantifier": "all groups, all histories of postings, batches, holds, commits, voids and queued rows", "why_tests_cant": "Quantifies over all groups of balances and all histories; tests look at the two balances of one transaction.", "anchors": ["transaction_execution.go:executeTransactionPlan", "transaction_inflight.go:CommitInflightTransaction", "transaction_coalescing.go:persistQueuedTransactionBatch", "model/model.go:UpdateBalances"]}
{"id": "C170", "title": "Every currency balances on its own", "statement": "At any time the balances of each currency sum to zero: money of one currency never becomes money of another, and applied transactions lie between balances of their own currency.", "quantifier": "all histories, all currencies", "why_tests_cant": "Quantifies over all histories; the currency of a transaction is compared with that of its balances only in previews.", "anchors": ["transaction_execution.go:getSourceAndDestination", "transaction_dryrun.go:603-617", "model/model.go:canProcessTransaction"]}
{"id": "C171", "title": "A matching rule that is accepted can match something", "statement": "For every matching rule the API accepts there are an external record and an internal transaction that satisfy all its criteria.", "quantifier": "all rules, all pairs of records", "why_tests_cant": "Quantifies over all combinations of fields, operators and drifts, and says that something exists; tests try a few sensible rules.", "anchors": ["reconciliation.go:validateRule", "reconciliation.go:validateCriteria", "reconciliation.go:validateDrift", "reconciliation.go:matchesRules"]}
{"id": "C172", "title": "A rule is stored exactly when it is valid", "statement": "A rule with a name and at least one criterion, each with a known field, a known operator and an allowed drift, is stored as sent, and an update replaces exactly that rule; any other is refused with 400 RECON_RULE_INVALID and changes nothing. Updating or deleting a rule that is not there is answered with 404 RECON_RULE_NOT_FOUND.", "quantifier": "all rules, all states", "why_tests_cant": "Quantifies over all requests and all stored rules; the code comes from the text of the error.", "anchors": ["api/reconciliation_api.go:CreateMatchingRule", "api/reconciliation_api.go:UpdateMatchingRule", "api/reconciliation_api.go:DeleteMatchingRule", "reconciliation.go:validateRule", "database/reconciliation.go:UpdateMatchingRule"]}
{"id": "C173", "title": "A reconciliation uses its rules as they were when it was asked for", "statement": "When a reconciliation was accepted, it works with the matching rules named in the request as they were at that moment.", "quantifier": "all histories of requests and background runs", "why_tests_cant": "Needs another request between the answer and the background run; tests run one after the other.", "anchors": ["reconciliation.go:StartReconciliation", "reconciliation.go:processReconciliation", "reconciliation.go:getMatchingRules", "api/reconciliation_api.go:UpdateMatchingRule"]}
{"id": "C174", "title": "A reconciliation shows how it was asked for", "statement": "Reading a reconciliation right after it was accepted shows the upload, the time and whether it was asked for as a dry run.", "quantifier": "all requests, all states", "why_tests_cant": "Needs the value written and the value read to be compared for every request; mocks return what the test put in.", "anchors": ["api/reconciliation_api.go:StartReconciliation", "api/reconciliation_api.go:GetReconciliation", "database/reconciliation.go:RecordReconciliation", "database/reconciliation.go:GetReconciliation"]}
{"id": "C175", "title": "A reconciliation that cannot work is refused", "statement": "A request to reconcile that names an unknown strategy, a matching rule that is not there or an upload that is not there is refused.", "quantifier": "all requests, all states, all later histories", "why_tests_cant": "Quantifies over all states and everything that may happen after the answer.", "anchors": ["api/reconciliation_api.go:StartReconciliation", "reconciliation.go:StartReconciliation", "reconciliation.go:createReconciler", "reconciliation.go:processTransactions"]}
{"id": "C176", "title": "A refused instant reconciliation leaves nothing behind", "statement": "When an instant reconciliation is answered with an error, none of its records is stored, so that it can be corrected and sent again.", "quantifier": "all requests, all states", "why_tests_cant": "Needs a record in the middle of a request to conflict with any stored one.", "anchors": ["api/reconciliation_api.go:InstantReconciliation", "reconciliation.go:StartInstantReconciliation", "database/reconciliation.go:RecordExternalTransaction"]}
{"id": "C177", "title": "A reconciliation only moves forward", "statement": "The status of a reconciliation goes from started over in_progress to completed or failed and never back; what has ended stays as it is; figures and a time of completion are shown exactly when it is completed.", "quantifier": "all histories, all ways statements on the status can end", "why_tests_cant": "Needs statements whose answer is lost and the interleaving of several runs.", "anchors": ["reconciliation.go:StartReconciliation", "reconciliation.go:processReconciliation", "reconciliation.go:finalizeReconciliation", "database/reconciliation.go:UpdateReconciliationStatus"]}
{"id": "C178", "title": "A reconciliation that is not there is answered with 404", "statement": "Asking for a reconciliation that is not there is answered with 404 RECON_NOT_FOUND, whatever the id.", "quantifier": "all ids, all states", "why_tests_cant": "Quantifies over all ids; the status depends on the words in a message that contains the id.", "anchors": ["api/reconciliation_api.go:GetReconciliation", "reconciliation.go:GetReconciliation", "database/reconciliation.go:GetReconciliation", "api/errors.go:classifyMessage"]}
{"id": "C179", "title": "Equal values satisfy equality", "statement": "An external record and an internal transaction with the same value in a field satisfy every accepted criterion that asks for equality in this field.", "quantifier": "all criteria, all values", "why_tests_cant": "Quantifies over all texts and numbers; tests use plain words.", "anchors": ["reconciliation.go:matchesString", "reconciliation.go:matchesCurrency", "reconciliation.go:matchesGroupAmount", "reconciliation.go:matchesGroupDate"]}
{"id": "C180", "title": "A reconciliation that was accepted ends", "statement": "As long as a reconciliation has not ended, the server can still bring it to completed or failed by itself.", "quantifier": "all histories, including stops of the server", "why_tests_cant": "Says that from every reachable state an end can be reached; needs stops at any moment.", "anchors": ["reconciliation.go:StartReconciliation", "reconciliation.go:processReconciliation", "database/reconciliation.go:UpdateReconciliationStatus"]}
{"id": "C181", "title": "A request is accepted exactly when it is properly filled in", "statement": "A transaction request is accepted if and only if exactly one of amount and precise amount is given and it is neither negative nor longer than fifteen digits, the precision is a whole number, the required texts are there, each side is one balance or a list and no balance is on both sides of a single one, and every date given can be read; what is accepted carries what was sent. A batch is accepted if and only if it has between one and ten thousand items and each would be accepted alone; no item, not even an empty one, is skipped.", "quantifier": "all requests and all batches, any double printer that keeps strconv's promise", "why_tests_cant": "An equivalence over all combinations of fields; tests show single refusals.", "anchors": ["api/model/model.go:ValidateRecordTransaction", "api/transactions.go:QueueTransaction", "api/transactions.go:CreateBulkTransactions"]}
{"id": "C182", "title": "A dry run of a refund predicts the refund", "statement": "If the dry run of a refund says it would apply, the refund made at once reverses every listed payment: each is posted back from its destination to its source with the amount shown, the total is what is moved, and every balance shown ends with the figures shown. If it says it would not apply, or answers with an error, some payment is not reversed; if it says nothing is refundable, the refund answers the same.", "quantifier": "all ledgers, all ids standing for one or many payments, legs that share balances", "why_tests_cant": "A relation between two code paths over arbitrary ledgers and lists of legs whose balances feed one another; a test compares the two for one ledger.", "anchors": ["transaction_dryrun.go:PreviewRefund", "transaction_dryrun.go:refundableLegsForPreview", "transaction_refunds.go:RefundTransaction", "transaction_batch_processing.go:ProcessTransactionInBatches"]}
{"id": "C183", "title": "What a refund call answers is what it did", "statement": "A refund call that answers with refunds has stored exactly those refunds and met no failure; a call that finds nothing has stored none. A call works only on payments that were refundable when it was made: it never refunds the refunds it has just made. A call that reversed every payment is not answered with an error.", "quantifier": "all ledgers, all interleavings of the fetching goroutine, the worker and other requests", "why_tests_cant": "The outcome depends on how the fetching of pages and the refunding of rows interleave; a test sees one schedule.", "anchors": ["api/transactions.go:RefundTransaction", "transaction_batch_processing.go:ProcessTransactionInBatches", "transaction_batch_processing.go:fetchTransactionsWithOffset", "transaction_refunds.go:RefundWorker"]}
{"id": "C184", "title": "A dry run of a commit or void predicts what the call does", "statement": "If the dry run of a commit or a void says it would apply, the call settles every hold the id stands for: each settlement has the amount and the parties shown, the total is what is settled, and every balance shown ends with the figures shown. If it says it would not apply, some hold is not settled; if it answers with an error, nothing or not everything is settled.", "quantifier": "all ledgers, all ids standing for one hold or the holds of a batch or split, all amounts, holds that share balances", "why_tests_cant": "A relation between two code paths over arbitrary ledgers, partial commits and lists of holds whose balances feed one another.", "anchors": ["transaction_dryrun_inflight.go:PreviewInflightAction", "transaction_dryrun_inflight.go:inflightLegsForPreview", "transaction_dryrun_inflight.go:buildInflightSettlementForPreview", "transaction_inflight.go:CommitWorker", "transaction_inflight.go:VoidWorker", "api/transactions.go:UpdateInflightStatus"]}
{"id": "C185", "title": "A coalesced batch takes along only what waits and belongs with it", "statement": "When a delivered transaction is processed together with others, every other member is a transaction that is stored as QUEUED, has no outcome yet, was not submitted before the delivered one, has its currency and the same source, destination or both, is not part of an atomic bulk and has no date. No submission is in a batch twice, the members come in order of submission, none of the same kind in between is passed over, the batch stays within the configured size, and what was applied is never taken again.", "quantifier": "all queue contents, all database states, all batch sizes, any database change between the three queries", "why_tests_cant": "Which transactions travel together depends on everything that waits at the moment of delivery.", "anchors": ["transaction_coalescing.go:buildQueuedCoalescingBatch", "transaction_coalescing.go:canCoalesceQueuedOriginal", "database/transaction_coalescing.go:GetQueuedTransactionsForCoalescing"]}
{"id": "C186", "title": "Coalescing does not let a payment overtake an earlier one of the same account", "statement": "No member of a coalesced batch overtakes a payment that leaves the same account, was submitted earlier, still waits and could have been taken along.", "quantifier": "all queue contents and deliveries", "why_tests_cant": "Whether an earlier payment is overtaken, and so finds no money, depends on what else waits.", "anchors": ["transaction_coalescing.go:buildQueuedCoalescingBatch", "database/transaction_coalescing.go:GetQueuedTransactionsForCoalescing"]}
{"id": "C187", "title": "The answer to a commit or void of a request tells what became of its holds", "statement": "A synchronous commit or void of an id that answers success has itself settled every hold under the id: a void and a commit without amount leave nothing of any of them, a commit of an amount has committed that amount of each. An answer that there is nothing to settle means there was no hold. An error means nothing was settled.", "quantifier": "all ledgers, page sizes, amounts, any other requests in between, any interleaving of the queries with the worker", "why_tests_cant": "The holds are read page by page while they are settled and while others settle them; what the answer means depends on the interleaving.", "anchors": ["transaction_batch_processing.go:ProcessTransactionInBatches", "transaction_batch_processing.go:fetchTransactions", "transaction_inflight.go:CommitWorker", "transaction_inflight.go:VoidWorker", "api/transactions.go:UpdateInflightStatus", "database/transaction_grouping.go:GetInflightTransactionsByParentID"]}
{"id": "C188", "title": "The dry run of a bulk commit or void says what the batch does", "statement": "Each item of a bulk commit or void that is run right after its dry run is settled exactly if the dry run said that it would apply, and moves the amount shown; the batch is said to apply exactly if every item is settled. Of an id named in the note only one occurrence succeeds.", "quantifier": "all ledgers, batches, numbers of workers, schedules of the pool, other requests in between that do not settle the same holds", "why_tests_cant": "The items are projected one by one on the balances as they stand, the batch runs them concurrently on balances the others change; that no order and no interleaving matters is not visible in any run.", "anchors": ["api/transactions.go:respondBulkInflightPreview", "transaction_dryrun_inflight.go:PreviewInflightAction", "transaction_inflight.go:BulkInflightUpdate", "api/transactions.go:BulkCommitInflight", "api/transactions.go:BulkVoidInflight"]}
{"id": "C189", "title": "A coalesced batch is stored whole, however large it is", "statement": "A batch of waiting transactions that could be posted one after the other is stored, with the rows and balances that posting them one after the other would give; if it is not stored nothing of it is. The number of accounts and the order in which they are written make no difference.", "quantifier": "all ledgers, batches of up to ten thousand members, numbers of accounts, orders of the accounts, choices of accounts that track lineage", "why_tests_cant": "The accounts are written in chunks of one statement each and the outbox in a single statement whose size grows with the batch; a limit that is met only with thousands of members is not met in tests.", "anchors": ["database/balance.go:updateBalanceSet", "database/balance.go:updateBalanceChunk", "database/lineage.go:insertLineageOutboxesInTx", "database/transaction.go:RecordTransactionsWithBalanceSetAndOutboxes", "transaction_coalescing.go:persistQueuedTransactionBatch"]}
{"id": "C190", "title": "A background processor works one batch at a time and not after it has been stopped", "statement": "The processors of the hash chain, the lineage outbox and stuck transactions work on one batch at a time; when Stop returns none is being worked on and none is begun before the next Start; Stop can always return; IsRunning says whether the processor is there; starting and stopping never panics.", "quantifier": "all interleavings of any number of calls of Start and Stop with the loop, all choices of select, all times at which the context is cancelled", "why_tests_cant": "What goes wrong depends on a few instructions of two goroutines falling in one order, and on which ready case select picks.", "anchors": ["chain_worker.go:Start", "chain_worker.go:Stop", "chain_worker.go:run", "lineage_worker.go:Start", "lineage_worker.go:Stop", "queue_recovery.go:Start", "queue_recovery.go:Stop", "cmd/workers.go:runWorkers", "cmd/server.go:serverCommands"]}
{"id": "C191", "title": "A commit or void answered \"queued\" is carried out as it was asked", "statement": "A commit or void of a hold without skip_queue is accepted exactly if the hold has something open and the amount fits in it; once answered \"queued\" the action waits until a delivery of it is acknowledged, and that delivery settles exactly what was asked for; at most one action waits for an id, and \"already queued\" says that one does; an item of a bulk call counts as succeeded only if it waits as it was asked.", "quantifier": "all ledger histories, all ids, amounts and actions, all interleavings of asking, deliveries, crashes of workers, retries and other clients' operations", "why_tests_cant": "The answer is given before anything is settled; what it is worth depends on what everybody else does until the worker comes to it, and on what the pre-check of an id that stands for several holds does not look at.", "anchors": ["transaction_inflight.go:preValidateInflightAction", "transaction_inflight.go:validateInflightActionAmount", "transaction_inflight.go:anyInflightLegRemaining", "transaction_inflight.go:QueueInflightAction", "transaction_inflight.go:RunInflightActionByParent", "queue.go:EnqueueInflightAction", "api/transactions.go:queueBulkInflight", "cmd/workers.go:processInflightCommit"]}
{"id": "C192", "title": "The lineage of a payment says whose money was spent", "statement": "GET /transactions/{id}/lineage shows as fund_allocation, once the debit has been processed, exactly the providers and amounts that were drawn for the payment, that is the release rows that it left; the shadow transactions listed are these rows.", "quantifier": "all payments, balances of providers, strategies and sequences of attempts with failures and crashes in between", "why_tests_cant": "The note is written after the rows, in another statement, from what the last attempt computed; whether it agrees with the rows depends on where earlier attempts stopped.", "anchors": ["lineage_allocation_metadata.go:updateFundAllocationMetadata", "lineage_allocation_metadata.go:buildFundAllocationList", "lineage_debit.go:processLineageDebit", "lineage_queries.go:GetTransactionLineage", "lineage_queries.go:extractFundAllocation", "database/metadata.go:UpdateTransactionMetadata", "database/transaction_lineage.go:GetTransactionsByShadowFor"]}
{"id": "C193", "title": "Tokenize and detokenize calls do what they say for the fields they name", "statement": "A tokenize call for several fields of an identity either does all of them or, when it is refused, none; afterwards tokenized-fields lists exactly the fields that were tokenized; a detokenize call without names answers with all of these and their original values, one with names with those named; a field can be named as it is in the JSON of the identity.", "quantifier": "all identities and values, all lists of names in any spelling, any sequence of calls, all ciphers that open what they seal", "why_tests_cant": "Names go through three spellings (as given, capitalised, as stored in the metadata) and the fields are written one by one; tests name one field in the spelling that works.", "anchors": ["api/identity.go:TokenizeIdentity", "api/identity.go:DetokenizeIdentity", "api/identity.go:GetTokenizedFields", "identity.go:TokenizeIdentityField", "identity.go:DetokenizeIdentityField", "identity.go:TokenizeIdentity", "identity.go:DetokenizeIdentity", "model/identity.go:IsFieldTokenized", "model/identity.go:MarkFieldAsTokenized", "model/identity.go:convertToStructFieldName"]}
{"id": "C194", "title": "A split request that the queue could not take whole moves no money", "statement": "A queued transaction with several sources or destinations is taken as a whole: either every part waits with a task of its own, or, when the transaction ends REJECTED under the id the client was given because one part could not be stored, no part of it is ever applied.", "quantifier": "all ledgers, all split requests, any part failing, every delivery of the task and every later recovery sweep", "why_tests_cant": "The parts are stored by separate statements in a goroutine whose error is only traced; the paid part appears hours later, by the recovery sweep, after the client has seen the rejection.", "anchors": ["transaction_queue.go:processTransactionAsync", "transaction_queue.go:processSplitTransactions", "transaction_queue.go:enqueueTransactions", "transaction_queue.go:createQueueCopy", "queue_recovery.go:processStuckTransaction", "cmd/workers.go:processTransaction"]}
{"id": "C195", "title": "Recovery applies no part of an all-or-nothing transaction after another part was rejected", "statement": "Once a part of an atomic transaction that went through the queue was rejected, recovery of stuck transactions applies no other part of it.", "quantifier": "all ledgers, all atomic requests, every order of deliveries, rejections and sweeps", "why_tests_cant": "The check asks the database for rows under one id while rejections are stored under another; a test has to lose a task, reject a sibling and wait for the sweep.", "anchors": ["queue_recovery.go:processStuckTransaction", "database/transaction_queue.go:GetTransactionsByParent", "transaction_queue.go:createQueueCopy", "transaction_rejection.go:RejectTransaction"]}
{"id": "C196", "title": "Recovery deals with every stuck transaction in the end", "statement": "A QUEUED transaction older than the threshold that has no outcome, and that recovery can do something about, gets an outcome after finitely many sweeps, whatever else is stuck and however much new work arrives.", "quantifier": "all ledgers, all numbers and ages of stuck transactions, all interleavings with other work, all failures of single replays", "why_tests_cant": "Each sweep looks at the hundred oldest rows only; whether a younger row is reached depends on whether the rows ahead of it ever leave, over any number of sweeps.", "anchors": ["queue_recovery.go:recoverWithThreshold", "queue_recovery.go:processStuckTransaction", "database/transaction_recovery.go:GetStuckQueuedTransactions"]}
{"id": "C197", "title": "A recovery call that answers zero means that nothing is stuck", "statement": "When POST /transactions/recover answers recovered 0 and a threshold, no QUEUED transaction older than that threshold is without an outcome.", "quantifier": "all ledgers, all thresholds, all failures of the database", "why_tests_cant": "The number is the rows looked at, the threshold is echoed and errors are swallowed, each in a different function; a test sees one stuck row recovered.", "anchors": ["api/transactions.go:RecoverQueuedTransactions", "queue_recovery.go:RecoverQueuedTransactions", "queue_recovery.go:recoverWithThreshold"]}
{"id": "C198", "title": "A reconciliation sees every transaction that was there when it began", "statement": "A reconciliation that finished was given every transaction that was in the ledger when it began exactly once, and nothing that was not recorded, whatever is recorded meanwhile and whatever other reconciliations read before.", "quantifier": "all ledgers, page sizes, orders of recording, interleavings of reconciliations, and expiries of kept pages", "why_tests_cant": "Pages are kept for an hour or five minutes and shared between runs while the offsets move on; what a pass is given depends on the history of all earlier passes.", "anchors": ["database/transaction_grouping.go:GetTransactionsPaginated", "database/transaction_grouping.go:GroupTransactions", "transaction_batch_processing.go:fetchTransactions", "reconciliation.go:oneToMany"]}
{"id": "C199", "title": "A record is matched with money that moved", "statement": "A reconciliation reports as the match of an external record only transactions that were applied, directly or through the row made of them, and counts what they moved once.", "quantifier": "all reachable ledgers with queued, rejected, held and voided transactions, all rule sets, strategies and records", "why_tests_cant": "No query of the reconciliation asks for a status; whether a match means anything depends on what else the ledger holds about the same payment.", "anchors": ["database/transaction_criteria.go:GetTransactionsByCriteria", "database/transaction_grouping.go:groupedTransactionsQuery", "reconciliation.go:findMatchingInternalTransaction", "reconciliation.go:matchesGroup"]}
{"id": "C200", "title": "A date in a filter stands for the period it names", "statement": "A date in a filter of the URL stands for the whole day, minute, second or unit of its last digit: eq asks for moments in the period, gt for moments after it, lte for moments up to its end, between from the beginning of the first to the end of the second.", "quantifier": "all dates of the calendar in all accepted spellings, all operators, all stored moments", "why_tests_cant": "Whether a row is left out depends on where in the period it lies; tests use dates far from the stored moments.", "anchors": ["internal/filter/datetime.go:ParseDateTime", "internal/filter/datetime.go:getDatePrecisionFromString", "internal/filter/datetime.go:computeTimestampRange", "internal/filter/sql_builder.go:buildStandardCondition", "internal/filter/values.go:parseValue"]}
{"id": "C201", "title": "A moment is the same in every zone", "statement": "Two filters that name the same moments with different offsets from UTC select the same rows.", "quantifier": "all moments, all pairs of offsets, all operators", "why_tests_cant": "Tests write dates in UTC or without a zone.", "anchors": ["internal/filter/datetime.go:ParseDateTime", "internal/filter/sql_builder.go:buildStandardCondition", "sql/1708676327.sql"]}
{"id": "C202", "title": "A filter means the same in the URL and in a body", "statement": "The same field, operator and dates select the same rows as query parameters of a list and in the JSON body of a filter request.", "quantifier": "all dates, all operators, all stored moments", "why_tests_cant": "Needs the two doors compared on the same data, for every operator and every way to write a date.", "anchors": ["internal/filter/parser.go:ParseFromQuery", "internal/filter/values.go:parseValue", "api/filter_helper.go:ParseFiltersFromBody"]}
{"id": "C203", "title": "A queued payment that the account covers is paid", "statement": "With queued checks on, an account that has enough for everything it owes to waiting payments pays each of them when its turn comes, and no payment made past the queue takes that money.", "quantifier": "all balances, all sets of waiting payments, all orders of delivery, all histories of other operations in between", "why_tests_cant": "A payment is judged while its own row still waits; tests of the queue run with the check off or with ample funds.", "anchors": ["database/transaction_queue.go:GetQueuedAmounts", "model/model.go:canProcessTransaction", "transaction_execution.go:getSourceAndDestination", "cmd/workers.go:processTransaction", "transaction_queue.go:createQueueCopy"]}
{"id": "C204", "title": "Recovery knows of every rejected part", "statement": "When recovery picks up a stuck part of an all-or-nothing request and a rejected row is stored under that request, recovery sees a rejected row and does not pay the part; and it never passes over a part for a rejection that is not stored.", "quantifier": "all tables, all histories of inserts, looks by any number of processes, evictions and waiting, all orders of rows of the same moment", "why_tests_cant": "The rows under a request come from a page of a hundred that is kept for minutes in two caches; tests look once, at a few rows, with an empty cache.", "anchors": ["queue_recovery.go:processStuckTransaction", "database/transaction_queue.go:GetTransactionsByParent", "internal/cache/cache.go:Get", "internal/cache/cache.go:Set"]}
{"id": "C205", "title": "A failed all-or-nothing split leaves nothing behind", "statement": "When a transaction with several sources or destinations is sent with atomic and skip_queue, the answer is a success only if every part was recorded; and when the answer is an error every balance is as it was before the request.", "quantifier": "all reachable ledgers, all requests and distributions, all iteration orders of the parts", "why_tests_cant": "What happens to the parts before the failing one depends on how many there are, on their order (a map) and on the kind of transaction; tests look at one failing part and at the answer, not at the balances afterwards.", "anchors": ["transaction_queue.go:processTxns", "transaction_bulk.go:handleAsyncBulkTransactionFailure", "transaction_bulk.go:rollbackBatchTransactions"]}
{"id": "C206", "title": "A rejected part takes the others back", "statement": "Once every part of a queued all-or-nothing transaction has been worked on and one of them was rejected, every part that was paid has a refund and every part that was held is void; and when the refunds have been applied the balances are those of all other rows.", "quantifier": "all reachable ledgers, all orders of deliveries, coalesced or alone, anything others do in between", "why_tests_cant": "Workers take the parts in any order and the rejection takes back only what it finds at that moment; a test with the failing part last passes.", "anchors": ["transaction_rejection.go:RejectTransaction", "cmd/workers.go:processTransaction", "transaction_bulk.go:rollbackBatchTransactions", "transaction_refunds.go:RefundTransactionWithOptions"]}
{"id": "C207", "title": "Only a pair that is being contended uses the hot lane", "statement": "A transaction is put in the hot lane only when its pair was contended hot_pair_lock_contention_threshold times within one hot_pair_ttl and was last contended less than hot_pair_ttl ago.", "quantifier": "all spans and thresholds, all histories of contentions and submissions at any moments, any number of waiting transactions", "why_tests_cant": "It depends on which of three Redis keys with different, renewed lifetimes are still there at a moment; tests with a fake Redis move the clock once or not at all.", "anchors": ["internal/hotpairs/hotpairs.go:RecordContention", "internal/hotpairs/hotpairs.go:ActivateHot", "internal/hotpairs/router.go:ResolveQueueLane"]}
{"id": "C208", "title": "A successful backup is kept", "statement": "When backups are requested one after the other, what each successful request dumped is still there afterwards: in its file on disk, or in its object in the bucket for /backup-s3.", "quantifier": "all histories of requests, successful and failing, all moments, all local clocks, all database names", "why_tests_cant": "Whether two backups share a name depends on the clock readings of two requests, possibly days apart; a test makes one backup.", "anchors": ["internal/pg-backups/pg-backup-drive.go:BackupToDisk", "internal/pg-backups/pg-backup-drive.go:BackupToS3", "api/admin.go:BackupDBS3"]}
{"id": "C209", "title": "A Redis address that asks for TLS gets TLS", "statement": "When the configured address of Redis begins with rediss://, alone or among several, the connection is encrypted whatever the rest of the address is.", "quantifier": "all addresses, all lists of addresses, with and without checking certificates, any behaviour of the library's parser", "why_tests_cant": "The reader of addresses never fails: what the library refuses is read by hand; tests use addresses that the library accepts.", "anchors": ["internal/redis-db/redisdb.go:ParseRedisURL", "internal/redis-db/redisdb.go:NewRedisClient"]}
{"id": "C210", "title": "What was accepted can be carried out after a restart with other queue settings", "statement": "A payment that was accepted and is waiting, with a date or without, can still be carried out after blnk was started again with other queue settings, however often.", "quantifier": "all settings, all sequences of acceptances, work, recovery, waiting and restarts, all sources and dates", "why_tests_cant": "Tests run with one configuration from start to end; a task left in a queue that no longer exists shows no error anywhere.", "anchors": ["queue.go:geTask", "queue.go:transactionQueueName", "cmd/workers.go:initializeQueues", "database/transaction_recovery.go:GetStuckQueuedTransactions"]}
{"id": "C211", "title": "Working out a payment changes its two balances and nothing else", "statement": "Posting, committing or voiding a payment in memory changes the figures of its source and destination as the rules say and leaves every other balance, every copy and every amount as it was; a dry run shows the figures as they are beside the figures as they would be.", "quantifier": "all memories in which balances have figures of their own (all that are read from the database), all payments and sequences of payments, also from a balance to itself, made or refused", "why_tests_cant": "Figures are pointers that additions change in place; a shared integer shows only in particular sequences of calls, and tests compare values right after one call.", "anchors": ["model/model.go:UpdateBalances", "model/model.go:CommitInflightDebit", "model/clone.go:Clone", "transaction_execution.go:applyTransactionToBalances", "transaction_dryrun.go:previewSingleTransaction"]}
{"id": "C212", "title": "Transactions are sent to hook receivers only at addresses given with the master key", "statement": "Whatever requests reach the hook routes, with whatever keys and under whatever settings, a transaction is sent to a hook receiver only at an address that some request carrying the master key, in secure mode, registered or set; with secure mode off there are no hooks at all.", "quantifier": "all histories of hook requests, settings, API keys and scopes, transactions, worker steps, failures and retries", "why_tests_cant": "A leak needs one particular combination of key, scope, setting and interleaving with an update or a retry; tests try a few keys against one handler.", "anchors": ["api/hooks.go:ensureHookManagementAuthorized", "api/middleware/auth.go:Authenticate", "internal/hooks/manager.go:UpdateHook", "internal/hooks/worker.go:ProcessHookTask"]}
{"id": "C213", "title": "A transaction that says it was reconciled was matched, and a matched one says so", "statement": "As long as clients leave the keys of the marks alone, a transaction whose metadata says it was reconciled was matched, in the reconciliation and with the external record that it names; and once the marks of a run are written every matched transaction says so.", "quantifier": "all histories of transactions, refunds and settlements, queue copies, reconciliation runs (dry or not), background marks, metadata updates, failures and crashes", "why_tests_cant": "The marks are written in the background into rows that refunds and settlements copy their metadata from; what a row says depends on the order of a run, its marks and later copies.", "anchors": ["reconciliation.go:updateMatchedTransactionsMetadata", "database/metadata.go:UpdateTransactionMetadata", "transaction_refunds.go:prepareRefundTransaction", "transaction_inflight.go:finalizeCommitment"]}
{"id": "C214", "title": "A key sees and changes only what its scopes name", "statement": "Whatever request is made with an API key, records of a kind are shown only if the key's scopes allow reading that kind, and changed only if they allow writing or deleting it.", "quantifier": "all requests (methods, paths), keys, scope texts, settings and times; all routes of the API", "why_tests_cant": "It is a statement about every route together with every combination of scopes; tests try single routes with single scopes, and a route added in the wrong place is in no test.", "anchors": ["api/api.go:Router", "api/middleware/auth.go:getResourceFromPath", "api/middleware/auth.go:Authenticate", "api/middleware/scope.go:HasPermission"]}
{"id": "C215", "title": "After an upgrade the search index takes the records of the new version", "statement": "When a start has prepared the search collections without reporting an error, every record of the running version can be indexed, whatever version had created the collections and whatever went wrong in between; no start removes a field.", "quantifier": "all fields the collections may have had, all sequences of refused requests and lost answers, all orders of creating, any number of attempts", "why_tests_cant": "Tests create the collections anew; which earlier collections, faults and retries a start meets is decided by the installation.", "anchors": ["cmd/server.go:initializeTypeSense", "cmd/server.go:migrateTypeSenseSchema", "cmd/server.go:retryWithBackoff", "internal/search/search.go:EnsureCollectionsExist", "internal/search/search.go:MigrateTypeSenseSchema", "internal/search/search.go:compareSchemas"]}
{"id": "C216", "title": "The database can be upgraded, whatever happened to earlier upgrades", "statement": "After any history of migrations that were finished, interrupted or failed, `migrate up` succeeds and leaves the guards of the books in place (transactions and snapshots cannot be changed, changes are written down, references and indicators are unique), and `migrate down` succeeds and leaves no table behind. An upgrade keeps every transaction and fills in its effective date.", "quantifier": "all histories of files run upwards and downwards, stopped anywhere; all stored transactions for the effective dates", "why_tests_cant": "Tests migrate an empty database once, upwards; which files were undone or interrupted, and what rows were stored before, is the history of an installation.", "anchors": ["cmd/migrate.go:runMigrations", "cmd/migrate.go:migrateUpCommands", "cmd/migrate.go:migrateDownCommands", "sql/1712749737.sql", "sql/1742400213.sql", "sql/1766887982.sql", "sql/1769343506.sql", "sql/1721922047.sql", "sql/1781162328.sql"]}
{"id": "C217", "title": "Telemetry goes where the settings say, and encrypted where they say so", "statement": "Nothing is sent to a telemetry server unless observability is switched on. Traces, metrics and logs go to remote monitoring exactly when the DSN has the form `https://<write-key>@<host>/<project-id>`, over HTTPS to that host and with that key; the key is shown to no other host and never in the clear. Otherwise traces and metrics go only to the endpoints set for them, and nothing is sent in the clear for which an HTTPS address is set.", "quantifier": "all texts of DSN and endpoints, all parsers of addresses whose hosts have no slash, all combinations of settings", "why_tests_cant": "Tests read a handful of DSNs and never look at which combination of settings makes which exporter ask which address; whether a key can reach another host is a statement about all of them.", "anchors": ["internal/monitoringexporter/config.go:ParseDSN", "internal/monitoringexporter/config.go:FromDSN", "internal/monitoringexporter/config.go:SignalURL", "internal/monitoringexporter/exporters.go:NewTraceExporter", "internal/traces/otel.go:newTraceExporter", "internal/traces/otel.go:newMeterProvider", "internal/traces/otel.go:parseOTLPEndpoint", "config/config.go:RemoteMonitoringDSN"]}
