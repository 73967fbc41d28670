{"claims": [
 {"property": "C01", "status": "proved", "theorems": ["Blnk.c01_double_entry", "Blnk.c01_posting_two_sided"], "note": "all runs of create/post/batch/store operations, accepted or refused"},
 {"property": "C02", "status": "proved", "theorems": ["Blnk.c02_balance_is_credit_minus_debit"], "note": ""},
 {"property": "C03", "status": "proved", "theorems": ["Blnk.c03_no_overdraft_with_holds", "Blnk.c03_no_overdraft_without_permission", "Blnk.c03_accepted_debit_is_funded", "Blnk.c03_accepted_iff_covered"], "note": "exact acceptance condition plus the run invariant"},
 {"property": "C04", "status": "proved", "theorems": ["Blnk.c04_overdraft_floor_with_holds", "Blnk.c04_overdraft_floor", "Blnk.c04_accepted_iff_within_limit", "Blnk.c04_any_limit_fails"], "note": "floor over all runs; acceptance iff for limits whose minor-unit value fits in int64; c04_any_limit_fails shows that larger limits wrap and wrongly refuse"},
 {"property": "C05", "status": "proved", "theorems": ["Blnk.c05_refused_changes_nothing", "Blnk.c05_refused_by_id_is_identity", "Blnk.c05_refused_batch_is_identity"], "note": "a refused posting by indicator may leave freshly opened zero accounts, nothing else"},
 {"property": "C06", "status": "proved", "theorems": ["Blnk.c06_posted_amount_positive", "Blnk.c06_nonpositive_refused", "Blnk.c06_columns_never_decrease"], "note": ""},
 {"property": "C07", "status": "proved", "theorems": ["Blnk.c07_exact_amounts_convert_exactly", "Blnk.c07_rounds_to_nearest", "Blnk.c07_missing_precision", "Blnk.c07_any_precision_fails"], "note": "positive integer precisions; c07_any_precision_fails shows the claim does not extend to fractional precisions"},
 {"property": "C08", "status": "proved", "theorems": ["Blnk.c08_precise_amount_authoritative", "Blnk.c08_conversion_idempotent"], "note": ""},
 {"property": "C12", "status": "proved", "theorems": ["Blnk.c12_reference_at_most_once", "Blnk.c12_second_use_refused", "Blnk.c12_race_loser_refused", "Blnk.c12_batch_with_used_reference_refused", "Blnk.c12_reference_once_under_races"], "note": ""},
 {"property": "C13", "status": "partial", "theorems": ["Blnk.c13_full_fails", "Blnk.c13_self_transfer_partial"], "note": "violated by the code: alone a self-transfer conflicts with itself, in a batch it is applied"},
 {"property": "C14", "status": "proved", "theorems": ["Blnk.c14_batch_equals_one_by_one", "Blnk.c14_batch_all_or_nothing", "Blnk.c14_batch_accepted_iff", "Blnk.c14_converse_fails"], "note": "transfers between two different accounts (self-transfers are C13); the converse (accepted one by one implies accepted as a batch) holds without queued checks and fails with them, both proved"},
 {"property": "C15", "status": "proved", "theorems": ["Blnk.c15_batch_references_fresh"], "note": ""},
 {"property": "C09", "status": "proved", "theorems": ["Blnk.c09_all_or_nothing", "Blnk.c09_outbox_matches_posted"], "note": "statement-level interleaving model of the SQL transactions with crashes at every point"},
 {"property": "C10", "status": "proved", "theorems": ["Blnk.c10_no_lost_updates", "Blnk.c10_version_counts_updates", "Blnk.c10_double_entry_under_races"], "note": "any number of workers, no lock assumed; PostgreSQL READ COMMITTED row locking as described in the model"},
 {"property": "C11", "status": "proved", "theorems": ["Blnk.c11_no_overdraft_under_races", "Blnk.c11_committed_debit_was_funded"], "note": ""},
 {"property": "C22", "status": "partial", "theorems": ["Blnk.c22_never_over_committed", "Blnk.c22_accepted_commit_within_remainder", "Blnk.c22_late_commit_is_atomic", "Blnk.c22_late_void_is_atomic", "Blnk.c22_full_fails"], "note": "per stored row the claim is proved for all histories; for a queued hold, which is stored as a QUEUED row and an INFLIGHT row, both rows can be committed (c22_full_fails)"},
 {"property": "C23", "status": "partial", "theorems": ["Blnk.c23_void_releases_remainder", "Blnk.c23_void_effect", "Blnk.c23_columns_are_open_holds_partial", "Blnk.c23_full_fails"], "note": "void amount proved for all histories; the column equation needs settlements to name the INFLIGHT row, and fails otherwise (c23_full_fails: expiry of a committed queued hold releases another hold)"},
 {"property": "C24", "status": "proved", "theorems": ["Blnk.c24_void_is_final", "Blnk.c24_full_commit_is_final"], "note": "per stored row, any later state"},
 {"property": "C26", "status": "partial", "theorems": ["Blnk.c26_commit_succeeds_partial", "Blnk.c26_void_succeeds_partial", "Blnk.c26_full_fails", "Blnk.c26_self_hold_cannot_settle"], "note": "proved when settlements name INFLIGHT rows and the two accounts differ; both restrictions are shown necessary"},
 {"property": "C60", "status": "proved", "theorems": ["Blnk.c60_balance_is_sum_of_applied_rows"], "note": ""},
 {"property": "C25", "status": "proved", "theorems": ["Blnk.c25_redelivery_no_effect", "Blnk.c25_acked_delivery_finishes_every_leg", "Blnk.c25_references_distinct", "Blnk.c25_acked_full_action_closes_every_hold", "Blnk.c25_full_fails"], "note": "a leg is a stored row; c25_full_fails records that a hold still waiting in the queue has two rows, and one action delivered twice can settle both"},
 {"property": "C27", "status": "proved", "theorems": ["Blnk.Bulk.c27_one_result_per_item_in_order", "Blnk.Bulk.c27_terminates", "Blnk.Bulk.c27_counts_add_up", "Blnk.c27_distinct_holds_all_succeed"], "note": "last part for INFLIGHT holds between two different accounts"},
 {"property": "C61", "status": "proved", "theorems": ["Blnk.c61_columns_never_negative"], "note": ""},
 {"property": "C16", "status": "proved", "theorems": ["Blnk.Lock.c16_exclusive_until_expiry", "Blnk.Lock.c16_free_after_expiry_or_release", "Blnk.Lock.c16_critical_sections_disjoint"], "note": "Lock values are assumed distinct (fresh UUIDs); Redis is one store that executes commands one at a time and expires exactly. ExtendLock has no callers but is covered by the first theorem."},
 {"property": "C17", "status": "partial", "theorems": ["Blnk.Lock.c17_no_deadlock_partial", "Blnk.Lock.c17_waiting_owns_nothing", "Blnk.Lock.c17_full_fails"], "note": "Proved for a connection that delivers every unlock. If an unlock issued by rollback is lost, the code ignores the error and the client is then blocked by its own lock until it expires: Lock.c17_full_fails."},
 {"property": "C18", "status": "partial", "theorems": ["Blnk.Lock.c18_keys_normalised", "Blnk.Lock.c18_failed_or_released_owns_nothing_partial", "Blnk.Lock.c18_only_owner_ends_a_lock", "Blnk.Lock.c18_locks_only_its_keys", "Blnk.Lock.c18_leak_is_bounded", "Blnk.Lock.c18_full_fails"], "note": "That a failed attempt leaves nothing locked is proved for a reliable connection and refuted for a lossy one (Lock.c18_full_fails); the other theorems hold for both."},
 {"property": "C19", "status": "partial", "theorems": ["Blnk.Split.c19_adds_up_or_nothing_positive_partial", "Blnk.Split.c19_adds_up_partial", "Blnk.Split.c19_full_fails", "Blnk.Split.c19_repeated_party_fails"], "note": "Proved for distinct named parties of which one asks for at least one minor unit (and, without that, that the split has no positive leg or adds up). Refuted in general: an all-zero list is accepted and gets nothing; one minor unit split over a repeated party vanishes."},
 {"property": "C20", "status": "partial", "theorems": ["Blnk.Split.c20_no_negative_leg_partial", "Blnk.Split.c20_full_fails", "Blnk.Split.c20_overcommitted_without_left"], "note": "Proved when the entries together do not ask for more than the total. Refuted in general: fixed amounts and percentages are compared with the total separately."},
 {"property": "C21", "status": "partial", "theorems": ["Blnk.Split.c21_legs_distinct_and_traceable_partial", "Blnk.Split.c21_every_claimant_has_a_leg_partial", "Blnk.Split.c21_full_fails", "Blnk.Split.c21_order_fails"], "note": "Order is Go's map order, and zero fixed entries and second left entries get no leg; the rest is proved."},
 {"property": "C62", "status": "partial", "theorems": ["Blnk.Split.c62_at_least_the_share", "Blnk.Split.c62_within_rounding_partial", "Blnk.Split.c62_full_fails", "Blnk.Split.c62_one_unit_goes_to_the_first"], "note": "Upper bound for lists that say where everything goes. Refuted in general: what the list leaves over goes to the largest party."},
 {"property": "C28", "status": "partial", "theorems": ["Blnk.c28_each_row_refunded_once_partial", "Blnk.c28_second_refund_refused_partial", "Blnk.c28_full_fails", "Blnk.c28_second_request_undoes_refund"], "note": "Each stored row is refunded at most once over every history, even without the lock. The request-level claim is false: a second synchronous request for the same transaction finds the refund row itself and refunds it, which re-applies the payment (c28_full_fails)."},
 {"property": "C29", "status": "proved", "theorems": ["Blnk.c29_refund_moves_amount_back", "Blnk.c29_refund_accepted", "Blnk.c29_as_if_never_posted", "Blnk.c29_only_settled_refunded"], "note": "Synchronous refunds of APPLIED rows; the row itself must not be a hold id (a hold is INFLIGHT, so it is not refundable)."},
 {"property": "C30", "status": "proved", "theorems": ["Blnk.Queue.c30_at_most_one_outcome", "Blnk.Queue.c30_later_attempts_change_nothing", "Blnk.Queue.c30_attempts_carry_submission"], "note": "Relational model of the queue: acceptance, storing, enqueueing (or not), any number of deliveries, coalesced batches, recovery copies, rejections, crashes and all other ledger work in any order."},
 {"property": "C31", "status": "partial", "theorems": ["Blnk.Queue.c31_acknowledged_has_outcome_partial", "Blnk.Queue.c31_limit_not_returned", "Blnk.Queue.duplicate_recognised", "Blnk.Queue.c31_full_fails", "Blnk.Queue.c31_own_fails"], "note": "Partial: the worker decides by error text, and the not-found text quotes the client's account name, so a name containing the duplicate message is acknowledged with no outcome (c31_full_fails); a client reference equal to another's derived reference has that task acknowledged (c31_own_fails). Proved for all other names and faults."},
 {"property": "C32", "status": "partial", "theorems": ["Blnk.Queue.c32_at_most_three_replays_partial", "Blnk.Queue.c32_then_rejected", "Blnk.Queue.c32_outcome_untouched", "Blnk.Queue.c32_full_fails", "Blnk.Queue.c32_client_counter", "Blnk.Queue.c32_atomic_leg_left_queued"], "note": "Partial: the bound needs the counter write to succeed and the counter to start at zero; it is lost on a failed write (c32_full_fails), client metadata can set it (c32_client_counter), and an atomic leg with a rejected sibling is never counted (c32_atomic_leg_left_queued)."},
 {"property": "C33", "status": "partial", "theorems": ["Blnk.Queue.c33_number_in_range", "Blnk.Queue.c33_queue_is_served", "Blnk.Queue.c33_same_source_same_queue_partial", "Blnk.Queue.c33_full_fails"], "note": "Partial: a task enqueued after its row could not be stored may still name an indicator and lands in another queue (c33_full_fails)."},
 {"property": "C34", "status": "partial", "theorems": ["Blnk.Queue.c34_single_lane_partial", "Blnk.Queue.c34_switch_only_when_drained", "Blnk.Queue.c34_full_fails", "Blnk.Queue.c34_error_fails", "Blnk.Queue.c34_race_fails", "Blnk.Queue.c34_split_lanes_differ"], "note": "Partial: holds for histories without state-key expiry while hot work is pending, without errors while hot, and with lane decision and row storage in one step; each exception is shown to break it."},
 {"property": "C35", "status": "proved", "theorems": ["Blnk.Lineage.c35_total", "Blnk.Lineage.c35_within", "Blnk.Lineage.c35_fifo_oldest_first", "Blnk.Lineage.c35_lifo_newest_first"], "note": "Exact total, per-provider cap and date order for FIFO and LIFO, over all source lists and amounts. Sorting is modelled as stable; sort.Slice does not promise an order among mappings created at the same instant, and the theorems do not depend on it."},
 {"property": "C36", "status": "partial", "theorems": ["Blnk.Lineage.c36_total_partial", "Blnk.Lineage.c36_two_providers_partial", "Blnk.Lineage.c36_all_partial", "Blnk.Lineage.c36_within", "Blnk.Lineage.c36_full_fails"], "note": "The full statement is false: with three or more providers rounding can leave part of the debit unallocated (c36_full_fails). Proved: never more than the debit or any holding; shortfall at most providers minus two; exact for two providers or when everything is needed."},
 {"property": "C37", "status": "partial", "theorems": ["Blnk.Lineage.c37_releases_partial", "Blnk.Lineage.c37_never_too_much_partial", "Blnk.Lineage.c37_receives_partial", "Blnk.Lineage.c37_proportional_fails", "Blnk.Lineage.c37_hold_fails", "Blnk.Lineage.c37_receive_lost", "Blnk.Lineage.c37_unprepared_lost", "Blnk.Lineage.c37_late_credit_fails"], "note": "The full statement is false in five ways (witnesses: proportional retry, hold retry, crash between release and receive, unprepared destination, late credit). Proved: FIFO/LIFO non-hold debits release exactly the undisturbed amounts after any interruptions; nothing is ever released twice or beyond the debit; receives match releases when no attempt stops between the two rows."},
 {"property": "C38", "status": "partial", "theorems": ["Blnk.Lineage.c38_never_stuck_partial", "Blnk.Lineage.c38_bounded_attempts_partial", "Blnk.Lineage.c38_terminal_partial", "Blnk.Lineage.c38_full_fails"], "note": "The full statement is false: a late answer of a worker whose lock expired moves a completed item back to pending (c38_full_fails). Proved for all histories: never stuck; under exclusive claims the attempt bound and finality."},
 {"property": "C39", "status": "proved", "theorems": ["Blnk.Chain.c39_contiguous", "Blnk.Chain.c39_sealed_for_good", "Blnk.Chain.c39_backlog_cleared", "Blnk.Chain.c39_honest_verifies"], "note": "All histories of inserts, sealing rounds and crashed rounds, any hash function, any batch and page size. A sealing round is one database transaction holding the chain_state row, so rounds are steps."},
 {"property": "C40", "status": "partial", "theorems": ["Blnk.Chain.c40_detected_partial", "Blnk.Chain.c40_contents_partial", "Blnk.Chain.c40_removed_partial", "Blnk.Chain.c40_full_fails", "Blnk.Chain.c40_ambiguous_fails", "Blnk.Chain.c40_other_length_fails"], "note": "The full statement is false for every hash function: moving the separator between currency and reference is not seen (c40_ambiguous_fails), and removing or inserting with the later links recomputed is not seen because the head is only compared when the length matches (c40_other_length_fails). Proved: every other change that keeps the number of sealed rows is reported or exhibits two hashed texts with one hash; a hole in the numbers is reported unconditionally."},
 {"property": "C41", "status": "partial", "theorems": ["Blnk.Chain.c41_truncation_never_reported", "Blnk.Chain.c41_full_fails", "Blnk.Chain.c41_reported_length_partial"], "note": "The full statement is false, for every history, hash and cut: truncation is always reported as verified (c41_truncation_never_reported). Only the reported count reveals it (c41_reported_length_partial)."},
 {"property": "C42", "status": "partial", "theorems": ["Blnk.Chain.c42_full_fails", "Blnk.Chain.c42_chain_text_fails", "Blnk.Chain.c42_row_text_fails", "Blnk.Chain.c42_chain_text_partial", "Blnk.Chain.c42_row_text_partial"], "note": "The full statement is false for both hashes (unescaped separator; plain concatenation). Proved: the chain text determines every field when only the reference may contain the separator; the per-row text changes with any single field."},
 {"property": "C43", "status": "proved", "theorems": ["Blnk.Chain.c43_immutable", "Blnk.Chain.c43_refused_whole", "Blnk.Chain.c43_metadata_only", "Blnk.Chain.c43_unprotected_fails"], "note": "All sequences of INSERT and UPDATE statements under the trigger. DELETE is not prevented by the trigger and is outside the property; effective_date and parent_transaction are not protected (c43_unprotected_fails)."},
 {"property": "C44", "status": "partial", "theorems": ["Blnk.Auth.c44_grant_sound", "Blnk.Auth.c44_no_new_permission_partial", "Blnk.Auth.c44_requests_partial", "Blnk.Auth.c44_outlives_fails", "Blnk.Auth.c44_survives_revocation"], "note": "Permissions never grow along any chain of delegated creations (all histories, all scope texts). The full statement is false in time: a key may expire later than its creator and survives its creator's expiry and revocation (c44_outlives_fails, c44_survives_revocation)."},
 {"property": "C45", "status": "proved", "theorems": ["Blnk.Auth.c45_default_deny", "Blnk.Auth.c45_no_configuration"], "note": "Exact characterisation for all requests, keys and scope texts. Public paths are /, /health and /metrics. bcrypt is modelled as equality of secrets; the lookup is any function, so the cache of C46 is covered."},
 {"property": "C46", "status": "partial", "theorems": ["Blnk.KeyCache.c46_full_fails", "Blnk.KeyCache.c46_race_fails", "Blnk.KeyCache.c46_two_servers_fails", "Blnk.KeyCache.c46_failed_deletion_fails", "Blnk.KeyCache.c46_quiet_partial", "Blnk.KeyCache.c46_bounded_partial"], "note": "The full statement is false (overlapping lookup refills the cache; another server keeps its local copy; failed cache deletion). Proved: immediate when one server and no overlapping lookup; in every case refused once both cache lifetimes have passed. The behaviour of the go-redis/cache library (two levels, local deletion only) is assumed."},
 {"property": "C47", "status": "proved", "theorems": ["Blnk.Auth.c47_create", "Blnk.Auth.c47_list", "Blnk.Auth.c47_revoke", "Blnk.Auth.c47_confined"], "note": "All callers, owners and stores."},
 {"property": "C63", "status": "partial", "theorems": ["Blnk.Auth.c63_full_fails", "Blnk.Auth.c63_wei_fails", "Blnk.Auth.c63_small_partial"], "note": "The full statement is false: POST bodies sent with an API key are decoded into float64 and encoded again, so whole numbers above 2^53 change (10^18+1 becomes 10^18). Below 2^53 they are preserved, given that Go prints such floats exactly."},
 {"property": "C48", "status": "partial", "theorems": ["Blnk.Token.c48_standard", "Blnk.Token.c48_format_partial", "Blnk.Token.c48_colon_lost", "Blnk.Token.c48_full_fails", "Blnk.Token.c48_shape"], "note": "Standard tokens: all values. Format-preserving tokens (the mode identities use): exactly the values without a colon; one with a colon is never recovered (c48_colon_lost). AES-GCM and base64 are a parameter assumed to open what they seal and to reject texts with a colon."},
 {"property": "C64", "status": "partial", "theorems": ["Blnk.Token.c64_one_request", "Blnk.Token.c64_sequential", "Blnk.Token.c64_concurrent_fails", "Blnk.Token.c64_full_fails", "Blnk.Token.c64_update_partial", "Blnk.Token.c64_update_fails"], "note": "Proved for any number of requests served one after the other. The full statement is false: two overlapping requests for different fields always put one of them back in clear text, and a client update with meta_data removes the mark, after which the value is lost."},
 {"property": "C49", "status": "proved", "theorems": ["Blnk.Filter.c49_mentions", "Blnk.Filter.c49_values_bound"], "note": "All tables, filter lists and values except arrays and objects as values. The text is modelled as tokens with their exact spelling; PostgreSQL's parser is trusted to read them so."},
 {"property": "C50", "status": "partial", "theorems": ["Blnk.Filter.c50_partial", "Blnk.Filter.c50_full_fails", "Blnk.Filter.c50_dropped_returns_all"], "note": "The full statement is false: an equality filter on a metadata key with NaN or an infinity (accepted from the URL) is dropped and the listing is complete (c50_dropped_returns_all). Proved for every other list, for AND and OR: one condition per filter, and the text with its arguments, read with SQL's precedence, selects exactly the rows asked for."},
 {"property": "C65", "status": "partial", "theorems": ["Blnk.Filter.c65_partial", "Blnk.Filter.c65_full_fails"], "note": "The full statement is false: 007 in the URL becomes the number 7 (c65_full_fails). Proved for texts that read neither as a number nor as a date."},
 {"property": "C66", "status": "partial", "theorems": ["Blnk.Filter.c66_sort_partial", "Blnk.Filter.c66_sort_fails", "Blnk.Filter.c66_two_indicators"], "note": "The full statement is false: sorting transactions by balance_id or indicator names a column that does not exist; two indicator filters name one CTE twice. Proved: every other sort field is a column of its table; C49 shows that filters name existing columns only."},
 {"property": "C67", "status": "partial", "theorems": ["Blnk.Filter.c67_partial", "Blnk.Filter.c67_full_fails"], "note": "The full statement is false: further values of a repeated parameter and parameters with an unknown operator are skipped silently. Proved: a parameter given once with a known operator becomes its filter, whatever underscores the field has."},
 {"property": "C68", "status": "partial", "theorems": ["Blnk.Filter.c68_partial", "Blnk.Filter.c68_full_fails"], "note": "The full statement is false for dates and times: eq asks for the whole period, ne for another instant than its start. Proved for all other values."},
 {"property": "C51", "status": "partial", "theorems": ["Blnk.Snap.c51_source_partial", "Blnk.Snap.c51_source_now", "Blnk.Snap.c51_error_exact", "Blnk.Snap.c51_snapshot_partial", "Blnk.Snap.c51_full_fails", "Blnk.Snap.c51_backdated_fails", "Blnk.Snap.c51_queued_posting_fails", "Blnk.Snap.c51_posting_during_run_counted_twice", "Blnk.Snap.c51_source_zero_date_fails", "Blnk.Snap.c51_source_offset_fails"], "note": "The full statement is false. From source it holds for timestamps in UTC and rows dated after the zero time, and at the present it is the stored balance. From a snapshot the error is computed exactly, for every execution and any number of overlapping snapshot runs; it is zero when every row lies on the right side of the snapshot. It is not for backdated rows, for queued requests accepted before and posted after a snapshot, and for postings made while a run is under way (counted twice)."},
 {"property": "C69", "status": "partial", "theorems": ["Blnk.Snap.c69_commit_covers", "Blnk.Snap.c69_run_covers_and_ends", "Blnk.Snap.c69_once_a_day_partial", "Blnk.Snap.c69_overlapping_runs_fail", "Blnk.Snap.c69_snapshots_stay"], "note": "Covering and termination are proved for all interleavings. At most one snapshot a day is proved when runs do not overlap and false when they do (c69_overlapping_runs_fail)."},
 {"property": "C70", "status": "partial", "theorems": ["Blnk.Snap.c70_figures_kept", "Blnk.Snap.c70_metadata_can_change_partial", "Blnk.Snap.c70_full_fails"], "note": "The figures are never changed by an update. The metadata can be changed only if the balance had a transaction when the snapshot was taken: NULL last_tx_id blocks every update (c70_full_fails). Deletion is not prevented by the trigger and not claimed."},
 {"property": "C71", "status": "partial", "theorems": ["Blnk.Trig.c71_metadata_inert_partial", "Blnk.Trig.c71_reconciliation_repairs", "Blnk.Trig.c71_full_fails", "Blnk.Trig.c71_first_posting_lost", "Blnk.Trig.c71_first_credit_lost"], "note": "The full statement is false: a balance created with BLNK_RUN_RECONCILIATION=SOURCE in its metadata loses the effect of its first posting, because the trigger fires on the posting's own UPDATE before the transaction row exists. Proved for every execution without such a creation: the ledger is exactly what the postings produce; and reconciling repairs any state."},
 {"property": "C52", "status": "partial", "theorems": ["Blnk.Mon.c52_check_exact", "Blnk.Mon.c52_unknown_field_never_fires", "Blnk.Mon.c52_unknown_operator_never_fires", "Blnk.Mon.c52_partial", "Blnk.Mon.c52_equality_never_fires", "Blnk.Mon.c52_full_fails", "Blnk.Mon.c52_fraction_refused", "Blnk.Mon.c52_zero_refused"], "note": "The full statement is false for equality: the table accepts = only, the check understands == only, so no stored equality monitor ever fires. Proved: the check is exact for every other monitor and balance, unknown fields and operators never fire, and end to end, for every sequence of requests served by one process with whole thresholds that no update changes, exactly the monitors whose condition holds are notified. Fractional and zero thresholds are refused. float64 products are modelled as exact."},
 {"property": "C72", "status": "partial", "theorems": ["Blnk.Mon.c72_create_delete", "Blnk.Mon.c72_update_keeps_threshold", "Blnk.Mon.c72_threshold_fails", "Blnk.Mon.c72_full_fails", "Blnk.Mon.c72_moved_fails", "Blnk.Mon.c72_other_process_fails", "Blnk.Mon.c72_race_fails"], "note": "The full statement is false: an update never changes the threshold the check uses; a moved monitor keeps notifying for its old balance; other processes use their local copy; an overlapping posting refills the cache with what it read before. Proved for one process and non-overlapping requests that leave monitors with their balance."},
 {"property": "C53", "status": "partial", "theorems": ["Blnk.Atomic.c53_inflight_rolled_back", "Blnk.Atomic.c53_inflight_as_before", "Blnk.Atomic.c53_refunded_once_delivered_partial", "Blnk.Atomic.c53_refunded_as_before_partial", "Blnk.Atomic.c53_failed_inflight_request", "Blnk.Atomic.c53_failed_request_refunded_partial", "Blnk.Atomic.c53_full_fails", "Blnk.Atomic.c53_answer_before_refund", "Blnk.Atomic.c53_split_items_stay"], "note": "Inflight requests are fully rolled back at every failure position, also while others work on the same accounts. For ordinary requests the full statement is false: the answer is given when the refunds are only queued (c53_answer_before_refund); the balances are restored once the workers applied them, in any order. Split items are never rolled back (c53_split_items_stay). Requests with skip_queue; without it see C73."},
 {"property": "C73", "status": "partial", "theorems": ["Blnk.Atomic.c73_rollback_finds_nothing", "Blnk.Atomic.c73_full_fails"], "note": "The full statement is false: the rollback of a queued request never finds an item, and the items are applied all the same."},
 {"property": "C54", "status": "partial", "theorems": ["Blnk.Preview.c54_would_apply_partial", "Blnk.Preview.c54_rejection_partial", "Blnk.Preview.c54_split_would_apply_partial", "Blnk.Preview.c54_split_rejection_partial", "Blnk.Preview.c54_bulk_would_apply_partial", "Blnk.Preview.c54_bulk_rejection_partial", "Blnk.Preview.c54_settle_would_apply_partial", "Blnk.Preview.c54_settle_rejection_partial", "Blnk.Preview.c54_queued_checks_fail", "Blnk.Preview.c54_queued_request_fails", "Blnk.Preview.c54_split_reference_fails", "Blnk.Preview.c54_two_names_fail", "Blnk.Preview.c54_two_currencies_fail"], "note": "Proved for synchronous requests on an unchanged ledger, both directions and with exact final figures: single movements, splits, batches of unsplit items, commits and voids of one hold. The full statement is false: queued checks with a source named by indicator, queued requests counting themselves, split leg references in use, one balance under two names, two currencies in a batch. That a dry run writes nothing holds by construction of the model: every datasource call on these paths is a read. Refund previews and parents with several holds are not covered."},
 {"property": "C57", "status": "partial", "theorems": ["Blnk.Paging.c57_legs_walk_once_partial", "Blnk.Paging.c57_legs_collect_once_partial", "Blnk.Paging.c57_legs_walk_covers_partial", "Blnk.Paging.c57_legs_collect_covers_partial", "Blnk.Paging.c57_refund_walk_covers_partial", "Blnk.Paging.c57_legs_walk_ends", "Blnk.Paging.c57_full_fails", "Blnk.Paging.c57_ties_fail", "Blnk.Paging.c57_queued_leg_skipped", "Blnk.Paging.c57_refund_twice"], "note": "Both page walkers, all page sizes and leg counts, with arbitrary steps of the ledger between the queries. Once a leg is on the books and creation times differ, no leg is skipped whatever happens, and each is handed out exactly once unless a further hold is created under the parent. Refunds: nothing skipped. Fails (witnesses) for legs with equal creation time, for legs still queued when the walk starts, and refunds may be handed out twice."},
 {"property": "C55", "status": "proved", "theorems": ["Blnk.Indicator.c55_one_balance", "Blnk.Indicator.c55_same_balance", "Blnk.Indicator.c55_returns"], "note": "Any number of calls, any interleaving of their statements with each other and with every other ledger action. Assumes generated ids are new (uuid) and that statements do not fail other than by unique constraints."},
 {"property": "C56", "status": "partial", "theorems": ["Blnk.Meta.c56_merges_partial", "Blnk.Meta.c56_refused", "Blnk.Meta.c56_repeat_partial", "Blnk.Meta.c56_answer_partial", "Blnk.Meta.c56_transactions_concurrent", "Blnk.Meta.c56_entity_concurrent_partial", "Blnk.Meta.c56_lost_update", "Blnk.Meta.c56_full_fails", "Blnk.Meta.c56_reconcile_fails", "Blnk.Meta.c56_answer_fails"], "note": "The full statement is false: two overlapping updates of a ledger, balance or identity lose keys (read-modify-write), a balance update with the reconcile key rewrites it, and a transaction update answers only the given keys. Proved otherwise: exact merge, kept keys, idempotence, refused updates change nothing, overlapping transaction updates lose nothing."},
 {"property": "C58", "status": "partial", "theorems": ["Blnk.Recon.c58_unmatched_partial", "Blnk.Recon.c58_exact_rules_partial", "Blnk.Recon.c58_matches_hold", "Blnk.Recon.c58_one_verdict_partial", "Blnk.Recon.c58_full_fails", "Blnk.Recon.c58_two_rules_fail", "Blnk.Recon.c58_currency_fails", "Blnk.Recon.c58_subsecond_fails", "Blnk.Recon.c58_unreadable_page_fails"], "note": "The full statement is false: the query that preselects transactions is narrower than the rules (drift counted from the wrong side, bounds of one rule applied to all, case of the currency, fractions of a second), and an unreadable page counts as no match. Proved: transactions the query admits are all looked at when every page can be read; every reported match satisfies a rule."},
 {"property": "C59", "status": "partial", "theorems": ["Blnk.Recon.c59_one_page_partial", "Blnk.Recon.c59_reported", "Blnk.Recon.c59_matches_hold", "Blnk.Recon.c59_two_pages_fail", "Blnk.Recon.c59_full_fails", "Blnk.Recon.c59_group_twice_fails"], "note": "The full statement is false over two pages (a record is reported matched and unmatched) and for two records that fit the same group. Proved: exactly one verdict if the grouped rows fit on one page; a record whose run ends is always reported; matches hold."},
 {"property": "C74", "status": "partial", "theorems": ["Blnk.Recon.c74_at_most_workers_partial", "Blnk.Recon.c74_unambiguous_partial", "Blnk.Recon.c74_one_record_fails", "Blnk.Recon.c74_full_fails"], "note": "The full statement is false: every worker reports its first match, and nothing marks a transaction as taken. Proved: at most as many matches as workers; at most one if only one transaction satisfies the rules."},
 {"property": "C75", "status": "partial", "theorems": ["Blnk.Recon.c75_one_upload_partial", "Blnk.Recon.c75_second_upload_gets_first", "Blnk.Recon.c75_full_fails", "Blnk.Recon.c75_same_date_fails"], "note": "The full statement is false: the page cache does not name the upload, so a run started while another upload's page is cached handles that page; rows of equal date may move between pages. Proved for any number of interleaved runs of one upload with different dates."},
 {"property": "C76", "status": "partial", "theorems": ["Blnk.Recon.c76_one_page_partial", "Blnk.Recon.c76_unmatched_never_ends", "Blnk.Recon.c76_full_fails"], "note": "The full statement is false: any record that fits no group of a table of two or more pages blocks its run forever. Proved for tables of one page."},
 {"property": "C77", "status": "partial", "theorems": ["Blnk.Recon.c77_one_page_partial", "Blnk.Recon.c77_full_fails", "Blnk.Recon.c77_group_missed_fails"], "note": "The full statement is false for groups that lie across two pages. Proved for tables of one page."},
 {"property": "C78", "status": "proved", "theorems": ["Blnk.Recon.c78_figures", "Blnk.Recon.c78_dry_run"], "note": "All lists of outcomes. The only storage error modelled is the one of the amount column; the updates of the matched transactions' metadata are not modelled here."},
 {"property": "C79", "status": "partial", "theorems": ["Blnk.Recon.c79_amounts_partial", "Blnk.Recon.c79_full_fails", "Blnk.Recon.c79_large_fails"], "note": "The full statement is false: matches.amount is NUMERIC(12,2), so further decimals are rounded and an amount from 10^10 fails the whole run. Proved for amounts with two decimals below that."},
 {"property": "C80", "status": "partial", "theorems": ["Blnk.Upload.c80_accepted_partial", "Blnk.Upload.c80_resend_refused", "Blnk.Upload.c80_others_kept", "Blnk.Upload.c80_full_fails", "Blnk.Upload.c80_date_fails", "Blnk.Upload.c80_refused_stays_fails", "Blnk.Upload.c80_timeout_fails", "Blnk.Upload.c80_json_partial", "Blnk.Upload.c80_json_truncated", "Blnk.Upload.c80_json_truncated_fails"], "note": "The full statement is false: unreadable amounts become 0 and unreadable dates the year 1, a refused upload leaves its rows so the corrected file is always refused, rows are dropped silently when the time is over, and a JSON array that breaks off after a record is accepted. Proved: accepted uploads of legible files that were not given up stored every row once, for all interleavings and failing inserts."},
 {"property": "C81", "status": "partial", "theorems": ["Blnk.Upload.c81_answered_partial", "Blnk.Upload.c81_reaches_answer_partial", "Blnk.Upload.c81_bad_file_never_answered", "Blnk.Upload.c81_hangs_for_good", "Blnk.Upload.c81_full_fails"], "note": "The full statement is false: a CSV file with more bad rows than workers is never answered, and its goroutines never end. Proved for files with at most as many bad rows as workers and new ids."},
 {"property": "C82", "status": "partial", "theorems": ["Blnk.Queue.c82_applied_as_submitted_partial", "Blnk.Queue.c82_delivered_task_keeps_terms", "Blnk.Queue.c82_queue_respects_floor_partial", "Blnk.Queue.c82_full_fails", "Blnk.Queue.c82_limit_lost", "Blnk.Queue.c82_metadata_grants_overdraft", "Blnk.Queue.c82_metadata_makes_hold", "Blnk.Queue.c82_date_lost"], "note": "The full statement is false: coalescing and recovery rebuild the transaction from its row, which keeps neither overdraft limit nor effective date, and take the flags from client-writable metadata. Proved for all runs: amount, currency, parties, reference and link always; all terms for tasks from Redis; all terms for requests without limit, date and contradicting metadata; and the floor of an account whose debits carry no unlimited permission (other ledger work there: accounts, postings, batches, stored rows)."},
 {"property": "C83", "status": "partial", "theorems": ["Blnk.c83_no_settled_move_partial", "Blnk.c83_payee_pays", "Blnk.c83_full_fails"], "note": "The full statement is false: the refund of a VOID row is a new hold against the payee with overdraft allowed, and committing it takes money that was never paid. Proved: no settled column changes by the refund itself."},
 {"property": "C84", "status": "partial", "theorems": ["Blnk.Prov.c84_accounts_partial", "Blnk.Prov.c84_report_partial", "Blnk.Prov.c84_two_balances_fails", "Blnk.Prov.c84_lost_mapping_fails"], "note": "The full statement is false: the total account belongs to the identity, not to the balance, and a mapping that could not be written is never written again. Proved for all histories, with anything failing: an identity's total account holds what its providers' accounts hold together (no renames, no shared accounts, payments in the balance's currency); and the report adds up to it when nothing fails and the balance is the identity's only one in its currency."},
 {"property": "C85", "status": "partial", "theorems": ["Blnk.Prov.c85_together_partial", "Blnk.Prov.c85_no_holds_partial", "Blnk.Prov.c85_two_holds_fails"], "note": "The full statement is false: two holds are allocated to the same money of a provider. Proved for all histories, with anything failing: all providers of an identity together are never overspent; and no single provider is, if no hold is placed on a tracked balance."},
 {"property": "C86", "status": "partial", "theorems": ["Blnk.Prov.c86_in_order_partial", "Blnk.Prov.c86_tagged_fails", "Blnk.Prov.c86_shared_fails", "Blnk.Prov.c86_late_fails", "Blnk.Prov.c86_proportional_fails"], "note": "The full statement is false: a tagged transfer is counted twice, balances of one identity share a provider's account, a debit may overtake a credit, and proportional allocation leaves a remainder. Proved for histories in which the outbox is emptied after each movement, without holds, tags on debits, overdraft, shared identities or proportional allocation."},
 {"property": "C87", "status": "partial", "theorems": ["Blnk.Prov.c87_item_partial", "Blnk.Prov.c87_credit_partial", "Blnk.Prov.c87_debit_partial", "Blnk.Prov.c87_unknown_provider", "Blnk.Prov.c87_queued_hold_fails", "Blnk.Prov.c87_crash_fails", "Blnk.Prov.c87_unread_fails", "Blnk.Prov.c87_hold_blocks_fails", "Blnk.Prov.c87_rename_fails"], "note": "The full statement is false in five ways: queued holds get no outbox item, a crash between row and mapping leaves an item that can only fail, an unreadable balance completes the item, a hold blocks later debits, and a rename hides the total account. Proved: the item is written with the movement and never lost; what undisturbed attempts at credits and debits store; a tracked source that names a provider it has no money of attributes nothing."},
 {"property": "C88", "status": "partial", "theorems": ["Blnk.Prov.c88_settles_partial", "Blnk.Prov.c88_columns_partial", "Blnk.Prov.c88_retry", "Blnk.Prov.c88_over_partial", "Blnk.Prov.c88_early_fails", "Blnk.Prov.c88_part_fails"], "note": "The full statement is false: lineage written after the hold was settled stays held, and committing a part commits the lineage in full. Proved: settling the whole hold settles exactly its rows, with what that does to every lineage account; rows that could not be settled are retried; nothing stays held if the hold's item was finished first."},
 {"property": "C89", "status": "partial", "theorems": ["Blnk.Prov.c89_different_ids_partial", "Blnk.Prov.c89_same_name_fails", "Blnk.Prov.c89_joined_fails"], "note": "The full statement is false: accounts are named by customer name and the first eight characters of the identity's id, `idt_` and four digits. Proved for ids that differ in them."},
 {"property": "C90", "status": "partial", "theorems": ["Blnk.Sched.c90_watched_partial", "Blnk.Sched.c90_expired_partial", "Blnk.Sched.c90_not_early_partial", "Blnk.Sched.c90_early_partial", "Blnk.Sched.c90_queued_fails", "Blnk.Sched.c90_split_fails"], "note": "The full statement is false: the expiry task carries the id of the request, which for a queued hold is the QUEUED row and for a split no row at all. Proved for unsplit skip_queue holds: the task is kept until nothing is left or asynq gives up; an attempt leaves nothing and later settlements are refused; nothing is released early."},
 {"property": "C91", "status": "partial", "theorems": ["Blnk.Sched.c91_not_early_partial", "Blnk.Sched.c91_kept_partial", "Blnk.Sched.c91_skip_queue_fails"], "note": "The full statement is false: with skip_queue the date is ignored. Proved for queued requests: before the date all rows stay SCHEDULED; the task is kept until a row with the amount is posted or asynq gives up."},
 {"property": "C92", "status": "partial", "theorems": ["Blnk.Sched.c92_watched_partial", "Blnk.Sched.c92_acknowledged_partial", "Blnk.Sched.c92_settled_partial", "Blnk.Sched.c92_not_early_partial", "Blnk.Sched.c92_late_fails", "Blnk.Sched.c92_scheduled_fails"], "note": "The full statement is false for queued holds: a commit task that runs first commits the stand-in with another hold's funds, or finds nothing and is dropped. Proved for skip_queue holds, split or not."},
 {"property": "C93", "status": "partial", "theorems": ["Blnk.Hooks.c93_update_partial", "Blnk.Hooks.c93_delete_partial", "Blnk.Hooks.c93_nothing_made_up", "Blnk.Hooks.c93_update_fails", "Blnk.Hooks.c93_delete_fails"], "note": "The full statement is false: a worker that finishes an older task stores the hook as that task has it, which undoes updates and deletions. Proved: changes made while nothing of the hook is under way stick whatever follows; stored hooks and calls are always as some one request made them."},
 {"property": "C94", "status": "partial", "theorems": ["Blnk.Hooks.c94_stage_partial", "Blnk.Hooks.c94_lists_partial", "Blnk.Hooks.c94_twice_fails"], "note": "The full statement is false: registering an id again for the other stage leaves it on both lists. Proved if nobody changes the type of a hook; with changes of type, for requests one after the other, no failures and no id registered twice."},
 {"property": "C95", "status": "partial", "theorems": ["Blnk.Hooks.c95_bounded_partial", "Blnk.Hooks.c95_update_fails"], "note": "The full statement is false: updates are not validated and can ask for any number of retries. Proved: at most one more call than the hook's retries; eleven if updates ask for at most ten."},
 {"property": "C96", "status": "partial", "theorems": ["Blnk.Hooks.c96_queued_partial", "Blnk.Hooks.c96_called_partial", "Blnk.Hooks.c96_not_queued_fails", "Blnk.Hooks.c96_unlisted_fails", "Blnk.Hooks.c96_no_timeout_fails"], "note": "The full statement is false: a failed enqueue is dropped, a failed change of type leaves an active hook on no list, and an update without a timeout makes every attempt fail unsent. Proved: listed hooks get a task for every transaction of a firing whose commands work; delivered tasks were received, given-up ones used all attempts, each a call if the hook has a timeout and the network works."},
 {"property": "C97", "status": "partial", "theorems": ["Blnk.Hooks.c97_answer_partial", "Blnk.Hooks.c97_final_partial", "Blnk.Hooks.c97_status_fails"], "note": "The full statement is false: a JSON body decides regardless of the status, and redirects with a body count as success. Proved: what counts as success exactly, and that it is final."},
 {"property": "C98", "status": "partial", "theorems": ["Blnk.Web.c98_content_partial", "Blnk.Web.c98_wide_fails"], "note": "The full statement is false: payloads pass through float64. Proved: every delivery is of a deed of the history, exact but for whole numbers from 2^53 on, which still read as the same float."},
 {"property": "C99", "status": "partial", "theorems": ["Blnk.Web.c99_webhook_partial", "Blnk.Web.c99_signed_text", "Blnk.Web.c99_hook_fails"], "note": "The full statement is false: without a secret, hook calls are signed with the empty key. Proved for webhooks; the signed text determines timestamp and body."},
 {"property": "C100", "status": "partial", "theorems": ["Blnk.Web.c100_once_partial", "Blnk.Web.c100_outcome_partial", "Blnk.Web.c100_twice_fails", "Blnk.Web.c100_silent_fails", "Blnk.Web.c100_rename_fails"], "note": "The full statement is false: worker refusals are announced twice, queued and scheduled transactions never, renamed ledgers as created. Proved for all other deeds."},
 {"property": "C101", "status": "partial", "theorems": ["Blnk.Web.c101_delivered_partial", "Blnk.Web.c101_accepted_partial", "Blnk.Web.c101_off_partial", "Blnk.Web.c101_dropped_fails"], "note": "The full statement is false: while no URL is configured queued webhooks count as delivered. Proved otherwise."},
 {"property": "C102", "status": "partial", "theorems": ["Blnk.Srch.c102_amounts_partial", "Blnk.Srch.c102_wide_fails"], "note": "The full statement is false: amounts pass through float64 before they are turned into text. Proved: exact below 2^53, and never off by more than one part in 2^53."},
 {"property": "C103", "status": "proved", "theorems": ["Blnk.Srch.c103_fits", "Blnk.Srch.c103_id"], "note": "For every record with a numeric amount field, from either way of indexing."},
 {"property": "C104", "status": "partial", "theorems": ["Blnk.Srch.c104_rest_partial", "Blnk.Srch.c104_hold_fails", "Blnk.Srch.c104_version_fails"], "note": "The full statement is false: the rebuild's queries do not read version and inflight expiry of balances, and four columns of transactions. Proved for every other field."},
 {"property": "C105", "status": "partial", "theorems": ["Blnk.Srch.c105_known_partial", "Blnk.Srch.c105_general_fails", "Blnk.Srch.c105_recon_fails"], "note": "The full statement is false for the general ledger, which every index task overwrites with a fixed text, and for reconciliations, which are sent before they are stored. Proved for all others."},
 {"property": "C106", "status": "partial", "theorems": ["Blnk.Srch.c106_follows_partial", "Blnk.Srch.c106_overtaken_fails", "Blnk.Srch.c106_tokenized_fails", "Blnk.Srch.c106_deleted_fails", "Blnk.Srch.c106_owner_fails", "Blnk.Srch.c106_queued_fails"], "note": "The full statement is false: tasks overtake each other, and identity updates (tokenization included), deletions, owner changes and queued transactions are never sent. Proved for the changes that are sent, when the queue is worked off in order."},
 {"property": "C107", "status": "partial", "theorems": ["Blnk.Srch.c107_linked_partial", "Blnk.Srch.c107_refused_fails", "Blnk.Srch.c107_meta_fails", "Blnk.Srch.c107_drop_fails"], "note": "The full statement is false: rejected transactions and meta data updates carry no balances, and a rebuild drops them. Proved for executed transactions otherwise."},
 {"property": "C108", "status": "proved", "theorems": ["Blnk.Srch.c108_given_up", "Blnk.Srch.c108_attempt", "Blnk.Srch.c108_dead_stays"], "note": "The queue (asynq) keeps accepted tasks; its default of 25 retries is part of the model."},
 {"property": "C109", "status": "partial", "theorems": ["Blnk.Reidx.c109_complete_partial", "Blnk.Reidx.c109_recon_fails", "Blnk.Reidx.c109_deleted_fails", "Blnk.Reidx.c109_ties_fails", "Blnk.Reidx.c109_refused_fails", "Blnk.Reidx.c109_second_fails"], "note": "The full statement is false: reconciliations are dropped and never rebuilt, a deletion or rows of equal time make pages skip records, refused documents are left out, and a second accepted rebuild empties the index. Proved: without deletions, equal times and other rebuilds every record is found or named among the errors."},
 {"property": "C110", "status": "partial", "theorems": ["Blnk.Reidx.c110_counts_partial", "Blnk.Reidx.c110_exact_partial", "Blnk.Reidx.c110_pages_fails", "Blnk.Reidx.c110_total_fails"], "note": "The full statement is false: from the second page of a collection on records are counted again, and the total always equals the processed number. Proved: never too small, and right if each collection but the ledgers fits one page."},
 {"property": "C111", "status": "partial", "theorems": ["Blnk.Reidx.c111_one_partial", "Blnk.Reidx.c111_requests_fails", "Blnk.Reidx.c111_startup_fails"], "note": "The full statement is false: a second request is accepted until the first rebuild has begun, and the rebuild of a server start is unknown to requests. Proved otherwise."},
 {"property": "C112", "status": "partial", "theorems": ["Blnk.Reidx.c112_start_partial", "Blnk.Reidx.c112_emptied_fails", "Blnk.Reidx.c112_lost_fails"], "note": "The full statement is false: an installation without transactions is emptied at every start, and one transaction in the index hides any loss. Proved: exactly when a start begins a rebuild, and that it does nothing else."},
 {"property": "C113", "status": "partial", "theorems": ["Blnk.Reidx.c113_fresh_partial", "Blnk.Reidx.c113_overtaken_fails"], "note": "The full statement is false: a document read before a change is written after the change was indexed. Proved: never older than at the beginning of the rebuild."},
 {"property": "C114", "status": "partial", "theorems": ["Blnk.Errs.c114_full_fails", "Blnk.Errs.c114_race_fails", "Blnk.Errs.c114_duplicate_partial", "Blnk.Errs.c114_noBlank_partial"], "note": "The full statement is false: a reference that contains a phrase searched for earlier is answered with that phrase's code, and two racing posts of one reference end in an internal error for the second. Proved: exactly which references are answered as duplicates, and that all without a blank are, alone and in bulk."},
 {"property": "C115", "status": "proved", "theorems": ["Blnk.Errs.c115_catalogue", "Blnk.Errs.c115_bulk", "Blnk.Errs.c115_never_success"], "note": "For every error chain and every handler option naming catalogue codes."},
 {"property": "C116", "status": "partial", "theorems": ["Blnk.Errs.c116_full_fails", "Blnk.Errs.c116_details_fails", "Blnk.Errs.c116_hook_text_fails", "Blnk.Errs.c116_sanitized_partial", "Blnk.Errs.c116_flattened_partial"], "note": "The full statement is false: details of typed errors and texts of hook failures reach the client. Proved: where no default code is named unclassified texts are replaced, and the bulk and batch answers drop details."},
 {"property": "C117", "status": "partial", "theorems": ["Blnk.Errs.c117_full_fails", "Blnk.Errs.c117_post_partial", "Blnk.Errs.c117_settle_blames_client_fails", "Blnk.Errs.c117_bulk_blames_client_fails", "Blnk.Errs.c117_listing_fails", "Blnk.Errs.c117_listed_partial"], "note": "The full statement is false: settling and bulk requests answer every failure 4xx, and a failing listing can be answered as success or not found. Proved: which failures of a single post are answered 5xx, and that a listing that succeeds reports its errors."},
 {"property": "C118", "status": "partial", "theorems": ["Blnk.Errs.c118_full_fails", "Blnk.Errs.c118_self_fails", "Blnk.Errs.c118_agree_partial"], "note": "The full statement is false: a used reference and a transfer to oneself are announced differently from what the post returns. Proved: exactly when both agree."},
 {"property": "C119", "status": "partial", "theorems": ["Blnk.Errs.c119_full_fails", "Blnk.Errs.c119_name_fails", "Blnk.Errs.c119_redis_fails", "Blnk.Errs.c119_worker_partial", "Blnk.Errs.c119_dropped_partial", "Blnk.Errs.c119_patient_partial"], "note": "The full statement is false: names containing the phrases searched for decide the fate of a transaction, and a Redis failure while locking counts as contention. Proved for all texts that do not contain the phrases."},
 {"property": "C120", "status": "partial", "theorems": ["Blnk.Errs.c120_full_fails", "Blnk.Errs.c120_currency_fails", "Blnk.Errs.c120_negative_fails", "Blnk.Errs.c120_same_partial", "Blnk.Errs.c120_table_partial"], "note": "The full statement is false: negative amounts and precisions, among others, get a different code on each endpoint. Proved: the table of codes and exactly which refusals correspond, for texts without the phrases searched for."},
 {"property": "C121", "status": "partial", "theorems": ["Blnk.Errs.c121_full_fails", "Blnk.Errs.c121_same_partial"], "note": "The full statement is false: storage failures and others are answered differently in bulk. Proved: exactly which failures get the same code."},
 {"property": "C122", "status": "partial", "theorems": ["Blnk.Request.c122_full_fails", "Blnk.Request.c122_precision_fails", "Blnk.Request.c122_recorded_partial", "Blnk.Request.c122_close_partial", "Blnk.Request.c122_precise_partial"], "note": "The full statement is false: digits beyond the double are dropped before they are counted, so 0.1000000000000000055 is accepted as 0.1, and a precision such as 10^24 is replaced by the nearest double. Proved: exact for amounts of at most fifteen digits and precisions a double holds; within one part in 2^51 for every accepted amount; precise amounts as given."},
 {"property": "C123", "status": "partial", "theorems": ["Blnk.Request.c123_full_fails", "Blnk.Request.c123_accepted_partial", "Blnk.Request.c123_kept_partial"], "note": "The full statement is false: trailing zeros are counted, so 10^15 and everything above is refused. Proved: every amount with at most fifteen digits before and after the point together is accepted, and what is accepted is kept with at most fifteen digits."},
 {"property": "C124", "status": "partial", "theorems": ["Blnk.Request.c124_full_fails", "Blnk.Request.c124_exact_partial", "Blnk.Request.c124_close_partial", "Blnk.Request.c124_roundtrip_partial"], "note": "The full statement is false: the quotient is cut after sixteen decimals, so one minor unit at precision 10^18 is stored as 0. Proved: exact and returned digit for digit for precisions dividing 10^16, and within half a unit of the sixteenth decimal otherwise."},
 {"property": "C125", "status": "partial", "theorems": ["Blnk.Request.c125_full_fails", "Blnk.Request.c125_negative_fails", "Blnk.Request.c125_lookup_fails", "Blnk.Request.c125_settles_partial", "Blnk.Request.c125_precise_partial"], "note": "The full statement is false: an amount that rounds to zero, even a negative one, settles the whole hold, and a failed lookup of the precision is replaced by 1. Proved: otherwise exactly the amount is settled, never more than is left."},
 {"property": "C126", "status": "partial", "theorems": ["Blnk.Request.c126_full_fails", "Blnk.Request.c126_accepts_partial", "Blnk.Request.c126_refused_partial"], "note": "The full statement is false: one number no double can hold makes the whole batch malformed. Proved: acceptance is that of the items, and otherwise the code and index are those of the first refused item."},
 {"property": "C127", "status": "partial", "theorems": ["Blnk.Request.c127_full_fails", "Blnk.Request.c127_blank_identifier_fails", "Blnk.Request.c127_ends_partial", "Blnk.Request.c127_nonneg_partial"], "note": "The full statement is false: lists on both sides are accepted and the legs have no destination; identifiers in lists may be empty. Proved for all other requests; amounts are never negative."},
 {"property": "C128", "status": "partial", "theorems": ["Blnk.Request.c128_full_fails", "Blnk.Request.c128_never", "Blnk.Request.c128_refusals_partial"], "note": "The full statement is false: no request is ever answered with that code, because the error is filed under the JSON name and looked up under the Go name. Proved: the two codes that do occur."},
 {"property": "C129", "status": "partial", "theorems": ["Blnk.Request.c129_full_fails", "Blnk.Request.c129_same_partial"], "note": "The full statement is false: precise_amount 0 is refused alone and settles the whole hold in bulk. Proved for every other request."},
 {"property": "C130", "status": "partial", "theorems": ["Blnk.Press.c130_full_partial", "Blnk.Press.c130_any_number_fails", "Blnk.Press.c130_full_fails", "Blnk.Press.c130_failed_check_fails"], "note": "The full statement is false: the answer of a check is used for the whole interval, so any number of tasks enter a full queue, and a check that fails lets everything through. Proved: refused when the queue was full, and Redis answered, throughout the last interval."},
 {"property": "C131", "status": "partial", "theorems": ["Blnk.Press.c131_room_partial", "Blnk.Press.c131_full_fails"], "note": "The full statement is false: an old answer is used for the whole interval. Proved: let through when the queue had room throughout the last interval."},
 {"property": "C132", "status": "partial", "theorems": ["Blnk.Press.c132_full_fails", "Blnk.Press.c132_lost_fails", "Blnk.Press.c132_prefix_partial", "Blnk.Press.c132_waits_partial", "Blnk.Press.c132_scheduled_fails"], "note": "The full statement is false: the client is told before the gate is asked, a submission whose row could not be stored is lost, and a dated one is never attempted. Proved: the tasks queued are those before the first refusal, and a stored submission without a date can be attempted at any later time."},
 {"property": "C133", "status": "partial", "theorems": ["Blnk.Conf.c133_full_fails", "Blnk.Conf.c133_coalescing_fails", "Blnk.Conf.c133_retries_fails", "Blnk.Conf.c133_lock_fails", "Blnk.Conf.c133_hot_ttl_fails", "Blnk.Conf.c133_kept_partial"], "note": "The full statement is false: coalescing and retries cannot be switched off, lock times below a second are multiplied by a billion, and no time a pair stays hot is used as written. Proved: which values are kept."},
 {"property": "C134", "status": "partial", "theorems": ["Blnk.Conf.c134_full_fails", "Blnk.Conf.c134_backpressure_fails", "Blnk.Conf.c134_defaults_partial"], "note": "The full statement is false: the gate in front of the queue is listed as on and is off. Proved for every other setting."},
 {"property": "C135", "status": "partial", "theorems": ["Blnk.Conf.c135_full_fails", "Blnk.Conf.c135_negative_fails", "Blnk.Conf.c135_served_partial"], "note": "The full statement is false: with a negative number of queues the service starts and serves none. Proved otherwise."},
 {"property": "C136", "status": "partial", "theorems": ["Blnk.Conf.c136_full_fails", "Blnk.Conf.c136_slow_fails", "Blnk.Conf.c136_passes_partial", "Blnk.Conf.c136_rate_alone_partial", "Blnk.Conf.c136_bound", "Blnk.Conf.c136_burst_alone"], "note": "The full statement is false: a rate below one a second given without a burst refuses every request. Proved: requests pass after a pause if the rate is at least one or a burst is given; the upper bound holds for every window."},
 {"property": "C137", "status": "proved", "theorems": ["Blnk.Down.c137_contacted", "Blnk.Down.c137_empty"], "note": ""},
 {"property": "C138", "status": "partial", "theorems": ["Blnk.Down.c138_full_fails", "Blnk.Down.c138_admits_partial"], "note": "The full statement is false: an entry with a port and without a scheme never matches. Proved: every other listed host passes."},
 {"property": "C139", "status": "partial", "theorems": ["Blnk.Down.c139_whole_partial", "Blnk.Down.c139_amount_fails", "Blnk.Down.c139_rows_fail", "Blnk.Down.c139_full_fails"], "note": "The full statement is false: a longer file is cut and what is left is accepted, with rows missing and the last amount shortened. Proved for files within the limit."},
 {"property": "C140", "status": "partial", "theorems": ["Blnk.Down.c140_text_fails", "Blnk.Down.c140_json_fails", "Blnk.Down.c140_full_fails", "Blnk.Down.c140_extension_partial", "Blnk.Down.c140_short_partial"], "note": "The full statement is false: no text of 512 bytes or more is recognised, and JSON never is, because the header is padded with zeros. Proved: known extensions decide, and short regular CSV files are recognised."},
 {"property": "C141", "status": "partial", "theorems": ["Blnk.Csv.c141_table_partial", "Blnk.Csv.c141_ragged_partial", "Blnk.Csv.c141_same_name_fails", "Blnk.Csv.c141_full_fails", "Blnk.Csv.c141_mark_fails"], "note": "The full statement is false: with two columns of one name every row is refused, and a byte order mark hides the first column. Proved for all tables with distinct column names."},
 {"property": "C142", "status": "proved", "theorems": ["Blnk.Front.c142_shown", "Blnk.Front.c142_workers", "Blnk.Front.c142_refused"], "note": ""},
 {"property": "C143", "status": "partial", "theorems": ["Blnk.Front.c143_form_fails", "Blnk.Front.c143_upload_fails", "Blnk.Front.c143_full_fails", "Blnk.Front.c143_partial"], "note": "The full statement is false: a request that calls itself a form is read whole on any route, and an upload with an API key is read whole before its limit is set. Proved for all other requests."},
 {"property": "C144", "status": "partial", "theorems": ["Blnk.Export.c144_hidden_partial", "Blnk.Export.c144_kept", "Blnk.Export.c144_struct_fails", "Blnk.Export.c144_full_fails"], "note": "The full statement is false: structs, pointers to them and maps with other keys are sent as they are. Proved for lists and maps whose keys are texts."},
 {"property": "C145", "status": "partial", "theorems": ["Blnk.Export.c145_query_partial", "Blnk.Export.c145_query_hidden_partial", "Blnk.Export.c145_sent_partial", "Blnk.Export.c145_bearer_partial", "Blnk.Export.c145_user_partial", "Blnk.Export.c145_unreadable", "Blnk.Export.c145_url_kept", "Blnk.Export.c145_user_fails", "Blnk.Export.c145_doubled_fails", "Blnk.Export.c145_address_fails", "Blnk.Export.c145_full_fails"], "note": "The full statement is false: after Bearer Bearer the token is sent, and so is the password in an address that is not http. Proved: query values never remain and have no influence, nor has the token after the first mention of Bearer, nor user and password of a web address in a message that does not say Bearer."},
 {"property": "C146", "status": "partial", "theorems": ["Blnk.Export.c146_full_fails", "Blnk.Export.c146_quiet_partial", "Blnk.Export.c146_open_partial", "Blnk.Export.c146_entries", "Blnk.Export.c146_drains"], "note": "The full statement is false: a thread that found the hook open panics if the queue is closed before it puts its entry. Proved: no panic otherwise, every entry is in one place once, and what is queued can be sent."},
 {"property": "C147", "status": "partial", "theorems": ["Blnk.Book.c147_never", "Blnk.Book.c147_full_fails", "Blnk.Book.c147_partial"], "note": "The full statement is false: no request without a balance opens an account in any state, because the balance is always looked up. Proved for requests that name a balance."},
 {"property": "C148", "status": "partial", "theorems": ["Blnk.Book.c148_partial", "Blnk.Book.c148_owner_partial", "Blnk.Book.c148_full_fails", "Blnk.Book.c148_full_fails_unowned"], "note": "The full statement is false for the owner, after the balance is moved and where it has none. Proved for ledger and currency always, and for the owner while nobody moves the balance."},
 {"property": "C149", "status": "proved", "theorems": ["Blnk.Book.c149", "Blnk.Book.c149_refused", "Blnk.Book.c149_deleted"], "note": ""},
 {"property": "C150", "status": "partial", "theorems": ["Blnk.Book.c150_partial", "Blnk.Book.c150_full_fails"], "note": "The full statement is false: after a balance is moved, deleting the former owner deletes the mapping. Proved for everything else, and while the balance belongs to the owner the mapping names."},
 {"property": "C151", "status": "partial", "theorems": ["Blnk.Book.c151_partial", "Blnk.Book.c151_refused", "Blnk.Book.c151_full_fails"], "note": "The full statement is false: an empty text does not clear a value. Proved for updates of values none of which is empty."},
 {"property": "C152", "status": "partial", "theorems": ["Blnk.Book.c152_partial", "Blnk.Book.c152_usual_partial", "Blnk.Book.c152_two", "Blnk.Book.c152_never_conflict", "Blnk.Book.c152_full_fails"], "note": "The full statement is false: another spelling of a UUID makes a second identity, and repeats are answered as invalid requests. Proved: ids are unique letter by letter, kept as sent, and in the usual spelling no UUID is given out twice."},
 {"property": "C153", "status": "partial", "theorems": ["Blnk.Book.c153_missing", "Blnk.Book.c153_missing_partial", "Blnk.Book.c153_numbers", "Blnk.Book.c153_taken_never", "Blnk.Book.c153_taken_fails", "Blnk.Book.c153_missing_fails"], "note": "The full statement is false: a number in use is always answered with an internal error, and an unknown id that contains transaction or field with codes of other things. Proved: which code the answer has for ids without blanks, and that numbers are unique."},
 {"property": "C154", "status": "partial", "theorems": ["Blnk.Book.c154_partial", "Blnk.Book.c154_rows", "Blnk.Book.c154_full_fails"], "note": "The full statement is false for the plain list, which leaves out ledger, owner and balance. Proved for single reads, filters and the rest of the list."},
 {"property": "C155", "status": "partial", "theorems": ["Blnk.Book.c155_partial", "Blnk.Book.c155_shifted", "Blnk.Book.c155_full_fails"], "note": "The full statement is false where the server is not in UTC, and for ledgers, whose time is the database's. Proved for the other records in UTC; elsewhere they are off by the offset."},
 {"property": "C156", "status": "proved", "theorems": ["Blnk.Book.c156", "Blnk.Book.c156_refused"], "note": ""},
 {"property": "C157", "status": "partial", "theorems": ["Blnk.Book.c157_partial", "Blnk.Book.c157_missing", "Blnk.Book.c157_wrong_code", "Blnk.Book.c157_full_fails"], "note": "The full statement is false: an unknown owner is answered as an unknown balance. Proved: what the request changes, and that refused ones change nothing."},
 {"property": "C158", "status": "partial", "theorems": ["Blnk.Lists.c158_at_rest_partial", "Blnk.Lists.c158_ends", "Blnk.Lists.c158_newest_first", "Blnk.Lists.c158_oldest_first", "Blnk.Lists.c158_ties", "Blnk.Lists.c158_capped", "Blnk.Lists.c158_endless"], "note": "The full statement is false: rows that agree in the column sorted by may come in another order each time, a page size over the limit is cut down so that the client stops early, and identities and accounts without filters are listed whole on every page. Proved for page sizes that are honoured and rows that differ in the column: at rest all rows, each once; while newer records are created all rows of the beginning, oldest first each once."},
 {"property": "C159", "status": "partial", "theorems": ["Blnk.Lists.c159_size_iff_partial", "Blnk.Lists.c159_refused_iff", "Blnk.Lists.c159_never_more", "Blnk.Lists.c159_all_shown", "Blnk.Lists.c159_violated", "Blnk.Lists.c159_nonsense_accepted"], "note": "The full statement is false beyond the limits (100 or 1000) and for numbers that make no sense to three of the lists. Proved: exactly which page sizes are honoured and which numbers refused, and that no page is longer than asked for but those of identities and accounts without filters."},
 {"property": "C160", "status": "partial", "theorems": ["Blnk.Lists.c160_count_partial", "Blnk.Lists.c160_violated"], "note": "The full statement is false: no count comes with an empty page. Proved: a count that is given is right, and it is given exactly when the offset is before the end."},
 {"property": "C161", "status": "partial", "theorems": ["Blnk.Lists.c161_array_iff_partial", "Blnk.Lists.c161_violated"], "note": "The full statement is false: empty lists of balances, identities and accounts are null. Proved: these and no others."},
 {"property": "C162", "status": "partial", "theorems": ["Blnk.Lists.c162_body_order_partial", "Blnk.Lists.c162_url_ignored", "Blnk.Lists.c162_url_order", "Blnk.Lists.c162_no_column", "Blnk.Lists.c162_unknown"], "note": "The full statement is false: sort_by and sort_order in a URL have no effect, and two fields accepted for transactions are no columns. Proved for requests by body and columns."},
 {"property": "C163", "status": "partial", "theorems": ["Blnk.Views.c163_shown_partial", "Blnk.Views.c163_fields_iff_partial", "Blnk.Views.c163_flags", "Blnk.Views.c163_never_shown", "Blnk.Views.c163_precision_lost", "Blnk.Views.c163_effective_date_lost", "Blnk.Views.c163_metadata_lost"], "note": "The full statement is false: by reference there is no precision, only lists have the effective date, overdraft, atomic and schedule are never shown, and keys of the metadata that the ledger uses are changed. Proved: everything else is shown as submitted, and exactly when these are."},
 {"property": "C164", "status": "partial", "theorems": ["Blnk.Views.c164_same_but_partial", "Blnk.Views.c164_same_iff", "Blnk.Views.c164_violated"], "note": "The full statement is false for precision, hash and effective date. Proved for everything else, and exactly when the requests agree."},
 {"property": "C165", "status": "partial", "theorems": ["Blnk.Views.c165_inflight_partial", "Blnk.Views.c165_violated"], "note": "The full statement is false: a client can write the key inflight. Proved for updates that do not."},
 {"property": "C166", "status": "partial", "theorems": ["Blnk.Views.c166_same_but_partial", "Blnk.Views.c166_same_iff", "Blnk.Views.c166_violated"], "note": "The full statement is false: lists show version 0 and no tracking, and by indicator there is no metadata. Proved for amounts, currency, ledger, owner, indicator and time, and exactly when the requests agree."},
 {"property": "C167", "status": "partial", "theorems": ["Blnk.Views.c167_included_partial", "Blnk.Views.c167_no_owner", "Blnk.Views.c167_missing", "Blnk.Views.c167_violated"], "note": "The full statement is false: a balance without an owner, asked for with it, is answered with an internal error, and what is included lacks type and metadata. Proved for the others."},
 {"property": "C168", "status": "partial", "theorems": ["Blnk.Views.c168_answer_partial", "Blnk.Views.c168_missing", "Blnk.Views.c168_violated"], "note": "The full statement is false for indicators that contain certain words. Proved for indicators without blanks and these words; the other answers are stated too."},
 {"property": "C169", "status": "proved", "theorems": ["Blnk.c169_border"], "note": "For every predicate on balance ids and every history of the sequential model (postings, batches, stored rows, commits and voids, double settlements included)."},
 {"property": "C170", "status": "partial", "theorems": ["Blnk.c170_partial", "Blnk.c170_by_name", "Blnk.c170_full_fails"], "note": "The full statement is false: the currency of a transaction is not compared with that of balances named by id, only previews note it. Proved for histories in which transactions name by id only balances of their own currency; names always do."},
 {"property": "C171", "status": "partial", "theorems": ["Blnk.Rules.c171_partial", "Blnk.Rules.c171_full_fails"], "note": "The full statement is false: a rule may ask an amount or a date to contain something, a text to be greater, or a number to be greater and smaller. Proved: exactly these rules cannot match (texts compared as ASCII)."},
 {"property": "C172", "status": "partial", "theorems": ["Blnk.Rules.c172_invalid", "Blnk.Rules.c172_update", "Blnk.Rules.c172_partial", "Blnk.Rules.c172_full_fails"], "note": "The full statement is false: a valid rule whose name is longer than its column is answered with an internal error. Everything else is proved, including that what is invalid changes nothing."},
 {"property": "C173", "status": "partial", "theorems": ["Blnk.Rules.c173_partial", "Blnk.Rules.c173_full_fails"], "note": "The full statement is false: rules are read in the background after the answer. Proved when these rules are not written in between."},
 {"property": "C174", "status": "partial", "theorems": ["Blnk.Rules.c174_partial", "Blnk.Rules.c174_never", "Blnk.Rules.c174_full_fails"], "note": "The full statement is false: whether it is a dry run is not stored and always shown as false. Proved for the rest."},
 {"property": "C175", "status": "partial", "theorems": ["Blnk.Rules.c175_rules_partial", "Blnk.Rules.c175_nothing_partial", "Blnk.Rules.c175_full_fails"], "note": "The full statement is false: nothing is checked before the answer. Proved: with a rule that is never there it is never completed; with an unknown strategy, or nothing stored under the upload, it never shows anything found."},
 {"property": "C176", "status": "partial", "theorems": ["Blnk.Rules.c176_partial", "Blnk.Rules.c176_retry", "Blnk.Rules.c176_cause", "Blnk.Rules.c176_full_fails"], "note": "The full statement is false: the records before the conflicting one and a failed reconciliation stay. Proved: exactly these are stored, no run is started, the same request is refused again, and the answer does not depend on the cause."},
 {"property": "C177", "status": "partial", "theorems": ["Blnk.Rules.c177_partial", "Blnk.Rules.c177_shown", "Blnk.Rules.c177_full_fails"], "note": "The full statement is false when the answer to the statement that completes a reconciliation is lost: completed becomes failed. Proved otherwise; the part on figures and time is proved without exception."},
 {"property": "C178", "status": "partial", "theorems": ["Blnk.Rules.c178_partial", "Blnk.Rules.c178_full_fails"], "note": "The full statement is false for ids that contain certain words. For ids without blanks it is proved which answer they get."},
 {"property": "C179", "status": "partial", "theorems": ["Blnk.Rules.c179_partial", "Blnk.Rules.c179_full_fails"], "note": "The full statement is false for texts with a bar between blanks. Proved without it (texts compared as ASCII)."},
 {"property": "C180", "status": "partial", "theorems": ["Blnk.Rules.c180_partial", "Blnk.Rules.c180_stuck", "Blnk.Rules.c180_full_fails"], "note": "The full statement is false: when the server stops, its reconciliations stay as they are for ever, which is proved for all later histories. Proved while it does not stop and no failure goes unrecorded."},
 {"property": "C181", "status": "proved", "theorems": ["Blnk.Request.c181_accepted_iff", "Blnk.Request.c181_refused_iff", "Blnk.Request.c181_carried", "Blnk.Request.c181_no_item_skipped", "Blnk.Request.c181_batch_iff"], "note": "Numbers are meant as a double holds them; requests whose numbers no double can hold are refused as unreadable."},
 {"property": "C182", "status": "partial", "theorems": ["Blnk.Undo.c182_predicts_partial", "Blnk.Undo.c182_not_found", "Blnk.Undo.c182_error_partial", "Blnk.Undo.c182_reference_fails"], "note": "The full statement is false: the dry run never looks at the reference of the refund, which another payment may have taken. Proved for free references and without checks of queued totals."},
 {"property": "C183", "status": "partial", "theorems": ["Blnk.Undo.c183_created", "Blnk.Undo.c183_not_found", "Blnk.Undo.c183_only_listed", "Blnk.Undo.c183_queued_once_partial", "Blnk.Undo.c183_error_fails"], "note": "The last part is false: with skip_queue a payment may be fetched again after it was refunded, and the call is then answered with an error though the money went back. What answers of success and of nothing found mean is proved for every schedule; that only listed payments are worked on, while no other request interferes."},
 {"property": "C184", "status": "partial", "theorems": ["Blnk.Undo.c184_predicts_partial", "Blnk.Undo.c184_error_partial", "Blnk.Undo.c184_voided", "Blnk.Undo.c184_voided_hold_fails", "Blnk.Undo.c184_queued_id_fails"], "note": "The full statement is false: the dry run does not ask whether a hold of a batch was voided, and takes a queued request's row for its hold. Proved where the dry run and the call agree on the holds and none was voided."},
 {"property": "C185", "status": "proved", "theorems": ["Blnk.Pick.c185_members", "Blnk.Pick.c185_once", "Blnk.Pick.c185_size", "Blnk.Pick.c185_order", "Blnk.Pick.c185_no_gap", "Blnk.Pick.c185_done"], "note": "each of the three queries may read another database state; rows created at the same time come in any order"},
 {"property": "C186", "status": "partial", "theorems": ["Blnk.Pick.c186_same_pair_partial", "Blnk.Pick.c186_source_partial", "Blnk.Pick.c186_full_fails", "Blnk.Pick.c186_outcome_fails"], "note": "The full statement is false: payments of the same pair are looked for first, so a payment of the same account to somebody else submitted in between is overtaken, and may find no money. Proved: payments between the same two accounts submitted since the leader are never overtaken, and a batch of the whole account overtakes nothing of it submitted since the leader."},
 {"property": "C187", "status": "partial", "theorems": ["Blnk.Undo.c187_settled_partial", "Blnk.Undo.c187_nothing_partial", "Blnk.Undo.c187_again", "Blnk.Undo.c187_alone_partial", "Blnk.Undo.c187_error_fails", "Blnk.Undo.c187_queued_fails", "Blnk.Undo.c187_full_fails"], "note": "The full statement is false: an error does not mean that nothing was settled (with several holds some may be), and success for holds that are still queued does not mean all were looked at. Proved: success with a hold on the books means all are settled, 'nothing' means none was on the books, a call running alone works on each hold exactly once and stores exactly what it reports, and after one hold is closed every later call on the id ends with an error."},
 {"property": "C188", "status": "partial", "theorems": ["Blnk.Undo.c188_distinct_partial", "Blnk.Undo.c188_batch_partial", "Blnk.Undo.c188_note", "Blnk.Undo.c188_unknown", "Blnk.Undo.c188_full_fails", "Blnk.Undo.c188_note_fails", "Blnk.Undo.c188_parent_fails"], "note": "The full statement is false: of an id given twice both items may be shown to apply where one is refused, the note that only one can succeed is wrong for partial commits, and an id standing for a batch is shown to apply but refused. Proved for batches of different ids that are INFLIGHT rows between two accounts, or rows standing for no hold, in every schedule of the pool and with any other requests that do not settle the same holds; the note names exactly the repeated ids."},
 {"property": "C189", "status": "partial", "theorems": ["Blnk.Big.c189_stored_partial", "Blnk.Big.c189_too_many", "Blnk.Big.c189_whole", "Blnk.Big.c189_order", "Blnk.Big.c189_accounts", "Blnk.Big.c189_marked", "Blnk.Big.c189_exact", "Blnk.Big.c189_full_fails"], "note": "The full statement is false: the lineage outbox is written by one statement with ten parameters an entry, and PostgreSQL takes 65535, so a batch with more than 6553 entries is refused every time (batches of up to 10000 are allowed). Proved for all batches with at most 6553 entries, any number of accounts and any order of them; in every case either nothing or the whole batch is stored. The limit of 65535 is an assumption about PostgreSQL."},
 {"property": "C190", "status": "partial", "theorems": ["Blnk.Proc.c190_no_panic", "Blnk.Proc.c190_one_partial", "Blnk.Proc.c190_stopped_partial", "Blnk.Proc.c190_idle_partial", "Blnk.Proc.c190_returns_partial", "Blnk.Proc.c190_flag_partial", "Blnk.Proc.c190_one_fails", "Blnk.Proc.c190_stopped_fails", "Blnk.Proc.c190_returns_fails", "Blnk.Proc.c190_flag_fails"], "note": "That no channel is closed twice and the wait group stays in order is proved for all interleavings. The rest is false when calls overlap: a Start that overtakes a waiting Stop leaves two loops and a Stop that does not return, a Stop that overtakes a Start returns before the loop begins, and after the context is cancelled IsRunning stays true. Proved for calls made one after the other, as the commands make them, with every choice of select."},
 {"property": "C191", "status": "partial", "theorems": ["Blnk.Ask.c191_hold", "Blnk.Ask.c191_refused", "Blnk.Ask.c191_unchanged", "Blnk.Ask.c191_waits", "Blnk.Ask.c191_kept", "Blnk.Ask.c191_one", "Blnk.Ask.c191_delivered", "Blnk.Ask.c191_carried_partial", "Blnk.Ask.c191_already_partial", "Blnk.Ask.c191_bulk_partial", "Blnk.Ask.c191_accepted_fails", "Blnk.Ask.c191_amount_fails", "Blnk.Ask.c191_carried_fails", "Blnk.Ask.c191_again_fails", "Blnk.Ask.c191_already_fails", "Blnk.Ask.c191_bulk_fails"], "note": "The full statement is false for ids that stand for several holds or for a QUEUED row: such an id is accepted though all its holds were voided, or for more than any hold has, and is acknowledged though a hold with less left was skipped; a negative amount is taken in for it, given up, and then every later action is answered 'already queued'; a bulk item counts as succeeded when another action waits. Proved: acceptance is exact for the id of a hold, a refusal is always right, an accepted action is kept until it is acknowledged, at most one action exists for an id, a delivery settles exactly the holds that can be settled as asked, and the chain from 'queued' to the settlement for one hold; bulk calls with distinct ids of which none had an action before."},
 {"property": "C192", "status": "partial", "theorems": ["Blnk.Lineage.c192_once_partial", "Blnk.Lineage.c192_note_partial", "Blnk.Lineage.c192_listed_partial", "Blnk.Lineage.c192_view", "Blnk.Lineage.c192_child", "Blnk.Lineage.c192_retry_fails", "Blnk.Lineage.c192_lost_fails", "Blnk.Lineage.c192_unwritten_fails", "Blnk.Lineage.c192_wrong_fails", "Blnk.Lineage.c192_large_fails", "Blnk.Lineage.c192_queued_fails"], "note": "The full statement is false: after a retry only the last attempt's part is noted, the note is lost by a crash after the last row or a failed statement, a proportional retry notes shares that were not drawn, amounts above 2^53 are rounded, and the id of a queued payment shows nothing. Proved: exact when the first attempt ends well; in every history the note names each provider once, only providers drawn from, and adds up to no more than the payment; for FIFO and LIFO payments every noted amount was drawn; the view shows the note and the rows of the id."},
 {"property": "C193", "status": "partial", "theorems": ["Blnk.Token.c193_does", "Blnk.Token.c193_accepts", "Blnk.Token.c193_answers", "Blnk.Token.c193_listed", "Blnk.Token.c193_round_partial", "Blnk.Token.c193_half_fails", "Blnk.Token.c193_colon_fails", "Blnk.Token.c193_names_fails", "Blnk.Token.c193_mark_fails"], "note": "The full statement is false: a refused call has done the fields before the refused one, one value with a colon or one mark written by a client makes a detokenize call without names fail, and of the JSON names only street is understood. Proved for all calls on identities whose marks were made by tokenize calls: exactly which fields are done, when a call succeeds, what is listed, and what each detokenize call answers."},
 {"property": "C194", "status": "partial", "theorems": ["Blnk.Halves.c194_taken", "Blnk.Halves.c194_request_never_posted", "Blnk.Halves.c194_legs_left", "Blnk.Halves.c194_replayed", "Blnk.Halves.c194_bulk_item_partial", "Blnk.Halves.c194_full_fails"], "note": "The full statement is false: parts stored before the one that failed stay QUEUED and are paid by recovery after the request was rejected (c194_replayed for every such part, c194_full_fails with a witness). Proved: exactly what is stored and enqueued, that the request itself is never posted, that the stored parts stay stuck, and that recovery leaves them when the request is an atomic item of a bulk."},
 {"property": "C195", "status": "partial", "theorems": ["Blnk.Halves.c195_check", "Blnk.Halves.c195_blind", "Blnk.Halves.c194_bulk_item_partial", "Blnk.Halves.c195_full_fails"], "note": "The full statement is false: rejected queue copies stand under the part, not under the id the check looks at. Proved: exactly when the check stops recovery, that no rejection of a queue copy makes it do so, and that it works for rejected requests inside a bulk."},
 {"property": "C196", "status": "partial", "theorems": ["Blnk.Window.c196_leaves_partial", "Blnk.Window.c196_starved", "Blnk.Window.c196_full_fails"], "note": "The full statement is false: rows that recovery passes over are never counted and stay in the window of the hundred oldest, so a hundred of them keep recovery from everything younger (c196_starved for any number of sweeps). Proved: with m < 100 such rows among the k ahead of it every other stuck row has left after n sweeps once n(100-m) > 4k + 4(100-m), whatever others do meanwhile."},
 {"property": "C197", "status": "partial", "theorems": ["Blnk.Window.c197_none_partial", "Blnk.Window.c197_failed_fails", "Blnk.Window.c197_threshold_fails", "Blnk.Window.c197_busy_fails"], "note": "The full statement is false: a failed query answers 0, and a threshold below two minutes is echoed but not used. Proved for thresholds of at least two minutes when the database answers and all metadata can be read."},
 {"property": "C198", "status": "partial", "theorems": ["Blnk.Recon.c198_in_turn_partial", "Blnk.Recon.c198_at_rest_partial", "Blnk.Recon.c198_late_fails", "Blnk.Recon.c198_hidden_fails", "Blnk.Recon.c198_hidden_rows"], "note": "The full statement is false: kept pages are not removed when transactions are recorded. Proved: many_to_one sees everything exactly once if transactions are recorded in the order of their times, whatever pages are kept; every strategy does if nothing is recorded while pages are kept and the database answers alike."},
 {"property": "C199", "status": "partial", "theorems": ["Blnk.Recon.c199_settled_partial", "Blnk.Recon.c199_rejected_fails", "Blnk.Recon.c199_unnoticed", "Blnk.Recon.c199_by_reference", "Blnk.Recon.c199_group_missed", "Blnk.Recon.c199_group_rows", "Blnk.Recon.c199_no_empty_group"], "note": "The full statement is false: no status is asked for, so rejected payments match records, and queued payments count twice in groups. Proved for ledgers in which every row that fits was applied or has a row that was."},
 {"property": "C200", "status": "partial", "theorems": ["Blnk.Filter.c200_partial", "Blnk.Filter.c200_start", "Blnk.Filter.c200_full_fails", "Blnk.Filter.c200_ends_fail", "Blnk.Filter.c200_digits_fails", "Blnk.Filter.parse_text", "Blnk.Filter.precision_text", "Blnk.Filter.c200_calendar", "Blnk.Filter.c200_days", "Blnk.Filter.c200_times", "Blnk.Filter.c200_blanks"], "note": "The full statement is false: only eq uses the period. Proved, for every date of the calendar in every spelling: gte and lt are right, eq is right for days, minutes, seconds, milliseconds and microseconds, every operator is right for moments written to the microsecond; the others compare with the beginning of the period."},
 {"property": "C201", "status": "partial", "theorems": ["Blnk.Filter.c201_partial", "Blnk.Filter.c201_digits", "Blnk.Filter.c201_full_fails"], "note": "The full statement is false: the column drops the offset. Proved: only the digits count, so dates with the same offset, or without a zone and with Z, select the same rows."},
 {"property": "C202", "status": "partial", "theorems": ["Blnk.Filter.c202_partial", "Blnk.Filter.c202_full_fails"], "note": "The full statement is false for eq of a day. Proved for every other operator, and for eq of moments written to the microsecond."},
 {"property": "C203", "status": "partial", "theorems": ["Blnk.Queue.c203_paid_partial", "Blnk.Queue.c203_judged", "Blnk.Queue.c203_endings", "Blnk.Queue.c203_half", "Blnk.Queue.c203_kept", "Blnk.Queue.c203_full_fails"], "note": "The full statement is false: a waiting payment counts against itself. Proved: the exact outcome of any waiting payments in any order; all are paid when the account covers what it owes plus the largest of them once more; the second half of the statement, that nothing past the queue takes the money, in full."},
 {"property": "C204", "status": "partial", "theorems": ["Blnk.Sib.c204_late_partial", "Blnk.Sib.c204_first_partial", "Blnk.Sib.c204_cause", "Blnk.Sib.c204_hundred", "Blnk.Sib.c204_passed_over", "Blnk.Sib.c204_as_modelled", "Blnk.Sib.c204_full_fails", "Blnk.Sib.c204_large_fails", "Blnk.Sib.c204_bound", "Blnk.Sib.c204_paid_anyway"], "note": "The full statement is false: the page may be old, and shows the newest hundred rows only. Proved: with at most a hundred rows every rejection is seen at once if no page is kept and after the lifetime of both caches otherwise, for every history; recovery never passes over a part without cause (the second half, in full); what a hundred newer rows hide."},
 {"property": "C205", "status": "partial", "theorems": ["Blnk.Group.c205_is_bulk", "Blnk.Group.c205_holds", "Blnk.Group.c205_paid_partial", "Blnk.Group.c205_all", "Blnk.Group.c205_zero", "Blnk.Group.c205_full_fails", "Blnk.Group.c205_not_atomic"], "note": "The full statement is false for ordinary payments: their refunds are only queued when the error is answered. Proved: holds are as before at the answer; ordinary balances are as before once the refunds were applied, in any order; a success means every part has its row; a part of no units always fails the request; the request refines an atomic bulk."},
 {"property": "C206", "status": "partial", "theorems": ["Blnk.Group.c206_undone_partial", "Blnk.Group.c206_holds_partial", "Blnk.Group.undone_once_delivered", "Blnk.Group.deliver_leads", "Blnk.Group.c206_full_fails", "Blnk.Group.c206_stays", "Blnk.Group.c206_hold_stays"], "note": "The full statement is false: parts delivered after the rejection stay. Proved for the parts paid or held up to the rejection, in any history, with coalescing and others acting in between."},
 {"property": "C207", "status": "partial", "theorems": ["Blnk.Hot.c207_cause_partial", "Blnk.Hot.c207_end_partial", "Blnk.Hot.c207_few", "Blnk.Hot.c207_span", "Blnk.Hot.c207_marked", "Blnk.Hot.c207_taken", "Blnk.Hot.c207_manager", "Blnk.Hot.c207_lane", "Blnk.Hot.c207_view_resolve", "Blnk.Hot.c207_view_contend", "Blnk.Hot.c207_burst_fails", "Blnk.Hot.c207_recent_fails", "Blnk.Hot.c207_recent_fails_idle", "Blnk.Hot.c207_cooling_contended", "Blnk.Hot.c207_full_fails"], "note": "The full statement is false. Proved: threshold contentions in a row with each gap below the span, and less than twelve spans since the last contention (five with nothing waiting in the hot lane), both bounds reached; conversely such a row marks the pair; the machine refines the one without a clock."},
 {"property": "C208", "status": "partial", "theorems": ["Blnk.Backup.c208_disk_partial", "Blnk.Backup.c208_bucket_partial", "Blnk.Backup.c208_disk_days", "Blnk.Backup.c208_bucket_lost", "Blnk.Backup.c208_broken", "Blnk.Backup.c208_upload_failed", "Blnk.Backup.base_path", "Blnk.Backup.c208_midnight", "Blnk.Backup.c208_full_fails"], "note": "The full statement is false: objects in the bucket are named by database and time of day only. Proved: on disk a backup is kept unless a later request reads its date for the directory and its time of day for the name; in the bucket unless a later upload has its time of day, and then it is gone."},
 {"property": "C209", "status": "partial", "theorems": ["Blnk.RedisAddr.c209_tls_partial", "Blnk.RedisAddr.c209_tls_lost", "Blnk.RedisAddr.c209_verify", "Blnk.RedisAddr.c209_cluster_partial", "Blnk.RedisAddr.c209_password", "Blnk.RedisAddr.goParse_sound", "Blnk.RedisAddr.goParse_verify", "Blnk.RedisAddr.c209_hash", "Blnk.RedisAddr.c209_full_fails", "Blnk.RedisAddr.c209_hash_plain", "Blnk.RedisAddr.c209_password_fails", "Blnk.RedisAddr.c209_cluster_user"], "note": "The full statement is false for addresses the library refuses. Proved for every sound parser: accepted addresses get TLS, alone and among several; refused ones do exactly when the host is one of Azure; certificates are left unchecked only when configured."},
 {"property": "C210", "status": "partial", "theorems": ["Blnk.Restart.c210_growing_partial", "Blnk.Restart.c210_queued_partial", "Blnk.Restart.c210_task_partial", "Blnk.Restart.c210_exactly", "Blnk.Restart.c210_stranded", "Blnk.Restart.c210_wider", "Blnk.Restart.c210_served_iff", "Blnk.Restart.c210_salary", "Blnk.Restart.c210_full_fails", "Blnk.Restart.c210_two_queues"], "note": "The full statement is false for payments with a date when queues are taken away. Proved: it holds when each restart serves at least the queues served before, always for QUEUED payments, and exactly which dated payments are stranded."},
 {"property": "C211", "status": "proved", "theorems": ["Blnk.Mem.c211_figures", "Blnk.Mem.c211_rest", "Blnk.Mem.c211_copy", "Blnk.Mem.c211_preview", "Blnk.Mem.c211_loaded", "Blnk.Mem.c211_shallow", "Blnk.Mem.c211_half", "Blnk.Mem.c211_alias"], "note": "Refinement: the methods on pointers do to memory what the functions of Model/Balance do to values, for sequences of payments too; so the value model used elsewhere is right about aliasing."},
 {"property": "C212", "status": "proved", "theorems": ["Blnk.HookAdmin.c212_calls", "Blnk.HookAdmin.c212_stored", "Blnk.HookAdmin.c212_master", "Blnk.HookAdmin.c212_may", "Blnk.HookAdmin.c212_insecure"], "note": "End to end: check of keys, handlers, hook manager and worker; addresses as a taint that only requests with the master key bring in."},
 {"property": "C213", "status": "partial", "theorems": ["Blnk.Marks.c213_family", "Blnk.Marks.c213_own_partial", "Blnk.Marks.c213_dry", "Blnk.Marks.c213_marked_partial", "Blnk.Marks.c213_refund", "Blnk.Marks.c213_child", "Blnk.Marks.c213_lost", "Blnk.Marks.c213_full_fails"], "note": "What a transaction says is a stored match of itself or of a transaction above it (proved for all histories); refunds and settlements inherit the mark, so the full statement fails. Every matched transaction says so when no mark fails and no process ends early."},
 {"property": "C214", "status": "partial", "theorems": ["Blnk.Routes.c214_seen", "Blnk.Routes.c214_changed", "Blnk.Routes.c214_seen_iff", "Blnk.Routes.c214_changed_iff", "Blnk.Routes.c214_scopes_partial", "Blnk.Routes.c214_read_only", "Blnk.Routes.c214_never", "Blnk.Routes.c214_search", "Blnk.Routes.c214_balances", "Blnk.Routes.c214_clear", "Blnk.Routes.c214_full_fails"], "note": "The full statement is false: search, included records and dry runs show other kinds. Proved for all requests and scope texts: exactly which scopes let a key see or change which kind of record, and that a key that may only read changes nothing."},
 {"property": "C215", "status": "partial", "theorems": ["Blnk.Upgrade.c215_fields", "Blnk.Upgrade.c215_kept", "Blnk.Upgrade.c215_again", "Blnk.Upgrade.c215_taken_partial", "Blnk.Upgrade.c215_new", "Blnk.Upgrade.c215_stuck", "Blnk.Upgrade.c215_retired_fails", "Blnk.Upgrade.c215_type_fails", "Blnk.Upgrade.c215_full_fails"], "note": "The full statement is false: changed types and given-up required fields are not noticed. Proved for all earlier collections and faults: exactly which fields a successful start leaves, that none is removed, that a second start changes nothing, and that every record is taken when the earlier collection only lacked fields."},
 {"property": "C216", "status": "partial", "theorems": ["Blnk.Migr.c216_same", "Blnk.Migr.c216_guards", "Blnk.Migr.c216_up_iff", "Blnk.Migr.c216_up_partial", "Blnk.Migr.c216_down_partial", "Blnk.Migr.c216_again", "Blnk.Migr.c216_backfill_iff", "Blnk.Migr.c216_backfill", "Blnk.Migr.c216_stuck", "Blnk.Migr.c216_left", "Blnk.Migr.c216_unprotected", "Blnk.Migr.c216_backfill_fails", "Blnk.Migr.c216_full_fails"], "note": "The full statement is false: see the findings. Proved for all histories: a database with every file recorded is that of a new installation and has all guards; exactly when going up succeeds; going down always succeeds and leaves at most two tables; exactly which stored transactions stop the filling in of effective dates."},
 {"property": "C217", "status": "partial", "theorems": ["Blnk.Tele.c217_off", "Blnk.Tele.c217_sent", "Blnk.Tele.c217_key", "Blnk.Tele.c217_refused", "Blnk.Tele.c217_project", "Blnk.Tele.c217_legacy", "Blnk.Tele.c217_own", "Blnk.Tele.c217_clear_partial", "Blnk.Tele.c217_metrics_clear", "Blnk.Tele.c217_legacy_lost", "Blnk.Tele.c217_full_fails"], "note": "The full statement is false for metrics: see the findings. Proved: nothing unless switched on; exactly which requests a DSN leads to; where a key can go; a refused DSN changes nothing else; where requests without a key go; traces, logs and monitoring are never in the clear where HTTPS is set."}
]}
