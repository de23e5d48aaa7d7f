{
 "claims": [
  {
   "property": "C01",
   "status": "proved",
   "theorems": [
    "OB.C01_taker_fee_is_ceiling",
    "OB.C01_maker_fee_unlocked_is_ceiling",
    "OB.C01_maker_fee_locked_is_ceiling",
    "OB.C01_maker_fee_on_fill_is_floor",
    "OB.C01_maker_rebate_is_floor",
    "OB.C01_error_bounds"
   ],
   "note": ""
  },
  {
   "property": "C02",
   "status": "proved",
   "theorems": [
    "OB.C02_bid_budget",
    "OB.C02_instruction",
    "OB.C02_place_orders",
    "OB.C02_take"
   ],
   "note": "Engine call; place/edit (fixed and pegged); batches; take orders. Stated on token and free balances."
  },
  {
   "property": "C03",
   "status": "proved",
   "theorems": [
    "OB.C03_base_budget",
    "OB.C03_posted_size",
    "OB.C03_instruction",
    "OB.C03_take"
   ],
   "note": ""
  },
  {
   "property": "C04",
   "status": "proved",
   "theorems": [
    "OB.C04_limit_respected"
   ],
   "note": "every fill of every successful engine call on any reachable book"
  },
  {
   "property": "C05",
   "status": "proved",
   "theorems": [
    "OB.C05_fill_of_resting_order"
   ],
   "note": "price, quantity, expiry, peg limit and identity of the filled order"
  },
  {
   "property": "C06",
   "status": "partial",
   "theorems": [
    "OB.C06_fills_in_priority_order",
    "OB.C06_better_used_up_first_partial",
    "OB.C06_better_used_up_first_false",
    "OB.C06_better_used_up_first_false_quote"
   ],
   "note": "order of the fills is proved in full; \"filled only after every better order is consumed\" is false of the code in two situations (two counterexample theorems), the partial theorem covers all others"
  },
  {
   "property": "C07",
   "status": "partial",
   "theorems": [
    "OB.C07_post_only_never_takes",
    "OB.C07_crossing_is_dropped_partial",
    "OB.C07_crossing_is_dropped_false"
   ],
   "note": "No fill, no taker fee and no tradable order removed: proved in full. A crossing PostOnly order is dropped: false of the code when a pegged order is lost behind a pegged order whose price left the valid range (C07_crossing_is_dropped_false); proved for every fixed opposing order and, if no pegged order is out of range, for every order."
  },
  {
   "property": "C08",
   "status": "partial",
   "theorems": [
    "OB.C08_slide_price",
    "OB.C08_slide_never_crosses_partial",
    "OB.C08_slide_never_crosses_false"
   ],
   "note": "Posted price is the limit or one lot behind an opposing tradable order, proved in full. It crosses no tradable opposing order: false in the same corner as C07 (C08_slide_never_crosses_false), proved otherwise."
  },
  {
   "property": "C09",
   "status": "proved",
   "theorems": [
    "OB.C09_never_rests",
    "OB.C09_place_order",
    "OB.C09_take_order"
   ],
   "note": "matching engine and the instructions place_order and place_take_order"
  },
  {
   "property": "C10",
   "status": "proved",
   "theorems": [
    "OB.C10_fill_or_kill",
    "OB.C10_place_order",
    "OB.C10_take_order"
   ],
   "note": "success means the whole base size is traded; failure is an error value of step, which by construction leaves the state unchanged (transaction abort)"
  },
  {
   "property": "C100",
   "status": "partial",
   "theorems": [
    "OB.C100_credited_partial",
    "OB.C100_sol_kept",
    "OB.C100_refused",
    "OB.C100_needs_sol",
    "OB.C100_tokens_kept",
    "OB.C100_accepted"
   ],
   "note": "Only the credit holds. The token account that the function fills with SOL is never named in the deposit: the SOL goes in and out again (C100_sol_kept), the named token account pays (C100_credited_partial), and without enough wrapped SOL there the transaction is refused (C100_refused)."
  },
  {
   "property": "C101",
   "status": "proved",
   "theorems": [
    "OB.C101_life",
    "OB.C101_at_most",
    "OB.C101_price"
   ],
   "note": "Run-level version of C44 with the fills counted."
  },
  {
   "property": "C102",
   "status": "partial",
   "theorems": [
    "OB.C102_reports",
    "OB.C102_seen",
    "OB.C102_gives_up",
    "OB.C102_request_error",
    "OB.C102_unable_partial",
    "OB.C102_asked_again",
    "OB.C102_unable_wrong"
   ],
   "note": "Success and failure are reported rightly. 'Unable to confirm' can be reported for a transaction that was executed (C102_unable_wrong), since the status is asked before and not after the expiry of the blockhash, and an executed transaction below the wanted commitment counts as unknown; an order sent again is then placed twice. C102_asked_again: asking once more would settle it. The node is assumed honest; durable nonces are left out."
  },
  {
   "property": "C103",
   "status": "proved",
   "theorems": [
    "OB.C103_statement",
    "OB.C103_closed",
    "OB.C103_exact",
    "OB.C103_fees"
   ],
   "note": "Run-level version of C58."
  },
  {
   "property": "C104",
   "status": "partial",
   "theorems": [
    "OB.C104_complete",
    "OB.C104_whole",
    "OB.C104_sent",
    "OB.C104_fresh_partial",
    "OB.C104_live",
    "OB.C104_hidden",
    "OB.C104_closed",
    "OB.C104_false"
   ],
   "note": "Violated: an account closed before the snapshot is not in it, and the cache goes on showing its old contents (C104_closed, witness C104_false). The freshness needs the slot of the snapshot to count as live in the cache; until the cache has heard of a root not before the snapshot it is not shown (C104_hidden). Left out: the timer and the wait for min_slot."
  },
  {
   "property": "C105",
   "status": "partial",
   "theorems": [
    "OB.C105_max_slot",
    "OB.C105_received",
    "OB.C105_again",
    "OB.C105_read_partial",
    "OB.C105_quiet_partial",
    "OB.C105_ends",
    "OB.C105_false",
    "OB.C105_unknown"
   ],
   "note": "Violated: the wait looks at the slot of the answer, not at what the cache then returns; after an earlier query made up a parent, an answer for a slot in between is stored but not read, also on a chain without forks (C105_false). A signature unknown to the node counts as slot 0 and is not waited for (C105_unknown). Holds if the answers are for slots on the best chain (C105_read_partial, C105_quiet_partial)."
  },
  {
   "property": "C106",
   "status": "proved",
   "theorems": [
    "OB.C106_behind",
    "OB.C106_kept",
    "OB.C106_same",
    "OB.C106_filled_after"
   ],
   "note": "Run-level version of C06, whose exceptions (a seller's quote limit, own orders, pegged orders behind one out of range) are named in C106_filled_after."
  },
  {
   "property": "C107",
   "status": "proved",
   "theorems": [
    "OB.C107_only_new",
    "OB.C107_old_gone",
    "OB.C107_one_each",
    "OB.C107_count",
    "OB.C107_exposure"
   ],
   "note": "How a sliding order is placed in relation to the book is C08; that the batch does what its orders would do one by one is C87."
  },
  {
   "property": "C108",
   "status": "partial",
   "theorems": [
    "OB.C108_bid_cheapest",
    "OB.C108_bid_most",
    "OB.C108_ask_dearest_partial",
    "OB.C108_ask_most_partial",
    "OB.C108_capped_false",
    "OB.C108_not_AskSellsMost"
   ],
   "note": "Proved in full for bids. For asks only while the quote limit does not bind; otherwise the claim is false: C108_capped_false shows an ask limited to 1000 quote lots that sells nothing because one lot of the best bid is worth 1003, though the next bid at 995 would fit. Own orders that the taker cancels are not among the choices."
  },
  {
   "property": "C109",
   "status": "proved",
   "theorems": [
    "OB.C109_price",
    "OB.C109_group",
    "OB.C109_group_no_gain",
    "OB.C109_takes",
    "OB.C109_takes_no_gain"
   ],
   "note": "Time and oracle price are fixed, as within one transaction; when the oracle moves, pegged orders move and can be traded against. That books may cross is C12."
  },
  {
   "property": "C11",
   "status": "proved",
   "theorems": [
    "OB.C11_bounded_work"
   ],
   "note": "stated on the book before and after and on the event queue"
  },
  {
   "property": "C110",
   "status": "proved",
   "theorems": [
    "OB.C110_run",
    "OB.C110_gain",
    "OB.C110_limit"
   ],
   "note": "The orders attacked are take orders, which leave nothing on the book; an order of an account that rests can be traded against at its price afterwards as well. Time and oracle price are fixed, as within one slot."
  },
  {
   "property": "C111",
   "status": "proved",
   "theorems": [
    "OB.C111_prices",
    "OB.C111_run",
    "OB.C111_no_loss",
    "OB.C111_no_rebates"
   ],
   "note": "Settlements whose target is the market's own vault are left out, as in C69. Fees to the market count as taken out."
  },
  {
   "property": "C112",
   "status": "proved",
   "theorems": [
    "OB.C112_takings",
    "OB.C112_never_less",
    "OB.C112_available",
    "OB.C112_take_keeps_nothing",
    "OB.C112_no_base"
   ],
   "note": "place_take_order charges only the makers' rebates (place_take_order.rs:67-81), while book.rs:280 adds the rest of the taker fee to fees_accrued; the example shows it."
  },
  {
   "property": "C113",
   "status": "partial",
   "theorems": [
    "OB.C113_sent",
    "OB.C113_reported",
    "OB.C113_not_done",
    "OB.C113_sends_partial",
    "OB.C113_undefined_fee",
    "OB.C113_banks",
    "OB.C113_extra_signer",
    "OB.C113_defaults"
   ],
   "note": "The last sentence is false in two cases. A fee that is undefined passes the check of rpc.ts:50 and setComputeUnitPrice throws, so sendTransaction with its own default options never sends anything, nor does a client given an undefined fee. With a banksClient the wallet never signs (rpc.ts:32-36), so nothing is executed unless the wallet is named as an additional signer."
  },
  {
   "property": "C114",
   "status": "partial",
   "theorems": [
    "OB.C114_create",
    "OB.C114_open_orders_partial",
    "OB.C114_place_partial",
    "OB.C114_cancel_partial",
    "OB.C114_cancel_all_partial",
    "OB.C114_false"
   ],
   "note": "Each theorem gives the exact condition under which the function sends, and proves that otherwise it never does. The claim is false for createOpenOrders with a payer who is neither the wallet nor the owner, for placeOrder on a market with an admin who is neither the wallet nor the delegate, for cancelOrder with any delegate (one signer too many from the owner's wallet, one too few from the delegate's), and for cancelAllOrders from a wallet that is not the owner's."
  },
  {
   "property": "C115",
   "status": "partial",
   "theorems": [
    "OB.C115_account",
    "OB.C115_wrong_indexer",
    "OB.C115_indexer_partial",
    "OB.C115_indexer_refused",
    "OB.C115_indexer_false"
   ],
   "note": "The second sentence is false: closeOpenOrdersIndexerIx passes the asks of a market as the index and its bids as the receiver of the rent (client.ts:896-897), so the program refuses every such instruction. C115_indexer_partial shows that it would hold with the derived address."
  },
  {
   "property": "C116",
   "status": "proved",
   "theorems": [
    "OB.C116_created",
    "OB.C116_sizes",
    "OB.C116_signers"
   ],
   "note": "The name and the oracle parameters of the market, and the check that an oracle account is a known oracle, are not modelled. The address of the market is assumed fresh, and an oracle that is given is not the default key."
  },
  {
   "property": "C12",
   "status": "partial",
   "theorems": [
    "OB.C12_posting_never_crosses_partial",
    "OB.C12_posting_never_crosses_false_bid",
    "OB.C12_posting_never_crosses_false_ask",
    "OB.C12_posting_never_crosses_false_hidden"
   ],
   "note": "False of the code when the quote budget runs out in the middle of a level (two counterexamples) and for pegged orders lost behind a skipped one (third counterexample); proved for every remaining opposing order the budget could still have paid."
  },
  {
   "property": "C13",
   "status": "proved",
   "theorems": [
    "OB.C13_base_conserved"
   ],
   "note": "all reachable states"
  },
  {
   "property": "C14",
   "status": "proved",
   "theorems": [
    "OB.C14_quote_conserved"
   ],
   "note": "all reachable states"
  },
  {
   "property": "C15",
   "status": "proved",
   "theorems": [
    "OB.C15_vaults_solvent",
    "OB.C15_claims_nonneg"
   ],
   "note": ""
  },
  {
   "property": "C16",
   "status": "proved",
   "theorems": [
    "OB.C16_cancel_order",
    "OB.C16_cancel_by_client_id",
    "OB.C16_cancel_all",
    "OB.C16_prune"
   ],
   "note": "all four cancelling instructions, from every reachable state"
  },
  {
   "property": "C17",
   "status": "proved",
   "theorems": [
    "OB.C17_fee_covers_fills_and_cancel",
    "OB.C17_model_fees",
    "OB.C17_locked_fees_suffice"
   ],
   "note": "The fee locked for a resting bid covers the fees of any split into fills plus the release on cancel, and along every history the fees locked in an account cover what its open bids still owe. That the releases never fail is C40."
  },
  {
   "property": "C18",
   "status": "proved",
   "theorems": [
    "OB.C18_order_tree_is_sorted_map",
    "OB.C18_worst_is_last",
    "OB.C18_insert_succeeds"
   ],
   "note": "Every operation sequence on one book side (both trees in the shared slab) refines a finite map."
  },
  {
   "property": "C19",
   "status": "partial",
   "theorems": [
    "OB.C19_unique_per_side",
    "OB.C19_unique_partial",
    "OB.C19_sides_collide",
    "OB.C19_counts",
    "OB.C19_resting",
    "OB.C19_never_reused"
   ],
   "note": "Unconditional for orders of the same side, over all histories. Across sides proved for markets with fewer than 2^63 orders sent; beyond that bid and ask ids can coincide (C19_sides_collide). A history is one life of the market: if it is closed and created again, ids can recur (C67_ids_again)."
  },
  {
   "property": "C20",
   "status": "proved",
   "theorems": [
    "OB.C20_bid_order",
    "OB.C20_ask_order",
    "OB.C20_key_injective",
    "OB.C20_fixed_roundtrip",
    "OB.C20_fixed_monotone",
    "OB.C20_pegged_roundtrip",
    "OB.C20_pegged_monotone"
   ],
   "note": ""
  },
  {
   "property": "C21",
   "status": "proved",
   "theorems": [
    "OB.C21_event_heap_is_fifo_queue",
    "OB.C21_push_succeeds"
   ],
   "note": "runs shorter than 2^64 operations (u64 sequence counter)"
  },
  {
   "property": "C22",
   "status": "proved",
   "theorems": [
    "OB.C22_consume_events",
    "OB.C22_consume_given_events"
   ],
   "note": "delivery of the front of the queue / of the named slots credits each named account exactly, in queue order, once"
  },
  {
   "property": "C23",
   "status": "proved",
   "theorems": [
    "OB.C23_expired",
    "OB.C23_stays_expired",
    "OB.C23_expired_forever",
    "OB.C23_expired_by_admin",
    "OB.C23_expired_by_time",
    "OB.C23_settle_available",
    "OB.C40_cancel_order",
    "OB.C40_cancel_by_client_id",
    "OB.C40_consume_events",
    "OB.C40_consume_head"
   ],
   "note": "Once expired, every later instruction sequence only winds down (no new orders, events or deposits) and the market stays expired; an edit on an expired market can still succeed by cancelling only. Availability of cancel and consume is C40 (independent of expiry); settle cannot get stuck (explicit conditions on destination accounts)."
  },
  {
   "property": "C24",
   "status": "proved",
   "theorems": [
    "OB.C24_closed_empty",
    "OB.C24_stays_closed"
   ],
   "note": ""
  },
  {
   "property": "C25",
   "status": "proved",
   "theorems": [
    "OB.C25_account_closed"
   ],
   "note": "Queued events to be delivered to the account (as maker). A queued fill may still name the account as taker; the taker side is booked when the fill happens and consuming does not touch it."
  },
  {
   "property": "C26",
   "status": "proved",
   "theorems": [
    "OB.C26_settle",
    "OB.C26_settle_expired",
    "OB.C26_totals_follow_vaults"
   ],
   "note": ""
  },
  {
   "property": "C27",
   "status": "partial",
   "theorems": [
    "OB.C27_abort",
    "OB.C27_cancel_provide",
    "OB.C27_no_fee_on_self_trades_partial",
    "OB.C27_as_asked",
    "OB.C27_self_trade_loses_maker_fee"
   ],
   "note": "AbortTransaction and CancelProvide are proved in full (C27_abort, C27_cancel_provide, C27_as_asked). DecrementTake: no taker fee and no booked maker fee or rebate on a self-trade is proved; the full claim (a self-trade costs nothing) is false in the code, C27_self_trade_loses_maker_fee is a machine-checked counterexample: the maker fee locked by the own resting bid is not released and is swept into market fees at settlement."
  },
  {
   "property": "C28",
   "status": "partial",
   "theorems": [
    "OB.C28_edit_partial",
    "OB.C28_unfilled_not_replaced",
    "OB.C28_not_EditReplaces",
    "OB.C28_two_steps"
   ],
   "note": "What an edit does is proved for all states and arguments (C28_edit_partial), including that it never trades and posts more than the requested size less the filled amount. The full claim EditReplaces is false in the code: when nothing was filled the order is cancelled but nothing is placed (C28_unfilled_not_replaced, C28_not_EditReplaces)."
  },
  {
   "property": "C29",
   "status": "partial",
   "theorems": [
    "OB.C29_sweep",
    "OB.C29_history_partial",
    "OB.C29_no_maker_fee",
    "OB.C29_fees_exceed_accrued"
   ],
   "note": "The last claim of the property is false for the code: settling moves the rounding remainder of locked maker fees to the fees available without accruing it (C29_fees_exceed_accrued). Proved with the remainders added, hence exactly on markets without maker fee."
  },
  {
   "property": "C30",
   "status": "proved",
   "theorems": [
    "OB.C30_rebates_are_the_sum",
    "OB.C30_only_settling",
    "OB.C30_settlement"
   ],
   "note": ""
  },
  {
   "property": "C31",
   "status": "proved",
   "theorems": [
    "OB.C31_take_bid",
    "OB.C31_take_ask"
   ],
   "note": "The code charges takers without an account only the maker rebates, not the whole taker fee."
  },
  {
   "property": "C32",
   "status": "proved",
   "theorems": [
    "OB.C32_rebates_funded"
   ],
   "note": ""
  },
  {
   "property": "C33",
   "status": "proved",
   "theorems": [
    "OB.C33_orders",
    "OB.C33_no_orders_added",
    "OB.C33_funds",
    "OB.C33_sequence"
   ],
   "note": "For every instruction and every sequence of instructions not signed by owner or delegate. Orders only leave by fills, expiry, peg limit, eviction or admin pruning; free balances only decrease by settle_funds_expired, to accounts of the owner."
  },
  {
   "property": "C34",
   "status": "proved",
   "theorems": [
    "OB.C34_time_in_force",
    "OB.C34_expired_not_placed",
    "OB.C34_posted",
    "OB.C34_kept",
    "OB.C34_no_expired_fill",
    "OB.C34_never_after_expiry",
    "OB.C34_all_fills"
   ],
   "note": "For all placing instructions incl. edits and batches: exactly the orders whose expiry is ahead reach the engine, with tif min(expiry-now, 65535); a resting order keeps timestamp and tif; no fill of it at or after the expiry in any later history."
  },
  {
   "property": "C35",
   "status": "partial",
   "theorems": [
    "OB.C35_within_peg_limit",
    "OB.C35_placed_limit_kept_partial",
    "OB.C35_has_limit",
    "OB.C35_costs_at_most_locked",
    "OB.C35_queued_costs_at_most_locked",
    "OB.C35_taking_partial",
    "OB.C35_not_PegLimitKept"
   ],
   "note": "Proved for pegged orders that rest: fill price is oracle + offset and within the limit given when placed, over all later histories and oracle prices; cost incl. fee at most what was locked. The code violates the claim while such an order is being placed: it takes at up to oracle + offset (C35_taking_partial) without looking at the peg limit (PegLimitKept is false: C35_not_PegLimitKept, a bid with peg limit 1000 buys for 1050)."
  },
  {
   "property": "C36",
   "status": "proved",
   "theorems": [
    "OB.C36_remove_one_expired"
   ],
   "note": "Stated on every book side reachable by insertions and removals."
  },
  {
   "property": "C37",
   "status": "proved",
   "theorems": [
    "OB.C37_displaces",
    "OB.C37_full_count",
    "OB.C37_full_evicts",
    "OB.C37_no_better_fails"
   ],
   "note": "Stated for every call of the matching engine made by an instruction. An order whose owner account is passed to the instruction is released at once instead of through the queue."
  },
  {
   "property": "C38",
   "status": "proved",
   "theorems": [
    "OB.C38_used_slot_has_one_home",
    "OB.C38_free_slot_has_no_home",
    "OB.C38_resting_order_is_recorded",
    "OB.C38_event_is_recorded",
    "OB.C38_accounts_wellformed"
   ],
   "note": ""
  },
  {
   "property": "C39",
   "status": "proved",
   "theorems": [
    "OB.C39_bids_base_lots",
    "OB.C39_asks_base_lots",
    "OB.C39_bids_quote_lots"
   ],
   "note": ""
  },
  {
   "property": "C40",
   "status": "proved",
   "theorems": [
    "OB.C40_consume_events",
    "OB.C40_consume_head",
    "OB.C40_consume_given",
    "OB.C40_cancel_order",
    "OB.C40_cancel_by_client_id"
   ],
   "note": "consuming under CountersLow (volume and fee counters below 2^127); cancelling by id under fewer than 2^63 posted orders, by client id under a 64-bit bound on the lots in the book"
  },
  {
   "property": "C41",
   "status": "proved",
   "theorems": [
    "OB.C41_engine",
    "OB.C41_take"
   ],
   "note": "amounts_from_book returns exactly what the matching engine takes (base, quote, maker rebates) for a market order with the limit of 45 orders the client assumes, when the taker has no own orders on that side; for place_take_order (which has no open orders account) the tokens moved are exactly the client amounts, without that condition."
  },
  {
   "property": "C42",
   "status": "proved",
   "theorems": [
    "OB.C42_created",
    "OB.C42_accepts",
    "OB.C42_forever"
   ],
   "note": "The check at creation in both directions, and that the settings never change."
  },
  {
   "property": "C43",
   "status": "proved",
   "theorems": [
    "OB.C43_expire_close",
    "OB.C43_prune_settle",
    "OB.C43_fees",
    "OB.C43_placing",
    "OB.C43_consuming",
    "OB.C43_admins_fixed"
   ],
   "note": "Stated about effects: what can differ after an instruction that the admin did not sign."
  },
  {
   "property": "C44",
   "status": "proved",
   "theorems": [
    "OB.C44_explained",
    "OB.C44_added",
    "OB.C44_opposing_orders",
    "OB.C44_own_orders"
   ],
   "note": "For every instruction from every reachable state: what became of each resting order before it, and where each resting order after it comes from."
  },
  {
   "property": "C45",
   "status": "partial",
   "theorems": [
    "OB.C45_quote_partial",
    "OB.C45_not_QuoteExact",
    "OB.C45_expired_false",
    "OB.C45_spends_more_than_given"
   ],
   "note": "The full claim QuoteExact is false for the code and its negation is proved twice: the fee has the wrong sign (C45_not_QuoteExact), and expired orders are counted (C45_expired_false). Proved instead: if no order on the side taken from has expired, the quote is off by exactly twice the rebates. Also proved: the native input amount is used as a number of lots."
  },
  {
   "property": "C46",
   "status": "proved",
   "theorems": [
    "OB.C46_exit"
   ],
   "note": "from every reachable open state; hypotheses only about token accounts, lamports and counters of 126 bits"
  },
  {
   "property": "C47",
   "status": "partial",
   "theorems": [
    "OB.C47_closable_partial",
    "OB.C47_closable_false"
   ],
   "note": "full claim is false: unpaid event queue penalties make an account of a closed market unclosable"
  },
  {
   "property": "C48",
   "status": "proved",
   "theorems": [
    "OB.C48_wind_down"
   ],
   "note": "Assumes the admins supply token accounts owned by each account owner, lamports for the penalties, and that no account has 2^63 lots in the book (pruning adds both sides in 64 bits)."
  },
  {
   "property": "C49",
   "status": "partial",
   "theorems": [
    "OB.C49_fresh",
    "OB.C49_stale_freezes",
    "OB.C49_confident_partial",
    "OB.C49_confident_both_partial",
    "OB.C49_uncertain_freezes_partial",
    "OB.C49_confident_false",
    "OB.C49_negative_false",
    "OB.C49_zero_false"
   ],
   "note": "Freshness is proved in full. Confidence is proved with explicit rounding bounds for filters that are non-negative finite numbers and non-zero first prices; the full claim is false: conf_filter is not checked at creation (NaN accepts everything, a negative filter acts as positive with two oracles), and a first price of zero with zero deviation switches off the check of both oracles."
  },
  {
   "property": "C50",
   "status": "proved",
   "theorems": [
    "OB.C50_frozen"
   ],
   "note": ""
  },
  {
   "property": "C51",
   "status": "proved",
   "theorems": [
    "OB.C51_one",
    "OB.C51_two",
    "OB.C51_none",
    "OB.C51_exact_false",
    "OB.C51_negative_false",
    "OB.C51_ieee"
   ],
   "note": "For non-negative prices; stub oracles may report negative prices, which C51_negative_false shows to be used as they are. C51_exact_false shows that without the stated slack the claim would be false."
  },
  {
   "property": "C52",
   "status": "partial",
   "theorems": [
    "OB.C52_priced_partial",
    "OB.C52_priced_both_partial",
    "OB.C52_unreadable",
    "OB.C52_blocked_false"
   ],
   "note": "The full claim is false: an unreadable oracle account or a price that does not fit into i64 lots makes every placing instruction fail. C52_priced_partial and C52_priced_both_partial: with one or two oracles that report non-negative prices whose conversion fits, the price computation never fails."
  },
  {
   "property": "C53",
   "status": "proved",
   "theorems": [
    "OB.C53_signed",
    "OB.C53_vaults",
    "OB.C53_conserved",
    "OB.C53_lamports"
   ],
   "note": ""
  },
  {
   "property": "C54",
   "status": "proved",
   "theorems": [
    "OB.C54_exact",
    "OB.C54_address",
    "OB.C54_one_market",
    "OB.C54_create",
    "OB.C54_close",
    "OB.C54_no_panic",
    "OB.C54_close_index"
   ],
   "note": "Address derivation is idealised as injective."
  },
  {
   "property": "C55",
   "status": "proved",
   "theorems": [
    "OB.C55_refines",
    "OB.C55_disjoint",
    "OB.C55_untouched",
    "OB.C55_solvent"
   ],
   "note": "Address derivation is idealised as injective; an address is used for one market only."
  },
  {
   "property": "C56",
   "status": "proved",
   "theorems": [
    "OB.C56_ladder",
    "OB.C56_fills_are_greedy",
    "OB.C56_only_offers_matter"
   ],
   "note": "Under the condition of the statement on pegged prices; without it the walk misses offers (C06, counterexample proved there)."
  },
  {
   "property": "C57",
   "status": "proved",
   "theorems": [
    "OB.C57_posted_size",
    "OB.C57_why_not_posted",
    "OB.C57_rest_is_posted"
   ],
   "note": ""
  },
  {
   "property": "C58",
   "status": "proved",
   "theorems": [
    "OB.C58_trades",
    "OB.C58_bystanders",
    "OB.C58_kept",
    "OB.C58_deposit",
    "OB.C58_settle",
    "OB.C58_close"
   ],
   "note": "The rounding loss and the lost fee of self-trades are part of the statement (bounded by makerSlack); C27 has the counterexample for self-trades."
  },
  {
   "property": "C59",
   "status": "proved",
   "theorems": [
    "OB.C59_from_wallets",
    "OB.C59_free_first"
   ],
   "note": ""
  },
  {
   "property": "C60",
   "status": "proved",
   "theorems": [
    "OB.C60_place_order",
    "OB.C60_place_order_pegged",
    "OB.C60_place_take_order",
    "OB.C60_take_accepted",
    "OB.C60_limit_accepted"
   ],
   "note": "hypotheses: counters below half their range, amounts fit 64 bits, room in the event queue"
  },
  {
   "property": "C61",
   "status": "proved",
   "theorems": [
    "OB.C61_place_orders",
    "OB.C61_never_short",
    "OB.C61_take_batch_accepted",
    "OB.C61_quotes_accepted"
   ],
   "note": "hypotheses: counters below half their range, the tokens around times the length of the batch fit 64 bits, room in the event queue; post-only-slide batches are left out"
  },
  {
   "property": "C62",
   "status": "proved",
   "theorems": [
    "OB.C62_cranks_deliver",
    "OB.C62_order_is_irrelevant",
    "OB.C62_one_outcome"
   ],
   "note": "C62_one_outcome assumes that volume and fee counters are not near overflow (needed for cranking to be completable)"
  },
  {
   "property": "C63",
   "status": "proved",
   "theorems": [
    "OB.C63_order",
    "OB.C63_take",
    "OB.C63_settle",
    "OB.C63_free",
    "OB.C63_history"
   ],
   "note": "C63_history assumes that nobody else pays lamports to the market account and that it is not itself the payer"
  },
  {
   "property": "C64",
   "status": "partial",
   "theorems": [
    "OB.C64_emitted",
    "OB.C64_placing",
    "OB.C64_other",
    "OB.C64_volumes",
    "OB.C64_history",
    "OB.C64_account_history",
    "OB.C64_trader",
    "OB.C64_take_partial",
    "OB.C64_take_false",
    "OB.C64_fee_sum",
    "OB.C64_fee_sum_false",
    "OB.C64_deposit",
    "OB.C64_settle",
    "OB.C64_sweep",
    "OB.C64_delegate",
    "OB.C64_positions",
    "OB.C64_maker_position",
    "OB.C64_position_false"
   ],
   "note": "The full claim is false: the total of a take order says that the whole taker fee was charged, but only the part paid on as maker rebates is (C64_take_false; C64_take_partial gives the exact difference); the taker fees reported per fill are rounded up one by one and can sum to more than the fee charged (C64_fee_sum_false; C64_fee_sum bounds the difference). Position records: the volumes in the last record of an account are its volumes, over any history (C64_positions); a maker whose fills are consumed is shown exactly (C64_maker_position); a trader is not, since the record is written before the rest of the order is posted (C64_position_false)."
  },
  {
   "property": "C65",
   "status": "proved",
   "theorems": [
    "OB.C65_queue",
    "OB.C65_few",
    "OB.C65_events",
    "OB.C65_client",
    "OB.C65_client_size",
    "OB.C65_router_list",
    "OB.C65_router",
    "OB.C65_take",
    "OB.C65_swap"
   ],
   "note": "The router list is only claimed to suffice for at most three makers and does not contain owners of expired orders (the code names neither). The trader must have no orders on the side taken from, as the client does not know the trader; take orders have none."
  },
  {
   "property": "C66",
   "status": "proved",
   "theorems": [
    "OB.C66_best",
    "OB.C66_best_none",
    "OB.C66_quantity",
    "OB.C66_impact",
    "OB.C66_impact_none",
    "OB.C66_trades",
    "OB.C66_quantity_trades",
    "OB.C66_impact_trades"
   ],
   "note": "Books without opposing pegged orders out of price range (those are C06): such an order ends the iteration of its tree."
  },
  {
   "property": "C67",
   "status": "proved",
   "theorems": [
    "OB.C67_clean",
    "OB.C67_others",
    "OB.C67_accounts",
    "OB.C67_solvent",
    "OB.C67_other_mints",
    "OB.C67_ids_again"
   ],
   "note": "C67_ids_again is the negation, by a concrete run, of the claim that an id names orders of one account only at an address. C67_other_mints is about deployments (Model/World), the others about one address."
  },
  {
   "property": "C68",
   "status": "proved",
   "theorems": [
    "OB.C68_only_owner",
    "OB.C68_latest",
    "OB.C68_price",
    "OB.C68_used"
   ],
   "note": "The derivation of addresses is idealised as injective, as in the deployment model. A stub oracle created or set in slot 0 never becomes stale (state/oracle.rs:222-227). Negative and NaN prices are C49."
  },
  {
   "property": "C69",
   "status": "proved",
   "theorems": [
    "OB.C69_step",
    "OB.C69_run",
    "OB.C69_no_profit",
    "OB.C69_taken_out",
    "OB.C69_worth",
    "OB.C69_trades"
   ],
   "note": "An account settled into a vault of the market itself loses what is paid there: in this case the change is only bounded from above. The taker fee (minus rebates) stays on the books of the taker as referrer rebate until settlement, where it goes to the referrer or to the fees of the market; both count as taken out."
  },
  {
   "property": "C70",
   "status": "partial",
   "theorems": [
    "OB.C70_ends",
    "OB.C70_loop_false",
    "OB.C70_reads_partial",
    "OB.C70_snapshot_partial",
    "OB.C70_order_false",
    "OB.C70_fork_false",
    "OB.C70_late_write_false",
    "OB.C70_late_confirmation_false",
    "OB.C70_query_false"
   ],
   "note": "Proved for fair feeds: slots announced with a parent below and before anything built on them, rooted slots on the best chain, nothing new about slots the root has passed. The code violates the claim without each of these: five counterexamples are proved. Among them: a query about one account hides writes of others, since the made-up parent of the answered slot is never replaced; a late confirmation deletes account data at the next root."
  },
  {
   "property": "C71",
   "status": "proved",
   "theorems": [
    "OB.C71_received",
    "OB.C71_ordered",
    "OB.C71_newest",
    "OB.C71_last_word",
    "OB.C71_pruned",
    "OB.C71_overwritten_false"
   ],
   "note": "The comment at chain_data.rs:158 says that an existing entry for a slot is overwritten. It never is: `C71_overwritten_false` shows that any number of writes for one slot are all kept. Reads are right all the same."
  },
  {
   "property": "C72",
   "status": "proved",
   "theorems": [
    "OB.C72_makers",
    "OB.C72_takers",
    "OB.C72_agree",
    "OB.C72_placing",
    "OB.C72_other"
   ],
   "note": "Histories start with the creation of the market. At an address where a market is created again (C67) accounts may bring volumes from the former market."
  },
  {
   "property": "C73",
   "status": "proved",
   "theorems": [
    "OB.C73_deposit",
    "OB.C73_refill",
    "OB.C73_settle",
    "OB.C73_settle_expired",
    "OB.C73_sweep",
    "OB.C73_cancel_order",
    "OB.C73_cancel_all",
    "OB.C73_cancel_by_client_id",
    "OB.C73_prune",
    "OB.C73_consume",
    "OB.C73_consume_given",
    "OB.C73_set_expired",
    "OB.C73_close_market",
    "OB.C73_create_account",
    "OB.C73_close_account",
    "OB.C73_set_delegate"
   ],
   "note": "About the environment it is assumed that two token accounts of one mint together fit in 64 bits (the supply does), the same for lamports, and that counters of 128 bits are below half of their range, sequence numbers below 2^63, and the lots of one account in orders below 2^63 (without these the code does fail: C40, C45)."
  },
  {
   "property": "C74",
   "status": "proved",
   "theorems": [
    "OB.C74_step",
    "OB.C74_runs",
    "OB.C74_place",
    "OB.C74_others",
    "OB.C74_peak_matters"
   ],
   "note": "The exception the statement names is real: C74_peak_matters gives two reachable states that differ only in the slab, of which one accepts a bid the other rejects."
  },
  {
   "property": "C75",
   "status": "partial",
   "theorems": [
    "OB.C75_loads",
    "OB.C75_items",
    "OB.C75_best",
    "OB.C75_l2",
    "OB.C75_ladder_partial",
    "OB.C75_pegged_throws",
    "OB.C75_never_expired",
    "OB.C75_stale"
   ],
   "note": "The code violates the full claim: with an oracle pegged order on the side the library throws, and expired orders are shown as live; both are proved. Without them the claim is proved (C75_ladder_partial)."
  },
  {
   "property": "C76",
   "status": "partial",
   "theorems": [
    "OB.C76_queue",
    "OB.C76_formula",
    "OB.C76_ignores_queue",
    "OB.C76_error",
    "OB.C76_balance_partial",
    "OB.C76_wrong"
   ],
   "note": "The code violates the full claim: it compares the maker of a fill, an open orders account, with the owner of the account, so no waiting fill is ever counted (C76_ignores_queue, C76_wrong). The size of the error is proved (C76_error), and the claim for accounts without waiting fills (C76_balance_partial). The theorems are about the queue as meant to be read; with anchor's decoder reading it throws whenever an event is queued (C84)."
  },
  {
   "property": "C77",
   "status": "partial",
   "theorems": [
    "OB.C77_owner",
    "OB.C77_no_market",
    "OB.C77_offsets",
    "OB.C77_missed"
   ],
   "note": "The search for open orders accounts is exact (C77_owner). The code violates the claim for markets: the offsets 792 and 824 are not those of the mints, which are at 576 and 608, and the second compares beyond the end of the account, so no market is ever found (C77_no_market, C77_offsets, C77_missed)."
  },
  {
   "property": "C78",
   "status": "partial",
   "theorems": [
    "OB.C78_orders_partial",
    "OB.C78_throws",
    "OB.C78_fails"
   ],
   "note": "The code violates the full claim: for an account with a slot of a pegged order, on a side where a pegged order rests, the list ends in an exception (C78_throws, C78_fails). In all other cases the claim holds (C78_orders_partial)."
  },
  {
   "property": "C79",
   "status": "partial",
   "theorems": [
    "OB.C79_no_slots",
    "OB.C79_for_account",
    "OB.C79_accounts",
    "OB.C79_front_partial",
    "OB.C79_stuck",
    "OB.C79_for_account_names"
   ],
   "note": "The code violates the claim: keys are compared by object identity, so no slot is ever found and consumeEventsForAccountIx consumes nothing (C79_no_slots, C79_for_account); the account list is that of nodes 0 to 20 of the heap, used or not (C79_accounts), and the queue can stand still with it (C79_stuck). While all events are in these nodes it works (C79_front_partial)."
  },
  {
   "property": "C80",
   "status": "partial",
   "theorems": [
    "OB.C80_base_partial",
    "OB.C80_quote_partial",
    "OB.C80_price_partial",
    "OB.C80_entered",
    "OB.C80_entered_free",
    "OB.C80_price_wrong",
    "OB.C80_ask_below",
    "OB.C80_cheap_token"
   ],
   "note": "The code violates the claim: above 2^49 native units a shown price can come back one lot lower, e.g. 64.064 as 64.063 (C80_price_wrong); typed prices are rounded down for asks as for bids (C80_entered, C80_ask_below); uiPriceToLots of market.ts gives 0 lots for prices below the decimals of the quote token (C80_cheap_token). Below 2^49 the round trips hold."
  },
  {
   "property": "C81",
   "status": "partial",
   "theorems": [
    "OB.C81_base",
    "OB.C81_taker",
    "OB.C81_taker_partial",
    "OB.C81_maker_partial",
    "OB.C81_base_usd",
    "OB.C81_taker_over",
    "OB.C81_taker_short",
    "OB.C81_base_usd_zero"
   ],
   "note": "The base limit is right (C81_base). The code violates the claim elsewhere: fees in native units are added to lots, so the allowance is too large by the lot size (C81_taker) and a buyer can pay more than amount and fee (C81_taker_over); with lots of one unit the limit is slightly too small (C81_taker_partial, C81_maker_partial give the bound; C81_taker_short); whole base tokens are multiplied by the number of decimals (C81_base_usd, C81_base_usd_zero)."
  },
  {
   "property": "C82",
   "status": "partial",
   "theorems": [
    "OB.C82_create",
    "OB.C82_find",
    "OB.C82_load",
    "OB.C82_load_all_partial",
    "OB.C82_load_all_closed",
    "OB.C82_find_or_create_partial",
    "OB.C82_last_closed",
    "OB.C82_first",
    "OB.C82_other_market"
   ],
   "note": "Creation and lookup by the TypeScript library are right (C82_create, C82_find, C82_load). The code violates the claim elsewhere: loading all accounts throws if one of the markets is closed (C82_load_all_closed); the Rust library passes an address that the program refuses for a first account and whenever the account created last has been closed (C82_first, C82_last_closed), and returns an account of another market that has the name (C82_other_market)."
  },
  {
   "property": "C83",
   "status": "partial",
   "theorems": [
    "OB.C83_signers",
    "OB.C83_ts_place",
    "OB.C83_ts_admin",
    "OB.C83_ts_admin_refused",
    "OB.C83_ts_cancel_partial",
    "OB.C83_ts_cancel_refused",
    "OB.SentCase.C83_ts_cancel_false",
    "OB.C83_ts_deposit_partial",
    "OB.C83_ts_deposit_refused",
    "OB.C83_ts_settle",
    "OB.C83_ts_consume",
    "OB.C83_ts_given_partial",
    "OB.C83_ts_given_refused",
    "OB.SentCase.C83_ts_given_false",
    "OB.C83_ts_close",
    "OB.C83_rust_place_partial",
    "OB.C83_rust_place_refused",
    "OB.SentCase.C83_rust_place_false",
    "OB.C83_rust_owner",
    "OB.C83_rust_consume"
   ],
   "note": "The code violates the claim for: a delegate cancelling with the TypeScript library, which always names the owner as signer (C83_ts_cancel_refused, C83_ts_cancel_false); consuming given events with it on a market without admin, where the all-zero key would have to sign (C83_ts_given_refused, C83_ts_given_false); depositing for somebody else (C83_ts_deposit_refused); placing with the Rust library on a market with an open orders admin (C83_rust_place_refused, C83_rust_place_false); consuming events with the Rust library, which passes no accounts and so changes nothing (C83_rust_consume)."
  },
  {
   "property": "C84",
   "status": "partial",
   "theorems": [
    "OB.C84_program",
    "OB.C84_size",
    "OB.C84_injective",
    "OB.C84_zeroed",
    "OB.C84_refused",
    "OB.C84_nodes",
    "OB.C84_holds",
    "OB.C84_key",
    "OB.C84_queue_partial",
    "OB.C84_queue_throws",
    "OB.C84_queue_false"
   ],
   "note": "Proved for the program and for the decoding of all nodes by the library. The code violates the claim for `parsedEvents` of the library: it takes the method `decode` out of its object, so with anchor's `BorshTypesCoder`, which looks up layouts in a field of `this`, it throws whenever an event is queued (C84_queue_throws, C84_queue_false); with the object kept it gives exactly the queue (C84_queue_partial). That numbers fit the types of their fields is a hypothesis here; C85 proves it for every history."
  },
  {
   "property": "C85",
   "status": "proved",
   "theorems": [
    "OB.C85_fits",
    "OB.C85_expiry",
    "OB.C85_products",
    "OB.C85_decodes"
   ],
   "note": "Holds of the model, whose numbers are unbounded and are checked only where the code checks. The inputs bounded by assumption (`Sized`) are keys of 32 bytes and the length of the lists of a batch; C85_decodes discharges the hypotheses `SideFits` and `HeapFits` of C75, C78 and C84 for every history."
  },
  {
   "property": "C86",
   "status": "proved",
   "theorems": [
    "OB.C86_created",
    "OB.C86_accepts",
    "OB.C86_forever",
    "OB.C86_used"
   ],
   "note": ""
  },
  {
   "property": "C87",
   "status": "proved",
   "theorems": [
    "OB.C87_one_by_one",
    "OB.C87_same_funds"
   ],
   "note": "Hypotheses: the wallets belong to the signer and differ from each other, balances of one mint fit in 64 bits (the token program), and the penalty counter has room for the batch. The converse (whenever the single orders succeed the batch does) is not claimed: the batch adds up its amounts in 64 bits."
  },
  {
   "property": "C88",
   "status": "partial",
   "theorems": [
    "OB.C88_bid_partial",
    "OB.C88_ask_partial",
    "OB.C88_larger_bid",
    "OB.C88_larger_ask",
    "OB.C88_dust_false",
    "OB.C88_cap_false",
    "OB.C88_not_MoreOffersNeverHurt"
   ],
   "note": "The full claim is `MoreOffersNeverHurt`; it is false (`C88_dust_false`: limit on the number of fills; `C88_cap_false`: quote limit of an ask). Proved when neither binds; no opposing pegged order may have a price out of range (C06)."
  },
  {
   "property": "C89",
   "status": "partial",
   "theorems": [
    "OB.C89_exact",
    "OB.C89_program_exact",
    "OB.C89_program_list",
    "OB.C89_no_panic",
    "OB.C89_asked_once",
    "OB.C89_everyone",
    "OB.C89_error",
    "OB.C89_retry",
    "OB.C89_program_retry",
    "OB.C89_fresh_after_clear_partial",
    "OB.C89_fresh_when_idle",
    "OB.C89_not_FreshAfterClear",
    "OB.C89_not_NeverBackwards",
    "OB.C89_frozen",
    "OB.C89_frozen_hit"
   ],
   "note": "The full claims `FreshAfterClear` and `NeverBackwards` are false (`C89_not_FreshAfterClear`, `C89_not_NeverBackwards`). Proved: fresh when no request was in flight at the clearing (`C89_fresh_when_idle`), otherwise answered after it. `C89_frozen` is the finding on the client's open orders account."
  },
  {
   "property": "C90",
   "status": "proved",
   "theorems": [
    "OB.C90_money",
    "OB.C90_cancels",
    "OB.C90_ahead",
    "OB.C90_behind",
    "OB.C90_conditions"
   ],
   "note": "Instructions that place orders and the delivery of events are not among the ones exchanged; for placing it is false (`C90_conditions`)."
  },
  {
   "property": "C91",
   "status": "partial",
   "theorems": [
    "OB.C91_current_partial",
    "OB.C91_not_current",
    "OB.C91_unread",
    "OB.C91_update",
    "OB.C91_accounts",
    "OB.C91_accepted_partial",
    "OB.C91_not_tradable",
    "OB.C91_failed_mixes"
   ],
   "note": "Partial because the code violates the claim in the three ways named; each negation is proved with a witness (`C91_not_current`, `C91_not_tradable`, `C91_failed_mixes`). That the amounts quoted differ from those moved is C45."
  },
  {
   "property": "C92",
   "status": "partial",
   "theorems": [
    "OB.C92_read",
    "OB.C92_readable",
    "OB.C92_owner_partial",
    "OB.C92_any_owner",
    "OB.C92_owner_false",
    "OB.C92_short",
    "OB.C92_created",
    "OB.C92_kinds",
    "OB.C92_unreadable_false",
    "OB.C92_stub",
    "OB.C92_stub_forged",
    "OB.C92_doubles",
    "OB.C92_pool"
   ],
   "note": "Partial because the code violates the claim for Pyth and Switchboard V2 (`C92_any_owner`, `C92_owner_false`) and for readability (`C92_unreadable_false`). The formats of Pyth and Switchboard are those of other crates; their readers are arbitrary functions."
  },
  {
   "property": "C93",
   "status": "proved",
   "theorems": [
    "OB.C93_gains_nothing",
    "OB.C93_loses_nothing",
    "OB.C93_same_cost"
   ],
   "note": ""
  },
  {
   "property": "C94",
   "status": "proved",
   "theorems": [
    "OB.C94_market",
    "OB.C94_account",
    "OB.C94_indexer",
    "OB.C94_kind"
   ],
   "note": ""
  },
  {
   "property": "C95",
   "status": "partial",
   "theorems": [
    "OB.C95_last",
    "OB.C95_market_partial",
    "OB.C95_side_partial",
    "OB.C95_heap_partial",
    "OB.C95_add_market",
    "OB.C95_clear_partial",
    "OB.C95_open_orders_stale",
    "OB.C95_clear_fails"
   ],
   "note": "True of markets, book sides and event heaps (C95_market_partial, C95_side_partial, C95_heap_partial). False of open orders accounts: they are decoded under a name that is no account of the program, so every callback throws and the object never changes (C95_open_orders_stale). clear stops everything if no account was added twice (C95_clear_partial), otherwise the earlier subscription goes on (C95_clear_fails)."
  },
  {
   "property": "C96",
   "status": "proved",
   "theorems": [
    "OB.C96_done",
    "OB.C96_succeeds",
    "OB.C96_needs_owner",
    "OB.C96_delegate"
   ],
   "note": "With a delegate the transaction needs the key of the owner as well (C96_needs_owner; see C83)."
  },
  {
   "property": "C97",
   "status": "partial",
   "theorems": [
    "OB.C97_makers",
    "OB.C97_immediate",
    "OB.C97_payer",
    "OB.C97_copy_partial",
    "OB.C97_limit_partial",
    "OB.C97_limit_unit",
    "OB.C97_no_limit_refused",
    "OB.C97_zero_limit",
    "OB.C97_zero_id",
    "OB.C97_pegged_blocks",
    "OB.C97_only_posts"
   ],
   "note": "True of price, size and client order ids other than 0 (C97_copy_partial); the accounts suffice if no opposing order is pegged or expired (C97_makers, C97_immediate). False otherwise: the limit is read in lots instead of tokens (C97_limit_unit), a missing limit becomes 2^63-1 lots, which the program refuses in every market whose quote lot is more than one native unit (C97_no_limit_refused), a limit of 0 is no limit (C97_zero_limit), the client order id 0 becomes the time (C97_zero_id), and one pegged order on the other side makes the call throw (C97_pegged_blocks)."
  },
  {
   "property": "C98",
   "status": "partial",
   "theorems": [
    "OB.C98_order",
    "OB.C98_accepted",
    "OB.C98_listed_partial",
    "OB.C98_client"
   ],
   "note": "Proved in full for orders by id as long as less than 2^63 orders were sent to the market (C19). An account with a pegged order cannot be listed at all (C78), hence C98_listed_partial."
  },
  {
   "property": "C99",
   "status": "partial",
   "theorems": [
    "OB.C99_few_partial",
    "OB.C99_answer",
    "OB.C99_many",
    "OB.C99_lookup_table"
   ],
   "note": "Proved for at most fifty transactions. Beyond that it is false (C99_many): every batch is the first fifty signatures, so older markets are missing and the others are listed several times. A transaction whose twelfth inner instruction has its first account from a lookup table makes the function throw (C99_lookup_table). That the event of a creation is the twelfth inner instruction is a matter of the Solana runtime and is assumed."
  }
 ]
}