{"id": "C01", "title": "Fee rounding is exact and always against the trader", "statement": "The taker fee charged on a quote amount is the exact ceiling of amount*taker_fee/1e6; the maker fee locked for a resting bid is the exact ceiling of amount*maker_fee/1e6; the maker fee released or charged on a fill is the exact floor of amount*|maker_fee|/1e6. In particular the fee is never less than the mathematical fee for the taker, never more than one native unit above it, and a maker rebate is never more than the mathematical rebate.", "quantifier": "every market fee configuration and every quote amount", "why_tests_cant": "Rounding errors occur only at particular residues of amount*fee modulo 1e6; tests sample a handful of amounts.", "anchors": ["programs/openbook-v2/src/state/market.rs: ceil_fee_division, taker_fees_ceil, maker_fees_ceil, maker_fees_floor, maker_rebate_floor, unsigned_maker_fees_floor"]}
{"id": "C02", "title": "A bid never spends more than its quote budget including fees", "statement": "Placing a bid removes from the owner (free balance plus deposit) at most max_quote_lots_including_fees*quote_lot_size native quote in total: quote paid for immediate fills, taker fees, quote locked by the posted remainder and the maker fee locked for it.", "quantifier": "every book state, every order type and size, every fee configuration, every number of matches", "why_tests_cant": "The bound depends on accumulated integer rounding over an unbounded sequence of matches at arbitrary prices.", "anchors": ["programs/openbook-v2/src/state/orderbook/book.rs: Orderbook::new_order", "programs/openbook-v2/src/instructions/place_order.rs: place_order"]}
{"id": "C03", "title": "An order never trades or posts more than its base budget", "statement": "The base lots taken plus the base lots posted by one order never exceed max_base_lots; an ask therefore never takes more than max_base_lots*base_lot_size native base from the owner; and the quote lots taken by one order never exceed its quote budget.", "quantifier": "every book state, every order type and parameters", "why_tests_cant": "Requires an invariant over the matching loop for arbitrary books.", "anchors": ["programs/openbook-v2/src/state/orderbook/book.rs: Orderbook::new_order"]}
{"id": "C04", "title": "Every fill respects the taker's limit price", "statement": "Every fill produced while placing an order executes at a price not worse than the order's limit price (bid: price <= limit, ask: price >= limit).", "quantifier": "every book state, oracle price, order type and limit", "why_tests_cant": "Universal over all resting book contents and oracle prices, including pegged orders whose price moves.", "anchors": ["programs/openbook-v2/src/state/orderbook/book.rs: Orderbook::new_order", "programs/openbook-v2/src/state/orderbook/order_type.rs: Side::is_price_within_limit"]}
{"id": "C05", "title": "Every fill executes at the resting order's own price", "statement": "The price of every fill equals the resting order's current price: its stored limit price for a fixed order, or oracle price + stored offset for a pegged order; the quantity filled never exceeds that order's resting quantity; and only unexpired resting orders are filled.", "quantifier": "every book state, time and oracle price", "why_tests_cant": "Universal over book contents; tests check particular books.", "anchors": ["programs/openbook-v2/src/state/orderbook/book.rs: Orderbook::new_order", "programs/openbook-v2/src/state/orderbook/bookside_iterator.rs"]}
{"id": "C06", "title": "Matching follows price-time priority", "statement": "The opposing orders are visited in price priority, ties broken by time of insertion, fixed and pegged orders interleaved; an order is filled only after every better valid unexpired resting order has been completely consumed.", "quantifier": "every pair of fixed and pegged order trees, time and oracle price", "why_tests_cant": "Needs the iterator to be correct on every tree shape and on every interleaving of fixed and pegged orders, including skipped pegged orders.", "anchors": ["programs/openbook-v2/src/state/orderbook/bookside_iterator.rs: BookSideIter::next", "programs/openbook-v2/src/state/orderbook/ordertree_iterator.rs: OrderTreeIter"]}
{"id": "C07", "title": "Post-only orders never take", "statement": "A PostOnly or PostOnlySlide order never produces a fill or self-trade cancellation and never pays a taker fee; if it would cross, nothing is traded and nothing is posted.", "quantifier": "every book state and order parameters", "why_tests_cant": "Universal over opposing book states.", "anchors": ["programs/openbook-v2/src/state/orderbook/book.rs: Orderbook::new_order", "programs/openbook-v2/src/state/orderbook/order.rs: is_post_only"]}
{"id": "C08", "title": "PostOnlySlide never crosses", "statement": "A PostOnlySlide order is posted at a price strictly better than the best opposing price for the opposing side to rest (bid below best ask, ask above best bid), and otherwise at its own limit price if that is less aggressive.", "quantifier": "every book state, oracle price and limit", "why_tests_cant": "Universal over book states and oracle prices.", "anchors": ["programs/openbook-v2/src/state/orderbook/order.rs: price_for_order_type, post_only_slide_limit, price"]}
{"id": "C09", "title": "Market, IOC and FillOrKill orders never rest", "statement": "Placing a Market, ImmediateOrCancel or FillOrKill order never adds an order to the book and never returns an order id.", "quantifier": "every book state and order parameters", "why_tests_cant": "Universal over book states.", "anchors": ["programs/openbook-v2/src/state/orderbook/order.rs: post_target", "programs/openbook-v2/src/state/orderbook/book.rs: Orderbook::new_order"]}
{"id": "C10", "title": "FillOrKill is all or nothing", "statement": "A FillOrKill order either succeeds with its base or its quote budget completely consumed or fails leaving every balance, the book and the event queue unchanged.", "quantifier": "every book state and FillOrKill order", "why_tests_cant": "Universal over book states, interacts with the match limit and rounding of quote lots.", "anchors": ["programs/openbook-v2/src/state/orderbook/book.rs: Orderbook::new_order"]}
{"id": "C11", "title": "The work of one placement is bounded", "statement": "One placement performs at most `limit` matches, deletes at most 5 expired opposing orders plus at most one expired own-side order and at most one worst own-side order, and appends at most limit + 7 events.", "quantifier": "every book state, every limit", "why_tests_cant": "Universal over book states; the compute budget depends on it.", "anchors": ["programs/openbook-v2/src/state/orderbook/book.rs: DROP_EXPIRED_ORDER_LIMIT, new_order"]}
{"id": "C12", "title": "Posting never leaves the book crossed", "statement": "After an order is placed successfully and its remainder is posted, the posted price does not cross the best valid opposing price.", "quantifier": "every book state, fee configuration and order", "why_tests_cant": "Depends on rounding of fees against lots and on self-trade handling at arbitrary books; the failing inputs are rare.", "anchors": ["programs/openbook-v2/src/state/orderbook/book.rs: Orderbook::new_order"]}
{"id": "C13", "title": "Base tokens are conserved", "statement": "In every reachable state the market's recorded base deposits equal the sum over all open orders accounts of free base plus base locked in asks, adjusted by fills not yet delivered to makers. No instruction sequence creates or destroys base.", "quantifier": "every finite sequence of instructions by any users, with any arguments, oracle prices and times", "why_tests_cant": "Requires an inductive invariant over unbounded histories and interleavings of users.", "anchors": ["programs/openbook-v2/src/state/market.rs: base_deposit_total", "programs/openbook-v2/src/state/open_orders_account.rs: execute_maker, execute_taker, cancel_order", "programs/openbook-v2/src/instructions/"]}
{"id": "C14", "title": "Quote tokens are conserved", "statement": "In every reachable state the market's recorded quote deposits equal the sum over all accounts of free quote, quote locked in bids, locked maker fees and unsettled referrer rebates, plus the fees available to sweep, adjusted by fills not yet delivered to makers. No instruction sequence creates or destroys quote.", "quantifier": "every finite sequence of instructions by any users, with any arguments, oracle prices and times", "why_tests_cant": "Inductive invariant over unbounded histories; fee and rebate rounding must cancel exactly at every step.", "anchors": ["programs/openbook-v2/src/state/market.rs: quote_deposit_total, fees_available", "programs/openbook-v2/src/state/open_orders_account.rs", "programs/openbook-v2/src/instructions/"]}
{"id": "C15", "title": "The vaults are always solvent", "statement": "In every reachable state the token balance of each market vault is at least the market's recorded deposit total, so every recorded claim can be paid.", "quantifier": "every finite sequence of instructions and external token transfers", "why_tests_cant": "Inductive invariant over unbounded histories.", "anchors": ["programs/openbook-v2/src/instructions/place_order.rs", "programs/openbook-v2/src/instructions/place_take_order.rs", "programs/openbook-v2/src/instructions/settle_funds.rs", "programs/openbook-v2/src/instructions/sweep_fees.rs", "programs/openbook-v2/src/token_utils.rs"]}
{"id": "C16", "title": "Cancelling returns exactly what the order had locked", "statement": "Cancelling a resting order moves exactly its remaining base (ask) or remaining quote at its locked price plus the ceiling maker fee (bid) from locked to free, removes the order, and changes no other account and no other order.", "quantifier": "every state and every resting order", "why_tests_cant": "Universal over states, prices, fees; partial fills in between change rounding.", "anchors": ["programs/openbook-v2/src/state/open_orders_account.rs: cancel_order", "programs/openbook-v2/src/state/orderbook/book.rs: cancel_order"]}
{"id": "C17", "title": "Locked maker fees never underflow", "statement": "For every bid, the fee locked at posting covers the sum of the floor fees released by any sequence of partial fills plus the ceiling fee released by a final cancellation; hence fills and cancels of a live order never fail for lack of locked fees.", "quantifier": "every quantity, price, fee and every sequence of partial fills followed by cancel or complete fill", "why_tests_cant": "Universal over partitions of the quantity and rounding residues.", "anchors": ["programs/openbook-v2/src/state/market.rs: maker_fees_ceil, maker_fees_floor", "programs/openbook-v2/src/state/open_orders_account.rs: execute_maker, cancel_order"]}
{"id": "C18", "title": "The order tree is a sorted map", "statement": "Every sequence of insertions and removals on the order tree behaves exactly like the same sequence on a finite map from order ids to orders: lookups/iteration return exactly the live orders, in ascending id order for asks and descending for bids, removal by id removes exactly that order, min/max are correct, an insert into a non-full tree always succeeds and never disturbs other orders.", "quantifier": "every sequence of operations on the tree from empty", "why_tests_cant": "Unbounded set of tree shapes and key patterns; crit-bit trees break on specific key bit patterns.", "anchors": ["programs/openbook-v2/src/state/orderbook/ordertree.rs: insert_leaf, remove_by_key, leaf_min_max, remove, insert", "programs/openbook-v2/src/state/orderbook/ordertree_iterator.rs"]}
{"id": "C19", "title": "Order ids are unique and never reused", "statement": "Two orders ever posted on a market never receive the same order id, no matter how prices, sides and times interleave.", "quantifier": "every history of placements", "why_tests_cant": "Universal over histories.", "anchors": ["programs/openbook-v2/src/state/market.rs: gen_order_id", "programs/openbook-v2/src/state/orderbook/nodes.rs: new_node_key"]}
{"id": "C20", "title": "Order keys encode price-time priority", "statement": "Order ids encode the price so that numeric order of ids is price order, with earlier orders first among equal prices on both sides; the encoded fixed price and pegged offset decode to exactly what was encoded, for all representable values including negative offsets.", "quantifier": "every price, offset, and sequence number", "why_tests_cant": "All 64-bit values; edge cases at sign boundaries.", "anchors": ["programs/openbook-v2/src/state/orderbook/nodes.rs: new_node_key, oracle_pegged_price_data, oracle_pegged_price_offset, fixed_price_data, fixed_price_lots"]}
{"id": "C21", "title": "The event heap is a FIFO queue with random deletion", "statement": "Every sequence of push, pop-front, and delete-slot on the event heap behaves as a FIFO queue: no event is lost, duplicated, altered or reordered, count is exact, a push on a non-full heap always succeeds, and freed slots are reusable forever.", "quantifier": "every sequence of operations from the initial heap", "why_tests_cant": "Unbounded operation sequences over a doubly linked free list.", "anchors": ["programs/openbook-v2/src/state/orderbook/heap.rs: push_back, pop_front, delete_slot, iter"]}
{"id": "C22", "title": "Consuming events delivers each fill exactly once", "statement": "consume_events processes at most min(limit,8) events; each processed event is removed exactly once and applied exactly once to its maker's account; an event whose account is not supplied stays queued unchanged; consuming never changes deposit totals or vaults.", "quantifier": "every queue content, limit, slot list and set of supplied accounts", "why_tests_cant": "Universal over queue contents and account sets.", "anchors": ["programs/openbook-v2/src/instructions/consume_events.rs"]}
{"id": "C23", "title": "An expired market accepts no new risk and never reopens", "statement": "Once a market is expired, no later instruction sequence places, edits or takes orders or deposits; and once expired by the admin or by time, it stays expired forever, while cancel, consume, settle remain available.", "quantifier": "every state and every later instruction sequence", "why_tests_cant": "Temporal property over all histories.", "anchors": ["programs/openbook-v2/src/state/market.rs: is_expired", "programs/openbook-v2/src/instructions/set_market_expired.rs", "programs/openbook-v2/src/accounts_ix/"]}
{"id": "C24", "title": "A market can only be closed with no user funds left in it", "statement": "close_market succeeds only if the book and event heap are empty, deposit totals, available fees and rebates are zero; in every reachable state where it succeeds, every open orders account of the market has zero free, zero locked funds.", "quantifier": "every reachable state", "why_tests_cant": "Follows from conservation over all histories.", "anchors": ["programs/openbook-v2/src/instructions/close_market.rs", "programs/openbook-v2/src/state/market.rs: is_empty"]}
{"id": "C25", "title": "An open orders account can only be closed when nothing is owed to it or by it", "statement": "close_open_orders_account succeeds only if the account has no free funds, no locked funds, no live orders, and in every reachable state this implies that no queued event refers to the account.", "quantifier": "every reachable state", "why_tests_cant": "Relates account, book and queue across all histories.", "anchors": ["programs/openbook-v2/src/instructions/close_open_orders_account.rs", "programs/openbook-v2/src/state/open_orders_account.rs: Position::is_empty"]}
{"id": "C26", "title": "Settling pays exactly the free balances to an allowed destination", "statement": "settle_funds pays exactly the account's free base to the base destination and free quote to the quote destination, zeroing both and reducing the deposit totals by exactly what leaves the vault; when a delegate signs, only token accounts owned by the account owner can receive the funds.", "quantifier": "every state and every choice of accounts and signer", "why_tests_cant": "Universal over states, rebate combinations and penalty settings.", "anchors": ["programs/openbook-v2/src/instructions/settle_funds.rs", "programs/openbook-v2/src/state/open_orders_account.rs: is_settle_destination_allowed"]}
{"id": "C27", "title": "Self-trade handling follows the requested behaviour", "statement": "With AbortTransaction no successful placement matches the owner's own order; with CancelProvide matched own orders are cancelled without trade and without changing the taken amounts; with DecrementTake a self-trade pays no fee.", "quantifier": "every book state and order", "why_tests_cant": "Universal over book contents.", "anchors": ["programs/openbook-v2/src/state/orderbook/book.rs: Orderbook::new_order"]}
{"id": "C28", "title": "Editing an order never increases exposure beyond the requested size", "statement": "edit_order cancels the order with the given client id (if present) and places a new one whose size is the requested size reduced by what had been filled of the expected size; if nothing remains, nothing is placed.", "quantifier": "every state and edit arguments", "why_tests_cant": "Race between edits and fills over all histories.", "anchors": ["programs/openbook-v2/src/instructions/edit_order.rs", "programs/openbook-v2/src/lib.rs: edit_order"]}
{"id": "C29", "title": "Sweeping fees only takes accrued fees", "statement": "sweep_fees transfers exactly fees_available to the collector and reduces the recorded quote deposits by the same; it never touches user balances; over any history total fees swept plus fees available never exceeds fees accrued.", "quantifier": "every history", "why_tests_cant": "Inductive over histories.", "anchors": ["programs/openbook-v2/src/instructions/sweep_fees.rs"]}
{"id": "C30", "title": "Referrer rebates are accounted exactly", "statement": "The market-wide unsettled referrer rebates equal the sum of the rebates recorded in accounts in every reachable state; settling pays them out exactly once, to the referrer or to the fees pool.", "quantifier": "every history", "why_tests_cant": "Inductive over histories.", "anchors": ["programs/openbook-v2/src/instructions/settle_funds.rs", "programs/openbook-v2/src/state/market.rs: referrer_rebates_accrued"]}
{"id": "C31", "title": "A take order settles exactly against the vaults", "statement": "place_take_order changes the taker's tokens, the vaults and the recorded deposits by exactly the traded amounts: vault in/out equals the change of the deposit totals, the taker pays at most and receives at least the amounts implied by the fills and the ceiling taker fee.", "quantifier": "every book state and order", "why_tests_cant": "Universal over books.", "anchors": ["programs/openbook-v2/src/instructions/place_take_order.rs"]}
{"id": "C32", "title": "Maker rebates are always funded by taker fees", "statement": "For every market that passes creation checks, on every fill set the sum of maker rebates paid is at most the taker fees charged, so available fees never go negative.", "quantifier": "every valid fee configuration and every multiset of fills", "why_tests_cant": "Sum of floors versus ceiling of sum for arbitrary multisets.", "anchors": ["programs/openbook-v2/src/instructions/create_market.rs", "programs/openbook-v2/src/state/orderbook/book.rs: new_order"]}
{"id": "C33", "title": "Only the owner or delegate can cancel or place for an account", "statement": "An instruction sequence in which neither the owner nor delegate of an account signs never cancels that account's unexpired, non-displaced orders except by fills, admin pruning on an expired market, and never reduces the account's free balances except by settlement of an expired market by the admin.", "quantifier": "every state, every instruction by a third party", "why_tests_cant": "Universal over third-party behaviours.", "anchors": ["programs/openbook-v2/src/accounts_ix/", "programs/openbook-v2/src/instructions/"]}
{"id": "C34", "title": "Orders are never filled at or after expiry", "statement": "An order placed with a time-in-force is never filled at or after its expiry time; an expiry timestamp is converted to min(expiry-now, 65535) seconds and an order already expired is not placed.", "quantifier": "every time, expiry and book", "why_tests_cant": "Universal over times.", "anchors": ["programs/openbook-v2/src/state/orderbook/order.rs: tif_from_expiry", "programs/openbook-v2/src/state/orderbook/nodes.rs: LeafNode::is_expired", "programs/openbook-v2/src/state/orderbook/book.rs"]}
{"id": "C35", "title": "Pegged orders never trade beyond their peg limit", "statement": "A pegged bid is never filled above its peg limit and a pegged ask never below, whatever the oracle price; a pegged bid therefore never spends more than was locked for it.", "quantifier": "every oracle price and book", "why_tests_cant": "Universal over oracle paths between posting and fill.", "anchors": ["programs/openbook-v2/src/state/orderbook/bookside_iterator.rs: oracle_pegged_price", "programs/openbook-v2/src/state/open_orders_account.rs: execute_maker"]}
{"id": "C36", "title": "Expired orders are found exactly", "statement": "Removing one expired order removes an order with the smallest expiry and succeeds if and only if some order in that tree is expired (strictly before now); it never removes an unexpired order.", "quantifier": "every tree reachable by insertions and removals", "why_tests_cant": "The earliest-expiry summary in inner nodes must stay exact for every tree shape and op sequence.", "anchors": ["programs/openbook-v2/src/state/orderbook/ordertree.rs: remove_one_expired, update_parent_earliest_expiry, find_earliest_expiry"]}
{"id": "C37", "title": "A full book only displaces a worse order", "statement": "When the own side of the book is full, placing an order evicts the worst order only if the new order's price is strictly better, otherwise placement fails; the evicted owner gets a cancel event for exactly the evicted remaining quantity.", "quantifier": "every full book state", "why_tests_cant": "Needs a full 512-order tree; universal over contents.", "anchors": ["programs/openbook-v2/src/state/orderbook/book.rs: new_order", "programs/openbook-v2/src/state/orderbook/bookside.rs: remove_worst"]}
{"id": "C38", "title": "Every live order has exactly one home", "statement": "In every reachable state, each used order slot of an account corresponds to exactly one of: a resting order with that id owned by that account, or one queued event which will free the slot; every resting order's owner slot refers back to it.", "quantifier": "every reachable state", "why_tests_cant": "Relational invariant across book, queue and accounts over all histories.", "anchors": ["programs/openbook-v2/src/state/open_orders_account.rs", "programs/openbook-v2/src/state/orderbook/book.rs", "programs/openbook-v2/src/instructions/consume_events.rs"]}
{"id": "C39", "title": "Locked balances equal outstanding orders", "statement": "In every reachable state each account's bids_base_lots and asks_base_lots equal the total quantity of its resting orders plus undelivered events, and bids_quote_lots equals the same at the locked prices.", "quantifier": "every reachable state", "why_tests_cant": "Relational invariant over all histories.", "anchors": ["programs/openbook-v2/src/state/open_orders_account.rs: Position"]}
{"id": "C40", "title": "Consuming and cancelling never get stuck", "statement": "In every reachable state, consuming the head event with its maker account supplied succeeds, and cancelling any resting order by its owner succeeds.", "quantifier": "every reachable state in which fewer than 2^63 orders have been posted and no 128-bit volume or fee counter has reached 2^127 (the only ways in which the unbounded claim can fail)", "why_tests_cant": "Liveness: absence of arithmetic panics over all histories.", "anchors": ["programs/openbook-v2/src/instructions/consume_events.rs", "programs/openbook-v2/src/state/orderbook/book.rs: cancel_order"]}
{"id": "C41", "title": "Client-side quotes equal on-chain execution", "statement": "The amounts the client library computes for a prospective take order on a snapshot of the book equal the amounts that the on-chain matching produces for the same market order on the same snapshot.", "quantifier": "every book snapshot and order size", "why_tests_cant": "Equality of two implementations for all inputs.", "anchors": ["lib/client/src/book.rs: iterate_book, amounts_from_book", "programs/openbook-v2/src/state/orderbook/book.rs"]}
{"id": "C42", "title": "Fee configuration accepted at creation is safe", "statement": "create_market accepts only fee settings where taker fee is non-negative, maker rebate (negative maker fee) never exceeds the taker fee, and lot sizes are positive.", "quantifier": "every argument tuple", "why_tests_cant": "Universal over 64-bit arguments, including extreme values such as the minimum i64 maker fee.", "anchors": ["programs/openbook-v2/src/instructions/create_market.rs"]}
{"id": "C43", "title": "Administrative powers are limited to the named admins", "statement": "Only the close-market admin can expire or close a market or prune/settle expired accounts, only the fee admin can sweep; with an admin set for placing or consuming, those instructions require its signature.", "quantifier": "every state and signer set", "why_tests_cant": "Universal over signers.", "anchors": ["programs/openbook-v2/src/accounts_ix/"]}
{"id": "C44", "title": "A resting order changes only through explained events", "statement": "In every instruction an order resting in the book stays unchanged, or shrinks by the quantity of a fill of that order, or leaves the book because it was completely filled, cancelled by its owner or by a self-trade rule, expired or beyond its peg limit, pruned from an expired market, or evicted as the worst order of a full book side. No instruction changes price, owner or slot of a resting order or adds an order other than the one placed.", "quantifier": "every reachable state and every instruction", "why_tests_cant": "Tests look at a few orders after a few instructions; the claim is a frame condition over every order in the book and every instruction, including batches and slab handle reuse.", "anchors": ["programs/openbook-v2/src/state/orderbook/book.rs:53-420", "programs/openbook-v2/src/state/orderbook/bookside.rs", "programs/openbook-v2/src/instructions"]}
{"id": "C45", "title": "The router quote equals the swap", "statement": "The amounts to spend and to receive that the Jupiter adapter's `quote` reports are those that the market order placed for the swap moves between the taker's token accounts and the vaults.", "quantifier": "every reachable market, side, input amount and time", "why_tests_cant": "The repository test compares one fixture market; whether the sign of the fee, the time and the lots used in the quote agree with the program needs all fee settings and books.", "anchors": ["lib/client/src/jup.rs: quote", "lib/client/src/book.rs: amounts_from_book", "programs/openbook-v2/src/instructions/place_take_order.rs"]}
{"id": "C46", "title": "Everybody can always leave with everything due to them", "statement": "On an open market, expired or not and whatever others did, the owner of an open orders account can deliver the queued events, cancel every resting order, settle and close the account; no instruction fails, exactly the free funds, the proceeds of fills not yet delivered and the funds locked in resting orders arrive in the owner's token accounts, and nothing due to anybody else changes.", "quantifier": "every reachable open state and every account", "why_tests_cant": "It is a liveness claim: the existence of a succeeding instruction sequence from every reachable state, with exact amounts, including states with full queues, pegged orders and closed counterparties.", "anchors": ["programs/openbook-v2/src/instructions/consume_events.rs", "programs/openbook-v2/src/instructions/cancel_order.rs", "programs/openbook-v2/src/instructions/settle_funds.rs", "programs/openbook-v2/src/instructions/close_open_orders_account.rs", "programs/openbook-v2/src/state/open_orders_account.rs"]}
{"id": "C47", "title": "Accounts of a closed market are empty and can be closed", "statement": "After a market has been closed no open orders account of it holds anything, and every owner can still close the account and recover its rent.", "quantifier": "every reachable closed state and every account", "why_tests_cant": "Whether something can make an account of a closed market unclosable is a question about all histories before closing and all instruction sequences after it.", "anchors": ["programs/openbook-v2/src/instructions/close_market.rs", "programs/openbook-v2/src/accounts_ix/close_market.rs", "programs/openbook-v2/src/accounts_ix/close_open_orders_account.rs", "programs/openbook-v2/src/state/open_orders_account.rs:411-421"]}
{"id": "C48", "title": "An expired market can always be wound down and closed", "statement": "From every state of an expired market the admins can deliver the queued events, prune every account's orders, settle every account, sweep the fees and close the market, without any of these instructions failing; every account receives exactly what was due to it, all the base deposits are paid out to accounts, and the fee receiver gets exactly the remaining quote.", "quantifier": "every reachable state of an expired market whose admins have the token accounts and lamports needed", "why_tests_cant": "That nothing left in the book, the queue or the account totals can block the closing, or leave a remainder, is a statement about all histories of the market.", "anchors": ["programs/openbook-v2/src/instructions/prune_orders.rs", "programs/openbook-v2/src/instructions/settle_funds_expired.rs", "programs/openbook-v2/src/instructions/sweep_fees.rs", "programs/openbook-v2/src/instructions/close_market.rs", "programs/openbook-v2/src/instructions/consume_events.rs"]}
{"id": "C49", "title": "Oracle prices are used only when every oracle is fresh and certain", "statement": "Whenever an instruction uses an oracle price, each oracle of the market was updated at most max_staleness slots before, and its deviation is at most conf_filter times its price (with two oracles: the relative deviations combined as independent errors are at most conf_filter), up to the rounding of double arithmetic. Otherwise there is no price and pegged orders are neither filled nor posted nor moved.", "quantifier": "every market configuration, every content of the oracle accounts, every slot and every placing instruction", "why_tests_cant": "Freshness and confidence are compared in saturating integers and in doubles, with NaN, infinities and subnormals; whether any combination slips through cannot be sampled.", "anchors": ["programs/openbook-v2/src/state/oracle.rs", "programs/openbook-v2/src/state/market.rs:220-304", "programs/openbook-v2/src/instructions/place_order.rs:48-55"]}
{"id": "C50", "title": "Without a valid oracle price pegged orders are frozen", "statement": "An instruction that runs without a valid oracle price fills no pegged order, posts none, and leaves every resting pegged order exactly as it is, unless the owner or delegate of the order signs the instruction or the order has expired.", "quantifier": "every reachable state and every placing instruction without an oracle price", "why_tests_cant": "The iterator, eviction from a full book, expiry removal and self-trade handling all touch pegged orders; the claim is about all of them on all books.", "anchors": ["programs/openbook-v2/src/state/orderbook/bookside_iterator.rs", "programs/openbook-v2/src/state/orderbook/bookside.rs", "programs/openbook-v2/src/state/orderbook/book.rs", "programs/openbook-v2/src/state/orderbook/order.rs"]}
{"id": "C51", "title": "The oracle price in lots is the reported price rounded down", "statement": "The price that matching uses for pegged orders is the reported price (or the quotient of the two reported prices), scaled by the decimals of the mints and converted to lots, rounded down (prices that are not negative); roundings of doubles and of the fixed point format change the price before that by at most one part in 2^48 and 2^-48 native units.", "quantifier": "every reachable market, every content of the oracle accounts, all decimals and lot sizes", "why_tests_cant": "An error bound through a chain of floating point and fixed point operations is a statement about all doubles.", "anchors": ["programs/openbook-v2/src/state/oracle.rs", "programs/openbook-v2/src/state/market.rs:220-304"]}
{"id": "C52", "title": "An unusable oracle does not block trading at fixed prices", "statement": "Whatever the state of the oracle accounts, instructions that place fixed-price orders succeed or fail as they would with some oracle price or none.", "quantifier": "every reachable state, every content of the oracle accounts, every placing instruction", "why_tests_cant": "It asks that no content of a foreign account can make the price computation fail.", "anchors": ["programs/openbook-v2/src/state/oracle.rs", "programs/openbook-v2/src/state/market.rs:220-304", "programs/openbook-v2/src/instructions/place_order.rs:48-55", "programs/openbook-v2/src/instructions/stub_oracle_close.rs"]}
{"id": "C53", "title": "Only the owner's signature moves their tokens", "statement": "No instruction of the program takes tokens out of a token account unless the account's owner signs it, except that taking orders, settling and sweeping fees pay out of the two vaults of the market. No instruction changes owner or mint of a token account, and none creates or destroys tokens or lamports; lamports are taken only from signers and paid only to the market.", "quantifier": "every reachable state, every instruction, every token account, every set of accounts passed", "why_tests_cant": "It is a claim about all combinations of accounts that a caller can pass, including vaults and aliased accounts in unexpected places.", "anchors": ["programs/openbook-v2/src/token_utils.rs", "programs/openbook-v2/src/instructions/place_order.rs", "programs/openbook-v2/src/instructions/place_take_order.rs", "programs/openbook-v2/src/instructions/deposit.rs", "programs/openbook-v2/src/instructions/settle_funds.rs", "programs/openbook-v2/src/instructions/sweep_fees.rs"]}
{"id": "C54", "title": "The index of an owner lists exactly the owner's open orders accounts", "statement": "The open orders indexer of an owner has no duplicates, at most 256 entries, and contains an address exactly if an open orders account of this owner exists there. Addresses of new accounts are never in use, creating an account succeeds while there is room, closing an account that holds nothing succeeds and takes it off the index without panic, and an indexer can be closed exactly when no account is left.", "quantifier": "every deployment: any number of markets, owners and accounts, every interleaving of operations, re-created indexers included", "why_tests_cant": "Consistency between two accounts over arbitrary histories, including closing and re-creating the indexer, which restarts the numbering.", "anchors": ["programs/openbook-v2/src/state/open_orders_indexer.rs", "programs/openbook-v2/src/instructions/create_open_orders_account.rs", "programs/openbook-v2/src/instructions/close_open_orders_account.rs", "programs/openbook-v2/src/instructions/create_open_orders_indexer.rs", "programs/openbook-v2/src/instructions/close_open_orders_indexer.rs", "programs/openbook-v2/src/accounts_ix/create_open_orders_account.rs", "programs/openbook-v2/src/accounts_ix/close_open_orders_account.rs"]}
{"id": "C55", "title": "Markets do not interfere", "statement": "In a deployment with any number of markets each market is always in a state it could have reached on its own. Different markets have different authorities and vaults even for the same tokens, an operation for one market changes nothing of another and never reduces its vaults, and all markets together can pay out all their deposits at the same time.", "quantifier": "every deployment, every interleaving of operations on all markets, indexers and token accounts", "why_tests_cant": "Non-interference over all interleavings of all markets.", "anchors": ["programs/openbook-v2/src/accounts_ix/create_market.rs", "programs/openbook-v2/src/accounts_ix/place_order.rs", "programs/openbook-v2/src/accounts_ix/settle_funds.rs", "programs/openbook-v2/src/instructions/create_market.rs"]}
{"id": "C56", "title": "An order trades exactly what the greedy match of the visible offers gives", "statement": "The opposing orders that can trade have a unique price-time order. While no opposing pegged price has left the representable range, the fills of an order are exactly those of walking this list from the best offer, taking from each the least of what is wanted, offered and affordable, skipping own orders if they are to be cancelled, until the limit price, the size, the budget or the number of matches is reached. Nothing else matters: the shape of the trees, the accounts or other orders have no influence.", "quantifier": "every reachable book, every order, oracle price and time, every pair of books with the same offers", "why_tests_cant": "Equality of the result with a specification for all books; independence of the representation relates pairs of arbitrary histories.", "anchors": ["programs/openbook-v2/src/state/orderbook/book.rs", "programs/openbook-v2/src/state/orderbook/bookside_iterator.rs", "programs/openbook-v2/src/state/orderbook/order.rs"]}
{"id": "C57", "title": "The rest of an order is posted in full", "statement": "An order left on the book has exactly the size that was not traded, limited only by what the rest of its quote budget (less the maker fees to be locked) pays for at the posted price, and at least one lot. If a limit or post-only order is not posted then an opposing order within its limit is left, or no such size is left, or its price is beyond its own peg limit.", "quantifier": "every reachable book, every order, oracle price and time", "why_tests_cant": "Exact size after arbitrary fills, fees and rounding, and completeness of the reasons not to post.", "anchors": ["programs/openbook-v2/src/state/orderbook/book.rs"]}
{"id": "C58", "title": "What is due to an account changes only by its trades, deposits and settlements", "statement": "Count for an open orders account everything it will be able to withdraw: free balances, what its resting orders have locked, and what queued events will credit. Placing, editing, cancelling, evicting, expiring, pruning and delivering change this by nothing but the fills the account takes part in, at the fill price with the fee or rebate of its role; a maker of a filled bid loses at most one native unit per fill to rounding (and its reserved fee on a trade with itself). Deposits add what arrives in the vaults, settlements take what is paid out, and an account can only be closed when nothing is due to it.", "quantifier": "every reachable state, every instruction with all its arguments, every account", "why_tests_cant": "Universal over books, queues and rounding; a leak of one unit in a rare combination (eviction, self-trade, partial fill, editing) is invisible in tests.", "anchors": ["programs/openbook-v2/src/state/open_orders_account.rs", "programs/openbook-v2/src/state/orderbook/book.rs", "programs/openbook-v2/src/instructions/place_order.rs", "programs/openbook-v2/src/instructions/settle_funds.rs"]}
{"id": "C59", "title": "Orders are paid from the free balance first, the rest exactly from the wallet", "statement": "An instruction that places orders takes tokens from the given token accounts only if the free balance of the open orders account in that token is used up. What arrives in the vaults is exactly what leaves those token accounts; no other token account is touched.", "quantifier": "every reachable state, every order or batch of orders, edit or replacement", "why_tests_cant": "Relates fills, self-trades, releases and several orders of one instruction to the final transfer, for all balances.", "anchors": ["programs/openbook-v2/src/instructions/place_order.rs", "programs/openbook-v2/src/instructions/cancel_all_and_place_orders.rs", "programs/openbook-v2/src/token_utils.rs"]}
{"id": "C60", "title": "A valid order is accepted", "statement": "place_order and place_order_pegged succeed, or fail for one of a few stated reasons: the order meets an own order and the owner asked to abort, a fill-or-kill order, no free slot, a crowded side of the book (512 orders or more), too little money for the limit of the order, a sliding order with no price left. place_take_order succeeds, unless the order is fill-or-kill and cannot be filled or the wallet does not hold its limit. In particular an order that is to trade at once, with funds for its limit, is accepted whatever the book holds, and so is a limit or post-only order when its account has a free slot and fewer than 512 orders rest on its side.", "quantifier": "every reachable state whose counters are not near overflow, every valid order whose amounts fit 64 bits, every signer that controls the account", "why_tests_cant": "No arithmetic step, tree operation, queue push or account update may fail for any book, any fills and any evictions.", "anchors": ["programs/openbook-v2/src/state/orderbook/book.rs", "programs/openbook-v2/src/instructions/place_order.rs", "programs/openbook-v2/src/state/orderbook/order.rs", "programs/openbook-v2/src/instructions/place_take_order.rs"]}
{"id": "C61", "title": "A batch of orders is never refused for lack of money", "statement": "place_orders and cancel_all_and_place_orders size every order to what is left of the wallets and free balances of the owner. They never fail because the owner cannot pay. They succeed, or fail for one of three stated reasons: a fill-or-kill order, a crowded side of the book, too few slots. A batch of market or immediate-or-cancel orders always succeeds. For the instruction that cancels first, the orders of the owner on the book do not count.", "quantifier": "every reachable state whose counters are not near overflow, every list of well-formed bids and asks of any length that fits the event queue, every type of order but post-only-slide", "why_tests_cant": "The sizes are computed from balances that change with every order of the batch; the sum of the costs must stay within wallet plus free balance for every book, every list of entries and every fill.", "anchors": ["programs/openbook-v2/src/instructions/cancel_all_and_place_orders.rs", "programs/openbook-v2/src/lib.rs", "programs/openbook-v2/src/state/market.rs"]}
{"id": "C62", "title": "The order of cranking does not matter", "statement": "Events may be consumed in any order, in any portions, from the front of the queue or from slots the caller picks. Each queued event is delivered once. Two ways of cranking that leave the same events queued end with the same balances, open orders, counters, fees and book. However cranking has begun, it can be completed, and it always ends in the same state.", "quantifier": "every reachable state, every two runs of any number of consuming instructions with any limits, slots and accounts", "why_tests_cant": "The runs differ in length, order, skipped events and slots; equality of the outcomes needs a proof that deliveries commute, for every queue and every pair of runs.", "anchors": ["programs/openbook-v2/src/instructions/consume_events.rs", "programs/openbook-v2/src/state/open_orders_account.rs", "programs/openbook-v2/src/state/orderbook/heap.rs"]}
{"id": "C63", "title": "Penalties for queued events are exact", "statement": "An instruction that places orders for an account adds exactly one penalty to it if it leaves more events queued than it found, and none otherwise. A take order then costs 500 lamports at once. Settling pays 500 lamports per penalty and clears them. Every other instruction adds no penalty, moves no lamports and queues no events. Over any history, lamports received by the market plus penalties owed equal 500 times the number of instructions that left the queue longer.", "quantifier": "every reachable state, every instruction, histories of any length", "why_tests_cant": "The charge depends on how the queue length changes through matching, expiries and evictions; exactness over all histories needs an invariant.", "anchors": ["programs/openbook-v2/src/instructions/place_order.rs", "programs/openbook-v2/src/instructions/place_take_order.rs", "programs/openbook-v2/src/instructions/settle_funds.rs", "programs/openbook-v2/src/instructions/cancel_all_and_place_orders.rs"]}
{"id": "C64", "title": "The transaction log tells the truth", "statement": "Every fill is signed in the log when it is made and reported exactly once, field by field with its fees, when it is delivered to its maker; over any history the fills signed are those reported plus those still queued. The total of an order is what all its fills cost and bring, and it is what the account of the trader gains or loses. Volumes kept on chain are the sums of what the log says. The last record of a position shows the position of the account. The records of deposits, settlements, fee sweeps and delegations name exactly the tokens moved and the delegate set.", "quantifier": "every reachable state, every instruction, histories of any length", "why_tests_cant": "Indexers rely on the log agreeing with the state in every execution: with queued and immediate delivery, self trades, evictions, batches, and over whole histories.", "anchors": ["programs/openbook-v2/src/logs.rs", "programs/openbook-v2/src/state/orderbook/book.rs", "programs/openbook-v2/src/state/open_orders_account.rs", "programs/openbook-v2/src/instructions/consume_events.rs", "programs/openbook-v2/src/instructions/deposit.rs", "programs/openbook-v2/src/instructions/settle_funds.rs", "programs/openbook-v2/src/instructions/sweep_fees.rs", "programs/openbook-v2/src/instructions/set_delegate.rs"]}
{"id": "C65", "title": "Events are delivered at once exactly to the accounts named, and the accounts named by the client suffice", "statement": "An order queues exactly the fills of makers whose accounts are not named with the instruction, the fills after the 15th delivered, and the removals of orders whose owners are neither named nor the trader; nothing else changes in the queue. The accounts that the client library collects while computing the amounts of a market order (at most 20, all owners of opposing orders) suffice: with them only fills after the 15th are queued, and an order with at most 15 fills queues nothing and pays no penalty. The accounts named for a router swap are at most three different owners of tradable orders, and suffice for up to 15 fills of at most three makers.", "quantifier": "all reachable states (and states between the orders of one instruction), all orders, all lists of named accounts, all books", "why_tests_cant": "Which events are queued depends on the whole book, the order of fills and the list of accounts; tests use a few fixed lists.", "anchors": ["programs/openbook-v2/src/state/orderbook/book.rs:150-175", "programs/openbook-v2/src/state/orderbook/book.rs:590-629", "lib/client/src/book.rs:20-44", "lib/client/src/book.rs:84-163"]}
{"id": "C66", "title": "What the book shows is what can be traded", "statement": "For every reachable book on whose side no pegged order has a price out of range: `best_price` is the price of a tradable order and no tradable order has a better one, and it is absent exactly if nothing can be traded. `quantity_at_price(limit)` is the sum of the sizes of exactly the tradable orders a taker with this limit accepts, and it fails exactly if this sum is not an i64. `impact_price(q)` is the price of an offer such that a limit gets q lots exactly if it accepts this price; it is absent only if fewer than q lots are offered. An order that does not post only, whose budget and limit on the number of fills cover the offers it accepts and that cancels none of them as its own trades the smaller of its size and the quantity shown at its limit, and an order for q lots is filled in full exactly if its limit accepts `impact_price(q)`.", "quantifier": "for every book of a reachable state or between the orders of one instruction, every side, time, oracle price, limit, quantity and order", "why_tests_cant": "A test compares the queries with hand-written numbers on a few small books; whether the number shown is the number traded relates two separately written loops over all books, expired and pegged orders included.", "anchors": ["programs/openbook-v2/src/state/orderbook/bookside.rs:49-55", "programs/openbook-v2/src/state/orderbook/bookside.rs:159-196", "programs/openbook-v2/src/state/orderbook/book.rs:64-345"]}
{"id": "C67", "title": "A market created at the address of a closed one starts clean", "statement": "Creating a market at an address that had one is possible only when that one was closed. The new market is open, has an empty book, queue and vaults, no deposits, fees or rebates, and no other token account or SOL balance changes. The open orders accounts of the closed market become accounts of the new one unchanged, and nothing is due to any of them. From then on, through any operations and further re-creations, what is owed equals the deposit totals and lies in the vaults of the current life. Order ids are not unique across lives: an order of another account can carry the side and id of an order of an earlier life.", "quantifier": "for every reachable closed market, every market created at its address and every later state", "why_tests_cant": "Tests create each market once; that no claim of any account survives into the next market depends on every path by which the old market could be emptied and closed.", "anchors": ["programs/openbook-v2/src/instructions/create_market.rs:11-126", "programs/openbook-v2/src/instructions/close_market.rs:1-27", "programs/openbook-v2/src/accounts_ix/create_market.rs:8-71"]}
{"id": "C68", "title": "The price of a stub oracle is what its owner last announced", "statement": "Every instruction about the stub oracle derived from an owner and a mint, including creating it again after it was closed, is signed by this owner. The oracle exists exactly if the latest instruction about it was not its closing, and then it shows the price and the slot of this instruction with deviation zero. A market with this one oracle computes the price of its instructions from the latest announcement only, never uses one older than the market allows (except one made in slot 0), and always uses a nonnegative finite price that is recent enough.", "quantifier": "for every history of stub oracle instructions of any number of owners and mints, every market configuration and slot", "why_tests_cant": "Tests set a price and read it back; that no other signer can ever get hold of the oracle a market relies on, through closing and re-creation, is a claim about all histories.", "anchors": ["programs/openbook-v2/src/instructions/stub_oracle_create.rs:5-16", "programs/openbook-v2/src/instructions/stub_oracle_set.rs:4-13", "programs/openbook-v2/src/instructions/stub_oracle_close.rs:4-6", "programs/openbook-v2/src/accounts_ix/stub_oracle_create.rs:7-20", "programs/openbook-v2/src/state/oracle.rs:138-147", "programs/openbook-v2/src/state/market.rs:229-275"]}
{"id": "C69", "title": "Trading within a group of accounts is worth nothing: gains come only from others", "statement": "Take any set of open orders accounts. What they have on the books of a market together (free, locked, in trades not yet delivered, referrer rebates) changes in every instruction exactly by the tokens the group pays in or takes out and by the price, quantity and rebate of its trades with accounts outside. Trades among its own accounts, self-trades, partial fills, deliveries, cancellations, evictions and everything that others do change nothing. So a group that trades only with itself never takes out more than it had and paid in, and any group takes out at most what it had, paid in and won from others.", "quantifier": "for every reachable state, every set of accounts, every execution of any length", "why_tests_cant": "Wash trading could extract value through a rounding or a rebate in some interleaving of fills, deliveries and cancels over many accounts; a test sees one interleaving, the claim is about all executions and all groups at once.", "anchors": ["programs/openbook-v2/src/state/orderbook/book.rs:56-330", "programs/openbook-v2/src/state/open_orders_account.rs:125-330", "programs/openbook-v2/src/instructions/settle_funds.rs:9-90", "programs/openbook-v2/src/instructions/place_order.rs:10-110", "programs/openbook-v2/src/instructions/consume_events.rs:14-79"]}
{"id": "C70", "title": "The account data that the client reads is the newest write on the best chain", "statement": "The cache of the client follows a feed of slots (announced with parent, confirmed, rooted), account writes and answers to queries. A read of an account returns the newest write whose slot is on the best chain (the highest slot with a known parent, and its ancestors) or above it, or an old write on a slot nothing is known about; the last one received if there are several for the slot. Forgetting old slots and writes does not change what is read, and no message makes the cache hang.", "quantifier": "for every history of messages, of any length", "why_tests_cant": "The cache prunes writes and slots at every root and marks chains incrementally; whether some order of announcements, forks, roots, late messages and queries leaves a wrong or missing account behind is a question about all message sequences.", "anchors": ["lib/client/src/chain_data.rs:59-147", "lib/client/src/chain_data.rs:174-231", "lib/client/src/account_update_stream.rs:39-97"]}
{"id": "C71", "title": "The client returns only account data that it received, in the order of slots", "statement": "Whatever the feed, in whatever order: the data returned for an account was received for that account and that slot; the stored writes are ordered by slot; no live stored write is newer than the one returned; a new write that is live and not older than the one returned is returned from then on, an older one changes nothing, and reads of other accounts never change; a new root leaves writes of at most one slot up to it.", "quantifier": "for every history of messages, of any length", "why_tests_cant": "The position of an insertion and the pruning depend on all that was received before.", "anchors": ["lib/client/src/chain_data.rs:116-172", "lib/client/src/chain_data.rs:190-241"]}
{"id": "C72", "title": "Every trade is counted once on each side", "statement": "The traded volumes kept by the market and by the accounts add up: the market's maker volume is the sum of the maker volumes of all accounts, and the takers' volumes, with and without an account, together are the maker volume plus the value of the fills that wait in the queue. Volumes of closed accounts are counted as when they were closed. An instruction that places orders raises the takers' side at once by the value of all its fills; no other instruction changes it.", "quantifier": "all histories of a market since its creation: all instructions by all users, accounts created and closed, fills delivered at once or later in any order", "why_tests_cant": "The counters are kept by different code at different times; the fuzz harness of the project asserts the sums at the end of sampled runs with a fixed set of accounts only", "anchors": ["programs/openbook-v2/src/state/open_orders_account.rs:182-185", "programs/openbook-v2/src/state/open_orders_account.rs:259", "programs/openbook-v2/src/state/orderbook/book.rs:293", "programs/openbook-v2/src/state/market.rs:105-108"]}
{"id": "C73", "title": "Instructions fail only for the reasons they state", "statement": "Every instruction that places no order succeeds exactly when its stated conditions hold, in every state that can arise: deposit and refill when the market is open and has not ended, the account exists, the mints are right and the signer can pay what is missing; settling when the owner (or the delegate, to token accounts of the owner) signs, the mints are right and the penalties can be paid; cancelling when the order rests and is of the account of the signer; cancelling many and pruning whenever the right key signs; delivering events whenever the admin for it signs; closing the market when it has ended, no order rests, no event waits, the fees are swept and nothing is owed to anybody. No arithmetic, no state of the book, queue or accounting can make them fail.", "quantifier": "all reachable states and all arguments of deposit, refill, settle_funds, settle_funds_expired, sweep_fees, cancel_order, cancel_all_orders, cancel_by_client_order_id, prune_orders, consume_events, consume_given_events, set_market_expired, close_market, create and close open orders account, set_delegate", "why_tests_cant": "A failure for another reason (an underflow in a counter, an order that is not found) needs a state that tests do not reach; that there is none is a claim about all states", "anchors": ["programs/openbook-v2/src/instructions/deposit.rs:7-45", "programs/openbook-v2/src/instructions/settle_funds.rs:9-90", "programs/openbook-v2/src/instructions/settle_funds_expired.rs:5-22", "programs/openbook-v2/src/instructions/sweep_fees.rs:8-34", "programs/openbook-v2/src/instructions/cancel_order.rs:7-35", "programs/openbook-v2/src/instructions/prune_orders.rs:7-24", "programs/openbook-v2/src/instructions/consume_events.rs:38-79", "programs/openbook-v2/src/instructions/close_market.rs:6-27"]}
{"id": "C74", "title": "What an instruction does depends on the orders, not on where they are stored", "statement": "If two states that can arise have the same market, accounts, queue, tokens and lamports and the same resting orders, then every instruction does the same in both: it fails with the same error, or succeeds, returns the same result and leaves states with the same orders and the same everything else. In which node of the slab an order lies, the shape of the trees, the cached earliest expiries and the list of free nodes make no difference to which order is matched, evicted or found expired. Only one number of the memory layout may matter: how many nodes of the slab were ever in use, which tells when the side counts as full.", "quantifier": "all pairs of reachable states which look the same, all instructions and arguments, all sequences of instructions", "why_tests_cant": "Tests run one history and see one layout; a dependence on the layout (a tie broken by node index, an iteration in memory order) shows only by comparing histories that lead to the same orders", "anchors": ["programs/openbook-v2/src/state/orderbook/ordertree.rs:141-420", "programs/openbook-v2/src/state/orderbook/bookside.rs:40-260", "programs/openbook-v2/src/state/orderbook/bookside_iterator.rs:1-206", "programs/openbook-v2/src/state/orderbook/book.rs:40-577"]}
{"id": "C75", "title": "The TypeScript library shows the book that the program keeps", "statement": "Reading a book side account with the TypeScript library gives back the orders that the program stored, byte for byte: items() yields every resting order once with its price, size, owner and sequence number, in the order in which the program matches them, best() the first of them, getL2(depth) the first price levels with their total sizes; what is shown as live is what a taker can trade with.", "quantifier": "all reachable states of a market, both sides, all depths, all times", "why_tests_cant": "A test compares one small book; errors in offsets, in the byte order, in the direction of the traversal or in the merging of levels show only for some shapes of the tree and some numbers", "anchors": ["ts/client/src/accounts/bookSide.ts:16-226", "ts/client/src/structs/order.ts:1-45", "ts/client/src/accounts/market.ts:102-126", "programs/openbook-v2/src/state/orderbook/nodes.rs:79-260", "programs/openbook-v2/src/state/orderbook/ordertree.rs:39-90", "programs/openbook-v2/src/state/orderbook/bookside.rs:31-40"]}
{"id": "C76", "title": "The TypeScript library reports the balance of an account", "statement": "getBalanceNative returns the base and quote that an open orders account has in the market: free, locked in orders, and in trades that wait in the event queue and are not yet booked to the account.", "quantifier": "all reachable states of a market, all accounts and queues", "why_tests_cant": "The difference appears only while fills of the account wait in the queue, and tests usually deliver the events before they look at balances", "anchors": ["ts/client/src/accounts/openOrders.ts:128-173", "ts/client/src/accounts/eventHeap.ts:9-41", "ts/client/src/accounts/market.ts:98-100", "programs/openbook-v2/src/state/open_orders_account.rs:150-243"]}
{"id": "C77", "title": "The clients find the accounts they search for", "statement": "The searches of the clients by program account filters return what they promise: the Rust client finds exactly the open orders accounts of an owner, and the TypeScript library finds exactly the markets with the given base and quote mint.", "quantifier": "all accounts the program can store and all searched keys", "why_tests_cant": "A filter compares bytes at an offset into the account; an offset that is wrong gives an empty answer, which looks like a market or account that does not exist", "anchors": ["lib/client/src/gpa.rs:11-41", "ts/client/src/market.ts:25-46", "programs/openbook-v2/src/state/market.rs:19-112", "programs/openbook-v2/src/state/open_orders_account.rs:14-38", "programs/openbook-v2/src/state/oracle.rs:35-39"]}
{"id": "C78", "title": "The TypeScript library lists the resting orders of an account", "statement": "OpenOrders.items yields exactly the orders of the account that rest in the book, once each, with their prices and remaining sizes.", "quantifier": "all reachable states of a market, all accounts", "why_tests_cant": "Slots stay in use after their order is filled, ids repeat between the two sides, and orders of other accounts lie between; tests list an account with one or two fresh orders", "anchors": ["ts/client/src/accounts/openOrders.ts:301-331", "ts/client/src/accounts/bookSide.ts", "programs/openbook-v2/src/state/open_orders_account.rs:337-404", "programs/openbook-v2/src/state/orderbook/order_type.rs:181-186"]}
{"id": "C79", "title": "The TypeScript library finds the events to consume", "statement": "getSlotsToConsume returns the slots of the queue with events of an account, getAccountsToConsume the accounts of waiting events, and instructions built from them consume these events.", "quantifier": "all heaps, all keys, all reachable states", "why_tests_cant": "The lists depend on the identity of objects and on where in the heap the events lie; in a test with a few fresh events the account list happens to be right", "anchors": ["ts/client/src/client.ts:977-1037", "ts/client/src/client.ts:1090-1146", "programs/openbook-v2/src/state/orderbook/heap.rs:76-133", "programs/openbook-v2/src/instructions/consume_events.rs:38-79"]}
{"id": "C80", "title": "Prices and sizes mean the same on the screen and in an order", "statement": "What the TypeScript library shows for lots of base, quote or price, typed in again, gives the same lots; a typed price is never made worse for the user than typed.", "quantifier": "all markets with decimals up to 15 and 20, all lots, all typed doubles", "why_tests_cant": "The conversions go through doubles and decimal divisions with 20 digits; which values come out one lot off is not visible from a few samples", "anchors": ["ts/client/src/accounts/market.ts:41-98", "ts/client/src/utils/utils.ts:47-49", "ts/client/src/market.ts:144-148"]}
{"id": "C81", "title": "Limits computed by the client for an amount let the order trade that amount", "statement": "The limits that MarketContext computes from an amount to trade let an order trade this amount, and never more than it and its fees.", "quantifier": "all markets, all amounts", "why_tests_cant": "Units are mixed (native, lots, whole tokens); with lot size one and small amounts the results look right", "anchors": ["lib/client/src/context.rs:10-40", "programs/openbook-v2/src/state/market.rs:301-355"]}
{"id": "C82", "title": "The client libraries create an account when asked and find the accounts of an owner", "statement": "Creating an open orders account through a client library succeeds whenever the program allows one, the account is then at the address that the library returns and of the market asked for, and the functions that look up the accounts of an owner, all or those of one market, find exactly those.", "quantifier": "all reachable deployments, all owners, markets and names", "why_tests_cant": "The clients recompute an address that depends on how many accounts were ever created; tests create one account for a new owner and close none", "anchors": ["lib/client/src/client.rs:112-248", "ts/client/src/client.ts:379-470", "ts/client/src/accounts/openOrders.ts:72-96", "ts/client/src/accounts/openOrdersIndexer.ts:39-68", "programs/openbook-v2/src/accounts_ix/create_open_orders_account.rs:5-31"]}
{"id": "C83", "title": "Instructions built by the client libraries do what their user may do", "statement": "Whatever a user can do by an operation of the kind meant (placing, cancelling, depositing, settling, consuming events, pruning, closing), signed with the keys at hand, the instruction that the client library builds for it does when signed with these keys: it names the right signer and admin and asks for no other signature.", "quantifier": "all states, all keys that sign, all arguments of the builders", "why_tests_cant": "Whether the right account is marked as signer depends on who the user is (owner or delegate) and on the market having admins; the tests of the libraries use the owner on a market without admins", "anchors": ["ts/client/src/client.ts:311-338", "ts/client/src/client.ts:497-521", "ts/client/src/client.ts:583-628", "ts/client/src/client.ts:810-1089", "lib/client/src/client.rs:380-708"]}
{"id": "C84", "title": "Events are read back from the account data as they were recorded", "statement": "The bytes of an event in the event heap account determine it: the program, casting them back, finds the event it wrote, never one kind for the other; and the TypeScript library decodes from the account data the links and the event of every node, and from these the queue, the oldest event first.", "quantifier": "all events, all heaps, all reachable states", "why_tests_cant": "Which bytes hold which field depends on struct layouts that are written down twice, in Rust and in the interface description; tests see a few values, mostly small ones, where swapped or cut fields agree", "anchors": ["programs/openbook-v2/src/state/orderbook/heap.rs:17-22", "programs/openbook-v2/src/state/orderbook/heap.rs:165-210", "programs/openbook-v2/src/state/orderbook/heap.rs:221-354", "programs/openbook-v2/src/state/orderbook/book.rs:600-625", "programs/openbook-v2/src/instructions/consume_events.rs:58-76", "ts/client/src/accounts/eventHeap.ts:16-41", "ts/client/src/openbook_v2.ts:6003-6199", "ts/client/src/client.ts:201-209"]}
{"id": "C85", "title": "Every stored number fits the type of its field", "statement": "Whatever is called, with arguments of their types, on a ledger whose token amounts and balances are 64-bit numbers: every number in the market, the open orders accounts, both book sides, the event heap and the token accounts stays within the range of the type of its field, so no unchecked addition or cast cuts off a value (among them timestamp plus time in force, and the products of the fee functions in 128 bits).", "quantifier": "all reachable states of all histories whose inputs have the types of the arguments", "why_tests_cant": "Overflow needs extreme values in exactly the place that is not checked; a test picks a few amounts, the program mixes checked, saturating and wrapping arithmetic (release builds check overflow by a profile setting only)", "anchors": ["programs/openbook-v2/src/state/market.rs:21-120", "programs/openbook-v2/src/state/market.rs:301-355", "programs/openbook-v2/src/state/open_orders_account.rs:16-37", "programs/openbook-v2/src/state/open_orders_account.rs:350-375", "programs/openbook-v2/src/state/open_orders_account.rs:426-435", "programs/openbook-v2/src/state/orderbook/nodes.rs:160-260", "programs/openbook-v2/src/state/orderbook/ordertree.rs:20-90", "programs/openbook-v2/src/state/orderbook/heap.rs:17-22", "programs/openbook-v2/src/state/orderbook/heap.rs:221-354"]}
{"id": "C86", "title": "A market has recognised oracles or none", "statement": "A market is created exactly when the oracles passed are well chosen (none, one account recognised as an oracle, or two different accounts recognised as oracles of the same kind; what is recognised is C92); it names these accounts, no instruction ever changes them, and orders are placed only with them as the source of the price.", "quantifier": "all markets, all accounts passed as oracles, all histories", "why_tests_cant": "The rule is spread over optional accounts, a key that counts as missing, and the detection of account types; tests create markets with one or two fitting oracles", "anchors": ["programs/openbook-v2/src/instructions/create_market.rs:44-63", "programs/openbook-v2/src/accounts_ix/create_market.rs:58-61", "programs/openbook-v2/src/accounts_ix/place_order.rs:30-31", "programs/openbook-v2/src/accounts_ix/place_take_order.rs:22-23", "programs/openbook-v2/src/state/oracle.rs:154-177", "programs/openbook-v2/src/pubkey_option.rs:1-70"]}
{"id": "C87", "title": "A batch does what its orders would do one at a time", "statement": "A batch of orders that succeeds (place_orders, cancel_all_and_place_orders) leaves the book, the queued events, and every account's orders, volumes and funds as if its owner had cancelled all orders (when asked to) and then placed the entries one at a time with place_order, bids first, each bounded by all they then have; all of these would have succeeded. Only where the payments went differs: tokens that the single orders put from the wallet into the account's free balance can still be in the wallet after the batch, and the batch is charged at most one penalty instead of one per order that left events behind.", "quantifier": "all reachable states, all batches, all types of orders, with and without cancelling", "why_tests_cant": "It compares two programs, the loop with deferred payment and the sequence of single instructions, on all inputs; tests run each alone", "anchors": ["programs/openbook-v2/src/instructions/cancel_all_and_place_orders.rs:11-153", "programs/openbook-v2/src/instructions/place_order.rs:11-121", "programs/openbook-v2/src/lib.rs:269-368", "programs/openbook-v2/src/lib.rs:121-160", "programs/openbook-v2/src/instructions/cancel_all_orders.rs:6-22"]}
{"id": "C88", "title": "A deeper book never hurts a taker, and asking for more never trades less", "statement": "When other traders add offers to the opposing side, the same order trades at least as much: a bid pays no more for as many lots and at most its limit for each further lot, an ask receives no less. In the same book an order that wants more, may spend more, accepts more prices or may fill more orders trades at least as many lots. The code keeps this only as long as the order does not use up the number of orders it may fill (`limit`) and, for asks, as long as the quote limit covers the size at the prices offered: one lot offered at a slightly better price can use up the only fill of a taker that would have bought two (dust), and an ask whose quote limit is below the price of one lot at the best bid sells nothing although it could sell to the next bid.", "quantifier": "all states in which the engine is called, all pairs of books one of which offers more, all orders and all larger orders", "why_tests_cant": "It compares runs on pairs of books and pairs of orders; a test fixes one book", "anchors": ["programs/openbook-v2/src/state/orderbook/book.rs:130-260", "programs/openbook-v2/src/lib.rs:121-160"]}
{"id": "C89", "title": "The account cache returns the newest answer, asks once, and serves every caller", "statement": "Whatever calls arrive in whatever order and whenever and however the underlying fetcher answers, a call of the cached account fetcher returns the data that was given for this account most recently since the cache was last cleared; a list of the accounts of a program contains only data that was given; the unwrap of a cached list never panics; nobody asks for what is being asked for already or is known; every call returns exactly once when its request is answered; errors reach only the calls that waited for the failed request and the next call asks again. After clear_cache a call returns data that was asked for after the clearing — this fails for a request that was in flight at the clearing, which later calls join. Once a call has returned data of an account, later calls never return data that was asked for earlier — this fails when a list of accounts asked for earlier arrives later. A cache that is never cleared returns the first data for ever, which is how the client reads its own open orders account.", "quantifier": "all interleavings of calls, answers, errors and clearings, all contents", "why_tests_cant": "The faults are interleavings of requests in flight; a test runs one call after the other against a fetcher that answers at once", "anchors": ["lib/client/src/account_fetcher.rs:104-266", "lib/client/src/client.rs:255-275", "lib/client/src/client.rs:298-301"]}
{"id": "C90", "title": "A cancellation does the same before or after instructions of others that place no orders", "statement": "A trader who cancels orders (by id, by client id, all of them; or is pruned after expiry) gets the same result whether the cancellation lands before or after any sequence of other traders' cancellations, deposits, refills, settlements, creations, closings and delegations, fee sweeps and outside transfers: if one ordering succeeds so does the other, with the same accounts, balances and orders in the book. For everything but cancellations of others the states are equal to the byte. It does not hold for the trader's own settlement, nor for instructions that place orders.", "quantifier": "all reachable states, all cancellations, all sequences of such instructions of any number of other traders; the exchange with money instructions for all states, reachable or not", "why_tests_cant": "Which instruction lands first is decided by the leader of the slot; a test fixes one order and one state", "anchors": ["programs/openbook-v2/src/instructions/cancel_order.rs:7-35", "programs/openbook-v2/src/instructions/cancel_all_orders.rs:6-22", "programs/openbook-v2/src/instructions/cancel_order_by_client_order_id.rs:6-19", "programs/openbook-v2/src/instructions/prune_orders.rs", "programs/openbook-v2/src/state/orderbook/book.rs:496-600"]}
{"id": "C91", "title": "The swap router's adapter quotes the market as it is, and its swaps are accepted", "statement": "After an update the adapter quotes exactly what is to be quoted for the book, market and oracle price as they are now, and the accounts it gives for a swap are the ones the program asks for, with the user's wallets in their places and at most three makers; a swap with them is accepted when the wallet holds what it may cost. Nothing is quoted before the first update. True for the life of one market that has not expired; false for expired markets (still quoted, no order is taken), after the market was closed and created again (the copy of the market is never refreshed), and for an update that fails (the book is replaced, the oracle price and the time are not).", "quantifier": "all histories of an adapter: made at any time, any number of updates, any instructions in between; all mints, amounts and swap parameters", "why_tests_cant": "The adapter lives long beside a changing market; tests make one and use it at once", "anchors": ["lib/client/src/jup.rs:60-129", "lib/client/src/jup.rs:131-268", "programs/openbook-v2/src/accounts_ix/place_take_order.rs:8-59"]}
{"id": "C92", "title": "Prices come from feeds: an oracle account belongs to an oracle program and is read as that program wrote it", "statement": "What a market uses as an oracle is an account owned by this program (stub), Switchboard or Raydium; a stub oracle and a Raydium pool are read with exactly the price, deviation, slot and decimals that were written; a stub of another owner is refused; an account too short to be recognised is refused. Every double can be stored in a stub and nothing else. False for Pyth and Switchboard V2: they are recognised by the first bytes of the data, whoever owns the account. And a market can be created with an oracle that is recognised but can not be read, after which no order can be placed.", "quantifier": "all account data, owners, readers of other crates, market states, instructions", "why_tests_cant": "Tests read a handful of recorded accounts with their real owners; forged or truncated accounts are not among them", "anchors": ["programs/openbook-v2/src/state/oracle.rs:138-177", "programs/openbook-v2/src/state/oracle.rs:215-331", "programs/openbook-v2/src/accounts_zerocopy.rs:219-234", "programs/openbook-v2/src/state/raydium_internal.rs:16-99", "programs/openbook-v2/src/instructions/create_market.rs:44-63"]}
{"id": "C93", "title": "An order placed in pieces trades what it would trade as a whole", "statement": "A trader who places an order as several smaller ones, one after the other, while nobody else touches the offers, gets a prefix of the lots the whole order would get: lot by lot from the same orders at the same prices. If the budgets cover the sizes, exactly the same lots, so the same base and quote; the taker fees together are not less than that of the whole order and exceed it by less than one unit per piece. A bid in pieces never gets more even if its budget is what limits it. The whole order must not use up the number of orders it may fill.", "quantifier": "all reachable states, books, orders, numbers of pieces, ways to divide size and budget, and whatever happens in between that leaves the offers alone", "why_tests_cant": "Tests place fixed sequences of orders and compare no sequence with the order it adds up to; partial fills at the seams depend on the state of the book", "anchors": ["programs/openbook-v2/src/state/orderbook/book.rs:42-420"]}
{"id": "C94", "title": "Markets, accounts and indexers are read back as they are stored", "statement": "The TypeScript library decodes the data of a market, of an open orders account and of an indexer to exactly the content that the program has stored there, field by field: all numbers, addresses and flags, and all 24 slots in order. Data is decoded only as the type whose discriminator it begins with.", "quantifier": "all reachable states of a market and of a deployment, all values of the remaining fields (names, decimals, bumps), all bytes left over in the account of an indexer", "why_tests_cant": "A shifted or mistyped field shows only for values that differ in the bytes concerned, such as negative or large numbers and fields that are usually zero; tests look at a few fields of one market", "anchors": ["programs/openbook-v2/src/state/market.rs:21-120", "programs/openbook-v2/src/state/open_orders_account.rs:14-50", "programs/openbook-v2/src/state/open_orders_account.rs:347-438", "programs/openbook-v2/src/state/open_orders_indexer.rs", "ts/client/src/openbook_v2.ts:5415-5724", "ts/client/src/openbook_v2.ts:5847-5983"]}
{"id": "C95", "title": "Watched objects show what is on the chain", "statement": "An object of the TypeScript library that has been added to a Watcher holds, whenever the node has told of a change of its account, the content of that account; after clear no object changes any more.", "quantifier": "all objects, all sequences of additions and notifications, all reachable states of the market", "why_tests_cant": "Needs a node that sends notifications, in all orders; an object that is never updated looks right until its account changes", "anchors": ["ts/client/src/utils/watcher.ts"]}
{"id": "C96", "title": "Cancel-all of the TypeScript library takes everything out", "statement": "cancelAllOrders of the TypeScript library, in one transaction, takes exactly the orders of the account on the given side off the book, creates the token accounts that are missing, and pays exactly what was free or was held by these orders to the wallet. The transaction of the owner goes through from every state of an open market.", "quantifier": "all reachable states, all sides, referrers and signers, all states of the token accounts, all content the library had loaded", "why_tests_cant": "The transaction combines three programs; its success depends on every state of book, account and token accounts it can meet", "anchors": ["ts/client/src/accounts/openOrders.ts:242-303", "ts/client/src/accounts/openOrders.ts:464-475", "programs/openbook-v2/src/instructions/cancel_all_orders.rs", "programs/openbook-v2/src/instructions/settle_funds.rs"]}
{"id": "C97", "title": "placeOrder of the TypeScript library places what was asked for", "statement": "placeOrder of the TypeScript library sends an order with the price, size, limit and client order id that were given, and with accounts of makers that let it trade at once.", "quantifier": "all orders, all markets with the bounds of C80, all reachable states", "why_tests_cant": "Numbers pass through floating point and JavaScript's notion of truth; which values are changed on the way, and which the program then refuses, is a question about all values", "anchors": ["ts/client/src/accounts/openOrders.ts:183-219", "ts/client/src/accounts/openOrders.ts:424-462", "programs/openbook-v2/src/state/orderbook/book.rs:61-130"]}
{"id": "C98", "title": "Cancelling an order seen earlier cancels what is left of it, and nothing else", "statement": "An order that the TypeScript library has listed can be cancelled at any later time, whatever others did since: the transaction cancels exactly what is left of that order, or fails because nothing is left. Cancelling all listed orders one by one leaves none. Cancelling by client order id cancels exactly the orders of the account with this id.", "quantifier": "all reachable states, all sequences of instructions of anybody between listing and cancelling, all accounts and orders", "why_tests_cant": "Between listing and cancelling the slot, the node and the price of the order may be reused by another order; this depends on the whole sequence of instructions in between", "anchors": ["ts/client/src/accounts/openOrders.ts:221-240", "ts/client/src/client.ts:810-856", "programs/openbook-v2/src/instructions/cancel_order.rs", "programs/openbook-v2/src/instructions/cancel_order_by_client_order_id.rs"]}
{"id": "C99", "title": "findAllMarkets lists every market once", "statement": "findAllMarkets of the TypeScript library lists every market that was created, exactly once.", "quantifier": "all histories of transactions of any length", "why_tests_cant": "The batching code differs only beyond fifty transactions, which no test sends; and a single foreign transaction can change the result", "anchors": ["ts/client/src/market.ts:54-124", "programs/openbook-v2/src/instructions/create_market.rs:114"]}
{"id": "C100", "title": "depositNativeIx deposits SOL", "statement": "depositNativeIx of the TypeScript library deposits the amount asked for out of the SOL of the owner: the account is credited, the owner's SOL falls by the amount, and it works for anybody with enough SOL.", "quantifier": "all states, all amounts, all accounts", "why_tests_cant": "The instructions succeed whenever the caller happens to hold wrapped SOL besides, so a test with a funded token account sees the right credit", "anchors": ["ts/client/src/client.ts:523-577", "programs/openbook-v2/src/instructions/deposit.rs:7-45"]}
{"id": "C101", "title": "Over its life an order trades at most its size, and the rest leaves the book once and for a stated reason", "statement": "At any time after an order was posted, whatever instructions of anybody came in between: the order still rests, smaller by exactly the lots it traded, or it is gone for good, and its size is what it traded plus a rest. If there is a rest, one instruction took it off the book: a cancellation by the owner or delegate, pruning after the market expired, or the matching engine because of self-trade, time in force, the peg limit, or a better order on a full side. Each trade was made in its name, at its price (within its limit if pegged) and in its time in force.", "quantifier": "all reachable states, all resting orders, all sequences of instructions of any length", "why_tests_cant": "Over-filling or losing part of an order would need a particular sequence of partial fills, evictions and cancellations of the same order; tests try a few sequences", "anchors": ["programs/openbook-v2/src/state/orderbook/book.rs:82-409", "programs/openbook-v2/src/state/orderbook/bookside.rs", "programs/openbook-v2/src/instructions"]}
{"id": "C102", "title": "The client reports how a transaction ended", "statement": "send_and_confirm_transaction reports success exactly for a transaction that was executed, with its slot; failure for one that failed; and that it was unable to confirm only for one that will never be executed, so that it is safe to send it again.", "quantifier": "all behaviours of an honest node over time, all moments of the questions, any number of rounds", "why_tests_cant": "The wrong report needs a transaction that is executed between two questions of the client to the node; a test node answers at once", "anchors": ["lib/client/src/util.rs:57-116"]}
{"id": "C103", "title": "The statement of an account adds up over any stretch of time", "statement": "From any state to any later one before an account is closed: base and quote due to the account at the end are what was due at the beginning, plus what was paid in for it, minus what settlements paid out, plus what its trades as maker and taker brought at their prices with maker fees and rebates, minus taker fees; of quote, a rounding loss of at most one unit per fill of its bids on markets with a maker fee (and the maker fee reserved on self-trades). Over the whole life of an account, paid out equals paid in plus the result of trading. The taker fees are the taker fee on what it took from others, rounded up once per order.", "quantifier": "all reachable states, all accounts, all sequences of instructions of any length", "why_tests_cant": "A leak that shows only in the sum over many operations (rounding in one's favour, a double credit after a particular interleaving) is not visible to tests of single operations", "anchors": ["programs/openbook-v2/src/state/open_orders_account.rs", "programs/openbook-v2/src/state/orderbook/book.rs:82-409", "programs/openbook-v2/src/instructions"]}
{"id": "C104", "title": "After a snapshot the client's cache shows every account at least as new as the snapshot", "statement": "A snapshot that is sent holds every account of the program and every existing oracle with the contents at the slot of its answer, and nothing else; if any request fails nothing is sent. After its delivery, whatever the cache received before, a read of an account of the snapshot gives a version not older than the snapshot.", "quantifier": "all chains, all answers of a truthful node however the oracles are divided and in whatever order answered, all earlier feeds of the cache", "why_tests_cant": "What the cache shows depends on the order of snapshot, account and slot messages, of which there are infinitely many", "anchors": ["lib/client/src/snapshot_source.rs:23-155", "lib/client/src/account_update_stream.rs:53-63", "lib/client/src/chain_data.rs"]}
{"id": "C105", "title": "A client that has waited for its transactions reads the accounts as they were then or later", "statement": "The slot that the client waits for is not before any of its transactions; when the wait has ended, every account asked about is read from the cache in a state of that slot or later.", "quantifier": "all feeds of the cache, all answers to the queries of the wait and all messages in between, any number of accounts", "why_tests_cant": "Depends on the interleaving of feed messages with the queries and on what the cache takes to be the best chain", "anchors": ["lib/client/src/chain_data_fetcher.rs:80-146", "lib/client/src/chain_data.rs:174-231"]}
{"id": "C106", "title": "Nobody jumps the queue", "statement": "An order that rests keeps its place for as long as it rests, whatever instructions of anybody come in between and however often it is filled in part: every order of the side that comes later, also in the same instruction, fixed or pegged, ranks behind it unless its price is better. When a later order is filled at a price not better than the one at which the earlier order can be traded, the earlier order has been used up first, with the exceptions of C06.", "quantifier": "all reachable states, all orders, all sequences of instructions of any length, all oracle prices", "why_tests_cant": "Depends on the sequence numbers over the whole history of the market and on the relation of two trees with different keys", "anchors": ["programs/openbook-v2/src/state/orderbook/book.rs:82-409", "programs/openbook-v2/src/state/orderbook/nodes.rs", "programs/openbook-v2/src/state/orderbook/bookside_iterator.rs"]}
{"id": "C107", "title": "After requoting, an account quotes only what it just sent", "statement": "After cancel_all_and_place_orders succeeds, no order that the account had before is left, not even a part of it. Every order of the account in the book is what is left of one entry of the instruction: its side, its price (behind it for a sliding order), its position as client order id, its expiry, and worth at most the amount of the entry. Each entry leaves at most one order, so there are at most as many bids and asks as entries, and together they are worth at most what the entries of their side say.", "quantifier": "all reachable states (any old orders on the book, fixed or pegged), all batches, order types, match limits", "why_tests_cant": "A test checks one set of old orders and one batch; that nothing old survives depends on the slots of the account agreeing with the book in every state, and that the new orders are told apart depends on what the engine did with all entries before", "anchors": ["programs/openbook-v2/src/instructions/cancel_all_and_place_orders.rs:11-153", "programs/openbook-v2/src/lib.rs:269-365", "programs/openbook-v2/src/state/orderbook/book.rs:82-409", "programs/openbook-v2/src/state/orderbook/book.rs:496-570"]}
{"id": "C108", "title": "No other choice among the visible offers would have been better for the taker", "statement": "While no opposing pegged price has left the representable range: however else the lots a bid bought are chosen from the orders that could trade, they cost at least as much; and a bid that does not use up its number of matches could not have bought more lots within its limit price, its size and its money. Likewise an ask sells for as much as possible and as much as possible. The part about asks holds only if the quote limit of the ask covers its size at the prices offered: with a binding quote limit an ask may sell nothing although a worse bid would fit.", "quantifier": "every reachable book, every order that may take, every oracle price and time, every other choice of quantities from the offers", "why_tests_cant": "A test compares with a few alternatives; the claim is about all ways to split the order over all offers of any book", "anchors": ["programs/openbook-v2/src/state/orderbook/book.rs:82-300", "programs/openbook-v2/src/state/orderbook/bookside_iterator.rs:1-130"]}
{"id": "C109", "title": "Nobody gains by trading to and fro against the standing orders of others", "statement": "Suppose that at some moment nobody outside a group of accounts sells below A or buys above B, with B at most A. Then whatever the accounts of the group do while nobody else places orders - limit, pegged and market orders, edits, batches, trades among themselves, cancellations, deliveries, settlements, in any number and order - they buy from others for at least A and sell to others for at most B per lot; so if they end with as much base, they have at most as much quote, counting what they paid in and took out. The same holds for the token accounts of a trader who sends take orders, while others cancel, deliver, settle or take. If the orders of others do not cross, such A = B exists.", "quantifier": "all reachable states, all groups of accounts, all executions of any length at one time and oracle price, all prices B and A", "why_tests_cant": "A test runs one round trip; the claim is about every sequence of instructions of several accounts, with their own resting orders, rebates and self-trades in between", "anchors": ["programs/openbook-v2/src/state/orderbook/book.rs:82-409", "programs/openbook-v2/src/instructions/place_order.rs:1-121", "programs/openbook-v2/src/instructions/place_take_order.rs:1-132", "programs/openbook-v2/src/state/open_orders_account.rs:100-330"]}
{"id": "C110", "title": "Trading around somebody's take order gains at most what that taker pays beyond the standing price", "statement": "Suppose nobody outside a group of accounts sells below P or buys above P. Whatever the group does before, between and after take orders of other people (buying the book empty first, offering the same lots dearer, selling back) - while only the group places resting orders - the value of its accounts at P, counting what it paid in and took out, grows by at most what the senders of the take orders lose at P. A take order with a limit loses per lot at most the distance of its limit from P, plus the taker fee. So a limit caps what a sandwich can take, and against takers who lose nothing there is no gain.", "quantifier": "all reachable states, all groups of accounts, all executions of any length with any number of take orders at one time and oracle price, all prices P", "why_tests_cant": "A test plays one attack on one order; the claim is that no sequence of instructions by several accounts around any take orders takes more", "anchors": ["programs/openbook-v2/src/state/orderbook/book.rs:82-409", "programs/openbook-v2/src/instructions/place_take_order.rs:1-132", "programs/openbook-v2/src/instructions/place_order.rs:1-121"]}
{"id": "C111", "title": "Accounts that only buy low and sell high never lose to anyone", "statement": "A group of accounts sends only orders that keep to a range: bids with limits of at most B, asks with limits of at least A (a pegged order does so by its peg limit and must be post-only, since a peg limit is not looked at when the order takes, C35). Then, whatever anybody else does, and however time and oracle price move, every trade of the group with others is a purchase for at most B or a sale for at least A. Its books change by just that: lots bought for at most B and sold for at least A each, plus what the group pays in and takes out, less rebates that it pays to makers as a taker. So with B at most A, once the group holds no more base than it put in, it holds at least the quote it put in; on a market whose maker fee is not negative there are no rebates to subtract.", "quantifier": "all reachable states, all groups of accounts, all executions of any length by anybody, at any times and oracle prices, all ranges", "why_tests_cant": "A test sends a few orders of others against one quote; the claim is that no behaviour of others, no oracle price, no time and no order of instructions makes the group trade outside its range or lose", "anchors": ["programs/openbook-v2/src/state/orderbook/book.rs:82-409", "programs/openbook-v2/src/state/orderbook/order.rs:1-191", "programs/openbook-v2/src/state/orderbook/bookside_iterator.rs:1-190", "programs/openbook-v2/src/state/open_orders_account.rs:160-330"]}
{"id": "C112", "title": "What the market keeps are exactly the fees", "statement": "The quote on the books of a market that is due to no account changes, over any stretch of time, exactly by: the taker fees charged to accounts less the rebates of the makers, the maker fees of all trades, and the makers' rounding losses (at most one native unit per filled bid, and the reserved fee of self-trades), minus the fees swept and the rebates paid to referrers. Rebates never exceed the taker fees they come from, so no instruction but a sweep or a settlement with a referrer makes the market keep less; deliveries, cancellations, deposits, creating and closing accounts leave it as it is. What is available for sweeping is at most what the market keeps. Take orders without an account bring the market no taker fee: without maker fees they leave what it keeps exactly as it was, although the fees accrued grow. Of base the market keeps nothing: all base on its books is due to some account.", "quantifier": "all reachable states, all later states by any instructions of anybody, all fees that pass the creation checks", "why_tests_cant": "A test compares the counters after a few trades; the claim sums over all accounts, all queued and delivered trades and all roundings of an execution of any length", "anchors": ["programs/openbook-v2/src/state/orderbook/book.rs:262-330", "programs/openbook-v2/src/instructions/place_take_order.rs:67-90", "programs/openbook-v2/src/instructions/settle_funds.rs:1-90", "programs/openbook-v2/src/instructions/sweep_fees.rs:1-34", "programs/openbook-v2/src/state/open_orders_account.rs:160-330"]}
{"id": "C113", "title": "The TypeScript client sends what it is given and reports how it ended", "statement": "Whatever the TypeScript client hands to a node carries exactly the instructions it was given, in their order, with at most one instruction setting the price of compute units in front; it is paid by the wallet and signed only by the wallet and the signers named by the caller. A signature is returned only for a transaction that has every required signature and that, under the commitment asked for, was executed without error; an OpenBookError only if it was executed with that error. A call with the signers that are needed sends the transaction.", "quantifier": "all instructions, all options of the caller and of the constructor, all wallets, nodes and answers of nodes", "why_tests_cant": "A test sends to one node with one set of options; the claim is about every combination of options, signers and answers", "anchors": ["ts/client/src/utils/rpc.ts:13-146", "ts/client/src/client.ts:86-135"]}
{"id": "C114", "title": "The sending functions of the TypeScript library name the signers that are needed", "statement": "Each function of the TypeScript library that sends a transaction itself (createProgramAccount, createOpenOrdersIndexer, createOpenOrders, placeOrder, cancelOrder, cancelAllOrders) hands over the signers its instructions need, no more and no fewer, so that with a willing wallet and node the transaction is sent with exactly these instructions, also for an owner who is not the wallet, with a delegate, and on markets with an open orders admin.", "quantifier": "all wallets, owners, payers, delegates, admins, orders and accounts, all fees and commitments of the client", "why_tests_cant": "A test runs with one key pair that is wallet, payer and owner at once; the claim is about all ways in which these keys differ", "anchors": ["ts/client/src/client.ts:137-160", "ts/client/src/client.ts:349-363", "ts/client/src/client.ts:424-495", "ts/client/src/client.ts:583-628", "ts/client/src/client.ts:810-881", "ts/client/src/accounts/openOrders.ts:183-303", "ts/client/src/utils/rpc.ts:54-80"]}
{"id": "C115", "title": "Accounts and their index can be closed through the TypeScript library", "statement": "With the instructions of the TypeScript library an owner, from any wallet that they sign beside, can close an open orders account that holds nothing; it is gone and off the index, and its rent goes to the wallet or to the receiver named. Once no account is left they can close the index.", "quantifier": "all reachable deployments with any number of markets, all owners, wallets, accounts and receivers", "why_tests_cant": "A test closes one account from the wallet of its owner; no test closes an index, and the claim is about every state of a deployment", "anchors": ["ts/client/src/client.ts:883-910", "ts/client/src/client.ts:948-976", "programs/openbook-v2/src/accounts_ix/close_open_orders_account.rs:5-27", "programs/openbook-v2/src/accounts_ix/close_open_orders_indexer.rs:5-20"]}
{"id": "C116", "title": "Markets created through the TypeScript library are the ones asked for", "statement": "At a fresh address, with vaults not created before, createMarketIx creates a market exactly if the parameters are acceptable to the program, and the market has the mints, lot sizes, fees, expiry, oracles and admins asked for: no admin where none is named, and the payer collects the fees unless somebody else is named. The accounts made for the book and the event heap have exactly the size of what the program keeps in them. The instructions with the signers returned go through from the wallet of the payer, and from no other wallet unless the payer signs too.", "quantifier": "all deployments, all parameters, wallets, and all contents of book sides and event heaps", "why_tests_cant": "A test creates markets with a few parameters from the wallet of the payer; the claim is about every combination of optional admins, oracles and fees, and about every content of the accounts", "anchors": ["ts/client/src/client.ts:70-71", "ts/client/src/client.ts:162-179", "ts/client/src/client.ts:211-309", "programs/openbook-v2/src/instructions/create_market.rs:11-126", "programs/openbook-v2/src/accounts_ix/create_market.rs:7-71"]}
