# Formal model of openbook-v2 in Lean 4

Source modelled: `/repo/programs/openbook-v2/src` (rust) at the pinned commit, and some files of `/repo/lib/client/src`, read as text.
Paths below are relative to `/repo/programs/openbook-v2/src` unless they start with `lib/`.

## Layout

* `lean/Verif/Model/*.lean` - the model, function by function; every definition cites file and lines and says where it simplifies.
* `lean/Verif/Spec/*.lean`  - small specifications written without the model's helpers
  (exact rational rounding, sorted maps, FIFO queues, ledgers, what an observer sees of a run).
* `lean/Verif/Proofs/*.lean` - helper lemmas and invariants.
* `lean/Verif/Props/*.lean` - the property theorems with non-vacuity `example`s, counterexamples, and nothing else.
* `properties.jsonl` - the properties in English; `MANIFEST.json` - property id -> theorem names;
  `seeded/LOG.jsonl` - log of the wrong programs the theorems were tested against.

## Modelling decisions

* **Failure.** Every modelled function returns `Except Err α`. `Err.panic` is a rust panic
  (overflow-checked arithmetic, `unwrap`, `assert!`, slice index), the other constructors are anchor /
  OpenBook errors. On Solana both abort the transaction, so the transition relation keeps the old state on error.
* **Numbers.** Amounts are `Int`; each rust operation on a machine integer is followed by an explicit
  range check for its type (`ckI64`, `ckU64`, `ckU128`, `ckI128`), because the release profile sets
  `overflow-checks = true`. `as` casts wrap (`asU64`, `asI64`). Truncating division is `Int.tdiv`.
* **Order ids** are `Nat` (u128), with real bit operations.
* **Slabs.** The order tree node array and the event heap node array are functions from index to node with
  explicit bounds checks (1024 and 600). Loops in the rust code over pointers use fuel; running out of
  fuel is an explicit error value that the proofs show unreachable from well formed states.
* **Accounts.** Open orders accounts are a finite association list keyed by address. Token accounts are a
  function from address to balance, including both vaults; lamports likewise.
* **Inputs from outside** (clock, oracle price in lots, signers, remaining accounts) are operation arguments,
  universally quantified.
* **Executions.** `step : State → Op → Except Err State` is one instruction; `Reachable s` says that `s` results from
  `create_market` with any arguments followed by any finite sequence of successful instructions, including `create_market` at the
  address of the market once it was closed, which keeps the open orders accounts (`recreateMarket`). Property theorems
  quantify over `Reachable` states and any instruction, or over sequences. No bound on length or size anywhere.

## Trusted base

* The Lean 4 kernel. Every theorem of the manifest depends on at most `propext`, `Classical.choice` and `Quot.sound`
  (checked with `#print axioms` on each). No own axioms, no `sorry`, no `native_decide`, no `bv_decide`. The concrete runs in
  `example`s and counterexamples use `decide +kernel`, that is, evaluation by the kernel.
* The hand translation rust -> Lean in `Verif/Model`.
* The specifications in `Verif/Spec`, which are short and are what the statements mean.
* For the client libraries also what their dependencies do, which are not part of the repository: the runtime and the languages, `BN`,
  the account decoding of `@coral-xyz/anchor` (field after field; `decode` of its type coder uses `this`), and the RPC node's filters;
  of `@solana/web3.js` that signing with a key that is not required throws and that `setComputeUnitPrice` throws on `undefined`; that a node
  refuses transactions with missing signatures.

### Modelled code

| rust | Lean |
|------|------|
| `state/market.rs` (fees, lots, expiry, price limits, referrer/maker fee split) | `Model/Market` |
| `state/orderbook/nodes.rs`, `order.rs`, `order_type.rs`, `orderbook/mod.rs` (keys, side, price data) | `Model/Keys`, `Model/Types`, `Model/Book` |
| `state/orderbook/ordertree.rs`, `ordertree_iterator.rs` (crit-bit tree in a slab, free list, expiry summaries) | `Model/OrderTree` |
| `state/orderbook/bookside.rs`, `bookside_iterator.rs` (two trees per side, merge with the oracle price, expiry) | `Model/BookSide`, `Model/Depth` (`quantity_at_price`, `impact_price`) |
| `state/orderbook/heap.rs` (event queue in a slab) | `Model/Heap` |
| `state/open_orders_account.rs` (position, locked funds, execute maker/taker, slots) | `Model/OpenOrders` |
| `state/orderbook/book.rs` (`new_order`, cancel paths, event processing) | `Model/Book` |
| `instructions/*.rs` with the constraints of `accounts_ix/*.rs`: create_market, create/close open orders account, set_delegate, place_order(_pegged), place_take_order, place_orders / cancel_all_and_place_orders, edit_order(_pegged), cancel_order, cancel_order_by_client_order_id, cancel_all_orders, deposit, refill, consume_events, consume_given_events, settle_funds, settle_funds_expired, sweep_fees, set_market_expired, prune_orders, close_market | `Model/Program` |
| `state/oracle.rs`, `state/market.rs:220-304` (oracle accounts to a price in lots; IEEE doubles as exact rationals with rounding) | `Model/Oracle` |
| `state/oracle.rs:138-331`, `accounts_zerocopy.rs:219-234`, `raydium_internal.rs` (oracle accounts as bytes) | `Model/OracleBytes` |
| `state/open_orders_indexer.rs`, `instructions/{create,close}_open_orders_indexer.rs`, account derivation in `accounts_ix/`: a deployment of many markets, owners and accounts | `Model/World` |
| `instructions/stub_oracle_{create,set,close}.rs` with their accounts | `Model/Stub` |
| `logs.rs` and the `emit!` calls (what each instruction writes to the transaction log) | `Model/Logs` |
| `lib/client/src/book.rs` (`amounts_from_book`, `iterate_book`, `remaining_accounts_to_crank`), `lib/client/src/jup.rs` (`quote`) | `Model/Client` |
| `lib/client/src/jup.rs` (the other functions of the adapter) | `Model/Router` |
| `lib/client/src/chain_data.rs`, the messages of `account_update_stream.rs`, the query of `chain_data_fetcher.rs` | `Model/Chain` |
| the bytes of a book side account; `ts/client/src`: `accounts/bookSide.ts`, `structs/order.ts`, `accounts/eventHeap.ts`, `getBalanceNative` and `items` of `accounts/openOrders.ts` | `Model/Layout`, `Model/Ts` |
| `lib/client/src/gpa.rs`, `findAccountsByMints` of `ts/client/src/market.ts` with the layouts of the accounts they search | `Model/Find` |
| `getAccountsToConsume`, `getSlotsToConsume`, `consumeEventsForAccountIx` of `ts/client/src/client.ts` | `Model/TsConsume` |
| conversions between lots and displayed numbers in `ts/client/src/accounts/market.ts`, `utils/utils.ts`, `market.ts` (doubles, big.js) | `Model/Ui` |
| `lib/client/src/context.rs` | `Model/Context` |
| `lib/client/src/account_fetcher.rs` (`CachedAccountFetcher`) | `Model/Fetcher` |
| `lib/client/src/client.rs` (accounts), `ts/client/src/client.ts` (accounts), `ts/client/src/accounts/openOrders.ts` and `openOrdersIndexer.ts` (loading) | `Model/ClientAccounts` |
| `lib/client/src/client.rs` and `ts/client/src/client.ts` (instructions) | `Model/ClientIx` |
| `state/orderbook/heap.rs` (bytes), `ts/client/src/accounts/eventHeap.ts`, `ts/client/src/openbook_v2.ts` (events) | `Model/TsEvents` |
| the bytes of market, open orders account and indexer; `ts/client/src/openbook_v2.ts` (their types) | `Model/TsDecode` |
| `ts/client/src/utils/watcher.ts` | `Model/Watcher` |
| `ts/client/src/accounts/openOrders.ts` (`placeOrder`, `cancelOrder`, `cancelAllOrders`) | `Model/TsTrade` |
| `ts/client/src/market.ts` (`findAllMarkets`) | `Model/TsMarkets` |
| `ts/client/src/client.ts` (`depositNativeIx`) | `Model/TsNative` |
| `ts/client/src/utils/rpc.ts`, the functions of `ts/client/src` that send, `closeOpenOrders*Ix`, `createMarketIx` | `Model/TsSend`, `Model/TsHelpers`, `Model/TsClose`, `Model/TsCreate` |
| `lib/client/src/util.rs` (`send_and_confirm_transaction`) | `Model/Sending` |
| `lib/client/src/snapshot_source.rs` (without timer) | `Model/Snapshot` |
| `lib/client/src/chain_data_fetcher.rs` (`transaction_max_slot`, `refresh_accounts_via_rpc_until_slot`) | `Model/Refresh` |

### Not modelled

Anchor (de)serialisation, account discriminators and rent; the hashing in PDA derivation (`Addresses` assumes that derived addresses
are injective and never sign); SPL token program internals beyond balance transfer (mint, owner, amount);
the version-0 layout of open orders accounts; CPI wrappers; the rest of `lib/` and of `ts/client`.
In `Model/Oracle` an oracle account is its decoded fields; `Model/OracleBytes` reads them from bytes (Pyth and Switchboard through
arbitrary readers, their formats belong to other crates). `step` takes the oracle price in lots as an
arbitrary input; `stepPriced` computes it from the oracle accounts.

## Per property

"whole program" = the state machine `Model/Program.lean` over all of the above. "partial" always means that the full
claim of the English property is false of the code: the negation is proved with a concrete run, and the
`_partial` theorem proves what remains (the full claim is kept beside it as a definition or as the counterexample theorem).

| id | title | status | modelled by | how proved |
|----|-------|--------|-------------|------------|
| C01 | Fee rounding is exact and always against the trader | proved | Model/Market: fee functions | equality with exact integer ceiling / floor (Spec/Fees), plus error bounds |
| C02 | A bid never spends more than its quote budget including fees | proved | Model/Book (new_order), Program | loop invariant on the remaining quote, rounding lemmas for both fees; lifted to the instructions and stated on token and free balances |
| C03 | An order never trades or posts more than its base budget | proved | Model/Book, Program | loop invariant |
| C04 | Every fill respects the taker's limit price | proved | Model/Book | loop invariant over the fills produced |
| C05 | Every fill executes at the resting order's own price | proved | Model/Book, BookSide | loop invariant over the fills produced |
| C06 | Matching follows price-time priority | partial | Model/BookSide iterator, Book | iterator refined to a merge of two sorted lists; order of fills in full; priority claim `_partial`; two counterexamples |
| C07 | Post-only orders never take | partial | Model/Book | loop invariant; `_partial` + counterexample |
| C08 | PostOnlySlide never crosses | partial | Model/Book (order price) | case analysis; `_partial` + counterexample |
| C09 | Market, IOC and FillOrKill orders never rest | proved | Model/Book, Program | case analysis, lifted to the instructions |
| C10 | FillOrKill is all or nothing | proved | Model/Book, Program | case analysis; an error value leaves the state unchanged |
| C11 | The work of one placement is bounded | proved | Model/Book | loop invariant on the counters; stated on the book before and after and on the queue |
| C12 | Posting never leaves the book crossed | partial | Model/Book | `_partial` with three counterexamples |
| C13 | Base tokens are conserved | proved | whole program | inductive invariant over all instruction sequences |
| C14 | Quote tokens are conserved | proved | whole program | inductive invariant over all instruction sequences |
| C15 | The vaults are always solvent | proved | whole program | from C13, C14 and signs of all claims |
| C16 | Cancelling returns exactly what the order had locked | proved | Program: four cancelling instructions | refinement of the tree to a map + slot invariant |
| C17 | Locked maker fees never underflow | proved | Market fees, OpenOrders | arithmetic over arbitrary partitions, and an inductive invariant |
| C18 | The order tree is a sorted map | proved | Model/OrderTree, BookSide | refinement of slab tree to sorted finite map, every operation sequence |
| C19 | Order ids are unique and never reused | partial | whole program | invariant over the ledger of all ids issued; cross side collision beyond 2^63 is a counterexample |
| C20 | Order keys encode price-time priority | proved | Model/Keys | bit arithmetic |
| C21 | The event heap is a FIFO queue with random deletion | proved | Model/Heap | refinement of the slab list to a FIFO queue with removal by slot |
| C22 | Consuming events delivers each fill exactly once | proved | Program: consume_events | induction over the processed slots |
| C23 | An expired market accepts no new risk and never reopens | proved | whole program | step case analysis + induction over sequences |
| C24 | A market can only be closed with no user funds left in it | proved | whole program | from the conservation and slot invariants |
| C25 | An open orders account can only be closed when nothing is owed to it or by it | proved | whole program | from the slot invariant |
| C26 | Settling pays exactly the free balances to an allowed destination | proved | Program: settle | inversion of the instruction |
| C27 | Self-trade handling follows the requested behaviour | partial | Model/Book | loop invariant over the fills; counterexample for the cost-free claim |
| C28 | Editing an order never increases exposure beyond the requested size | partial | Program: edit_order | inversion; counterexample for the replacement claim |
| C29 | Sweeping fees only takes accrued fees | partial | whole program | history variable for accrued fees; counterexample for the exact claim |
| C30 | Referrer rebates are accounted exactly | proved | whole program | history variable for the sum of rebates |
| C31 | A take order settles exactly against the vaults | proved | Program: place_take_order | inversion + engine lemmas |
| C32 | Maker rebates are always funded by taker fees | proved | Market fees, Book | sum of floors at most the ceiling of the sum |
| C33 | Only the owner or delegate can cancel or place for an account | proved | whole program | step case analysis + induction |
| C34 | Orders are never filled at or after expiry | proved | Book, Program | loop invariant and induction over later histories |
| C35 | Pegged orders never trade beyond their peg limit | partial | BookSide iterator, OpenOrders | loop invariant and induction over later histories |
| C36 | Expired orders are found exactly | proved | Model/OrderTree, BookSide | exactness of the expiry summaries is part of the representation predicate |
| C37 | A full book only displaces a worse order | proved | Model/Book | from tree min/max lemmas |
| C38 | Every live order has exactly one home | proved | whole program | slot invariant: every used slot has one home |
| C39 | Locked balances equal outstanding orders | proved | whole program | consequence of the slot invariant |
| C40 | Consuming and cancelling never get stuck | proved | whole program | progress lemmas: no error value is reachable |
| C41 | Client-side quotes equal on-chain execution | proved | Model/Client, Book | simulation between the client loop and the engine loop |
| C42 | Fee configuration accepted at creation is safe | proved | Program: create_market | inversion in both directions |
| C43 | Administrative powers are limited to the named admins | proved | whole program | step case analysis on effects |
| C44 | A resting order changes only through explained events | proved | whole program | step case analysis on what becomes of each order |
| C45 | The router quote equals the swap | partial | Model/Client | from C41; negation of the full claim proved |
| C46 | Everybody can always leave with everything due to them | proved | whole program | progress lemmas chained over consume, cancel, settle, close; amounts by conservation |
| C47 | Accounts of a closed market are empty and can be closed | partial | whole program | induction after closing; negation of the full claim proved |
| C48 | An expired market can always be wound down and closed | proved | whole program | progress lemmas chained over consume, prune, settle, sweep, close; amounts by conservation |
| C49 | Oracle prices are used only when every oracle is fresh and certain | partial | Model/Oracle, whole program | inversion; error bounds for each double operation; three counterexamples |
| C50 | Without a valid oracle price pegged orders are frozen | proved | whole program | from C44: every explained change needs a price or expiry or a signature |
| C51 | The oracle price in lots is the reported price rounded down | proved | Model/Oracle | multiplicative error bounds through doubles and fixed point; rounding to doubles proved to be that of IEEE 754 (Spec/Ieee) |
| C52 | An unusable oracle does not block trading at fixed prices | partial | Model/Oracle, whole program | negation proved; sufficient condition for the computation to succeed |
| C53 | Only the owner's signature moves their tokens | proved | whole program | frame of each token transfer, composed per instruction |
| C54 | The index of an owner lists exactly the owner's open orders accounts | proved | Model/World | invariant over all deployments |
| C55 | Markets do not interfere | proved | Model/World, whole program | each market of a deployment refines the single-market machine; other markets are its environment |
| C56 | An order trades exactly what the greedy match of the visible offers gives | proved (condition on pegged prices in the statement) | Book.newOrder | refinement to a functional specification over the sorted list of offers |
| C57 | The rest of an order is posted in full | proved | Book.newOrder | inversion of the posting decision; exact arithmetic of the fee reserve |
| C58 | What is due to an account changes only by its trades, deposits and settlements | proved (rounding loss of makers in the statement) | all instructions | potential function (free + locked + queued) followed through every step of the matching loop, posting, payment, delivery |
| C59 | Orders are paid from the free balance first, the rest exactly from the wallet | proved | placeOrder, cancelAllAndPlace, editOrder | inversion of the payment, with the calls of the engine (`Placement.pays`) |
| C60 | A valid order is accepted | proved | newOrder, placeOrder, placeTakeOrder and all they call | forward simulation of the matching loop, the taker accounting and the posting with room for every counter (`matchLoop_ok`, `newOrder_ok`, `placeOrder_ok`, `placeTakeOrder_ok`) |
| C61 | A batch of orders is never refused for lack of money | proved | placeOrdersIx, cancelAllAndPlace, boundOrder, multiLoop | induction over the batch with the invariant owed ≤ wallet + free balance (`multiLoop_ok`), then the two payments (`cancelAllAndPlace_ok`) |
| C62 | The order of cranking does not matter | proved | consumeEvents, processEvent, Heap | a run of cranks delivers a permutation of part of the queue (`crank_run`); the effect of a delivery depends only on sums over the events (`Delivered.unique`) |
| C63 | Penalties for queued events are exact | proved | addPenalty, placeTakeOrder, settleFunds, step | case analysis of a step (`penStep`), a sum over accounts (`penalties_change`), induction over the history |
| C64 | The transaction log tells the truth | partial | Model/Logs: execute_maker, execute_taker, new_order, consume_events, deposit, settle_funds, sweep_fees, set_delegate as far as they emit | the log functions run beside the model functions; an `Emits` relation is composed over matching steps, calls and instructions; induction over the history |
| C65 | Events are delivered at once exactly to the accounts named, and the accounts named by the client suffice | proved | Model/Client (`iterateBook`, `remainingAccountsToCrank`), Spec/Named | Proofs/Named: composition of the events added by each step of the matching loop and of posting; simulation of the client's loop by the engine's; a list lemma for the first three distinct owners. |
| C66 | What the book shows is what can be traded | proved | `quantityAtPrice`, `impactPrice` (Model/Depth.lean), `bestPrice` | the loops over the iterator are folds over the list of offers (`items_eq`), which is the unique sorted list of tradable orders; sums by induction over the sorted list; the greedy match of C56 with enough budget takes the minimum |
| C67 | A market created at the address of a closed one starts clean | proved | `recreateMarket`, `Reachable.again` (Model/Program.lean) | joint induction over executions: the ledger invariant, and that a closed market is empty, hence all its accounts hold nothing |
| C68 | The price of a stub oracle is what its owner last announced | proved | `Stubs` (Model/Stub.lean), oracle model | invariant over all histories; the reading of the account is the fold of the history; rounding of double products keeps the sign |
| C69 | Trading within a group of accounts is worth nothing: gains come only from others | proved | the whole program; `groupBase`, `groupQuote`, `Ran` (Spec/Group.lean) | exact change of what one account has on the books along the engine (Proofs/Stake) and along every instruction (Proofs/StakeIx), summed over the group; positions and worths of a trade cancel between its maker and its taker; lower bounds from the obligations of the market (Proofs/StakeWorth) |
| C70 | The account data that the client reads is the newest write on the best chain | partial | `Model/Chain`: `update_slot`, `update_account`, `update_from_rpc`, the reads; the specification (Spec/Chain) is about the list of messages only | invariant between the cache and the list of messages (Proofs/ChainInv), the marking loop by fuel and path (Proofs/ChainSlots), pruning keeps every search that agrees below the root (Proofs/ChainList) |
| C71 | The client returns only account data that it received, in the order of slots | proved | `Model/Chain` | induction over the messages; the insertion of the code equals insertion into a list with the highest slot first |
| C72 | Every trade is counted once on each side | proved | the four counters in Model/OpenOrders and Model/Book | an invariant over histories: per instruction the sums over all accounts change by the sums over the fills delivered and the totals written (from the accounting of the logs, C64) |
| C73 | Instructions fail only for the reasons they state | proved | the instructions in Model/Program | both directions: what a successful run has checked (inversion), and success from the invariants (all amounts are covered by the recorded deposits, those by the vaults) |
| C74 | What an instruction does depends on the orders, not on where they are stored | proved | the two order trees with their slab (Model/OrderTree, BookSide) and all instructions | simulation: both books represent the same sorted lists of orders; every operation of the book is shown to act on these lists, the matching loop by renaming of node handles |
| C75 | The TypeScript library shows the book that the program keeps | partial | the bytes of a book side account (Model/Layout) and accounts/bookSide.ts, structs/order.ts (Model/Ts) | every field is read back from the bytes; the traversal by induction over the tree gives the sorted leaves; levels by induction over the orders |
| C76 | The TypeScript library reports the balance of an account | partial | accounts/eventHeap.ts, getBalanceNative of accounts/openOrders.ts (Model/Ts), the whole program | the list of the queue is followed along its links; the position of an account is the sum over its resting orders and queued events (the invariant of C69) |
| C77 | The clients find the accounts they search for | partial | gpa.rs and findAccountsByMints with the byte layouts of Market and OpenOrdersAccount (Model/Find) | the position of a field is the length of what precedes it; the bytes of a key at a position are the key's own |
| C78 | The TypeScript library lists the resting orders of an account | partial | OpenOrders.items of accounts/openOrders.ts (Model/Ts), the whole program | induction over the slots; the id of an order is unique on its side among all orders and slots in use, and each resting order is in the slot it names (the invariant of the ledger) |
| C79 | The TypeScript library finds the events to consume | partial | the helpers of client.ts for consuming events, with key objects that have an identity (Model/TsConsume); the whole program | induction over the nodes; delivery from C22 and C40 |
| C80 | Prices and sizes mean the same on the screen and in an order | partial | the conversions of accounts/market.ts, utils.ts and market.ts with doubles and big.js numbers (Model/Ui) | error analysis of the doubles: relative errors of each step, half a unit at the rounding |
| C81 | Limits computed by the client for an amount let the order trade that amount | partial | the functions of context.rs (Model/Context), the fee arithmetic of the market, the whole program for the order that overpays | integer arithmetic with floors; a computed execution for the overpayment |
| C82 | The client libraries create an account when asked and find the accounts of an owner | partial | the account functions of both libraries over the deployment model (Model/ClientAccounts, Model/World) | from the exactness of the index (C54) and the injectivity of the address derivation; computed deployments for the violations |
| C83 | Instructions built by the client libraries do what their user may do | partial | the instruction builders of both libraries as operation and required signatures (Model/ClientIx) | inversion of the authority checks of the instructions; computed states for the violations |
| C84 | Events are read back from the account data as they were recorded | partial | the bytes of events and of the heap account, the casts of the program, anchor's decoding field by field (Model/TsEvents) | offset arithmetic on concatenated little-endian fields; for the queue the links of the heap (invariant of C21) |
| C85 | Every stored number fits the type of its field | proved | the ranges of all fields (Spec/Fields), histories with inputs of the types of the arguments | invariant of every operation: leaves, nodes, events, slots and positions are written only with checked values or values already stored; counters of the slab by the tree invariant |
| C86 | A market has recognised oracles or none | proved | the checks of the oracle accounts at creation (Model/Oracle: checkOracles, createPriced) | the check is equivalent to the statement; configuration invariant of C42 |
| C87 | A batch does what its orders would do one at a time | proved | no new code; the instructions of Model/Program | simulation: the matching engine commutes with lowering the free balances of the placing account (Proofs/Split), then induction over the entries with the amount paid so far as the difference between the two states |
| C88 | A deeper book never hurts a taker, and asking for more never trades less | partial | no new code; the matching engine of Model/Book | by C56 the fills are the greedy match; lot by lot the greedy match takes the cheapest prefix (Proofs/More `greedy_lots`), and prefixes of more sorted lots are cheaper |
| C89 | The account cache returns the newest answer, asks once, and serves every caller | partial | the cache, its jobs and clearing as a transition system whose environment answers with anything at any time (Model/Fetcher) | one invariant relating the cache to its history (`CacheInv`): cached data = newest answer since the clearing, jobs = requests without answer, waiting callers = calls that have not returned |
| C90 | A cancellation does the same before or after instructions of others that place no orders | proved | no new code; all instructions of Model/Program | frame lemmas: a cancellation depends only on the closed flag, the rules of the market, account `k` and the orders its slots name (`cancel_alike`), money instructions for others on neither the book nor account `k` (`manage_local`); by the ledger invariant an order is named by the slots of one account (`names_owner`); the sequence by induction with C74 |
| C91 | The swap router's adapter quotes the market as it is, and its swaps are accepted | partial | `Model/Router`: from_keyed_account, update, quote, get_swap_and_account_metas | induction over the history of the adapter with `step_cfg` (no instruction changes what the adapter copies); quotes depend on those fields only (`quote_cfg`); acceptance by C60 |
| C92 | Prices come from feeds: an oracle account belongs to an oracle program and is read as that program wrote it | partial | `Model/OracleBytes`: determine_oracle_type, the readers for stub and Raydium, IEEE bits, creation and placing with accounts as bytes | case analysis of the first bytes; offsets of fields in concatenated bytes; every IEEE number has a normal form with 53 bits; refinement to `stepPriced`, so that C49-C52 and C68 carry over |
| C93 | An order placed in pieces trades what it would trade as a whole | proved | the matching loop of `Model/Book`, through C56 (fills are greedy) | what a call leaves of the offers is what the greedy match leaves (from the trace of the loop); a greedy match takes a prefix of the lots and leaves the rest; induction over the pieces; sums of roundings up |
| C94 | Markets, accounts and indexers are read back as they are stored | proved | `Model/TsDecode`: the bytes of the three accounts by the structs of the program, and the decoders by the types of the library | reading field after field what was written field after field; the numbers fit their fields by C85; induction over slots and addresses |
| C95 | Watched objects show what is on the chain | partial | `Model/Watcher`: subscriptions, notifications and the objects, over `Model/TsDecode` | invariants over all sequences of actions; the decoders by C94, C75 and C84 |
| C96 | Cancel-all of the TypeScript library takes everything out | proved | `Model/TsTrade`: the instructions in one transaction, with the creation of associated token accounts | the effect by C16 and the theorems on settling; success by progress of each instruction from the invariant |
| C97 | placeOrder of the TypeScript library places what was asked for | partial | `Model/TsTrade`: `placeOrder` and `placeOrderIx` over `Model/Ui` and `Model/Ts` | the conversions by C80, the makers by C75 and C65, the payment by C02 and C59; the refusal from the checks of the matching engine |
| C98 | Cancelling an order seen earlier cancels what is left of it, and nothing else | partial | `Model/TsTrade` (`cancelOrder`) over `Model/Ts` and the program | ids are never reused and orders only shrink (C19, C44), induction over what happens in between and over the list |
| C99 | findAllMarkets lists every market once | partial | `Model/TsMarkets` | induction over the batches, the transactions and the groups of inner instructions |
| C100 | depositNativeIx deposits SOL | partial | `Model/TsNative`: creation and closing of the wrapped account around the program's deposit | inversion of the three steps; acceptance by C73 and C53 |
| C101 | Over its life an order trades at most its size, and the rest leaves the book once and for a stated reason | proved | whole program | induction over the instructions since the posting with C44, and over the calls of the matching engine in an instruction; that it stays gone by C19 |
| C102 | The client reports how a transaction ended | partial | `Model/Sending`: the polling loop against an environment that answers depending on the time | induction over the rounds; counterexample by evaluation |
| C103 | The statement of an account adds up over any stretch of time | proved | whole program | induction over the instructions with C58; an empty account is due nothing (C58) at both ends of its life |
| C104 | After a snapshot the client's cache shows every account at least as new as the snapshot | partial | `Model/Snapshot`: the two decoders, the assembling of the answers, the delivery into `Model/Chain` | membership in `mapM`; the writes held after delivery are those of the snapshot and those held before, newest first (C71) |
| C105 | A client that has waited for its transactions reads the accounts as they were then or later | partial | `Model/Refresh`: the slot of the transactions and the loop of queries, on histories of `Model/Chain` | induction over the queries; an answer above the best chain extends it and keeps what was on it; C70 for the reads |
| C106 | Nobody jumps the queue | proved | whole program | induction over the instructions: what is new on the book has a sequence number above that of the market before (C19); then C06 |
| C107 | After requoting, an account quotes only what it just sent | proved | whole program | cancelling all with limit 255 empties the account (C16); each call of the engine posts at most one order, whose fields, price and worth follow from the entry; ids in the book are distinct |
| C108 | No other choice among the visible offers would have been better for the taker | partial | matching engine | the fills are the greedy match of the sorted offers (C56); by induction over them there is a price at which every other choice does no better (a certificate as in linear programming), from which both claims follow |
| C109 | Nobody gains by trading to and fro against the standing orders of others | proved | whole program | trades within a group are worth nothing (C69); every trade with somebody else fills an order that rested before (C44), at its own price (C05), so the spread bounds it; induction over the execution |
| C110 | Trading around somebody's take order gains at most what that taker pays beyond the standing price | proved | whole program | each take order: fills with makers of the group are what the taker pays for them (C31, C69), fills with others cost the taker at least P; own instructions by C109; induction over the execution |
| C111 | Accounts that only buy low and sell high never lose to anyone | proved | whole program | invariant: resting orders of the group can only trade in range (posted price, peg limit); each placement takes within its limit; C69 turns the fills into changes of what the group owns; induction over the execution |
| C112 | What the market keeps are exactly the fees | proved | whole program | recorded deposits split into accounts, queue and fees (C14); what is due to each account changes as in C58; sums over all accounts; induction over the execution |
| C113 | The TypeScript client sends what it is given and reports how it ended | partial | `sendTransaction` and `sendAndConfirmTransaction` over an arbitrary node | cases over the path taken; the options as values that may be missing, null or there |
| C114 | The sending functions of the TypeScript library name the signers that are needed | partial | `Model/TsHelpers`: the signatures each instruction needs and the signers handed over, over `Model/TsSend` and `Model/ClientIx` | sending succeeds exactly if the signers handed over are needed and all needed ones are there; then cases over the keys |
| C115 | Accounts and their index can be closed through the TypeScript library | partial | the whole deployment (Model/World) and the two instructions as built (Model/TsClose) | C54 gives success of the program; the signers and addresses by cases |
| C116 | Markets created through the TypeScript library are the ones asked for | proved | the instruction as built (Model/TsCreate), the deployment (Model/World), the bytes of the accounts (Model/Layout, Model/TsEvents) | inversion of the checks of the program; injectivity of the vault addresses; lengths of the byte layouts |

## Where the code violates the property

* **C06, C07, C08, C12** A pegged order whose price left the valid range (`Skipped`) makes the iterator lose the pegged order
  behind it; also the quote budget may run out in the middle of a level. Then a worse order is filled first, a crossing
  PostOnly order is posted, and the book is left crossed.
* **C19** Beyond 2^63 orders a bid id and an ask id of one market can coincide (not reachable in practice).
* **C27** A self-trade with an own resting bid loses the maker fee locked for it.
* **C28** Editing an order of which nothing has been filled cancels it and places nothing.
* **C29** Settling moves the rounding remainder of locked maker fees to the fees available without accruing it.
* **C35** The peg limit binds only a pegged order that rests. When it is placed, a pegged order first takes at up to the oracle price plus
  its offset; posting looks at the peg limit (book.rs:364-372), taking does not. A bid with peg limit 1000 buys for 1050.
* **C45** The router quote adds the fee where the swap subtracts it and conversely, uses native amounts as lots and time 0, so that expired orders are counted.
* **C47** Penalties for growing the event queue are paid only when settling, which needs the market; closing the market does
  not look at them. An account that still owes one when the market is closed can never be closed.
* **C49** `conf_filter` is not checked when a market is created: NaN accepts every price, a negative filter acts as its absolute value with
  two oracles. With two oracles a first price of zero with deviation zero gives 0/0 = NaN, which passes the check whatever the second
  oracle reports.
* **C52** The oracle price is computed before it is known whether it is needed. A closed stub account, a negative Pyth price, a Pyth exponent
  or a difference of decimals outside -12..12, or a price beyond i64 lots fails every instruction that places orders.
* **C64** `new_order` logs a `TotalOrderFillEvent` that adds the whole taker fee to what a buyer paid and takes it from what a seller
  received (book.rs:296-313). `place_take_order` charges only the part that is paid on to makers as rebates. The record of a take order
  therefore differs from the tokens moved by the rest of the fee: on a market without rebates, by all of it. The position of
  the trader is logged by `execute_taker`, before the rest of the order is posted and paid for, so the record is stale when the instruction ends.
* **C70** The client's cache of accounts. (1) An answer to a query about a slot above the best chain is stored with the head of the chain as
  its parent, and `v.parent.or(new_slot.parent)` never replaces it: slots in between stay off the chain, their writes are not returned.
  (2) A slot announced after one built on it is not marked. (3) A root off the best chain keeps the writes of the fork and deletes those
  of the chain. (4) A late write of a fork is returned. (5) A late confirmation of a slot below the root hides its writes and the next
  root deletes them. A parent that is not below its slot makes `update_slot` loop forever.
* **C71** `update_account` never overwrites the entry of a slot, against its comment: the position it looks at is the one after it.
* **C74** (the exception its statement names) A side counts as full when at most one node is on the free list and all nodes but one
  were ever in use; the number of orders on it does not decide. Two markets that look the same may differ in it: an order posted and cancelled earlier is enough, and the same bid is then
  accepted in one and rejected in the other.
* **C75** The TypeScript library throws `Not implemented yet` while reading a side with an oracle pegged order on it, losing the fixed
  orders too. `clusterTime` is 0 and is never set, so expired orders are shown as live; set, it would still be compared with `gt` where
  the program uses `>=`.
* **C76** `getBalanceNative` compares the maker of a fill (an open orders account) with the owner of the account. No waiting fill is
  counted: sold base is still reported, the proceeds are not.
* **C77** `findAccountsByMints` compares at offsets 792 and 824. The mints of a market are at 576 and 608, and 824 + 32 is beyond the
  848 bytes of the account, so no market is ever found.
* **C78** `OpenOrders.items` throws at the slot of a pegged order if a pegged order rests on that side, so an owner of one
  cannot list any orders behind it.
* **C79** `getSlotsToConsume` and `getAccountsToConsume` compare `PublicKey` objects with `===`/`!==`. No slot is ever found,
  `consumeEventsForAccountIx` builds an instruction that consumes nothing, and the account list is that of the first 21 nodes of the
  heap, free or not, so a crank using it can stop for ever.
* **C80** `priceUiToLots` truncates after a rounding to whole units of quote native times base lot size. From 2^49 of these units on the
  product of doubles can fall short by more than half, and the shown price 64.064 becomes 64.063 when typed (market with 9 and 6
  decimals and lots of 0.1; about a third of the prices there). Typed prices are rounded down on both sides of the book, so an ask can be placed
  below the typed price. `uiPriceToLots` rounds the price to the decimals of the quote token first, so prices of cheap tokens become 0 lots.
* **C81** `max_quote_lots_including_taker_fees` and `..._maker_fees` of the Rust client add fees in native units to a number of lots; the
  taker fee is that contained in the amount, not that on top of it. `max_base_lots_from_usd` multiplies by the number of decimals.
* C82: `find_or_create_account` of the Rust client derives the address of a new account from the highest number among the existing
  accounts, or 0 if there is none, but the program wants the number of accounts ever created plus 1.  Nobody gets a first account
  (`C82_first`), and after closing the account created last no further one can be made (`C82_last_closed`).  It returns an account of the
  name asked for even if it is of another market (`C82_other_market`).  `loadAllOpenOrders` of the TypeScript library throws if a market of
  the owner has been closed (`C82_load_all_closed`).
* C83 (client libraries, instructions): `cancelOrderByIdIx`, `cancelOrderByClientIdIx` and `cancelAllOrdersIx` of the TypeScript library mark
  the owner as signer even when a delegate is given, so a delegate cannot cancel with them; `consumeGivenEventsIx` asks for the signature
  of the all-zero key on markets without consume admin; the Rust client passes no admin when placing, so it cannot place on markets that
  have one, and passes no accounts when consuming events, so it consumes none.
* C84 (TypeScript library, queue): `parsedEvents` calls the method `decode` of anchor's type coder detached from its object, which throws
  whenever an event is queued, and with it `getBalanceNative` of an account whose market has its event heap loaded.
* C88 (dust): the limit on fills counts orders, not lots, so one lot offered at a slightly better price takes the place of a large order:
  a taker who may fill one order buys one lot instead of two.  An ask stops at a bid whose price exceeds its quote limit even if it could
  sell to the next bid.
* C89, stale accounts in the Rust client: a request in flight at `clear_cache` is neither cancelled nor forgotten, so calls after
  the clearing join it and its answer is cached (`C89_not_FreshAfterClear`); a list of accounts asked for earlier overwrites newer
  data of a single account (`C89_not_NeverBackwards`).  `OpenBookClient::new_for_existing_account` reads the open orders account
  through this cache and keeps it as `Arc<dyn AccountFetcher>`, which has no `clear_cache`: `openorders_account()` returns the data
  read at creation for ever (`C89_frozen`).
* C91: `jup.rs` never refreshes its copy of the market: an adapter quotes for an expired market, which refuses every order
  (`C91_not_tradable`), and after the market was closed and created again for other mints it quotes the old mints with the orders of the
  new market (`C91_not_current`).  An update that fails on the oracle has replaced the book but not the price (`C91_failed_mixes`); an
  update after the market was closed panics (`C91_update`).
* C92: an account whose data begins with the magic number of Pyth or the discriminator of Switchboard V2 is taken as such an oracle,
  whoever owns it (`C92_any_owner`, `C92_owner_false`): the creator of a market can let a program of their own write the prices.
  `create_market` only asks of what kind the oracle is: with an account of Raydium that is not a pool, or one that Pyth's reader
  rejects, the market is created and no order can be placed on it (`C92_unreadable_false`).
* C95: `Watcher.addOpenOrders` decodes under the name `OpenOrders`, which is no account of the program (`openOrdersAccount` is), so the
  callback throws and the object is never updated (`C95_open_orders_stale`). `Watcher.clear` forgets the earlier subscription of an account
  that was added twice (`C95_clear_fails`).
* C97: `placeOrderIx` of the TypeScript library asks for 2^63-1 quote lots if no `quoteLimit` is given. The matching engine takes at most
  (2^63-1)/quote_lot_size, so in every market whose quote lot is more than one native unit such an order, bid or ask, is refused. A
  `quoteLimit` is read in lots although price and size are in tokens; a limit of 0 counts as none; the client order id 0 is replaced by
  the time; one pegged order on the other side makes `placeOrder` throw.
* `findAllMarkets` (ts/client/src/market.ts:73-76) reads the first fifty transactions again instead of the next fifty, so with more than
  fifty transactions older markets are missing and the others are listed repeatedly (`C99_many`). One transaction with a lookup table makes
  it throw (`C99_lookup_table`).
* `depositNativeIx` (ts/client/src/client.ts:523-577) wraps SOL, but deposits from another token account and unwraps the SOL again: no SOL is
  deposited (`C100_sol_kept`), and who has only SOL is refused (`C100_refused`).
* `send_and_confirm_transaction` (lib/client/src/util.rs:57-116) may report that it was unable to confirm a transaction that was executed
  (`C102_unable_wrong`).
* C104: an account that was closed before a snapshot is not in it, and a snapshot does not clear anything, so the client's cache goes on
  showing the old contents of the account for good (`C104_closed`, witness `C104_false`).
* C105: `refresh_accounts_via_rpc_until_slot` ends its wait on the slot of an answer that the cache stores but does not return (`C105_false`), and
  `transaction_max_slot` takes a signature that the node does not know for one of slot 0 (`C105_unknown`).
* C113: `sendTransaction` of the TypeScript library never sends anything when called with its own default options: an undefined fee passes
  the check of rpc.ts:50 and `setComputeUnitPrice` throws (`C113_undefined_fee`).  With a `banksClient` the wallet is never asked to sign
  (`C113_banks`).
* C114: with a delegate `cancelOrder` of the TypeScript library never sends anything, since its instruction asks for the signature of the
  owner only (`C114_cancel_partial`); `createOpenOrders` with a payer who is neither the wallet nor the owner never does, as the wallet pays and the
  signature of the payer is one too many (`C114_open_orders_partial`).  That web3.js refuses to sign with a key that is not required is part of
  what is taken from its documentation (Model/TsSend.lean).
* C115: `closeOpenOrdersIndexerIx` of the TypeScript library passes the asks of a market as the index and the bids as the receiver of the
  rent, so that the program always refuses it (`C115_indexer_refused`).
* Noted while modelling, not violations of a stated property: `remove_one_expired` removes orders only strictly after their
  expiry while the iterator treats them as expired at it; `place_take_order` charges only the maker rebates, not the taker
  fee; CancelProvide removals do not count against `limit`; anyone may deposit into an account; a queued fill may name a
  closed account as taker; a stub oracle may report a negative price, its deviation is never written, and a stub with slot 0 or a
  Raydium pool is never stale; decimals and Pyth exponents are cast to i8 and wrap; a PostOnlySlide bid is refused and a
  PostOnlySlide ask overflows when the best opposing price is the last one there is (1, 2^63-1); on a full side the worst order may
  not be found (pegged orders without an oracle price), then posting panics; the sums of lots in an account are not bounded by the
  deposits, since lots already sold count until the event is consumed.
