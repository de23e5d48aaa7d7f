import Verif.Model.Chain
/-!
Waiting for transactions: `transaction_max_slot` and `refresh_accounts_via_rpc_until_slot` of lib/client/src/chain_data_fetcher.rs:107-146.

Simplified: a history of the messages received stands for the cache, most recent first (`Cache.run`).  The queries and what arrives between
them are given; when they are used up, the time is.
-/
namespace OB
namespace Cache

variable {α : Type}

/-- chain_data_fetcher.rs:108-115: the slots in `getSignatureStatuses`, `none` for a signature that the node does not know. -/
def transactionMaxSlot (statuses : List (Option Nat)) : Nat := (statuses.map (fun s => s.getD 0)).foldl max 0

/-- One round of the loop of chain_data_fetcher.rs:126-143: the messages of the feed that arrive first, and the answer to the query; `none`
if the query fails or the account does not exist. -/
structure Turn (α : Type) where
  meanwhile : List (Msg α)
  answer : Option (Write α)

/-- chain_data_fetcher.rs:126-142, with 80-105: asks about one account until the answer is of slot `min` or later.  Gives the history and
the rounds left; `none` is an error or the time-out. -/
def refreshOne (key min : Nat) : List (Msg α) → List (Turn α) → Option (List (Msg α) × List (Turn α))
  | _, [] => none
  | h, t :: ts =>
    match t.answer with
    | none => none
    | some w =>
      if w.slot ≥ min then some (.rpc key w :: (t.meanwhile ++ h), ts)
      else refreshOne key min (.rpc key w :: (t.meanwhile ++ h)) ts

/-- chain_data_fetcher.rs:117-146 -/
def refreshUntil (min : Nat) : List Nat → List (Msg α) → List (Turn α) → Option (List (Msg α) × List (Turn α))
  | [], h, ts => some (h, ts)
  | k :: ks, h, ts =>
    match refreshOne k min h ts with
    | none => none
    | some (h, ts) => refreshUntil min ks h ts

end Cache
end OB
