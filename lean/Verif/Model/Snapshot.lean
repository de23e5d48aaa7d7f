import Verif.Model.Chain
/-!
The snapshots that fill the client's cache of accounts: lib/client/src/snapshot_source.rs.

Simplified: answers of the node are values.  `none` in place of an answer is an error of the request, `none` in place of contents is an
account that cannot be decoded.  The waiting for `min_slot` and the timer are left out.
-/
namespace OB
namespace Cache
namespace Snap

variable {α : Type}

/-- The answer to `getProgramAccounts`. -/
structure Gpa (α : Type) where
  slot : Nat
  value : List (Nat × Option α)

/-- The answer to `getMultipleAccounts`: `none` for an account that does not exist. -/
structure Gma (α : Type) where
  slot : Nat
  value : List (Option (Option α))

/-- snapshot_source.rs:29-45, `extend_from_gpa_rpc` -/
def fromGpa (r : Gpa α) : Option (List (Nat × Write α)) :=
  r.value.mapM (fun x => x.2.map (fun d => (x.1, ⟨r.slot, d⟩)))

/-- snapshot_source.rs:47-64, `extend_from_gma_rpc` -/
def fromGma (keys : List Nat) (r : Gma α) : Option (List (Nat × Write α)) :=
  ((keys.zip r.value).filterMap (fun x => x.2.map (fun d => (x.1, d)))).mapM (fun x => x.2.map (fun d => (x.1, ⟨r.slot, d⟩)))

/-- snapshot_source.rs:75-155, `feed_snapshots`.  `answers`: the keys of each request for oracles with its answer, in the order in which
they arrive (`buffer_unordered`).  The result is the message that is sent, if any. -/
def feed (gpa : Option (Gpa α)) (answers : List (List Nat × Option (Gma α))) : Option (List (Nat × Write α)) := do
  let r ← gpa
  let a ← fromGpa r
  let b ← answers.mapM (fun x => do fromGma x.1 (← x.2))
  return a ++ b.flatten

/-- account_update_stream.rs:53-63: a snapshot is handled like that many account messages; the feed has the most recent first. -/
def deliver (ws : List (Nat × Write α)) (h : List (Msg α)) : List (Msg α) := (ws.map (fun x => Msg.write x.1 x.2)).reverse ++ h

end Snap
end Cache
end OB
