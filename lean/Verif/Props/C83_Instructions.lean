import Verif.Spec.Sent
import Verif.Proofs.PlaceIx
import Verif.Proofs.Exact
import Verif.Props.C43_Admins
/-!
C83  Whoever may do something on a market can do it with the instruction that the client library builds for it.
Holds for most builders; cancelling as a delegate, consuming given events and depositing for others with the TypeScript library, and
placing on a market with an admin and consuming events with the Rust library do not work.
-/
namespace OB
open Spec

theorem Sent.Ix.run_ok {i : Sent.Ix} {s s' : State} {keys : List Pubkey} :
    i.run s keys = .ok s' ↔ (∀ k ∈ i.signers, k ∈ keys) ∧ step s i.op = .ok s' := by
  unfold Sent.Ix.run
  simp only [bind_ok, req_ok, List.all_eq_true, decide_eq_true_eq]
  exact ⟨fun ⟨_, h⟩ => h, fun h => ⟨(), h⟩⟩

theorem refused_of_key {i : Sent.Ix} {s : State} {keys : List Pubkey} {k : Pubkey} (h : k ∈ i.signers) (hk : k ∉ keys) : Refused s keys i := by
  unfold Refused
  cases e : i.run s keys with
  | error x => exact ⟨x, rfl⟩
  | ok s' => exact absurd ((Sent.Ix.run_ok.mp e).1 k h) hk

theorem refused_of_step {i : Sent.Ix} {s : State} {keys : List Pubkey} (h : ∀ s', step s i.op ≠ .ok s') : Refused s keys i := by
  unfold Refused
  cases e : i.run s keys with
  | error x => exact ⟨x, rfl⟩
  | ok s' => exact absurd (Sent.Ix.run_ok.mp e).2 (h s')

theorem given_eq (k : Pubkey) : Sent.given k = ifGiven k := rfl

theorem place_admin {s s' : State} {c : PlaceCtx} {a : PlaceOrderArgs} (h : step s (.placeOrder c a) = .ok s') :
    s.g.market.openOrdersAdmin = c.admin := by
  simp only [step, placeOrderIx, bind_ok, pure_ok] at h
  obtain ⟨⟨r, s1⟩, ⟨o, _, x, _, h⟩, _⟩ := h
  cases x with
  | none =>
    simp only [bind_ok] at h
    obtain ⟨_, h1, _⟩ := h
    obtain ⟨_, _, _, _, _, h2⟩ := authPlace_ok h1
    exact h2
  | some o =>
    simp only [bind_ok] at h
    obtain ⟨⟨r2, s2⟩, h, _⟩ := h
    obtain ⟨P⟩ := placeOrder_inv h
    exact P.admin

theorem pegged_admin {s s' : State} {c : PlaceCtx} {a : PlaceOrderPeggedArgs} (h : step s (.placeOrderPegged c a) = .ok s') :
    s.g.market.openOrdersAdmin = c.admin := by
  simp only [step, placeOrderPeggedIx, bind_ok, pure_ok] at h
  obtain ⟨⟨r, s1⟩, ⟨o, _, x, _, h⟩, _⟩ := h
  cases x with
  | none =>
    simp only [bind_ok] at h
    obtain ⟨_, h1, _⟩ := h
    obtain ⟨_, _, _, _, _, h2⟩ := authPlace_ok h1
    exact h2
  | some o =>
    simp only [bind_ok] at h
    obtain ⟨⟨r2, s2⟩, h, _⟩ := h
    obtain ⟨P⟩ := placeOrder_inv h
    exact P.admin

theorem take_admin {s s' : State} {c : TakeCtx} {a : PlaceOrderArgs} (h : step s (.placeTakeOrder c a) = .ok s') :
    s.g.market.openOrdersAdmin = c.admin := by
  simp only [step, placeTakeOrderIx, placeTakeOrder, bind_ok, pure_ok, req_ok] at h
  obtain ⟨_, ⟨_, _, _, _, _, _, _, _, _, _, _, h1, _⟩, _⟩ := h
  exact h1

theorem batch_admin {s s' : State} {c : MultiCtx} {cancel : Bool} {t : PlaceOrderType} {bids asks : List MultiArgs} {limit : Nat}
    (h : step s (.placeOrders c cancel t bids asks limit) = .ok s') : s.g.market.openOrdersAdmin = c.admin := by
  simp only [step, placeOrdersIx, cancelAllAndPlace, bind_ok, pure_ok] at h
  obtain ⟨_, ⟨_, _, _, _, _, _, _, _, _, h1, _⟩, _⟩ := h
  obtain ⟨_, _, _, _, _, h2⟩ := authPlace_ok h1
  exact h2

theorem pegged_zero {s s' : State} {c : PlaceCtx} {a : PlaceOrderPeggedArgs} (h : step s (.placeOrderPegged c a) = .ok s') :
    step s (.placeOrderPegged c { a with zeroOracle := true }) = .ok s' := by
  simp only [step, placeOrderPeggedIx, bind_ok, pure_ok] at h ⊢
  obtain ⟨r, ⟨n, hn, x, hx, h⟩, e⟩ := h
  refine ⟨r, ⟨n, hn, x, ?_, h⟩, e⟩
  simp only [PlaceOrderPeggedArgs.order, bind_ok, req_ok] at hx ⊢
  obtain ⟨u, hu, v, _, w, hw, hx⟩ := hx
  exact ⟨u, hu, v, Or.inr trivial, w, hw, hx⟩

theorem admin_sub {ad : Option Pubkey} {k : Pubkey} (h : k ∈ ifGiven (ad.getD 0)) : k ∈ ad.toList := by
  cases ad with
  | none => exact absurd h (by simp [ifGiven])
  | some x =>
    simp only [ifGiven, Option.getD_some] at h
    split at h
    · exact absurd h List.not_mem_nil
    · exact h

theorem admin_signs {ad : Option Pubkey} {l : List Pubkey} {k : Pubkey} (h : k ∈ l ++ ifGiven (ad.getD 0)) : k ∈ l ++ ad.toList := by
  rcases List.mem_append.mp h with h | h
  · exact List.mem_append_left _ h
  · exact List.mem_append_right _ (admin_sub h)

theorem admin_given {ad : Option Pubkey} {k x : Pubkey} (h0 : ad ≠ some 0) (e : ad.getD 0 = x) (h : k ∈ ad.toList) : k ∈ ifGiven x := by
  subst e
  cases ad with
  | none => cases h
  | some y =>
    have : y ≠ 0 := fun e => h0 (congrArg some e)
    simp only [ifGiven, Option.getD_some, if_neg this]
    exact h

/-- What is built asks for no signature fewer than the program does. -/
theorem C83_signers (s : State) (a : OOA) (wallet oo tok ub uq payer : Pubkey) (args : PlaceOrderArgs) (pargs : PlaceOrderPeggedArgs)
    (rem : List Pubkey) (d : Option Pubkey) (now b q : Int) (oracle : Option Int) (id limit : Nat) (side : Option Side)
    (ref : Option Pubkey) (slots : List Nat) (t : PlaceOrderType) (bids asks : List MultiArgs) (ad : Option Pubkey) (cancel : Bool) :
    ∀ i ∈ [Sent.tsPlaceOrder s.g.market wallet oo tok args rem d now oracle, Sent.tsCancelById a oo id d, Sent.tsCancelByClientId a oo id d,
        Sent.tsCancelAll a oo limit side d, Sent.tsDeposit a oo ub uq b q now, Sent.tsSettleFunds a oo ub uq ref payer d,
        Sent.tsConsumeEvents s.g.market limit rem, Sent.tsConsumeGivenEvents s.g.market slots rem,
        Sent.tsPruneOrders s.g.market oo limit now, Sent.tsCloseMarket s.g.market now, Sent.rustPlaceOrder wallet oo tok args now oracle,
        Sent.rustPlaceOrderPegged wallet oo tok pargs now oracle, Sent.rustCancelOrder wallet oo id, Sent.rustCancelAll wallet oo side limit,
        Sent.rustCancelAllAndPlace s.g.market wallet oo ub uq t bids asks limit now oracle, Sent.rustDeposit wallet oo ub uq b q now,
        Sent.rustSettleFunds wallet oo ub uq ref, Sent.rustConsumeEvents s.g.market limit,
        Sent.tsPlaceOrderPegged wallet oo tok ad pargs rem d now oracle, Sent.tsPlaceTakeOrder wallet ub uq ad args rem d now oracle,
        Sent.tsPlaceOrders cancel wallet oo ub uq ad t bids asks limit d now oracle],
      ∀ k ∈ signers i.op, k ∈ i.signers := by
  intro i hi k hk
  simp only [List.mem_cons, List.not_mem_nil, or_false] at hi
  rcases hi with rfl | rfl | rfl | rfl | rfl | rfl | rfl | rfl | rfl | rfl | rfl | rfl | rfl | rfl | rfl | rfl | rfl | rfl | rfl | rfl | rfl <;>
    first
    | exact hk
    | exact admin_signs (l := [_]) hk
    | exact admin_signs (l := [_, _]) hk
    | (simp only [Sent.tsConsumeGivenEvents, signers, ifGiven] at hk ⊢
       split at hk
       · exact absurd hk List.not_mem_nil
       · exact hk)

/-! The TypeScript library. -/

/-- Placing an order, as the owner (the wallet) or a delegate. -/
theorem C83_ts_place (s : State) (keys : List Pubkey) (wallet oo tok : Pubkey) (args : PlaceOrderArgs) (rem : List Pubkey)
    (d : Option Pubkey) (now : Int) (oracle : Option Int) :
    AsGood s keys (Sent.tsPlaceOrder s.g.market wallet oo tok args rem d now oracle)
      (fun op => ∃ admin, op = .placeOrder ⟨d.getD wallet, oo, admin, tok, now, oracle, rem⟩ args) := by
  rintro op s' ⟨admin, rfl⟩ hk h
  have e : admin = s.g.market.openOrdersAdmin := (place_admin h).symm
  subst e
  exact Sent.Ix.run_ok.mpr ⟨hk, h⟩

/-- Placing pegged orders, taking, and placing several orders with or without cancelling the others.  The user gives the admin of the
market if there is one. -/
theorem C83_ts_admin (s : State) (keys : List Pubkey) (wallet oo tok ub uq : Pubkey) (ad : Option Pubkey) (pargs : PlaceOrderPeggedArgs)
    (args : PlaceOrderArgs) (rem : List Pubkey) (t : PlaceOrderType) (bids asks : List MultiArgs) (limit : Nat) (cancel : Bool)
    (d : Option Pubkey) (now : Int) (oracle : Option Int) (h0 : ad ≠ some 0) (ha : ad.getD 0 = s.g.market.openOrdersAdmin) :
    AsGood s keys (Sent.tsPlaceOrderPegged wallet oo tok ad pargs rem d now oracle)
      (fun op => ∃ admin, op = .placeOrderPegged ⟨d.getD wallet, oo, admin, tok, now, oracle, rem⟩ pargs) ∧
    AsGood s keys (Sent.tsPlaceTakeOrder wallet ub uq ad args rem d now oracle)
      (fun op => ∃ admin, op = .placeTakeOrder ⟨d.getD wallet, wallet, admin, ub, uq, now, oracle, rem⟩ args) ∧
    AsGood s keys (Sent.tsPlaceOrders cancel wallet oo ub uq ad t bids asks limit d now oracle)
      (fun op => ∃ admin, op = .placeOrders ⟨d.getD wallet, oo, admin, ub, uq, now, oracle, []⟩ cancel t bids asks limit) := by
  refine ⟨?_, ?_, ?_⟩
  · rintro op s' ⟨admin, rfl⟩ hk h
    obtain rfl : admin = ad.getD 0 := (pegged_admin h).symm.trans ha.symm
    refine Sent.Ix.run_ok.mpr ⟨fun k h => hk k ?_, pegged_zero h⟩
    rcases List.mem_cons.mp h with rfl | h
    · exact List.mem_cons_self
    · exact List.mem_cons_of_mem _ (admin_given h0 rfl h)
  · rintro op s' ⟨admin, rfl⟩ hk h
    obtain rfl : admin = ad.getD 0 := (take_admin h).symm.trans ha.symm
    refine Sent.Ix.run_ok.mpr ⟨fun k h => hk k ?_, h⟩
    rcases List.mem_cons.mp h with rfl | h
    · exact List.mem_cons_self
    · rcases List.mem_cons.mp h with rfl | h
      · exact List.mem_cons_of_mem _ List.mem_cons_self
      · exact List.mem_cons_of_mem _ (List.mem_cons_of_mem _ (admin_given h0 rfl h))
  · rintro op s' ⟨admin, rfl⟩ hk h
    obtain rfl : admin = ad.getD 0 := (batch_admin h).symm.trans ha.symm
    refine Sent.Ix.run_ok.mpr ⟨fun k h => hk k ?_, h⟩
    rcases List.mem_cons.mp h with rfl | h
    · exact List.mem_cons_self
    · exact List.mem_cons_of_mem _ (admin_given h0 rfl h)

/-- With another admin than the market's, or none where it has one, they are refused. -/
theorem C83_ts_admin_refused (s : State) (keys : List Pubkey) (wallet oo tok ub uq : Pubkey) (ad : Option Pubkey) (pargs : PlaceOrderPeggedArgs)
    (args : PlaceOrderArgs) (rem : List Pubkey) (t : PlaceOrderType) (bids asks : List MultiArgs) (limit : Nat) (cancel : Bool)
    (d : Option Pubkey) (now : Int) (oracle : Option Int) (ha : ad.getD 0 ≠ s.g.market.openOrdersAdmin) :
    Refused s keys (Sent.tsPlaceOrderPegged wallet oo tok ad pargs rem d now oracle) ∧
    Refused s keys (Sent.tsPlaceTakeOrder wallet ub uq ad args rem d now oracle) ∧
    Refused s keys (Sent.tsPlaceOrders cancel wallet oo ub uq ad t bids asks limit d now oracle) :=
  ⟨refused_of_step fun _ h => ha (pegged_admin h).symm, refused_of_step fun _ h => ha (take_admin h).symm,
    refused_of_step fun _ h => ha (batch_admin h).symm⟩

/-- Cancelling as the owner. -/
theorem C83_ts_cancel_partial (s : State) (keys : List Pubkey) (oo : Pubkey) (a : OOA) (id limit : Nat) (side : Option Side) :
    AsGood s keys (Sent.tsCancelById a oo id none) (· = .cancelOrder a.owner oo id) ∧
    AsGood s keys (Sent.tsCancelByClientId a oo id none) (· = .cancelByClientId a.owner oo id) ∧
    AsGood s keys (Sent.tsCancelAll a oo limit side none) (· = .cancelAll a.owner oo side limit) := by
  refine ⟨?_, ?_, ?_⟩ <;>
  · rintro op s' rfl hk h
    exact Sent.Ix.run_ok.mpr ⟨hk, h⟩

/-- A delegate cannot cancel with these instructions: without the key of the owner they are refused in every state. -/
theorem C83_ts_cancel_refused (s : State) (keys : List Pubkey) (oo : Pubkey) (a : OOA) (id limit : Nat) (side : Option Side)
    (d : Option Pubkey) (h : a.owner ∉ keys) :
    Refused s keys (Sent.tsCancelById a oo id d) ∧ Refused s keys (Sent.tsCancelByClientId a oo id d) ∧
    Refused s keys (Sent.tsCancelAll a oo limit side d) :=
  ⟨refused_of_key (List.mem_singleton.mpr rfl) h, refused_of_key (List.mem_singleton.mpr rfl) h,
    refused_of_key (List.mem_singleton.mpr rfl) h⟩

/-- The full claim for cancelling: for whoever controls the account. -/
def C83_ts_cancel_full : Prop :=
  ∀ (s : State) (oo d : Pubkey) (a : OOA) (limit : Nat), Reachable s → s.g.accts.get? oo = some a → a.delegate = d → d ≠ 0 →
    AsGood s [d] (Sent.tsCancelAll a oo limit none (some d)) (· = .cancelAll d oo none limit)

/-- Depositing as the owner. -/
theorem C83_ts_deposit_partial (s : State) (keys : List Pubkey) (oo ub uq : Pubkey) (a : OOA) (b q now : Int) :
    AsGood s keys (Sent.tsDeposit a oo ub uq b q now) (· = .deposit a.owner oo ub uq now b q) := by
  rintro op s' rfl hk h
  exact Sent.Ix.run_ok.mpr ⟨hk, h⟩

/-- Anybody may deposit into an account (C73), but not with this instruction. -/
theorem C83_ts_deposit_refused (s : State) (keys : List Pubkey) (oo ub uq : Pubkey) (a : OOA) (b q now : Int) (h : a.owner ∉ keys) :
    Refused s keys (Sent.tsDeposit a oo ub uq b q now) :=
  refused_of_key (List.mem_singleton.mpr rfl) h

/-- Settling as the owner or a delegate. -/
theorem C83_ts_settle (s : State) (keys : List Pubkey) (oo ub uq payer : Pubkey) (a : OOA) (ref d : Option Pubkey) :
    AsGood s keys (Sent.tsSettleFunds a oo ub uq ref payer d) (· = .settleFunds ⟨d.getD a.owner, payer, oo, ub, uq, ref⟩) := by
  rintro op s' rfl hk h
  exact Sent.Ix.run_ok.mpr ⟨hk, h⟩

/-- Consuming events, on markets with and without admin. -/
theorem C83_ts_consume (s : State) (keys : List Pubkey) (limit : Nat) (rem : List Pubkey) :
    AsGood s keys (Sent.tsConsumeEvents s.g.market limit rem) (fun op => ∃ admin, op = .consumeEvents admin limit rem) := by
  rintro op s' ⟨admin, rfl⟩ hk h
  have e : s.g.market.consumeEventsAdmin = admin := by
    simp only [step, consumeEvents, bind_ok, req_ok] at h
    obtain ⟨_, _, _, e, _⟩ := h
    exact e
  subst e
  exact Sent.Ix.run_ok.mpr ⟨hk, h⟩

/-- Consuming given events, on a market with an admin. -/
theorem C83_ts_given_partial (s : State) (keys : List Pubkey) (slots : List Nat) (rem : List Pubkey)
    (ha : s.g.market.consumeEventsAdmin ≠ 0) :
    AsGood s keys (Sent.tsConsumeGivenEvents s.g.market slots rem) (fun op => ∃ admin, op = .consumeGivenEvents admin slots rem) := by
  rintro op s' ⟨admin, rfl⟩ hk h
  have e : s.g.market.consumeEventsAdmin = admin := by
    simp only [step, consumeGivenEvents, consumeEvents, bind_ok, req_ok] at h
    obtain ⟨_, _, _, _, _, e, _⟩ := h
    exact e
  subst e
  refine Sent.Ix.run_ok.mpr ⟨fun k h => hk k ?_, h⟩
  simp only [signers, ifGiven, if_neg ha]
  exact h

/-- On a market without one nobody can: the account with the all-zero key would have to sign. -/
theorem C83_ts_given_refused (s : State) (keys : List Pubkey) (slots : List Nat) (rem : List Pubkey)
    (ha : s.g.market.consumeEventsAdmin = 0) (h0 : 0 ∉ keys) : Refused s keys (Sent.tsConsumeGivenEvents s.g.market slots rem) :=
  refused_of_key (k := s.g.market.consumeEventsAdmin) (List.mem_singleton.mpr rfl) (ha ▸ h0)

/-- The full claim for given events. -/
def C83_ts_given_full : Prop :=
  ∀ (s : State) (keys : List Pubkey) (slots : List Nat) (rem : List Pubkey), Reachable s → 0 ∉ keys →
    AsGood s keys (Sent.tsConsumeGivenEvents s.g.market slots rem) (fun op => ∃ admin, op = .consumeGivenEvents admin slots rem)

/-- Pruning and closing a market. -/
theorem C83_ts_close (s : State) (keys : List Pubkey) (oo : Pubkey) (limit : Nat) (now : Int) :
    AsGood s keys (Sent.tsPruneOrders s.g.market oo limit now) (fun op => ∃ admin, op = .pruneOrders admin oo now limit) ∧
    AsGood s keys (Sent.tsCloseMarket s.g.market now) (fun op => ∃ admin, op = .closeMarket admin now) := by
  constructor
  · rintro op s' ⟨admin, rfl⟩ hk h
    obtain ⟨h1, _⟩ := pruneOrders_inv h
    obtain ⟨_, _, rfl⟩ := authClose_iff.mp h1
    exact Sent.Ix.run_ok.mpr ⟨hk, h⟩
  · rintro op s' ⟨admin, rfl⟩ hk h
    obtain ⟨_, _, rfl⟩ := authClose_iff.mp (closeMarket_inv h).auth
    exact Sent.Ix.run_ok.mpr ⟨hk, h⟩

/-! The Rust library. -/

/-- Placing orders on a market without admin. -/
theorem C83_rust_place_partial (s : State) (keys : List Pubkey) (owner oo tok : Pubkey) (args : PlaceOrderArgs)
    (pargs : PlaceOrderPeggedArgs) (hz : pargs.zeroOracle = false) (now : Int) (oracle : Option Int) (ha : s.g.market.openOrdersAdmin = 0) :
    AsGood s keys (Sent.rustPlaceOrder owner oo tok args now oracle)
      (fun op => ∃ admin, op = .placeOrder ⟨owner, oo, admin, tok, now, oracle, []⟩ args) ∧
    AsGood s keys (Sent.rustPlaceOrderPegged owner oo tok pargs now oracle)
      (fun op => ∃ admin, op = .placeOrderPegged ⟨owner, oo, admin, tok, now, oracle, []⟩ pargs) := by
  constructor
  · rintro op s' ⟨admin, rfl⟩ hk h
    have e : admin = 0 := (place_admin h).symm.trans ha
    subst e
    exact Sent.Ix.run_ok.mpr ⟨hk, h⟩
  · rintro op s' ⟨admin, rfl⟩ hk h
    have e : admin = 0 := (pegged_admin h).symm.trans ha
    subst e
    have e2 : ({ pargs with zeroOracle := false } : PlaceOrderPeggedArgs) = pargs := by rw [← hz]
    refine Sent.Ix.run_ok.mpr ⟨hk, ?_⟩
    simp only [Sent.rustPlaceOrderPegged]
    rw [e2]
    exact h

/-- On a market with an admin nobody can place orders with it, whoever signs. -/
theorem C83_rust_place_refused (s : State) (keys : List Pubkey) (owner oo tok : Pubkey) (args : PlaceOrderArgs)
    (pargs : PlaceOrderPeggedArgs) (now : Int) (oracle : Option Int) (ha : s.g.market.openOrdersAdmin ≠ 0) :
    Refused s keys (Sent.rustPlaceOrder owner oo tok args now oracle) ∧
    Refused s keys (Sent.rustPlaceOrderPegged owner oo tok pargs now oracle) := by
  constructor
  · exact refused_of_step fun s' h => ha (place_admin h)
  · exact refused_of_step fun s' h => ha (pegged_admin h)

/-- The full claim for placing. -/
def C83_rust_place_full : Prop :=
  ∀ (s : State) (owner payer oo tok : Pubkey) (args : PlaceOrderArgs) (now : Int) (oracle : Option Int), Reachable s →
    AsGood s (Sent.rustKeys owner payer) (Sent.rustPlaceOrder owner oo tok args now oracle)
      (fun op => ∃ admin, op = .placeOrder ⟨owner, oo, admin, tok, now, oracle, []⟩ args)

/-- Cancelling, depositing, settling, and replacing all orders, for the owner of the client. -/
theorem C83_rust_owner (s : State) (keys : List Pubkey) (owner oo ub uq : Pubkey) (id limit : Nat) (side : Option Side)
    (b q now : Int) (ref : Option Pubkey) (t : PlaceOrderType) (bids asks : List MultiArgs) (oracle : Option Int) :
    AsGood s keys (Sent.rustCancelOrder owner oo id) (· = .cancelOrder owner oo id) ∧
    AsGood s keys (Sent.rustCancelAll owner oo side limit) (· = .cancelAll owner oo side limit) ∧
    AsGood s keys (Sent.rustDeposit owner oo ub uq b q now) (· = .deposit owner oo ub uq now b q) ∧
    AsGood s keys (Sent.rustSettleFunds owner oo ub uq ref) (· = .settleFunds ⟨owner, owner, oo, ub, uq, ref⟩) ∧
    AsGood s keys (Sent.rustCancelAllAndPlace s.g.market owner oo ub uq t bids asks limit now oracle)
      (fun op => ∃ admin, op = .placeOrders ⟨owner, oo, admin, ub, uq, now, oracle, []⟩ true t bids asks limit) := by
  refine ⟨?_, ?_, ?_, ?_, ?_⟩
  rotate_right
  · rintro op s' ⟨admin, rfl⟩ hk h
    have e : s.g.market.openOrdersAdmin = admin := by
      simp only [step, placeOrdersIx, cancelAllAndPlace, bind_ok, pure_ok] at h
      obtain ⟨_, ⟨_, _, _, _, _, _, _, _, _, h1, _⟩, _⟩ := h
      obtain ⟨_, _, _, _, _, h2⟩ := authPlace_ok h1
      exact h2
    subst e
    exact Sent.Ix.run_ok.mpr ⟨hk, h⟩
  all_goals
    rintro op s' rfl hk h
    exact Sent.Ix.run_ok.mpr ⟨hk, h⟩

theorem consumeLoop_none {todo : List Nat} {g g' : Ledger} (h : consumeLoop [] todo g = .ok g') : g' = g := by
  induction todo generalizing g with
  | nil => cases h; rfl
  | cons i is ih =>
    unfold consumeLoop at h
    simp only [bind_ok] at h
    obtain ⟨e, _, h⟩ := h
    rw [if_neg List.not_mem_nil] at h
    exact ih h

/-- Consuming events does nothing: no account is passed that could take an event. -/
theorem C83_rust_consume {s s' : State} (keys : List Pubkey) (limit : Nat)
    (h : (Sent.rustConsumeEvents s.g.market limit).run s keys = .ok s') : s' = s := by
  obtain ⟨_, h⟩ := Sent.Ix.run_ok.mp h
  simp only [Sent.rustConsumeEvents, step, consumeEvents, bind_ok, req_ok, pure_ok] at h
  obtain ⟨_, _, _, _, todo, _, g, hg, rfl⟩ := h
  rw [consumeLoop_none hg]

namespace SentCase
open Scenario

/-- A market in use where the first trader made the second one their delegate. -/
def shared : List Op := ops1 ++ [.setDelegate 41 31 32]

theorem C83_ts_cancel_false : ¬ C83_ts_cancel_full := by
  intro H
  obtain ⟨s, s', h1, h2, h3⟩ := step_spec (a := args) (ops := shared) (op := .cancelAll 32 41 none 5)
    (p := fun s s' => decide ((s.g.accts.get? 41).map (fun a => (a.owner, a.delegate)) = some (31, 32) ∧
      s'.book.resting.length < s.book.resting.length)) (by decide +kernel)
  obtain ⟨h4, _⟩ := of_decide_eq_true h3
  obtain ⟨a, ha, e⟩ := Option.map_eq_some_iff.mp h4
  injection e with e1 e2
  have := H s 41 32 a 5 h1 ha e2 (by decide) _ s' rfl (by intro k hk; exact hk) h2
  obtain ⟨x, hx⟩ := (C83_ts_cancel_refused s [32] 41 a 0 5 none (some 32) (by rw [e1]; decide)).2.2
  rw [hx] at this
  cases this

theorem C83_ts_given_false : ¬ C83_ts_given_full := by
  intro H
  obtain ⟨s, s', h1, h2, h3⟩ := step_spec (a := args) (ops := ops1) (op := .consumeGivenEvents 0 [0] [41, 42])
    (p := fun s s' => decide (s.g.market.consumeEventsAdmin = 0 ∧ s'.g.heap.events.length < s.g.heap.events.length)) (by decide +kernel)
  obtain ⟨h4, _⟩ := of_decide_eq_true h3
  have := H s [31] [0] [41, 42] h1 (by decide) _ s' ⟨0, rfl⟩ (by intro k hk; cases hk) h2
  obtain ⟨x, hx⟩ := C83_ts_given_refused s [31] [0] [41, 42] h4 (by decide)
  rw [hx] at this
  cases this

/-- The market with an admin (5), who also pays the fees. -/
theorem C83_rust_place_false : ¬ C83_rust_place_full := by
  intro H
  obtain ⟨s, s', h1, h2, h3⟩ := step_spec (a := AdminCase.adminArgs) (ops := AdminCase.ops) (op := AdminCase.placed 0 .ask 1015 2)
    (p := fun s s' => decide (s.g.market.openOrdersAdmin = 5 ∧ s.book.resting.length < s'.book.resting.length)) (by decide +kernel)
  obtain ⟨h4, _⟩ := of_decide_eq_true h3
  have := H s 31 5 41 51 (limitOrder .ask 1015 2 1) (ctx 0 .ask []).now (ctx 0 .ask []).oracle h1 _ s' ⟨5, rfl⟩
    (by intro k hk; exact hk) h2
  obtain ⟨x, hx⟩ := (C83_rust_place_refused s (Sent.rustKeys 31 5) 31 41 51 (limitOrder .ask 1015 2 1)
    { side := .ask, offset := 0, pegLimit := 1, maxBaseLots := 1, maxQuoteLots := 1, clientOrderId := 0, orderType := .limit,
      expiry := 0, stb := .decrementTake, limit := 1 }
    (ctx 0 .ask []).now (ctx 0 .ask []).oracle (by rw [h4]; decide)).1
  rw [hx] at this
  cases this

/-- The instructions that are right, used: an order placed by the delegate and one by the wallet, events consumed with an admin. -/
example : ∃ (s s' : State), Reachable s ∧
    (Sent.tsPlaceOrder s.g.market 31 41 51 (limitOrder .ask 1015 2 1) [] none 1000 (some 1000)).run s [31, 5] = .ok s' := by
  obtain ⟨s, s', h1, h2, _⟩ := step_spec (a := AdminCase.adminArgs) (ops := AdminCase.ops) (op := AdminCase.placed 0 .ask 1015 2)
    (p := fun _ _ => true) (by decide +kernel)
  exact ⟨s, s', h1, C83_ts_place s [31, 5] 31 41 51 _ [] none 1000 (some 1000) _ s' ⟨5, rfl⟩ (by decide) h2⟩

/-- A take order on a market without admin, sent by the wallet. -/
example : ∃ (s s' : State), Reachable s ∧
    (Sent.tsPlaceTakeOrder 33 53 63 none { limitOrder .bid 1010 3 1 with orderType := .immediateOrCancel } [] none 1000 (some 1000)).run s [33] = .ok s' ∧
    s'.book.resting.length < s.book.resting.length := by
  obtain ⟨s, s', h1, h2, h3⟩ := step_spec (a := args) (ops := ops0)
    (op := .placeTakeOrder ⟨33, 33, 0, 53, 63, 1000, some 1000, []⟩ { limitOrder .bid 1010 3 1 with orderType := .immediateOrCancel })
    (p := fun s s' => decide (s.g.market.openOrdersAdmin = 0 ∧ s'.book.resting.length < s.book.resting.length)) (by decide +kernel)
  obtain ⟨h4, h5⟩ := of_decide_eq_true h3
  exact ⟨s, s', h1, (C83_ts_admin s [33] 33 43 0 53 63 none ⟨.bid, 0, 0, 0, 0, 0, .limit, 0, .decrementTake, 0, false⟩
    { limitOrder .bid 1010 3 1 with orderType := .immediateOrCancel } [] .limit [] [] 0 false none 1000 (some 1000) (by simp) h4.symm).2.1 _ s' ⟨0, rfl⟩ (by decide) h2, h5⟩

example : ∃ (s s' : State), Reachable s ∧ (Sent.tsConsumeEvents s.g.market 8 [41, 42]).run s [6] = .ok s' ∧
    s.g.heap.events ≠ [] ∧ s'.g.heap.events = [] := by
  obtain ⟨s, s', h1, h2, h3⟩ := step_spec (a := AdminCase.adminArgs) (ops := AdminCase.ops) (op := .consumeEvents 6 8 [41, 42])
    (p := fun s s' => decide (s.g.heap.events ≠ [] ∧ s'.g.heap.events = [])) (by decide +kernel)
  exact ⟨s, s', h1, C83_ts_consume s [6] 8 _ _ s' ⟨6, rfl⟩ (by decide) h2, of_decide_eq_true h3⟩

/-- The Rust client consumes events of a market that has one, signed by the admin: all of them are still there. -/
example : ∃ (s s' : State), Reachable s ∧ (Sent.rustConsumeEvents s.g.market 8).run s (Sent.rustKeys 31 6) = .ok s' ∧
    s'.g.heap.events ≠ [] := by
  obtain ⟨s, s', h1, h2, h3⟩ := step_spec (a := AdminCase.adminArgs) (ops := AdminCase.ops) (op := .consumeEvents 6 8 [])
    (p := fun s s' => decide (s.g.market.consumeEventsAdmin = 6 ∧ s'.g.heap.events ≠ [])) (by decide +kernel)
  obtain ⟨h4, h5⟩ := of_decide_eq_true h3
  refine ⟨s, s', h1, Sent.Ix.run_ok.mpr ⟨?_, ?_⟩, h5⟩
  · simp only [Sent.rustConsumeEvents, h4]; decide
  · simp only [Sent.rustConsumeEvents, h4]; exact h2

/-- An instruction of the owner that the delegate could not send. -/
example : ∃ (s s' : State) (a : OOA), Reachable s ∧ s.g.accts.get? 41 = some a ∧ a.delegate = 32 ∧
    (Sent.tsCancelAll a 41 5 none none).run s [31] = .ok s' ∧ s'.book.resting.length < s.book.resting.length := by
  obtain ⟨s, s', h1, h2, h3⟩ := step_spec (a := args) (ops := shared) (op := .cancelAll 31 41 none 5)
    (p := fun s s' => decide ((s.g.accts.get? 41).map (fun a => (a.owner, a.delegate)) = some (31, 32) ∧
      s'.book.resting.length < s.book.resting.length)) (by decide +kernel)
  obtain ⟨h4, h5⟩ := of_decide_eq_true h3
  obtain ⟨a, ha, e⟩ := Option.map_eq_some_iff.mp h4
  injection e with e1 e2
  refine ⟨s, s', a, h1, ha, e2, (C83_ts_cancel_partial s [31] 41 a 0 5 none).2.2 _ s' rfl ?_ ?_, h5⟩
  · intro k hk; rw [e1] at hk; exact hk
  · rw [e1]; exact h2

end SentCase

end OB
