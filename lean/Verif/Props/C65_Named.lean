import Verif.Proofs.Named
import Verif.Props.C31_Take
import Verif.Props.C63_Penalty
/-!
C65  Events are delivered at once exactly to the accounts named, and the accounts named by the client suffice.

`left named 15 fills`: the fills left over when, in order, up to 15 fills whose makers are named are delivered.  `absent env o`: the
account of the removed order `o` is neither named nor the trader's own.
-/
namespace OB
open Spec

section
variable {env : Env} {book book' : Book} {g g' : Ledger} {r : OrderResult}

/-- Which events of an order are queued: the fills of makers that are not named and those after the 15th delivered, and the removed
orders of absent accounts.  Nothing else changes in the queue. -/
theorem C65_queue (h : EngineCall env book g r book' g') :
    ∃ A, g'.heap.events = g.heap.events ++ A ∧ fillsIn A = left env.rem 15 r.fills ∧
      outsIn A = r.outs.filter (fun o => decide (absent env o)) := by
  obtain ⟨C⟩ := callRun h
  obtain ⟨n, hA⟩ := adds_call C (engine_rep h.state)
  obtain ⟨A, h1, h2, h3⟩ := hA.queue
  have := h3 []
  rw [List.append_nil, left_nil, List.append_nil] at this
  exact ⟨A, h1, this.symm, h2⟩

/-- With at most 15 fills: the fills queued are those of makers not named. -/
theorem C65_few (h : EngineCall env book g r book' g') (hn : r.fills.length ≤ 15) :
    ∃ A, g'.heap.events = g.heap.events ++ A ∧ fillsIn A = r.fills.filter (fun f => decide (f.maker ∉ env.rem)) ∧
      outsIn A = r.outs.filter (fun o => decide (absent env o)) := by
  obtain ⟨A, h1, h2, h3⟩ := C65_queue h
  exact ⟨A, h1, by rw [h2, left_few 15 _ hn], h3⟩

/-- Events are fills or removed orders. -/
theorem C65_events (es : List Event) : es.length = (fillsIn es).length + (outsIn es).length := events_split es

/-- The accounts collected by the client while it computes the amounts of a market order suffice: if they are all named, only fills
after the 15th are queued. -/
theorem C65_client (h : EngineCall env book g r book' g') (hm : env.order.params = .market) (hlim : env.limit = 45)
    (hself : ∀ c l, (env.order.side.invert, c, l) ∈ book.resting → env.hasOO = true → l.owner ≠ env.owner) {x : Client.IterRes}
    (hx : Client.iterateBook book env.order.side env.order.maxBaseLots env.order.maxQuoteLotsIncludingFees g.market env.oracle env.nowTs = .ok x)
    (hrem : ∀ k ∈ x.accounts, k ∈ env.rem) :
    g'.heap.events = g.heap.events ++ (r.fills.drop 15).map .fill := by
  obtain ⟨C⟩ := callRun h
  obtain ⟨k1, k2⟩ := Client.iterate_accts C hm hlim hself hx
  obtain ⟨A, h1, h2, h3⟩ := C65_queue h
  rw [left_named 15 _ (fun f hf => hrem _ (k1 f hf))] at h2
  rw [List.filter_eq_nil_iff.mpr (fun o ho => by simpa [absent] using fun hx => absurd (hrem _ (k2 o ho)) hx)] at h3
  rw [h1, fills_only h3, h2]

/-- It names at most 20 accounts, all of them owners of opposing orders. -/
theorem C65_client_size (h : EngineState book g) {side : Side} {oracle : Option Int} {now : Nat} {maxBase maxQuote : Int} {x : Client.IterRes}
    (hx : Client.iterateBook book side maxBase maxQuote g.market oracle now = .ok x) :
    x.accounts.length ≤ 20 ∧ ∀ k ∈ x.accounts, ∃ c l, (side.invert, c, l) ∈ book.resting ∧ l.owner = k :=
  Client.iterate_size h hx

/-- The accounts that the router's client names: at most three different ones, each with an opposing order that can trade. -/
theorem C65_router_list (h : EngineState book g) (side : Side) (oracle : Option Int) (now : Nat) :
    ∃ ks, Client.remainingAccountsToCrank book side oracle now = .ok ks ∧ ks.Nodup ∧ ks.length ≤ 3 ∧
      ∀ k ∈ ks, ∃ c l p, (side.invert, c, l) ∈ book.resting ∧ TradableAt now oracle side.invert c l p ∧ l.owner = k :=
  Client.crank_list h side oracle now

/-- They suffice for the first fills, up to 15 of at most three makers, for any kind of order of a trader without opposing orders. -/
theorem C65_router (h : EngineCall env book g r book' g')
    (hself : ∀ c l, (env.order.side.invert, c, l) ∈ book.resting → env.hasOO = true → l.owner ≠ env.owner) {ks : List Pubkey}
    (hk : Client.remainingAccountsToCrank book env.order.side env.oracle env.nowTs = .ok ks) (hrem : ∀ k ∈ ks, k ∈ env.rem)
    {n : Nat} (hn : n ≤ 15) (hmk : AtMostMakers 3 (r.fills.take n)) :
    ∃ A, g'.heap.events = g.heap.events ++ A ∧ (fillsIn A).Sublist (r.fills.drop n) ∧
      outsIn A = r.outs.filter (fun o => decide (absent env o)) := by
  obtain ⟨C⟩ := callRun h
  obtain ⟨A, h1, h2, h3⟩ := C65_queue h
  refine ⟨A, h1, ?_, h3⟩
  rw [h2]
  exact left_prefix 15 n _ (fun f hf => hrem _ (Client.crank_covers C hself hk n hmk f hf)) hn

end

theorem take_call {s s' : State} {c : TakeCtx} {a : PlaceOrderArgs} (hr : Reachable s) (h : step s (.placeTakeOrder c a) = .ok s') :
    ∃ env r g1, TakesAs c a env ∧ EngineCall env s.book s.g r s'.book g1 ∧ s'.g.heap = g1.heap := by
  cases hs : a.side with
  | bid =>
    obtain ⟨env, r, g1, h1, h2, h3, _⟩ := C31_take_bid hr h hs
    exact ⟨env, r, g1, h1, h2, h3⟩
  | ask =>
    obtain ⟨env, r, g1, h1, h2, h3, _⟩ := C31_take_ask hr h hs
    exact ⟨env, r, g1, h1, h2, h3⟩

/-- No lamports are paid for a take order that queues nothing. -/
theorem take_free {s s' : State} {c : TakeCtx} {a : PlaceOrderArgs} (hr : Reachable s) (h : step s (.placeTakeOrder c a) = .ok s')
    (he : s'.g.heap.events = s.g.heap.events) : ∀ k, s'.lamports k = s.lamports k := by
  intro k
  rw [(C63_take s s' c a hr h).1 k, if_neg (by unfold Grows; rw [he]; omega)]
  unfold moved
  omega

/-- A market order by `place_take_order` with the accounts of the client: if it makes at most 15 fills then nothing is queued and no
penalty is paid. -/
theorem C65_take {s s' : State} {c : TakeCtx} {a : PlaceOrderArgs} (hr : Reachable s) (h : step s (.placeTakeOrder c a) = .ok s')
    (hm : a.orderType = .market) (hlim : a.limit = 45) {now : Nat} (hnow : (now : Int) = c.now) {x : Client.IterRes}
    (hx : Client.iterateBook s.book a.side a.maxBaseLots a.maxQuoteLots s.g.market c.oracle now = .ok x)
    (hrem : ∀ k ∈ x.accounts, k ∈ c.rem) :
    ∃ env r g1, TakesAs c a env ∧ EngineCall env s.book s.g r s'.book g1 ∧
      s'.g.heap.events = s.g.heap.events ++ (r.fills.drop 15).map .fill ∧
      (r.fills.length ≤ 15 → s'.g.heap.events = s.g.heap.events ∧ ∀ k, s'.lamports k = s.lamports k) := by
  obtain ⟨env, r, g1, has, hcall, hh⟩ := take_call hr h
  have hpm : env.order.params = .market := by
    rcases has.params with ⟨_, h⟩ | ⟨h, _⟩ | ⟨h, _⟩
    · exact h
    · rw [hm] at h; cases h
    · rw [hm] at h; cases h
  have hn : now = env.nowTs := by have := has.now; omega
  subst hn
  have he := C65_client hcall hpm (has.limit.trans hlim) (fun _ _ _ h => by rw [has.owner.2] at h; cases h) (x := x)
    (by rw [has.side, has.base, has.quote, has.oracle]; exact hx) (by rw [has.rem]; exact hrem)
  rw [← hh] at he
  refine ⟨env, r, g1, has, hcall, he, fun hl => ?_⟩
  rw [List.drop_eq_nil_of_le hl] at he
  have he' : s'.g.heap.events = s.g.heap.events := by simpa using he
  exact ⟨he', take_free hr h he'⟩

/-- A swap with the accounts of the router's client: if it makes at most 15 fills of at most three makers, and the owners of the
expired orders it removes (if any) are named too, then nothing is queued and no penalty is paid. -/
theorem C65_swap {s s' : State} {c : TakeCtx} {a : PlaceOrderArgs} (hr : Reachable s) (h : step s (.placeTakeOrder c a) = .ok s')
    {now : Nat} (hnow : (now : Int) = c.now) {ks : List Pubkey}
    (hk : Client.remainingAccountsToCrank s.book a.side c.oracle now = .ok ks) (hrem : ∀ k ∈ ks, k ∈ c.rem) :
    ∃ env r g1, TakesAs c a env ∧ EngineCall env s.book s.g r s'.book g1 ∧
      (r.fills.length ≤ 15 → AtMostMakers 3 r.fills → (∀ o ∈ r.outs, o.owner ∈ c.rem) →
        s'.g.heap.events = s.g.heap.events ∧ ∀ k, s'.lamports k = s.lamports k) := by
  obtain ⟨env, r, g1, has, hcall, hh⟩ := take_call hr h
  have hn : now = env.nowTs := by have := has.now; omega
  subst hn
  refine ⟨env, r, g1, has, hcall, fun hl hmk hout => ?_⟩
  obtain ⟨A, h1, h2, h3⟩ := C65_router hcall (fun _ _ _ h => by rw [has.owner.2] at h; cases h) (ks := ks)
    (by rw [has.side, has.oracle]; exact hk) (by rw [has.rem]; exact hrem) hl (by rw [List.take_length]; exact hmk)
  rw [List.drop_length] at h2
  rw [List.filter_eq_nil_iff.mpr (fun o ho => by
    simpa [absent] using fun hx => absurd (by rw [has.rem]; exact hout o ho) hx)] at h3
  have hA : A = [] := by
    have := C65_events A
    rw [List.sublist_nil.mp h2, h3] at this
    exact List.eq_nil_of_length_eq_zero this
  rw [hA, List.append_nil, ← hh] at h1
  exact ⟨h1, take_free hr h h1⟩

/-! A market order for 8 lots meets the orders of C31: with the accounts of the client nothing is queued; with account 42 only, the
fill of account 41 is. -/
namespace NamedCase
open Scenario

def market (qty : Int) : PlaceOrderArgs := { limitOrder .bid 1 qty 9 with orderType := .market, limit := 45 }
def named (ks : List Pubkey) : TakeCtx := { takeCtx 2 with rem := ks }

example : ∃ (s s' : State), Reachable s ∧ step s (.placeTakeOrder (named [41, 42]) (market 8)) = .ok s' ∧
    (okAnd (Client.iterateBook s.book .bid 8 100000 s.g.market (some 1000) 1000) (fun x => decide (x.accounts = [42, 41, 42])) &&
      okAnd (Client.remainingAccountsToCrank s.book .bid (some 1000) 1000) (fun ks => decide (ks = [42, 41])) &&
      decide (s'.g.heap.events = s.g.heap.events ∧ s'.lamports 33 = s.lamports 33)) = true :=
  step_spec (a := argsRebate) (ops := ops0) (p := fun s s' =>
    okAnd (Client.iterateBook s.book .bid 8 100000 s.g.market (some 1000) 1000) (fun x => decide (x.accounts = [42, 41, 42])) &&
      okAnd (Client.remainingAccountsToCrank s.book .bid (some 1000) 1000) (fun ks => decide (ks = [42, 41])) &&
      decide (s'.g.heap.events = s.g.heap.events ∧ s'.lamports 33 = s.lamports 33)) (by decide +kernel)

example : ∃ (s s' : State), Reachable s ∧ step s (.placeTakeOrder (named [42]) (market 8)) = .ok s' ∧
    decide ((fillsIn s'.g.heap.events).map (fun f => (f.maker, f.quantity)) = [(41, 5)] ∧ s.g.heap.events = [] ∧
      s'.lamports 33 = s.lamports 33 - 500) = true :=
  step_spec (a := argsRebate) (ops := ops0) (p := fun s s' =>
    decide ((fillsIn s'.g.heap.events).map (fun f => (f.maker, f.quantity)) = [(41, 5)] ∧ s.g.heap.events = [] ∧
      s'.lamports 33 = s.lamports 33 - 500)) (by decide +kernel)

end NamedCase

end OB
