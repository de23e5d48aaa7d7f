import Verif.Proofs.Watcher
import Verif.Props.C94_Decode
/-!
C95 — Objects that are watched show what is on the chain.

The full claim: an object that has been added to a watcher holds, whenever the node has told of a change of its account, the content of
that account; and after `clear` no object changes any more.  The code violates the first for open orders accounts, which are decoded under
a name that does not exist (`C95_open_orders_stale`), and the second for accounts that have been added twice (`C95_clear_fails`).
-/
namespace OB
open Spec Layout Watcher

/-- A watched object holds what the last notification about its account decodes to, whatever was added and told before and after.  Used
below for each kind of account. -/
theorem C95_last (disc : String → Bytes) (s : Session) (i : Nat) {before after : List Action} (hb : ∀ a ∈ before, a ≠ .clear)
    {data : Bytes} {y : Held} (hy : decodeFor disc (s.objs i).kind data = .ok y)
    (ha : ∀ k d, Action.notify k d ∈ after → k ≠ (s.objs i).pubkey) :
    (s.run disc (.add i :: before ++ .notify (s.objs i).pubkey data :: after)).held i = y := by
  rw [List.cons_append, run_cons, run_append, run_cons]
  have ho : (((s.act disc (.add i)).run disc before)).objs = s.objs := by rw [run_objs, act_objs]
  have hw : Watched ((s.act disc (.add i)).run disc before) i := watched_run (watched_add s i) hb
  rw [run_other (by rw [act_objs, ho]; exact ha)]
  have h := notify_mine (disc := disc) hw (data := data) (y := y) (by rw [ho]; exact hy)
  rw [ho] at h
  exact h

/-- A watched market shows the market as the node last told of it. -/
theorem C95_market_partial {disc : String → Bytes} {s : Session} {i : Nat} (hk : (s.objs i).kind = .market) {st : State}
    (hs : SizedReachable st) {x : MarketExtra} (hx : MarketExtraFits x) (hd : (disc "market").length = 8)
    {before after : List Action} (hb : ∀ a ∈ before, a ≠ .clear) (ha : ∀ k d, Action.notify k d ∈ after → k ≠ (s.objs i).pubkey) :
    ∃ y, MarketIs x st.g.market y ∧
      (s.run disc (.add i :: before ++ .notify (s.objs i).pubkey (marketAcctBytes (disc "market") x st.g.market) :: after)).held i =
        .acct (.market y) := by
  obtain ⟨y, h1, h2⟩ := C94_market hs hd hx
  refine ⟨y, h2, C95_last disc s i hb ?_ ha⟩
  have ht : (marketAcctBytes (disc "market") x st.g.market).take 8 = disc "market" := Ts.take_at _ _ 8 hd
  simp [hk, decodeFor, Ts.decodeAccount, ht, h1, bind, Except.bind, pure, Except.pure]

/-- A watched book side shows the side of the book (see C75 for what it lists) as the node last told of it. -/
theorem C95_side_partial {disc : String → Bytes} {s : Session} {i : Nat} (hk : (s.objs i).kind = .bookSide) {st : State}
    (hs : SizedReachable st) (sd : Side) {d8 : Bytes} (hd : d8.length = 8)
    {before after : List Action} (hb : ∀ a ∈ before, a ≠ .clear) (ha : ∀ k d, Action.notify k d ∈ after → k ≠ (s.objs i).pubkey) :
    ∃ y, Loads st.book sd (Ts.BookSide.new y sd) ∧
      (s.run disc (.add i :: before ++ .notify (s.objs i).pubkey (bookSideBytes d8 (st.book.side sd)) :: after)).held i = .side y := by
  have hf : SideFits (st.book.side sd) := by cases sd; exact (C85_fits hs).bids; exact (C85_fits hs).asks
  have h1 := Ts.decode_spec _ _ hd hf
  refine ⟨_, ⟨d8, _, hd, h1, rfl⟩, C95_last disc s i hb ?_ ha⟩
  simp [hk, decodeFor, h1, bind, Except.bind, pure, Except.pure]

/-- A watched event heap shows the queue (see C84 for what it lists) as the node last told of it. -/
theorem C95_heap_partial {disc : String → Bytes} {s : Session} {i : Nat} (hk : (s.objs i).kind = .eventHeap) {st : State}
    (hs : SizedReachable st) (hd : (disc "eventHeap").length = 8)
    {before after : List Action} (hb : ∀ a ∈ before, a ≠ .clear) (ha : ∀ k d, Action.notify k d ∈ after → k ≠ (s.objs i).pubkey) :
    ∃ y, HoldsHeap st.g.heap y ∧
      (s.run disc (.add i :: before ++ .notify (s.objs i).pubkey (eventHeapBytes (disc "eventHeap") st.g.heap) :: after)).held i =
        .acct (.heap y) := by
  have h1 := Ts.decodeHeap_bytes (disc "eventHeap") st.g.heap hd (C85_fits hs).heap
  refine ⟨_, ⟨_, hd, h1⟩, C95_last disc s i hb ?_ ha⟩
  have ht : (eventHeapBytes (disc "eventHeap") st.g.heap).take 8 = disc "eventHeap" := Ts.take_at _ _ 8 hd
  simp [hk, decodeFor, Ts.decodeAccount, ht, h1, bind, Except.bind, pure, Except.pure]

/-- Watching the account of a trader has no effect: whatever is added and told, the object keeps what it had when it was loaded. -/
theorem C95_open_orders_stale (disc : String → Bytes) (s : Session) (i : Nat) (hk : (s.objs i).kind = .openOrders) (l : List Action) :
    (s.run disc l).held i = s.held i := by
  have hf : ∀ data, ∃ e, decodeFor disc .openOrders data = .error e := by
    intro data
    refine ⟨.undefined, ?_⟩
    simp only [decodeFor, Ts.decodeAccount]
    by_cases h : data.take 8 = disc "OpenOrders" <;> simp [h, bind, Except.bind]
  induction l generalizing s with
  | nil => rfl
  | cons a l ih =>
    rw [run_cons, ih _ (by rw [act_objs]; exact hk)]
    cases a with
    | add j => rfl
    | notify k data =>
      obtain ⟨e, he⟩ := hf data
      exact fold_fail disc data _ s (by rw [hk]; exact he)
    | clear => rfl

/-- Adding a market watches the market, and the sides and the queue that are loaded and not left out. -/
theorem C95_add_market (s : Session) (m : Nat) (asks bids heap : Option Nat) (book events : Bool) (i : Nat) :
    (∃ x ∈ (s.addMarket m asks bids heap book events).subs, x.obj = i) ↔
      (∃ x ∈ s.subs, x.obj = i) ∨ i = m ∨ (book = true ∧ (asks = some i ∨ bids = some i)) ∨ (events = true ∧ heap = some i) := by
  have key : ∀ (s : Session) (j : Nat), (∃ x ∈ (s.add j).subs, x.obj = i) ↔ (∃ x ∈ s.subs, x.obj = i) ∨ i = j := by
    intro s j
    simp only [Session.add, List.mem_append, List.mem_singleton]
    constructor
    · rintro ⟨x, h | rfl, h2⟩
      · exact .inl ⟨x, h, h2⟩
      · exact .inr h2.symm
    · rintro (⟨x, h, h2⟩ | rfl)
      · exact ⟨x, .inl h, h2⟩
      · exact ⟨_, .inr rfl, rfl⟩
  unfold Session.addMarket
  cases asks <;> cases bids <;> cases heap <;> cases book <;> cases events <;>
    simp only [key, Bool.false_eq_true, if_true, if_false, Option.some.injEq, reduceCtorEq, false_and, true_and, and_false, or_false, false_or] <;>
    simp only [@eq_comm _ i, or_assoc]

/-- After `clear` nothing changes any more, if no account had been added twice. -/
theorem C95_clear_partial (disc : String → Bytes) (objs : Nat → Obj) (held : Nat → Held) (l : List Action)
    (hd : (l.filterMap (fun a => match a with
      | .add i => some (objs i).pubkey
      | _ => none)).Nodup) (told : List (Pubkey × Bytes)) :
    let s := ((Session.start objs held).run disc l).clear
    (s.run disc (told.map (fun x => .notify x.1 x.2))).held = s.held := by
  intro s
  have hs : s.subs = [] := noted_clear (noted_run (s := Session.start objs held) (fun x hx => by cases hx) hd (fun x hx => by cases hx))
  clear_value s
  induction told generalizing s with
  | nil => rfl
  | cons t told ih =>
    rw [List.map_cons, run_cons]
    have e : s.act disc (.notify t.1 t.2) = s := notify_none hs _ _
    rw [e]
    exact ih s hs

/-! ### the same book side added twice -/
namespace WatchCase

def objs : Nat → Obj := fun _ => { pubkey := 7, kind := .bookSide }

end WatchCase

/-- Nothing stops the first subscription of an account that was added twice, such as by `addMarket` and `addBookSide`: after `clear` the
object goes on changing. -/
theorem C95_clear_fails : ∃ (disc : String → Bytes) (objs : Nat → Obj) (held : Nat → Held) (l : List Action) (k : Pubkey) (data : Bytes),
    let s := ((Session.start objs held).run disc l).clear
    (s.notify disc k data).held ≠ s.held := by
  obtain ⟨s, h1, -⟩ := SizedCase.exec_sized (a := Scenario.args) (ops := Scenario.ops0) (p := fun _ => true)
    (by decide +kernel) (by decide +kernel) (by decide +kernel)
  have hdec := Ts.decode_spec s.book.bids (List.replicate 8 0) (by simp) (C85_fits h1).bids
  let h0 : Held := .acct (.indexer { bump := 0, createdCounter := 0, addresses := [] })
  refine ⟨fun _ => [], WatchCase.objs, fun _ => h0, [.add 0, .add 0], 7, bookSideBytes (List.replicate 8 0) s.book.bids, ?_⟩
  intro s1 h
  have hw : Watched s1 0 := ⟨{ id := 0, obj := 0 }, by decide, rfl⟩
  have h2 := notify_mine (disc := fun _ => []) hw (data := bookSideBytes (List.replicate 8 0) s.book.bids) (y := .side (Ts.acctOf s.book.bids)) (by
    show decodeFor _ .bookSide _ = _
    simp only [decodeFor, hdec, bind, Except.bind, pure, Except.pure])
  have h3 : (s1.notify (fun _ => []) 7 (bookSideBytes (List.replicate 8 0) s.book.bids)).held 0 = s1.held 0 := by rw [h]
  have h4 : (s1.objs 0).pubkey = 7 := rfl
  rw [h4, h3] at h2
  cases h2

/-! A session in which these hypotheses hold: market and account are added, other accounts change before and after. -/
example : ∃ (objs : Nat → Obj) (before after : List Action), (objs 0).kind = .market ∧ (objs 1).kind = .openOrders ∧
    before.length = 2 ∧ after.length = 1 ∧ (∀ a ∈ before, a ≠ .clear) ∧ (∀ k d, Action.notify k d ∈ after → k ≠ (objs 0).pubkey) :=
  ⟨fun i => if i = 0 then ⟨5, .market⟩ else ⟨6, .openOrders⟩, [.add 1, .notify 5 []], [.notify 6 []], rfl, rfl, rfl, rfl, by simp, by simp⟩

end OB
