import Verif.Model.Program
import Verif.Spec.Engine
/-!
Concrete executions of the model.  They show that the hypotheses of the property theorems are met by non-trivial states.
-/
namespace OB.Scenario
open OB OB.Spec

/-- Run a list of operations. -/
def run : State → List Op → R State
  | s, [] => .ok s
  | s, op :: ops => do run (← step s op) ops

theorem run_reachable {s s' : State} {ops : List Op} (hs : Reachable s) (h : run s ops = .ok s') : Reachable s' := by
  induction ops generalizing s with
  | nil => injection h with h; rwa [← h]
  | cons op ops ih =>
    unfold run at h
    cases h1 : step s op with
    | error e => rw [h1] at h; cases h
    | ok s1 => rw [h1] at h; exact ih (Reachable.step s s1 op hs h1) h

/-- `r` succeeds and the result satisfies `p`. -/
def okAnd {α : Type} (r : R α) (p : α → Bool) : Bool :=
  match r with
  | .ok a => p a
  | .error _ => false

theorem okAnd_spec {α : Type} {r : R α} {p : α → Bool} (h : okAnd r p = true) : ∃ a, r = .ok a ∧ p a = true := by
  cases r with
  | ok a => exact ⟨a, rfl, h⟩
  | error e => cases h

/-- A market with fees 0.02 % and 0.04 %. -/
def args : CreateArgs :=
  { marketKey := 100, marketAuthority := 101, collectFeeAdmin := 1, openOrdersAdmin := 0, consumeEventsAdmin := 0,
    closeMarketAdmin := 2, oracleA := 50, oracleB := 0, baseMint := 10, quoteMint := 11, baseVault := 20, quoteVault := 21,
    quoteLotSize := 10, baseLotSize := 100, makerFee := 200, takerFee := 400, timeExpiry := 0 }

/-- Traders 31, 32, 33 with base accounts 51, 52, 53 and quote accounts 61, 62, 63. -/
def tokens0 : Tokens := fun k =>
  if 51 ≤ k ∧ k ≤ 53 then { owner := k - 20, mint := 10, amount := 1000000 }
  else if 61 ≤ k ∧ k ≤ 63 then { owner := k - 30, mint := 11, amount := 100000000 }
  else { owner := 0, mint := 0, amount := 0 }

def lamports0 : Lamports := fun _ => 1000000

def start (a : CreateArgs) : R State := createMarket a 0 tokens0 lamports0

theorem start_reachable {a : CreateArgs} {s : State} (h : start a = .ok s) : Reachable s := Reachable.init a 0 tokens0 lamports0 s h

/-- Market creation followed by `ops`. -/
def exec (a : CreateArgs) (ops : List Op) : R State := do run (← start a) ops

theorem exec_reachable {a : CreateArgs} {ops : List Op} {s : State} (h : exec a ops = .ok s) : Reachable s := by
  unfold exec at h
  cases h1 : start a with
  | error e => rw [h1] at h; cases h
  | ok s1 => rw [h1] at h; exact run_reachable (start_reachable h1) h

theorem exec_spec {a : CreateArgs} {ops : List Op} {p : State → Bool} (h : okAnd (exec a ops) p = true) :
    ∃ s, Reachable s ∧ p s = true := by
  obtain ⟨s, h1, h2⟩ := okAnd_spec h
  exact ⟨s, exec_reachable h1, h2⟩

/-- Trader `31 + i` uses open orders account `41 + i`. -/
def ctx (i : Nat) (side : Side) (rem : List Pubkey) : PlaceCtx :=
  { signer := 31 + i, ooKey := 41 + i, admin := 0, userToken := if side = .bid then 61 + i else 51 + i, now := 1000,
    oracle := some 1000, rem }

def limitOrder (side : Side) (price qty : Int) (client : Nat) : PlaceOrderArgs :=
  { side, priceLots := price, maxBaseLots := qty, maxQuoteLots := 100000, clientOrderId := client, orderType := .limit,
    expiry := 0, stb := .decrementTake, limit := 10 }

def place (i : Nat) (side : Side) (price qty : Int) (client : Nat) (rem : List Pubkey := []) : Op :=
  .placeOrder (ctx i side rem) (limitOrder side price qty client)

def placePegged (i : Nat) (side : Side) (offset limit qty : Int) (client : Nat) : Op :=
  .placeOrderPegged (ctx i side [])
    { side, offset, pegLimit := limit, maxBaseLots := qty, maxQuoteLots := 100000, clientOrderId := client, orderType := .limit,
      expiry := 0, stb := .decrementTake, limit := 10 }

/-- Three accounts; resting orders of both kinds on both sides; two fills waiting in the queue, one of which takes its maker
order out. -/
def ops1 : List Op :=
  [.createOO 41 31 0, .createOO 42 32 0, .createOO 43 33 0,
   .deposit 31 41 51 61 1000 5000 500000,
   place 0 .ask 1010 5 1, place 0 .bid 990 4 2, placePegged 0 .bid (-5) 1000 2 3,
   place 1 .ask 1020 3 4, placePegged 1 .ask 7 1000 2 5,
   place 2 .bid 1010 4 6]

/-- `ops1` before the last order. -/
def ops0 : List Op := ops1.take 9

/-- Run `ops`, then `op`. -/
def stepAnd (a : CreateArgs) (ops : List Op) (op : Op) (p : State → State → Bool) : Bool :=
  okAnd (exec a ops) (fun s => okAnd (step s op) (fun s' => p s s'))

theorem step_spec {a : CreateArgs} {ops : List Op} {op : Op} {p : State → State → Bool} (h : stepAnd a ops op p = true) :
    ∃ s s', Reachable s ∧ step s op = .ok s' ∧ p s s' = true := by
  obtain ⟨s, hs, h⟩ := exec_spec h
  obtain ⟨s', h1, h2⟩ := okAnd_spec h
  exact ⟨s, s', hs, h1, h2⟩

/-! Calls of the matching engine. -/

def orderOkB (o : Order) : Bool :=
  decide (0 ≤ o.maxBaseLots ∧ o.maxBaseLots ≤ i64Max ∧ 0 ≤ o.maxQuoteLotsIncludingFees ∧ o.maxQuoteLotsIncludingFees ≤ i64Max) &&
  (match o.params with
  | .market => true
  | .immediateOrCancel p => decide (p ≤ i64Max)
  | .fillOrKill p => decide (p ≤ i64Max)
  | .fixed p _ => decide (p ≤ i64Max)
  | .oraclePegged _ _ l => decide (1 ≤ l ∧ l ≤ i64Max))

theorem orderOkB_spec {o : Order} (h : orderOkB o = true) : OrderValid o := by
  unfold orderOkB at h
  rw [Bool.and_eq_true, decide_eq_true_eq] at h
  obtain ⟨⟨h1, h2, h3, h4⟩, h5⟩ := h
  refine ⟨⟨h1, h2⟩, ⟨h3, h4⟩, ?_, ?_⟩
  · rintro p (hp | hp | ⟨t, hp⟩) <;> rw [hp] at h5 <;> simpa using h5
  · intro off t l hp; rw [hp] at h5; simpa using h5

/-- Order of trader `31 + i`. -/
def taker (i : Nat) (side : Side) (params : OrderParams) (qty quote : Int) (oracle : Int := 1000) : Env :=
  { order := { side, maxBaseLots := qty, maxQuoteLotsIncludingFees := quote, clientOrderId := 77, timeInForce := 0,
               selfTradeBehavior := .decrementTake, params },
    oracle := some oracle, hasOO := true, owner := 41 + i, nowTs := 2000, limit := 10, rem := [] }

/-- Run `ops`, then call the matching engine. -/
def callAnd (a : CreateArgs) (ops : List Op) (env : Env) (p : State → OrderResult → Book → Ledger → Bool) : Bool :=
  orderOkB env.order && env.hasOO && decide ((env.nowTs : Int) ≤ i64Max) && decide (i64Min ≤ env.oracle.getD 0 ∧ env.oracle.getD 0 ≤ i64Max) && okAnd (exec a ops) (fun s => okAnd (newOrder env s.book s.g) (fun x => p s x.1 x.2.1 x.2.2))

theorem call_spec {a : CreateArgs} {ops : List Op} {env : Env} {p : State → OrderResult → Book → Ledger → Bool}
    (h : callAnd a ops env p = true) :
    ∃ s r book' g', EngineCall env s.book s.g r book' g' ∧ p s r book' g' = true := by
  unfold callAnd at h
  rw [Bool.and_eq_true, Bool.and_eq_true, Bool.and_eq_true, Bool.and_eq_true, decide_eq_true_eq, decide_eq_true_eq] at h
  obtain ⟨⟨⟨⟨ho, ht⟩, hn⟩, hor⟩, h⟩ := h
  obtain ⟨s, hs, h⟩ := exec_spec h
  obtain ⟨⟨r, book', g'⟩, hr, h⟩ := okAnd_spec h
  exact ⟨s, r, book', g', ⟨.reachable s hs, ⟨orderOkB_spec ho, hn, (by intro p hp; rw [hp] at hor; exact hor), (by rw [ht]; intro hx; cases hx)⟩, hr⟩, h⟩

end OB.Scenario
