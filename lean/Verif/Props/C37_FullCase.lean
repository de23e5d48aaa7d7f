import Verif.Props.C37_Full
/-! A full book: 512 bids of 22 accounts.  The hypotheses of the theorems of C37 hold for it. -/
namespace OB.Scenario
open OB OB.Spec
/-- Owner 31 has accounts 200, 201, ... -/
def fillCtx (i : Nat) : PlaceCtx :=
  { signer := 31, ooKey := 200 + i, admin := 0, userToken := 61, now := 1000, oracle := some 1000, rem := [] }
/-- Create the accounts, place `n` bids, 24 per account. -/
def fillOps (accts n : Nat) : List Op :=
  (List.range accts).map (fun i => .createOO (200 + i) 31 0) ++
  (List.range n).map (fun i => .placeOrder (fillCtx (i / 24)) (limitOrder .bid (100 + i) 1 i))

/-- A better bid by another account. -/
def fullTaker : Env := taker 180 .bid (.fixed 500 .limit) 1 100000
def fullCase (s : State) (r : OrderResult) (_ : Book) (_ : Ledger) : Bool :=
  (s.book.side .bid).isFull && (onSide s.book .bid).all (fun x => ¬ expiredBefore 2000 x.2.2) && r.orderId.isSome

theorem full_runs : callAnd args (fillOps 22 512) fullTaker fullCase = true := by decide +kernel

example : ∃ env book g r book' g' id, EngineCall env book g r book' g' ∧ (book.side env.order.side).isFull = true ∧
    (∀ x ∈ onSide book env.order.side, ¬ expiredBefore env.nowTs x.2.2) ∧ r.orderId = some id := by
  obtain ⟨s, r, book', g', h, hp⟩ := call_spec full_runs
  simp only [fullCase, Bool.and_eq_true, List.all_eq_true, decide_eq_true_eq] at hp
  obtain ⟨id, hid⟩ := Option.isSome_iff_exists.mp hp.2
  exact ⟨_, _, _, _, _, _, id, h, hp.1.1, hp.1.2, hid⟩
end OB.Scenario
