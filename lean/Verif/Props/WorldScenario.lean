import Mathlib.Data.Nat.Pairing
import Verif.Proofs.World
import Verif.Props.Scenario
/-!
A concrete deployment with two markets.  It shows that the hypotheses of the theorems about deployments are met.
-/
namespace OB.Scenario
open OB OB.Spec

/-- Some injective address derivation.  Keys of people are odd numbers of the form 4 n + 3. -/
def addrs : Addresses where
  authority k := 4 * k
  vault a m := 4 * Nat.pair a m + 2
  ooAddr o n := 4 * Nat.pair o n + 1
  isPda x := decide (x % 4 = 0 ∨ x % 4 = 1)
  authority_inj h := Nat.eq_of_mul_eq_mul_left (by decide) h
  vault_inj h := Nat.pair_eq_pair.mp (by have : 4 * Nat.pair _ _ + 2 = 4 * Nat.pair _ _ + 2 := h; omega)
  ooAddr_inj h := Nat.pair_eq_pair.mp (by have : 4 * Nat.pair _ _ + 1 = 4 * Nat.pair _ _ + 1 := h; omega)
  authority_pda k := by simp
  ooAddr_pda o n := by simp

/-- People 3, 7 and 11; person `p` has token accounts `100 p + m` of the mints `m` = 1, 2, 3. -/
def wtokens : Tokens := fun k =>
  if (k / 100 = 3 ∨ k / 100 = 7 ∨ k / 100 = 11) ∧ 1 ≤ k % 100 ∧ k % 100 ≤ 3
  then { owner := k / 100, mint := k % 100, amount := 1000000 }
  else { owner := 0, mint := 0, amount := 0 }

def wempty : World := World.empty wtokens lamports0

/-- A market at `key`, a key pair. -/
def wargs (key base quote : Pubkey) : CreateArgs :=
  { args with marketKey := key, marketAuthority := addrs.authority key, closeMarketAdmin := 3, oracleA := 0, baseMint := base,
              quoteMint := quote, baseVault := addrs.vault (addrs.authority key) base,
              quoteVault := addrs.vault (addrs.authority key) quote }

def wrun : World → List WOp → R World
  | w, [] => .ok w
  | w, op :: ops => do wrun (← w.step addrs op) ops

theorem wrun_reachable {w w' : World} {ops : List WOp} (hw : WReachable addrs w) (h : wrun w ops = .ok w') : WReachable addrs w' := by
  induction ops generalizing w with
  | nil => injection h with h; rwa [← h]
  | cons op ops ih =>
    unfold wrun at h
    cases h1 : w.step addrs op with
    | error e => rw [h1] at h; cases h
    | ok w1 => rw [h1] at h; exact ih (.step w w1 op hw h1) h

theorem wempty_reachable : WReachable addrs wempty := by
  refine .init _ _ (fun k => ?_) (fun k => ?_)
  swap
  · exact ⟨(by decide : (0 : Int) ≤ 1000000), (by decide : (1000000 : Int) ≤ u64Max)⟩
  unfold wtokens
  split
  · exact ⟨(by decide : (0 : Int) ≤ 1000000), (by decide : (1000000 : Int) ≤ u64Max)⟩
  · exact ⟨(by decide : (0 : Int) ≤ 0), (by decide : (0 : Int) ≤ u64Max)⟩

theorem wexec_spec {ops : List WOp} {p : World → Bool} (h : okAnd (wrun wempty ops) p = true) :
    ∃ w, WReachable addrs w ∧ p w = true := by
  obtain ⟨w, h1, h2⟩ := okAnd_spec h
  exact ⟨w, wrun_reachable wempty_reachable h1, h2⟩

/-- Trader `p` places an order from the open orders account with number `n`. -/
def wplace (k p n : Nat) (side : Side) (price qty : Int) (token : Nat) : WOp :=
  .market k (.placeOrder
    { signer := p, ooKey := addrs.ooAddr p n, admin := 0, userToken := 100 * p + token, now := 1000, oracle := none, rem := [] }
    (limitOrder side price qty n))

/-- Two markets 15 (mint 1 against 2) and 19 (mint 3 against 2).  Trader 3 has accounts in both and has closed another; trader 7 has
one in the first and takes the offer of trader 3 there. -/
def wops : List WOp :=
  [.createMarket (wargs 15 1 2) 0, .createMarket (wargs 19 3 2) 0, .createIndexer 3, .createIndexer 7, .createIndexer 11,
   .createOO 15 3 0, .createOO 15 3 0, .createOO 19 3 0, .createOO 15 7 0,
   wplace 15 3 1 .ask 1010 5 1, wplace 19 3 3 .ask 20 4 3,
   .closeOO (addrs.ooAddr 3 2) 3, wplace 15 7 1 .bid 1010 2 2]

end OB.Scenario
