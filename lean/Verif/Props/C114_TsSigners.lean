import Verif.Model.TsHelpers
/-!
C114  The functions of the TypeScript library that send transactions name the signers that are needed.

Each is stated as an equivalence: when the node and the wallet do what is asked of them, the function succeeds in sending exactly if the
condition on the keys holds.  The library hands over one signer too many or too few in the other cases.
-/
namespace OB
open TsSend

/-- A node, not a `banksClient`, that takes and executes every transaction with all its signatures, and a wallet that signs. -/
structure Willing (env : TsSend.Env) : Prop where
  node : env.banks = false
  signs : env.walletSigns = true
  takes : ∀ tx, env.takes tx = true
  ended : ∀ tx k, env.ended tx k = some none

/-- The function gets its transaction through: with a client of any fee and commitment the call returns the signature of a transaction with
these instructions, and nothing else but a price of compute units. -/
def Succeeds (wallet : Pubkey) (x : Sending) : Prop :=
  ∀ (env : TsSend.Env) (c : Client), Willing env → c.wallet = wallet →
    ∃ tx, c.sendAndConfirm env x.ixs { additionalSigners := x.signers } = .signature tx ∧
      tx.ixs.filter (fun ix => match ix with | .call _ _ => true | .unitPrice _ => false) = x.ixs

/-- The function never gets its transaction through, whatever the node does. -/
def NeverSent (wallet : Pubkey) (x : Sending) : Prop :=
  ∀ (env : TsSend.Env) (c : Client), env.banks = false → c.wallet = wallet → ∀ tx,
    c.sendAndConfirm env x.ixs { additionalSigners := x.signers } ≠ .signature tx ∧
    c.sendAndConfirm env x.ixs { additionalSigners := x.signers } ≠ .unconfirmed tx ∧
    ∀ e, c.sendAndConfirm env x.ixs { additionalSigners := x.signers } ≠ .failed tx e

/-- The signers handed over are needed, and all that are needed are there. -/
def SignersExact (wallet : Nat) (x : Sending) : Prop :=
  (∀ k ∈ x.signers, k = wallet ∨ ∃ ix ∈ x.ixs, k ∈ ix.signers) ∧ (∀ ix ∈ x.ixs, ∀ k ∈ ix.signers, k = wallet ∨ k ∈ x.signers)

private theorem withFee_val (n : Nat) (ixs : List Ix) : ∃ l, withFee (.val n) ixs = some l ∧
    (∀ k, k ∈ l.flatMap Ix.signers ↔ k ∈ ixs.flatMap Ix.signers) ∧ (l = ixs ∨ l = .unitPrice n :: ixs) := by
  cases n with
  | zero => exact ⟨_, rfl, fun _ => Iff.rfl, .inl rfl⟩
  | succ n => exact ⟨_, rfl, fun k => by simp [Ix.signers], .inr rfl⟩

private theorem exact_iff {wallet : Nat} {x : Sending} {l : List Ix} (hm : ∀ k, k ∈ l.flatMap Ix.signers ↔ k ∈ x.ixs.flatMap Ix.signers) :
    SignersExact wallet x ↔ (x.signers.all fun k => (required wallet l).contains k) = true ∧
      ((required wallet l).all fun k => (x.signers ++ [wallet]).contains k) = true := by
  simp only [List.all_eq_true, List.contains_iff_mem, required, List.mem_cons, hm, List.mem_append, List.not_mem_nil, or_false, List.mem_flatMap]
  unfold SignersExact
  constructor
  · rintro ⟨h1, h2⟩
    refine ⟨h1, ?_⟩
    rintro k (rfl | ⟨ix, hix, hk⟩)
    · exact .inr rfl
    · exact (h2 ix hix k hk).symm
  · rintro ⟨h1, h2⟩
    exact ⟨h1, fun ix hix k hk => (h2 k (.inr ⟨ix, hix, hk⟩)).symm⟩

theorem succeeds_of_exact {wallet : Pubkey} {x : Sending} (hx : SignersExact wallet x) (hc : ∀ ix ∈ x.ixs, ∃ s b, ix = .call s b) : Succeeds wallet x := by
  rintro env c he rfl
  obtain ⟨l, hl, hm, hi⟩ := withFee_val c.prioritizationFee x.ixs
  obtain ⟨h1, h2⟩ := (exact_iff hm).1 hx
  refine ⟨⟨c.wallet, l, x.signers ++ [c.wallet]⟩, ?_, ?_⟩
  · simp only [Client.sendAndConfirm, sendTransaction, he.node, Option.getD_none, hl, h1, h2, he.signs, he.takes, he.ended, Bool.and_self,
      if_true, Bool.false_eq_true, if_false]
  · have : x.ixs.filter (fun ix => match ix with | .call _ _ => true | .unitPrice _ => false) = x.ixs := by
      rw [List.filter_eq_self]
      intro ix hix
      obtain ⟨s, b, rfl⟩ := hc ix hix
      rfl
    rcases hi with rfl | rfl
    · exact this
    · simpa using this

theorem never_of_not_exact {wallet : Pubkey} {x : Sending} (hx : ¬ SignersExact wallet x) : NeverSent wallet x := by
  rintro env c hb rfl tx
  obtain ⟨l, hl, hm, -⟩ := withFee_val c.prioritizationFee x.ixs
  rw [exact_iff hm] at hx
  simp only [Client.sendAndConfirm, sendTransaction, hb, Option.getD_none, hl, Bool.false_eq_true, if_false]
  by_cases h1 : (x.signers.all fun k => (required c.wallet l).contains k) = true
  · have h2 : ((required c.wallet l).all fun k => (x.signers ++ [c.wallet]).contains k) = false :=
      Bool.eq_false_iff.2 fun h => hx ⟨h1, h⟩
    rw [h2]
    split <;> simp
  · rw [Bool.not_eq_true] at h1
    rw [h1]
    simp

/-- Creating an account for the program and an indexer always succeeds. -/
theorem C114_create (wallet authority address : Pubkey) :
    Succeeds wallet (createProgramAccount authority address) ∧ Succeeds wallet (createOpenOrdersIndexer wallet) := by
  refine ⟨succeeds_of_exact ⟨?_, ?_⟩ ?_, succeeds_of_exact ⟨?_, ?_⟩ ?_⟩ <;> simp [createProgramAccount, createOpenOrdersIndexer, Ix.signers]

/-- `createOpenOrders` succeeds if the key pair given as payer is the wallet or the owner; with any other payer nothing is sent: it is not
the payer of anything, so that its signature is one too many. -/
theorem C114_open_orders_partial (wallet payer owner : Pubkey) (hasIndexer same : Bool) (hs : same = true → owner = payer) :
    (payer = wallet ∨ payer = owner → Succeeds wallet (createOpenOrders wallet payer owner hasIndexer same)) ∧
    (payer ≠ wallet → payer ≠ owner → NeverSent wallet (createOpenOrders wallet payer owner hasIndexer same)) := by
  constructor
  · intro h
    refine succeeds_of_exact ⟨?_, ?_⟩ ?_
    · cases hasIndexer <;> cases same <;> simp [createOpenOrders, Ix.signers] <;> grind
    · cases hasIndexer <;> cases same <;> simp [createOpenOrders, Ix.signers] <;> grind
    · cases hasIndexer <;> simp [createOpenOrders]
  · intro h1 h2
    refine never_of_not_exact fun h => ?_
    have := h.1 payer (by simp [createOpenOrders])
    cases hasIndexer <;> simp [createOpenOrders, Ix.signers, h1, h2] at this

/-- `placeOrder` succeeds in sending exactly on markets without an open orders admin, or if the admin is the wallet or the delegate. -/
theorem C114_place_partial (m : Market) (wallet oo userToken : Pubkey) (args : PlaceOrderArgs) (rem : List Pubkey) (delegate : Option Pubkey) :
    (m.openOrdersAdmin = 0 ∨ m.openOrdersAdmin = wallet ∨ delegate = some m.openOrdersAdmin →
      Succeeds wallet (sendPlaceOrder m wallet oo userToken args rem delegate)) ∧
    (m.openOrdersAdmin ≠ 0 → m.openOrdersAdmin ≠ wallet → delegate ≠ some m.openOrdersAdmin →
      NeverSent wallet (sendPlaceOrder m wallet oo userToken args rem delegate)) := by
  constructor
  · intro h
    refine succeeds_of_exact ⟨?_, ?_⟩ ?_
    · cases delegate <;> simp [sendPlaceOrder, Sent.tsPlaceOrder, Ix.signers]
    · cases delegate <;> simp [sendPlaceOrder, Sent.tsPlaceOrder, Ix.signers, Sent.given] <;> grind
    · simp [sendPlaceOrder]
  · intro h0 h1 h2
    refine never_of_not_exact fun h => ?_
    have := h.2 (.call (Sent.tsPlaceOrder m wallet oo userToken args rem delegate 0 none).signers 0) (by simp [sendPlaceOrder]) m.openOrdersAdmin
      (by simp [Ix.signers, Sent.tsPlaceOrder, Sent.given, h0])
    rcases this with h' | h'
    · exact h1 h'
    · exact h2 (by simpa [sendPlaceOrder] using h')

/-- `cancelOrder` without a delegate succeeds exactly if the wallet is the owner of the account.  With a delegate it never sends anything,
neither from the wallet of the owner (one signer too many) nor from that of the delegate (one too few), unless they are the same key. -/
theorem C114_cancel_partial (a : OOA) (wallet oo : Pubkey) (id : Nat ⊕ Nat) (d : Pubkey) :
    (wallet = a.owner → Succeeds wallet (sendCancelOrder a oo id none)) ∧
    (wallet ≠ a.owner → NeverSent wallet (sendCancelOrder a oo id none)) ∧
    (d = a.owner → Succeeds wallet (sendCancelOrder a oo id (some d))) ∧
    (d ≠ a.owner → NeverSent wallet (sendCancelOrder a oo id (some d))) := by
  have hix : ∀ delegate, (sendCancelOrder a oo id delegate).ixs = [.call [a.owner] 0] := by intro delegate; cases id <;> rfl
  have hs : ∀ delegate, (sendCancelOrder a oo id delegate).signers = delegate.toList := fun _ => rfl
  refine ⟨?_, ?_, ?_, ?_⟩
  · intro h
    refine succeeds_of_exact ⟨?_, ?_⟩ ?_ <;> simp [hix, hs, Ix.signers, h]
  · intro h
    refine never_of_not_exact fun hx => ?_
    have := hx.2 (.call [a.owner] 0) (by simp [hix]) a.owner (by simp [Ix.signers])
    simp only [hs, Option.toList_none, List.not_mem_nil, or_false] at this
    exact h this.symm
  · intro h
    refine succeeds_of_exact ⟨?_, ?_⟩ ?_ <;> simp [hix, hs, Ix.signers, h]
  · intro h
    refine never_of_not_exact fun hx => ?_
    have h1 := hx.1 d (by simp [hs])
    have h2 := hx.2 (.call [a.owner] 0) (by simp [hix]) a.owner (by simp [Ix.signers])
    simp [hix, hs, Ix.signers] at h1 h2
    grind

/-- `cancelAllOrders` succeeds in sending exactly if the wallet is the owner of the account, or the delegate is. -/
theorem C114_cancel_all_partial (a : OOA) (wallet oo ub uq : Pubkey) (referrer delegate : Option Pubkey) (side : Option Side) :
    (wallet = a.owner ∨ delegate = some a.owner → Succeeds wallet (sendCancelAll a wallet oo ub uq referrer delegate side)) ∧
    (wallet ≠ a.owner → delegate ≠ some a.owner → NeverSent wallet (sendCancelAll a wallet oo ub uq referrer delegate side)) := by
  constructor
  · intro h
    refine succeeds_of_exact ⟨?_, ?_⟩ ?_
    · cases delegate <;> cases referrer <;> simp [sendCancelAll, Sent.tsCancelAll, Sent.tsSettleFunds, Ix.signers]
    · cases delegate <;> cases referrer <;> simp [sendCancelAll, Sent.tsCancelAll, Sent.tsSettleFunds, Ix.signers] <;> grind
    · cases referrer <;> simp [sendCancelAll]
  · intro h1 h2
    refine never_of_not_exact fun hx => ?_
    have := hx.2 (.call [a.owner] 0) (by simp [sendCancelAll, Sent.tsCancelAll]) a.owner (by simp [Ix.signers])
    rcases this with h' | h'
    · exact h1 h'.symm
    · exact h2 (by simpa [sendCancelAll] using h')

/-- The full claim, for whoever may use the functions: any payer for a new account, and the owner or the delegate of an account from their own
wallet.  The theorems with the suffix `_partial` say where it holds. -/
def C114_full : Prop :=
  (∀ wallet payer owner hasIndexer, Succeeds wallet (createOpenOrders wallet payer owner hasIndexer false)) ∧
  (∀ m wallet oo userToken args rem delegate, Succeeds wallet (sendPlaceOrder m wallet oo userToken args rem delegate)) ∧
  (∀ (a : OOA) wallet oo id d, wallet = a.owner ∨ wallet = d → Succeeds wallet (sendCancelOrder a oo id (some d))) ∧
  (∀ (a : OOA) wallet oo ub uq referrer d side, wallet = a.owner ∨ wallet = d →
    Succeeds wallet (sendCancelAll a wallet oo ub uq referrer (some d) side))

private theorem not_both {wallet : Pubkey} {x : Sending} (h : Succeeds wallet x) (hn : NeverSent wallet x) : False := by
  obtain ⟨tx, h, -⟩ := h ⟨false, true, fun _ => true, fun _ _ => some none⟩ ⟨wallet, 0, .processed⟩ ⟨rfl, rfl, fun _ => rfl, fun _ _ => rfl⟩ rfl
  exact (hn _ ⟨wallet, 0, .processed⟩ rfl rfl tx).1 h

/-- It fails in its first part, and for the cancellation of an order with a delegate from either wallet. -/
theorem C114_false : ¬ C114_full ∧
    (∀ (a : OOA) oo id d, d ≠ a.owner → ¬ Succeeds a.owner (sendCancelOrder a oo id (some d)) ∧ ¬ Succeeds d (sendCancelOrder a oo id (some d))) := by
  refine ⟨fun h => ?_, fun a oo id d hd => ⟨fun h => ?_, fun h => ?_⟩⟩
  · exact not_both (h.1 5 9 7 false) ((C114_open_orders_partial 5 9 7 false false (by simp)).2 (by decide) (by decide))
  · exact not_both h ((C114_cancel_partial a a.owner oo id d).2.2.2 hd)
  · exact not_both h ((C114_cancel_partial a d oo id d).2.2.2 hd)

/-! Cases that meet the hypotheses. -/

example : Willing ⟨false, true, fun _ => true, fun _ _ => some none⟩ := ⟨rfl, rfl, fun _ => rfl, fun _ _ => rfl⟩
/-- the wallet 5 opens an account for the owner 7, who signs; a third payer 9 stops it -/
example : (Client.new 5 .undefined .undefined .undefined).sendAndConfirm ⟨false, true, fun _ => true, fun _ _ => some none⟩
    (createOpenOrders 5 7 7 false true).ixs { additionalSigners := (createOpenOrders 5 7 7 false true).signers } =
    .signature ⟨5, [.call [5, 7] 0, .call [5, 7] 1], [7, 5]⟩ := by decide
example : (Client.new 5 .undefined .undefined .undefined).sendAndConfirm ⟨false, true, fun _ => true, fun _ _ => some none⟩
    (createOpenOrders 5 9 7 false false).ixs { additionalSigners := (createOpenOrders 5 9 7 false false).signers } = .threw := by decide

end OB
