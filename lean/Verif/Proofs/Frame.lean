import Mathlib.Algebra.BigOperators.Group.Finset.Basic
import Mathlib.Algebra.Order.Ring.Int
import Verif.Spec.Instr
import Verif.Proofs.Exit
/-! What one instruction does to token accounts and lamports: finitely many change, only permitted ones are debited, and the total
is kept. -/
namespace OB
open Spec

/-- The balance of an account counted in one mint. -/
def TokenAcct.of (m : Pubkey) (t : TokenAcct) : Int := if t.mint = m then t.amount else 0

/-- Changes of token accounts; accounts satisfying `P` may be debited. -/
structure TFrame (P : Pubkey → Pubkey → Prop) (t t' : Tokens) : Prop where
  touched : ∃ F : Finset Pubkey, (∀ i, i ∉ F → t' i = t i) ∧ ∀ m, ∑ i ∈ F, ((t' i).of m - (t i).of m) = 0
  same : ∀ i, (t' i).owner = (t i).owner ∧ (t' i).mint = (t i).mint
  debit : ∀ i, (t' i).amount < (t i).amount → P i (t i).owner
  range : (∀ i, inU64 (t i).amount) → ∀ i, inU64 (t' i).amount

theorem TFrame.refl (P : Pubkey → Pubkey → Prop) (t : Tokens) : TFrame P t t :=
  ⟨⟨∅, fun _ _ => rfl, fun _ => rfl⟩, fun _ => ⟨rfl, rfl⟩, fun i h => absurd h (by omega), id⟩

theorem TFrame.trans {P : Pubkey → Pubkey → Prop} {t1 t2 t3 : Tokens} (h1 : TFrame P t1 t2) (h2 : TFrame P t2 t3) : TFrame P t1 t3 := by
  obtain ⟨F1, a1, b1⟩ := h1.touched
  obtain ⟨F2, a2, b2⟩ := h2.touched
  refine ⟨⟨F1 ∪ F2, fun i hi => ?_, fun m => ?_⟩, fun i => ?_, fun i hi => ?_, fun h => h2.range (h1.range h)⟩
  · simp only [Finset.mem_union, not_or] at hi
    rw [a2 i hi.2, a1 i hi.1]
  · have e1 : ∑ i ∈ F1 ∪ F2, ((t2 i).of m - (t1 i).of m) = 0 := by
      rw [← b1 m]
      symm
      exact Finset.sum_subset Finset.subset_union_left (fun i _ hi => by rw [a1 i hi]; omega)
    have e2 : ∑ i ∈ F1 ∪ F2, ((t3 i).of m - (t2 i).of m) = 0 := by
      rw [← b2 m]
      symm
      exact Finset.sum_subset Finset.subset_union_right (fun i _ hi => by rw [a2 i hi]; omega)
    have e3 : ∑ i ∈ F1 ∪ F2, ((t3 i).of m - (t1 i).of m) =
        ∑ i ∈ F1 ∪ F2, (((t3 i).of m - (t2 i).of m) + ((t2 i).of m - (t1 i).of m)) :=
      Finset.sum_congr rfl (fun i _ => by omega)
    rw [e3, Finset.sum_add_distrib, e1, e2]; rfl
  · exact ⟨(h2.same i).1.trans (h1.same i).1, (h2.same i).2.trans (h1.same i).2⟩
  · by_cases c : (t2 i).amount < (t1 i).amount
    · exact h1.debit i c
    · have := h2.debit i (by omega)
      rw [(h1.same i).1] at this; exact this

theorem tokenTransfer_frame {P : Pubkey → Pubkey → Prop} {t t' : Tokens} {amt : Int} {src dst auth : Pubkey}
    (h : tokenTransfer t amt src dst auth = .ok t') (hp : P src auth) : TFrame P t t' := by
  rcases tokenTransfer_inv h with ⟨h1, rfl⟩ | ⟨h1, h2, h3, h4, ⟨rfl, rfl⟩ | ⟨h5, h6, e⟩⟩
  · exact .refl _ _
  · exact .refl _ _
  · have sp := fun i => tokenTransfer_spec h (by omega) i
    refine ⟨⟨{src, dst}, fun i hi => ?_, fun m => ?_⟩, fun i => ⟨(sp i).1, (sp i).2.1⟩, fun i hi => ?_, fun hr i => ?_⟩
    · simp only [Finset.mem_insert, Finset.mem_singleton, not_or] at hi
      rw [e]; simp only [Tokens.setAmount, if_neg hi.1, if_neg hi.2]
    · rw [Finset.sum_pair h5]
      unfold TokenAcct.of
      rw [(sp src).2.1, (sp dst).2.1, (sp src).2.2, (sp dst).2.2, h3, if_neg h5, if_neg (Ne.symm h5), if_pos rfl, if_pos rfl]
      split <;> omega
    · have := (sp i).2.2
      by_cases c : i = src
      · subst c; rw [h4]; exact hp
      · rw [if_neg c] at this
        by_cases d : i = dst
        · rw [if_pos d] at this; omega
        · rw [if_neg d] at this; omega
    · have := (sp i).2.2
      unfold inU64 at hr h6 ⊢
      have hi := hr i
      by_cases c : i = src
      · subst c; rw [if_pos rfl, if_neg h5] at this; omega
      · rw [if_neg c] at this
        by_cases d : i = dst
        · subst d; rw [if_pos rfl] at this; omega
        · rw [if_neg d] at this; omega

/-- Changes of lamport balances; accounts satisfying `P` may be debited, those satisfying `Q` credited. -/
structure LamFrame (P Q : Pubkey → Prop) (l l' : Lamports) : Prop where
  touched : ∃ F : Finset Pubkey, (∀ i, i ∉ F → l' i = l i) ∧ ∑ i ∈ F, (l' i - l i) = 0
  debit : ∀ i, l' i < l i → P i
  credit : ∀ i, l i < l' i → Q i
  range : (∀ i, inU64 (l i)) → ∀ i, inU64 (l' i)

theorem LamFrame.refl (P Q : Pubkey → Prop) (l : Lamports) : LamFrame P Q l l :=
  ⟨⟨∅, fun _ _ => rfl, rfl⟩, fun i h => absurd h (by omega), fun i h => absurd h (by omega), id⟩

theorem systemTransfer_frame {P Q : Pubkey → Prop} {l l' : Lamports} {amt : Int} {src dst : Pubkey}
    (h : systemTransfer l amt src dst = .ok l') (hp : P src) (hq : Q dst) : LamFrame P Q l l' := by
  unfold systemTransfer at h
  split at h
  · simp only [bind_ok, req_ok] at h
    obtain ⟨_, h1, h⟩ := h
    split at h
    · simp only [pure_ok] at h
      subst h; exact .refl _ _ _
    · rename_i hpos he
      simp only [bind_ok, ckU64_ok, pure_ok] at h
      obtain ⟨_, ⟨hu, rfl⟩, rfl⟩ := h
      refine ⟨⟨{src, dst}, fun i hi => ?_, ?_⟩, fun i hi => ?_, fun i hi => ?_, fun hr i => ?_⟩
      · simp only [Finset.mem_insert, Finset.mem_singleton, not_or] at hi
        simp only [if_neg hi.1, if_neg hi.2]
      · rw [Finset.sum_pair he]
        simp only [if_neg he, if_true]; omega
      · by_cases d : i = dst
        · simp only [if_pos d] at hi; subst d; omega
        · by_cases c : i = src
          · subst c; exact hp
          · simp only [if_neg d, if_neg c] at hi; omega
      · by_cases d : i = dst
        · subst d; exact hq
        · by_cases c : i = src
          · simp only [if_neg d, if_pos c] at hi; subst c; omega
          · simp only [if_neg d, if_neg c] at hi; omega
      · have hi := hr i
        have hs := hr src
        unfold inU64 at *
        by_cases d : i = dst
        · simp only [if_pos d]; omega
        · by_cases c : i = src
          · simp only [if_neg d, if_pos c]; omega
          · simp only [if_neg d, if_neg c]; omega
  · injection h with h
    subst h; exact .refl _ _ _

/-- What an instruction of the program may debit. -/
def MayDebit (s : State) (op : Op) (i o : Pubkey) : Prop :=
  o ∈ signers op ∨ (withdraws op = true ∧ (i = s.g.market.marketBaseVault ∨ i = s.g.market.marketQuoteVault))

structure StepFrame (s s' : State) (op : Op) : Prop where
  tokens : TFrame (MayDebit s op) s.tokens s'.tokens
  lamports : LamFrame (fun i => i ∈ signers op) (fun i => i = s.marketKey) s.lamports s'.lamports

theorem StepFrame.same {s s' : State} {op : Op} (h1 : s'.tokens = s.tokens) (h2 : s'.lamports = s.lamports) : StepFrame s s' op := by
  refine ⟨?_, ?_⟩
  · rw [h1]; exact .refl _ _
  · rw [h2]; exact .refl _ _ _

theorem cancelAllFor_env {s s' : State} {k : Pubkey} {limit : Nat} {so : Option Side} {co : Option Nat} {q : Int}
    (h : cancelAllFor s k limit so co = .ok (q, s')) :
    s'.tokens = s.tokens ∧ s'.lamports = s.lamports ∧ s'.closed = s.closed ∧ s'.g.market = s.g.market := by
  unfold cancelAllFor at h
  simp only [bind_ok, pure_ok] at h
  obtain ⟨_, _, _, _, h⟩ := h
  injection h with _ h; rw [← h]; exact ⟨rfl, rfl, rfl, rfl⟩

theorem Asks.signer {s : State} {op : Op} {c : PlaceCtx} {o : Order} {l : Nat} (h : Asks s op c o l) : c.signer ∈ signers op := by
  cases h <;> exact List.mem_cons_self

theorem AsksEdit.signer {s : State} {op : Op} {c : PlaceCtx} {n : Nat} {e : Int} {o : Order} {l : Nat} (h : AsksEdit s op c n e o l) :
    c.signer ∈ signers op := by
  cases h <;> exact List.mem_cons_self

theorem PlaceRun.frame {s s1 s' : State} {c : PlaceCtx} {order : Order} {limit : Nat} {r : OrderResult} {op : Op}
    (P : PlaceRun s1 c order limit r s') (hs : c.signer ∈ signers op) (ht : s1.tokens = s.tokens) (hl : s1.lamports = s.lamports) :
    StepFrame s s' op := by
  have h := P.transfer
  rw [ht] at h
  refine ⟨?_, ?_⟩
  · rw [P.res]; exact tokenTransfer_frame h (.inl hs)
  · rw [P.res]; show LamFrame _ _ _ s1.lamports; rw [hl]; exact .refl _ _ _

theorem SettleRun.frame {s s' : State} {c : SettleCtx} {op : Op} (P : SettleRun s c s') (hs : c.penaltyPayer ∈ signers op)
    (hw : withdraws op = true) :
    StepFrame s s' op := by
  have vb : MayDebit s op s.g.market.marketBaseVault s.g.market.marketAuthority := .inr ⟨hw, .inl rfl⟩
  have vq : MayDebit s op s.g.market.marketQuoteVault s.g.market.marketAuthority := .inr ⟨hw, .inr rfl⟩
  refine ⟨?_, ?_⟩
  · rw [P.res]
    refine TFrame.trans (TFrame.trans ?_ (tokenTransfer_frame P.tr2 vb)) (tokenTransfer_frame P.tr3 vq)
    rcases P.tr1 with ⟨k, _, h⟩ | ⟨_, h⟩
    · exact tokenTransfer_frame h vq
    · rw [h]; exact .refl _ _
  · rw [P.res]
    have h := P.penalty
    show LamFrame _ _ _ P.lamports
    split at h
    · simp only [bind_ok] at h
      obtain ⟨_, _, h⟩ := h
      exact systemTransfer_frame h hs rfl
    · injection h with h; rw [← h]; exact .refl _ _ _

theorem step_frame {s s' : State} {op : Op} (hi : Inv s) (h : step s op = .ok s') (he : external op = false) : StepFrame s s' op := by
  cases step_run h with
  | idle _ _ _ _ h => rw [h]; exact .same rfl rfl
  | place op c o l r hop P => exact P.frame hop.signer rfl rfl
  | edit op c client e o l r hop P =>
    obtain ⟨q, s1, h1, _, h2⟩ := P.run
    obtain ⟨_, h3⟩ := cancelByClientId_inv h1
    obtain ⟨k1, k2, _, _⟩ := cancelAllFor_env h3
    rcases h2 with ⟨e1, e2, r1, _, h4⟩ | ⟨_, _, rfl⟩
    · obtain ⟨P⟩ := placeOrder_inv h4
      exact P.frame hop.signer k1 k2
    · exact .same k1 k2
  | multi c cancel t bids asks l now bs as rs hn hb ha P =>
    have hs : c.signer ∈ signers (.placeOrders c cancel t bids asks l) := List.mem_cons_self
    refine ⟨?_, ?_⟩
    · rw [P.res]
      exact (tokenTransfer_frame P.tr1 (.inl hs)).trans (tokenTransfer_frame P.tr2 (.inl hs))
    · rw [P.res]; exact .refl _ _ _
  | take c a o r ho P =>
    have hs : c.signer ∈ signers (.placeTakeOrder c a) := List.mem_cons_self
    have hp : c.penaltyPayer ∈ signers (.placeTakeOrder c a) := List.mem_cons_of_mem _ List.mem_cons_self
    refine ⟨?_, ?_⟩
    · rw [P.res]
      refine (tokenTransfer_frame P.tr1 (.inl hs)).trans (tokenTransfer_frame P.tr2 ?_)
      cases o.side
      · exact .inr ⟨rfl, .inl rfl⟩
      · exact .inr ⟨rfl, .inr rfl⟩
    · rw [P.res]
      have h := P.penalty
      show LamFrame _ _ _ P.lamports
      split at h
      · exact systemTransfer_frame h hp rfl
      · injection h with h; rw [← h]; exact .refl _ _ _
  | consume op admin limit slots rem hop h =>
    unfold consumeEvents at h
    simp only [bind_ok, pure_ok] at h
    obtain ⟨_, _, _, _, _, _, _, _, h⟩ := h
    rw [← h]; exact .same rfl rfl
  | cancelOne signer k id h =>
    obtain ⟨_, _, _, _, _, _, _, _, h1, _, _⟩ := cancelOrderIx_res hi h
    rw [h1]; exact .same rfl rfl
  | cancel _ _ _ _ _ _ _ _ _ _ h => exact .same (cancelAllFor_env h).1 (cancelAllFor_env h).2.1
  | prune _ _ _ _ _ _ _ h1 => exact .same (cancelAllFor_env h1).1 (cancelAllFor_env h1).2.1
  | deposit op signer k ub uq now b q b0 q0 hop P =>
    have hs : signer ∈ signers op := by rcases hop with rfl | rfl <;> exact List.mem_cons_self
    refine ⟨?_, ?_⟩
    · rw [P.res]
      exact (tokenTransfer_frame P.tr1 (.inl hs)).trans (tokenTransfer_frame P.tr2 (.inl hs))
    · rw [P.res]; exact .refl _ _ _
  | settle c _ P => exact P.frame (by simp [signers]) rfl
  | settleExpired _ c _ _ P => exact P.frame (by simp [signers]) rfl
  | sweep admin receiver h1 =>
    obtain ⟨_, _, _, t, h4, h⟩ := sweepFees_inv h1
    refine ⟨?_, ?_⟩
    · rw [h]; exact tokenTransfer_frame h4 (.inr ⟨rfl, .inr rfl⟩)
    · rw [h]; exact .refl _ _ _
  | setExpired _ _ _ _ res => rw [res]; exact .same rfl rfl
  | close _ _ P => rw [P.res]; exact .same rfl rfl
  | createOO _ _ _ _ _ _ res => rw [res]; exact .same rfl rfl
  | closeOO _ _ _ _ _ _ res => rw [res]; exact .same rfl rfl
  | delegate _ _ _ _ _ _ res => rw [res]; exact .same rfl rfl
  | token _ _ _ _ res => cases he
  | lamports _ _ _ _ res => cases he

end OB
