import Verif.Model.TsClose
import Verif.Props.C54_Index
/-!
C115  Closing accounts through the TypeScript library.

An owner, from any wallet, can close an account that holds nothing and then the indexer that lists nothing any more, getting the rent of both
back.  It holds for accounts.  For indexers the library names the wrong accounts, so that no indexer can be closed through it.
-/
namespace OB
open Spec TsClose

/-- Closing an account that holds nothing succeeds, whoever's wallet sends it, and the account is gone and off the index; the rent goes to the
wallet unless another receiver is named. -/
theorem C115_account {A : Addresses} {idx : Pubkey → Pubkey} {w : World} (hr : WReachable A w) {k x : Pubkey} {a : OOA} (hx : LivesIn w k x a)
    (hs : A.isPda a.owner = false) (he : HoldsNothing a) (hp : a.position.penaltyHeapCount = 0) (wallet : Pubkey) (dest : Option Pubkey)
    (same : Bool) (hsame : same = true → a.owner = wallet) :
    ((closeAccountIx idx wallet a.owner dest none same).dest = match dest with | none => wallet | some d => d) ∧
    ∃ w' ix, runCloseAccount A idx w wallet x (closeAccountIx idx wallet a.owner dest none same) = .ok w' ∧ w.indexers a.owner = some ix ∧
      (∀ k' a', ¬ LivesIn w' k' x a') ∧ w'.indexers a.owner = some { ix with addresses := ix.addresses.erase x } := by
  refine ⟨by cases dest <;> rfl, ?_⟩
  obtain ⟨w', ix, h1, h2, h3, h4⟩ := C54_close hr hx hs he hp
  refine ⟨w', ix, ?_, h1, h3, h4⟩
  simp only [runCloseAccount, closeAccountIx, bind_ok]
  refine ⟨(), req_ok.2 ?_, (), req_ok.2 rfl, h2⟩
  cases same with
  | true => simp [hsame rfl]
  | false => simp

/-- Another indexer than that of the owner is refused. -/
theorem C115_wrong_indexer {A : Addresses} {idx : Pubkey → Pubkey} {w : World} {wallet owner x i : Pubkey} {dest : Option Pubkey} {same : Bool}
    (h : i ≠ idx owner) : ∀ w', runCloseAccount A idx w wallet x (closeAccountIx idx wallet owner dest (some i) same) ≠ .ok w' := by
  intro w' hw
  simp only [runCloseAccount, closeAccountIx, bind_ok] at hw
  obtain ⟨_, _, _, h', _⟩ := hw
  exact h (req_ok.1 h')

/-- The full claim for an indexer: if the owner has no accounts left, the instruction closes it. -/
def ClosesIndexer (A : Addresses) (idx : Pubkey → Pubkey) (build : (owner wallet : Pubkey) → Built) : Prop :=
  ∀ w owner wallet ix, WReachable A w → w.indexers owner = some ix → A.isPda owner = false → (∀ k x a, LivesIn w k x a → a.owner ≠ owner) →
    ∃ w', runCloseIndexer A idx w wallet (build owner wallet) = .ok w' ∧ w'.indexers owner = none

/-- What is missing in the code: with the derived indexer, whatever receives the rent, it would hold. -/
theorem C115_indexer_partial (A : Addresses) (idx : Pubkey → Pubkey) (dest : Pubkey) :
    ClosesIndexer A idx (fun owner _ => { owner, indexer := idx owner, dest, signers := [owner] }) := by
  intro w owner wallet ix hr hx hs hno
  obtain ⟨w', hw⟩ := (C54_close_index hr hx hs).2 hno
  refine ⟨w', ?_, ?_⟩
  · simp only [runCloseIndexer, bind_ok]
    exact ⟨(), req_ok.2 (by simp), (), req_ok.2 trivial, hw⟩
  · obtain ⟨_, _, _, _, h⟩ := closeIndexer_inv (w := w) (w' := w') hw
    subst h
    simp [World.setIndexer]

/-- The instruction of the library is refused whenever the asks of the market are not the indexer, which they are not: they hold a side of
the book.  It does not help to give the indexer. -/
theorem C115_indexer_refused {A : Addresses} {idx : Pubkey → Pubkey} {w : World} {wallet owner asks bids : Pubkey} {i : Option Pubkey} {same : Bool}
    (h : asks ≠ idx owner) : ∀ w', runCloseIndexer A idx w wallet (closeIndexerIx idx owner asks bids i same) ≠ .ok w' := by
  intro w' hw
  simp only [runCloseIndexer, closeIndexerIx, bind_ok] at hw
  obtain ⟨_, _, _, h', _⟩ := hw
  exact h (req_ok.1 h')

section Scenario
open Scenario

/-- So the claim is false for it: trader 11 has an indexer and no accounts. -/
theorem C115_indexer_false (asks bids : Pubkey) (i : Option Pubkey) (same : Bool) (idx : Pubkey → Pubkey) (h : asks ≠ idx 11) :
    ¬ ClosesIndexer addrs idx (fun owner _ => closeIndexerIx idx owner asks bids i same) := by
  intro hc
  obtain ⟨w, h1, h2⟩ := wexec_spec (ops := wops) (p := fun w => (w.indexers 11).any (fun ix => ix.addresses = [])) (by decide +kernel)
  obtain ⟨ix, ha, hb⟩ := Option.any_eq_true _ _ |>.mp h2
  have hb : ix.addresses = [] := of_decide_eq_true hb
  obtain ⟨w', hw', _⟩ := hc w 11 11 ix h1 ha (by decide) (fun k x a hl ho => by
    have := ((C54_exact h1 ha).2.2 x).2 ⟨k, a, hl, ho⟩
    rw [hb] at this
    cases this)
  exact C115_indexer_refused h w' hw'

/-- An account that meets the hypotheses of `C115_account`, closed from the wallet 7 of somebody else. -/
example : ∃ w a w', WReachable addrs w ∧ LivesIn w 15 (addrs.ooAddr 3 2) a ∧ a.owner = 3 ∧ a.position.isEmpty = true ∧
    runCloseAccount addrs (fun o => 4 * o + 2) w 7 (addrs.ooAddr 3 2) (closeAccountIx (fun o => 4 * o + 2) 7 3 none none false) = .ok w' := by
  obtain ⟨w, h1, h2⟩ := wexec_spec (ops := wops.take 11) (p := fun w =>
    (partGet w 15 (addrs.ooAddr 3 2)).any (fun a => decide (a.owner = 3 ∧ a.position.isEmpty = true)) &&
    okAnd (runCloseAccount addrs (fun o => 4 * o + 2) w 7 (addrs.ooAddr 3 2) (closeAccountIx (fun o => 4 * o + 2) 7 3 none none false))
      (fun _ => true)) (by decide +kernel)
  simp only [Bool.and_eq_true] at h2
  obtain ⟨a, ha, hb⟩ := Option.any_eq_true _ _ |>.mp h2.1
  simp only [decide_eq_true_eq] at hb
  obtain ⟨w', hw', _⟩ := okAnd_spec h2.2
  exact ⟨w, a, w', h1, livesIn_of ha, hb.1, hb.2, hw'⟩

end Scenario

end OB
