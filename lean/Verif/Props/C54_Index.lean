import Verif.Spec.World
import Verif.Proofs.World
import Verif.Props.WorldScenario
import Verif.Props.C47_Closable
/-!
C54 — The index of an owner lists exactly the owner's open orders accounts.
-/
namespace OB
open Spec

theorem ownerAt_iff {w : World} {k x o : Pubkey} : w.ownerAt k x = some o ↔ ∃ a, LivesIn w k x a ∧ a.owner = o := by
  unfold World.ownerAt LivesIn
  cases h : w.markets k with
  | none => simp
  | some p => simp [Part.ownerOf]

/-- The index has no duplicates and at most 256 entries, and an address is in it exactly if there is an open orders account of this
owner at it, in whichever market. -/
theorem C54_exact {A : Addresses} {w : World} (hr : WReachable A w) {o : Pubkey} {ix : Indexer} (hx : w.indexers o = some ix) :
    ix.addresses.Nodup ∧ ix.addresses.length ≤ 256 ∧ ∀ x, x ∈ ix.addresses ↔ ∃ k a, LivesIn w k x a ∧ a.owner = o := by
  obtain ⟨h1, h2, _, h3⟩ := (wreachable_WInv hr).index o ix hx
  exact ⟨h1, h2, fun x => (h3 x).trans (exists_congr (fun k => ownerAt_iff))⟩

/-- Whoever has an open orders account has an indexer, and the account is at an address derived from its owner, so that nobody else's
account can be there, and from the number of an account created through this indexer. -/
theorem C54_address {A : Addresses} {w : World} (hr : WReachable A w) {k x : Pubkey} {a : OOA} (hx : LivesIn w k x a) :
    ∃ ix n, w.indexers a.owner = some ix ∧ x ∈ ix.addresses ∧ 1 ≤ n ∧ n ≤ ix.createdCounter ∧ x = A.ooAddr a.owner n := by
  have h := wreachable_WInv hr
  obtain ⟨ix, n, h1, h2, h3, h4⟩ := h.addr k x a.owner (ownerAt_iff.mpr ⟨a, hx, rfl⟩)
  exact ⟨ix, n, h1, ((h.index _ ix h1).2.2.2 x).mpr ⟨k, ownerAt_iff.mpr ⟨a, hx, rfl⟩⟩, h2, h3, h4⟩

/-- An account belongs to one market only. -/
theorem C54_one_market {A : Addresses} {w : World} (hr : WReachable A w) {k k' x : Pubkey} {a a' : OOA} (h1 : LivesIn w k x a)
    (h2 : LivesIn w k' x a') : k = k' ∧ a = a' := by
  have h := wreachable_WInv hr
  have e1 := (h.home x k).mpr (by rw [ownerAt_iff.mpr ⟨a, h1, rfl⟩]; rfl)
  have e2 := (h.home x k').mpr (by rw [ownerAt_iff.mpr ⟨a', h2, rfl⟩]; rfl)
  rw [e1] at e2; injection e2 with e2; subst e2
  obtain ⟨p, p1, p2⟩ := h1
  obtain ⟨q, q1, q2⟩ := h2
  rw [p1] at q1; injection q1 with q1; subst q1
  rw [p2] at q2; injection q2 with q2
  exact ⟨rfl, q2⟩

/-- An owner whose index has room gets an account in any open market, at an address that was not in use, and the account is in the
index afterwards.  `init` cannot fail because the address is taken, and no account is overwritten. -/
theorem C54_create {A : Addresses} {w : World} (hr : WReachable A w) {o k d : Pubkey} {ix : Indexer} {p : Part}
    (hx : w.indexers o = some ix) (hroom : ix.addresses.length < 256) (hn : ix.createdCounter + 1 < 4294967296)
    (hs : A.isPda o = false) (hp : w.markets k = some p) (hopen : p.closed = false) :
    let x := A.ooAddr o (ix.createdCounter + 1)
    (∀ k' a, ¬ LivesIn w k' x a) ∧
    ∃ w', w.step A (.createOO k o d) = .ok w' ∧ LivesIn w' k x (OOA.fresh o d) ∧
      w'.indexers o = some { createdCounter := ix.createdCounter + 1, addresses := ix.addresses ++ [x] } ∧
      (∀ o', o' ≠ o → w'.indexers o' = w.indexers o') ∧
      ∀ k' x' a', x' ≠ x → (LivesIn w' k' x' a' ↔ LivesIn w k' x' a') := by
  intro x
  have h := wreachable_WInv hr
  have hfresh : ∀ j, w.ownerAt j x = none := h.fresh hx
  have hno : ∀ k' a, ¬ LivesIn w k' x a := fun k' a hl => by
    have := ownerAt_iff.mpr ⟨a, hl, rfl⟩
    rw [hfresh k'] at this; cases this
  have hacct : p.g.accts.get? x = none := by
    cases e : p.g.accts.get? x with
    | none => rfl
    | some a => exact absurd ⟨p, hp, e⟩ (hno k a)
  have hhome : w.home x = none := by
    cases e : w.home x with
    | none => rfl
    | some j =>
      have := (h.home x j).mp e
      rw [hfresh j] at this; cases this
  have hauth : o ≠ p.g.market.marketAuthority := fun e => by
    rw [e, (h.mkt k p hp).2.1, A.authority_pda] at hs; cases hs
  refine ⟨hno, ?_⟩
  obtain ⟨s1, hs1, hc⟩ : ∃ s1 : State, s1.g.accts = p.g.accts ++ [(x, OOA.fresh o d)] ∧ createOO (w.state k p) x o d = .ok s1 := by
    refine ⟨{ w.state k p with g := { p.g with accts := p.g.accts ++ [(x, OOA.fresh o d)] } }, rfl, ?_⟩
    unfold createOO State.open? OB.signerOk
    simp only [bind_ok, req_ok, pure_ok]
    exact ⟨(), hopen, (), hauth, (), hacct, rfl⟩
  have hh : (w.home (A.next o ix)).isNone = true := by show (w.home x).isNone = true; rw [hhome]; rfl
  have hstep : w.step A (.createOO k o d) = .ok (((w.put k s1).setIndexer o
      (some { createdCounter := ix.createdCounter + 1, addresses := ix.addresses ++ [x] })).setHome x (some k)) := by
    show w.createOO A k o d = _
    unfold World.createOO
    simp only [bind_ok, req_ok, pure_ok, okOr_ok]
    exact ⟨(), hs, ix, hx, (), hroom, (), hn, (), hh, p, hp, s1, hc, rfl⟩
  refine ⟨_, hstep, ?_, ?_, ?_, ?_⟩
  · refine ⟨_, put_markets_self _ _ _, ?_⟩
    show Accts.get? s1.g.accts x = _
    rw [hs1, Accts.get?_append, hacct, Accts.get?_cons, if_pos rfl]; rfl
  · simp [World.setHome, World.setIndexer]
  · intro o' ho'
    simp [World.setHome, World.setIndexer, ho', World.put]
  · intro k' x' a' hne
    unfold LivesIn
    by_cases e : k' = k
    · subst e
      show (∃ q, (w.put k' _).markets k' = some q ∧ q.g.accts.get? x' = some a') ↔ _
      rw [put_markets_self, hp]
      simp only [Option.some.injEq, exists_eq_left']
      show Accts.get? s1.g.accts x' = _ ↔ _
      rw [hs1, Accts.get?_append, Accts.get?_cons, if_neg (fun c => hne c.symm), Accts.get?_nil, Option.or_none]
    · show (∃ q, (w.put k _).markets k' = some q ∧ q.g.accts.get? x' = some a') ↔ _
      rw [put_markets_ne w _ e]

/-- An owner can close an account that holds nothing, even if its market is closed already, and it is taken off the index.  The
`unwrap` in the program never fails. -/
theorem C54_close {A : Addresses} {w : World} (hr : WReachable A w) {k x : Pubkey} {a : OOA} (hx : LivesIn w k x a)
    (hs : A.isPda a.owner = false) (he : HoldsNothing a) (hp : a.position.penaltyHeapCount = 0) :
    ∃ w' ix, w.indexers a.owner = some ix ∧ w.step A (.closeOO x a.owner) = .ok w' ∧ (∀ k' a', ¬ LivesIn w' k' x a') ∧
      w'.indexers a.owner = some { ix with addresses := ix.addresses.erase x } := by
  have h := wreachable_WInv hr
  have hat := ownerAt_iff.mpr ⟨a, hx, rfl⟩
  have hhome := (h.home x k).mpr (by rw [hat]; rfl)
  obtain ⟨ix, n, hix, hmem, _⟩ := C54_address hr hx
  obtain ⟨p, hpk, hpa⟩ := hx
  obtain ⟨s1, hc⟩ : ∃ s1 : State, closeOO (w.state k p) x a.owner = .ok s1 := by
    refine ⟨{ w.state k p with g := { p.g with accts := p.g.accts.del x } }, ?_⟩
    simp only [closeOO, bind_ok, req_ok, Accts.get_ok, pure_ok]
    exact ⟨a, hpa, (), rfl, (), isEmpty_iff.mpr ⟨he.bids.1, he.asks, he.freeBase, he.freeQuote, he.fees, he.rebates, hp, he.bids.2⟩, rfl⟩
  have hlen : 1 ≤ ix.addresses.length := List.length_pos_of_mem hmem
  have hstep : w.step A (.closeOO x a.owner) = .ok (((w.put k s1).setIndexer a.owner
      (some { ix with addresses := ix.addresses.erase x })).setHome x none) := by
    show w.closeOO A x a.owner = _
    unfold World.closeOO
    simp only [bind_ok, req_ok, pure_ok, okOr_ok]
    exact ⟨(), hs, ix, hix, (), hlen, k, hhome, p, hpk, s1, hc, (), hmem, rfl⟩
  refine ⟨_, ix, hix, hstep, fun k' a' hl => ?_, by simp [World.setHome, World.setIndexer]⟩
  have hr' : WReachable A _ := .step _ _ _ hr hstep
  have := ((wreachable_WInv hr').home x k').mpr (by rw [ownerAt_iff.mpr ⟨a', hl, rfl⟩]; rfl)
  simp [World.setHome] at this

/-- Trying to close an account never panics: the owner's attempt fails only because something is left in the account. -/
theorem C54_no_panic {A : Addresses} {w : World} (hr : WReachable A w) {k x : Pubkey} {a : OOA} (hx : LivesIn w k x a)
    (hs : A.isPda a.owner = false) :
    (∃ w', w.step A (.closeOO x a.owner) = .ok w') ∨ w.step A (.closeOO x a.owner) = .error .nonEmptyOpenOrdersPosition := by
  have h := wreachable_WInv hr
  have hat := ownerAt_iff.mpr ⟨a, hx, rfl⟩
  have hhome := (h.home x k).mpr (by rw [hat]; rfl)
  obtain ⟨ix, n, hix, hmem, _⟩ := C54_address hr hx
  obtain ⟨p, hpk, hpa⟩ := hx
  have hlen : 1 ≤ ix.addresses.length := List.length_pos_of_mem hmem
  have hpa' : (w.state k p).g.accts.get? x = some a := hpa
  show (∃ w', w.closeOO A x a.owner = .ok w') ∨ w.closeOO A x a.owner = _
  by_cases he : a.position.isEmpty = true
  · left
    obtain ⟨s1, hc⟩ : ∃ s1 : State, closeOO (w.state k p) x a.owner = .ok s1 := by
      refine ⟨{ w.state k p with g := { p.g with accts := p.g.accts.del x } }, ?_⟩
      simp only [closeOO, bind_ok, req_ok, Accts.get_ok, pure_ok]
      exact ⟨a, hpa, (), rfl, (), he, rfl⟩
    apply Exists.intro
    unfold World.closeOO
    simp only [bind_ok, req_ok, pure_ok, okOr_ok]
    exact ⟨(), hs, ix, hix, (), hlen, k, hhome, p, hpk, s1, hc, (), hmem, rfl⟩
  · right
    simp [World.closeOO, Addresses.signerOk, closeOO, hix, hhome, hpk, req, okOr, hs, hlen, Accts.get, hpa', he, bind, Except.bind]

/-- An indexer can be closed exactly when its owner has no accounts left. -/
theorem C54_close_index {A : Addresses} {w : World} (hr : WReachable A w) {o : Pubkey} {ix : Indexer} (hx : w.indexers o = some ix)
    (hs : A.isPda o = false) :
    (∃ w', w.step A (.closeIndexer o) = .ok w') ↔ ∀ k x a, LivesIn w k x a → a.owner ≠ o := by
  have hm := (C54_exact hr hx).2.2
  constructor
  · rintro ⟨w', hw⟩ k x a hl ho
    obtain ⟨ix', _, h2, h3, _⟩ := closeIndexer_inv (w := w) (w' := w') hw
    rw [hx] at h2; injection h2 with h2; subst h2
    have := (hm x).mpr ⟨k, a, hl, ho⟩
    rw [h3] at this; cases this
  · intro h
    have hnil : ix.addresses = [] := List.eq_nil_iff_forall_not_mem.mpr (fun x hxm => by
      obtain ⟨k, a, hl, ho⟩ := (hm x).mp hxm
      exact h k x a hl ho)
    apply Exists.intro
    show w.closeIndexer A o = _
    unfold World.closeIndexer
    simp only [bind_ok, req_ok, pure_ok, okOr_ok]
    exact ⟨(), hs, ix, hx, (), hnil, rfl⟩

namespace Scenario

def partGet (w : World) (k x : Pubkey) : Option OOA := (w.markets k).bind (fun p => p.g.accts.get? x)

theorem livesIn_of {w : World} {k x : Pubkey} {a : OOA} (h : partGet w k x = some a) : LivesIn w k x a := by
  unfold partGet at h
  cases e : w.markets k with
  | none => rw [e] at h; cases h
  | some p => rw [e] at h; exact ⟨p, e, h⟩

/-- Trader 3 has had three accounts, has closed one, and still has one in each market.  Room is left for another. -/
example : ∃ w, WReachable addrs w ∧
    w.indexers 3 = some { createdCounter := 3, addresses := [addrs.ooAddr 3 1, addrs.ooAddr 3 3] } ∧
    (partGet w 15 (addrs.ooAddr 3 1)).isSome = true ∧ (partGet w 19 (addrs.ooAddr 3 3)).isSome = true ∧
    addrs.isPda 3 = false ∧ ((w.markets 15).any (fun p => !p.closed)) = true := by
  obtain ⟨w, h1, h2⟩ := wexec_spec (ops := wops) (p := fun w =>
    decide (w.indexers 3 = some { createdCounter := 3, addresses := [addrs.ooAddr 3 1, addrs.ooAddr 3 3] }) &&
    (partGet w 15 (addrs.ooAddr 3 1)).isSome && (partGet w 19 (addrs.ooAddr 3 3)).isSome &&
    !addrs.isPda 3 && (w.markets 15).any (fun p => !p.closed)) (by decide +kernel)
  simp only [Bool.and_eq_true, decide_eq_true_eq, Bool.not_eq_true'] at h2
  exact ⟨w, h1, h2.1.1.1.1, h2.1.1.1.2, h2.1.1.2, h2.1.2, h2.2⟩

/-- An account that holds nothing can be closed; the one with the offer cannot. -/
example : ∃ w a, WReachable addrs w ∧ LivesIn w 15 (addrs.ooAddr 3 2) a ∧ a.owner = 3 ∧ a.position.isEmpty = true ∧
    a.position.penaltyHeapCount = 0 ∧
    w.step addrs (.closeOO (addrs.ooAddr 3 1) 3) = .error .nonEmptyOpenOrdersPosition := by
  obtain ⟨w, h1, h2⟩ := wexec_spec (ops := wops.take 11) (p := fun w =>
    (partGet w 15 (addrs.ooAddr 3 2)).any (fun a => decide (a.owner = 3 ∧ a.position.isEmpty = true ∧ a.position.penaltyHeapCount = 0)) &&
    (match w.step addrs (.closeOO (addrs.ooAddr 3 1) 3) with | .error .nonEmptyOpenOrdersPosition => true | _ => false))
    (by decide +kernel)
  simp only [Bool.and_eq_true] at h2
  obtain ⟨a, ha, hb⟩ := Option.any_eq_true _ _ |>.mp h2.1
  simp only [decide_eq_true_eq] at hb
  refine ⟨w, a, h1, livesIn_of ha, hb.1, hb.2.1, hb.2.2, ?_⟩
  have := h2.2
  split at this
  · assumption
  · cases this

/-- Trader 11 has an indexer and no account, so it can be closed. -/
example : ∃ w ix w', WReachable addrs w ∧ w.indexers 11 = some ix ∧ ix.addresses = [] ∧ w.step addrs (.closeIndexer 11) = .ok w' := by
  obtain ⟨w, h1, h2⟩ := wexec_spec (ops := wops) (p := fun w => (w.indexers 11).any (fun ix => ix.addresses = []) &&
    okAnd (w.step addrs (.closeIndexer 11)) (fun _ => true)) (by decide +kernel)
  simp only [Bool.and_eq_true] at h2
  obtain ⟨ix, ha, hb⟩ := Option.any_eq_true _ _ |>.mp h2.1
  obtain ⟨w', hw', _⟩ := okAnd_spec h2.2
  exact ⟨w, ix, w', h1, ha, of_decide_eq_true hb, hw'⟩

end Scenario

end OB
