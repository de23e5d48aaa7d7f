import Verif.Model.World
import Verif.Proofs.Frame
import Verif.Proofs.StepAcct
/-! A deployment: each market in it behaves as a single market, and the indexers list the accounts. -/
namespace OB
open Spec

/-! ### other programs -/

theorem env_tokens {s : State} (hr : Reachable s) {t' : Tokens} (F : Finset Pubkey) (hF : ∀ i, i ∉ F → t' i = s.tokens i)
    (hu : ∀ i, inU64 (t' i).amount)
    (hv : ∀ i, s.g.market.isMarketVault i = true → (t' i).owner = (s.tokens i).owner ∧ (t' i).mint = (s.tokens i).mint ∧
      (s.tokens i).amount ≤ (t' i).amount) : Reachable { s with tokens := t' } := by
  induction F using Finset.induction_on generalizing s with
  | empty =>
    have : t' = s.tokens := funext (fun i => hF i (by simp))
    rw [this]; exact hr
  | insert k F hk ih =>
    let s1 : State := { s with tokens := fun i => if i = k then t' k else s.tokens i }
    have h1 : step s (.externalToken k (t' k)) = .ok s1 := by
      show externalToken s k (t' k) = .ok s1
      unfold externalToken
      simp only [bind_ok, req_ok, pure_ok]
      exact ⟨(), hu k, (), fun h => hv k h, rfl⟩
    have hr1 : Reachable s1 := .step s s1 _ hr h1
    have := ih (s := s1) hr1 (fun i hi => ?_) (fun i h => ?_)
    · exact this
    · show t' i = if i = k then t' k else s.tokens i
      by_cases e : i = k
      · rw [if_pos e, e]
      · rw [if_neg e]; exact hF i (by simp [e, hi])
    · show (t' i).owner = (if i = k then t' k else s.tokens i).owner ∧ (t' i).mint = (if i = k then t' k else s.tokens i).mint ∧
        (if i = k then t' k else s.tokens i).amount ≤ (t' i).amount
      by_cases e : i = k
      · rw [if_pos e, e]; exact ⟨rfl, rfl, Int.le_refl _⟩
      · rw [if_neg e]; exact hv i h

theorem env_lamports {s : State} (hr : Reachable s) {l' : Lamports} (F : Finset Pubkey) (hF : ∀ i, i ∉ F → l' i = s.lamports i)
    (hu : ∀ i, inU64 (l' i)) (hv : s.closed = false → s.lamports s.marketKey ≤ l' s.marketKey) :
    Reachable { s with lamports := l' } := by
  induction F using Finset.induction_on generalizing s with
  | empty =>
    have : l' = s.lamports := funext (fun i => hF i (by simp))
    rw [this]; exact hr
  | insert k F hk ih =>
    let s1 : State := { s with lamports := fun i => if i = k then l' k else s.lamports i }
    have h1 : step s (.externalLamports k (l' k)) = .ok s1 := by
      show externalLamports s k (l' k) = .ok s1
      unfold externalLamports
      simp only [bind_ok, req_ok, pure_ok]
      exact ⟨(), ⟨(hu k).1, (hu k).2, fun e => by obtain ⟨rfl, e⟩ := e; exact hv e⟩, rfl⟩
    have hr1 : Reachable s1 := .step s s1 _ hr h1
    have := ih (s := s1) hr1 (fun i hi => ?_) ?_
    · exact this
    · show l' i = if i = k then l' k else s.lamports i
      by_cases e : i = k
      · rw [if_pos e, e]
      · rw [if_neg e]; exact hF i (by simp [e, hi])
    · intro hc
      show (if s.marketKey = k then l' k else s.lamports s.marketKey) ≤ l' s.marketKey
      by_cases e : s.marketKey = k
      · rw [if_pos e, e]
      · rw [if_neg e]; exact hv hc

/-! ### who owns which account -/

/-- The owner of open orders account `x` in market `k`. -/
def Part.ownerOf (p : Part) (x : Pubkey) : Option Pubkey := (p.g.accts.get? x).map (·.owner)

def World.ownerAt (w : World) (k x : Pubkey) : Option Pubkey := (w.markets k).bind (·.ownerOf x)

theorem plain_external {op : Op} (h : op.plain = true) : external op = false := by cases op <;> first | rfl | cases h

theorem plain_owners {s s' : State} {op : Op} (hi : Inv s) (h : step s op = .ok s') (hp : op.plain = true) (x : Pubkey) :
    (s'.g.accts.get? x).map (·.owner) = (s.g.accts.get? x).map (·.owner) := by
  have A := step_accts hi h
  cases ha : s.g.accts.get? x with
  | some a =>
    rcases A.old x a ha with ⟨a', ha', hs⟩ | ⟨_, rfl, _⟩
    · rw [ha']
      simp only [Option.map_some]
      congr 1
      cases hs with
      | kept own => exact own
      | paid _ own => exact own
      | settled _ _ _ res => rw [res]; rfl
      | delegate _ _ res => rw [res]
    · cases hp
  | none =>
    cases ha' : s'.g.accts.get? x with
    | none => rfl
    | some a' =>
      obtain ⟨_, _, rfl, _⟩ := A.new x a' ha ha'
      cases hp

/-! ### invariant -/

structure WInv (A : Addresses) (w : World) : Prop where
  mkt : ∀ k p, w.markets k = some p → Reachable (w.state k p) ∧ p.g.market.marketAuthority = A.authority k ∧
    p.g.market.marketBaseVault = A.vault (A.authority k) p.g.market.baseMint ∧
    p.g.market.marketQuoteVault = A.vault (A.authority k) p.g.market.quoteMint ∧
    p.g.market.baseMint ≠ 0 ∧ p.g.market.quoteMint ≠ 0 ∧ A.isPda k = false
  tok : ∀ i, inU64 (w.tokens i).amount
  lam : ∀ i, inU64 (w.lamports i)
  home : ∀ x k, w.home x = some k ↔ (w.ownerAt k x).isSome
  index : ∀ o ix, w.indexers o = some ix → ix.addresses.Nodup ∧ ix.addresses.length ≤ 256 ∧ ix.createdCounter < 4294967296 ∧
    ∀ x, x ∈ ix.addresses ↔ ∃ k, w.ownerAt k x = some o
  addr : ∀ k x o, w.ownerAt k x = some o → ∃ ix n, w.indexers o = some ix ∧ 1 ≤ n ∧ n ≤ ix.createdCounter ∧ x = A.ooAddr o n

theorem WInv.vault {A : Addresses} {w : World} (h : WInv A w) {k i : Pubkey} {p : Part} (hp : w.markets k = some p)
    (hi : p.g.market.isMarketVault i = true) : (w.tokens i).owner = A.authority k ∧ (w.tokens i).mint ≠ 0 := by
  obtain ⟨h1, h2, _, _, h3, h4, _⟩ := h.mkt k p hp
  have hI := reachable_Inv h1
  unfold Market.isMarketVault at hi
  simp only [decide_eq_true_eq] at hi
  rcases hi with rfl | rfl
  · have e1 := hI.vq.owner
    have e2 := hI.vq.mint
    exact ⟨e1.trans h2, by show ((w.state k p).tokens _).mint ≠ 0; exact e2 ▸ h4⟩
  · have e1 := hI.vb.owner
    have e2 := hI.vb.mint
    exact ⟨e1.trans h2, by show ((w.state k p).tokens _).mint ≠ 0; exact e2 ▸ h3⟩

/-- A market that an operation does not touch, among changed balances. -/
theorem WInv.aside {A : Addresses} {w : World} (h : WInv A w) {k : Pubkey} {p : Part} (hp : w.markets k = some p) {t' : Tokens}
    {l' : Lamports} {F G : Finset Pubkey} (hF : ∀ i, i ∉ F → t' i = w.tokens i) (hG : ∀ i, i ∉ G → l' i = w.lamports i)
    (hu : ∀ i, inU64 (t' i).amount) (hul : ∀ i, inU64 (l' i))
    (hv : ∀ i, p.g.market.isMarketVault i = true → (t' i).owner = (w.tokens i).owner ∧ (t' i).mint = (w.tokens i).mint ∧
      (w.tokens i).amount ≤ (t' i).amount) (hl : p.closed = false → w.lamports k ≤ l' k) :
    Reachable ({ w with tokens := t', lamports := l' }.state k p) :=
  env_lamports (s := { w with tokens := t' }.state k p) (env_tokens (s := w.state k p) (h.mkt k p hp).1 F hF hu hv) G hG hul hl

/-- The same indexers, homes and account owners. -/
theorem WInv.keepIndex {A : Addresses} {w w' : World} (h : WInv A w) (h1 : w'.indexers = w.indexers) (h2 : w'.home = w.home)
    (h3 : ∀ k x, w'.ownerAt k x = w.ownerAt k x)
    (hm : ∀ k p, w'.markets k = some p → Reachable (w'.state k p) ∧ p.g.market.marketAuthority = A.authority k ∧
      p.g.market.marketBaseVault = A.vault (A.authority k) p.g.market.baseMint ∧
      p.g.market.marketQuoteVault = A.vault (A.authority k) p.g.market.quoteMint ∧
      p.g.market.baseMint ≠ 0 ∧ p.g.market.quoteMint ≠ 0 ∧ A.isPda k = false)
    (ht : ∀ i, inU64 (w'.tokens i).amount) (hl : ∀ i, inU64 (w'.lamports i)) : WInv A w' := by
  refine ⟨hm, ht, hl, ?_, ?_, ?_⟩
  · intro x k; rw [h2, h3]; exact h.home x k
  · intro o ix e
    rw [h1] at e
    simp only [h3]; exact h.index o ix e
  · intro k x o e
    rw [h3] at e; rw [h1]; exact h.addr k x o e

theorem put_markets_self (w : World) (k : Pubkey) (s : State) :
    (w.put k s).markets k = some { g := s.g, book := s.book, closed := s.closed } := by simp [World.put]

theorem put_markets_ne (w : World) {k j : Pubkey} (s : State) (h : j ≠ k) : (w.put k s).markets j = w.markets j := by
  simp [World.put, h]

theorem put_state_self (w : World) (k : Pubkey) (s : State) (h : s.marketKey = k) :
    (w.put k s).state k { g := s.g, book := s.book, closed := s.closed } = s := by
  simp only [World.put, World.state]; rw [← h]

/-- Writing back a market after an instruction that leaves the other markets' vaults and accounts alone. -/
theorem WInv.putMarket {A : Addresses} {w : World} (h : WInv A w) {k : Pubkey} {s : State} (hr : Reachable s) (hk : s.marketKey = k)
    (ha : s.g.market.marketAuthority = A.authority k ∧ s.g.market.marketBaseVault = A.vault (A.authority k) s.g.market.baseMint ∧
      s.g.market.marketQuoteVault = A.vault (A.authority k) s.g.market.quoteMint ∧
      s.g.market.baseMint ≠ 0 ∧ s.g.market.quoteMint ≠ 0 ∧ A.isPda k = false)
    {F G : Finset Pubkey} (hF : ∀ i, i ∉ F → s.tokens i = w.tokens i) (hG : ∀ i, i ∉ G → s.lamports i = w.lamports i)
    (hu : ∀ i, inU64 (s.tokens i).amount) (hul : ∀ i, inU64 (s.lamports i))
    (hv : ∀ j p i, j ≠ k → w.markets j = some p → p.g.market.isMarketVault i = true →
      (s.tokens i).owner = (w.tokens i).owner ∧ (s.tokens i).mint = (w.tokens i).mint ∧ (w.tokens i).amount ≤ (s.tokens i).amount)
    (hl : ∀ j p, j ≠ k → w.markets j = some p → p.closed = false → w.lamports j ≤ s.lamports j) :
    ∀ j p, (w.put k s).markets j = some p → Reachable ((w.put k s).state j p) ∧ p.g.market.marketAuthority = A.authority j ∧
      p.g.market.marketBaseVault = A.vault (A.authority j) p.g.market.baseMint ∧
      p.g.market.marketQuoteVault = A.vault (A.authority j) p.g.market.quoteMint ∧
      p.g.market.baseMint ≠ 0 ∧ p.g.market.quoteMint ≠ 0 ∧ A.isPda j = false := by
  intro j p hj
  by_cases e : j = k
  · subst e
    rw [put_markets_self] at hj
    injection hj with hj; subst hj
    rw [put_state_self w j s hk]
    exact ⟨hr, ha⟩
  · rw [put_markets_ne w s e] at hj
    exact ⟨h.aside hj hF hG hu hul (fun i hi => hv j p i e hj hi) (hl j p e hj), (h.mkt j p hj).2⟩

theorem put_ownerAt_ne (w : World) {k j : Pubkey} (s : State) (x : Pubkey) (h : j ≠ k) : (w.put k s).ownerAt j x = w.ownerAt j x := by
  unfold World.ownerAt; rw [put_markets_ne w s h]

theorem put_ownerAt_self (w : World) (k : Pubkey) (s : State) (x : Pubkey) :
    (w.put k s).ownerAt k x = (s.g.accts.get? x).map (·.owner) := by
  unfold World.ownerAt; rw [put_markets_self]; rfl

/-! ### operations -/

theorem onMarket_inv {A : Addresses} {w w' : World} {k : Pubkey} {op : Op} (h : w.onMarket A k op = .ok w') :
    ∃ p s, op.plain = true ∧ (∀ x ∈ signers op, A.signerOk x) ∧ w.markets k = some p ∧ step (w.state k p) op = .ok s ∧
      (∀ x ∈ signers op, w.isOpen x = true → w.lamports x ≤ s.lamports x) ∧ w' = w.put k s := by
  unfold World.onMarket at h
  simp only [bind_ok, pure_ok, req_ok, okOr_ok] at h
  obtain ⟨_, h1, _, h2, p, h3, s, h4, _, h5, h⟩ := h
  exact ⟨p, s, h1, h2, h3, h4, h5, h.symm⟩

/-- What an instruction on one market leaves of the vaults of the others. -/
theorem WInv.others {A : Addresses} {w : World} (h : WInv A w) {k : Pubkey} {op : Op} {p : Part} {s : State}
    (hs : ∀ x ∈ signers op, A.signerOk x) (hp : w.markets k = some p) (hf : StepFrame (w.state k p) s op)
    (hpay : ∀ x ∈ signers op, w.isOpen x = true → w.lamports x ≤ s.lamports x) :
    (∀ j q i, j ≠ k → w.markets j = some q → q.g.market.isMarketVault i = true →
      (s.tokens i).owner = (w.tokens i).owner ∧ (s.tokens i).mint = (w.tokens i).mint ∧ (w.tokens i).amount ≤ (s.tokens i).amount) ∧
    (∀ j q, j ≠ k → w.markets j = some q → q.closed = false → w.lamports j ≤ s.lamports j) := by
  refine ⟨fun j q i hj hq hi => ?_, fun j q hj hq ho => ?_⟩
  · obtain ⟨v1, v2⟩ := h.vault hq hi
    refine ⟨(hf.tokens.same i).1, (hf.tokens.same i).2, ?_⟩
    by_contra hc
    rcases hf.tokens.debit i (by show (s.tokens i).amount < (w.tokens i).amount; omega) with hd | ⟨_, hd⟩
    · have hd : (w.tokens i).owner ∈ signers op := hd
      rw [v1] at hd
      have := hs _ hd
      unfold Addresses.signerOk at this
      rw [A.authority_pda] at this; cases this
    · have : p.g.market.isMarketVault i = true := by
        unfold Market.isMarketVault; rcases hd with rfl | rfl <;> simp [World.state]
      exact hj (A.authority_inj (v1.symm.trans (h.vault hp this).1))
  · by_contra hc
    have hd := hf.lamports.debit j (by show s.lamports j < w.lamports j; omega)
    exact hc (hpay j hd (by unfold World.isOpen; rw [hq]; simp [ho]))

theorem WInv.onMarket {A : Addresses} {w w' : World} (h : WInv A w) {k : Pubkey} {op : Op} (hs : w.onMarket A k op = .ok w') : WInv A w' := by
  obtain ⟨p, s, h1, h2, h3, h4, h5, rfl⟩ := onMarket_inv hs
  obtain ⟨m1, m2, m3, m4, m5, m6, m7⟩ := h.mkt k p h3
  have hI := reachable_Inv m1
  have hf := step_frame hI h4 (plain_external h1)
  obtain ⟨o1, o2⟩ := h.others h2 h3 hf h5
  obtain ⟨F, hF, _⟩ := hf.tokens.touched
  obtain ⟨G, hG, _⟩ := hf.lamports.touched
  have hc := (step_cfg hI h4).1
  refine h.keepIndex rfl rfl (fun j x => ?_) (h.putMarket (.step _ _ _ m1 h4) (step_marketKey hI h4) ?_ hF hG (hf.tokens.range h.tok)
    (hf.lamports.range h.lam) o1 o2) (hf.tokens.range h.tok) (hf.lamports.range h.lam)
  · by_cases e : j = k
    · subst e
      rw [put_ownerAt_self, plain_owners hI h4 h1]
      unfold World.ownerAt; rw [h3]; rfl
    · exact put_ownerAt_ne w s x e
  · rw [hc.authority, hc.baseVault, hc.quoteVault, hc.baseMint, hc.quoteMint]
    exact ⟨m2, m3, m4, m5, m6, m7⟩

theorem newMarket_inv {A : Addresses} {w w' : World} {a : CreateArgs} {now : Int} (h : w.newMarket A a now = .ok w') :
    ∃ s, A.isPda a.marketKey = false ∧ a.marketAuthority = A.authority a.marketKey ∧
      a.baseVault = A.vault a.marketAuthority a.baseMint ∧ a.quoteVault = A.vault a.marketAuthority a.quoteMint ∧
      (w.tokens a.baseVault).mint = 0 ∧ (w.tokens a.quoteVault).mint = 0 ∧
      ((w.markets a.marketKey = none ∧ createMarket a now w.tokens w.lamports = .ok s) ∨
        ∃ p, w.markets a.marketKey = some p ∧ recreateMarket (w.state a.marketKey p) a now = .ok s) ∧
      w' = w.put a.marketKey s := by
  unfold World.newMarket at h
  simp only [bind_ok, pure_ok, req_ok] at h
  obtain ⟨_, h1, _, h3, _, h4, _, h5, h⟩ := h
  cases hm : w.markets a.marketKey with
  | none =>
    simp only [hm, bind_ok, pure_ok] at h
    obtain ⟨s, h6, h⟩ := h
    exact ⟨s, h1, h3, h4.1, h4.2, h5.1, h5.2, .inl ⟨rfl, h6⟩, h.symm⟩
  | some p =>
    simp only [hm, bind_ok, pure_ok] at h
    obtain ⟨s, h6, h⟩ := h
    exact ⟨s, h1, h3, h4.1, h4.2, h5.1, h5.2, .inr ⟨p, rfl, h6⟩, h.symm⟩

/-- The new market, with the open orders accounts that name its address. -/
theorem WInv.newMarket_state {A : Addresses} {w : World} (h : WInv A w) {a : CreateArgs} {now : Int} {s : State}
    (hs : (w.markets a.marketKey = none ∧ createMarket a now w.tokens w.lamports = .ok s) ∨
      ∃ p, w.markets a.marketKey = some p ∧ recreateMarket (w.state a.marketKey p) a now = .ok s) :
    Reachable s ∧ a.check now = .ok () ∧
    s = { g := { market := a.market, heap := EventHeap.init, accts := ((w.markets a.marketKey).map (·.g.accts)).getD [] },
          book := { bids := BookSide.empty .bid, asks := BookSide.empty .ask },
          tokens := fun i =>
            if i = a.baseVault then { owner := a.marketAuthority, mint := a.baseMint, amount := 0 }
            else if i = a.quoteVault then { owner := a.marketAuthority, mint := a.quoteMint, amount := 0 }
            else w.tokens i,
          lamports := w.lamports, marketKey := a.marketKey, closed := false } := by
  rcases hs with ⟨h1, h2⟩ | ⟨p, h1, h2⟩
  · obtain ⟨hc, hs⟩ := createMarket_inv h2
    refine ⟨.init a now w.tokens w.lamports s h2, hc, ?_⟩
    rw [hs, h1]; rfl
  · obtain ⟨_, _, _, hc, hs⟩ := recreateMarket_inv h2
    refine ⟨.again _ s a now (h.mkt _ p h1).1 h2, hc, ?_⟩
    rw [hs, h1]; rfl

theorem CreateArgs.check_mints {a : CreateArgs} {now : Int} (h : a.check now = .ok ()) : a.baseMint ≠ 0 ∧ a.quoteMint ≠ 0 := by
  unfold CreateArgs.check at h
  simp only [bind_ok, req_ok] at h
  obtain ⟨_, _, _, _, _, _, _, _, _, _, _, _, _, _, _, _, _, _, h⟩ := h
  exact ⟨h.2.1, h.2.2.1⟩

theorem WInv.newMarket {A : Addresses} {w w' : World} (h : WInv A w) {a : CreateArgs} {now : Int} (hs : w.newMarket A a now = .ok w') :
    WInv A w' := by
  obtain ⟨s, h1, h3, h4, h5, h6, h7, h8, rfl⟩ := newMarket_inv hs
  obtain ⟨hr, hc, hs⟩ := h.newMarket_state h8
  obtain ⟨c2, c3⟩ := CreateArgs.check_mints hc
  have et : s.tokens = fun i =>
    if i = a.baseVault then { owner := a.marketAuthority, mint := a.baseMint, amount := 0 }
    else if i = a.quoteVault then { owner := a.marketAuthority, mint := a.quoteMint, amount := 0 }
    else w.tokens i := by rw [hs]
  have el : s.lamports = w.lamports := by rw [hs]
  have ht : ∀ i, inU64 (s.tokens i).amount := by
    intro i
    rw [et]; simp only
    split
    · exact ⟨Int.le_refl _, (by decide : (0 : Int) ≤ u64Max)⟩
    · split
      · exact ⟨Int.le_refl _, (by decide : (0 : Int) ≤ u64Max)⟩
      · exact h.tok i
  have hl : ∀ i, inU64 (s.lamports i) := by rw [el]; exact h.lam
  have hF : ∀ i, i ∉ ({a.baseVault, a.quoteVault} : Finset Pubkey) → s.tokens i = w.tokens i := by
    intro i hi
    simp only [Finset.mem_insert, Finset.mem_singleton, not_or] at hi
    rw [et]; simp only [if_neg hi.1, if_neg hi.2]
  refine h.keepIndex rfl rfl (fun j x => ?_) (h.putMarket hr (by rw [hs]) ?_ hF (G := ∅) (fun i _ => by rw [el]) ht hl ?_ ?_) ht hl
  · by_cases e : j = a.marketKey
    · subst e
      rw [put_ownerAt_self]
      unfold World.ownerAt; rw [hs]
      cases w.markets a.marketKey <;> rfl
    · exact put_ownerAt_ne w s x e
  · rw [hs]
    refine ⟨h3, ?_, ?_, c2, c3, h1⟩
    · show a.baseVault = _; rw [h4, h3]; rfl
    · show a.quoteVault = _; rw [h5, h3]; rfl
  · intro j p i hj hp hi
    obtain ⟨v1, v2⟩ := h.vault hp hi
    have e : s.tokens i = w.tokens i := by
      apply hF
      simp only [Finset.mem_insert, Finset.mem_singleton, not_or]
      exact ⟨fun e => v2 (by rw [e]; exact h6), fun e => v2 (by rw [e]; exact h7)⟩
    rw [e]; exact ⟨rfl, rfl, Int.le_refl _⟩
  · intro j p _ _ _; rw [el]

theorem createIndexer_inv {A : Addresses} {w w' : World} {owner : Pubkey} (h : w.createIndexer A owner = .ok w') :
    A.signerOk owner ∧ w.indexers owner = none ∧ w' = w.setIndexer owner (some { createdCounter := 0, addresses := [] }) := by
  unfold World.createIndexer at h
  simp only [bind_ok, pure_ok, req_ok, Option.isNone_iff_eq_none] at h
  obtain ⟨_, h1, _, h2, h⟩ := h
  exact ⟨h1, h2, h.symm⟩

theorem closeIndexer_inv {A : Addresses} {w w' : World} {owner : Pubkey} (h : w.closeIndexer A owner = .ok w') :
    ∃ ix, A.signerOk owner ∧ w.indexers owner = some ix ∧ ix.addresses = [] ∧ w' = w.setIndexer owner none := by
  unfold World.closeIndexer at h
  simp only [bind_ok, pure_ok, req_ok, okOr_ok] at h
  obtain ⟨_, h1, ix, h2, _, h3, h⟩ := h
  exact ⟨ix, h1, h2, h3, h.symm⟩

theorem WInv.noAccounts {A : Addresses} {w : World} (h : WInv A w) {o : Pubkey} (hn : w.indexers o = none) (k x : Pubkey) :
    w.ownerAt k x ≠ some o := by
  intro e
  obtain ⟨ix, _, hi, _⟩ := h.addr k x o e
  rw [hn] at hi; cases hi

theorem WInv.createIndexer {A : Addresses} {w w' : World} (h : WInv A w) {o : Pubkey} (hs : w.createIndexer A o = .ok w') : WInv A w' := by
  obtain ⟨_, h2, rfl⟩ := createIndexer_inv hs
  have ho : ∀ k x, (w.setIndexer o (some { createdCounter := 0, addresses := [] })).ownerAt k x = w.ownerAt k x := fun _ _ => rfl
  refine ⟨h.mkt, h.tok, h.lam, h.home, fun o' ix hix => ?_, fun k x o' e => ?_⟩
  · by_cases e : o' = o
    · subst e
      simp only [World.setIndexer, if_true] at hix
      injection hix with hix; subst hix
      refine ⟨List.nodup_nil, by simp, by simp, fun x => Iff.intro (fun hx => (by cases hx)) ?_⟩
      rintro ⟨k, hk⟩
      exact absurd hk (h.noAccounts h2 k x)
    · simp only [World.setIndexer, if_neg e] at hix
      exact h.index o' ix hix
  · rw [ho] at e
    have hne : o' ≠ o := fun c => h.noAccounts h2 k x (by rw [e, c])
    simp only [World.setIndexer, if_neg hne]
    exact h.addr k x o' e

theorem WInv.closeIndexer {A : Addresses} {w w' : World} (h : WInv A w) {o : Pubkey} (hs : w.closeIndexer A o = .ok w') : WInv A w' := by
  obtain ⟨ix0, _, h2, h3, rfl⟩ := closeIndexer_inv hs
  have ho : ∀ k x, (w.setIndexer o none).ownerAt k x = w.ownerAt k x := fun _ _ => rfl
  have hnone : ∀ k x, w.ownerAt k x ≠ some o := by
    intro k x e
    have := ((h.index o ix0 h2).2.2.2 x).mpr ⟨k, e⟩
    rw [h3] at this; cases this
  refine ⟨h.mkt, h.tok, h.lam, h.home, fun o' ix hix => ?_, fun k x o' e => ?_⟩
  · by_cases e : o' = o
    · subst e
      simp only [World.setIndexer, if_true] at hix; cases hix
    · simp only [World.setIndexer, if_neg e] at hix
      exact h.index o' ix hix
  · rw [ho] at e
    have hne : o' ≠ o := fun c => hnone k x (by rw [e, c])
    simp only [World.setIndexer, if_neg hne]
    exact h.addr k x o' e

theorem wcreateOO_inv {A : Addresses} {w w' : World} {k owner d : Pubkey} (h : w.createOO A k owner d = .ok w') :
    ∃ ix p s, A.signerOk owner ∧ w.indexers owner = some ix ∧ ix.addresses.length < 256 ∧ ix.createdCounter + 1 < 4294967296 ∧
      w.home (A.next owner ix) = none ∧ w.markets k = some p ∧ createOO (w.state k p) (A.next owner ix) owner d = .ok s ∧
      w' = ((w.put k s).setIndexer owner
        (some { createdCounter := ix.createdCounter + 1, addresses := ix.addresses ++ [A.next owner ix] })).setHome (A.next owner ix) (some k) := by
  unfold World.createOO at h
  simp only [bind_ok, pure_ok, req_ok, okOr_ok, Option.isNone_iff_eq_none] at h
  obtain ⟨_, h1, ix, h2, _, h3, _, h4, _, h5, p, h6, s, h7, h⟩ := h
  exact ⟨ix, p, s, h1, h2, h3, h4, h5, h6, h7, h.symm⟩

theorem wcloseOO_inv {A : Addresses} {w w' : World} {x owner : Pubkey} (h : w.closeOO A x owner = .ok w') :
    ∃ ix k p s, A.signerOk owner ∧ w.indexers owner = some ix ∧ 1 ≤ ix.addresses.length ∧ w.home x = some k ∧
      w.markets k = some p ∧ closeOO (w.state k p) x owner = .ok s ∧ x ∈ ix.addresses ∧
      w' = ((w.put k s).setIndexer owner (some { ix with addresses := ix.addresses.erase x })).setHome x none := by
  unfold World.closeOO at h
  simp only [bind_ok, pure_ok, req_ok, okOr_ok] at h
  obtain ⟨_, h1, ix, h2, _, h3, k, h4, p, h5, s, h6, _, h7, h⟩ := h
  exact ⟨ix, k, p, s, h1, h2, h3, h4, h5, h6, h7, h.symm⟩

/-- The open orders accounts of all markets after one of them is put back. -/
theorem put_ownerAt (w : World) (k : Pubkey) (s : State) (j x : Pubkey) :
    (w.put k s).ownerAt j x = if j = k then (s.g.accts.get? x).map (·.owner) else w.ownerAt j x := by
  by_cases e : j = k
  · subst e; rw [if_pos rfl, put_ownerAt_self]
  · rw [if_neg e, put_ownerAt_ne w s x e]

/-- Markets after an instruction that only changes the set of accounts of one. -/
theorem WInv.putAccts {A : Addresses} {w : World} (h : WInv A w) {k : Pubkey} {p : Part} {s : State} (hp : w.markets k = some p)
    (hr : Reachable s) (hs : ∃ as, s = { w.state k p with g := { p.g with accts := as } }) :
    (∀ j q, (w.put k s).markets j = some q → Reachable ((w.put k s).state j q) ∧ q.g.market.marketAuthority = A.authority j ∧
      q.g.market.marketBaseVault = A.vault (A.authority j) q.g.market.baseMint ∧
      q.g.market.marketQuoteVault = A.vault (A.authority j) q.g.market.quoteMint ∧
      q.g.market.baseMint ≠ 0 ∧ q.g.market.quoteMint ≠ 0 ∧ A.isPda j = false) ∧
    (w.put k s).tokens = w.tokens ∧ (w.put k s).lamports = w.lamports := by
  obtain ⟨as, hs⟩ := hs
  have et : s.tokens = w.tokens := by rw [hs]; rfl
  have el : s.lamports = w.lamports := by rw [hs]; rfl
  refine ⟨h.putMarket hr (by rw [hs]; rfl) (by rw [hs]; exact (h.mkt k p hp).2) (F := ∅) (G := ∅) (fun i _ => by rw [et])
    (fun i _ => by rw [el]) (by rw [et]; exact h.tok) (by rw [el]; exact h.lam) (fun j q i _ _ _ => ?_) (fun j q _ _ _ => ?_), et, el⟩
  · rw [et]; exact ⟨rfl, rfl, Int.le_refl _⟩
  · rw [el]

theorem WInv.fresh {A : Addresses} {w : World} (h : WInv A w) {o : Pubkey} {ix : Indexer} (hix : w.indexers o = some ix) (k : Pubkey) :
    w.ownerAt k (A.next o ix) = none := by
  cases e : w.ownerAt k (A.next o ix) with
  | none => rfl
  | some o' =>
    obtain ⟨ix', n, h1, h2, h3, h4⟩ := h.addr k _ o' e
    obtain ⟨e1, e2⟩ := A.ooAddr_inj h4
    subst e1
    rw [hix] at h1; injection h1 with h1; subst h1
    omega

theorem WInv.createOO {A : Addresses} {w w' : World} (h : WInv A w) {k owner d : Pubkey} (hs : w.createOO A k owner d = .ok w') :
    WInv A w' := by
  obtain ⟨ix, p, s, h1, h2, h3, h4, h5, h6, h7, rfl⟩ := wcreateOO_inv hs
  obtain ⟨m1, _⟩ := h.mkt k p h6
  have hr : Reachable s := .step _ _ (.createOO (A.next owner ix) owner d) m1 h7
  obtain ⟨c1, c2, c3, c4⟩ := createOO_inv h7
  obtain ⟨q1, q2, q3⟩ := h.putAccts h6 hr ⟨_, c4⟩
  obtain ⟨i1, i2, i3, i4⟩ := h.index owner ix h2
  have c3 : p.g.accts.get? (A.next owner ix) = none := c3
  generalize hx : A.next owner ix = x at *
  have hown : ∀ j y, (w.put k s).ownerAt j y = if j = k ∧ y = x then some owner else w.ownerAt j y := by
    intro j y
    rw [put_ownerAt]
    by_cases e : j = k
    · subst e
      rw [if_pos rfl, c4]
      show (Accts.get? (p.g.accts ++ [(x, OOA.fresh owner d)]) y).map _ = _
      rw [Accts.get?_append, Accts.get?_cons, Accts.get?_nil]
      by_cases e2 : y = x
      · subst e2
        have c5 : p.g.accts.get? y = none := c3
        rw [c5]
        simp [OOA.fresh]
      · rw [if_neg (fun c => e2 c.symm), if_neg (fun c => e2 c.2), Option.or_none]
        unfold World.ownerAt; rw [h6]; rfl
    · rw [if_neg e, if_neg (fun c => e c.1)]
  have hfresh : ∀ j, w.ownerAt j x = none := fun j => by rw [← hx]; exact h.fresh h2 j
  refine ⟨q1, ?_, ?_, fun y j => ?_, fun o ix' hix => ?_, fun j y o e => ?_⟩
  · show ∀ i, inU64 ((w.put k s).tokens i).amount; rw [q2]; exact h.tok
  · show ∀ i, inU64 ((w.put k s).lamports i); rw [q3]; exact h.lam
  · show (if y = x then some k else w.home y) = some j ↔ ((w.put k s).ownerAt j y).isSome
    rw [hown]
    by_cases e : y = x
    · subst e
      rw [if_pos rfl]
      by_cases e2 : j = k
      · subst e2; simp
      · rw [if_neg (fun c => e2 c.1), hfresh j]
        simp; exact fun c => e2 c.symm
    · rw [if_neg e, if_neg (fun c => e c.2)]; exact h.home y j
  · have hix : (if o = owner then some { createdCounter := ix.createdCounter + 1, addresses := ix.addresses ++ [x] } else w.indexers o) =
      some ix' := hix
    show ix'.addresses.Nodup ∧ ix'.addresses.length ≤ 256 ∧ ix'.createdCounter < 4294967296 ∧
      ∀ y, y ∈ ix'.addresses ↔ ∃ j, (w.put k s).ownerAt j y = some o
    by_cases e : o = owner
    · subst e
      rw [if_pos rfl] at hix
      injection hix with hix; subst hix
      have hnot : x ∉ ix.addresses := fun hm => by
        obtain ⟨j, hj⟩ := (i4 x).mp hm
        rw [hfresh j] at hj; cases hj
      refine ⟨List.nodup_append.mpr ⟨i1, List.nodup_singleton _, fun a ha b hb => ?_⟩, by simp; omega, h4, fun y => ?_⟩
      · rw [List.mem_singleton] at hb; subst hb
        exact fun c => hnot (c ▸ ha)
      · simp only [List.mem_append, List.mem_singleton, hown]
        by_cases e2 : y = x
        · subst e2
          simp only [or_true, true_iff]
          exact ⟨k, by simp⟩
        · simp only [e2, or_false, and_false, if_false]; exact i4 y
    · rw [if_neg e] at hix
      obtain ⟨b1, b2, b3, b4⟩ := h.index o ix' hix
      refine ⟨b1, b2, b3, fun y => ?_⟩
      rw [b4 y]
      simp only [hown]
      constructor
      · rintro ⟨j, hj⟩
        refine ⟨j, ?_⟩
        have : y ≠ x := fun c => by rw [c, hfresh j] at hj; cases hj
        rw [if_neg (fun c => this c.2)]; exact hj
      · rintro ⟨j, hj⟩
        refine ⟨j, ?_⟩
        by_cases c : j = k ∧ y = x
        · rw [if_pos c] at hj; injection hj with hj; exact absurd hj.symm e
        · rw [if_neg c] at hj; exact hj
  · have e : (w.put k s).ownerAt j y = some o := e
    rw [hown] at e
    show ∃ ix' n, (if o = owner then some { createdCounter := ix.createdCounter + 1, addresses := ix.addresses ++ [x] } else w.indexers o) =
      some ix' ∧ 1 ≤ n ∧ n ≤ ix'.createdCounter ∧ y = A.ooAddr o n
    by_cases c : j = k ∧ y = x
    · rw [if_pos c] at e; injection e with e; subst e
      rw [if_pos rfl]
      exact ⟨_, ix.createdCounter + 1, rfl, by omega, Nat.le_refl _, by rw [c.2, ← hx]; rfl⟩
    · rw [if_neg c] at e
      obtain ⟨ix', n, a1, a2, a3, a4⟩ := h.addr j y o e
      by_cases c2 : o = owner
      · subst c2
        rw [h2] at a1; injection a1 with a1; subst a1
        rw [if_pos rfl]
        exact ⟨_, n, rfl, a2, by show n ≤ ix.createdCounter + 1; omega, a4⟩
      · rw [if_neg c2]; exact ⟨ix', n, a1, a2, a3, a4⟩

theorem WInv.closeOO {A : Addresses} {w w' : World} (h : WInv A w) {x owner : Pubkey} (hs : w.closeOO A x owner = .ok w') : WInv A w' := by
  obtain ⟨ix, k, p, s, h1, h2, h3, h4, h5, h6, h7, rfl⟩ := wcloseOO_inv hs
  obtain ⟨m1, _⟩ := h.mkt k p h5
  have hr : Reachable s := .step _ _ (.closeOO x owner) m1 h6
  obtain ⟨a, c1, c2, c3, c4⟩ := closeOO_inv h6
  obtain ⟨q1, q2, q3⟩ := h.putAccts h5 hr ⟨_, c4⟩
  obtain ⟨i1, i2, i3, i4⟩ := h.index owner ix h2
  obtain ⟨O, qs, hw⟩ := (reachable_Inv m1).core.linv
  have hnd : (p.g.accts.map (·.1)).Nodup := hw.ginv.nodup
  have hat : w.ownerAt k x = some owner := by
    unfold World.ownerAt; rw [h5]
    show (p.g.accts.get? x).map (·.owner) = some owner
    have c1 : p.g.accts.get? x = some a := c1
    rw [c1, ← c2]; rfl
  have hown : ∀ j y, (w.put k s).ownerAt j y = if y = x then none else w.ownerAt j y := by
    intro j y
    rw [put_ownerAt]
    by_cases e : j = k
    · subst e
      rw [if_pos rfl, c4]
      show (Accts.get? (p.g.accts.del x) y).map _ = _
      rw [Accts.get?_del hnd]
      by_cases e2 : y = x
      · rw [if_pos e2, if_pos e2]; rfl
      · rw [if_neg e2, if_neg e2]
        unfold World.ownerAt; rw [h5]; rfl
    · rw [if_neg e]
      by_cases e2 : y = x
      · subst e2
        rw [if_pos rfl]
        cases c : w.ownerAt j y with
        | none => rfl
        | some o =>
          have := (h.home y j).mpr (by rw [c]; rfl)
          rw [h4] at this; injection this with this
          exact absurd this.symm e
      · rw [if_neg e2]
  refine ⟨q1, ?_, ?_, fun y j => ?_, fun o ix' hix => ?_, fun j y o e => ?_⟩
  · show ∀ i, inU64 ((w.put k s).tokens i).amount; rw [q2]; exact h.tok
  · show ∀ i, inU64 ((w.put k s).lamports i); rw [q3]; exact h.lam
  · show (if y = x then none else w.home y) = some j ↔ ((w.put k s).ownerAt j y).isSome
    rw [hown]
    by_cases e : y = x
    · rw [if_pos e, if_pos e]; simp
    · rw [if_neg e, if_neg e]; exact h.home y j
  · have hix : (if o = owner then some { ix with addresses := ix.addresses.erase x } else w.indexers o) = some ix' := hix
    show ix'.addresses.Nodup ∧ ix'.addresses.length ≤ 256 ∧ ix'.createdCounter < 4294967296 ∧
      ∀ y, y ∈ ix'.addresses ↔ ∃ j, (w.put k s).ownerAt j y = some o
    simp only [hown]
    by_cases e : o = owner
    · subst e
      rw [if_pos rfl] at hix
      injection hix with hix; subst hix
      refine ⟨i1.erase _, Nat.le_trans (List.length_erase_le) i2, i3, fun y => ?_⟩
      show y ∈ ix.addresses.erase x ↔ _
      rw [i1.mem_erase_iff, i4 y]
      by_cases e2 : y = x
      · simp [e2]
      · simp [e2]
    · rw [if_neg e] at hix
      obtain ⟨b1, b2, b3, b4⟩ := h.index o ix' hix
      refine ⟨b1, b2, b3, fun y => ?_⟩
      rw [b4 y]
      by_cases e2 : y = x
      · subst e2
        simp only [if_true]
        constructor
        · rintro ⟨j, hj⟩
          have := (h.home y j).mpr (by rw [hj]; rfl)
          rw [h4] at this; injection this with this; subst this
          rw [hat] at hj; injection hj with hj; exact absurd hj.symm e
        · rintro ⟨_, hj⟩; cases hj
      · simp [e2]
  · have e : (w.put k s).ownerAt j y = some o := e
    rw [hown] at e
    show ∃ ix' n, (if o = owner then some { ix with addresses := ix.addresses.erase x } else w.indexers o) =
      some ix' ∧ 1 ≤ n ∧ n ≤ ix'.createdCounter ∧ y = A.ooAddr o n
    by_cases c : y = x
    · rw [if_pos c] at e; cases e
    · rw [if_neg c] at e
      obtain ⟨ix', n, a1, a2, a3, a4⟩ := h.addr j y o e
      by_cases c2 : o = owner
      · subst c2
        rw [h2] at a1; injection a1 with a1; subst a1
        rw [if_pos rfl]
        exact ⟨_, n, rfl, a2, a3, a4⟩
      · rw [if_neg c2]; exact ⟨ix', n, a1, a2, a3, a4⟩

theorem wexternalToken_inv {A : Addresses} {w w' : World} {k : Pubkey} {t : TokenAcct} (h : w.externalToken A k t = .ok w') :
    inU64 t.amount ∧ ((w.tokens k).mint ≠ 0 ∧ A.isPda (w.tokens k).owner = true →
      t.owner = (w.tokens k).owner ∧ t.mint = (w.tokens k).mint ∧ (w.tokens k).amount ≤ t.amount) ∧
      w' = { w with tokens := fun i => if i = k then t else w.tokens i } := by
  unfold World.externalToken at h
  simp only [bind_ok, pure_ok, req_ok] at h
  obtain ⟨_, h1, _, h2, h⟩ := h
  exact ⟨h1, h2, h.symm⟩

theorem wexternalLamports_inv {w w' : World} {k : Pubkey} {x : Int} (h : w.externalLamports k x = .ok w') :
    inU64 x ∧ (w.isOpen k = true → w.lamports k ≤ x) ∧ w' = { w with lamports := fun i => if i = k then x else w.lamports i } := by
  unfold World.externalLamports at h
  simp only [bind_ok, pure_ok, req_ok] at h
  obtain ⟨_, h1, h⟩ := h
  exact ⟨⟨h1.1, h1.2.1⟩, h1.2.2, h.symm⟩

theorem WInv.externalToken {A : Addresses} {w w' : World} (h : WInv A w) {k : Pubkey} {t : TokenAcct}
    (hs : w.externalToken A k t = .ok w') : WInv A w' := by
  obtain ⟨h1, h2, rfl⟩ := wexternalToken_inv hs
  have ht : ∀ i, inU64 (if i = k then t else w.tokens i).amount := by
    intro i; split
    · exact h1
    · exact h.tok i
  refine h.keepIndex rfl rfl (fun _ _ => rfl) (fun j p hp => ?_) ht h.lam
  refine ⟨h.aside hp (F := {k}) (G := ∅) (fun i hi => ?_) (fun i _ => rfl) ht h.lam (fun i hi => ?_) (fun _ => Int.le_refl _), (h.mkt j p hp).2⟩
  · rw [Finset.mem_singleton] at hi; simp only [if_neg hi]
  · by_cases e : i = k
    · subst e
      simp only [if_true]
      obtain ⟨v1, v2⟩ := h.vault hp hi
      exact h2 ⟨v2, by rw [v1]; exact A.authority_pda j⟩
    · simp only [if_neg e]; exact ⟨trivial, trivial, Int.le_refl _⟩

theorem WInv.externalLamports {A : Addresses} {w w' : World} (h : WInv A w) {k : Pubkey} {x : Int}
    (hs : w.externalLamports k x = .ok w') : WInv A w' := by
  obtain ⟨h1, h2, rfl⟩ := wexternalLamports_inv hs
  have hl : ∀ i, inU64 (if i = k then x else w.lamports i) := by
    intro i; split
    · exact h1
    · exact h.lam i
  refine h.keepIndex rfl rfl (fun _ _ => rfl) (fun j p hp => ?_) h.tok hl
  refine ⟨h.aside hp (F := ∅) (G := {k}) (fun i _ => rfl) (fun i hi => ?_) h.tok hl (fun i _ => ⟨rfl, rfl, Int.le_refl _⟩) ?_,
    (h.mkt j p hp).2⟩
  · rw [Finset.mem_singleton] at hi; simp only [if_neg hi]
  · intro ho
    by_cases e : j = k
    · subst e
      rw [if_pos rfl]; exact h2 (by unfold World.isOpen; rw [hp]; simp [ho])
    · rw [if_neg e]

theorem wreachable_WInv {A : Addresses} {w : World} (h : WReachable A w) : WInv A w := by
  induction h with
  | init tokens lamports ht hl =>
    refine ⟨?_, ht, hl, ?_, ?_, ?_⟩
    · intro k p hp; cases hp
    · intro x k; constructor <;> intro e <;> cases e
    · intro o ix e; cases e
    · intro k x o e; cases e
  | step w w' op _ h ih =>
    cases op with
    | market k op => exact ih.onMarket h
    | createMarket a now => exact ih.newMarket h
    | createIndexer owner => exact ih.createIndexer h
    | closeIndexer owner => exact ih.closeIndexer h
    | createOO k owner d => exact ih.createOO h
    | closeOO x owner => exact ih.closeOO h
    | externalToken k t => exact ih.externalToken h
    | externalLamports k x => exact ih.externalLamports h

end OB
