import Verif.Proofs.SimStep
import Verif.Proofs.Cancel
import Verif.Proofs.Chain
import Verif.Spec.Commute
import Verif.Spec.Others
import Verif.Proofs.SimView
/-! Cancelling for one account does not disturb what is done for others. -/
namespace OB
open Spec

theorem Accts.set_comm (as : Accts) {k j : Pubkey} (h : j ≠ k) (a b : OOA) : (as.set k a).set j b = (as.set j b).set k a := by
  induction as with
  | nil => rfl
  | cons x as ih =>
    by_cases h1 : x.1 = k
    · have h2 : ¬ x.1 = j := fun e => h (by rw [← e, h1])
      have h3 : ¬ k = j := fun e => h e.symm
      simp [Accts.set, h1, h2, h3]
    · by_cases h2 : x.1 = j
      · simp [Accts.set, h1, h2, h]
      · simp [Accts.set, h1, h2, ih]

theorem Accts.set_append (as : Accts) {k j : Pubkey} (h : j ≠ k) (a b : OOA) : (as ++ [(j, b)]).set k a = as.set k a ++ [(j, b)] := by
  induction as with
  | nil => simp [Accts.set, h]
  | cons x as ih =>
    by_cases h1 : x.1 = k
    · simp [Accts.set, h1]
    · simp [Accts.set, h1, ih]

theorem Accts.set_del (as : Accts) {k j : Pubkey} (h : j ≠ k) (a : OOA) : (as.set k a).del j = (as.del j).set k a := by
  induction as with
  | nil => rfl
  | cons x as ih =>
    by_cases h1 : x.1 = k
    · have h2 : ¬ x.1 = j := fun e => h (by rw [← e, h1])
      have h3 : ¬ k = j := fun e => h e.symm
      simp [Accts.set, Accts.del, h1, h2, h3]
    · by_cases h2 : x.1 = j
      · simp [Accts.set, Accts.del, h1, h2, h]
      · simp [Accts.set, Accts.del, h1, h2, ih]

theorem Accts.get_set_ne {as : Accts} {k j : Pubkey} (a : OOA) (h : j ≠ k) : (as.set k a).get j = as.get j := by
  unfold Accts.get; rw [Accts.get?_set_ne a h]

/-- Another book and another account `k`. -/
def State.upd (s : State) (bk : Book) (k : Pubkey) (a : OOA) : State := { s with book := bk, g := { s.g with accts := s.g.accts.set k a } }

/-- The rules of the market that cancelling looks at. -/
structure SameRules (m m' : Market) : Prop where
  auth : m'.marketAuthority = m.marketAuthority
  close : m'.closeMarketAdmin = m.closeMarketAdmin
  expiry : m'.timeExpiry = m.timeExpiry
  quote : m'.quoteLotSize = m.quoteLotSize
  base : m'.baseLotSize = m.baseLotSize
  maker : m'.makerFee = m.makerFee

theorem SameRules.cancelOrder {m m' : Market} (h : SameRules m m') (a : OOA) (slot : Nat) (q : Int) :
    a.cancelOrder slot q m' = a.cancelOrder slot q m := by
  unfold OOA.cancelOrder Market.makerFeesCeilU
  rw [h.quote, h.base, h.maker]

theorem SameRules.onBook {m m' : Market} (h : SameRules m m') (b : Book) (a : OOA) (id : Nat) (sd : Side) (c : Comp) (eo : Option Pubkey) :
    cancelOrderOnBook b a m' id sd c eo = cancelOrderOnBook b a m id sd c eo := by
  unfold cancelOrderOnBook
  simp only [h.cancelOrder]

theorem SameRules.loop {m m' : Market} (h : SameRules m m') (so : Option Side) (co : Option Nat) (n i limit : Nat) (b : Book) (a : OOA) (t : Int) :
    cancelAllLoop m' so co n i limit b a t = cancelAllLoop m so co n i limit b a t := by
  induction n generalizing i limit b a t with
  | zero => rfl
  | succ n ih => simp only [cancelAllLoop, h.onBook, ih]

/-- What a cancellation for `k` does depends on the book, the account `k`, and the rules. -/
theorem cancel_local {k : Pubkey} {op : Op} (hop : CancelsFor k op) {s t : State} (hc : t.closed = s.closed) (hm : SameRules s.g.market t.g.market)
    (hb : t.book = s.book) (ha : t.g.accts.get? k = s.g.accts.get? k) :
    RSim (fun x y => ∃ bk a, x = s.upd bk k a ∧ y = t.upd bk k a) (step s op) (step t op) := by
  have e1 : ∀ sg, authCancel t sg k = authCancel s sg k := by
    intro sg
    unfold authCancel State.open? signerOk Accts.get
    rw [hc, hm.auth, ha]
  have e2 : ∀ ad, authClose t ad = authClose s ad := by
    intro ad
    unfold authClose State.open?
    rw [hc, hm.close]
  have e3 : ∀ now, t.g.market.isExpired now = s.g.market.isExpired now := by
    intro now
    unfold Market.isExpired
    rw [hm.expiry]
  have e4 : ∀ limit so co, RSim (fun x y => ∃ bk a, x.2 = s.upd bk k a ∧ y.2 = t.upd bk k a) (cancelAllFor s k limit so co) (cancelAllFor t k limit so co) := by
    intro limit so co
    unfold cancelAllFor cancelAllOrders Accts.get
    rw [ha, hb]
    refine RSim.same fun a _ => ?_
    rw [hm.loop]
    exact RSim.same fun r _ => ⟨r.2.1, r.2.2, rfl, rfl⟩
  cases hop with
  | order sg id =>
    simp only [step, cancelOrderIx]
    rw [e1]
    refine RSim.same fun a _ => RSim.same fun _ _ => RSim.same fun oo _ => ?_
    rw [hb, hm.onBook]
    exact RSim.same fun r _ => ⟨r.2.1, r.2.2, rfl, rfl⟩
  | client sg cl =>
    simp only [step, cancelByClientId, bind_assoc]
    rw [e1]
    refine RSim.same fun a _ => RSim.bind (e4 _ _ _) ?_
    rintro x y ⟨bk, a, h1, h2⟩
    exact ⟨bk, a, h1, h2⟩
  | all sg so limit =>
    simp only [step, cancelAll]
    rw [e1]
    refine RSim.same fun a _ => RSim.bind (e4 _ _ _) ?_
    rintro x y ⟨bk, a, h1, h2⟩
    exact ⟨bk, a, h1, h2⟩
  | prune ad now limit =>
    simp only [step, pruneOrders]
    rw [e2, e3]
    refine RSim.same fun _ _ => RSim.same fun _ _ => RSim.bind (e4 _ _ _) ?_
    rintro x y ⟨bk, a, h1, h2⟩
    exact ⟨bk, a, h1, h2⟩

theorem Accts.get?_del_other {as : Accts} {k j : Pubkey} (h : j ≠ k) : (as.del j).get? k = as.get? k := by
  induction as with
  | nil => rfl
  | cons x as ih =>
    by_cases h1 : x.1 = j
    · simp [Accts.del, h1, Accts.get?, h]
    · by_cases h2 : x.1 = k
      · have h3 : ¬ k = j := fun e => h e.symm
        simp [Accts.del, Accts.get?, h2, h3]
      · unfold Accts.get? at ih
        simp [Accts.del, h1, Accts.get?, h2, ih]

/-- What an instruction that neither touches the book nor account `k` leaves alone. -/
structure LeavesAlone (k : Pubkey) (s s' : State) : Prop where
  book : s'.book = s.book
  closed : s'.closed = s.closed
  rules : SameRules s.g.market s'.g.market
  acct : s'.g.accts.get? k = s.g.accts.get? k

theorem SameRules.refl (m : Market) : SameRules m m := ⟨rfl, rfl, rfl, rfl, rfl, rfl⟩

/-- Instructions for others do the same whatever the book and account `k` are. -/
theorem manage_local {k : Pubkey} {op : Op} (hop : ManagesNone op ∨ ∃ j, j ≠ k ∧ ManagesFor j op) {s : State} (bk : Book) (a : OOA) :
    RSim (fun x y => y = x.upd bk k a ∧ LeavesAlone k s x) (step s op) (step (s.upd bk k a) op) := by
  have settle : ∀ c : SettleCtx, c.ooKey ≠ k →
      RSim (fun x y => y = x.upd bk k a ∧ LeavesAlone k s x) (settleCore s c) (settleCore (s.upd bk k a) c) := by
    intro c hj
    unfold settleCore
    have e : (s.upd bk k a).g.accts.get c.ooKey = s.g.accts.get c.ooKey := Accts.get_set_ne a hj
    rw [e]
    refine RSim.same fun x _ => RSim.same fun _ _ => RSim.same fun _ _ => RSim.same fun _ _ => RSim.same fun r hr => ?_
    refine RSim.same fun l _ => RSim.same fun t1 _ => RSim.same fun t2 _ => RSim.same fun t3 _ => ?_
    refine ⟨?_, rfl, rfl, ?_, Accts.get?_set_ne _ (Ne.symm hj)⟩
    · show ({ s.upd bk k a with g := _, tokens := _, lamports := _ } : State) = _
      simp only [State.upd, Accts.set_comm s.g.accts hj]
    · show SameRules s.g.market r.2.1
      unfold settleAccounting at hr
      simp only [bind_ok, pure_ok, ckU64_ok] at hr
      obtain ⟨_, _, m1, h1, _, _, _, _, _, _, rfl⟩ := hr
      have k1 : SameRules s.g.market m1 := by
        split at h1 <;> simp only [bind_ok, pure_ok] at h1
        · obtain ⟨_, _, _, _, rfl⟩ := h1; exact ⟨rfl, rfl, rfl, rfl, rfl, rfl⟩
        · obtain ⟨_, _, rfl⟩ := h1; exact ⟨rfl, rfl, rfl, rfl, rfl, rfl⟩
      exact ⟨k1.auth, k1.close, k1.expiry, k1.quote, k1.base, k1.maker⟩
  have dep : ∀ (sg j ub uq : Pubkey) (now b q : Int), j ≠ k →
      RSim (fun x y => y = x.upd bk k a ∧ LeavesAlone k s x) (deposit s sg j ub uq now b q) (deposit (s.upd bk k a) sg j ub uq now b q) := by
    intro sg j ub uq now b q hj
    unfold deposit
    refine RSim.same fun _ _ => RSim.same fun _ _ => RSim.same fun _ _ => RSim.same fun _ _ => RSim.same fun _ _ => ?_
    have e : (s.upd bk k a).g.accts.get j = s.g.accts.get j := Accts.get_set_ne a hj
    rw [e]
    refine RSim.same fun x _ => RSim.same fun _ _ => RSim.same fun _ _ => RSim.same fun _ _ => RSim.same fun _ _ => RSim.same fun _ _ =>
      RSim.same fun _ _ => RSim.same fun _ _ => ?_
    refine ⟨?_, rfl, rfl, ⟨rfl, rfl, rfl, rfl, rfl, rfl⟩, Accts.get?_set_ne _ (Ne.symm hj)⟩
    show ({ s.upd bk k a with g := _, tokens := _ } : State) = _
    simp only [State.upd, Accts.set_comm s.g.accts hj]
  rcases hop with hop | ⟨j, hj, hop⟩
  · cases hop with
    | sweep ad rc =>
      simp only [step, sweepFees]
      exact RSim.same fun _ _ => RSim.same fun _ _ => RSim.same fun _ _ => RSim.same fun _ _ => RSim.same fun _ _ =>
        ⟨rfl, rfl, rfl, ⟨rfl, rfl, rfl, rfl, rfl, rfl⟩, rfl⟩
    | token t x =>
      simp only [step, externalToken]
      exact RSim.same fun _ _ => RSim.same fun _ _ => ⟨rfl, rfl, rfl, .refl _, rfl⟩
    | lamports t x =>
      simp only [step, externalLamports]
      exact RSim.same fun _ _ => ⟨rfl, rfl, rfl, .refl _, rfl⟩
  · cases hop with
    | deposit sg ub uq now b q => exact dep sg j ub uq now b q hj
    | refill sg ub uq now b q =>
      simp only [step, refill]
      have e : (s.upd bk k a).g.accts.get j = s.g.accts.get j := Accts.get_set_ne a hj
      rw [e]
      exact RSim.same fun x _ => RSim.same fun _ _ => dep _ _ _ _ _ _ _ hj
    | settle c h =>
      subst h
      simp only [step, settleFunds]
      refine RSim.same fun _ _ => RSim.same fun _ _ => RSim.same fun _ _ => ?_
      have e : (s.upd bk k a).g.accts.get c.ooKey = s.g.accts.get c.ooKey := Accts.get_set_ne a hj
      rw [e]
      exact RSim.same fun x _ => RSim.same fun _ _ => RSim.same fun _ _ => RSim.same fun _ _ => settle c hj
    | settleExpired ad c now h =>
      subst h
      simp only [step, settleFundsExpired]
      refine RSim.same fun _ _ => RSim.same fun _ _ => RSim.same fun _ _ => RSim.same fun _ _ => ?_
      have e : (s.upd bk k a).g.accts.get c.ooKey = s.g.accts.get c.ooKey := Accts.get_set_ne a hj
      rw [e]
      exact RSim.same fun x _ => RSim.same fun _ _ => RSim.same fun _ _ => RSim.same fun _ _ => settle c hj
    | create ow de =>
      simp only [step, createOO]
      refine RSim.same fun _ _ => RSim.same fun _ _ => ?_
      have e : (s.upd bk k a).g.accts.get? j = s.g.accts.get? j := Accts.get?_set_ne a hj
      rw [e]
      refine RSim.same fun _ _ => ⟨?_, rfl, rfl, .refl _, ?_⟩
      · show ({ s.upd bk k a with g := _ } : State) = _
        simp only [State.upd]
        rw [Accts.set_append _ hj]
      · show Accts.get? (s.g.accts ++ _) k = _
        rw [Accts.get?_append]
        have : Accts.get? [(j, OOA.fresh ow de)] k = none := by simp [Accts.get?, hj]
        rw [this, Option.or_none]
    | close ow =>
      simp only [step, closeOO]
      have e : (s.upd bk k a).g.accts.get j = s.g.accts.get j := Accts.get_set_ne a hj
      rw [e]
      refine RSim.same fun x _ => RSim.same fun _ _ => RSim.same fun _ _ => ⟨?_, rfl, rfl, .refl _, Accts.get?_del_other hj⟩
      show ({ s.upd bk k a with g := _ } : State) = _
      simp only [State.upd, Accts.set_del s.g.accts hj]
    | delegate ow de =>
      simp only [step, setDelegate]
      have e : (s.upd bk k a).g.accts.get j = s.g.accts.get j := Accts.get_set_ne a hj
      rw [e]
      refine RSim.same fun x _ => RSim.same fun _ _ => ⟨?_, rfl, rfl, .refl _, Accts.get?_set_ne _ (Ne.symm hj)⟩
      show ({ s.upd bk k a with g := _ } : State) = _
      simp only [State.upd, Accts.set_comm s.g.accts hj]

/-- A cancellation needs its account. -/
theorem Spec.CancelsFor.acct {k : Pubkey} {op : Op} (hop : CancelsFor k op) {s s' : State} (h : step s op = .ok s') :
    ∃ a, s.g.accts.get? k = some a := by
  have e4 : ∀ {limit so co r}, cancelAllFor s k limit so co = .ok r → ∃ a, s.g.accts.get? k = some a := by
    intro limit so co r h
    unfold cancelAllFor at h
    simp only [bind_ok, Accts.get_ok] at h
    obtain ⟨a, ha, _⟩ := h
    exact ⟨a, ha⟩
  cases hop with
  | order sg id =>
    simp only [step, cancelOrderIx, authCancel, bind_ok, Accts.get_ok] at h
    obtain ⟨_, ⟨_, _, _, _, a, ha, _⟩, _⟩ := h
    exact ⟨a, ha⟩
  | client sg cl =>
    simp only [step, cancelByClientId, bind_ok] at h
    obtain ⟨_, ⟨_, _, h⟩, _⟩ := h
    exact e4 h
  | all sg so limit =>
    simp only [step, cancelAll, bind_ok] at h
    obtain ⟨_, _, _, h, _⟩ := h
    exact e4 h
  | prune ad now limit =>
    simp only [step, pruneOrders, bind_ok] at h
    obtain ⟨_, _, _, _, _, h, _⟩ := h
    exact e4 h

theorem RSim.ok_left {α β : Type} {P : α → β → Prop} {x : R α} {y : R β} (h : RSim P x y) {a : α} (hx : x = .ok a) :
    ∃ b, y = .ok b ∧ P a b := by
  subst hx
  cases y with
  | error e => exact h.elim
  | ok b => exact ⟨b, rfl, h⟩

theorem RSim.ok_right {α β : Type} {P : α → β → Prop} {x : R α} {y : R β} (h : RSim P x y) {b : β} (hy : y = .ok b) :
    ∃ a, x = .ok a ∧ P a b := by
  subst hy
  cases x with
  | error e => exact h.elim
  | ok a => exact ⟨a, rfl, h⟩

theorem cancel_manage {k : Pubkey} {x y : Op} (hx : CancelsFor k x) (hy : ManagesNone y ∨ ∃ j, j ≠ k ∧ ManagesFor j y) {s s' : State} :
    Then x y s s' ↔ Then y x s s' := by
  constructor
  · rintro ⟨s1, h1, h2⟩
    obtain ⟨a0, ha0⟩ := hx.acct h1
    obtain ⟨_, _, bk, a, e1, _⟩ := (cancel_local hx (s := s) (t := s) rfl (.refl _) rfl rfl).ok_left h1
    subst e1
    obtain ⟨s2, h3, e2, l⟩ := (manage_local hy bk a).ok_right h2
    obtain ⟨s3, h4, bk', a', e3, e4⟩ := (cancel_local hx l.closed l.rules l.book l.acct).ok_left h1
    refine ⟨s2, h3, ?_⟩
    rw [h4, e4, e2]
    have e5 : bk' = bk := (congrArg State.book e3).symm
    have e6 : some a' = some a := by
      have := congrArg (fun t : State => t.g.accts.get? k) e3
      rw [← Accts.get?_set_self a' ha0, ← Accts.get?_set_self a ha0]
      exact this.symm
    injection e6 with e6
    rw [e5, e6]
  · rintro ⟨s2, h3, h4⟩
    obtain ⟨a2, ha2⟩ := hx.acct h4
    obtain ⟨_, _, _, l⟩ := (manage_local hy s.book a2).ok_left h3
    obtain ⟨s1, h1, bk, a, e1, e2⟩ := (cancel_local hx l.closed l.rules l.book l.acct).ok_right h4
    refine ⟨s1, h1, ?_⟩
    obtain ⟨s3, h5, e3, _⟩ := (manage_local hy bk a).ok_left h3
    rw [e1, h5, e3, e2]

/-! ### Two cancellations -/

/-- The orders that the slots of an account name. -/
def OOA.names (a : OOA) (t : Side × Comp × Nat) : Prop := ∃ oo ∈ a.openOrders, oo.isFree = false ∧ t = (oo.side, oo.comp, oo.id)

/-- Two books that hold the same orders among those named by `K`. -/
structure SameNamed (K : Side × Comp × Nat → Prop) (b b' : Book) : Prop where
  l : BookOk b
  r : BookOk b'
  iff : ∀ x, K (restId x) → (x ∈ b'.resting ↔ x ∈ b.resting)

/-- The orders `ls` leave the book, and nothing else changes. -/
structure Leave (b b1 : Book) (ls : Rests) : Prop where
  perm : b.resting.Perm (ls ++ b1.resting)
  peak : ∀ sd, (b1.side sd).nodes.bumpIndex = (b.side sd).nodes.bumpIndex

theorem Leave.trans {b b1 b2 : Book} {ls ls' : Rests} (h : Leave b b1 ls) (h' : Leave b1 b2 ls') : Leave b b2 (ls ++ ls') :=
  ⟨by rw [List.append_assoc]; exact h.perm.trans (List.Perm.append_left _ h'.perm), fun sd => (h'.peak sd).trans (h.peak sd)⟩

theorem Leave.refl (b : Book) : Leave b b [] := ⟨.refl _, fun _ => rfl⟩

theorem setSide_peak {b : Book} {sd : Side} {x : BookSide} (h : x.nodes.bumpIndex = (b.side sd).nodes.bumpIndex) (s : Side) :
    ((b.setSide sd x).side s).nodes.bumpIndex = (b.side s).nodes.bumpIndex := by
  rcases side_cases sd s with rfl | rfl
  · rw [Book.side_setSide, h]
  · rw [Book.side_setSide_invert']

theorem onBook_peak {b b1 : Book} {a a1 : OOA} {m : Market} {id : Nat} {sd : Side} {c : Comp} {eo : Option Pubkey} {l : LeafNode}
    (h : cancelOrderOnBook b a m id sd c eo = .ok (l, b1, a1)) (s : Side) :
    (b1.side s).nodes.bumpIndex = (b.side s).nodes.bumpIndex := by
  unfold cancelOrderOnBook at h
  simp only [bind_ok] at h
  obtain ⟨o, h1, h⟩ := h
  cases o with
  | none => cases h
  | some x =>
    obtain ⟨l', b'⟩ := x
    cases eo with
    | none =>
      simp only [bind_ok, pure_ok, ok_bind, Prod.mk.injEq] at h
      obtain ⟨_, _, _, rfl, _⟩ := h
      exact setSide_peak (bs_removeByKey_bump h1) s
    | some o =>
      simp only [bind_ok, pure_ok, Prod.mk.injEq] at h
      obtain ⟨_, _, _, _, _, rfl, _⟩ := h
      exact setSide_peak (bs_removeByKey_bump h1) s

/-- Cancelling an order does the same in two books that agree on it. -/
theorem onBook_alike {K : Side × Comp × Nat → Prop} {b b' : Book} (h : SameNamed K b b') {id : Nat} {sd : Side} {c : Comp} (hk : K (sd, c, id))
    (a : OOA) (m : Market) (eo : Option Pubkey) :
    RSim (fun x y => y.1 = x.1 ∧ y.2.2 = x.2.2 ∧ x.1.key = id ∧ a.cancelOrder x.1.ownerSlot x.1.quantity m = .ok x.2.2 ∧
      Leave b x.2.1 [(sd, c, x.1)] ∧ Leave b' y.2.1 [(sd, c, x.1)] ∧ SameNamed K x.2.1 y.2.1)
      (cancelOrderOnBook b a m id sd c eo) (cancelOrderOnBook b' a m id sd c eo) := by
  have key : RSim (fun x y => y.1 = x.1 ∧ y.2.2 = x.2.2) (cancelOrderOnBook b a m id sd c eo) (cancelOrderOnBook b' a m id sd c eo) := by
    obtain ⟨ot, hot⟩ := h.l.ok sd
    obtain ⟨ot', hot'⟩ := h.r.ok sd
    have mem : ∀ l : LeafNode, l.key = id → (l ∈ OT.lvs (ot' c) ↔ l ∈ OT.lvs (ot c)) := by
      intro l hl
      rw [← hot'.orders c, ← hot.orders c, ← mem_resting, ← mem_resting]
      exact h.iff _ (by unfold restId; rw [hl]; exact hk)
    unfold cancelOrderOnBook
    rcases bs_removeByKey hot c id with ⟨h1, h2⟩ | ⟨l, b1, o1, h1, h2, h3, h4, h5, h6⟩ <;>
      rcases bs_removeByKey hot' c id with ⟨g1, g2⟩ | ⟨l', b1', o1', g1, g2, g3, g4, g5, g6⟩
    · rw [h1, g1]; exact rfl
    · exact absurd g2 (h2 l' ((mem l' g2).mp (g4.mem_iff.mpr List.mem_cons_self)))
    · exact absurd h2 (g2 l ((mem l h2).mpr (h4.mem_iff.mpr List.mem_cons_self)))
    · rw [h1, g1]
      have m1 : (sd, c, l) ∈ b.resting := by rw [mem_resting, hot.orders c]; exact h4.mem_iff.mpr List.mem_cons_self
      have m2 : (sd, c, l') ∈ b.resting := by
        rw [mem_resting, hot.orders c]; exact (mem l' g2).mp (g4.mem_iff.mpr List.mem_cons_self)
      have e : (sd, c, l') = (sd, c, l) := by
        have hn := resting_ids h.l
        exact List.inj_on_of_nodup_map hn m2 m1 (by simp only [restId, h2, g2])
      injection e with _ e
      injection e with _ e
      subst e
      simp only [ok_bind]
      cases eo with
      | none => simp only [ok_bind]; exact RSim.same fun _ _ => ⟨rfl, rfl⟩
      | some o => exact RSim.same fun _ _ => RSim.same fun _ _ => ⟨rfl, rfl⟩
  cases hx : cancelOrderOnBook b a m id sd c eo with
  | error e =>
    rw [hx] at key
    cases hy : cancelOrderOnBook b' a m id sd c eo with
    | error e' => rw [hy] at key; exact key
    | ok y => rw [hy] at key; exact key.elim
  | ok x =>
    rw [hx] at key
    obtain ⟨y, hy, e1, e2⟩ := key.ok_left rfl
    rw [hy]
    obtain ⟨l, b1, a1⟩ := x
    obtain ⟨l', b1', a1'⟩ := y
    simp only at e1 e2
    subst e1 e2
    obtain ⟨c1, c2, c3, c4, _⟩ := cancelOnBook_inv h.l hx
    obtain ⟨d1, d2, d3, d4, _⟩ := cancelOnBook_inv h.r hy
    refine ⟨rfl, rfl, c1, c4, ⟨c3, onBook_peak hx⟩, ⟨d3, onBook_peak hy⟩, c2, d2, fun x hxk => ?_⟩
    have q := h.iff x hxk
    rw [c3.mem_iff, d3.mem_iff, List.mem_cons, List.mem_cons] at q
    have n1 := resting_ids h.l
    have n2 := resting_ids h.r
    rw [(c3.map restId).nodup_iff, List.map_cons, List.nodup_cons] at n1
    rw [(d3.map restId).nodup_iff, List.map_cons, List.nodup_cons] at n2
    constructor
    · intro hm
      rcases q.mp (.inr hm) with e | e
      · subst e; exact absurd (List.mem_map_of_mem hm) n2.1
      · exact e
    · intro hm
      rcases q.mpr (.inr hm) with e | e
      · subst e; exact absurd (List.mem_map_of_mem hm) n1.1
      · exact e

theorem OOA.cancelOrder_names {a a1 : OOA} {slot : Nat} {q : Int} {m : Market} (h : a.cancelOrder slot q m = .ok a1) {t : Side × Comp × Nat}
    (ht : a1.names t) : a.names t := by
  obtain ⟨oo, fees, r⟩ := cancelOrder_inv h
  obtain ⟨o, ho, hf, e⟩ := ht
  rw [r.res] at ho
  rcases List.mem_or_eq_of_mem_set ho with h1 | h1
  · exact ⟨o, h1, hf, e⟩
  · subst h1; cases hf

theorem loop_alike {K : Side × Comp × Nat → Prop} (m : Market) (so : Option Side) (co : Option Nat) (n i limit : Nat) {b b' : Book}
    (h : SameNamed K b b') (a : OOA) (t : Int) (hk : ∀ x, a.names x → K x) :
    RSim (fun x y => y.1 = x.1 ∧ y.2.2 = x.2.2 ∧ ∃ ls, (∀ z ∈ ls, K (restId z)) ∧ Leave b x.2.1 ls ∧ Leave b' y.2.1 ls)
      (cancelAllLoop m so co n i limit b a t) (cancelAllLoop m so co n i limit b' a t) := by
  induction n generalizing i limit b b' a t with
  | zero => exact ⟨rfl, rfl, [], (fun _ h => nomatch h), .refl _, .refl _⟩
  | succ n ih =>
    simp only [cancelAllLoop]
    refine RSim.same fun oo hoo => ?_
    split
    · exact ih _ _ h _ _ hk
    rename_i hfree
    split
    · exact ih _ _ h _ _ hk
    split
    · exact ih _ _ h _ _ hk
    split
    · exact ⟨rfl, rfl, [], (fun _ h => nomatch h), .refl _, .refl _⟩
    rw [OOA.openOrder, unwrapR_ok] at hoo
    have hname : K (oo.side, oo.comp, oo.id) := hk _ ⟨oo, List.mem_of_getElem? hoo, by simpa using hfree, rfl⟩
    have key := onBook_alike h hname a m none
    cases hx : cancelOrderOnBook b a m oo.id oo.side oo.comp none with
    | error e =>
      rw [hx] at key
      cases hy : cancelOrderOnBook b' a m oo.id oo.side oo.comp none with
      | ok y => rw [hy] at key; exact key.elim
      | error e' =>
        rw [hy] at key
        have key : e = e' := key
        subst key
        cases e <;> first | exact ih _ _ h _ _ hk | exact rfl
    | ok x =>
      rw [hx] at key
      obtain ⟨y, hy, e1, e2, e3, e4, e5, e6, e7⟩ := key.ok_left rfl
      rw [hy]
      obtain ⟨l, b1, a1⟩ := x
      obtain ⟨l', b1', a1'⟩ := y
      simp only at e1 e2 e3 e4 e5 e6 e7
      subst e1 e2
      refine RSim.same fun t' _ => RSim.mono (ih _ _ e7 a1' t' fun x hx => hk x (OOA.cancelOrder_names e4 hx)) ?_
      rintro x y ⟨f1, f2, ls, f3, f4, f5⟩
      refine ⟨f1, f2, (oo.side, oo.comp, l') :: ls, ?_, e5.trans f4, e6.trans f5⟩
      intro z hz
      rcases List.mem_cons.mp hz with rfl | hz
      · unfold restId; rw [e3]; exact hname
      · exact f3 z hz

/-- A cancellation for `k` does the same in two states that agree on the account and its orders. -/
theorem cancel_alike {k : Pubkey} {op : Op} (hop : CancelsFor k op) {s t : State} {K : Side × Comp × Nat → Prop} (hc : t.closed = s.closed)
    (hm : SameRules s.g.market t.g.market) (hb : SameNamed K s.book t.book) (ha : t.g.accts.get? k = s.g.accts.get? k)
    (hk : ∀ a, s.g.accts.get? k = some a → ∀ x, a.names x → K x) :
    RSim (fun x y => ∃ bk bk' a ls, x = s.upd bk k a ∧ y = t.upd bk' k a ∧ (∀ z ∈ ls, K (restId z)) ∧ Leave s.book bk ls ∧ Leave t.book bk' ls)
      (step s op) (step t op) := by
  have e1 : ∀ sg, authCancel t sg k = authCancel s sg k := by
    intro sg
    unfold authCancel State.open? signerOk Accts.get
    rw [hc, hm.auth, ha]
  have e2 : ∀ ad, authClose t ad = authClose s ad := by
    intro ad
    unfold authClose State.open?
    rw [hc, hm.close]
  have e3 : ∀ now, t.g.market.isExpired now = s.g.market.isExpired now := by
    intro now
    unfold Market.isExpired
    rw [hm.expiry]
  have e4 : ∀ limit so co, RSim (fun x y => ∃ bk bk' a ls, x.2 = s.upd bk k a ∧ y.2 = t.upd bk' k a ∧ (∀ z ∈ ls, K (restId z)) ∧
      Leave s.book bk ls ∧ Leave t.book bk' ls) (cancelAllFor s k limit so co) (cancelAllFor t k limit so co) := by
    intro limit so co
    unfold cancelAllFor cancelAllOrders Accts.get
    rw [ha]
    refine RSim.same fun a haa => ?_
    rw [hm.loop]
    refine RSim.bind (loop_alike s.g.market so co _ _ _ hb a 0 (hk a (Accts.get_ok.mp haa))) ?_
    rintro ⟨q, bk, a1⟩ ⟨q', bk', a1'⟩ ⟨f1, f2, ls, f3, f4, f5⟩
    simp only at f1 f2
    subst f1 f2
    exact ⟨bk, bk', a1', ls, rfl, rfl, f3, f4, f5⟩
  cases hop with
  | order sg id =>
    simp only [step, cancelOrderIx]
    rw [e1]
    refine RSim.same fun a hau => RSim.same fun _ _ => RSim.same fun oo hoo => ?_
    rw [hm.onBook]
    have ha' : s.g.accts.get? k = some a := by
      simp only [authCancel, bind_ok, pure_ok, Accts.get_ok] at hau
      obtain ⟨_, _, _, _, a', ha', _, _, rfl⟩ := hau
      exact ha'
    rw [okOr_ok] at hoo
    unfold OOA.findOrder at hoo
    have hmem := List.mem_of_find?_eq_some hoo
    have hp := List.find?_some hoo
    simp only [decide_eq_true_eq] at hp
    have hname : K (oo.side, oo.comp, oo.id) := hk a ha' _ ⟨oo, hmem, hp.1, rfl⟩
    refine RSim.bind (onBook_alike hb hname a _ _) ?_
    rintro ⟨l, bk, a1⟩ ⟨l', bk', a1'⟩ ⟨f1, f2, f3, _, f4, f5, _⟩
    simp only at f1 f2 f3
    subst f1 f2
    refine ⟨bk, bk', a1', _, rfl, rfl, ?_, f4, f5⟩
    intro z hz
    rw [List.mem_singleton] at hz
    subst hz
    unfold restId; rw [f3]; exact hname
  | client sg cl =>
    simp only [step, cancelByClientId, bind_assoc]
    rw [e1]
    refine RSim.same fun a _ => RSim.bind (e4 _ _ _) ?_
    rintro x y ⟨bk, bk', a, ls, h1, h2, h3⟩
    exact ⟨bk, bk', a, ls, h1, h2, h3⟩
  | all sg so limit =>
    simp only [step, cancelAll]
    rw [e1]
    refine RSim.same fun a _ => RSim.bind (e4 _ _ _) ?_
    rintro x y ⟨bk, bk', a, ls, h1, h2, h3⟩
    exact ⟨bk, bk', a, ls, h1, h2, h3⟩
  | prune ad now limit =>
    simp only [step, pruneOrders]
    rw [e2, e3]
    refine RSim.same fun _ _ => RSim.same fun _ _ => RSim.bind (e4 _ _ _) ?_
    rintro x y ⟨bk, bk', a, ls, h1, h2, h3⟩
    exact ⟨bk, bk', a, ls, h1, h2, h3⟩

/-- An order of the book is named by the slots of one account only. -/
theorem names_owner {s : State} (hr : Reachable s) {k : Pubkey} {a : OOA} (ha : s.g.accts.get? k = some a) {x : Side × Comp × LeafNode}
    (hx : x ∈ s.book.resting) (hn : a.names (restId x)) : x.2.2.owner = k := by
  obtain ⟨sd, c, l⟩ := x
  obtain ⟨L', L'', hp⟩ := List.mem_iff_append.mp hx
  have hl := (reachable_Inv hr).core.linv.perm (L' := (sd, c, l) :: (L' ++ L'')) (by rw [hp]; exact List.perm_middle)
  obtain ⟨oo, ho, hf, e⟩ := hn
  obtain ⟨i, hi⟩ := List.mem_iff_getElem?.mp ho
  simp only [restId, Prod.mk.injEq] at e
  exact (hl.slotOwner ha hi hf e.1.symm e.2.2.symm).1

theorem cancel_cancel {k j : Pubkey} (hkj : k ≠ j) {x y : Op} (hx : CancelsFor k x) (hy : CancelsFor j y) {s s' : State} (hr : Reachable s)
    (h : Then x y s s') : ∃ s'', Then y x s s'' ∧ SameView s' s'' := by
  obtain ⟨s1, h1, h2⟩ := h
  obtain ⟨a0, ha0⟩ := hx.acct h1
  have hr1 : Reachable s1 := .step _ _ _ hr h1
  have bok := (reachable_Inv hr).core.bookOk
  have bok1 := (reachable_Inv hr1).core.bookOk
  obtain ⟨_, hs1, bk1, _, a1, ls1, e1, _, n1, v1, _⟩ :=
    (cancel_alike hx (s := s) (t := s) (K := a0.names) rfl (.refl _) ⟨bok, bok, fun _ _ => Iff.rfl⟩ rfl
      (fun a ha z hz => by rw [ha0] at ha; injection ha with ha; subst ha; exact hz)).ok_left h1
  have ej : s1.g.accts.get? j = s.g.accts.get? j := by rw [e1]; exact Accts.get?_set_ne _ (Ne.symm hkj)
  obtain ⟨b0, hb0⟩ := hy.acct h2
  rw [ej] at hb0
  have v1' : Leave s.book s1.book ls1 := by rw [e1]; exact v1
  have al1 : SameNamed b0.names s1.book s.book := by
    refine ⟨bok1, bok, fun z hz => ⟨fun hm => ?_, fun hm => v1'.perm.mem_iff.mpr (List.mem_append_right _ hm)⟩⟩
    rcases List.mem_append.mp (v1'.perm.mem_iff.mp hm) with hm' | hm'
    · exact absurd ((names_owner hr ha0 hm (n1 z hm')).symm.trans (names_owner hr hb0 hm hz)) hkj
    · exact hm'
  obtain ⟨s2, h3, bk12, bk2, b, ls2, e2, e3, n2, v2, v3⟩ :=
    (cancel_alike hy (s := s1) (t := s) (K := b0.names) (by rw [e1]; rfl) (by rw [e1]; exact .refl _) al1 ej.symm
      (fun a ha z hz => by rw [ej, hb0] at ha; injection ha with ha; subst ha; exact hz)).ok_left h2
  have hr2 : Reachable s2 := .step _ _ _ hr h3
  have bok2 := (reachable_Inv hr2).core.bookOk
  have ek : s2.g.accts.get? k = s.g.accts.get? k := by rw [e3]; exact Accts.get?_set_ne _ hkj
  have v3' : Leave s.book s2.book ls2 := by rw [e3]; exact v3
  have al2 : SameNamed a0.names s.book s2.book := by
    refine ⟨bok, bok2, fun z hz => ⟨fun hm => v3'.perm.mem_iff.mpr (List.mem_append_right _ hm), fun hm => ?_⟩⟩
    rcases List.mem_append.mp (v3'.perm.mem_iff.mp hm) with hm' | hm'
    · exact absurd ((names_owner hr ha0 hm hz).symm.trans (names_owner hr hb0 hm (n2 z hm'))) hkj
    · exact hm'
  obtain ⟨s3, h4, bk1', bk21, a1', ls, e4, e5, n3, v4, v5⟩ :=
    (cancel_alike hx (s := s) (t := s2) (K := a0.names) (by rw [e3]; rfl) (by rw [e3]; exact .refl _) al2 ek
      (fun a ha z hz => by rw [ha0] at ha; injection ha with ha; subst ha; exact hz)).ok_left h1
  have v4' : Leave s.book s1.book ls := by rw [e4]; exact v4
  refine ⟨s3, ⟨s2, h3, h4⟩, ?_⟩
  have hperm : s'.book.resting.Perm s3.book.resting := by
    have p1 := (v4'.trans v2).perm
    have p2 := (v3'.trans v5).perm
    have p3 : (ls ++ ls2 ++ bk12.resting).Perm (ls ++ ls2 ++ bk21.resting) :=
      p1.symm.trans (p2.trans (List.perm_append_comm.append_right _))
    rw [e2, e5]
    exact (List.perm_append_left_iff _).mp p3
  refine ⟨?_, ?_, ?_, ?_, ?_, fun z => hperm.symm.mem_iff, ?_⟩
  · rw [e2, e5, e4, e3]
    show ({ s.g with accts := (s.g.accts.set j b).set k a1' } : Ledger) = { s.g with accts := (s.g.accts.set k a1').set j b }
    rw [Accts.set_comm s.g.accts hkj]
  · rw [e2, e5, e4, e3]; rfl
  · rw [e2, e5, e4, e3]; rfl
  · rw [e2, e5, e4, e3]; rfl
  · rw [e2, e5, e4, e3]; rfl
  · intro sd
    have p1 := (v4'.trans v2).peak sd
    have p2 := (v3'.trans v5).peak sd
    rw [e2, e5]
    exact p2.trans p1.symm

/-! ### Any number of instructions -/

theorem Spec.SameView.rfl' (s : State) : SameView s s := ⟨rfl, rfl, rfl, rfl, rfl, fun _ => Iff.rfl, fun _ => rfl⟩

theorem Spec.SameView.trans' {s t u : State} (h : SameView s t) (h' : SameView t u) : SameView s u :=
  ⟨h'.ledger.trans h.ledger, h'.tokens.trans h.tokens, h'.lamports.trans h.lamports, h'.key.trans h.key, h'.closed.trans h.closed,
    fun x => (h'.orders x).trans (h.orders x), fun sd => (h'.peak sd).trans (h.peak sd)⟩

theorem view_step {s t s' : State} {op : Op} (hs : Reachable s) (ht : Reachable t) (h : SameView s t) (h1 : step s op = .ok s') :
    ∃ t', step t op = .ok t' ∧ SameView s' t' := by
  obtain ⟨e, hb⟩ := SameView.sim hs ht h
  obtain ⟨t', h2, h3⟩ := (step_sim hb op).ok_left h1
  exact ⟨t', by rw [e]; exact h2, h3.view⟩

theorem swap_one {k : Pubkey} {x y : Op} (hx : CancelsFor k x) (hy : PlacesNothingFor k y) {s s' : State} (hr : Reachable s) :
    (Then x y s s' → ∃ s'', Then y x s s'' ∧ SameView s' s'') ∧ (Then y x s s' → ∃ s'', Then x y s s'' ∧ SameView s' s'') := by
  cases hy with
  | cancel h hy => exact ⟨cancel_cancel (Ne.symm h) hx hy hr, cancel_cancel h hy hx hr⟩
  | manage hy => exact ⟨fun h => ⟨s', (cancel_manage hx hy).mp h, .rfl' _⟩, fun h => ⟨s', (cancel_manage hx hy).mpr h, .rfl' _⟩⟩

theorem runs_snoc_inv {s s' : State} {ops : List Op} {op : Op} (h : Runs s (ops ++ [op]) s') : ∃ s1, Runs s ops s1 ∧ step s1 op = .ok s' := by
  generalize e : ops ++ [op] = l at h
  cases h with
  | nil => simp at e
  | snoc op' h1 h2 =>
    obtain ⟨e1, e2⟩ := List.append_inj' e rfl
    injection e2 with e2 _
    subst e1 e2
    exact ⟨_, h1, h2⟩

theorem runs_reach {s s' : State} {ops : List Op} (hr : Reachable s) (h : Runs s ops s') : Reachable s' := by
  induction h with
  | nil => exact hr
  | snoc op _ h ih => exact .step _ _ op ih h

theorem runs_ahead {k : Pubkey} {x : Op} (hx : CancelsFor k x) {ops : List Op} (ho : ∀ y ∈ ops, PlacesNothingFor k y) {s s' : State}
    (hr : Reachable s) (h : Runs s (ops ++ [x]) s') : ∃ s'', Runs s (x :: ops) s'' ∧ SameView s' s'' := by
  obtain ⟨s1, h1, h2⟩ := runs_snoc_inv h
  clear h
  induction h1 generalizing s' with
  | nil => exact ⟨s', .snoc (ops := []) x .nil h2, .rfl' _⟩
  | @snoc s1 s2 ops y h1 h3 ih =>
    have hr1 := runs_reach hr h1
    obtain ⟨t, ⟨s3, g1, g2⟩, v⟩ := (swap_one hx (ho y (by simp)) hr1).2 ⟨s2, h3, h2⟩
    obtain ⟨t3, r, v3⟩ := ih (fun z hz => ho z (by simp [hz])) g1
    obtain ⟨t4, g3, v4⟩ := view_step (.step _ _ _ hr1 g1) (runs_reach hr r) v3 g2
    exact ⟨t4, .snoc (ops := x :: ops) y r g3, v.trans' v4⟩

theorem runs_behind {k : Pubkey} {x : Op} (hx : CancelsFor k x) {ops : List Op} (ho : ∀ y ∈ ops, PlacesNothingFor k y) {s s' : State}
    (hr : Reachable s) (h : Runs s (x :: ops) s') : ∃ s'', Runs s (ops ++ [x]) s'' ∧ SameView s' s'' := by
  induction ops using List.reverseRecOn generalizing s' with
  | nil => exact ⟨s', h, .rfl' _⟩
  | append_singleton ops y ih =>
    obtain ⟨s1, h1, h2⟩ := runs_snoc_inv (ops := x :: ops) h
    obtain ⟨t1, r, v⟩ := ih (fun z hz => ho z (by simp [hz])) h1
    obtain ⟨t2, g1, v2⟩ := view_step (runs_reach hr h1) (runs_reach hr r) v h2
    obtain ⟨t0, r0, g0⟩ := runs_snoc_inv r
    obtain ⟨t3, ⟨t4, k1, k2⟩, v3⟩ := (swap_one hx (ho y (by simp)) (runs_reach hr r0)).1 ⟨t1, g0, g1⟩
    exact ⟨t3, .snoc _ (.snoc _ r0 k1) k2, v2.trans' v3⟩

end OB
