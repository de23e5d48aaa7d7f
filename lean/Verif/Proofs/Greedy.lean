import Verif.Proofs.Client
import Verif.Proofs.SeqUniq
import Verif.Proofs.Posted
import Mathlib.Data.List.Sort
/-! The matching loop takes greedily from the sorted offers. -/
namespace OB
open Spec

/-- An item as an offer. -/
def IterItem.offer (i : IterItem) : Offer := ⟨i.comp, i.leaf, i.priceLots⟩

/-- A fill made for `x`. -/
def MadeFor (env : Env) (its : List IterItem) (x : Offer × Int) (f : FillEvent) : Prop :=
  ∃ i ∈ its, i.state = .valid ∧ i.offer = x.1 ∧ (1 ≤ x.2 ∧ x.2 ≤ i.leaf.quantity) ∧
    ∃ seq, f = mkFill env seq i (i.leaf.quantity - x.2 = 0) x.2

theorem MadeFor.mono {env : Env} {its its' : List IterItem} (hs : ∀ i ∈ its, i ∈ its') {x : Offer × Int} {f : FillEvent}
    (h : MadeFor env its x f) : MadeFor env its' x f := by
  obtain ⟨i, h1, h2⟩ := h; exact ⟨i, hs i h1, h2⟩

def validOffers (its : List IterItem) : List Offer := (its.filter (fun i => decide (i.state = .valid))).map IterItem.offer

theorem validOffers_valid {i : IterItem} {its : List IterItem} (h : i.state = .valid) :
    validOffers (i :: its) = i.offer :: validOffers its := by
  unfold validOffers; rw [List.filter_cons, if_pos (by simp [h])]; rfl

theorem validOffers_invalid {i : IterItem} {its : List IterItem} (h : i.state ≠ .valid) :
    validOffers (i :: its) = validOffers its := by
  unfold validOffers; rw [List.filter_cons, if_neg (by simp [h])]

theorem greedy_spent {env : Env} {n : Nat} {b q : Int} {L : List Offer} (h : b = 0 ∨ q = 0) (hp : ∀ o ∈ L, 1 ≤ o.price) :
    greedy env n b q L = [] := by
  cases L with
  | nil => rw [greedy]
  | cons o L =>
    have := hp o (by simp)
    rw [greedy, if_pos]
    rcases h with h | h
    · exact .inl h
    · exact .inr (.inr (.inr (by omega)))

theorem fold_greedy {env : Env} {price : Int} (its : List IterItem) {s s' : MatchSt} (hpo : env.order.isPostOnly = false)
    (hw : ∀ i ∈ its, i.state = .valid → (env.order.side.isPriceWithinLimit i.priceLots price = true ↔
      acceptable env.order.side (limitOf env.order env.oracle) i.priceLots))
    (hpos : ∀ i ∈ its, 1 ≤ i.priceLots) (hqty : ∀ i ∈ its, 1 ≤ i.leaf.quantity) (h : foldItems env price its s = .ok s')
    (hb : 0 ≤ s.remBase) (hq : 0 ≤ s.remQuote) :
    ∃ new, s'.fills = s.fills ++ new ∧
      List.Forall₂ (MadeFor env its) (greedy env s.limit s.remBase s.remQuote (validOffers its)) new := by
  induction its generalizing s with
  | nil =>
    cases h
    refine ⟨[], by simp, ?_⟩
    rw [show validOffers [] = [] from rfl, greedy]
    exact .nil
  | cons i its ih =>
    rw [foldItems] at h
    simp only [bind_ok] at h
    obtain ⟨⟨go, s1⟩, h1, h⟩ := h
    have hw' : ∀ j ∈ its, j.state = .valid → (env.order.side.isPriceWithinLimit j.priceLots price = true ↔
      acceptable env.order.side (limitOf env.order env.oracle) j.priceLots) := fun j hj => hw j (by simp [hj])
    have hpos' : ∀ j ∈ its, 1 ≤ j.priceLots := fun j hj => hpos j (by simp [hj])
    have hqty' : ∀ j ∈ its, 1 ≤ j.leaf.quantity := fun j hj => hqty j (by simp [hj])
    have hpi := hpos i (by simp)
    have hsub : ∀ j ∈ its, j ∈ i :: its := fun j hj => by simp [hj]
    have hvpos : ∀ o ∈ validOffers (i :: its), 1 ≤ o.price := by
      intro o ho
      obtain ⟨j, hj, rfl⟩ := List.mem_map.mp ho
      exact hpos j (List.mem_filter.mp hj).1
    -- how the quote limit is checked
    have hdiv : s.remQuote.tdiv i.priceLots = s.remQuote / i.priceLots := Int.tdiv_eq_ediv_of_nonneg hq
    have hlt : s.remQuote / i.priceLots = 0 ↔ s.remQuote < i.priceLots := by
      constructor
      · intro he
        have := Int.lt_ediv_add_one_mul_self s.remQuote (by omega : 0 < i.priceLots)
        rw [he] at this; omega
      · intro hl; exact Int.ediv_eq_zero_of_lt hq hl
    have hfill : ∀ (g : Ledger) (processed : Nat) (s2 : MatchSt), foldItems env price its s2 = .ok s' → Matchable env price i s → Filled env i s g processed →
        ¬ cancelsOwn env i.leaf → s2.fills = (afterFill env i s g processed).fills → s2.remBase = s.remBase - matchQty i s →
        s2.remQuote = s.remQuote - matchQty i s * i.priceLots → s2.limit = s.limit - 1 →
        ∃ new, s'.fills = s.fills ++ new ∧
          List.Forall₂ (MadeFor env (i :: its)) (greedy env s.limit s.remBase s.remQuote (validOffers (i :: its))) new := by
      intro g processed s2 hgo hm hf hc e1 e2 e3 e4
      have hmq : matchQty i s = min (min s.remBase i.leaf.quantity) (s.remQuote / i.priceLots) := by
        unfold matchQty; rw [hdiv]
      have hqi := hqty i (by simp)
      have hrb := hm.rb
      have hnz := hm.quote
      rw [hdiv] at hnz
      have hd0 : 0 ≤ s.remQuote / i.priceLots := Int.ediv_nonneg hq (by omega)
      have h1m : 1 ≤ matchQty i s := by rw [hmq]; omega
      have h2m : matchQty i s ≤ s.remBase := by rw [hmq]; omega
      have h3m : matchQty i s ≤ i.leaf.quantity := by rw [hmq]; omega
      obtain ⟨new, k1, k2⟩ := ih hw' hpos' hqty' hgo (by omega) (by have := hf.rq.1; omega)
      refine ⟨mkFill env s.g.market.seqNum i (i.leaf.quantity - matchQty i s = 0) (matchQty i s) :: new, ?_, ?_⟩
      · rw [k1, e1]; simp [afterFill]
      · rw [validOffers_valid hm.valid, greedy, if_neg, if_neg]
        · simp only
          refine .cons ?_ ?_
          · refine ⟨i, by simp, hm.valid, rfl, ?_, s.g.market.seqNum, ?_⟩
            · rw [show (min (min s.remBase i.offer.order.quantity) (s.remQuote / i.offer.price)) = matchQty i s from hmq.symm]
              exact ⟨h1m, h3m⟩
            · rw [show (min (min s.remBase i.offer.order.quantity) (s.remQuote / i.offer.price)) = matchQty i s from hmq.symm]
          · rw [show (min (min s.remBase i.offer.order.quantity) (s.remQuote / i.offer.price)) = matchQty i s from hmq.symm]
            rw [e2, e3, e4] at k2
            exact k2.imp (fun _ _ hx => hx.mono hsub)
        · exact hc
        · rintro (hx | hx | hx | hx)
          · exact hrb hx
          · exact hx ((hw i (by simp) hm.valid).mp hm.within)
          · exact hm.lim hx
          · exact hnz (hlt.mpr hx)
    cases matchStep_inv h1 with
    | done hz =>
      cases h
      exact ⟨[], by simp, by rw [greedy_spent hz hvpos]; exact .nil⟩
    | drop g rb rq hst hd hp =>
      simp only [if_true] at h
      obtain ⟨new, k1, k2⟩ := ih hw' hpos' hqty' h hb hq
      exact ⟨new, k1, by rw [validOffers_invalid hst]; exact k2.imp (fun _ _ hx => hx.mono hsub)⟩
    | ignore rb rq hst hd =>
      simp only [if_true] at h
      obtain ⟨new, k1, k2⟩ := ih hw' hpos' hqty' h hb hq
      exact ⟨new, k1, by rw [validOffers_invalid hst]; exact k2.imp (fun _ _ hx => hx.mono hsub)⟩
    | stop rb rq hst hwn =>
      cases h
      refine ⟨[], by simp, ?_⟩
      rw [validOffers_valid hst, greedy, if_pos]
      · exact .nil
      · right; left
        intro ha
        rw [(hw i (by simp) hst).mpr ha] at hwn
        cases hwn
    | block rb rq hst _ hr =>
      cases h
      refine ⟨[], by simp, ?_⟩
      rw [validOffers_valid hst, greedy, if_pos]
      · exact .nil
      · rcases hr with hr | hr | ⟨hr1, hr2⟩
        · rw [hpo] at hr; cases hr
        · exact .inr (.inr (.inl hr))
        · rw [hdiv] at hr2; exact .inr (.inr (.inr (hlt.mp hr2)))
    | cancelOwn a a' hm hself hbh ha hc =>
      simp only [if_true] at h
      obtain ⟨new, k1, k2⟩ := ih hw' hpos' hqty' h hb hq
      refine ⟨new, k1, ?_⟩
      rw [validOffers_valid hm.valid, greedy, if_neg, if_pos]
      · exact k2.imp (fun _ _ hx => hx.mono hsub)
      · exact ⟨hself.1, hself.2.symm, hbh⟩
      · rintro (hx | hx | hx | hx)
        · exact hm.rb hx
        · exact hx ((hw i (by simp) hm.valid).mp hm.within)
        · exact hm.lim hx
        · exact hm.quote (hdiv.trans (hlt.mpr hx))
    | fillSelf g p hm hself hbh hdr hf =>
      simp only [if_true] at h
      refine hfill g p _ h hm hf ?_ rfl rfl rfl rfl
      rintro ⟨_, _, hx⟩
      rw [hbh] at hx; cases hx
    | fill g p rb hm hself hq' hrb hr hf =>
      simp only [if_true] at h
      refine hfill g p _ h hm hf ?_ rfl rfl rfl rfl
      rintro ⟨hx, hy, _⟩
      exact hself ⟨hx, hy.symm⟩

/-! ### priority is a strict order -/

/-- Priority among offers. -/
def OfferBefore (s : Side) (o o' : Offer) : Prop := Before s o.price o.order o'.price o'.order

theorem offerBefore_asymm {s : Side} {o o' : Offer} (h : OfferBefore s o o') : ¬ OfferBefore s o' o := by
  unfold OfferBefore Before betterPrice at *
  cases s <;> (simp only at *; omega)

theorem offerBefore_irrefl (s : Side) (o : Offer) : ¬ OfferBefore s o o := fun h => offerBefore_asymm h h

/-- Not behind. -/
def notBehind (s : Side) (o o' : Offer) : Prop := ¬ OfferBefore s o' o

instance (s : Side) : DecidableRel (notBehind s) := fun _ _ => by unfold notBehind OfferBefore; infer_instance

instance (s : Side) : Std.Total (notBehind s) where
  total a b := by
    unfold notBehind OfferBefore Before betterPrice
    cases s <;> (simp only; omega)

instance (s : Side) : IsTrans Offer (notBehind s) where
  trans a b c h1 h2 := by
    unfold notBehind OfferBefore Before betterPrice at *
    cases s <;> (simp only at *; omega)

/-- Sorted lists with the same offers are the same. -/
theorem sorted_unique {s : Side} {L L' : List Offer} (h : L.Pairwise (OfferBefore s)) (h' : L'.Pairwise (OfferBefore s))
    (hm : ∀ o, o ∈ L ↔ o ∈ L') : L = L' := by
  haveI : Std.Irrefl (OfferBefore s) := ⟨offerBefore_irrefl s⟩
  haveI : Std.Antisymm (OfferBefore s) := ⟨fun a b h1 h2 => absurd h2 (offerBefore_asymm h1)⟩
  exact h.eq_of_mem_iff h' hm

theorem Spec.Ladder.unique {book : Book} {s : Side} {now : Nat} {oracle : Option Int} {L L' : List Offer}
    (h : Ladder book s now oracle L) (h' : Ladder book s now oracle L') : L = L' :=
  sorted_unique (s := s) h.sorted h'.sorted (fun o => (h.mem o).trans (h'.mem o).symm)

/-- Distinct offers of a book are strictly ordered. -/
theorem offer_strict {book : Book} {g : Ledger} (h : EngineState book g) {s : Side} {o o' : Offer}
    (h1 : (s, o.comp, o.order) ∈ book.resting) (h2 : (s, o'.comp, o'.order) ∈ book.resting)
    (hne : (o.comp, o.order.key) ≠ (o'.comp, o'.order.key)) (hb : ¬ OfferBefore s o' o) : OfferBefore s o o' := by
  have hs : seqNo s o.order ≠ seqNo s o'.order := by
    intro he
    obtain ⟨e1, e2⟩ := seq_distinct h h1 h2 he
    exact hne (by rw [e1, e2])
  unfold OfferBefore Before betterPrice at *
  cases s <;> (simp only at *; omega)

/-! ### the offers of a book -/

/-- The offer of a resting order. -/
def offerOf (s : Side) (now : Nat) (oracle : Option Int) (x : Side × Comp × LeafNode) : Option Offer :=
  match priceOf oracle x.2.1 x.2.2 with
  | some p => if x.1 = s ∧ TradableAt now oracle s x.2.1 x.2.2 p then some ⟨x.2.1, x.2.2, p⟩ else none
  | none => none

theorem offerOf_some {s : Side} {now : Nat} {oracle : Option Int} {x : Side × Comp × LeafNode} {o : Offer} :
    offerOf s now oracle x = some o ↔ x = (s, o.comp, o.order) ∧ TradableAt now oracle s o.comp o.order o.price := by
  obtain ⟨xs, xc, xl⟩ := x
  unfold offerOf
  constructor
  · intro h
    split at h
    · split at h
      · rename_i p hp hc
        simp only [Option.some.injEq] at h
        subst h
        exact ⟨by rw [← hc.1], hc.2⟩
      · cases h
    · cases h
  · rintro ⟨e, ht⟩
    injection e with e1 e2
    injection e2 with e2 e3
    subst e1; subst e2; subst e3
    simp only [ht.price]
    rw [if_pos ⟨trivial, ht⟩]

theorem ladder_sort {book : Book} {g : Ledger} (h : EngineState book g) (s : Side) (now : Nat) (oracle : Option Int) :
    Ladder book s now oracle (List.insertionSort (notBehind s) (book.resting.filterMap (offerOf s now oracle))) := by
  obtain ⟨dB, dQ, hcore⟩ := h.core
  have hn := resting_ids hcore.bookOk
  have hm0 : ∀ o : Offer, o ∈ book.resting.filterMap (offerOf s now oracle) ↔
      (s, o.comp, o.order) ∈ book.resting ∧ TradableAt now oracle s o.comp o.order o.price := by
    intro o
    rw [List.mem_filterMap]
    constructor
    · rintro ⟨x, hx, he⟩
      obtain ⟨rfl, ht⟩ := offerOf_some.mp he
      exact ⟨hx, ht⟩
    · rintro ⟨hx, ht⟩
      exact ⟨_, hx, offerOf_some.mpr ⟨rfl, ht⟩⟩
  have hk : ((book.resting.filterMap (offerOf s now oracle)).map (fun o : Offer => (s, o.comp, o.order.key))).Nodup := by
    refine nodup_filterMap (g := restId) hn ?_
    intro x o he
    obtain ⟨rfl, _⟩ := offerOf_some.mp he
    rfl
  have hp := List.perm_insertionSort (notBehind s) (book.resting.filterMap (offerOf s now oracle))
  have hsort := List.pairwise_insertionSort (notBehind s) (book.resting.filterMap (offerOf s now oracle))
  have hk' := (hp.map (fun o : Offer => (s, o.comp, o.order.key))).nodup_iff.mpr hk
  have hm : ∀ o : Offer, o ∈ List.insertionSort (notBehind s) (book.resting.filterMap (offerOf s now oracle)) ↔
      (s, o.comp, o.order) ∈ book.resting ∧ TradableAt now oracle s o.comp o.order o.price :=
    fun o => hp.mem_iff.trans (hm0 o)
  refine ⟨hm, ?_⟩
  refine (hsort.and (List.pairwise_map.mp hk')).imp_of_mem ?_
  intro a b ha hb hx
  refine offer_strict h ((hm a).mp ha).1 ((hm b).mp hb).1 ?_ hx.1
  intro he
  injection he with e1 e2
  exact hx.2 (by rw [e1, e2])

theorem ladder_exists {book : Book} {g : Ledger} (h : EngineState book g) (s : Side) (now : Nat) (oracle : Option Int) :
    ∃ L, Ladder book s now oracle L := ⟨_, ladder_sort h s now oracle⟩

/-! ### a call -/

namespace CallRun
variable {env : Env} {book book' : Book} {g g' : Ledger} {r : OrderResult}

theorem offers_sorted (C : CallRun env book g r book' g') (h : EngineState book g) :
    (validOffers (callItems env C.ot)).Pairwise (OfferBefore env.order.side.invert) := by
  unfold validOffers
  rw [List.pairwise_map]
  refine List.Pairwise.filter _ ?_
  refine ((items_priority C.core C.side C.P.opp).and (items_distinct C.P.opp)).imp_of_mem ?_
  intro i j hi hj hx
  have si := item_spec C.core C.P.opp hi
  have sj := item_spec C.core C.P.opp hj
  refine offer_strict h si.mem sj.mem hx.2 ?_
  exact ekey_before (by have := si.pos; omega) (by have := sj.pos; omega) hx.1

theorem offers_eq (C : CallRun env book g r book' g') (h : EngineState book g) (hns : NoSkipped book env.order.side.invert env.oracle)
    {L : List Offer} (hL : Ladder book env.order.side.invert env.nowTs env.oracle L) : validOffers (callItems env C.ot) = L := by
  refine sorted_unique (s := env.order.side.invert) (C.offers_sorted h) hL.sorted ?_
  intro o
  rw [hL.mem]
  constructor
  · intro ho
    obtain ⟨i, hi, rfl⟩ := List.mem_map.mp ho
    obtain ⟨hi, hv⟩ := List.mem_filter.mp hi
    have si := item_spec C.core C.P.opp hi
    exact ⟨si.mem, si.valid (by simpa using hv)⟩
  · rintro ⟨h1, h2⟩
    obtain ⟨i, hi, e1, e2, e3, hv⟩ := item_complete C.core C.P.opp h1 h2 (.inr hns)
    refine List.mem_map.mpr ⟨i, List.mem_filter.mpr ⟨hi, by simpa using hv⟩, ?_⟩
    unfold IterItem.offer
    rw [e1, e2, e3]

/-- The price used for matching is the limit, unless the order is post-only. -/
theorem price_limit (C : CallRun env book g r book' g') (hpo : ¬ PostsOnly env.order) {lim : Int}
    (hl : limitOf env.order env.oracle = some lim) : C.R.priceLots = lim := by
  have hp := C.R.price
  have key : ∀ p t, t ≠ PostOrderType.postOnlySlide → priceForOrderType env.order.side env.nowTs env.oracle p t book = .ok C.R.priceLots →
      C.R.priceLots = p := by
    intro p t ht h
    unfold priceForOrderType at h
    rw [if_neg ht] at h
    injection h with h; exact h.symm
  have hty : ∀ t, postType env.order = some t → t ≠ .postOnlySlide := by
    intro t ht he; subst he; exact hpo (.inr ht)
  unfold Order.priceLots at hp
  unfold limitOf at hl
  unfold postType at hty
  split at hp
  · rename_i hq; rw [hq] at hl; cases hl
  · rename_i p hq; rw [hq] at hl; injection hl with hl; injection hp with hp; rw [← hp, hl]
  · rename_i p hq; rw [hq] at hl; injection hl with hl; injection hp with hp; rw [← hp, hl]
  · rename_i p t hq; rw [hq] at hl hty; injection hl with hl; rw [← hl]; exact key p t (hty t rfl) hp
  · rename_i off t pl hq
    rw [hq] at hl hty
    cases hor : env.oracle with
    | none => rw [hor] at hl; cases hl
    | some o =>
      rw [hor] at hl hp
      injection hl with hl
      simp only [bind_ok, req_ok] at hp
      obtain ⟨_, _, hp⟩ := hp
      rw [← hor] at hp
      rw [← hl]; exact key _ _ (hty t rfl) hp

theorem within_acceptable (C : CallRun env book g r book' g') (hpo : ¬ PostsOnly env.order) {i : IterItem} (hi : i ∈ callItems env C.ot) :
    env.order.side.isPriceWithinLimit i.priceLots C.R.priceLots = true ↔
      acceptable env.order.side (limitOf env.order env.oracle) i.priceLots := by
  cases hl : limitOf env.order env.oracle with
  | some lim =>
    rw [C.price_limit hpo hl]
    unfold acceptable within
    constructor
    · intro h x hx
      injection hx with hx; subst hx
      unfold Side.isPriceWithinLimit at h
      cases hs : env.order.side <;> rw [hs] at h <;> simpa using h
    · intro h
      have := h lim rfl
      unfold Side.isPriceWithinLimit
      cases hs : env.order.side <;> rw [hs] at this <;> simpa using this
  | none =>
    refine ⟨fun _ x hx => (nomatch hx), fun _ => ?_⟩
    refine Client.call_within C ?_ hi
    unfold limitOf at hl
    split at hl
    · assumption
    all_goals first | (cases hl; done) | skip
    rename_i off t pl hq
    exfalso
    have hp := C.R.price
    unfold Order.priceLots at hp
    rw [hq] at hp
    cases hor : env.oracle with
    | none => rw [hor] at hp; cases hp
    | some o => rw [hor] at hl; cases hl

theorem maxQ_spendable (C : CallRun env book g r book' g') (hpo : ¬ PostsOnly env.order) :
    C.R.maxQ = spendable env.order g.market.takerFee := by
  have hpo' : env.order.isPostOnly = false := by rw [postsOnly_iff] at hpo; simpa using hpo
  unfold spendable
  cases hs : env.order.side with
  | bid => exact C.maxQ_bid hs hpo'
  | ask => exact C.maxQ_ask (.inl hs)

theorem greedy (C : CallRun env book g r book' g') (h : EngineState book g) (hpo : ¬ PostsOnly env.order)
    (hns : NoSkipped book env.order.side.invert env.oracle) {L : List Offer}
    (hL : Ladder book env.order.side.invert env.nowTs env.oracle L) :
    FillsAre env book (Spec.greedy env env.limit env.order.maxBaseLots (spendable env.order g.market.takerFee) L) r.fills := by
  have hpo' : env.order.isPostOnly = false := by rw [postsOnly_iff] at hpo; simpa using hpo
  obtain ⟨new, k1, k2⟩ := fold_greedy _ hpo' (fun i hi _ => C.within_acceptable hpo hi)
    (fun i hi => (item_spec C.core C.P.opp hi).pos) (fun i hi => (item_spec C.core C.P.opp hi).qty) C.P.fold
    C.valid.order.base.1 C.P.maxQ0
  rw [C.offers_eq h hns hL, C.maxQ_spendable hpo] at k2
  rw [C.R.fills, k1]
  simp only [List.nil_append]
  refine k2.imp ?_
  rintro x f ⟨i, hi, hv, e, hq, seq, rfl⟩
  have si := item_spec C.core C.P.opp hi
  rw [← e]
  refine ⟨⟨si.mem, si.valid hv, hq, ?_, ⟨rfl, rfl, rfl, rfl, rfl⟩, ⟨rfl, rfl, rfl, rfl⟩⟩, rfl, rfl⟩
  simp only [mkFill, IterItem.offer, decide_eq_true_eq]
  omega

end CallRun
end OB
