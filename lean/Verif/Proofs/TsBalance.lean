import Verif.Spec.Ts
import Verif.Proofs.StakeWorth
/-! What the TypeScript library reports as the balance of an account. -/
namespace OB.Ts
open OB.Spec

theorem rawEvents_path {h : EventHeap} : ∀ (n i : Nat) (slots : List Nat), h.iterFrom n i = .ok slots →
    rawEvents h n i = .ok (slots.map (fun x => (h.nodes x).event))
  | 0, i, slots, hs => by
    unfold EventHeap.iterFrom at hs
    cases hs
    rfl
  | n + 1, i, slots, hs => by
    unfold EventHeap.iterFrom at hs
    rw [bind_ok] at hs
    obtain ⟨nd, hg, hs⟩ := hs
    rw [bind_ok] at hs
    obtain ⟨r, hr, hs⟩ := hs
    cases hs
    unfold EventHeap.get at hg
    simp only [bind_ok, assertR, req_ok, pure_ok] at hg
    obtain ⟨_, hi, rfl⟩ := hg
    unfold rawEvents
    rw [if_pos hi, rawEvents_path n _ r hr]
    rfl

theorem parsedEvents_spec {h : EventHeap} {q : List (Nat × Event)} (hr : HeapRep h q) : parsedEvents h = .ok h.events := by
  have h1 := iterSlots_spec hr
  unfold EventHeap.iterSlots at h1
  unfold parsedEvents
  rw [rawEvents_path _ _ _ h1, hr.events, List.map_map]
  obtain ⟨fr, hf⟩ := hr
  congr 1
  apply List.map_congr_left
  intro x hx
  exact hf.ev x hx

/-- What an event adds for the maker `owner`. -/
def addBase (m : Market) (owner : Pubkey) : Event → Int
  | .fill f => if f.maker = owner then makerBase m f else 0
  | .out _ => 0
def addQuote (m : Market) (owner : Pubkey) : Event → Int
  | .fill f => if f.maker = owner then (if f.takerSide = .ask then -fillQuote m f else fillQuote m f) - makerFeeFloor m (fillQuote m f) else 0
  | .out _ => 0

theorem balanceEvent_eq (m : Market) (owner : Pubkey) (x : Int × Int) (e : Event) :
    balanceEvent m owner x e = (x.1 + addBase m owner e, x.2 + addQuote m owner e) := by
  obtain ⟨b, q⟩ := x
  cases e with
  | out e => simp [balanceEvent, addBase, addQuote]
  | fill f =>
    unfold balanceEvent addBase addQuote
    by_cases h : f.maker = owner
    · simp only [h, if_true]
      cases hs : f.takerSide with
      | bid => refine Prod.ext ?_ ?_ <;> simp only [makerBase, hs, fillQuote, reduceCtorEq, if_false] <;> omega
      | ask => refine Prod.ext ?_ ?_ <;> simp only [makerBase, hs, fillQuote, if_true] <;> omega
    · simp [h]

theorem foldl_balance (m : Market) (owner : Pubkey) (es : List Event) (x : Int × Int) :
    es.foldl (balanceEvent m owner) x = (x.1 + total es (addBase m owner), x.2 + total es (addQuote m owner)) := by
  induction es generalizing x with
  | nil => simp [total]
  | cons e es ih =>
    rw [List.foldl_cons, ih, balanceEvent_eq]
    simp only [total, List.map_cons, List.sum_cons, Prod.mk.injEq]
    omega

/-- The maker of a queued fill has an account. -/
theorem maker_acct {s : State} (hi : Inv s) {f : FillEvent} (hf : Event.fill f ∈ s.g.heap.events) :
    ∃ a, s.g.accts.get? f.maker = some a := by
  obtain ⟨O, q, hw⟩ := hi.core.linv
  rw [hw.heap.events] at hf
  have hk : OKind.ev (.fill f) ∈ O.map Obl.k := by
    refine hw.kinds.mem_iff.mpr (List.mem_append_right _ ?_)
    obtain ⟨x, hx, he⟩ := List.mem_map.mp hf
    exact List.mem_map.mpr ⟨x, hx, by rw [he]⟩
  obtain ⟨o, ho, he⟩ := List.mem_map.mp hk
  have := hw.ginv.owner o ho
  cases o with
  | rest s c l oo => simp [Obl.k] at he
  | out e oo => simp [Obl.k] at he
  | fill f' oo => simp only [Obl.k, OKind.ev.injEq, Event.fill.injEq] at he; subst he; exact this

def kU (m : Market) (k : Pubkey) : OKind → Int
  | .rest _ _ _ => 0
  | .ev e => if eventAccount e = k then queuedBase m e else 0

/-- Base due: what the account shows as its own, corrected by its undelivered trades. -/
theorem dueBase_position {s : State} (hi : Inv s) {k : Pubkey} {a : OOA} (ha : s.g.accts.get? k = some a) :
    dueBase s k a = a.position.asksBaseLots * s.g.market.baseLotSize + a.position.baseFreeNative +
      total (eventsOf s k) (queuedBase s.g.market) := by
  obtain ⟨O, q, hw⟩ := hi.core.linv
  have hok := hw.ginv.acct k a ha
  rw [dueBase_osum hw, hok.asks, ← osum_mul]
  have h2 : total (eventsOf s k) (queuedBase s.g.market) =
      osum (fun o => kU s.g.market k o.k) O := by
    rw [sum_kinds hw]
    unfold eventsOf
    rw [total_filter]
    simp only [kU]
    have : ∀ L : Rests, (L.map (fun _ => (0 : Int))).sum = 0 := by
      intro L
      induction L with
      | nil => rfl
      | cons x L ih => rw [List.map_cons, List.sum_cons, ih]; rfl
    rw [this]; omega
  rw [h2]
  rw [show osum (fun o => kB s.g.market k o.k) O = osum (fun o => cA k o * s.g.market.baseLotSize +
    kU s.g.market k o.k) O from ?_]
  · rw [osum_add]; omega
  · congr 1
    funext o
    cases o with
    | rest sd c l oo =>
      simp only [Obl.k, kB, kU, queuedBase, cA, Obl.acct, Obl.side, lockedBase, Obl.qty]
      by_cases e1 : l.owner = k <;> by_cases e2 : sd = .ask <;> simp [e1, e2]
    | out e oo =>
      simp only [Obl.k, kB, kU, queuedBase, cA, Obl.acct, Obl.side, creditBase, Obl.qty, eventAccount]
      by_cases e1 : e.owner = k <;> by_cases e2 : e.side = .ask <;> simp [e1, e2]
    | fill f oo =>
      simp only [Obl.k, kB, kU, queuedBase, cA, Obl.acct, Obl.side, creditBase, Obl.qty, eventAccount, makerBase]
      have hts : f.takerSide = .bid ∨ f.takerSide = .ask := by cases f.takerSide <;> simp
      by_cases e1 : f.maker = k <;> rcases hts with e2 | e2 <;> simp [e1, e2, Side.invert] <;> omega

end OB.Ts
