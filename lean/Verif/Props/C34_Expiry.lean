import Verif.Proofs.Asked
import Verif.Props.C33_Others
/-!
C34 — Orders are never filled at or after expiry.

`asked` (Spec/Asked) reads the orders off the arguments of an instruction; `Serves` says which of them the matching engine is given and
with which time in force; `RestsAs` relates a resting order to the order asked for; `Fills` is a fill of a given resting order.
-/
namespace OB
open Spec

/-- Every placing instruction gives the matching engine, in their order, exactly the orders asked for whose expiry is still ahead
(an edit may place nothing), each with time in force min(expiry - now, 65535), or none if it has no expiry. -/
theorem C34_time_in_force {s s' : State} {op : Op} {p : Placer} (hr : Reachable s) (h : step s op = .ok s') (hp : placer op = some p) :
    ∃ s1 cs g1, Placement s s1 s' p cs g1 ∧ Serves op p.now cs :=
  placement_serves hr h hp

/-- An instruction whose only order is already expired does nothing. -/
theorem C34_expired_not_placed {s s' : State} {op : Op} {p : Placer} {q : Asked} (h : step s op = .ok s')
    (hp : placer op = some p) (hq : asked op = [q]) (hk : ∀ c b t x y n, op ≠ .placeOrders c b t x y n) (he : q.expiry ≠ 0)
    (hl : (q.expiry : Int) ≤ p.now) : s' = s := by
  cases op with
  | placeOrder c a =>
    injection hp with hp; injection hq with hq; subst hp; subst hq
    simp only [step, bind_ok, pure_ok, placeOrderIx] at h
    obtain ⟨⟨r, s1⟩, ⟨now, hn, o, ho, h⟩, rfl⟩ := h
    have hnow := (nowU64_eq hn).1
    simp only at he hl
    rcases PlaceOrderArgs.order_cases ho with ⟨rfl, _⟩ | ⟨tif, _, ht, _, rfl⟩
    · simp only [bind_ok, pure_ok] at h
      obtain ⟨_, _, h⟩ := h
      injection h with _ e; exact e.symm
    · have := tif_cases ht; omega
  | placeOrderPegged c a =>
    injection hp with hp; injection hq with hq; subst hp; subst hq
    simp only [step, bind_ok, pure_ok, placeOrderPeggedIx] at h
    obtain ⟨⟨r, s1⟩, ⟨now, hn, o, ho, h⟩, rfl⟩ := h
    have hnow := (nowU64_eq hn).1
    simp only at he hl
    rcases (PlaceOrderPeggedArgs.order_cases ho).2 with ⟨rfl, _⟩ | ⟨tif, _, ht, _, rfl⟩
    · simp only [bind_ok, pure_ok] at h
      obtain ⟨_, _, h⟩ := h
      injection h with _ e; exact e.symm
    · have := tif_cases ht; omega
  | editOrder c client e a =>
    injection hp with hp; injection hq with hq; subst hp; subst hq
    simp only [step, bind_ok, pure_ok, editOrderIx] at h
    obtain ⟨⟨r, s1⟩, ⟨now, hn, o, ho, h⟩, rfl⟩ := h
    have hnow := (nowU64_eq hn).1
    simp only at he hl
    rcases PlaceOrderArgs.order_cases ho with ⟨rfl, _⟩ | ⟨tif, _, ht, _, rfl⟩
    · simp only [bind_ok, pure_ok] at h
      obtain ⟨_, _, h⟩ := h
      injection h with _ e; exact e.symm
    · have := tif_cases ht; omega
  | editOrderPegged c client e a =>
    injection hp with hp; injection hq with hq; subst hp; subst hq
    simp only [step, bind_ok, pure_ok, editOrderPeggedIx] at h
    obtain ⟨⟨r, s1⟩, ⟨now, hn, o, ho, h⟩, rfl⟩ := h
    have hnow := (nowU64_eq hn).1
    simp only at he hl
    rcases (PlaceOrderPeggedArgs.order_cases ho).2 with ⟨rfl, _⟩ | ⟨tif, _, ht, _, rfl⟩
    · simp only [bind_ok, pure_ok] at h
      obtain ⟨_, _, h⟩ := h
      injection h with _ e; exact e.symm
    · have := tif_cases ht; omega
  | placeTakeOrder c a => injection hq with hq; subst hq; exact absurd rfl he
  | placeOrders c b t x y n => exact absurd rfl (hk c b t x y n)
  | _ => cases hp

/-- A new order in the book is one that the instruction asked for, with its expiry: it got time in force min(expiry - now, 65535)
counted from now, or none without expiry. -/
theorem C34_posted {s s' : State} {op : Op} (hr : Reachable s) (h : step s op = .ok s') {side : Side} {c : Comp} {l : LeafNode}
    (hm : (side, c, l) ∈ s'.book.resting) (hnew : ∀ l0, (side, c, l0) ∈ s.book.resting → l0.key ≠ l.key) :
    ∃ p q, placer op = some p ∧ q ∈ asked op ∧ RestsAs q p.owner p.now side c l := by
  rcases (step_origin hr h).2 side c l hm with ⟨l0, h1, h2, _⟩ | ⟨_, h2⟩
  · exact absurd (by rw [h2]) (hnew l0 h1)
  · exact h2

/-- An order keeps everything but its quantity as long as it rests: owner, time of placement, time in force, price, peg limit. -/
theorem C34_kept {s s' : State} {ops : List Op} (hr : Reachable s) (h : Runs s ops s') {side : Side} {c : Comp} {l l' : LeafNode}
    (hm : (side, c, l) ∈ s.book.resting) (hm' : (side, c, l') ∈ s'.book.resting) (hk : l'.key = l.key) :
    l' = { l with quantity := l'.quantity } ∧ l'.quantity ≤ l.quantity :=
  runs_kept hr h hm hm' hk

/-- No fill is of an order whose time in force is over; the fill carries the time of the instruction. -/
theorem C34_no_expired_fill {s s' : State} {op : Op} {p : Placer} {side : Side} {c : Comp} {l : LeafNode} {f : FillEvent}
    (h : Fills s s' op p side c l f) : (l.timeInForce = 0 ∨ p.now < l.timestamp + l.timeInForce) ∧ (f.timestamp : Int) = p.now := by
  obtain ⟨_, s1, pre, x, post, g1, book, g, book', g', P, _, _, _, _, rfl, h6⟩ := h.full
  have hn := (P.ctx x (by simp)).2.2.1
  have hx := h6.tradable.live
  unfold expired at hx
  refine ⟨?_, by rw [h6.taker.2.2.2]; exact hn⟩
  omega

/-- An order that an instruction posts with an expiry is never filled at or after that time, by whatever instruction after
whatever other instructions.  `l` is the order as posted, `l'` what is left of it when it is filled. -/
theorem C34_never_after_expiry {s s1 : State} {op : Op} (hr : Reachable s) (h : step s op = .ok s1) {side : Side} {c : Comp} {l : LeafNode}
    (hm : (side, c, l) ∈ s1.book.resting) (hnew : ∀ l0, (side, c, l0) ∈ s.book.resting → l0.key ≠ l.key) :
    ∃ p q, placer op = some p ∧ q ∈ asked op ∧ RestsAs q p.owner p.now side c l ∧
      (q.expiry ≠ 0 → ∀ (ops : List Op) (s2 s3 : State) (op' : Op) (p' : Placer) (l' : LeafNode) (f : FillEvent), Runs s1 ops s2 →
        Fills s2 s3 op' p' side c l' f → l'.key = l.key → p'.now < q.expiry) := by
  obtain ⟨p, q, h1, h2, h3⟩ := C34_posted hr h hm hnew
  refine ⟨p, q, h1, h2, h3, fun he ops s2 s3 op' p' l' f hR hF hk => ?_⟩
  obtain ⟨e, _⟩ := fills_later (.step _ _ _ hr h) hm hR hF hk
  have hx := (C34_no_expired_fill hF).1
  rw [e] at hx
  simp only at hx
  have ht := h3.time
  have hq := h3.expiry
  omega

/-- Every fill on the queue came from a fill of a resting order, to which the above applies. -/
theorem C34_all_fills {s s' : State} {op : Op} (hr : Reachable s) (h : step s op = .ok s') {f : FillEvent}
    (hf : Event.fill f ∈ s'.g.heap.events) (hn : Event.fill f ∉ s.g.heap.events) : ∃ p side c l, Fills s s' op p side c l f :=
  queued_fill hr h hf hn

/-! The hypotheses are met. -/

namespace ExpiryCase
open Scenario

/-- Order with an expiry, placed by trader `31 + i` at time `now`. -/
def until_ (i : Nat) (side : Side) (price qty : Int) (client expiry : Nat) (now : Int) : Op :=
  .placeOrder { ctx i side [] with now } { limitOrder side price qty client with expiry }

def opsE : List Op := [.createOO 41 31 0, .createOO 42 32 0]

/-- An ask with expiry 1500 placed at time 1000. -/
theorem ask_posted : stepAnd args opsE (until_ 0 .ask 1000 5 9 1500 1000) (fun s s' =>
    decide (s.book.resting = [] ∧ s'.book.resting.map (fun x => (x.1, x.2.1, x.2.2.timestamp, x.2.2.timeInForce)) = [(.ask, .fixed, 1000, 500)])) = true := by
  decide +kernel

/-- It is filled at 1499 and not filled at 1500. -/
theorem ask_filled : okAnd (exec args opsE) (fun s => okAnd (step s (until_ 0 .ask 1000 5 9 1500 1000)) (fun s1 =>
    decide (s.book.resting = [] ∧ s1.book.resting.length = 1) &&
    okAnd (step s1 (until_ 1 .bid 1000 2 7 0 1499)) (fun s3 => (s3.g.heap.events.any (fun e => match e with | .fill f => decide (f.maker = 41) | .out _ => false)) &&
      decide (s1.g.heap.events = [])) &&
    okAnd (step s1 (until_ 1 .bid 1000 2 7 0 1500)) (fun s3 => s3.g.heap.events.all (fun e => match e with | .fill _ => false | .out _ => true)))) = true := by
  decide +kernel

example : ∃ (s s1 s3 : State) (side : Side) (c : Comp) (l l' : LeafNode) (f : FillEvent) (p' : Placer), Reachable s ∧
    step s (until_ 0 .ask 1000 5 9 1500 1000) = .ok s1 ∧
    (side, c, l) ∈ s1.book.resting ∧ (∀ l0, (side, c, l0) ∈ s.book.resting → l0.key ≠ l.key) ∧ Runs s1 [] s1 ∧
    Fills s1 s3 (until_ 1 .bid 1000 2 7 0 1499) p' side c l' f ∧ l'.key = l.key := by
  obtain ⟨s, h1, h2⟩ := okAnd_spec ask_filled
  obtain ⟨s1, h3, h4⟩ := okAnd_spec h2
  rw [Bool.and_eq_true, Bool.and_eq_true, decide_eq_true_eq] at h4
  obtain ⟨⟨⟨e1, e2⟩, h4⟩, _⟩ := h4
  obtain ⟨s3, h5, h6⟩ := okAnd_spec h4
  rw [Bool.and_eq_true, decide_eq_true_eq, List.any_eq_true] at h6
  obtain ⟨⟨e, he, hf⟩, h7⟩ := h6
  have hr := exec_reachable h1
  have hr1 : Reachable s1 := .step _ _ _ hr h3
  cases e with
  | out o => cases hf
  | fill f =>
    obtain ⟨p, side, c, l', hF⟩ := C34_all_fills hr1 h5 he (by rw [h7]; exact List.not_mem_nil)
    rcases fills_origin hr1 hF with ⟨l0, k1, k2, _⟩ | ⟨_, k2⟩
    · exact ⟨s, s1, s3, side, c, l0, l', f, p, hr, h3, k1, (by rw [e1]; intro _ h; cases h), .nil, hF, by rw [k2]⟩
    · exfalso
      obtain ⟨hp, _, _, x, _, _, _, _, _, _, _, _, _, _, _, _, q6⟩ := hF.full
      injection hp with hp
      have hm := q6.maker.1
      rw [k2, ← hp] at hm
      rw [decide_eq_true_eq, hm] at hf
      exact absurd hf (by decide)

end ExpiryCase

end OB
