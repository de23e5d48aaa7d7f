import Verif.Proofs.Asked
import Verif.Spec.Match
/-! No two orders of a side have the same sequence number. -/
namespace OB
open Spec

/-- Sequence numbers identify the orders of a side. -/
def SeqUniq (book : Book) : Prop :=
  ∀ s c c' l l', (s, c, l) ∈ book.resting → (s, c', l') ∈ book.resting → seqOf s l.key = seqOf s l'.key → c = c' ∧ l.key = l'.key

theorem SeqUniq.sub {b b' : Book} (h : SeqUniq b) (hs : ∀ x ∈ b'.resting, x ∈ b.resting) : SeqUniq b' :=
  fun s c c' l l' h1 h2 he => h s c c' l l' (hs _ h1) (hs _ h2) he

theorem CallRun.seqUniq {env : Env} {book book' : Book} {g g' : Ledger} {r : OrderResult} (C : CallRun env book g r book' g')
    (h : SeqUniq book) : SeqUniq book' := by
  -- an order that was not there before is the one posted
  have horig : ∀ s c l', (s, c, l') ∈ book'.resting →
      (∃ l, (s, c, l) ∈ book.resting ∧ l'.key = l.key) ∨ (seqOf s l'.key = g.market.seqNum + 1 ∧ C.R.target = some c ∧ r.orderId = some l'.key) := by
    intro s c l' hm
    by_cases hs : s = env.order.side
    · subst hs
      rcases C.own_after hm with h1 | h1
      · exact .inl ⟨l', h1, rfl⟩
      · right
        obtain ⟨c0, hc, e⟩ := C.target_some h1
        obtain ⟨own, e1, outs, _, hP⟩ := C.ownOf hc
        obtain ⟨leaf, k1, k2, _, _, _, _, _, _, hall⟩ := hP.new
        have hlt := C.R.seq
        refine ⟨by rw [e, seqOf_newKey (by unfold two64; omega)], ?_, h1⟩
        rw [mem_resting, e1] at hm
        rcases hall c l' hm with ⟨rfl, _⟩ | hx
        · exact hc
        · exact absurd rfl (C.fresh_id h1 (mem_resting.mpr hx))
    · have hs' : s = env.order.side.invert := by cases s <;> cases hx : env.order.side <;> simp_all [Side.invert]
      subst hs'
      obtain ⟨l, h1, h2, _⟩ := C.from_before hm
      exact .inl ⟨l, h1, by rw [h2]⟩
  intro s c c' l l' hm hm' he
  rcases horig s c l hm with ⟨l0, k1, k2⟩ | ⟨k1, k2, k3⟩ <;> rcases horig s c' l' hm' with ⟨l0', j1, j2⟩ | ⟨j1, j2, j3⟩
  · rw [k2, j2] at he ⊢
    exact h s c c' l0 l0' k1 j1 he
  · obtain ⟨_, _, _, hq⟩ := resting_ok C.core k1
    rw [← k2] at hq; omega
  · obtain ⟨_, _, _, hq⟩ := resting_ok C.core j1
    rw [← j2] at hq; omega
  · rw [k2] at j2; rw [k3] at j3
    injection j2 with j2; injection j3 with j3
    exact ⟨j2, j3⟩

theorem Spec.Calls.seqUniq {book book' : Book} {g g' : Ledger} {cs : List (Env × OrderResult)} (h : Calls book g cs book' g')
    (hu : SeqUniq book) : SeqUniq book' := by
  induction h with
  | nil => exact hu
  | cons env r cs book book1 book' g g1 g' h hs ih =>
    obtain ⟨C⟩ := callRun h
    exact ih (C.seqUniq hu)

theorem reachable_seqUniq {s : State} (h : Reachable s) : SeqUniq s.book := by
  induction h with
  | init a now tokens lamports s h =>
    obtain ⟨_, rfl⟩ := createMarket_inv h
    have : (Book.resting { bids := BookSide.empty .bid, asks := BookSide.empty .ask }) = [] := by
      have hi := reachable_Inv (.init a now tokens lamports _ h)
      exact resting_nil hi.core.bookOk rfl rfl
    intro s c c' l l' hm
    rw [this] at hm; cases hm
  | step s s' op hs h ih =>
    cases hp : placer op with
    | none =>
      have hn := step_other hs h hp
      rcases hn.book with e | ⟨k, ls, hc, _⟩
      · rw [e]; exact ih
      · exact ih.sub (fun x hx => hc.sub hx)
    | some p =>
      obtain ⟨s1, cs, g1, P, _⟩ := placement_serves hs h hp
      refine P.calls.seqUniq ?_
      rcases P.first hs with e | ⟨_, _, _, ls, hc⟩
      · rw [e]; exact ih
      · exact ih.sub (fun x hx => hc.sub hx)
  | again s s' a now hs h ih =>
    obtain ⟨_, _, _, _, e⟩ := recreateMarket_inv h
    have : (Book.resting { bids := BookSide.empty .bid, asks := BookSide.empty .ask }) = [] := by decide +kernel
    intro s c c' l l' hm
    rw [e, this] at hm; cases hm

theorem Spec.EngineState.seqUniq {book : Book} {g : Ledger} (h : EngineState book g) : SeqUniq book := by
  induction h with
  | reachable s h => exact reachable_seqUniq h
  | next env book book' g g' r h hc hr ih =>
    obtain ⟨C⟩ := callRun ⟨h, hc, hr⟩
    exact C.seqUniq ih

theorem seqNo_seqOf (s : Side) (l : LeafNode) : seqNo s l = seqOf s l.key := by
  unfold seqNo seqOf two64; cases s <;> rfl

/-- In terms of the specification. -/
theorem seq_distinct {book : Book} {g : Ledger} (h : EngineState book g) {s : Side} {c c' : Comp} {l l' : LeafNode}
    (h1 : (s, c, l) ∈ book.resting) (h2 : (s, c', l') ∈ book.resting) (he : seqNo s l = seqNo s l') : c = c' ∧ l = l' := by
  obtain ⟨dB, dQ, hcore⟩ := h.core
  rw [seqNo_seqOf, seqNo_seqOf] at he
  obtain ⟨rfl, hk⟩ := h.seqUniq s c c' l l' h1 h2 he
  exact ⟨rfl, (resting_unique hcore.bookOk h1 h2 hk.symm).symm⟩

end OB
