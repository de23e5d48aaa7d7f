import Verif.Proofs.Placing
import Verif.Proofs.Room
import Verif.Props.C37_Full
import Verif.Spec.Fate
/-! Resting orders through calls of the matching engine and instructions. -/
namespace OB
open Spec

/-- Identifies a resting order. -/
def restId (x : Side × Comp × LeafNode) : Side × Comp × Nat := (x.1, x.2.1, x.2.2.key)

theorem nodup_map_pair {s : Side} {c : Comp} {L : List LeafNode} (h : (L.map (·.key)).Nodup) :
    ((L.map (fun l => (s, c, l))).map restId).Nodup := by
  rw [List.map_map, List.Nodup, List.pairwise_map]
  rw [List.Nodup, List.pairwise_map] at h
  refine h.imp ?_
  intro a b hab hx
  unfold restId at hx
  simp only [Function.comp] at hx
  injection hx with _ hx; injection hx with _ hx
  exact hab hx

theorem sideRests_ids {s : Side} {b : BookSide} {ot : Comp → Option T} (h : BSOk b ot) : ((sideRests s b.orders).map restId).Nodup := by
  unfold sideRests
  rw [List.map_append, h.orders .fixed, h.orders .pegged]
  refine List.nodup_append.mpr ⟨nodup_map_pair (h.keys .fixed), nodup_map_pair (h.keys .pegged), ?_⟩
  intro x hx y hy he
  obtain ⟨a, ha, rfl⟩ := List.mem_map.mp hx
  obtain ⟨b', hb, rfl⟩ := List.mem_map.mp hy
  obtain ⟨l, _, rfl⟩ := List.mem_map.mp ha
  obtain ⟨l', _, rfl⟩ := List.mem_map.mp hb
  unfold restId at he
  injection he with _ he; injection he with he _; cases he

theorem resting_ids {book : Book} (hb : BookOk book) : (book.resting.map restId).Nodup := by
  rw [Book.resting_eq, List.map_append]
  obtain ⟨o1, k1⟩ := hb.ok .bid
  obtain ⟨o2, k2⟩ := hb.ok .ask
  refine List.nodup_append.mpr ⟨sideRests_ids k1, sideRests_ids k2, ?_⟩
  intro x hx y hy he
  obtain ⟨a, ha, rfl⟩ := List.mem_map.mp hx
  obtain ⟨b', hb', rfl⟩ := List.mem_map.mp hy
  obtain ⟨s, c, l⟩ := a
  obtain ⟨s', c', l'⟩ := b'
  have e1 := (mem_sideRests.mp ha).1
  have e2 := (mem_sideRests.mp hb').1
  unfold restId at he
  injection he with he _
  simp only at he
  rw [e1, e2] at he; cases he

/-- Removing from a list without duplicate ids removes the id. -/
theorem gone_of_perm {L kept : List (Side × Comp × LeafNode)} {A : List (Side × Comp × LeafNode)} (hn : (L.map restId).Nodup)
    (hp : L.Perm (A ++ kept)) {s : Side} {c : Comp} {l l' : LeafNode} (hl : (s, c, l) ∈ A) (hl' : (s, c, l') ∈ kept) : l'.key ≠ l.key := by
  intro he
  have := (hp.map restId).nodup_iff.mp hn
  rw [List.map_append] at this
  refine (List.nodup_append.mp this).2.2 _ (List.mem_map.mpr ⟨_, hl, rfl⟩) _ (List.mem_map.mpr ⟨_, hl', rfl⟩) ?_
  unfold restId; simp only [he]

theorem Spec.Cancels.gone {s s' : State} {k : Pubkey} {ls : List (Side × Comp × LeafNode)} (h : Cancels s s' k ls) (hi : Inv s)
    {x : Side × Comp × LeafNode} (hx : x ∈ s.book.resting) :
    x ∈ s'.book.resting ∨ (x.2.2.owner = k ∧ x ∈ ls ∧ Gone s'.book x.1 x.2.1 x.2.2) := by
  rcases List.mem_append.mp (h.book.mem_iff.mp hx) with h1 | h1
  · exact .inr ⟨h.owner x h1, h1, fun l' hl' => gone_of_perm (resting_ids hi.core.bookOk) h.book h1 hl'⟩
  · exact .inl h1

theorem Spec.Cancels.sub {s s' : State} {k : Pubkey} {ls : List (Side × Comp × LeafNode)} (h : Cancels s s' k ls)
    {x : Side × Comp × LeafNode} (hx : x ∈ s'.book.resting) : x ∈ s.book.resting :=
  h.book.mem_iff.mpr (List.mem_append_right _ hx)

namespace CallRun
variable {env : Env} {book book' : Book} {g g' : Ledger} {r : OrderResult}

/-- Where the orders after a call come from. -/
theorem origin (C : CallRun env book g r book' g') {s : Side} {c : Comp} {l' : LeafNode} (hm : (s, c, l') ∈ book'.resting) :
    (∃ l, (s, c, l) ∈ book.resting ∧ l' = { l with quantity := l'.quantity } ∧ 1 ≤ l'.quantity ∧ l'.quantity ≤ l.quantity) ∨
    (s = env.order.side ∧ r.orderId = some l'.key ∧ l'.owner = env.owner ∧ seqOf s l'.key = g.market.seqNum + 1) := by
  by_cases hs : s = env.order.side
  · subst hs
    rcases C.own_after hm with h | h
    · obtain ⟨_, _, hq, _⟩ := resting_ok C.core h
      exact .inl ⟨l', h, rfl, hq, Int.le_refl _⟩
    · right
      refine ⟨rfl, h, ?_, ?_⟩
      · obtain ⟨c', l, _, _, hml, hlk, hown, _⟩ := C.posted h
        have hn := sideRests_ids (s := env.order.side) (C.P.book.ok env.order.side).choose_spec
        -- both orders carry the new id; the new one is the only one
        obtain ⟨c0, hc, e⟩ := C.target_some h
        obtain ⟨own, e1, outs, _, hP⟩ := C.ownOf hc
        obtain ⟨leaf, k1, k2, _, _, _, _, _, _, hall⟩ := hP.new
        rw [mem_resting, e1] at hm
        rcases hall c l' hm with ⟨_, rfl⟩ | hx
        · exact k2
        · exact absurd rfl (C.fresh_id h (mem_resting.mpr hx))
      · obtain ⟨_, _, e⟩ := C.target_some h
        have hlt := C.R.seq
        rw [e, seqOf_newKey (by unfold two64; omega)]
  · have hs' : s = env.order.side.invert := by cases s <;> cases hx : env.order.side <;> simp_all [Side.invert]
    subst hs'
    exact .inl (C.from_before hm)

theorem seq_next (C : CallRun env book g r book' g') : g'.market.seqNum = g.market.seqNum + 1 := C.P.seq

end CallRun

/-- One call, one order. -/
theorem call_fate {env : Env} {book book' : Book} {g g' : Ledger} {r : OrderResult} (h : EngineCall env book g r book' g')
    {s : Side} {c : Comp} {l : LeafNode} (hm : (s, c, l) ∈ book.resting) :
    (∃ l', (s, c, l') ∈ book'.resting ∧ Keeps env book r s c l l') ∨ (Gone book' s c l ∧ Leaves env book r book' g' s c l) := by
  obtain ⟨C⟩ := callRun h
  by_cases hs : s = env.order.side
  · subst hs
    cases hid : r.orderId with
    | none =>
      left
      refine ⟨l, ?_, .same⟩
      rw [mem_resting, C.ownSide_none hid]; exact mem_resting.mp hm
    | some id =>
      obtain ⟨E, W, kept, c', new, p, M⟩ := C37_displaces h hid
      have hn : ((onSide book env.order.side).map restId).Nodup := by
        unfold onSide
        exact (resting_ids C.core.bookOk).sublist (List.Sublist.map _ List.filter_sublist)
      have hin : (env.order.side, c, l) ∈ onSide book env.order.side := by
        unfold onSide; rw [List.mem_filter]; exact ⟨hm, by simp⟩
      have hnew : ∀ l', (env.order.side, c, l') ∈ book'.resting → (env.order.side, c, l') = (env.order.side, c', new) ∨ (env.order.side, c, l') ∈ kept := by
        intro l' hl'
        have : (env.order.side, c, l') ∈ onSide book' env.order.side := by
          unfold onSide; rw [List.mem_filter]; exact ⟨hl', by simp⟩
        exact List.mem_cons.mp (M.after.mem_iff.mp this)
      have hgone : (env.order.side, c, l) ∈ E ++ W → Gone book' env.order.side c l := by
        intro hx l' hl'
        rcases hnew l' hl' with he | he
        · injection he with _ he; injection he with _ he
          have hk := M.id
          rw [← he] at hk
          exact fun hx => C.fresh_id hk hm hx.symm
        · exact gone_of_perm hn M.before hx he
      rcases List.mem_append.mp (M.before.mem_iff.mp hin) with hx | hx
      · right
        refine ⟨hgone hx, ?_⟩
        rcases List.mem_append.mp hx with hx | hx
        · have := M.expired.2.1 _ hx
          exact .expired ⟨this.1, Nat.le_of_lt this.2⟩
        · obtain ⟨w, _, rfl, _⟩ := M.evict (List.ne_nil_of_mem hx)
          rw [List.mem_singleton] at hx
          subst hx
          exact .evicted rfl E kept c' new p M
      · left
        refine ⟨l, ?_, .same⟩
        have := M.after.mem_iff.mpr (List.mem_cons_of_mem _ hx)
        exact (List.mem_filter.mp this).1
  · have hs' : s = env.order.side.invert := by cases s <;> cases hx : env.order.side <;> simp_all [Side.invert]
    subst hs'
    cases (C.became' hm).1 with
    | stays h => exact .inl ⟨l, h, .same⟩
    | partly f hf fill out h => exact .inl ⟨_, h, .partly f rfl hf fill out⟩
    | filled f hf fill out gone => exact .inr ⟨gone, .filled f rfl hf fill out⟩
    | cancelled p own stb tr gone => exact .inr ⟨gone, .selfTrade p rfl own stb tr⟩
    | dropped why gone =>
      refine .inr ⟨gone, ?_⟩
      rcases why with h | ⟨p, h1, h2, h3⟩
      · exact .expired h
      · exact .beyondPeg p rfl h1 h2 h3

theorem Spec.Keeps.key {env : Env} {book : Book} {r : OrderResult} {s : Side} {c : Comp} {l l' : LeafNode} (h : Keeps env book r s c l l') :
    l'.key = l.key := by cases h <;> rfl

/-- Orders after several calls: there before, or with a new sequence number. -/
theorem calls_origin {book book' : Book} {g g' : Ledger} {cs : List (Env × OrderResult)} (h : Calls book g cs book' g') :
    g.market.seqNum ≤ g'.market.seqNum ∧ ∀ s c l', (s, c, l') ∈ book'.resting →
      (∃ l, (s, c, l) ∈ book.resting ∧ l' = { l with quantity := l'.quantity } ∧ l'.quantity ≤ l.quantity) ∨
      ((∃ x ∈ cs, s = x.1.order.side ∧ x.2.orderId = some l'.key ∧ l'.owner = x.1.owner) ∧ g.market.seqNum < seqOf s l'.key ∧
        seqOf s l'.key ≤ g'.market.seqNum) := by
  induction h with
  | nil book g => exact ⟨Nat.le_refl _, fun s c l' hm => .inl ⟨l', hm, rfl, Int.le_refl _⟩⟩
  | cons env r cs book book1 book' g g1 g' h hs ih =>
    obtain ⟨C⟩ := callRun h
    obtain ⟨i1, i2⟩ := ih
    have hq := C.seq_next
    refine ⟨by omega, fun s c l' hm => ?_⟩
    rcases i2 s c l' hm with ⟨l1, h1, h2, h3⟩ | ⟨⟨x, hx, h1⟩, h2, h3⟩
    · rcases C.origin h1 with ⟨l, k1, k2, _, k4⟩ | ⟨k1, k2, k3, k4⟩
      · refine .inl ⟨l, k1, ?_, by omega⟩
        rw [h2, k2]
      · have e1 : l'.key = l1.key := by rw [h2]
        have e2 : l'.owner = l1.owner := by rw [h2]
        refine .inr ⟨⟨(env, r), by simp, k1, by rw [e1]; exact k2, by rw [e2]; exact k3⟩, ?_, ?_⟩ <;> rw [e1, k4] <;> omega
    · exact .inr ⟨⟨x, List.mem_cons_of_mem _ hx, h1⟩, by omega, h3⟩

/-- An order through several calls. -/
theorem calls_through {book book' : Book} {g g' : Ledger} {cs : List (Env × OrderResult)} (h : Calls book g cs book' g')
    {s : Side} {c : Comp} {l : LeafNode} (hm : (s, c, l) ∈ book.resting) :
    ∃ o, Through s c book g cs l o ∧ Remains book' s c l o := by
  induction h generalizing l with
  | nil book g => exact ⟨some l, .done _ _ _, hm⟩
  | cons env r cs book book1 book' g g1 g' h hs ih =>
    obtain ⟨C⟩ := callRun h
    rcases call_fate h hm with ⟨l1, h1, hk⟩ | ⟨hg, hl⟩
    · obtain ⟨o, ho, hx⟩ := ih h1
      refine ⟨o, .keeps env r cs book book1 g g1 l l1 o h hk ho, ?_⟩
      cases o with
      | some l' => exact hx
      | none => intro l' hl'; rw [← hk.key]; exact hx l' hl'
    · refine ⟨none, .leaves env r cs book book1 g g1 l h hl, ?_⟩
      intro l' hl' he
      rcases (calls_origin hs).2 s c l' hl' with ⟨l1, k1, k2, _⟩ | ⟨_, k2, _⟩
      · exact hg l1 k1 (by rw [← he, k2])
      · obtain ⟨_, _, _, hsq⟩ := resting_ok C.core hm
        have := C.seq_next
        rw [he] at k2
        omega

/-- The cancellations with which a placing instruction starts. -/
theorem Spec.Placement.first {s s1 s' : State} {p : Placer} {cs : List (Env × OrderResult)} {g1 : Ledger} (h : Placement s s1 s' p cs g1)
    (hr : Reachable s) : s1 = s ∨ (p.hasOO = true ∧ Reachable s1 ∧ Controls s p.signer p.owner ∧ ∃ ls, Cancels s s1 p.owner ls) := by
  rcases h.start with e | ⟨ho, ⟨client, hs⟩ | hs⟩
  · exact .inl e
  · obtain ⟨h1, _, h3⟩ := step_cancelByClient hr hs
    exact .inr ⟨ho, .step _ _ _ hr hs, h1, h3⟩
  · obtain ⟨h1, _, h3⟩ := step_cancelAll hr hs
    exact .inr ⟨ho, .step _ _ _ hr hs, h1, h3⟩

theorem placer_signer {op : Op} {p : Placer} (h : placer op = some p) : p.signer ∈ signers op := by
  cases op <;> simp [placer] at h <;> subst h <;> simp [signers]

/-- Only an open orders account can post. -/
theorem calls_hasOO {book book' : Book} {g g' : Ledger} {cs : List (Env × OrderResult)} (h : Calls book g cs book' g')
    {x : Env × OrderResult} (hx : x ∈ cs) {id : Nat} (hid : x.2.orderId = some id) : x.1.hasOO = true := by
  induction h with
  | nil => cases hx
  | cons env r cs book book1 book' g g1 g' h hs ih =>
    rcases List.mem_cons.mp hx with rfl | hx
    · obtain ⟨C⟩ := callRun h
      obtain ⟨c0, hc, e⟩ := C.target_some hid
      obtain ⟨own, e1, outs, _, hP⟩ := C.ownOf hc
      exact hP.hasOO
    · exact ih hx

end OB
