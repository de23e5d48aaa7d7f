import Verif.Proofs.Match
import Verif.Proofs.SimStep
import Verif.Proofs.Again
import Verif.Spec.View
/-! Equal views are simulations and conversely. -/
namespace OB
open OB.Spec

theorem RSim.agree {α : Type} {P Q : α → α → Prop} {x y : R α} (h : RSim P x y) (hi : ∀ a b, P a b → Q a b) : Agree Q x y := by
  cases x <;> cases y
  · cases h; exact .inr ⟨_, rfl, rfl⟩
  · exact h.elim
  · exact h.elim
  · exact .inl ⟨_, _, rfl, rfl, hi _ _ h⟩

theorem SameView.sim {s t : State} (hs : Reachable s) (ht : Reachable t) (h : SameView s t) :
    t = { s with book := t.book } ∧ BookSim s.book t.book := by
  refine ⟨?_, ?_⟩
  · obtain ⟨g, b, tk, lm, mk, cl⟩ := t
    obtain ⟨h1, h2, h3, h4, h5, _, _⟩ := h
    simp only at h1 h2 h3 h4 h5
    subst h1 h2 h3 h4 h5
    rfl
  · intro sd
    have is := reachable_Inv hs
    have it := reachable_Inv ht
    obtain ⟨ot, hot⟩ := is.core.bookOk.ok sd
    obtain ⟨ot', hot'⟩ := it.core.bookOk.ok sd
    refine ⟨ot, ot', hot, hot', ?_, ?_, h.peak sd, ?_⟩
    · intro c
      have p1 := (hot.rep c).sorted
      have p2 := (hot'.rep c).sorted
      refine perm_sorted_eq ?_ p2 p1
      have nd : ∀ L : List LeafNode, L.Pairwise (fun x y => x.key < y.key) → L.Nodup := fun L hL =>
        hL.imp (fun {a b} hab e => by subst e; exact absurd hab (by omega))
      refine (List.perm_ext_iff_of_nodup (nd _ p2) (nd _ p1)).mpr ?_
      intro l
      rw [← hot.orders, ← hot'.orders, ← mem_resting, ← mem_resting]
      exact h.orders _
    · rw [it.core.bookOk.side, is.core.bookOk.side]
    · intro l hl
      rw [← hot.orders, ← mem_resting] at hl
      obtain ⟨oo, hr, _⟩ := resting_ok is.core hl
      obtain ⟨k1, k2, _⟩ := hr.fixed rfl
      exact ⟨hr.key, k1, k2⟩

theorem StateSim.view {s t : State} (h : StateSim s t) : SameView s t := by
  obtain ⟨e, hb⟩ := h
  refine ⟨by rw [e], by rw [e], by rw [e], by rw [e], by rw [e], ?_, ?_⟩
  · rintro ⟨sd, c, l⟩
    obtain ⟨ot, ot', hs⟩ := hb sd
    rw [mem_resting, mem_resting, hs.ok.orders, hs.ok'.orders, hs.lvs]
  · intro sd
    obtain ⟨ot, ot', hs⟩ := hb sd
    exact hs.bump

end OB
