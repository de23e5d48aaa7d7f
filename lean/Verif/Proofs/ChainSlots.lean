import Verif.Proofs.ChainList

/-!
The slots of the client's cache: the best chain, and the loop that marks it.
-/

namespace OB
namespace Cache

variable {α : Type}

/-- `b` is reached from `a` through parents. -/
inductive Down (f : Nat → Option Nat) : Nat → Nat → Prop
  | here (a : Nat) : Down f a a
  | up {a b c : Nat} : Down f a b → f b = some c → Down f a c

theorem onChain_iff {h : List (Msg α)} {t : Nat} : OnChain h t ↔ Down (parentIn h) (bestIn h) t := by
  constructor
  · intro hc
    induction hc with
    | tip => exact .here _
    | up _ hp ih => exact .up ih hp
  · intro hd
    generalize hb : bestIn h = b at hd
    induction hd with
    | here => rw [← hb]; exact .tip
    | up _ hp ih => exact .up ih hp

theorem Down.le {f : Nat → Option Nat} (hf : ∀ s p, f s = some p → p < s) {a b : Nat}
    (h : Down f a b) : b ≤ a := by
  induction h with
  | here => exact Nat.le_refl _
  | up _ hp ih => have := hf _ _ hp; omega

theorem Down.trans {f : Nat → Option Nat} {a b c : Nat} (h1 : Down f a b) (h2 : Down f b c) :
    Down f a c := by
  induction h2 with
  | here => exact h1
  | up _ hp ih => exact .up ih hp

theorem Down.linear {f : Nat → Option Nat} {a b c : Nat} (h1 : Down f a b) (h2 : Down f a c) :
    Down f b c ∨ Down f c b := by
  induction h1 with
  | here => exact .inl h2
  | @up b' b'' hd hp ih =>
    rcases ih with h | h
    · -- from b' to c: either c = b', or the way goes through the parent of b'
      have : ∀ c, Down f b' c → c = b' ∨ Down f b'' c := by
        intro c hc
        induction hc with
        | here => exact .inl rfl
        | up _ hq ihq =>
          rcases ihq with rfl | hq'
          · rw [hp] at hq
            cases hq
            exact .inr (.here _)
          · exact .inr (.up hq' hq)
      rcases this c h with rfl | h'
      · exact .inr (.up (.here _) hp)
      · exact .inl h'
    · exact .inr (.up h hp)

theorem Down.mono {f g : Nat → Option Nat} (hfg : ∀ s p, f s = some p → g s = some p) {a b : Nat}
    (h : Down f a b) : Down g a b := by
  induction h with
  | here => exact .here _
  | up _ hp ih => exact .up ih (hfg _ _ hp)

/-- The way from `a` depends only on the parents of slots up to `a`. -/
theorem Down.congr {f g : Nat → Option Nat} (hf : ∀ s p, f s = some p → p < s) {a : Nat}
    (hfg : ∀ s, s ≤ a → f s = g s) {b : Nat} (h : Down f a b) : Down g a b := by
  induction h with
  | here => exact .here _
  | up hd hp ih => exact .up ih (by rw [← hfg _ (hd.le hf)]; exact hp)

/-- The slots that the loop of chain_data.rs:97-110 visits from `s`. -/
inductive Path (m : Slots) : Nat → Nat → Prop
  | here {s : Nat} {d : SlotData} : m s = some d → Path m s s
  | up {s p t : Nat} {d : SlotData} : m s = some d → d.status ≠ .rooted → d.parent = some p →
      Path m p t → Path m s t

theorem Path.snoc {m : Slots} {s t p : Nat} {d e : SlotData} (h : Path m s t) (ht : m t = some d)
    (hr : d.status ≠ .rooted) (hp : d.parent = some p) (hm : m p = some e) : Path m s p := by
  induction h with
  | here _ => exact .up ht hr hp (.here hm)
  | up h1 h2 h3 _ ih => exact .up h1 h2 h3 (ih ht)

/-- The visited slots depend only on parents and statuses. -/
theorem Path.congr {m m' : Slots}
    (hm : ∀ t d, m t = some d → ∃ d', m' t = some d' ∧ d'.parent = d.parent ∧ d'.status = d.status)
    {s t : Nat} (h : Path m s t) : Path m' s t := by
  induction h with
  | here h => obtain ⟨d', h1, -, -⟩ := hm _ _ h; exact .here h1
  | up h1 h2 h3 _ ih =>
    obtain ⟨d', e1, e2, e3⟩ := hm _ _ h1
    exact .up e1 (by rw [e3]; exact h2) (by rw [e2]; exact h3) ih

open Classical in
/-- What the loop does, when each parent is below its slot: it ends, and the visited slots get the
mark. -/
theorem mark_spec (best : Nat) : ∀ (fuel s : Nat) (m : Slots),
    (∀ t d p, m t = some d → d.parent = some p → p < t) → s < fuel →
    ∃ m', mark best fuel s m = some m' ∧
      ∀ t, m' t = (m t).map (fun d => if Path m s t then { d with chain := best } else d) := by
  intro fuel
  induction fuel with
  | zero => intro s m _ h; omega
  | succ fuel ih =>
    intro s m hlow hs
    unfold mark
    split
    · next hn =>
      refine ⟨m, rfl, ?_⟩
      intro t
      have : ¬ Path m s t := by
        intro hp
        cases hp with
        | here h => rw [hn] at h; cases h
        | up h => rw [hn] at h; cases h
      simp [this]
    · next d hd =>
      -- the map with the mark on `s`
      have hput : ∀ t d0, m t = some d0 → ∃ d', (m.put s { d with chain := best }) t = some d' ∧
          d'.parent = d0.parent ∧ d'.status = d0.status := by
        intro t d0 ht
        unfold Slots.put
        by_cases hts : t = s
        · subst hts
          rw [hd] at ht
          cases ht
          exact ⟨_, if_pos rfl, rfl, rfl⟩
        · exact ⟨d0, by rw [if_neg hts]; exact ht, rfl, rfl⟩
      have hput' : ∀ t d0, (m.put s { d with chain := best }) t = some d0 →
          ∃ d', m t = some d' ∧ d'.parent = d0.parent ∧ d'.status = d0.status := by
        intro t d0 ht
        unfold Slots.put at ht
        by_cases hts : t = s
        · subst hts
          rw [if_pos rfl] at ht
          cases ht
          exact ⟨d, hd, rfl, rfl⟩
        · rw [if_neg hts] at ht
          exact ⟨d0, ht, rfl, rfl⟩
      have hstop : (d.status = .rooted ∨ d.parent = none) → ∀ t,
          (m.put s { d with chain := best }) t =
            (m t).map (fun d => if Path m s t then { d with chain := best } else d) := by
        intro hor t
        unfold Slots.put
        by_cases hts : t = s
        · subst hts
          have : Path m t t := .here hd
          simp [hd, this]
        · have : ¬ Path m s t := by
            intro hp
            cases hp with
            | here _ => exact hts rfl
            | up h1 h2 h3 _ =>
              rw [hd] at h1
              cases h1
              rcases hor with h | h
              · exact h2 h
              · rw [h] at h3; cases h3
          simp [hts, this]
      simp only []
      split
      · next hr => exact ⟨_, rfl, hstop (.inl hr)⟩
      · next hr =>
        split
        · next hn => exact ⟨_, rfl, hstop (.inr hn)⟩
        · next p hp =>
          have hps := hlow s d p hd hp
          obtain ⟨m', h1, h2⟩ := ih p (m.put s { d with chain := best })
            (by
              intro t d0 q ht hq
              obtain ⟨d', e1, e2, -⟩ := hput' t d0 ht
              exact hlow t d' q e1 (by rw [e2]; exact hq)) (by omega)
          refine ⟨m', h1, ?_⟩
          intro t
          rw [h2]
          have hpath : Path (m.put s { d with chain := best }) p t ↔ Path m p t :=
            ⟨Path.congr hput', Path.congr hput⟩
          simp only [hpath]
          unfold Slots.put
          by_cases hts : t = s
          · subst hts
            have : Path m t t := .here hd
            simp [hd, this]
          · have : Path m s t ↔ Path m p t := by
              constructor
              · intro hp'
                cases hp' with
                | here _ => exact absurd rfl hts
                | up e1 _ e3 e4 =>
                  rw [hd] at e1
                  cases e1
                  rw [hp] at e3
                  cases e3
                  exact e4
              · intro hp'
                exact .up hd hr hp hp'
            simp [hts, this]

end Cache
end OB
