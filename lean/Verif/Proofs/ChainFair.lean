import Verif.Proofs.ChainInv

/-!
The cache after a fair feed, and what holds after any feed.
-/

namespace OB
namespace Cache

variable {α : Type}

/-- After a fair feed the cache holds what the messages say. -/
theorem fair_holds {h : List (Msg α)} (hf : Fair h) :
    ∃ c, run h = some c ∧
      Holds c (bestIn h) (rootIn h) (parentIn h) (knownIn h) (writesIn h) := by
  induction hf with
  | start => exact ⟨_, rfl, holds_new⟩
  | @createdBank h s p _ hps hrs hord hroot ih =>
    obtain ⟨c, hc, H⟩ := ih
    rw [onChain_iff] at hroot
    obtain ⟨c', h1, h2⟩ := H.created s p hps hrs hord hroot
    refine ⟨c', ?_, h2⟩
    simp only [run, hc, Option.bind_some, apply]
    exact h1
  | @confirmed h s _ hrs hord ih =>
    obtain ⟨c, hc, H⟩ := ih
    obtain ⟨c', h1, h2⟩ := H.confirmed s hrs hord
    refine ⟨c', ?_, h2⟩
    simp only [run, hc, Option.bind_some, apply]
    exact h1
  | @root h s _ hrs hon ih =>
    obtain ⟨c, hc, H⟩ := ih
    rw [onChain_iff] at hon
    obtain ⟨c', h1, h2⟩ := H.rooted s hrs hon
    refine ⟨c', ?_, ?_⟩
    · simp only [run, hc, Option.bind_some, apply]
      exact h1
    · have : rootIn (.root s :: h) = s := by simp only [rootIn]; omega
      rw [this]
      exact h2
  | @write h key w _ hw ih =>
    obtain ⟨c, hc, H⟩ := ih
    refine ⟨updateAccount c key w, by simp only [run, hc, Option.bind_some, apply], ?_⟩
    exact H.write key w (fun h1 h2 => onChain_iff.mp (hw h1 h2))
  | @rpc h key w _ hw ih =>
    obtain ⟨c, hc, H⟩ := ih
    have hrb := H.root_le
    by_cases hb : bestIn h < w.slot
    · have hbest : Down (fun t => (parentIn h t).or (if t = w.slot then some (bestIn h) else none))
          (max w.slot (bestIn h)) (bestIn h) := by
        rw [Nat.max_eq_left (by omega)]
        refine .up (.here _) ?_
        have hn : parentIn h w.slot = none := by
          cases hp : parentIn h w.slot with
          | none => rfl
          | some q => have := (H.parents _ _ hp).2.2; omega
        simp [hn]
      obtain ⟨c', h1, h2⟩ := H.created w.slot (bestIn h) hb (by omega)
        (.inr (by
          intro t ht
          have := H.parents _ _ ht
          omega))
        (by
          rcases H.rootOn with h0 | h0
          · exact .inl h0
          · refine .inr (hbest.trans (h0.mono ?_))
            intro s p hs
            simp [hs])
      refine ⟨updateAccount c' key w, ?_, ?_⟩
      · simp only [run, hc, Option.bind_some, apply, updateFromRpc, H.best, gt_iff_lt, hb, if_true, h1,
          Option.map_some]
      · have h3 := h2.write key w (by intro; omega)
        have e2 : parentIn (.rpc key w :: h) =
            fun t => (parentIn h t).or (if t = w.slot then some (bestIn h) else none) := by
          funext t
          simp only [parentIn, hb, and_true]
        have e3 : knownIn (.rpc key w :: h) = fun t => t = w.slot ∨ knownIn h t := by
          funext t
          simp only [knownIn, hb, and_true]
        rw [e2, e3]
        exact h3
    · refine ⟨updateAccount c key w, ?_, ?_⟩
      · simp only [run, hc, Option.bind_some, apply, updateFromRpc, H.best, gt_iff_lt, hb, if_false,
          Option.map_some]
      · have h3 := H.write key w (fun h1 h2 => onChain_iff.mp (hw h1 h2))
        have e1 : bestIn (.rpc key w :: h) = bestIn h := by simp only [bestIn]; omega
        have e2 : parentIn (.rpc key w :: h) = parentIn h := by
          funext t
          simp [parentIn, hb]
        have e3 : knownIn (.rpc key w :: h) = knownIn h := by
          funext t
          simp [knownIn, hb]
        rw [e1, e2, e3]
        exact h3

open Classical in
theorem fair_reads {h : List (Msg α)} (hf : Fair h) :
    ∃ c, run h = some c ∧ ∀ key w, accountAndSlot c key = some w ↔ Current h key w := by
  obtain ⟨c, hc, H⟩ := fair_holds hf
  refine ⟨c, hc, ?_⟩
  intro key w
  rw [H.reads key, pick_some]
  unfold Current
  simp only [decide_eq_true_eq, ← counts_iff]

theorem enter_below {m : Slots} (hm : ∀ t d p, m t = some d → d.parent = some p → p < t) {s : Nat}
    {p : Option Nat} {st : Status} (hp : ∀ q, p = some q → q < s) :
    ∀ t d q, (enter m s p st).1 t = some d → d.parent = some q → q < t := by
  intro t d q ht hq
  unfold enter at ht
  cases hv : m s with
  | none =>
    rw [hv] at ht
    simp only [Slots.put] at ht
    split at ht
    · next h => cases ht; subst h; exact hp q hq
    · exact hm t d q ht hq
  | some v =>
    rw [hv] at ht
    simp only [Slots.put] at ht
    split at ht
    · next h =>
      cases ht
      subst h
      simp only [] at hq
      cases hvp : v.parent with
      | none => rw [hvp] at hq; exact hp q (by simpa using hq)
      | some x => rw [hvp] at hq; simp at hq; subst hq; exact hm _ _ _ hv hvp
    · exact hm t d q ht hq

/-- `update_slot` ends, and keeps each parent below its slot. -/
theorem updateSlot_ends {c : ChainData α}
    (hm : ∀ t d p, c.slots t = some d → d.parent = some p → p < t) {s : Nat}
    {p : Option Nat} {st : Status} (hp : ∀ q, p = some q → q < s) :
    ∃ c', updateSlot c s p st = some c' ∧
      (∀ t d p, c'.slots t = some d → d.parent = some p → p < t) := by
  classical
  have he := enter_below hm (st := st) hp
  have hmk : ∀ best, ∃ m',
      (if (decide (p.isSome = true ∧ s > c.bestChain) || (enter c.slots s p st).2) = true then
        mark best (best + 1) best (enter c.slots s p st).1 else some (enter c.slots s p st).1) =
          some m' ∧ (∀ t d p, m' t = some d → d.parent = some p → p < t) := by
    intro best
    split
    · obtain ⟨m', h1, h2⟩ := mark_spec best (best + 1) best (enter c.slots s p st).1 he
        (Nat.lt_succ_self _)
      refine ⟨m', h1, ?_⟩
      intro t d q ht hq
      rw [h2 t] at ht
      cases hmt : (enter c.slots s p st).1 t with
      | none => rw [hmt] at ht; cases ht
      | some d0 =>
        rw [hmt] at ht
        simp only [Option.map_some, Option.some.injEq] at ht
        refine he t d0 q hmt ?_
        rw [← hq, ← ht]
        split <;> rfl
    · exact ⟨_, rfl, he⟩
  unfold updateSlot
  simp only []
  obtain ⟨m', h1, h2⟩ := hmk (if decide (p.isSome = true ∧ s > c.bestChain) = true then s
    else c.bestChain)
  rw [h1]
  simp only [Option.map_some]
  split
  · refine ⟨_, rfl, ?_⟩
    intro t d q ht hq
    simp only [] at ht
    split at ht
    · exact h2 t d q ht hq
    · cases ht
  · exact ⟨_, rfl, h2⟩

/-- `update_slot` only removes writes. -/
theorem updateSlot_accounts {c c' : ChainData α} {s : Nat} {p : Option Nat} {st : Status}
    (h : updateSlot c s p st = some c') (k : Nat) :
    ∃ q : Write α → Bool, c'.accounts k = (c.accounts k).map (·.filter q) := by
  unfold updateSlot at h
  simp only [] at h
  rw [Option.map_eq_some_iff] at h
  obtain ⟨m, -, h⟩ := h
  split at h
  · subst h
    cases hc : c.accounts k with
    | none => exact ⟨fun _ => true, by simp [hc]⟩
    | some v => exact ⟨_, by simp only [hc, Option.map_some]; rfl⟩
  · subst h
    refine ⟨fun _ => true, ?_⟩
    simp only []
    cases c.accounts k with
    | none => rfl
    | some v => exact congrArg some (List.filter_eq_self.mpr (by simp)).symm

theorem held_slot {c c' : ChainData α} {s : Nat} {p : Option Nat} {st : Status}
    (h : updateSlot c s p st = some c') (k : Nat) :
    ∃ q : Write α → Bool, held c' k = (held c k).filter q := by
  obtain ⟨q, hq⟩ := updateSlot_accounts h k
  refine ⟨q, ?_⟩
  unfold held
  rw [hq]
  cases c.accounts k with
  | none => rfl
  | some v => simp [List.filter_reverse]

theorem held_write (c : ChainData α) (key : Nat) (w : Write α) (k : Nat) :
    held (updateAccount c key w) k = if k = key then ins w (held c k) else held c k := by
  unfold held updateAccount
  by_cases hk : k = key
  · subst hk
    simp only [if_pos rfl]
    cases hc : c.accounts k with
    | none => simp [ins]
    | some v => simp [insertWrite_eq]
  · simp only [if_neg hk]

/-- Whatever the feed, the writes of an account are ordered and were received. -/
theorem any_held : ∀ {h : List (Msg α)} {c : ChainData α}, run h = some c → ∀ k,
    Desc (held c k) ∧ ∀ w ∈ held c k, w ∈ writesIn h k := by
  intro h
  induction h with
  | nil =>
    intro c hc k
    simp only [run, Option.some.injEq] at hc
    subst hc
    simp [held, ChainData.new, Desc]
  | cons m h ih =>
    intro c hc k
    simp only [run, Option.bind_eq_some_iff] at hc
    obtain ⟨c0, h0, h1⟩ := hc
    obtain ⟨hd, hm⟩ := ih h0 k
    have hslot : ∀ {c1 : ChainData α} {s p st}, updateSlot c0 s p st = some c1 →
        Desc (held c1 k) ∧ ∀ w ∈ held c1 k, w ∈ writesIn h k := by
      intro c1 s p st hu
      obtain ⟨q, hq⟩ := held_slot hu k
      rw [hq]
      refine ⟨List.Pairwise.filter _ hd, ?_⟩
      intro w hw
      exact hm w (List.mem_filter.mp hw).1
    have hwrite : ∀ (c1 : ChainData α) (key : Nat) (w : Write α),
        (Desc (held c1 k) ∧ ∀ w ∈ held c1 k, w ∈ writesIn h k) →
        Desc (held (updateAccount c1 key w) k) ∧
          ∀ x ∈ held (updateAccount c1 key w) k,
            x ∈ (if k = key then w :: writesIn h k else writesIn h k) := by
      intro c1 key w ⟨g1, g2⟩
      rw [held_write]
      by_cases hk : k = key
      · simp only [if_pos hk]
        refine ⟨ins_desc g1, ?_⟩
        intro x hx
        rcases ins_mem.mp hx with rfl | hx
        · exact List.mem_cons_self
        · exact List.mem_cons_of_mem _ (g2 x hx)
      · simp only [if_neg hk]
        exact ⟨g1, g2⟩
    cases m with
    | write key w =>
      simp only [apply, Option.some.injEq] at h1
      subst h1
      exact hwrite c0 key w ⟨hd, hm⟩
    | createdBank s p => exact hslot h1
    | confirmed s => exact hslot h1
    | root s => exact hslot h1
    | rpc key w =>
      simp only [apply, updateFromRpc, Option.map_eq_some_iff] at h1
      obtain ⟨c1, h1, rfl⟩ := h1
      split at h1
      · exact hwrite c1 key w (hslot h1)
      · cases h1
        exact hwrite c0 key w ⟨hd, hm⟩

/-- The feed never stops the cache, when each parent is below its slot. -/
theorem below_runs : ∀ {h : List (Msg α)}, Below h → ∃ c, run h = some c ∧
    ∀ t d p, c.slots t = some d → d.parent = some p → p < t := by
  intro h
  induction h with
  | nil =>
    intro _
    exact ⟨_, rfl, by intro t d p ht; cases ht⟩
  | cons m h ih =>
    intro hb
    obtain ⟨c, hc, hlow⟩ := ih (fun s p hs => hb s p (List.mem_cons_of_mem _ hs))
    simp only [run, hc, Option.bind_some]
    cases m with
    | write key w => exact ⟨_, rfl, hlow⟩
    | createdBank s p =>
      obtain ⟨c', h1, h2⟩ := updateSlot_ends hlow (s := s) (p := some p) (st := .processed)
        (by intro q hq; cases hq; exact hb s p List.mem_cons_self)
      exact ⟨c', h1, h2⟩
    | confirmed s =>
      obtain ⟨c', h1, h2⟩ := updateSlot_ends hlow (s := s) (p := none) (st := .confirmed)
        (by intro q hq; cases hq)
      exact ⟨c', h1, h2⟩
    | root s =>
      obtain ⟨c', h1, h2⟩ := updateSlot_ends hlow (s := s) (p := none) (st := .rooted)
        (by intro q hq; cases hq)
      exact ⟨c', h1, h2⟩
    | rpc key w =>
      simp only [apply, updateFromRpc]
      by_cases hgt : w.slot > c.bestChain
      · obtain ⟨c', h1, h2⟩ := updateSlot_ends hlow (s := w.slot) (p := some c.bestChain)
          (st := .processed) (by intro q hq; cases hq; exact hgt)
        simp only [if_pos hgt, h1, Option.map_some]
        exact ⟨_, rfl, h2⟩
      · simp only [if_neg hgt, Option.map_some]
        exact ⟨_, rfl, hlow⟩

end Cache
end OB
