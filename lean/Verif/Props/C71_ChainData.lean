import Verif.Proofs.ChainFair
import Verif.Props.C70_Chain

/-!
C71: whatever the feed, the client's cache of accounts returns only what was received for that
account, in the order of slots, and the last word for a slot wins.

The comment at chain_data.rs:158 says that an entry for the slot is overwritten. It never is: see
`C71_overwritten_false`.
-/

namespace OB
open Cache

variable {α : Type}

/-- What is returned for an account was received for that account, with that slot. -/
theorem C71_received {h : List (Msg α)} {c : ChainData α} (hc : run h = some c) {key : Nat}
    {w : Write α} (hr : accountAndSlot c key = some w) :
    (∃ pre post, h = pre ++ .write key w :: post) ∨ (∃ pre post, h = pre ++ .rpc key w :: post) := by
  have hm : w ∈ held c key := by
    unfold accountAndSlot at hr
    unfold held
    cases ha : c.accounts key with
    | none => rw [ha] at hr; cases hr
    | some ws =>
      rw [ha] at hr
      exact List.mem_of_find?_eq_some hr
  have hw := (any_held hc key).2 w hm
  clear hc hr hm
  induction h with
  | nil => cases hw
  | cons m h ih =>
    have hlift : w ∈ writesIn h key →
        (∃ pre post, m :: h = pre ++ .write key w :: post) ∨
          (∃ pre post, m :: h = pre ++ .rpc key w :: post) := by
      intro hw
      rcases ih hw with ⟨a, b, he⟩ | ⟨a, b, he⟩
      · exact .inl ⟨m :: a, b, by rw [he]; rfl⟩
      · exact .inr ⟨m :: a, b, by rw [he]; rfl⟩
    cases m with
    | write k v =>
      simp only [writesIn] at hw
      split at hw
      · next hk =>
        rcases List.mem_cons.mp hw with rfl | hw
        · subst hk; exact .inl ⟨[], h, rfl⟩
        · exact hlift hw
      · exact hlift hw
    | rpc k v =>
      simp only [writesIn] at hw
      split at hw
      · next hk =>
        rcases List.mem_cons.mp hw with rfl | hw
        · subst hk; exact .inr ⟨[], h, rfl⟩
        · exact hlift hw
      · exact hlift hw
    | createdBank s p => exact hlift hw
    | confirmed s => exact hlift hw
    | root s => exact hlift hw

example : ∃ c, run ChainCase.feed = some c ∧ accountAndSlot c 1 = some ⟨3, 31⟩ :=
  ⟨_, rfl, by decide +kernel⟩

/-- The writes of an account are ordered by slot (chain_data.rs:157). -/
theorem C71_ordered {h : List (Msg α)} {c : ChainData α} (hc : run h = some c) {key : Nat}
    {ws : List (Write α)} (ha : c.accounts key = some ws) :
    ∀ i j (hi : i < ws.length) (hj : j < ws.length), i ≤ j → (ws[i]).slot ≤ (ws[j]).slot := by
  have hd := (any_held hc key).1
  unfold held at hd
  rw [ha] at hd
  simp only [Option.getD_some, Desc, List.pairwise_reverse] at hd
  intro i j hi hj hij
  rcases Nat.lt_or_eq_of_le hij with h | rfl
  · exact List.pairwise_iff_getElem.mp hd i j hi hj h
  · exact Nat.le_refl _

example : ∃ c ws, run ChainCase.feed = some c ∧ c.accounts 1 = some ws ∧ ws.length = 2 :=
  ⟨_, _, rfl, rfl, rfl⟩

/-- What is returned is not older than any live write that the cache has. -/
theorem C71_newest {h : List (Msg α)} {c : ChainData α} (hc : run h = some c) {key : Nat}
    {w : Write α} (hr : accountAndSlot c key = some w) {ws : List (Write α)}
    (ha : c.accounts key = some ws) : isLive c w = true ∧ ∀ v ∈ ws, isLive c v = true → v.slot ≤ w.slot := by
  have hd := (any_held hc key).1
  unfold held at hd
  unfold accountAndSlot at hr
  rw [ha] at hd hr
  simp only [Option.getD_some] at hd
  simp only [] at hr
  refine ⟨List.find?_some hr, ?_⟩
  intro v hv hl
  obtain ⟨-, as, bs, he, hn⟩ := List.find?_eq_some_iff_append.mp hr
  have hv' : v ∈ ws.reverse := List.mem_reverse.mpr hv
  rw [he] at hv' hd
  rcases List.mem_append.mp hv' with h1 | h1
  · have := hn v h1
    rw [hl] at this
    cases this
  · rcases List.mem_cons.mp h1 with rfl | h1
    · exact Nat.le_refl _
    · have h2 := (List.pairwise_append.mp hd).2.1
      exact (List.pairwise_cons.mp h2).1 v h1

example : ∃ c ws, run ChainCase.feed = some c ∧ accountAndSlot c 1 = some ⟨3, 31⟩ ∧
    c.accounts 1 = some ws ∧ (⟨6, 61⟩ : Write Nat) ∈ ws :=
  ⟨_, _, rfl, by decide +kernel, rfl, by decide +kernel⟩

/-- A write that is live and not older than any live write of its account is what the next read
returns, also when there was a write for its slot; reads of other accounts do not change. -/
theorem C71_last_word {h : List (Msg α)} {c c' : ChainData α} (hc : run h = some c) {key : Nat}
    {w : Write α} (hc' : run (.write key w :: h) = some c') :
    (isLive c w = true → (∀ v, accountAndSlot c key = some v → v.slot ≤ w.slot) →
      accountAndSlot c' key = some w) ∧
    (∀ v, accountAndSlot c key = some v → w.slot < v.slot → accountAndSlot c' key = some v) ∧
    (isLive c w = false → accountAndSlot c' key = accountAndSlot c key) ∧
    (∀ k, k ≠ key → accountAndSlot c' k = accountAndSlot c k) := by
  simp only [run, hc, Option.bind_some, apply, Option.some.injEq] at hc'
  subst hc'
  have hread : ∀ c : ChainData α, ∀ k, accountAndSlot c k = (held c k).find? (isLive c) := by
    intro c k
    unfold accountAndSlot held
    cases c.accounts k <;> rfl
  have hlive : isLive (updateAccount c key w) = isLive c := rfl
  -- liveness depends on the slot only
  have hslot : ∀ x : Write α, isLive c x = isLive c ⟨x.slot, w.account⟩ := fun _ => rfl
  have hcomb : accountAndSlot (updateAccount c key w) key =
      comb (fun s => isLive c ⟨s, w.account⟩) w (accountAndSlot c key) := by
    rw [hread, hread, hlive, held_write, if_pos rfl]
    exact find_ins (fun s => isLive c ⟨s, w.account⟩) w (any_held hc key).1
  refine ⟨?_, ?_, ?_, ?_⟩
  · intro hl hv
    rw [hcomb]
    have hl' : isLive c ⟨w.slot, w.account⟩ = true := hl
    cases ha : accountAndSlot c key with
    | none => simp [comb, hl']
    | some v =>
      have := hv v ha
      simp [comb, hl', this]
  · intro v ha hlt
    rw [hcomb, ha]
    have : ¬ v.slot ≤ w.slot := by omega
    simp [comb, this]
  · intro hl
    rw [hcomb]
    have hl' : isLive c ⟨w.slot, w.account⟩ = false := hl
    cases ha : accountAndSlot c key with
    | none => simp [comb, hl']
    | some v => simp [comb, hl']
  · intro k hk
    rw [hread, hread, hlive, held_write, if_neg hk]

example : ∃ c c', run ChainCase.feed = some c ∧ run (.write 1 ⟨7, 70⟩ :: ChainCase.feed) = some c' ∧
    isLive c ⟨7, 70⟩ = true ∧ accountAndSlot c 1 = some ⟨3, 31⟩ ∧
    accountAndSlot c' 1 = some ⟨7, 70⟩ :=
  ⟨_, _, rfl, rfl, by decide +kernel, by decide +kernel, by decide +kernel⟩

/-- When a new root arrives, the writes of an account up to it are for one slot, and no slot below
it is kept. -/
theorem C71_pruned {h : List (Msg α)} {c c' : ChainData α} (hc : run h = some c) {s : Nat}
    (hs : c.newestRooted < s) (hc' : run (.root s :: h) = some c') :
    c'.newestRooted = s ∧ (∀ t, t < s → c'.slots t = none) ∧
    ∀ key ws, c'.accounts key = some ws → ∀ v ∈ ws, ∀ w ∈ ws, v.slot ≤ s → w.slot ≤ s →
      v.slot = w.slot := by
  simp only [run, hc, Option.bind_some, apply] at hc'
  unfold updateSlot at hc'
  simp only [gt_iff_lt, hs, and_self, decide_true, if_true, Option.map_eq_some_iff] at hc'
  obtain ⟨m, -, rfl⟩ := hc'
  refine ⟨rfl, ?_, ?_⟩
  · intro t ht
    have : ¬ t ≥ s := by omega
    simp [this]
  · intro key ws hws v hv w hw h1 h2
    simp only [Option.map_eq_some_iff] at hws
    obtain ⟨ws0, -, rfl⟩ := hws
    unfold prune at hv hw
    simp only [List.mem_filter, decide_eq_true_eq] at hv hw
    omega

example : ∃ c c', run ChainCase.feed = some c ∧ c.newestRooted < 7 ∧
    run (.root 7 :: ChainCase.feed) = some c' ∧ (c'.accounts 1).map List.length = some 1 :=
  ⟨_, _, rfl, by decide +kernel, rfl, by decide +kernel⟩

/-- The cache does not overwrite the entry for a slot: every write for one slot is kept beside the
others, so that their number has no bound. -/
theorem C71_overwritten_false (w : Write α) (n : Nat) :
    ∃ c : ChainData α, run (List.replicate (n + 1) (.write 1 w)) = some c ∧
      c.accounts 1 = some (List.replicate (n + 1) w) := by
  have key : ∀ n, ∃ c : ChainData α, run (List.replicate (n + 1) (.write 1 w)) = some c ∧
      c.accounts 1 = some (held c 1).reverse ∧ held c 1 = List.replicate (n + 1) w := by
    intro n
    induction n with
    | zero => exact ⟨_, rfl, rfl, rfl⟩
    | succ n ih =>
      obtain ⟨c, h1, h2, h3⟩ := ih
      refine ⟨updateAccount c 1 w, ?_, ?_, ?_⟩
      · show (run (List.replicate (n + 1) (.write 1 w))).bind _ = _
        rw [h1]
        rfl
      · unfold held updateAccount
        simp
      · rw [held_write, if_pos rfl, h3]
        simp [ins, List.replicate_succ]
  obtain ⟨c, h1, h2, h3⟩ := key n
  exact ⟨c, h1, by rw [h2, h3, List.reverse_replicate]⟩

end OB
