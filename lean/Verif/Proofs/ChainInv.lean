import Verif.Proofs.ChainSlots

/-!
What the client's cache holds, in terms of the messages received.
-/

namespace OB
namespace Cache

variable {α : Type}

/-- The slots that count, from the head of the chain, the root, the parents and the known slots. -/
def CountsOf (b r : Nat) (f : Nat → Option Nat) (K : Nat → Prop) (s : Nat) : Prop :=
  (K s ∧ (Down f b s ∨ b < s)) ∨ (¬ K s ∧ s ≤ r)

theorem counts_iff (h : List (Msg α)) (s : Nat) :
    Counts h s ↔ CountsOf (bestIn h) (rootIn h) (parentIn h) (knownIn h) s := by
  unfold Counts CountsOf
  rw [onChain_iff]

/-- The writes of an account, the newest first. -/
def held (c : ChainData α) (key : Nat) : List (Write α) := ((c.accounts key).getD []).reverse

/-- The state of the cache with head `b`, root `r`, parents `f`, known slots `K`, writes `W`. -/
structure Holds (c : ChainData α) (b r : Nat) (f : Nat → Option Nat) (K : Nat → Prop)
    (W : Nat → List (Write α)) : Prop where
  best : c.bestChain = b
  root : c.newestRooted = r
  low : ∀ s, s < r → c.slots s = none
  dom : ∀ s, r ≤ s → (c.slots s ≠ none ↔ K s)
  parent : ∀ s d, c.slots s = some d → d.parent = f s
  status : ∀ s d, c.slots s = some d → (d.status = .rooted ↔ s = r)
  chainLe : ∀ s d, c.slots s = some d → d.chain ≤ b
  chain : ∀ s d, c.slots s = some d → r < s → s ≤ b → (d.chain = b ↔ Down f b s)
  parents : ∀ s p, f s = some p → p < s ∧ K s ∧ s ≤ b
  pos : ∀ s, K s → 0 < s
  tip : b = 0 ∨ f b ≠ none
  rootOn : r = 0 ∨ Down f b r
  desc : ∀ key, Desc (held c key)
  read : ∀ key (P : Nat → Bool), (∀ s, s ≤ r → (P s = true ↔ CountsOf b r f K s)) →
    (held c key).find? (fun x => P x.slot) = pick P (W key)
  old : ∀ key, ∀ w ∈ held c key, w.slot < r → CountsOf b r f K w.slot

theorem holds_new : Holds (ChainData.new : ChainData α) 0 0 (fun _ => none) (fun _ => False)
    (fun _ => []) where
  best := rfl
  root := rfl
  low := by intros; rfl
  dom := by intro s _; simp [ChainData.new]
  parent := by intro s d h; cases h
  status := by intro s d h; cases h
  chainLe := by intro s d h; cases h
  chain := by intro s d h; cases h
  parents := by intro s p h; cases h
  pos := by intro s h; cases h
  tip := .inl rfl
  rootOn := .inl rfl
  desc := by intro key; simp [held, ChainData.new, Desc]
  read := by intro key P _; simp [held, ChainData.new, pick]
  old := by intro key w hw; simp [held, ChainData.new] at hw

namespace Holds

variable {c : ChainData α} {b r : Nat} {f : Nat → Option Nat} {K : Nat → Prop}
  {W : Nat → List (Write α)}

theorem below (H : Holds c b r f K W) : ∀ s p, f s = some p → p < s := fun s p h => (H.parents s p h).1

theorem root_le (H : Holds c b r f K W) : r ≤ b := by
  rcases H.rootOn with h | h
  · omega
  · exact h.le H.below

/-- Which held writes are live. -/
theorem live (H : Holds c b r f K W) {key : Nat} {w : Write α} (hw : w ∈ held c key) :
    isLive c w = true ↔ CountsOf b r f K w.slot := by
  have hrb := H.root_le
  unfold isLive
  by_cases hlt : w.slot < r
  · rw [H.low _ hlt]
    simp only [decide_eq_true_eq, H.root]
    exact ⟨fun _ => H.old key w hw hlt, fun _ => by omega⟩
  · cases hs : c.slots w.slot with
    | none =>
      have hk : ¬ K w.slot := by
        intro hk
        exact (H.dom _ (by omega)).mpr hk hs
      simp only [decide_eq_true_eq, H.root, CountsOf, hk, false_and, not_false_eq_true, true_and,
        false_or]
    | some d =>
      have hk : K w.slot := (H.dom _ (by omega)).mp (by rw [hs]; simp)
      have h0 := H.pos _ hk
      have hst := H.status _ _ hs
      simp only [decide_eq_true_eq, H.best, CountsOf, hk, true_and, not_true_eq_false, false_and,
        or_false]
      by_cases hr : w.slot = r
      · have : Down f b w.slot := by
          rcases H.rootOn with h | h
          · omega
          · rw [hr]; exact h
        simp [hst.mpr hr, this]
      · by_cases hb : w.slot ≤ b
        · have hch := H.chain _ _ hs (by omega) hb
          have h1 : ¬ d.status = .rooted := fun h => hr (hst.mp h)
          have h2 : ¬ b < w.slot := by omega
          simp [h1, h2, hch]
        · have : b < w.slot := by omega
          simp [this]

theorem find_congr' {l : List (Write α)} {p q : Write α → Bool} (h : ∀ w ∈ l, p w = q w) :
    l.find? p = l.find? q := by
  induction l with
  | nil => rfl
  | cons d l ih =>
    rw [List.find?_cons, List.find?_cons, h d List.mem_cons_self,
      ih (fun w hw => h w (List.mem_cons_of_mem _ hw))]

open Classical in
/-- What is read is the newest write of the slots that count. -/
theorem reads (H : Holds c b r f K W) (key : Nat) :
    accountAndSlot c key = pick (fun s => decide (CountsOf b r f K s)) (W key) := by
  rw [← H.read key (fun s => decide (CountsOf b r f K s)) (by intro s _; simp)]
  rw [← find_congr' (p := isLive c) (l := held c key)
    (by
      intro w hw
      have := H.live hw
      cases h : isLive c w with
      | true => rw [h] at this; simp [this.mp rfl]
      | false =>
        rw [h] at this
        have hn : ¬ CountsOf b r f K w.slot := fun hc => by cases this.mpr hc
        simp [hn])]
  unfold accountAndSlot held
  cases c.accounts key <;> rfl

/-- A write is received. -/
theorem write (H : Holds c b r f K W) (key : Nat) (w : Write α)
    (hw : w.slot < r → K w.slot → Down f b w.slot) :
    Holds (updateAccount c key w) b r f K (fun k => if k = key then w :: W k else W k) := by
  have hheld : ∀ k, held (updateAccount c key w) k = if k = key then ins w (held c k) else held c k := by
    intro k
    unfold held updateAccount
    by_cases hk : k = key
    · subst hk
      simp only [if_pos rfl]
      cases hc : c.accounts k with
      | none => simp [ins]
      | some v => simp [insertWrite_eq]
    · simp only [if_neg hk]
  exact {
    best := H.best, root := H.root, low := H.low, dom := H.dom, parent := H.parent,
    status := H.status, chainLe := H.chainLe, chain := H.chain, parents := H.parents, pos := H.pos,
    tip := H.tip, rootOn := H.rootOn,
    desc := by
      intro k
      rw [hheld]
      split
      · exact ins_desc (H.desc k)
      · exact H.desc k
    read := by
      intro k P hP
      rw [hheld]
      by_cases hk : k = key
      · simp only [if_pos hk, find_ins P w (H.desc k), pick, H.read k P hP]
      · simp only [if_neg hk, H.read k P hP]
    old := by
      intro k x hx hlt
      rw [hheld] at hx
      split at hx
      · rcases ins_mem.mp hx with rfl | hx
        · by_cases hk : K x.slot
          · exact .inl ⟨hk, .inl (hw hlt hk)⟩
          · exact .inr ⟨hk, by omega⟩
        · exact H.old k x hx hlt
      · exact H.old k x hx hlt }

/-- A slot is confirmed. -/
theorem confirmed (H : Holds c b r f K W) (s : Nat) (hs : r < s)
    (hord : K s ∨ ∀ t, f t ≠ some s) :
    ∃ c', updateSlot c s none .confirmed = some c' ∧ Holds c' b r f (fun t => t = s ∨ K t) W := by
  have hrb := H.root_le
  have he2 : (enter c.slots s none .confirmed).2 = false := by
    unfold enter
    cases c.slots s <;> simp
  refine ⟨{ slots := (enter c.slots s none .confirmed).1, accounts := c.accounts,
            newestRooted := c.newestRooted,
            newestProcessed := if s > c.newestProcessed then s else c.newestProcessed,
            bestChain := c.bestChain }, ?_, ?_⟩
  · unfold updateSlot
    simp [he2]
  -- the slots that count up to the root are the same
  have hlowc : ∀ t, t ≤ r → (CountsOf b r f K t ↔ CountsOf b r f (fun t => t = s ∨ K t) t) := by
    intro t ht
    have : t ≠ s := by omega
    simp [CountsOf, this]
  have hoff : ¬ K s → ¬ Down f b s := by
    intro hk hd
    have hn := hord.resolve_left hk
    cases hd with
    | here =>
      rcases H.tip with h | h
      · omega
      · cases hf : f b with
        | none => exact h hf
        | some p => exact hk (H.parents _ _ hf).2.1
    | up _ hp => exact hn _ hp
  have hent : ∀ t d, (enter c.slots s none .confirmed).1 t = some d →
      (∃ d', c.slots t = some d' ∧ d.parent = d'.parent ∧ d.chain = d'.chain ∧
        (d.status = .rooted ↔ d'.status = .rooted)) ∨
      (t = s ∧ c.slots s = none ∧ d = { parent := none, status := .confirmed, chain := 0 }) := by
    intro t d ht
    unfold enter at ht
    cases hv : c.slots s with
    | none =>
      rw [hv] at ht
      simp only [Slots.put] at ht
      by_cases hts : t = s
      · rw [if_pos hts] at ht; cases ht; exact .inr ⟨hts, rfl, rfl⟩
      · rw [if_neg hts] at ht; exact .inl ⟨d, ht, rfl, rfl, Iff.rfl⟩
    | some v =>
      rw [hv] at ht
      simp only [Slots.put] at ht
      by_cases hts : t = s
      · subst hts
        rw [if_pos rfl] at ht
        cases ht
        refine .inl ⟨v, hv, ?_, rfl, ?_⟩
        · cases v.parent <;> rfl
        · cases hst : v.status <;> simp
      · rw [if_neg hts] at ht; exact .inl ⟨d, ht, rfl, rfl, Iff.rfl⟩
  exact {
    best := H.best, root := H.root,
    low := by
      intro t ht
      have : t ≠ s := by omega
      have h := H.low t ht
      unfold enter
      cases c.slots s <;> simp [Slots.put, this, h]
    dom := by
      intro t ht
      unfold enter
      by_cases hts : t = s
      · cases c.slots s <;> simp [Slots.put, hts]
      · have := H.dom t ht
        cases c.slots s <;> simp [Slots.put, hts] <;> exact this
    parent := by
      intro t d ht
      rcases hent t d ht with ⟨d', h1, h2, -, -⟩ | ⟨h1, h2, h3⟩
      · rw [h2]; exact H.parent _ _ h1
      · subst h1 h3
        have hk : ¬ K t := fun hk => (H.dom t (by omega)).mpr hk h2
        cases hf : f t with
        | none => rfl
        | some p => exact absurd (H.parents _ _ hf).2.1 hk
    status := by
      intro t d ht
      rcases hent t d ht with ⟨d', h1, -, -, h4⟩ | ⟨h1, h2, h3⟩
      · rw [h4]; exact H.status _ _ h1
      · subst h1 h3
        have : t ≠ r := by omega
        simp [this]
    chainLe := by
      intro t d ht
      rcases hent t d ht with ⟨d', h1, -, h3, -⟩ | ⟨h1, h2, h3⟩
      · rw [h3]; exact H.chainLe _ _ h1
      · subst h3; exact Nat.zero_le _
    chain := by
      intro t d ht hrt htb
      rcases hent t d ht with ⟨d', h1, -, h3, -⟩ | ⟨h1, h2, h3⟩
      · rw [h3]; exact H.chain _ _ h1 hrt htb
      · subst h1 h3
        have hk : ¬ K t := fun hk => (H.dom t (by omega)).mpr hk h2
        have := hoff hk
        simp only [this, iff_false]
        omega
    parents := fun t p h => ⟨(H.parents t p h).1, .inr (H.parents t p h).2.1, (H.parents t p h).2.2⟩
    pos := by
      rintro t (rfl | h)
      · omega
      · exact H.pos _ h
    tip := H.tip, rootOn := H.rootOn, desc := H.desc,
    read := by
      intro k P hP
      exact H.read k P (fun t ht => by rw [hP t ht, hlowc t ht])
    old := fun k w hw hlt => (hlowc _ (by omega)).mp (H.old k w hw hlt) }

/-- A slot of the best chain is rooted. -/
theorem rooted (H : Holds c b r f K W) (s : Nat) (hs : r < s) (hon : Down f b s) :
    ∃ c', updateSlot c s none .rooted = some c' ∧ Holds c' b s f (fun t => t = s ∨ K t) W := by
  have hsb := hon.le H.below
  have he2 : (enter c.slots s none .rooted).2 = false := by
    unfold enter
    cases c.slots s <;> simp
  have hent : ∀ t, t ≠ s → (enter c.slots s none .rooted).1 t = c.slots t := by
    intro t hts
    unfold enter
    cases c.slots s <;> simp [Slots.put, hts]
  have hents : ∃ d, (enter c.slots s none .rooted).1 s = some d ∧ d.status = .rooted ∧
      d.parent = f s ∧ d.chain ≤ b := by
    unfold enter
    cases hv : c.slots s with
    | none =>
      refine ⟨_, if_pos rfl, rfl, ?_, Nat.zero_le _⟩
      have hk : ¬ K s := fun hk => (H.dom s (by omega)).mpr hk hv
      cases hf : f s with
      | none => rfl
      | some p => exact absurd (H.parents _ _ hf).2.1 hk
    | some v =>
      refine ⟨_, if_pos rfl, by simp, ?_, (H.chainLe _ v hv : v.chain ≤ b)⟩
      have := H.parent _ _ hv
      rw [← this]
      cases v.parent <;> rfl
  generalize hm : (enter c.slots s none .rooted).1 = m at hent hents
  obtain ⟨ds, hds, hds1, hds2, hds3⟩ := hents
  refine ⟨{ slots := fun t => if t ≥ s then m t else none,
            accounts := fun k => (c.accounts k).map (prune m s b),
            newestRooted := s,
            newestProcessed := if s > c.newestProcessed then s else c.newestProcessed,
            bestChain := c.bestChain }, ?_, ?_⟩
  · have h1 : s > c.newestRooted := by rw [H.root]; exact hs
    unfold updateSlot
    simp [he2, h1, hm, H.best]
  have hlowc : ∀ t, t ≤ r → (CountsOf b r f K t ↔ CountsOf b s f (fun t => t = s ∨ K t) t) := by
    intro t ht
    have : t ≠ s := by omega
    have h1 : t ≤ s := by omega
    simp [CountsOf, this, ht, h1]
  -- which writes up to the new root the pruning takes for rooted
  let Q : Nat → Bool := fun t => match m t with
    | some d => decide (d.status = .rooted ∨ d.chain = b)
    | none => true
  have hQ : ∀ k, ∀ w ∈ held c k, w.slot ≤ s →
      (Q w.slot = true ↔ CountsOf b s f (fun t => t = s ∨ K t) w.slot) := by
    intro k w hw hle
    show (match m w.slot with
      | some d => decide (d.status = .rooted ∨ d.chain = b)
      | none => true) = true ↔ _
    by_cases hws : w.slot = s
    · rw [hws, hds]
      simp only [hds1, true_or, decide_true, true_iff]
      exact .inl ⟨.inl rfl, .inl hon⟩
    · rw [hent _ hws]
      by_cases hlt : w.slot < r
      · rw [H.low _ hlt]
        simp only [true_iff]
        exact (hlowc _ (by omega)).mp (H.old k w hw hlt)
      · cases hv : c.slots w.slot with
        | none =>
          have hk : ¬ K w.slot := fun hk => (H.dom _ (by omega)).mpr hk hv
          simp only [true_iff]
          exact .inr ⟨by simp [hws, hk], hle⟩
        | some d =>
          have hk : K w.slot := (H.dom _ (by omega)).mp (by rw [hv]; simp)
          have h0 := H.pos _ hk
          have hst := H.status _ _ hv
          have hnb : ¬ b < w.slot := by omega
          simp only [decide_eq_true_eq, CountsOf, hws, hk, or_true, true_and, hnb, or_false,
            not_true_eq_false, false_and]
          by_cases hr : w.slot = r
          · have : Down f b w.slot := by
              rcases H.rootOn with h | h
              · omega
              · rw [hr]; exact h
            simp [hst.mpr hr, this]
          · have hch := H.chain _ _ hv (by omega) (by omega)
            have h1 : ¬ d.status = .rooted := fun h => hr (hst.mp h)
            simp [h1, hch]
  -- the pruned list
  let X : Nat → Nat := fun k => match (held c k).find? (fun w : Write α => decide (w.slot ≤ s) && Q w.slot) with
    | some w => w.slot
    | none => s + 1
  have hheld : ∀ k : Nat,
      held (α := α)
           { slots := fun t => if t ≥ s then m t else none,
             accounts := fun k => (c.accounts k).map (prune m s b),
             newestRooted := s,
             newestProcessed := if s > c.newestProcessed then s else c.newestProcessed,
             bestChain := c.bestChain } k =
        (held c k).filter (fun w : Write α => decide ((w.slot : Nat) = X k ∨ w.slot > s)) := by
    intro k
    show (((c.accounts k).map (prune m s b)).getD []).reverse = _
    unfold held
    cases hc : c.accounts k with
    | none => rfl
    | some v =>
      simp only [Option.map_some, Option.getD_some]
      unfold prune
      rw [List.filter_reverse]
      have hX : rootedWrite m s b v = X k := by
        show _ = (match (held c k).find? (fun w => decide (w.slot ≤ s) && Q w.slot) with
          | some w => w.slot
          | none => s + 1)
        unfold held rootedWrite
        rw [hc]
        rfl
      rw [hX]
  exact {
    best := H.best, root := rfl,
    low := by
      intro t ht
      have : ¬ t ≥ s := by omega
      simp [this]
    dom := by
      intro t ht
      simp only [ge_iff_le, ht, if_true]
      by_cases hts : t = s
      · subst hts; rw [hds]; simp
      · rw [hent t hts]
        have := H.dom t (by omega)
        simp only [hts, false_or]
        exact this
    parent := by
      intro t d ht
      simp only [] at ht
      split at ht
      · by_cases hts : t = s
        · subst hts; rw [hds] at ht; cases ht; exact hds2
        · rw [hent t hts] at ht; exact H.parent _ _ ht
      · cases ht
    status := by
      intro t d ht
      simp only [] at ht
      split at ht
      · next hge =>
        by_cases hts : t = s
        · subst hts; rw [hds] at ht; cases ht; simp [hds1]
        · rw [hent t hts] at ht
          rw [H.status _ _ ht]
          omega
      · cases ht
    chainLe := by
      intro t d ht
      simp only [] at ht
      split at ht
      · by_cases hts : t = s
        · subst hts; rw [hds] at ht; cases ht; exact hds3
        · rw [hent t hts] at ht; exact H.chainLe _ _ ht
      · cases ht
    chain := by
      intro t d ht hst htb
      simp only [] at ht
      split at ht
      · rw [hent t (by omega)] at ht
        exact H.chain _ _ ht (by omega) htb
      · cases ht
    parents := fun t p h => ⟨(H.parents t p h).1, .inr (H.parents t p h).2.1, (H.parents t p h).2.2⟩
    pos := by
      rintro t (rfl | h)
      · omega
      · exact H.pos _ h
    tip := H.tip, rootOn := .inr hon,
    desc := by
      intro k
      rw [hheld]
      exact List.Pairwise.filter _ (H.desc k)
    read := by
      intro k P hP
      rw [hheld]
      have hfp := find_prune P Q s (held c k) (by
        intro w hw hle
        have h1 := hQ k w hw hle
        have h2 := hP w.slot hle
        cases hq : Q w.slot <;> cases hp : P w.slot <;> simp_all)
      refine Eq.trans hfp ?_
      exact H.read k P (fun t ht => by rw [hP t (by omega), hlowc t ht])
    old := by
      intro k w hw hlt
      rw [hheld] at hw
      obtain ⟨hw1, hw2⟩ := List.mem_filter.mp hw
      simp only [decide_eq_true_eq] at hw2
      have hx : w.slot = X k := by omega
      have hX : X k = (match (held c k).find? (fun w => decide (w.slot ≤ s) && Q w.slot) with
        | some w => w.slot
        | none => s + 1) := rfl
      cases hf : (held c k).find? (fun w => decide (w.slot ≤ s) && Q w.slot) with
      | none => rw [hf] at hX; simp only [] at hX; omega
      | some v =>
        rw [hf] at hX
        simp only [] at hX
        have h1 := List.find?_some hf
        have h2 := List.mem_of_find?_eq_some hf
        simp only [Bool.and_eq_true, decide_eq_true_eq] at h1
        rw [hx, hX]
        exact (hQ k v h2 h1.1).mp h1.2 }

/-- A slot is announced with its parent. -/
theorem created (H : Holds c b r f K W) (s p : Nat) (hps : p < s) (hs : r < s)
    (hord : K s ∨ ∀ t, f t ≠ some s)
    (hroot : r = 0 ∨
      Down (fun t => (f t).or (if t = s then some p else none)) (max s b) r) :
    ∃ c', updateSlot c s (some p) .processed = some c' ∧
      Holds c' (max s b) r (fun t => (f t).or (if t = s then some p else none))
        (fun t => t = s ∨ K t) W := by
  have hrb := H.root_le
  generalize hf' : (fun t => (f t).or (if t = s then some p else none)) = f' at *
  have hf's : ∀ t, t ≠ s → f' t = f t := by
    intro t ht
    rw [← hf']
    simp [ht]
  have hfs : f' s = (f s).or (some p) := by
    rw [← hf']
    simp
  have hmono : ∀ t q, f t = some q → f' t = some q := by
    intro t q ht
    rw [← hf']
    simp [ht]
  have hpar' : ∀ t q, f' t = some q → q < t ∧ (t = s ∨ K t) ∧ t ≤ max s b := by
    intro t q ht
    by_cases hts : t = s
    · subst hts
      cases hf : f t with
      | none =>
        rw [hfs, hf] at ht
        cases ht
        exact ⟨hps, .inl rfl, Nat.le_max_left _ _⟩
      | some q' =>
        rw [hfs, hf] at ht
        cases ht
        exact ⟨(H.parents _ _ hf).1, .inl rfl, Nat.le_max_left _ _⟩
    · rw [hf's t hts] at ht
      obtain ⟨h1, h2, h3⟩ := H.parents _ _ ht
      exact ⟨h1, .inr h2, by omega⟩
  have hbelow' : ∀ t q, f' t = some q → q < t := fun t q h => (hpar' t q h).1
  -- the entry of the slot
  have hent : ∀ t, t ≠ s → (enter c.slots s (some p) .processed).1 t = c.slots t := by
    intro t hts
    unfold enter
    cases c.slots s <;> simp [Slots.put, hts]
  have hents : ∃ d, (enter c.slots s (some p) .processed).1 s = some d ∧ d.status ≠ .rooted ∧
      d.parent = f' s ∧
      ((c.slots s = none ∧ d.chain = 0 ∧ (enter c.slots s (some p) .processed).2 = false) ∨
       (∃ v, c.slots s = some v ∧ d.chain = v.chain ∧
         ((enter c.slots s (some p) .processed).2 = false → f s = some p))) := by
    unfold enter
    cases hv : c.slots s with
    | none =>
      refine ⟨_, if_pos rfl, by simp, ?_, .inl ⟨rfl, rfl, rfl⟩⟩
      have hk : ¬ K s := fun hk => (H.dom s (by omega)).mpr hk hv
      rw [hfs]
      cases hf : f s with
      | none => rfl
      | some p => exact absurd (H.parents _ _ hf).2.1 hk
    | some v =>
      have hvp := H.parent _ _ hv
      have hvs : v.status ≠ .rooted := fun h => by have := (H.status _ _ hv).mp h; omega
      refine ⟨_, if_pos rfl, ?_, ?_, .inr ⟨v, rfl, rfl, ?_⟩⟩
      · simp only []
        split
        · simp
        · exact hvs
      · simp only []
        rw [hvp, hfs]
      · intro h
        rw [← hvp]
        simpa using h
  generalize hE : enter c.slots s (some p) .processed = E at hent hents
  obtain ⟨m, upd⟩ := E
  simp only [] at hent hents
  obtain ⟨ds, hds, hds1, hds2, hds3⟩ := hents
  -- facts about the map before the marking
  have hlow1 : ∀ t, t < r → m t = none := fun t ht => by rw [hent t (by omega)]; exact H.low t ht
  have hdom1 : ∀ t, r ≤ t → (m t ≠ none ↔ (t = s ∨ K t)) := by
    intro t ht
    by_cases hts : t = s
    · subst hts; rw [hds]; simp
    · rw [hent t hts]
      simp only [hts, false_or]
      exact H.dom t ht
  have hparent1 : ∀ t d, m t = some d → d.parent = f' t := by
    intro t d ht
    by_cases hts : t = s
    · subst hts; rw [hds] at ht; cases ht; exact hds2
    · rw [hent t hts] at ht
      rw [hf's t hts]
      exact H.parent _ _ ht
  have hstatus1 : ∀ t d, m t = some d → (d.status = .rooted ↔ t = r) := by
    intro t d ht
    by_cases hts : t = s
    · subst hts
      rw [hds] at ht
      cases ht
      have : t ≠ r := by omega
      simp [hds1, this]
    · rw [hent t hts] at ht
      exact H.status _ _ ht
  have hle1 : ∀ t d, m t = some d → d.chain ≤ b := by
    intro t d ht
    by_cases hts : t = s
    · subst hts
      rw [hds] at ht
      cases ht
      rcases hds3 with ⟨-, h, -⟩ | ⟨v, hv, h, -⟩
      · omega
      · rw [h]; exact H.chainLe _ _ hv
    · rw [hent t hts] at ht
      exact H.chainLe _ _ ht
  have hpos' : ∀ t, (t = s ∨ K t) → 0 < t := by
    rintro t (rfl | h)
    · omega
    · exact H.pos _ h
  have htip' : max s b = 0 ∨ f' (max s b) ≠ none := by
    right
    by_cases hsb : b ≤ s
    · rw [Nat.max_eq_left hsb, hfs]
      cases f s <;> simp
    · rw [Nat.max_eq_right (by omega)]
      rcases H.tip with h | h
      · omega
      · cases hf : f b with
        | none => exact absurd hf h
        | some q => rw [hmono _ _ hf]; simp
  -- the slots that count up to the root are the same
  have hlowc : ∀ t, t ≤ r →
      (CountsOf b r f K t ↔ CountsOf (max s b) r f' (fun t => t = s ∨ K t) t) := by
    intro t ht
    have hts : t ≠ s := by omega
    have h1 : ¬ b < t := by omega
    have h2 : ¬ max s b < t := by omega
    simp only [CountsOf, hts, false_or, h1, h2, or_false, ht, and_true]
    by_cases hk : K t
    · simp only [hk, true_and, not_true_eq_false, or_false]
      have h0 := H.pos _ hk
      have hron : Down f b r := by
        rcases H.rootOn with h | h
        · omega
        · exact h
      have hron' : Down f' (max s b) r := by
        rcases hroot with h | h
        · omega
        · exact h
      constructor
      · intro hd
        have hrt : Down f r t := by
          rcases hron.linear hd with h | h
          · exact h
          · have := h.le H.below
            have : t = r := by omega
            rw [this]; exact .here _
        exact hron'.trans (hrt.mono hmono)
      · intro hd
        have hrt : Down f' r t := by
          rcases hron'.linear hd with h | h
          · exact h
          · have := h.le hbelow'
            have : t = r := by omega
            rw [this]; exact .here _
        exact hron.trans (hrt.congr hbelow' (fun x hx => hf's x (by omega)))
    · simp [hk]
  -- it suffices to have the marks right
  have hfin : ∀ m' : Slots,
      (if (decide ((some p).isSome = true ∧ s > c.bestChain) || upd) = true then
        mark (max s b) (max s b + 1) (max s b) m else some m) = some m' →
      (∀ t, m' t = none ↔ m t = none) →
      (∀ t d', m' t = some d' → ∃ d, m t = some d ∧ d'.parent = d.parent ∧ d'.status = d.status) →
      (∀ t d', m' t = some d' → d'.chain ≤ max s b) →
      (∀ t d', m' t = some d' → r < t → t ≤ max s b → (d'.chain = max s b ↔ Down f' (max s b) t)) →
      ∃ c', updateSlot c s (some p) .processed = some c' ∧
        Holds c' (max s b) r f' (fun t => t = s ∨ K t) W := by
    intro m' hmk hnone hsame hle hch
    have hbest : (if (decide ((some p).isSome = true ∧ s > c.bestChain)) = true then s
        else c.bestChain) = max s b := by
      rw [H.best]
      by_cases hsb : s > b
      · simp only [Option.isSome_some, hsb, and_self, decide_true, if_true]
        omega
      · simp only [Option.isSome_some, hsb, and_false, decide_false, Bool.false_eq_true, if_false]
        omega
    refine ⟨{ slots := m', accounts := c.accounts, newestRooted := c.newestRooted,
              newestProcessed := if s > c.newestProcessed then s else c.newestProcessed,
              bestChain := max s b }, ?_, ?_⟩
    · unfold updateSlot
      simp only [hE, hbest]
      rw [hmk]
      simp
    · exact {
        best := rfl, root := H.root,
        low := fun t ht => (hnone t).mpr (hlow1 t ht)
        dom := by
          intro t ht
          rw [← hdom1 t ht]
          exact not_congr (hnone t)
        parent := by
          intro t d' ht
          obtain ⟨d, h1, h2, -⟩ := hsame t d' ht
          rw [h2]; exact hparent1 _ _ h1
        status := by
          intro t d' ht
          obtain ⟨d, h1, -, h3⟩ := hsame t d' ht
          rw [h3]; exact hstatus1 _ _ h1
        chainLe := hle
        chain := hch
        parents := hpar'
        pos := hpos'
        tip := htip', rootOn := hroot, desc := H.desc,
        read := by
          intro k P hP
          exact H.read k P (fun t ht => by rw [hP t ht, hlowc t ht])
        old := fun k w hw hlt => (hlowc _ (by omega)).mp (H.old k w hw hlt) }
  by_cases hwalk : (decide ((some p).isSome = true ∧ s > c.bestChain) || upd) = true
  · -- the chain is marked again
    obtain ⟨m', hm', hspec⟩ := mark_spec (max s b) (max s b + 1) (max s b) m
      (by
        intro t d q ht hq
        rw [hparent1 _ _ ht] at hq
        exact hbelow' _ _ hq) (Nat.lt_succ_self _)
    have hpd : ∀ a t, Path m a t → Down f' (max s b) a → Down f' (max s b) t := by
      intro a t hp
      induction hp with
      | here _ => exact id
      | up h1 _ h3 _ ih =>
        intro ha
        rw [hparent1 _ _ h1] at h3
        exact ih (.up ha h3)
    have hdp : ∀ t, Down f' (max s b) t → r < t → (t = s ∨ K t) → Path m (max s b) t := by
      intro t hd
      generalize hB : max s b = B at *
      induction hd with
      | here =>
        intro hr hk
        cases hmt : m B with
        | none => exact absurd hmt ((hdom1 _ (by omega)).mpr hk)
        | some d => exact .here hmt
      | @up x y hd hxy ih =>
        intro hr hk
        have hx := hpar' _ _ hxy
        have hpx := ih (by omega) hx.2.1
        cases hmx : m x with
        | none => exact absurd hmx ((hdom1 _ (by omega)).mpr hx.2.1)
        | some d =>
          cases hmy : m y with
          | none => exact absurd hmy ((hdom1 _ (by omega)).mpr hk)
          | some e =>
            refine hpx.snoc hmx ?_ ?_ hmy
            · intro h
              have := (hstatus1 _ _ hmx).mp h
              omega
            · rw [hparent1 _ _ hmx]; exact hxy
    refine hfin m' (by rw [if_pos hwalk]; exact hm') ?_ ?_ ?_ ?_
    · intro t
      rw [hspec t]
      cases m t <;> simp
    · intro t d' ht
      rw [hspec t] at ht
      cases hmt : m t with
      | none => rw [hmt] at ht; cases ht
      | some d =>
        rw [hmt] at ht
        simp only [Option.map_some, Option.some.injEq] at ht
        refine ⟨d, rfl, ?_⟩
        rw [← ht]
        split <;> exact ⟨rfl, rfl⟩
    · intro t d' ht
      rw [hspec t] at ht
      cases hmt : m t with
      | none => rw [hmt] at ht; cases ht
      | some d =>
        rw [hmt] at ht
        simp only [Option.map_some, Option.some.injEq] at ht
        rw [← ht]
        split
        · exact Nat.le_refl _
        · have := hle1 _ _ hmt
          omega
    · intro t d' ht hrt htb
      rw [hspec t] at ht
      cases hmt : m t with
      | none => rw [hmt] at ht; cases ht
      | some d =>
        rw [hmt] at ht
        simp only [Option.map_some, Option.some.injEq] at ht
        have hk : t = s ∨ K t := (hdom1 t (by omega)).mp (by rw [hmt]; simp)
        by_cases hp : Path m (max s b) t
        · rw [if_pos hp] at ht
          rw [← ht]
          simp [hpd _ _ hp (.here _)]
        · rw [if_neg hp] at ht
          have hnd : ¬ Down f' (max s b) t := fun hd => hp (hdp t hd hrt hk)
          simp only [hnd, iff_false]
          rw [← ht]
          intro hce
          have hdb := hle1 _ _ hmt
          have hmax : max s b = b := by omega
          have hns : ¬ s > b := by omega
          rw [hmax] at hce hnd
          -- the head is the same, so the parent was news
          have hupd : upd = true := by
            rw [H.best] at hwalk
            simpa [hns] using hwalk
          by_cases hts : t = s
          · subst hts
            rw [hds] at hmt
            cases hmt
            rcases hds3 with ⟨-, -, h⟩ | ⟨v, hv, h, -⟩
            · rw [hupd] at h; cases h
            · rw [h] at hce
              have := (H.chain _ _ hv hrt (by omega)).mp hce
              exact hnd (this.mono hmono)
          · rw [hent t hts] at hmt
            have := (H.chain _ _ hmt hrt (by omega)).mp hce
            exact hnd (this.mono hmono)
  · -- nothing new about the chain
    have hw : ¬ s > b ∧ upd = false := by
      rw [H.best] at hwalk
      simp only [Option.isSome_some, true_and, Bool.or_eq_true, decide_eq_true_eq, not_or] at hwalk
      exact ⟨hwalk.1, by simpa using hwalk.2⟩
    have hmax : max s b = b := by omega
    have hsame : ∀ t, Down f' b t → Down f b t := by
      rcases hds3 with ⟨hn, -, -⟩ | ⟨v, hv, -, h⟩
      · have hk : ¬ K s := fun hk => (H.dom s (by omega)).mpr hk hn
        have hn := hord.resolve_left hk
        have hoff : ¬ Down f b s := by
          intro hd
          cases hd with
          | here =>
            rcases H.tip with h | h
            · omega
            · cases hf : f b with
              | none => exact h hf
              | some p => exact hk (H.parents _ _ hf).2.1
          | up _ hp => exact hn _ hp
        intro t hd
        induction hd with
        | here => exact .here _
        | @up x y _ hxy ih =>
          by_cases hxs : x = s
          · subst hxs; exact absurd ih hoff
          · rw [hf's x hxs] at hxy; exact .up ih hxy
      · have hfp := h hw.2
        intro t hd
        refine hd.mono ?_
        intro x y hxy
        by_cases hxs : x = s
        · subst hxs
          rw [hfs, hfp] at hxy
          rw [hfp]
          exact hxy
        · rw [hf's x hxs] at hxy; exact hxy
    refine hfin m (by rw [if_neg hwalk]) (fun _ => Iff.rfl) (fun t d ht => ⟨d, ht, rfl, rfl⟩) ?_ ?_
    · intro t d ht
      have := hle1 _ _ ht
      omega
    · intro t d ht hrt htb
      rw [hmax] at htb ⊢
      have hiff : Down f' b t ↔ Down f b t := ⟨hsame t, fun h => h.mono hmono⟩
      rw [hiff]
      by_cases hts : t = s
      · subst hts
        rw [hds] at ht
        cases ht
        rcases hds3 with ⟨hn, hz, -⟩ | ⟨v, hv, h, -⟩
        · have hk : ¬ K t := fun hk => (H.dom t (by omega)).mpr hk hn
          have hnc := hord.resolve_left hk
          have hoff : ¬ Down f b t := by
            intro hd
            cases hd with
            | here =>
              rcases H.tip with h | h
              · omega
              · cases hf : f b with
                | none => exact h hf
                | some p => exact hk (H.parents _ _ hf).2.1
            | up _ hp => exact hnc _ hp
          simp only [hoff, iff_false]
          omega
        · rw [h]
          exact H.chain _ _ hv hrt htb
      · rw [hent t hts] at ht
        exact H.chain _ _ ht hrt htb

end Holds

end Cache
end OB
