import Verif.Model.Refresh
import Verif.Proofs.ChainFair
/-!
C105  A client that has waited for its transactions reads the accounts as they were then or later.

That is what `transaction_max_slot` and `refresh_accounts_via_rpc_until_slot` are for.  It holds if the answers are for slots on the best
chain of the cache; otherwise the wait ends and the read still gives an older state.  A signature that the node does not know yet is not
waited for.
-/
namespace OB
open Cache

variable {α : Type} {h h' : List (Msg α)} {ts ts' : List (Turn α)} {ks : List Nat} {min key : Nat}

section lemmas
theorem foldl_max (l : List Nat) (a : Nat) : a ≤ l.foldl max a ∧ (∀ x ∈ l, x ≤ l.foldl max a) ∧ (l.foldl max a = a ∨ l.foldl max a ∈ l) := by
  induction l generalizing a with
  | nil => exact ⟨Nat.le_refl _, by simp, .inl rfl⟩
  | cons y l ih =>
    obtain ⟨h1, h2, h3⟩ := ih (max a y)
    refine ⟨Nat.le_trans (Nat.le_max_left _ _) h1, ?_, ?_⟩
    · intro x hx
      rcases List.mem_cons.mp hx with rfl | hx
      · exact Nat.le_trans (Nat.le_max_right _ _) h1
      · exact h2 x hx
    · rcases h3 with h3 | h3
      · by_cases hay : a ≤ y
        · exact .inr (by rw [List.foldl_cons, h3, Nat.max_eq_right hay]; exact List.mem_cons_self)
        · exact .inl (by rw [List.foldl_cons, h3, Nat.max_eq_left (by omega)])
      · exact .inr (List.mem_cons_of_mem _ h3)

theorem writesIn_append (l h : List (Msg α)) (k : Nat) : writesIn (l ++ h) k = writesIn l k ++ writesIn h k := by
  induction l with
  | nil => rfl
  | cons m l ih => cases m <;> simp only [List.cons_append, writesIn, ih] <;> split <;> rfl

theorem refreshOne_grows (e : refreshOne key min h ts = some (h', ts')) : ∃ l, h' = l ++ h := by
  induction ts generalizing h with
  | nil => cases e
  | cons t ts ih =>
    unfold refreshOne at e
    cases ha : t.answer with
    | none => rw [ha] at e; cases e
    | some w =>
      simp only [ha] at e
      split at e
      · cases e; exact ⟨.rpc key w :: t.meanwhile, rfl⟩
      · obtain ⟨l, rfl⟩ := ih e
        exact ⟨l ++ .rpc key w :: t.meanwhile, by simp⟩

theorem refreshUntil_grows (e : refreshUntil min ks h ts = some (h', ts')) : ∃ l, h' = l ++ h := by
  induction ks generalizing h ts with
  | nil => cases e; exact ⟨[], rfl⟩
  | cons k ks ih =>
    unfold refreshUntil at e
    cases h1 : refreshOne k min h ts with
    | none => rw [h1] at e; cases e
    | some r =>
      obtain ⟨h1', ts1⟩ := r
      simp only [h1] at e
      obtain ⟨l1, rfl⟩ := refreshOne_grows h1
      obtain ⟨l2, rfl⟩ := ih e
      exact ⟨l2 ++ l1, by simp⟩

theorem refreshOne_answer (e : refreshOne key min h ts = some (h', ts')) : ∃ w l, h' = .rpc key w :: l ∧ min ≤ w.slot := by
  induction ts generalizing h with
  | nil => cases e
  | cons t ts ih =>
    unfold refreshOne at e
    cases ha : t.answer with
    | none => rw [ha] at e; cases e
    | some w =>
      simp only [ha] at e
      split at e
      · next hw => cases e; exact ⟨w, _, rfl, hw⟩
      · exact ih e

/-- Among the writes received for an account that count there is a current one. -/
theorem current_of_counts {w : Write α} (hw : w ∈ writesIn h key) (hc : Counts h w.slot) : ∃ v, Current h key v ∧ w.slot ≤ v.slot := by
  have key' : ∀ l : List (Write α), (∃ u ∈ l, Counts h u.slot) → ∃ v later earlier, Counts h v.slot ∧ l = later ++ v :: earlier ∧
      (∀ u ∈ later, Counts h u.slot → u.slot < v.slot) ∧ (∀ u ∈ earlier, Counts h u.slot → u.slot ≤ v.slot) := by
    intro l
    induction l with
    | nil => rintro ⟨u, hu, _⟩; cases hu
    | cons x l ih =>
      rintro ⟨u, hu, hcu⟩
      by_cases hl : ∃ u ∈ l, Counts h u.slot
      · obtain ⟨v, la, ea, h1, h2, h3, h4⟩ := ih hl
        by_cases hx : Counts h x.slot ∧ v.slot ≤ x.slot
        · refine ⟨x, [], l, hx.1, rfl, by simp, ?_⟩
          intro u hu hcu
          rw [h2] at hu
          rcases List.mem_append.mp hu with hu | hu
          · have := h3 u hu hcu; omega
          · rcases List.mem_cons.mp hu with rfl | hu
            · exact hx.2
            · have := h4 u hu hcu; omega
        · refine ⟨v, x :: la, ea, h1, by rw [h2]; rfl, ?_, h4⟩
          intro u hu hcu
          rcases List.mem_cons.mp hu with rfl | hu
          · have : ¬ v.slot ≤ u.slot := fun hle => hx ⟨hcu, hle⟩
            omega
          · exact h3 u hu hcu
      · rcases List.mem_cons.mp hu with rfl | hu
        · exact ⟨u, [], l, hcu, rfl, by simp, fun v hv hcv => absurd ⟨v, hv, hcv⟩ hl⟩
        · exact absurd ⟨u, hu, hcu⟩ hl
  obtain ⟨v, la, ea, h1, h2, h3, h4⟩ := key' _ ⟨w, hw, hc⟩
  refine ⟨v, ⟨h1, la, ea, h2, h3, h4⟩, ?_⟩
  rw [h2] at hw
  rcases List.mem_append.mp hw with hw | hw
  · exact Nat.le_of_lt (h3 w hw hc)
  · rcases List.mem_cons.mp hw with rfl | hw
    · exact Nat.le_refl _
    · exact h4 w hw hc

theorem parentIn_le (h : List (Msg α)) (t p : Nat) (e : parentIn h t = some p) : t ≤ bestIn h := by
  induction h with
  | nil => cases e
  | cons m h ih =>
    cases m with
    | write k w => exact ih e
    | confirmed s => exact ih e
    | root s => exact ih e
    | createdBank s q =>
      simp only [parentIn] at e
      simp only [bestIn]
      cases h1 : parentIn h t with
      | some p' => have := ih (by rw [h1]; rw [h1] at e; simpa using e); omega
      | none =>
        rw [h1] at e
        simp only [Option.none_or] at e
        split at e
        · omega
        · cases e
    | rpc k w =>
      simp only [parentIn] at e
      simp only [bestIn]
      cases h1 : parentIn h t with
      | some p' => have := ih (by rw [h1]; rw [h1] at e; simpa using e); omega
      | none =>
        rw [h1] at e
        simp only [Option.none_or] at e
        split at e
        · omega
        · cases e

theorem onChain_rpc {k s : Nat} {w : Write α} (hs : OnChain h s) : OnChain (.rpc k w :: h) s := by
  induction hs with
  | tip =>
    by_cases hb : bestIn h < w.slot
    · have e : bestIn (.rpc k w :: h) = w.slot := by simp only [bestIn]; omega
      have hn : parentIn h w.slot = none := by
        cases e : parentIn h w.slot with
        | none => rfl
        | some p => have := parentIn_le _ _ _ e; omega
      refine .up (s := w.slot) (by rw [← e]; exact .tip) ?_
      simp only [parentIn, hn, Option.none_or, hb, and_self, if_true]
    · have e : bestIn (.rpc k w :: h) = bestIn h := by simp only [bestIn]; omega
      rw [← e]; exact .tip
  | up _ hp ih =>
    refine .up ih ?_
    simp only [parentIn, hp, Option.some_or]

end lemmas

/-- The slot to wait for is not before any of the transactions that the node knows, and is the slot of one of them. -/
theorem C105_max_slot (statuses : List (Option Nat)) :
    (∀ s, some s ∈ statuses → s ≤ transactionMaxSlot statuses) ∧
    (transactionMaxSlot statuses = 0 ∨ some (transactionMaxSlot statuses) ∈ statuses) := by
  unfold transactionMaxSlot
  obtain ⟨_, h2, h3⟩ := foldl_max (statuses.map (fun s => s.getD 0)) 0
  refine ⟨fun s hs => h2 s (List.mem_map.mpr ⟨_, hs, rfl⟩), ?_⟩
  rcases h3 with h3 | h3
  · exact .inl h3
  · obtain ⟨o, ho, e⟩ := List.mem_map.mp h3
    cases o with
    | none => exact .inl e.symm
    | some x => exact .inr (by rw [← e]; exact ho)

/-- When the wait has ended, an answer not before the slot has been received for every account. -/
theorem C105_received (e : refreshUntil min ks h ts = some (h', ts')) : ∀ k ∈ ks, ∃ w ∈ writesIn h' k, min ≤ w.slot := by
  induction ks generalizing h ts with
  | nil => intro k hk; cases hk
  | cons k ks ih =>
    unfold refreshUntil at e
    cases h1 : refreshOne k min h ts with
    | none => rw [h1] at e; cases e
    | some r =>
      obtain ⟨h1', ts1⟩ := r
      simp only [h1] at e
      intro k' hk'
      rcases List.mem_cons.mp hk' with rfl | hk'
      · obtain ⟨w, l, rfl, hw⟩ := refreshOne_answer h1
        obtain ⟨l2, rfl⟩ := refreshUntil_grows e
        refine ⟨w, ?_, hw⟩
        rw [writesIn_append]
        exact List.mem_append_right _ (by simp [writesIn])
      · exact ih e k' hk'

/-- After a fair feed, also during the wait: a read of an account gives a state not before the slot, provided that one of the answers
not before the slot is for a slot on the best chain. -/
theorem C105_read_partial (hf : Fair h') {k : Nat} {w : Write α} (hw : w ∈ writesIn h' k) (hm : min ≤ w.slot) (hc : Counts h' w.slot) :
    ∃ c v, run h' = some c ∧ accountAndSlot c k = some v ∧ min ≤ v.slot := by
  obtain ⟨v, h1, h2⟩ := current_of_counts hw hc
  obtain ⟨c, hr, hread⟩ := fair_reads hf
  exact ⟨c, v, hr, (hread k v).mpr h1, by omega⟩

/-- The answers come in the order of their slots. -/
def InOrder (ts : List (Turn α)) : Prop := ts.Pairwise (fun t u => ∀ w v, t.answer = some w → u.answer = some v → w.slot ≤ v.slot)

/-- Every answer is for the head of the best chain or something newer. -/
def Ready (h : List (Msg α)) (ts : List (Turn α)) : Prop :=
  ∀ t ∈ ts, ∀ w, t.answer = some w → bestIn h < w.slot ∨ bestIn h ≤ w.slot ∧ knownIn h (bestIn h)

theorem rpc_ready {w : Write α} (hw : bestIn h < w.slot ∨ bestIn h ≤ w.slot ∧ knownIn h (bestIn h)) :
    bestIn (.rpc key w :: h) = w.slot ∧ knownIn (.rpc key w :: h) w.slot := by
  simp only [bestIn, knownIn]
  rcases hw with hw | ⟨hw, hk⟩
  · exact ⟨by omega, .inl ⟨trivial, hw⟩⟩
  · refine ⟨by omega, ?_⟩
    by_cases e : bestIn h < w.slot
    · exact .inl ⟨trivial, e⟩
    · have : bestIn h = w.slot := by omega
      exact .inr (this ▸ hk)

theorem refreshOne_quiet (e : refreshOne key min h ts = some (h', ts')) (hq : ∀ t ∈ ts, t.meanwhile = []) (ho : InOrder ts) (hr : Ready h ts) :
    (∃ w ∈ writesIn h' key, min ≤ w.slot ∧ OnChain h' w.slot ∧ knownIn h' w.slot) ∧
    (∀ s, OnChain h s → knownIn h s → OnChain h' s ∧ knownIn h' s) ∧
    (∀ t ∈ ts', t.meanwhile = []) ∧ InOrder ts' ∧ Ready h' ts' := by
  induction ts generalizing h with
  | nil => cases e
  | cons t ts ih =>
    unfold refreshOne at e
    cases ha : t.answer with
    | none => rw [ha] at e; cases e
    | some w =>
      have hm := hq t List.mem_cons_self
      simp only [ha, hm, List.nil_append] at e
      obtain ⟨b1, b2⟩ := rpc_ready (key := key) (hr t List.mem_cons_self w ha)
      obtain ⟨o1, o2⟩ := List.pairwise_cons.mp ho
      have hr1 : Ready (.rpc key w :: h) ts := fun u hu v hv => .inr ⟨by rw [b1]; exact o1 u hu w v ha hv, by rw [b1]; exact b2⟩
      have hkeep : ∀ s, OnChain h s → knownIn h s → OnChain (.rpc key w :: h) s ∧ knownIn (.rpc key w :: h) s :=
        fun s h1 h2 => ⟨onChain_rpc h1, .inr h2⟩
      split at e
      · next hw =>
        cases e
        exact ⟨⟨w, by simp [writesIn], hw, by conv => rhs; rw [← b1]
                                              exact .tip, b2⟩, hkeep, fun u hu => hq u (List.mem_cons_of_mem _ hu), o2, hr1⟩
      · obtain ⟨i1, i2, i3⟩ := ih e (fun u hu => hq u (List.mem_cons_of_mem _ hu)) o2 hr1
        exact ⟨i1, fun s h1 h2 => i2 s (hkeep s h1 h2).1 (hkeep s h1 h2).2, i3⟩

theorem refreshUntil_quiet (e : refreshUntil min ks h ts = some (h', ts')) (hq : ∀ t ∈ ts, t.meanwhile = []) (ho : InOrder ts) (hr : Ready h ts) :
    (∀ k ∈ ks, ∃ w ∈ writesIn h' k, min ≤ w.slot ∧ OnChain h' w.slot ∧ knownIn h' w.slot) ∧
    (∀ s, OnChain h s → knownIn h s → OnChain h' s ∧ knownIn h' s) := by
  induction ks generalizing h ts with
  | nil => cases e; exact ⟨fun _ hk => absurd hk List.not_mem_nil, fun _ h1 h2 => ⟨h1, h2⟩⟩
  | cons k ks ih =>
    unfold refreshUntil at e
    cases h1 : refreshOne k min h ts with
    | none => rw [h1] at e; cases e
    | some r =>
      obtain ⟨h1', ts1⟩ := r
      simp only [h1] at e
      obtain ⟨⟨w, w1, w2, w3, w4⟩, j2, j3, j4, j5⟩ := refreshOne_quiet h1 hq ho hr
      obtain ⟨i1, i2⟩ := ih e j3 j4 j5
      refine ⟨?_, fun s a b => i2 s (j2 s a b).1 (j2 s a b).2⟩
      intro k' hk'
      rcases List.mem_cons.mp hk' with rfl | hk'
      · obtain ⟨l, rfl⟩ := refreshUntil_grows e
        exact ⟨w, by rw [writesIn_append]; exact List.mem_append_right _ w1, w2, i2 _ w3 w4⟩
      · exact i1 k' hk'

/-- All accounts are read as they were at the slot or later if nothing but the answers arrives during the wait, the answers come in the order
of their slots, and are for slots above the head of the best chain when the wait begins. -/
theorem C105_quiet_partial (hf : Fair h') (e : refreshUntil min ks h ts = some (h', ts')) (hq : ∀ t ∈ ts, t.meanwhile = []) (ho : InOrder ts)
    (hb : ∀ t ∈ ts, ∀ w, t.answer = some w → bestIn h < w.slot) :
    ∃ c, run h' = some c ∧ ∀ k ∈ ks, ∃ v, accountAndSlot c k = some v ∧ min ≤ v.slot := by
  obtain ⟨c, hc, _⟩ := fair_reads hf
  refine ⟨c, hc, fun k hk => ?_⟩
  obtain ⟨w, w1, w2, w3, w4⟩ := (refreshUntil_quiet e hq ho (fun t ht w hw => .inl (hb t ht w hw))).1 k hk
  obtain ⟨c', v, h1, h2⟩ := C105_read_partial hf w1 w2 (.inl ⟨w4, .inl w3⟩)
  rw [hc] at h1; cases h1
  exact ⟨v, h2⟩

/-- An answer from before the slot is stored, and the account is asked for again, however often. -/
theorem C105_again {k : Nat} {late : List (Turn α)} {t : Turn α} {w : Write α} (hlate : ∀ u ∈ late, ∃ v, u.answer = some v ∧ v.slot < min)
    (ha : t.answer = some w) (hm : min ≤ w.slot) :
    ∃ l, (∀ u ∈ late, ∃ v, u.answer = some v ∧ .rpc k v ∈ l) ∧
      refreshUntil min (k :: ks) h (late ++ t :: ts) = refreshUntil min ks (.rpc k w :: (t.meanwhile ++ (l ++ h))) ts := by
  have key : ∃ l, (∀ u ∈ late, ∃ v, u.answer = some v ∧ .rpc k v ∈ l) ∧
      refreshOne k min h (late ++ t :: ts) = some (.rpc k w :: (t.meanwhile ++ (l ++ h)), ts) := by
    induction late generalizing h with
    | nil => exact ⟨[], fun u hu => absurd hu List.not_mem_nil, by rw [List.nil_append, refreshOne]; simp only [ha]; rw [if_pos hm]; rfl⟩
    | cons u late ih =>
      obtain ⟨v, h1, h2⟩ := hlate u List.mem_cons_self
      obtain ⟨l, h3, h4⟩ := ih (h := .rpc k v :: (u.meanwhile ++ h)) (fun x hx => hlate x (List.mem_cons_of_mem _ hx))
      refine ⟨l ++ .rpc k v :: u.meanwhile, fun x hx => ?_, ?_⟩
      · rcases List.mem_cons.mp hx with rfl | hx
        · exact ⟨v, h1, by simp⟩
        · obtain ⟨v', e1, e2⟩ := h3 x hx
          exact ⟨v', e1, List.mem_append_left _ e2⟩
      · rw [List.cons_append, refreshOne]
        simp only [h1]
        rw [if_neg (by omega), h4]
        simp
  obtain ⟨l, h1, h2⟩ := key
  refine ⟨l, h1, ?_⟩
  rw [refreshUntil, h2]

/-- The wait ends with the first answers if these are late enough. -/
theorem C105_ends (hl : ks.length ≤ ts.length) (ha : ∀ t ∈ ts, ∃ w, t.answer = some w ∧ min ≤ w.slot) :
    ∃ h', refreshUntil min ks h ts = some (h', ts.drop ks.length) := by
  induction ks generalizing h ts with
  | nil => exact ⟨h, rfl⟩
  | cons k ks ih =>
    cases ts with
    | nil => simp at hl
    | cons t ts =>
      obtain ⟨w, h1, h2⟩ := ha t List.mem_cons_self
      obtain ⟨h', e⟩ := ih (h := .rpc k w :: (t.meanwhile ++ h)) (ts := ts) (by simpa using hl) (fun u hu => ha u (List.mem_cons_of_mem _ hu))
      refine ⟨h', ?_⟩
      have : refreshOne k min h (t :: ts) = some (.rpc k w :: (t.meanwhile ++ h), ts) := by
        unfold refreshOne; rw [h1]; exact if_pos h2
      unfold refreshUntil
      rw [this]
      exact e

/-- The full claim: after the wait every account is read as it was at the slot or later. -/
def ReadsOwn : Prop :=
  ∀ (h h' : List (Msg Nat)) (ts ts' : List (Turn Nat)) (ks : List Nat) (min : Nat) (c : ChainData Nat), Fair h' →
    refreshUntil min ks h ts = some (h', ts') → run h' = some c → ∀ k ∈ ks, ∃ v, accountAndSlot c k = some v ∧ min ≤ v.slot

namespace RefreshCase

/-- A chain without forks, slots 8 to 11, announced in order; a query about account 5 was answered at slot 11 before the announcements. -/
def feed : List (Msg Nat) := [.createdBank 11 10, .createdBank 10 9, .createdBank 9 8, .rpc 5 ⟨11, 55⟩, .write 1 ⟨8, 80⟩, .createdBank 8 7]

theorem feed_fair : Fair feed := by
  refine .createdBank (.createdBank (.createdBank (.rpc (.write (.createdBank .start (by decide) (by decide) (.inr ?_) (.inl rfl))
    (by intro h; cases h)) (by intro h; cases h)) (by decide) (by decide) (.inr ?_) (.inl rfl)) (by decide) (by decide) (.inr ?_) (.inl rfl))
    (by decide) (by decide) (.inl ?_) (.inl rfl)
  · intro t h; cases h
  · intro t h
    simp only [parentIn, Option.none_or, bestIn] at h
    by_cases h8 : t = 8
    · simp [h8] at h
    · by_cases h11 : t = 11
      · simp [h11] at h
      · simp [h8, h11] at h
  · intro t h
    simp only [parentIn, Option.none_or, bestIn] at h
    by_cases h8 : t = 8
    · simp [h8] at h
    · by_cases h11 : t = 11
      · simp [h11] at h
      · by_cases h9 : t = 9
        · simp [h9] at h
        · simp [h8, h11, h9] at h
  · simp [knownIn, bestIn]

end RefreshCase

open RefreshCase in
/-- The full claim is false.  The client waits for its transaction of slot 10, which changed account 1 to 100.  The node answers with the state
at slot 10, and the wait ends; but the cache reads the state at slot 8, as slot 10 is not between 11 and the parent that the earlier query made up
for it. -/
theorem C105_false : ¬ ReadsOwn := by
  intro H
  have hf : Fair (.rpc 1 ⟨10, 100⟩ :: feed) := .rpc feed_fair (by intro h; cases h)
  obtain ⟨v, h1, h2⟩ := H feed _ [⟨[], some ⟨10, 100⟩⟩] [] [1] 10 _ hf rfl rfl 1 (by simp)
  have e : (run (.rpc 1 ⟨10, 100⟩ :: feed)).bind (fun c => accountAndSlot c 1) = some ⟨8, 80⟩ := by decide +kernel
  have h3 : (run (.rpc 1 ⟨10, 100⟩ :: feed)).bind (fun c => accountAndSlot c 1) = some v := h1
  rw [e] at h3
  cases h3
  exact absurd h2 (by decide)

/-- A transaction that the node does not know yet, or not any more, is not waited for: the slot is 0, and any answer ends the wait.  Here it is executed in slot 10;
the account is read as it was in slot 9. -/
theorem C105_unknown : (∀ statuses : List (Option Nat), (∀ s ∈ statuses, s = none) → transactionMaxSlot statuses = 0) ∧
    ∃ h' c, refreshUntil (transactionMaxSlot [none]) [1] [] [⟨[], some ⟨9, 90⟩⟩, ⟨[], some ⟨10, 100⟩⟩] = some (h', [⟨[], some ⟨10, 100⟩⟩]) ∧
      run h' = some c ∧ accountAndSlot c 1 = some (⟨9, 90⟩ : Write Nat) := by
  refine ⟨fun statuses hs => ?_, _, _, rfl, rfl, by decide +kernel⟩
  rcases (C105_max_slot statuses).2 with e | e
  · exact e
  · cases hs _ e

/-- Two transactions in slots 9 and 10; accounts 1 and 2 are asked about, account 1 twice, as the node lags. -/
example : transactionMaxSlot [some 9, some 10] = 10 ∧
    let ts : List (Turn Nat) := [⟨[], some ⟨9, 90⟩⟩, ⟨[], some ⟨10, 100⟩⟩, ⟨[], some ⟨10, 200⟩⟩]
    let h : List (Msg Nat) := [.createdBank 8 7]
    ∃ h', refreshUntil 10 [1, 2] h ts = some (h', []) ∧ Fair h' ∧ (∀ t ∈ ts, t.meanwhile = []) ∧ InOrder ts ∧
      ∀ t ∈ ts, ∀ w, t.answer = some w → bestIn h < w.slot := by
  refine ⟨rfl, _, rfl, ?_, by simp, by simp [InOrder], by simp [bestIn]⟩
  exact .rpc (.rpc (.rpc (.createdBank .start (by decide) (by decide) (.inr (by intro t h; cases h)) (.inl rfl)) (by intro h; cases h))
    (by intro h; cases h)) (by intro h; cases h)

end OB
