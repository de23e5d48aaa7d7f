import Verif.Proofs.ChainFair

/-!
C70: what the client's cache of accounts returns is the newest write on the best chain.

The full claim, for every feed whose messages name parents below their slots, is false: see the
five counterexamples below. It holds for fair feeds.
-/

namespace OB
open Cache

variable {α : Type}

/-- A fair feed, a fork at 3, the root moving past it, and the answer to a query. -/
def ChainCase.feed : List (Msg Nat) :=
  [.rpc 2 ⟨9, 92⟩, .write 1 ⟨6, 61⟩, .root 5, .createdBank 7 5, .confirmed 5, .write 1 ⟨4, 41⟩,
   .createdBank 5 3, .write 1 ⟨4, 40⟩, .createdBank 4 3, .write 1 ⟨3, 31⟩, .createdBank 3 2,
   .write 1 ⟨1, 11⟩]

theorem ChainCase.feed_fair : Fair ChainCase.feed := by
  have h3 : Fair [.createdBank 3 2, .write (α := Nat) 1 ⟨1, 11⟩] :=
    .createdBank (.write .start (by intro h; cases h)) (by decide) (by decide)
      (.inr (by intro t h; cases h)) (.inl rfl)
  have h4 : Fair [.createdBank 4 3, .write 1 ⟨3, 31⟩, .createdBank 3 2,
      .write (α := Nat) 1 ⟨1, 11⟩] :=
    .createdBank (.write h3 (by intro h; cases h)) (by decide) (by decide)
      (.inr (by
        intro t h
        simp only [parentIn, Option.none_or] at h
        split at h <;> cases h)) (.inl rfl)
  have h5 : Fair [.confirmed 5, .write 1 ⟨4, 41⟩, .createdBank 5 3, .write 1 ⟨4, 40⟩,
      .createdBank 4 3, .write 1 ⟨3, 31⟩, .createdBank 3 2, .write (α := Nat) 1 ⟨1, 11⟩] := by
    refine .confirmed (.write (.createdBank (.write h4 (by intro h; cases h)) (by decide) (by decide)
      (.inr ?_) (.inl rfl)) (by intro h; cases h)) (by decide) (.inl (.inl rfl))
    intro t h
    simp only [parentIn, Option.none_or] at h
    by_cases h3 : t = 3
    · simp [h3] at h
    · by_cases h4 : t = 4
      · simp [h4] at h
      · simp [h3, h4] at h
  have h7 : Fair [.createdBank 7 5, .confirmed 5, .write 1 ⟨4, 41⟩, .createdBank 5 3,
      .write 1 ⟨4, 40⟩, .createdBank 4 3, .write 1 ⟨3, 31⟩, .createdBank 3 2,
      .write (α := Nat) 1 ⟨1, 11⟩] := by
    refine .createdBank h5 (by decide) (by decide) (.inr ?_) (.inl rfl)
    intro t h
    simp only [parentIn, Option.none_or] at h
    by_cases h3 : t = 3
    · simp [h3] at h
    · by_cases h4 : t = 4
      · simp [h4] at h
      · by_cases h5 : t = 5
        · simp [h5] at h
        · simp [h3, h4, h5] at h
  exact .rpc (.write (.root h7 (by decide) (.up .tip rfl)) (by intro h; exact absurd h (by decide)))
    (by intro h; exact absurd h (by decide))

/-- The cache never stops on a feed that names parents below their slots. -/
theorem C70_ends {h : List (Msg α)} (hb : Below h) : ∃ c, run h = some c :=
  let ⟨c, hc, _⟩ := below_runs hb
  ⟨c, hc⟩

example : Below ChainCase.feed := by
  intro s p hm
  simp [ChainCase.feed] at hm
  omega

/-- With a slot that is its own parent, the loop of the cache does not end, however long it runs:
the hypothesis of `C70_ends` is needed. -/
theorem C70_loop_false :
    ∀ fuel, mark 5 fuel 5 (enter (fun _ => none) 5 (some 5) .processed).1 = none := by
  have key : ∀ fuel (m : Slots) d, m 5 = some d → d.parent = some 5 → d.status ≠ .rooted →
      mark 5 fuel 5 m = none := by
    intro fuel
    induction fuel with
    | zero => intros; rfl
    | succ fuel ih =>
      intro m d h1 h2 h3
      unfold mark
      rw [h1]
      simp only [h2, h3, if_false]
      exact ih _ { d with chain := 5 } (by simp [Slots.put, h2]) h2 h3
  intro fuel
  exact key fuel _ { parent := some 5, status := .processed, chain := 0 } rfl rfl (by decide)

/-- After a fair feed, a read returns the newest write on the best chain, and nothing else. -/
theorem C70_reads_partial {h : List (Msg α)} (hf : Fair h) :
    ∃ c, run h = some c ∧ ∀ key w, accountAndSlot c key = some w ↔ Current h key w :=
  fair_reads hf

/-- In the fair feed above the fork at 3 is off the chain; the cache reads the write at 3, since
nothing is known about slot 6. -/
example : Fair ChainCase.feed ∧
    (run ChainCase.feed).bind (fun c => accountAndSlot c 1) = some ⟨3, 31⟩ ∧
    (run ChainCase.feed).bind (fun c => accountAndSlot c 2) = some ⟨9, 92⟩ :=
  ⟨ChainCase.feed_fair, by decide +kernel, by decide +kernel⟩

/-- Snapshots and the iterator give, for each account, what a read of it gives. -/
theorem C70_snapshot_partial {h : List (Msg α)} (hf : Fair h) :
    ∃ c, run h = some c ∧
      ∀ key k w, snapshotEntry c key = some (k, w) ↔ k = key ∧ Current h key w := by
  obtain ⟨c, hc, hr⟩ := fair_reads hf
  refine ⟨c, hc, ?_⟩
  intro key k w
  rw [← hr key w]
  unfold snapshotEntry accountAndSlot
  cases c.accounts key with
  | none => simp
  | some ws =>
    simp only [Option.map_eq_some_iff, Prod.mk.injEq]
    constructor
    · rintro ⟨v, h1, h2, h3⟩
      exact ⟨h2.symm, by rw [← h3]; exact h1⟩
    · rintro ⟨h1, h2⟩
      exact ⟨w, h2, h1.symm, rfl⟩

example : Fair ChainCase.feed ∧
    (run ChainCase.feed).bind (fun c => snapshotEntry c 1) = some (1, ⟨3, 31⟩) :=
  ⟨ChainCase.feed_fair, by decide +kernel⟩

/-- A slot that is announced after one that builds on it is not put on the chain: its writes are
not returned. -/
theorem C70_order_false : ∃ (h : List (Msg Nat)) (c : ChainData Nat),
    Fair h ∧ Below (.write 1 ⟨11, 7⟩ :: .createdBank 11 10 :: h) ∧
    run (.write 1 ⟨11, 7⟩ :: .createdBank 11 10 :: h) = some c ∧
    accountAndSlot c 1 = none ∧
    Current (.write 1 ⟨11, 7⟩ :: .createdBank 11 10 :: h) 1 ⟨11, 7⟩ := by
  have hf : Fair [.createdBank 12 11, .createdBank (α := Nat) 10 9] := by
    refine .createdBank (.createdBank .start (by decide) (by decide) (.inr ?_) (.inl rfl))
      (by decide) (by decide) (.inr ?_) (.inl rfl)
    · intro t h; cases h
    · intro t h
      simp only [parentIn, Option.none_or] at h
      split at h <;> cases h
  refine ⟨_, _, hf, ?_, rfl, by decide +kernel, ?_, [], [], rfl, by simp, by simp⟩
  · intro s p hm
    simp at hm
    omega
  · exact .inl ⟨.inl rfl, .inl (.up .tip rfl)⟩

/-- When a slot is rooted while a fork has the highest slot, the cache keeps the write of the fork
and drops that of the chain, for good: it still returns it when the chain has gone on. -/
theorem C70_fork_false : ∃ (h : List (Msg Nat)) (c : ChainData Nat),
    Fair h ∧ Below (.createdBank 8 5 :: .root 5 :: h) ∧
    run (.createdBank 8 5 :: .root 5 :: h) = some c ∧
    accountAndSlot c 1 = some ⟨4, 40⟩ ∧ ¬ OnChain (.createdBank 8 5 :: .root 5 :: h) 4 ∧
    Current (.createdBank 8 5 :: .root 5 :: h) 1 ⟨3, 31⟩ := by
  let h0 : List (Msg Nat) := [.createdBank 7 4, .createdBank 5 3, .write 1 ⟨4, 40⟩,
    .createdBank 4 3, .write 1 ⟨3, 31⟩, .createdBank 3 2]
  have hno : ∀ s, 4 < s → ∀ t,
      parentIn [.createdBank 5 3, .write 1 ⟨4, 40⟩, .createdBank 4 3, .write 1 ⟨3, 31⟩,
        Msg.createdBank (α := Nat) 3 2] t ≠ some s := by
    intro s hs t h
    simp only [parentIn, Option.none_or] at h
    by_cases h3 : t = 3
    · simp [h3] at h; omega
    · by_cases h4 : t = 4
      · simp [h4] at h; omega
      · by_cases h5 : t = 5
        · simp [h5] at h; omega
        · simp [h3, h4, h5] at h
  have hf : Fair h0 := by
    refine .createdBank (.createdBank (.write (.createdBank (.write (.createdBank .start (by decide)
      (by decide) (.inr ?_) (.inl rfl)) (by intro h; cases h)) (by decide) (by decide) (.inr ?_)
      (.inl rfl)) (by intro h; cases h)) (by decide) (by decide) (.inr ?_) (.inl rfl)) (by decide)
      (by decide) (.inr (hno 7 (by decide))) (.inl rfl)
    · intro t h; cases h
    · intro t h
      simp only [parentIn, Option.none_or] at h
      split at h <;> cases h
    · intro t h
      simp only [parentIn, Option.none_or] at h
      by_cases h3 : t = 3
      · simp [h3] at h
      · by_cases h4 : t = 4
        · simp [h4] at h
        · simp [h3, h4] at h
  have hoff : ¬ OnChain (.createdBank 8 5 :: .root 5 :: h0) 4 := by
    have hall : ∀ t, OnChain (.createdBank 8 5 :: .root 5 :: h0) t → t = 8 ∨ t = 5 ∨ t = 3 ∨ t = 2 := by
      intro t ht
      induction ht with
      | tip => exact .inl rfl
      | up _ hp ih =>
        rcases ih with rfl | rfl | rfl | rfl
        · cases hp; omega
        · cases hp; omega
        · cases hp; omega
        · cases hp
    intro h
    have := hall 4 h
    omega
  refine ⟨h0, _, hf, ?_, rfl, by decide +kernel, hoff, ?_, [⟨4, 40⟩], [], rfl, ?_, by simp⟩
  · intro s p hm
    simp [h0] at hm
    omega
  · refine .inl ⟨?_, .inl (.up (.up .tip rfl) rfl)⟩
    simp [h0, knownIn]
  · intro v hv hc
    simp only [List.mem_singleton] at hv
    subst hv
    rcases hc with ⟨-, h | h⟩ | ⟨h, -⟩
    · exact absurd h hoff
    · exact absurd h (by decide)
    · exact absurd (by simp [h0, knownIn]) h

/-- A write for a fork that arrives when the root has passed it is returned. -/
theorem C70_late_write_false : ∃ (h : List (Msg Nat)) (c : ChainData Nat),
    Fair h ∧ Below (.write 1 ⟨4, 40⟩ :: h) ∧ run (.write 1 ⟨4, 40⟩ :: h) = some c ∧
    accountAndSlot c 1 = some ⟨4, 40⟩ ∧ ¬ OnChain (.write 1 ⟨4, 40⟩ :: h) 4 ∧
    Current (.write 1 ⟨4, 40⟩ :: h) 1 ⟨3, 31⟩ := by
  let h0 : List (Msg Nat) := [.root 5, .createdBank 5 3, .createdBank 4 3, .write 1 ⟨3, 31⟩,
    .createdBank 3 2]
  have hf : Fair h0 := by
    refine .root (.createdBank (.createdBank (.write (.createdBank .start (by decide) (by decide)
      (.inr ?_) (.inl rfl)) (by intro h; cases h)) (by decide) (by decide) (.inr ?_) (.inl rfl))
      (by decide) (by decide) (.inr ?_) (.inl rfl)) (by decide) .tip
    · intro t h; cases h
    · intro t h
      simp only [parentIn, Option.none_or] at h
      split at h <;> cases h
    · intro t h
      simp only [parentIn, Option.none_or] at h
      by_cases h3 : t = 3
      · simp [h3] at h
      · by_cases h4 : t = 4
        · simp [h4] at h
        · simp [h3, h4] at h
  have hoff : ¬ OnChain (.write 1 ⟨4, 40⟩ :: h0) 4 := by
    have hall : ∀ t, OnChain (.write 1 ⟨4, 40⟩ :: h0) t → t = 5 ∨ t = 3 ∨ t = 2 := by
      intro t ht
      induction ht with
      | tip => exact .inl rfl
      | up _ hp ih =>
        rcases ih with rfl | rfl | rfl
        · cases hp; omega
        · cases hp; omega
        · cases hp
    intro h
    have := hall 4 h
    omega
  refine ⟨h0, _, hf, ?_, rfl, by decide +kernel, hoff, ?_, [⟨4, 40⟩], [], rfl, ?_, by simp⟩
  · intro s p hm
    simp [h0] at hm
    omega
  · refine .inl ⟨?_, .inl (.up .tip rfl)⟩
    simp [h0, knownIn]
  · intro v hv hc
    simp only [List.mem_singleton] at hv
    subst hv
    rcases hc with ⟨-, h | h⟩ | ⟨h, -⟩
    · exact absurd h hoff
    · exact absurd h (by decide)
    · exact absurd (by simp [h0, knownIn]) h

/-- A confirmation of a slot that arrives when the root has passed it hides the write of that slot,
and the next root deletes it: the account is empty although its write is on the chain. -/
theorem C70_late_confirmation_false : ∃ (h : List (Msg Nat)) (c : ChainData Nat),
    Fair h ∧ Below (.root 5 :: .confirmed 3 :: h) ∧ run (.root 5 :: .confirmed 3 :: h) = some c ∧
    c.accounts 1 = some [] ∧ accountAndSlot c 1 = none ∧
    Current (.root 5 :: .confirmed 3 :: h) 1 ⟨3, 31⟩ := by
  let h0 : List (Msg Nat) := [.createdBank 5 4, .root 4, .createdBank 4 3, .write 1 ⟨3, 31⟩,
    .createdBank 3 2]
  have hf : Fair h0 := by
    refine .createdBank (.root (.createdBank (.write (.createdBank .start (by decide) (by decide)
      (.inr ?_) (.inl rfl)) (by intro h; cases h)) (by decide) (by decide) (.inr ?_) (.inl rfl))
      (by decide) .tip) (by decide) (by decide) (.inr ?_) (.inr (.up .tip rfl))
    · intro t h; cases h
    · intro t h
      simp only [parentIn, Option.none_or] at h
      split at h <;> cases h
    · intro t h
      simp only [parentIn, Option.none_or] at h
      by_cases h3 : t = 3
      · simp [h3] at h
      · by_cases h4 : t = 4
        · simp [h4] at h
        · simp [h3, h4] at h
  refine ⟨h0, _, hf, ?_, rfl, by decide +kernel, by decide +kernel, ?_, [], [], rfl, by simp, by simp⟩
  · intro s p hm
    simp [h0] at hm
    omega
  · refine .inl ⟨?_, .inl (.up (.up .tip rfl) rfl)⟩
    simp [h0, knownIn]

/-- A query about one account hides another. Two feeds differ in how the data of account 2 at slot
11 came: in the first by a message, in the second as the answer to a query. Both then announce the
slots 9 to 12 with the same parents. The write of account 1 at slot 10 is on the announced chain;
the first cache returns it, the second does not, since it keeps the parent that the query made up. -/
theorem C70_query_false : ∃ (h : List (Msg Nat)) (c c' : ChainData Nat),
    (∀ m ∈ h, ∀ k w, m ≠ .rpc k w) ∧
    Fair (h ++ [.write 2 ⟨11, 22⟩, .createdBank 8 7]) ∧
    run (h ++ [.write 2 ⟨11, 22⟩, .createdBank 8 7]) = some c ∧
    run (h ++ [.rpc 2 ⟨11, 22⟩, .createdBank 8 7]) = some c' ∧
    accountAndSlot c 2 = accountAndSlot c' 2 ∧
    accountAndSlot c 1 = some ⟨10, 7⟩ ∧ accountAndSlot c' 1 = none := by
  let h0 : List (Msg Nat) := [.write 1 ⟨10, 7⟩, .createdBank 12 11, .createdBank 11 10,
    .createdBank 10 9, .createdBank 9 8]
  have hf : Fair [.write 1 ⟨10, 7⟩, .createdBank 12 11, .createdBank 11 10, .createdBank 10 9,
      .createdBank 9 8, .write 2 ⟨11, 22⟩, Msg.createdBank (α := Nat) 8 7] := by
    refine .write (.createdBank (.createdBank (.createdBank (.createdBank (.write (.createdBank .start
      (by decide) (by decide) (.inr ?_) (.inl rfl)) (by intro h; cases h)) (by decide) (by decide)
      (.inr ?_) (.inl rfl)) (by decide) (by decide) (.inr ?_) (.inl rfl)) (by decide) (by decide)
      (.inr ?_) (.inl rfl)) (by decide) (by decide) (.inr ?_) (.inl rfl)) (by intro h; cases h)
    · intro t h; cases h
    all_goals
      intro t h
      simp only [parentIn, Option.none_or] at h
      by_cases h8 : t = 8
      · simp [h8] at h
      · by_cases h9 : t = 9
        · simp [h9] at h
        · by_cases h10 : t = 10
          · simp [h10] at h
          · by_cases h11 : t = 11
            · simp [h11] at h
            · simp [h8, h9, h10, h11] at h
  refine ⟨h0, _, _, ?_, hf, rfl, rfl, by decide +kernel, by decide +kernel, by decide +kernel⟩
  intro m hm k w
  simp [h0] at hm
  rcases hm with rfl | rfl | rfl | rfl | rfl <;> simp

end OB
