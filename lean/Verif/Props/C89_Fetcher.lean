import Verif.Proofs.FetcherList
/-! C89: the account cache of the Rust client returns the newest answer it has been given, once per request, and never panics; how fresh
that answer is depends on what was in flight. -/
namespace OB
open Spec Fetcher

variable {D : Type}

/-- A call for an account returns the data that the underlying fetcher gave for it most recently, since the last clearing. -/
theorem C89_exact {h : List (Event D)} {s : AccountCache D} (hr : Runs h s) {post pre : List (Event D)} {c : Nat} {k : Pubkey}
    {l : List (Pubkey × D)} (hh : h = post ++ .returned c (.account k) (some l) :: pre) :
    ∃ d, l = [(k, d)] ∧ lastGiven k pre = some d := by
  have := hr.inv.said
  rw [hh] at this
  exact this.at

/-- A call for the accounts of a program returns only data that the underlying fetcher has given; unless it lists an account twice, it is the
most recent data of each account, since the last clearing. -/
theorem C89_program_exact {h : List (Event D)} {s : AccountCache D} (hr : Runs h s) {post pre : List (Event D)} {c : Nat} {p : Prog}
    {l : List (Pubkey × D)} (hh : h = post ++ .returned c (.program p) (some l) :: pre) :
    (∀ x ∈ l, ∃ h1 r l' h2, pre = h1 ++ .answered r (some l') :: h2 ∧ x ∈ l') ∧
    ((l.map (·.1)).Nodup → ∀ x ∈ l, lastGiven x.1 pre = some x.2) := by
  have := hr.inv.said
  rw [hh] at this
  exact this.at

/-- The accounts that it returns are those that the underlying fetcher listed for this program most recently, since the last clearing: none
is left out, none added, and the order is the same. -/
theorem C89_program_list {h : List (Event D)} {s : AccountCache D} (hr : Runs h s) {post pre : List (Event D)} {c : Nat} {p : Prog}
    {l : List (Pubkey × D)} (hh : h = post ++ .returned c (.program p) (some l) :: pre) : lastListed p pre = some (l.map (·.1)) := by
  have := hr.listInv.said
  rw [hh] at this
  exact this.at

/-- The `unwrap` in `fetch_program_accounts` never panics. -/
theorem C89_no_panic {h : List (Event D)} {s : AccountCache D} (hr : Runs h s) (c : Nat) (p : Prog) : (fetchProgram s c p).isSome = true := by
  unfold fetchProgram
  cases h1 : s.keys p with
  | some ks =>
    obtain ⟨l, h2, _⟩ := hr.inv.lookup h1
    simp only [h2]; rfl
  | none => cases h2 : s.programJobs p <;> simp

/-- The underlying fetcher is asked only for what nobody is waiting for already, for an account only if nothing is known about it, and for
the accounts of a program only if they are not known. -/
theorem C89_asked_once {h : List (Event D)} {s : AccountCache D} (hr : Runs h s) {post pre : List (Event D)} {r : Req}
    (hh : h = post ++ .asked r :: pre) :
    pending r pre = false ∧ (∀ k, r = .account k → lastGiven k pre = none) ∧ ∀ p, r = .program p → lastListed p pre = none := by
  have h1 := hr.inv.said
  have h2 := hr.listInv.said
  rw [hh] at h1 h2
  refine ⟨h1.at.1, h1.at.2, fun p e => ?_⟩
  subst e
  exact h2.at

/-- Every call returns once, unless its request is still unanswered. -/
theorem C89_everyone {h : List (Event D)} {s : AccountCache D} (hr : Runs h s) (c : Nat) (r : Req) :
    returns c r h ≤ calls c r h ∧ (pending r h = false → returns c r h = calls c r h) := by
  have h1 := hr.inv.waits r c
  refine ⟨by omega, fun hp => ?_⟩
  have h2 := hr.inv.jobs r
  rw [hp] at h2
  have h3 : job s r = none := by
    cases h4 : job s r with
    | none => rfl
    | some ws => rw [h4] at h2; cases h2
  rw [h3] at h1
  exact h1.symm

/-- An error is returned only to calls that were waiting when the request failed. -/
theorem C89_error {h : List (Event D)} {s : AccountCache D} (hr : Runs h s) {post pre : List (Event D)} {c : Nat} {r : Req}
    (hh : h = post ++ .returned c r none :: pre) :
    (∃ (cs : List Nat) (h' : List (Event D)), pre = (cs.map (fun c => Event.returned c r none)) ++ .answered r none :: h') ∧
    returns c r pre < calls c r pre := by
  have := hr.inv.said
  rw [hh] at this
  cases r with
  | account k =>
    obtain ⟨cs, h', h1, h2⟩ := this.at
    exact ⟨⟨cs, h', h1⟩, h2⟩
  | program p =>
    obtain ⟨cs, h', h1, h2⟩ := this.at
    exact ⟨⟨cs, h', h1⟩, h2⟩

/-- An error is not cached: when nothing is known of an account and no request for it is in flight, the next call asks again. -/
theorem C89_retry {h : List (Event D)} {s : AccountCache D} (hr : Runs h s) {k : Pubkey} (hk : lastGiven k h = none)
    (hp : pending (.account k) h = false) (c : Nat) :
    (fetch s c k).2 = [.called c (.account k), .asked (.account k)] := by
  have h1 := hr.inv.accounts k
  rw [hk] at h1
  have h2 := hr.inv.jobs (.account k)
  rw [hp] at h2
  have h3 : s.accountJobs k = none := by
    cases h4 : s.accountJobs k with
    | none => rfl
    | some ws => rw [job, h4] at h2; cases h2
  unfold fetch
  simp only [h1, h3]

/-- The same for the accounts of a program. -/
theorem C89_program_retry {h : List (Event D)} {s : AccountCache D} (hr : Runs h s) {p : Prog} (hk : lastListed p h = none)
    (hp : pending (.program p) h = false) (c : Nat) :
    (fetchProgram s c p).map (·.2) = some [.called c (.program p), .asked (.program p)] := by
  have h1 := hr.listInv.keys p
  rw [hk] at h1
  have h2 := hr.inv.jobs (.program p)
  rw [hp] at h2
  have h3 : s.programJobs p = none := by
    cases h4 : s.programJobs p with
    | none => rfl
    | some ws => rw [job, h4] at h2; cases h2
  unfold fetchProgram
  simp only [h1, h3]
  rfl

/-- The full claim about clearing: data returned after `clear_cache` was asked for after it. -/
def FreshAfterClear (D : Type) : Prop :=
  ∀ (h : List (Event D)) (s : AccountCache D), Runs h s → ∀ (post mid pre : List (Event D)) (c : Nat) (k : Pubkey) (d : D),
    h = post ++ .returned c (.account k) (some [(k, d)]) :: (mid ++ .cleared :: pre) →
    ∃ h1 r l h2, mid = h1 ++ .answered r (some l) :: h2 ∧ (k, d) ∈ l ∧ .asked r ∈ h2

/-- What holds: it was answered after the clearing, and it was asked for after it or the request was in flight at that time. -/
theorem C89_fresh_after_clear_partial {h : List (Event D)} {s : AccountCache D} (hr : Runs h s) {post mid pre : List (Event D)} {c : Nat}
    {k : Pubkey} {d : D} (hh : h = post ++ .returned c (.account k) (some [(k, d)]) :: (mid ++ .cleared :: pre)) :
    ∃ h1 r l h2, mid = h1 ++ .answered r (some l) :: h2 ∧ (k, d) ∈ l ∧ (.asked r ∈ h2 ∨ pending r pre = true) := by
  obtain ⟨d', e, hl⟩ := C89_exact hr hh
  injection e with e _
  injection e with _ e
  subst e
  obtain ⟨h1, r, l, h2, e1, e2⟩ := lastGiven_from mid pre hl
  refine ⟨h1, r, l, h2, e1, e2, ?_⟩
  have hs := hr.inv.said
  rw [hh, e1] at hs
  have hs : Always Said ((post ++ .returned c (.account k) (some [(k, d)]) :: h1) ++ .answered r (some l) :: (h2 ++ .cleared :: pre)) := by
    simpa using hs
  exact pending_from h2 (.cleared :: pre) hs.at.1

/-- If nothing was in flight when the cache was cleared, the full claim holds. -/
theorem C89_fresh_when_idle {h : List (Event D)} {s : AccountCache D} (hr : Runs h s) {post mid pre : List (Event D)} {c : Nat}
    {k : Pubkey} {d : D} (hh : h = post ++ .returned c (.account k) (some [(k, d)]) :: (mid ++ .cleared :: pre))
    (hidle : ∀ r, pending r pre = false) :
    ∃ h1 r l h2, mid = h1 ++ .answered r (some l) :: h2 ∧ (k, d) ∈ l ∧ .asked r ∈ h2 := by
  obtain ⟨h1, r, l, h2, e1, e2, e3⟩ := C89_fresh_after_clear_partial hr hh
  refine ⟨h1, r, l, h2, e1, e2, e3.resolve_right (fun e => ?_)⟩
  rw [hidle r] at e
  cases e

/-- A request in flight outlives `clear_cache`: whoever calls after the clearing joins it, and its answer, from before the clearing, is cached. -/
theorem C89_not_FreshAfterClear : ¬ FreshAfterClear Nat := by
  intro hf
  obtain ⟨s, hr⟩ := runs_of_play (D := Nat) [.fetch 1 7, .clear, .fetch 2 7, .account 7 (some 10)]
    [.returned 2 (.account 7) (some [(7, 10)]), .returned 1 (.account 7) (some [(7, 10)]), .answered (.account 7) (some [(7, 10)]),
      .called 2 (.account 7), .cleared, .asked (.account 7), .called 1 (.account 7)] rfl
  obtain ⟨h1, r, l, h2, e1, _, e3⟩ := hf _ s hr []
    [.returned 1 (.account 7) (some [(7, 10)]), .answered (.account 7) (some [(7, 10)]), .called 2 (.account 7)]
    [.asked (.account 7), .called 1 (.account 7)] 2 7 10 rfl
  have h4 : Event.asked r ∈ [Event.returned 1 (.account 7) (some [(7, 10)]), .answered (.account 7) (some [(7, 10)]), .called 2 (.account 7)] := by
    rw [e1]
    exact List.mem_append_right _ (List.mem_cons_of_mem _ e3)
  simp at h4

/-- The full claim about order: once a call has returned data of an account, later calls return this data or data that was asked for later. -/
def NeverBackwards (D : Type) : Prop :=
  ∀ (h : List (Event D)) (s : AccountCache D), Runs h s → ∀ (h1 h2 h3 : List (Event D)) (c c' : Nat) (k : Pubkey) (d d' : D),
    h = h1 ++ .returned c' (.account k) (some [(k, d')]) :: (h2 ++ .returned c (.account k) (some [(k, d)]) :: h3) → d' ≠ d →
    ∃ r, .asked r ∈ h2

/-- It fails: the answer for the accounts of a program, asked for before the account, may arrive after it and replaces the newer data. -/
theorem C89_not_NeverBackwards : ¬ NeverBackwards Nat := by
  intro hf
  obtain ⟨s, hr⟩ := runs_of_play (D := Nat)
    [.fetchProgram 1 (5, 0), .fetch 2 7, .account 7 (some 20), .program (5, 0) (some [(7, 10)]), .fetch 2 7]
    [.returned 2 (.account 7) (some [(7, 10)]), .called 2 (.account 7),
      .returned 1 (.program (5, 0)) (some [(7, 10)]), .answered (.program (5, 0)) (some [(7, 10)]),
      .returned 2 (.account 7) (some [(7, 20)]), .answered (.account 7) (some [(7, 20)]),
      .asked (.account 7), .called 2 (.account 7), .asked (.program (5, 0)), .called 1 (.program (5, 0))] rfl
  obtain ⟨r, h⟩ := hf _ s hr [] [.called 2 (.account 7),
      .returned 1 (.program (5, 0)) (some [(7, 10)]), .answered (.program (5, 0)) (some [(7, 10)])] _ 2 2 7 20 10 rfl (by decide)
  simp at h

/-- A cache that is never cleared and never asked for the accounts of a program returns the same data of an account for ever.  This is how
`OpenBookClient` reads its open orders account (client.rs:255-275, 298-301). -/
theorem C89_frozen {h : List (Event D)} {s : AccountCache D} (hr : Runs h s) (hc : Event.cleared ∉ h)
    (hp : ∀ p, Event.asked (.program p) ∉ h) {c c' : Nat} {k : Pubkey} {d d' : D}
    (h1 : Event.returned c (.account k) (some [(k, d)]) ∈ h) (h2 : Event.returned c' (.account k) (some [(k, d')]) ∈ h) : d = d' := by
  obtain ⟨_, _, h3⟩ := said_frozen hr.inv.said hc hp k
  have e1 := h3 c d h1
  have e2 := h3 c' d' h2
  rw [e1] at e2
  injection e2

/-- … and asks for it at most once more than it is told an error: from the first data on, every call returns at once. -/
theorem C89_frozen_hit {h : List (Event D)} {s : AccountCache D} (hr : Runs h s) {k : Pubkey} {d : D} (hl : lastGiven k h = some d) (c : Nat) :
    fetch s c k = (s, [.called c (.account k), .returned c (.account k) (some [(k, d)])]) := by
  have h1 := hr.inv.accounts k
  rw [hl] at h1
  unfold fetch
  simp only [h1]

/-! ### The hypotheses are met -/

/-- Two callers share a request that fails, the next call asks again, a list of accounts arrives, the cache is cleared and asked once more. -/
example : ∃ s, Runs (D := Nat)
    [.returned 1 (.account 7) (some [(7, 12)]), .answered (.account 7) (some [(7, 12)]), .asked (.account 7), .called 1 (.account 7), .cleared,
     .returned 3 (.program (5, 0)) (some [(7, 11), (8, 4)]), .called 3 (.program (5, 0)),
     .returned 2 (.program (5, 0)) (some [(7, 11), (8, 4)]), .answered (.program (5, 0)) (some [(7, 11), (8, 4)]),
     .asked (.program (5, 0)), .called 2 (.program (5, 0)),
     .returned 1 (.account 7) (some [(7, 10)]), .answered (.account 7) (some [(7, 10)]), .asked (.account 7), .called 1 (.account 7),
     .returned 2 (.account 7) none, .returned 1 (.account 7) none, .answered (.account 7) none,
     .called 2 (.account 7), .asked (.account 7), .called 1 (.account 7)] s :=
  runs_of_play [.fetch 1 7, .fetch 2 7, .account 7 none, .fetch 1 7, .account 7 (some 10), .fetchProgram 2 (5, 0),
    .program (5, 0) (some [(7, 11), (8, 4)]), .fetchProgram 3 (5, 0), .clear, .fetch 1 7, .account 7 (some 12)] _ rfl

/-- An account read twice without clearing. -/
example : ∃ h s, Runs (D := Nat) h s ∧ Event.cleared ∉ h ∧ (∀ p, Event.asked (.program p) ∉ h) ∧
    Event.returned 1 (.account 7) (some [(7, 10)]) ∈ h ∧ Event.returned 2 (.account 7) (some [(7, 10)]) ∈ h := by
  obtain ⟨s, hr⟩ := runs_of_play (D := Nat) [.fetch 1 7, .account 7 (some 10), .fetch 2 7]
    [.returned 2 (.account 7) (some [(7, 10)]), .called 2 (.account 7), .returned 1 (.account 7) (some [(7, 10)]),
      .answered (.account 7) (some [(7, 10)]), .asked (.account 7), .called 1 (.account 7)] rfl
  exact ⟨_, s, hr, by simp, by simp, by simp, by simp⟩

end OB
