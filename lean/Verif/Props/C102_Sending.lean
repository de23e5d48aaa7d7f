import Verif.Model.Sending
/-!
C102  The client reports how a transaction ended.

A user who is told that a transaction could not be confirmed sends it again; if the first one was executed after all, their order is placed
twice.  The reports of success and of failure are right; the report that the transaction could not be confirmed may be wrong.
-/
namespace OB
open Sending

/-- An honest node: `final` is how the transaction ends for good. -/
structure HonestNode (node : Node) (final : Option Ended) : Prop where
  /-- what has the commitment of the client stays -/
  committed : ∀ t st, node.status t = some (some st) → st.satisfies = true → final = some st.ended
  /-- a blockhash that is over stays over -/
  over : ∀ t t', t ≤ t' → node.blockhashValid t = some false → node.blockhashValid t' ≠ some true
  /-- once its blockhash is over, a transaction that the node does not know is never executed -/
  late : ∀ t, node.blockhashValid t = some false → node.status t = some none → final = none

/-- What was confirmed has been executed, in that slot, and what is reported as failed has failed. -/
theorem C102_reports {node : Node} {final : Option Ended} {time : Nat → Nat} {sent : Bool} {fuel : Nat} (hn : HonestNode node final) :
    (∀ slot, sendAndConfirm node time sent fuel = some (.confirmed slot) → final = some ⟨slot, none⟩) ∧
    (∀ e, sendAndConfirm node time sent fuel = some (.failed e) → ∃ slot, final = some ⟨slot, some e⟩) := by
  have key : ∀ fuel n, (∀ slot, poll node time fuel n = some (.confirmed slot) → final = some ⟨slot, none⟩) ∧
      (∀ e, poll node time fuel n = some (.failed e) → ∃ slot, final = some ⟨slot, some e⟩) := by
    intro fuel
    induction fuel with
    | zero => intro n; exact ⟨fun _ h => by simp [poll] at h, fun _ h => by simp [poll] at h⟩
    | succ fuel ih =>
      intro n
      unfold poll
      cases hs : node.status (time n) with
      | none => exact ⟨fun _ h => by simp at h, fun _ h => by simp at h⟩
      | some st =>
        have next : (∀ slot, (match node.blockhashValid (time (n + 1)) with
              | none => some Report.requestError
              | some false => some .unableToConfirm
              | some true => poll node time fuel (n + 2)) = some (.confirmed slot) → final = some ⟨slot, none⟩) ∧
            (∀ e, (match node.blockhashValid (time (n + 1)) with
              | none => some Report.requestError
              | some false => some .unableToConfirm
              | some true => poll node time fuel (n + 2)) = some (.failed e) → ∃ slot, final = some ⟨slot, some e⟩) := by
          cases node.blockhashValid (time (n + 1)) with
          | none => exact ⟨fun _ h => by simp at h, fun _ h => by simp at h⟩
          | some b =>
            cases b with
            | false => exact ⟨fun _ h => by simp at h, fun _ h => by simp at h⟩
            | true => exact ih (n + 2)
        cases st with
        | none => exact next
        | some st =>
          cases hb : st.satisfies with
          | false => simp only [Option.filter, hb]; exact next
          | true =>
            have hf := hn.committed _ _ hs hb
            simp only [Option.filter, hb, if_true]
            obtain ⟨⟨slot, err⟩, _⟩ := st
            cases err with
            | none => exact ⟨fun s h => by simp at h; rw [hf, h], fun _ h => by simp at h⟩
            | some e => exact ⟨fun _ h => by simp at h, fun _ h => by simp at h; exact ⟨slot, by rw [hf, h]⟩⟩
  unfold sendAndConfirm
  cases sent with
  | false => exact ⟨fun _ h => by simp at h, fun _ h => by simp at h⟩
  | true => exact key fuel 0

/-- "Unable to confirm" means that the transaction is never executed if the node did not know it at the moment of its last answer.  What is missing
is that the client has made sure of this: it asks for the status before, not after, it learns that the blockhash is over. -/
theorem C102_unable_partial {node : Node} {final : Option Ended} {time : Nat → Nat} {sent : Bool} {fuel : Nat} (hn : HonestNode node final)
    (h : sendAndConfirm node time sent fuel = some .unableToConfirm) :
    ∃ n, node.blockhashValid (time n) = some false ∧ (node.status (time n) = some none → final = none) := by
  have key : ∀ fuel n, poll node time fuel n = some .unableToConfirm → ∃ n, node.blockhashValid (time n) = some false := by
    intro fuel
    induction fuel with
    | zero => intro n h; simp [poll] at h
    | succ fuel ih =>
      intro n h
      unfold poll at h
      cases hs : node.status (time n) with
      | none => rw [hs] at h; simp at h
      | some st =>
        rw [hs] at h
        cases hf : st.filter (·.satisfies) with
        | some st' => simp only [hf] at h; cases he : st'.ended.err <;> simp [he] at h
        | none =>
          simp only [hf] at h
          cases hv : node.blockhashValid (time (n + 1)) with
          | none => rw [hv] at h; simp at h
          | some b =>
            cases b with
            | false => exact ⟨n + 1, hv⟩
            | true => rw [hv] at h; exact ih _ h
  unfold sendAndConfirm at h
  cases sent with
  | false => simp at h
  | true =>
    obtain ⟨n, hv⟩ := key fuel 0 h
    exact ⟨n, hv, fun hs => hn.late _ hv hs⟩

/-- Questions and answers alternate: the status, then whether the blockhash is still valid.  `QuietRounds k`: for `k` rounds every request gets
through, the status is not what the client waits for, and the blockhash is valid. -/
def QuietRounds (node : Node) (time : Nat → Nat) (k : Nat) : Prop :=
  ∀ i < k, (∃ st, node.status (time (2 * i)) = some st ∧ ∀ x, st = some x → x.satisfies = false) ∧ node.blockhashValid (time (2 * i + 1)) = some true

private theorem poll_quiet {node : Node} {time : Nat → Nat} (k : Nat) : ∀ (fuel j : Nat),
    (∀ i < k, (∃ st, node.status (time (2 * (j + i))) = some st ∧ ∀ x, st = some x → x.satisfies = false) ∧
      node.blockhashValid (time (2 * (j + i) + 1)) = some true) →
    poll node time (k + fuel) (2 * j) = poll node time fuel (2 * (j + k)) := by
  induction k with
  | zero => intro fuel j _; simp
  | succ k ih =>
    intro fuel j h
    obtain ⟨⟨st, h1, h2⟩, h3⟩ := h 0 (Nat.succ_pos k)
    simp only [Nat.add_zero] at h1 h3
    have hf : st.filter (·.satisfies) = none := by
      cases st with
      | none => rfl
      | some x => simp [Option.filter, h2 x rfl]
    have := ih fuel (j + 1) (fun i hi => by
      have := h (i + 1) (by omega)
      rw [show j + (i + 1) = j + 1 + i by omega] at this
      exact this)
    rw [show k + 1 + fuel = (k + fuel) + 1 by omega, poll]
    simp only [h1, hf, h3]
    rw [show 2 * j + 2 = 2 * (j + 1) by omega, this, show j + 1 + k = j + (k + 1) by omega]

/-- The first status with the commitment of the client is reported, whether the transaction was executed or failed. -/
theorem C102_seen {node : Node} {time : Nat → Nat} {k fuel : Nat} (hq : QuietRounds node time k) (hf : k < fuel) {st : Status}
    (hs : node.status (time (2 * k)) = some (some st)) (hc : st.satisfies = true) :
    (st.ended.err = none → sendAndConfirm node time true fuel = some (.confirmed st.ended.slot)) ∧
    ∀ e, st.ended.err = some e → sendAndConfirm node time true fuel = some (.failed e) := by
  obtain ⟨f, rfl⟩ : ∃ f, fuel = k + (f + 1) := ⟨fuel - k - 1, by omega⟩
  have h := poll_quiet k (f + 1) 0 (by simpa [QuietRounds] using hq)
  rw [Nat.zero_add, Nat.mul_zero] at h
  have hst : (some st).filter (·.satisfies) = some st := by simp [Option.filter, hc]
  refine ⟨fun he => ?_, fun e he => ?_⟩ <;>
  · rw [sendAndConfirm, if_pos rfl, h, poll]
    simp only [hs, hst, he]

/-- If the blockhash is over before, it gives up, and it gives up only then. -/
theorem C102_gives_up {node : Node} {time : Nat → Nat} {fuel : Nat} :
    sendAndConfirm node time true fuel = some .unableToConfirm ↔
    ∃ k < fuel, QuietRounds node time k ∧ (∃ st, node.status (time (2 * k)) = some st ∧ ∀ x, st = some x → x.satisfies = false) ∧
      node.blockhashValid (time (2 * k + 1)) = some false := by
  have key : ∀ fuel j, poll node time fuel (2 * j) = some .unableToConfirm → ∃ k < fuel,
      (∀ i < k, (∃ st, node.status (time (2 * (j + i))) = some st ∧ ∀ x, st = some x → x.satisfies = false) ∧
        node.blockhashValid (time (2 * (j + i) + 1)) = some true) ∧
      (∃ st, node.status (time (2 * (j + k))) = some st ∧ ∀ x, st = some x → x.satisfies = false) ∧
      node.blockhashValid (time (2 * (j + k) + 1)) = some false := by
    intro fuel
    induction fuel with
    | zero => intro j h; simp [poll] at h
    | succ fuel ih =>
      intro j h
      rw [poll] at h
      cases hs : node.status (time (2 * j)) with
      | none => simp [hs] at h
      | some st =>
        cases hf : st.filter (·.satisfies) with
        | some x => simp only [hs, hf] at h; cases he : x.ended.err <;> simp [he] at h
        | none =>
          have hst : ∀ x, st = some x → x.satisfies = false := by
            intro x hx
            subst hx
            cases hb : x.satisfies with
            | false => rfl
            | true => simp [Option.filter, hb] at hf
          cases hv : node.blockhashValid (time (2 * j + 1)) with
          | none => simp [hs, hf, hv] at h
          | some b =>
            cases b with
            | false => exact ⟨0, Nat.succ_pos _, fun i hi => absurd hi (Nat.not_lt_zero i), ⟨st, hs, hst⟩, hv⟩
            | true =>
              simp only [hs, hf, hv] at h
              obtain ⟨k, hk, h1, h2, h3⟩ := ih (j + 1) h
              refine ⟨k + 1, by omega, fun i hi => ?_, ?_, ?_⟩
              · cases i with
                | zero => exact ⟨⟨st, hs, hst⟩, hv⟩
                | succ i => rw [show j + (i + 1) = j + 1 + i by omega]; exact h1 i (by omega)
              · rw [show j + (k + 1) = j + 1 + k by omega]; exact h2
              · rw [show j + (k + 1) = j + 1 + k by omega]; exact h3
  constructor
  · intro h
    rw [sendAndConfirm, if_pos rfl] at h
    obtain ⟨k, hk, h1, h2, h3⟩ := key fuel 0 h
    simp only [Nat.zero_add] at h1 h2 h3
    exact ⟨k, hk, h1, h2, h3⟩
  · rintro ⟨k, hk, hq, ⟨st, hs, hst⟩, hv⟩
    obtain ⟨f, rfl⟩ : ∃ f, fuel = k + (f + 1) := ⟨fuel - k - 1, by omega⟩
    have h := poll_quiet k (f + 1) 0 (by simpa [QuietRounds] using hq)
    rw [Nat.zero_add, Nat.mul_zero] at h
    have hf : st.filter (·.satisfies) = none := by
      cases st with
      | none => rfl
      | some x => simp [Option.filter, hst x rfl]
    rw [sendAndConfirm, if_pos rfl, h, poll]
    simp only [hs, hf, hv]

/-- An error of a request is reported only if a request failed. -/
theorem C102_request_error {node : Node} {time : Nat → Nat} {sent : Bool} {fuel : Nat} (h : sendAndConfirm node time sent fuel = some .requestError) :
    sent = false ∨ ∃ n, node.status (time n) = none ∨ node.blockhashValid (time n) = none := by
  have key : ∀ fuel n, poll node time fuel n = some .requestError → ∃ n, node.status (time n) = none ∨ node.blockhashValid (time n) = none := by
    intro fuel
    induction fuel with
    | zero => intro n h; simp [poll] at h
    | succ fuel ih =>
      intro n h
      rw [poll] at h
      cases hs : node.status (time n) with
      | none => exact ⟨n, .inl hs⟩
      | some st =>
        cases hf : st.filter (·.satisfies) with
        | some x => simp only [hs, hf] at h; cases he : x.ended.err <;> simp [he] at h
        | none =>
          cases hv : node.blockhashValid (time (n + 1)) with
          | none => exact ⟨n + 1, .inr hv⟩
          | some b =>
            cases b with
            | false => simp [hs, hf, hv] at h
            | true => simp only [hs, hf, hv] at h; exact ih _ h
  cases sent with
  | false => exact .inl rfl
  | true => exact .inr (key fuel 0 h)

/-- The order of the questions matters: a client that asked for the status once more after it learnt that the blockhash is over would know. -/
theorem C102_asked_again {node : Node} {final : Option Ended} (hn : HonestNode node final) {t t' : Nat} (ht : t ≤ t')
    (hv : node.blockhashValid t = some false) (hv' : node.blockhashValid t' ≠ none) (hs : node.status t' = some none) : final = none := by
  refine hn.late t' ?_ hs
  cases h : node.blockhashValid t' with
  | none => exact absurd h hv'
  | some b =>
    cases b with
    | false => rfl
    | true => exact absurd h (hn.over t t' ht hv)

namespace SendingCase

/-- The transaction is executed at moment 3, in slot 77, just before its blockhash is over. -/
def final : Option Ended := some ⟨77, none⟩
def node (level : Nat) : Node where
  status t := some (if t < 3 then none else some ⟨⟨77, none⟩, decide (level ≤ t)⟩)
  blockhashValid t := some (decide (t < 4))

theorem honest (level : Nat) : HonestNode (node level) final where
  committed t st h _ := by
    simp only [node, Option.some.injEq] at h
    split at h
    · cases h
    · cases h; rfl
  over t t' h h1 h2 := by
    simp only [node, Option.some.injEq, decide_eq_false_iff_not, decide_eq_true_eq] at h1 h2
    omega
  late t h1 h2 := by
    simp only [node, Option.some.injEq, decide_eq_false_iff_not] at h1 h2
    rw [if_neg (by omega)] at h2
    cases h2

end SendingCase

open SendingCase in
/-- The full claim is false: with an honest node and questions in order, the client reports that it could not confirm a transaction that has been
executed, at the same time or before.  In the first run it was executed between the two questions, in the second it did not have the commitment
of the client yet. -/
theorem C102_unable_wrong :
    (HonestNode (node 3) final ∧ (∀ n, 2 + 2 * n < 2 + 2 * (n + 1)) ∧ sendAndConfirm (node 3) (fun n => 2 + 2 * n) true 5 = some .unableToConfirm) ∧
    (HonestNode (node 9) final ∧ sendAndConfirm (node 9) (fun n => 3 + n) true 5 = some .unableToConfirm) ∧ final = some ⟨77, none⟩ :=
  ⟨⟨honest 3, fun n => by omega, rfl⟩, ⟨honest 9, rfl⟩, rfl⟩

open SendingCase in
/-- In time it reports the slot. -/
example : HonestNode (node 3) final ∧ sendAndConfirm (node 3) (fun n => n) true 5 = some (.confirmed 77) := ⟨honest 3, by decide⟩

open SendingCase in
/-- It is asked for once before the transaction is known. -/
example : QuietRounds (node 3) (fun n => n + 1) 1 ∧ (node 3).status (2 * 1 + 1) = some (some ⟨⟨77, none⟩, true⟩) := by
  refine ⟨fun i hi => ?_, rfl⟩
  obtain rfl : i = 0 := by omega
  exact ⟨⟨none, rfl, fun x h => by cases h⟩, rfl⟩

end OB
