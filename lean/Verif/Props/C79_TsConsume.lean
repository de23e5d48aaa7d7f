import Verif.Model.TsConsume
import Verif.Proofs.TsObjects
import Verif.Props.C22_Consume
import Verif.Props.C40_Live
/-!
C79  The TypeScript library finds the events to consume.

Both helpers compare key objects by identity, and the objects they compare with are created while comparing.  So no slot is ever found
(C79_no_slots) and an instruction built to consume the events of one account consumes nothing (C79_for_account).  The list of accounts
is that of the first 21 nodes of the heap, whether they hold events or not (C79_accounts): it serves for an event which is in one of
them (C79_front_partial), but for others the queue does not move (C79_stuck).
-/
namespace OB
open Spec

/-- No slots are found, for any key object that existed before the call and any heap. -/
theorem C79_no_slots (h : EventHeap) (key : Ts.KeyObj) (next : Nat) (hk : key.id < next) : Ts.getSlotsToConsume h key next = [] := by
  have : ∀ (is : List Nat) (n : Nat), key.id < n → Ts.slotsLoop h key is n = [] := by
    intro is
    induction is with
    | nil => intro n _; rfl
    | cons i is ih =>
      intro n hn
      unfold Ts.slotsLoop
      rw [if_neg, ih (n + 1) (by omega)]
      cases (h.nodes i).event <;> simp only [Ts.eventKey] <;> omega
  exact this _ _ hk

/-- The instruction that should consume the events of one account changes nothing. -/
theorem C79_for_account {s s' : State} (admin : Pubkey) (key : Ts.KeyObj) (next : Nat) (hk : key.id < next)
    (h : step s (.consumeGivenEvents admin (Ts.consumeEventsForAccount s.g.heap key next).1
      (Ts.consumeEventsForAccount s.g.heap key next).2) = .ok s') : s' = s := by
  have e : (Ts.consumeEventsForAccount s.g.heap key next).1 = [] := by
    simp only [Ts.consumeEventsForAccount]
    rw [C79_no_slots s.g.heap key next hk]
  rw [e] at h
  simp only [step, consumeGivenEvents, consumeEvents, slotsToConsume, bind_ok, req_ok, pure_ok, List.length_nil, Nat.zero_min, List.take_zero] at h
  obtain ⟨_, _, _, _, _, _, todo, ⟨_, _, rfl⟩, g, hg, rfl⟩ := h
  unfold consumeLoop at hg
  cases hg
  rfl

/-- The accounts named in that instruction: the account, and those of the events that are, or were last, in the nodes 0 to 8 of the heap, named
more than once if they have more than one. -/
theorem C79_for_account_names (h : EventHeap) (key : Ts.KeyObj) (next : Nat) (hk : key.id < next) :
    (Ts.consumeEventsForAccount h key next).2 = key.key :: (List.range 9).map (fun i => eventAccount (h.nodes i).event) := by
  unfold Ts.consumeEventsForAccount Ts.getAccountsToConsume
  simp only
  rw [accountsLoop_keyObjs h _ _ [] (fun a ha => by cases ha) (by decide), List.nil_append]
  rw [eraseDups_nodup, List.take_succ_cons, List.map_cons, keyObjs_take, keyObjs_keys h _ _ 0, List.length_nil, List.take_take]
  · rw [show (List.range maxNumEvents).take (min 9 (21 - 0)) = List.range 9 from by rw [List.take_range]; rfl]
    congr 1
    refine List.map_congr_left (fun i _ => ?_)
    cases (h.nodes i).event <;> rfl
  · refine List.nodup_cons.mpr ⟨fun hm => ?_, keyObjs_nodup h _ _⟩
    have := keyObjs_ids h _ _ _ hm
    omega

/-- The list of accounts: those of the events that are, or were last, in the nodes 0 to 20 of the heap. -/
theorem C79_accounts (h : EventHeap) (next : Nat) :
    (Ts.getAccountsToConsume h next).map (·.key) = (List.range 21).map (fun i => eventAccount (h.nodes i).event) := by
  have key : ∀ (n i m : Nat) (acc : List Ts.KeyObj), acc.length = i → n + i = 21 → (∀ a ∈ acc, a.id < m) →
      ∀ is, 0 < n → (Ts.accountsLoop h (List.range' i n ++ is) m acc).map (·.key) =
        acc.map (·.key) ++ (List.range' i n).map (fun i => eventAccount (h.nodes i).event) := by
    intro n
    induction n with
    | zero => intro i m acc _ _ _ is h0; omega
    | succ n ih =>
      intro i m acc hl hn hid is _
      rw [List.range'_succ, List.cons_append]
      unfold Ts.accountsLoop
      have hid2 : (Ts.eventKey m (h.nodes i).event).id = m := by cases (h.nodes i).event <;> rfl
      have hkey : (Ts.eventKey m (h.nodes i).event).key = eventAccount (h.nodes i).event := by cases (h.nodes i).event <;> rfl
      have hf : acc.filter (fun a => decide (a.id ≠ (Ts.eventKey m (h.nodes i).event).id)) = acc := by
        refine List.filter_eq_self.mpr (fun a ha => ?_)
        have := hid a ha
        rw [hid2]
        exact decide_eq_true (by omega)
      simp only
      rw [hf]
      by_cases h0 : n = 0
      · subst h0
        rw [if_pos (by simp; omega)]
        simp [hkey]
      · rw [if_neg (by simp; omega), ih (i + 1) (m + 1) _ (by simp; omega) (by omega) ?_ is (by omega)]
        · simp [hkey]
        · intro a ha
          rcases List.mem_append.mp ha with ha | ha
          · have := hid a ha; omega
          · simp only [List.mem_singleton] at ha; rw [ha, hid2]; omega
  have := key 21 0 next [] rfl rfl (fun a ha => by simp at ha) (List.range' 21 579) (by omega)
  rw [List.map_nil, List.nil_append] at this
  unfold Ts.getAccountsToConsume
  rw [show List.range maxNumEvents = List.range' 0 21 ++ List.range' 21 579 from by
    rw [List.range_eq_range', show (maxNumEvents : Nat) = 21 + 579 from rfl, ← List.range'_append_1], this, List.range_eq_range']

/-- As long as all events are in these nodes, `consume_events` with this list delivers the first eight events, or all if there are fewer. -/
theorem C79_front_partial (s : State) (hr : Reachable s) (hc : CountersLow s) (hq : s.g.heap.events ≠ []) (next : Nat)
    (hn : ∀ i e, s.g.heap.atSlot i = some e → i < 21) :
    ∃ s', step s (.consumeEvents s.g.market.consumeEventsAdmin 8 ((Ts.getAccountsToConsume s.g.heap next).map (·.key))) = .ok s' ∧
      s'.g.heap.events = s.g.heap.events.drop 8 ∧ Delivered s s' (s.g.heap.events.take 8) := by
  obtain ⟨s', h⟩ := C40_consume_events s hr hc hq 8 ((Ts.getAccountsToConsume s.g.heap next).map (·.key))
  obtain ⟨h1, h2⟩ := C22_consume_events s s' hr _ _ _ h
  have hall : ∀ e ∈ s.g.heap.events, eventAccount e ∈ (Ts.getAccountsToConsume s.g.heap next).map (·.key) := by
    intro e he
    obtain ⟨O, q, hw⟩ := (reachable_Inv hr).core.linv
    rw [C79_accounts]
    rw [hw.heap.events] at he
    obtain ⟨⟨i, e'⟩, hm, rfl⟩ := List.mem_map.mp he
    have ha := (atSlot_some hw.heap).mpr hm
    have hi := hn i e' ha
    refine List.mem_map.mpr ⟨i, List.mem_range.mpr hi, ?_⟩
    unfold EventHeap.atSlot at ha
    split at ha
    · cases ha
    · cases ha; rfl
  have h8 : min 8 8 = 8 := rfl
  rw [h8] at h1 h2
  have f1 : (s.g.heap.events.take 8).filter (fun e => decide (eventAccount e ∉ (Ts.getAccountsToConsume s.g.heap next).map (·.key))) = [] :=
    List.filter_eq_nil_iff.mpr (fun e he => by simpa using hall e (List.mem_of_mem_take he))
  have f2 : (s.g.heap.events.take 8).filter (fun e => decide (eventAccount e ∈ (Ts.getAccountsToConsume s.g.heap next).map (·.key))) =
      s.g.heap.events.take 8 :=
    List.filter_eq_self.mpr (fun e he => decide_eq_true (hall e (List.mem_of_mem_take he)))
  rw [f1, List.nil_append] at h1
  rw [f2] at h2
  exact ⟨s', h, h1, h2⟩

/-- 21 sales of account 41, one of 42; the events of 41 are consumed. -/
def TsCase.sales : List Op :=
  [.createOO 41 31 0, .createOO 42 32 0, .createOO 43 33 0, Scenario.place 0 .ask 1010 21 1, Scenario.place 1 .ask 1020 3 2] ++
  List.replicate 21 (Scenario.place 2 .bid 1010 1 3) ++ [Scenario.place 2 .bid 1020 1 4] ++ List.replicate 3 (.consumeEvents 0 8 [41])

/-- The queue stands still: one event waits, and consuming with the accounts of the helper does not deliver it. -/
theorem C79_stuck : ∃ (s s' : State), Reachable s ∧ s.g.heap.events ≠ [] ∧
    step s (.consumeEvents s.g.market.consumeEventsAdmin 8 ((Ts.getAccountsToConsume s.g.heap 0).map (·.key))) = .ok s' ∧
    s'.g.heap.events = s.g.heap.events := by
  obtain ⟨s, s', h1, h2, h3⟩ := Scenario.step_spec (a := Scenario.args) (ops := TsCase.sales) (op := .consumeEvents 0 8 (List.replicate 21 41))
    (p := fun s s' => decide (s.g.heap.events ≠ [] ∧ s.g.market.consumeEventsAdmin = 0 ∧ s'.g.heap.events = s.g.heap.events ∧
      (List.range 21).map (fun i => eventAccount (s.g.heap.nodes i).event) = List.replicate 21 41)) (by decide +kernel)
  obtain ⟨h4, h5, h6, h7⟩ := of_decide_eq_true h3
  refine ⟨s, s', h1, h4, ?_, h6⟩
  rw [C79_accounts, h7, h5]
  exact h2

/-- The hypotheses of `C79_front_partial`: two events wait. -/
example : ∃ s : State, Reachable s ∧ CountersLow s ∧ s.g.heap.events.length = 2 ∧ ∀ i e, s.g.heap.atSlot i = some e → i < 21 := by
  obtain ⟨s, h1, h2⟩ := Scenario.exec_spec (a := Scenario.args) (ops := Scenario.ops1)
    (p := fun s => decide ((s.g.market.makerVolume < 2 ^ 127 ∧ s.g.market.feesAccrued < 2 ^ 127 ∧
      ∀ x ∈ s.g.accts, x.2.position.makerVolume < 2 ^ 127) ∧ s.g.heap.events.length = 2 ∧
      ∀ i ∈ List.range 600, s.g.heap.atSlot i ≠ none → i < 21)) (by decide +kernel)
  obtain ⟨⟨h3, h4, h5⟩, h6, h7⟩ := of_decide_eq_true h2
  refine ⟨s, h1, ⟨h3, h4, fun k a ha => h5 (k, a) (by obtain ⟨_, _, h, _⟩ := Accts.split ha; rw [h]; simp)⟩, h6, fun i e he => ?_⟩
  by_cases hi : i < 600
  · exact h7 i (List.mem_range.mpr hi) (by rw [he]; simp)
  · unfold EventHeap.atSlot at he
    rw [if_pos (.inl (by unfold maxNumEvents; omega))] at he
    cases he

/-- An event of account 42 is in the queue, and the slots to consume for 42 are none. -/
example : ∃ s : State, Reachable s ∧ (∃ e ∈ s.g.heap.events, eventAccount e = 42) ∧ Ts.getSlotsToConsume s.g.heap ⟨0, 42⟩ 1 = [] := by
  obtain ⟨s, h1, h2⟩ := Scenario.exec_spec (a := Scenario.args) (ops := Scenario.ops1)
    (p := fun s => decide (∃ e ∈ s.g.heap.events, eventAccount e = 42)) (by decide +kernel)
  exact ⟨s, h1, of_decide_eq_true h2, C79_no_slots _ _ _ (by decide)⟩

end OB
