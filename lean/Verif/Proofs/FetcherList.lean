import Verif.Proofs.Fetcher
/-! The account cache: the lists of accounts that it keeps are the newest ones. -/
namespace OB
open Spec Fetcher

variable {D : Type}

/-- What an event says about the lists before it. -/
def SaidList : Event D → List (Event D) → Prop
  | .asked (.program p), h => lastListed p h = none
  | .returned _ (.program p) (some l), h => lastListed p h = some (l.map (·.1))
  | _, _ => True

structure ListInv (h : List (Event D)) (s : AccountCache D) : Prop where
  said : Always SaidList h
  keys : ∀ p, s.keys p = lastListed p h

theorem lookup_keys {s : AccountCache D} {ks : List Pubkey} {l : List (Pubkey × D)} (h : lookup s ks = some l) : l.map (·.1) = ks := by
  induction ks generalizing l with
  | nil => injection h with h; subst h; rfl
  | cons k ks ih =>
    rw [lookup] at h
    cases h1 : s.accounts k with
    | none => simp [h1] at h
    | some d =>
      cases h2 : lookup s ks with
      | none => simp [h1, h2] at h
      | some l' =>
        simp only [h1, h2] at h
        injection h with h
        subst h
        rw [List.map_cons, ih h2]

theorem lastListed_returned (p : Prog) (cs : List Nat) (r : Req) (a : Answer D) (h : List (Event D)) :
    lastListed p ((cs.map (fun c => Event.returned c r a)) ++ h) = lastListed p h := by
  induction cs with
  | nil => rfl
  | cons c cs ih => exact ih

theorem ListInv.arrive {h : List (Event D)} {s s' : AccountCache D} (hi : ListInv h s) {r : Req} {ws : List Nat} {a : Answer D}
    (hk : ∀ p, s'.keys p = lastListed p (.answered r a :: h))
    (hl : ∀ p l, r = .program p → a = some l → lastListed p (.answered r a :: h) = some (l.map (·.1))) :
    ListInv ((Event.answered r a :: ws.map (fun c => .returned c r a)).reverse ++ h) s' := by
  rw [List.reverse_cons, List.append_assoc, List.singleton_append, ← List.map_reverse]
  refine ⟨?_, fun p => by rw [lastListed_returned]; exact hk p⟩
  generalize ws.reverse = cs
  induction cs with
  | nil => exact ⟨trivial, hi.said⟩
  | cons c cs ih =>
    refine ⟨?_, ih⟩
    change SaidList (.returned c r a) (cs.map (fun c => Event.returned c r a) ++ .answered r a :: h)
    cases r with
    | account k => cases a <;> trivial
    | program p =>
      cases a with
      | none => trivial
      | some l =>
        change lastListed p _ = _
        rw [lastListed_returned]
        exact hl p l rfl rfl

theorem ListInv.next {h : List (Event D)} {s s' : AccountCache D} {x : Step D} {es : List (Event D)} (hi : ListInv h s)
    (hn : Fetcher.next s x = some (s', es)) : ListInv (es.reverse ++ h) s' := by
  cases x with
  | fetch c k =>
    injection hn with hn
    unfold fetch at hn
    cases h1 : s.accounts k with
    | some d =>
      simp only [h1] at hn
      injection hn with e1 e2
      subst e1 e2
      exact ⟨⟨trivial, trivial, hi.said⟩, hi.keys⟩
    | none =>
      cases h2 : s.accountJobs k with
      | some ws =>
        simp only [h1, h2] at hn
        injection hn with e1 e2
        subst e1 e2
        exact ⟨⟨trivial, hi.said⟩, hi.keys⟩
      | none =>
        simp only [h1, h2] at hn
        injection hn with e1 e2
        subst e1 e2
        exact ⟨⟨trivial, trivial, hi.said⟩, hi.keys⟩
  | fetchProgram c p =>
    change Fetcher.fetchProgram s c p = _ at hn
    unfold Fetcher.fetchProgram at hn
    cases h1 : s.keys p with
    | some ks =>
      cases h2 : lookup s ks with
      | none => simp only [h1, h2] at hn; cases hn
      | some l =>
        simp only [h1, h2] at hn
        injection hn with hn
        injection hn with e1 e2
        subst e1 e2
        refine ⟨⟨?_, trivial, hi.said⟩, hi.keys⟩
        change lastListed p h = _
        rw [lookup_keys h2, ← h1, hi.keys]
    | none =>
      cases h2 : s.programJobs p with
      | some ws =>
        simp only [h1, h2] at hn
        injection hn with hn
        injection hn with e1 e2
        subst e1 e2
        exact ⟨⟨trivial, hi.said⟩, hi.keys⟩
      | none =>
        simp only [h1, h2] at hn
        injection hn with hn
        injection hn with e1 e2
        subst e1 e2
        refine ⟨⟨?_, trivial, hi.said⟩, hi.keys⟩
        change lastListed p h = _
        rw [← hi.keys, h1]
  | account k a =>
    cases h1 : s.accountJobs k with
    | none => rw [Fetcher.next, h1] at hn; cases hn
    | some ws =>
      rw [Fetcher.next, h1] at hn
      injection hn with hn
      injection hn with e1 e2
      subst e1 e2
      exact hi.arrive (r := .account k) (fun p => hi.keys p) (fun p l e => by cases e)
  | program p a =>
    cases h1 : s.programJobs p with
    | none => rw [Fetcher.next, h1] at hn; cases hn
    | some ws =>
      rw [Fetcher.next, h1] at hn
      injection hn with hn
      injection hn with e1 e2
      subst e1 e2
      refine hi.arrive (r := .program p) (fun p' => ?_) (fun p' l e1 e2 => ?_)
      · cases a with
        | none => exact hi.keys p'
        | some l =>
          simp only [put, lastListed]
          by_cases h2 : p' = p
          · rw [if_pos h2, if_pos h2.symm]
          · rw [if_neg h2, if_neg (fun e => h2 e.symm)]
            exact hi.keys p'
      · injection e1 with e1
        subst e1 e2
        simp [lastListed]
  | clear =>
    injection hn with hn
    injection hn with e1 e2
    subst e1 e2
    exact ⟨⟨trivial, hi.said⟩, fun _ => rfl⟩

theorem Fetcher.Runs.listInv {h : List (Event D)} {s : AccountCache D} (hr : Runs h s) : ListInv h s := by
  induction hr with
  | new => exact ⟨trivial, fun _ => rfl⟩
  | next h s s' x es _ hn ih => exact ih.next hn

end OB
