import Verif.Model.TsConsume
/-! The key objects that the TypeScript library makes from the nodes of the heap. -/
namespace OB
/-- The objects that decoding the nodes makes, one after the other. -/
def keyObjs (h : EventHeap) : List Nat → Nat → List Ts.KeyObj
  | [], _ => []
  | i :: is, next => Ts.eventKey next (h.nodes i).event :: keyObjs h is (next + 1)

theorem eventKey_id (n : Nat) (e : Event) : (Ts.eventKey n e).id = n := by cases e <;> rfl

theorem keyObjs_ids (h : EventHeap) (is : List Nat) (n : Nat) : ∀ a ∈ keyObjs h is n, n ≤ a.id := by
  induction is generalizing n with
  | nil => intro a ha; cases ha
  | cons i is ih =>
    intro a ha
    rcases List.mem_cons.mp ha with e | ha
    · exact Nat.le_of_eq (by rw [e, eventKey_id])
    · have := ih (n + 1) a ha; omega

theorem keyObjs_nodup (h : EventHeap) (is : List Nat) (n : Nat) : (keyObjs h is n).Nodup := by
  induction is generalizing n with
  | nil => exact List.nodup_nil
  | cons i is ih =>
    refine List.nodup_cons.mpr ⟨fun hm => ?_, ih (n + 1)⟩
    have := keyObjs_ids h is (n + 1) _ hm
    rw [eventKey_id] at this
    omega

theorem accountsLoop_keyObjs (h : EventHeap) (is : List Nat) (n : Nat) (acc : List Ts.KeyObj) (ha : ∀ a ∈ acc, a.id < n) (hl : acc.length ≤ 20) :
    Ts.accountsLoop h is n acc = acc ++ keyObjs h (is.take (21 - acc.length)) n := by
  induction is generalizing n acc with
  | nil => simp [Ts.accountsLoop, keyObjs]
  | cons i is ih =>
    have hf : acc.filter (fun a => a.id ≠ (Ts.eventKey n (h.nodes i).event).id) = acc := List.filter_eq_self.mpr (fun a hm => by
      have := ha a hm
      rw [eventKey_id, decide_eq_true_eq]; omega)
    obtain ⟨m, hm⟩ : ∃ m, 21 - acc.length = m + 1 := ⟨20 - acc.length, by omega⟩
    rw [hm, List.take_succ_cons, keyObjs]
    unfold Ts.accountsLoop
    simp only [hf]
    split
    · rename_i hgt
      rw [List.length_append, List.length_singleton] at hgt
      have : m = 0 := by omega
      subst this
      simp [keyObjs]
    · rename_i hgt
      rw [List.length_append, List.length_singleton] at hgt
      rw [ih (n + 1) _ (by
        intro a hx
        rcases List.mem_append.mp hx with hx | hx
        · have := ha a hx; omega
        · rw [List.mem_singleton.mp hx, eventKey_id]; omega) (by rw [List.length_append, List.length_singleton]; omega)]
      rw [List.length_append, List.length_singleton, List.append_assoc]
      have : 21 - (acc.length + 1) = m := by omega
      rw [this]; rfl

theorem eraseDups_nodup {α : Type} [DecidableEq α] (l : List α) (h : l.Nodup) : l.eraseDups = l := by
  induction l with
  | nil => rfl
  | cons a l ih =>
    rw [List.nodup_cons] at h
    rw [List.eraseDups_cons, List.filter_eq_self.mpr (fun b hb => by
      have : b ≠ a := fun e => h.1 (e ▸ hb)
      simp [this]), ih h.2]

theorem keyObjs_keys (h : EventHeap) (is : List Nat) (n m : Nat) :
    (keyObjs h is n).map (·.key) = is.map (fun i => (Ts.eventKey m (h.nodes i).event).key) := by
  induction is generalizing n with
  | nil => rfl
  | cons i is ih =>
    rw [keyObjs, List.map_cons, List.map_cons, ih (n + 1)]
    congr 1
    cases (h.nodes i).event <;> rfl

theorem keyObjs_take (h : EventHeap) (is : List Nat) (n k : Nat) : (keyObjs h is n).take k = keyObjs h (is.take k) n := by
  induction is generalizing n k with
  | nil => simp [keyObjs]
  | cons i is ih =>
    cases k with
    | zero => rfl
    | succ k => rw [keyObjs, List.take_succ_cons, List.take_succ_cons, keyObjs, ih]

end OB
