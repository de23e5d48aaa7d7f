import Verif.Model.Watcher
/-! Objects that are watched. -/
namespace OB.Watcher
open Layout

theorem call_objs (disc : String → Bytes) (data : Bytes) (s : Session) (i : Nat) : (s.call disc data i).objs = s.objs := by
  unfold Session.call; split <;> rfl

theorem call_rest (disc : String → Bytes) (data : Bytes) (s : Session) (i : Nat) :
    (s.call disc data i).subs = s.subs ∧ (s.call disc data i).nextId = s.nextId ∧ (s.call disc data i).accountSubs = s.accountSubs := by
  unfold Session.call; split <;> exact ⟨rfl, rfl, rfl⟩

theorem fold_rest (disc : String → Bytes) (data : Bytes) (l : List Nat) (s : Session) :
    (l.foldl (Session.call disc data) s).objs = s.objs ∧ (l.foldl (Session.call disc data) s).subs = s.subs ∧
    (l.foldl (Session.call disc data) s).nextId = s.nextId ∧ (l.foldl (Session.call disc data) s).accountSubs = s.accountSubs := by
  induction l generalizing s with
  | nil => exact ⟨rfl, rfl, rfl, rfl⟩
  | cons a l ih =>
    obtain ⟨h1, h2, h3, h4⟩ := ih (s.call disc data a)
    obtain ⟨g1, g2, g3⟩ := call_rest disc data s a
    rw [List.foldl_cons]
    exact ⟨h1.trans (call_objs ..), h2.trans g1, h3.trans g2, h4.trans g3⟩

/-- An object is changed only by its own callbacks. -/
theorem fold_other (disc : String → Bytes) (data : Bytes) (l : List Nat) (s : Session) {i : Nat} (h : i ∉ l) :
    (l.foldl (Session.call disc data) s).held i = s.held i := by
  induction l generalizing s with
  | nil => rfl
  | cons a l ih =>
    rw [List.foldl_cons, ih _ (fun hh => h (List.mem_cons_of_mem _ hh))]
    unfold Session.call
    split
    · simp only
      rw [if_neg (fun e => h (by rw [e]; exact List.mem_cons_self))]
    · rfl

/-- If a callback of the object computes `y`, the object holds `y` when all callbacks are done. -/
theorem fold_mine (disc : String → Bytes) (data : Bytes) (l : List Nat) (s : Session) {i : Nat} (h : i ∈ l) {y : Held}
    (hy : decodeFor disc (s.objs i).kind data = .ok y) : (l.foldl (Session.call disc data) s).held i = y := by
  induction l generalizing s with
  | nil => cases h
  | cons a l ih =>
    rw [List.foldl_cons]
    have hy' : decodeFor disc ((s.call disc data a).objs i).kind data = .ok y := by rw [call_objs]; exact hy
    by_cases hl : i ∈ l
    · exact ih _ hl hy'
    · rw [fold_other _ _ _ _ hl]
      rcases List.mem_cons.mp h with rfl | h
      · unfold Session.call
        rw [hy]
        simp
      · exact absurd h hl

/-- If no callback of the object computes anything, the object stays. -/
theorem fold_fail (disc : String → Bytes) (data : Bytes) (l : List Nat) (s : Session) {i : Nat} {e : Ts.JsErr}
    (hy : decodeFor disc (s.objs i).kind data = .error e) : (l.foldl (Session.call disc data) s).held i = s.held i := by
  induction l generalizing s with
  | nil => rfl
  | cons a l ih =>
    rw [List.foldl_cons, ih _ (by rw [call_objs]; exact hy)]
    by_cases ha : a = i
    · subst ha
      unfold Session.call
      rw [hy]
    · unfold Session.call
      split
      · simp only
        rw [if_neg (fun e => ha e.symm)]
      · rfl

theorem act_objs (disc : String → Bytes) (s : Session) (a : Action) : (s.act disc a).objs = s.objs := by
  cases a with
  | add i => rfl
  | notify k data => exact (fold_rest ..).1
  | clear => rfl

theorem run_cons (disc : String → Bytes) (s : Session) (a : Action) (l : List Action) : s.run disc (a :: l) = (s.act disc a).run disc l := rfl

theorem run_append (disc : String → Bytes) (s : Session) (l l' : List Action) : s.run disc (l ++ l') = (s.run disc l).run disc l' := by
  unfold Session.run; rw [List.foldl_append]

theorem run_objs (disc : String → Bytes) (s : Session) (l : List Action) : (s.run disc l).objs = s.objs := by
  induction l generalizing s with
  | nil => rfl
  | cons a l ih => rw [run_cons, ih, act_objs]

/-- The object has a callback. -/
def Watched (s : Session) (i : Nat) : Prop := ∃ x ∈ s.subs, x.obj = i

theorem watched_add (s : Session) (i : Nat) : Watched (s.add i) i := ⟨{ id := s.nextId, obj := i }, by simp [Session.add], rfl⟩

theorem watched_run {disc : String → Bytes} {s : Session} {i : Nat} (h : Watched s i) {l : List Action} (hl : ∀ a ∈ l, a ≠ .clear) :
    Watched (s.run disc l) i := by
  induction l generalizing s with
  | nil => exact h
  | cons a l ih =>
    rw [run_cons]
    refine ih ?_ (fun b hb => hl b (List.mem_cons_of_mem _ hb))
    obtain ⟨x, h1, h2⟩ := h
    cases a with
    | add j => exact ⟨x, by simp [Session.act, Session.add, h1], h2⟩
    | notify k data => exact ⟨x, by show x ∈ (Session.notify disc s k data).subs; unfold Session.notify; rw [(fold_rest ..).2.1]; exact h1, h2⟩
    | clear => exact absurd rfl (hl _ List.mem_cons_self)

theorem notify_mine {disc : String → Bytes} {s : Session} {i : Nat} (h : Watched s i) {data : Bytes} {y : Held}
    (hy : decodeFor disc (s.objs i).kind data = .ok y) : (s.notify disc (s.objs i).pubkey data).held i = y := by
  obtain ⟨x, h1, h2⟩ := h
  refine fold_mine _ _ _ _ (List.mem_map.mpr ⟨x, List.mem_filter.mpr ⟨h1, ?_⟩, h2⟩) hy
  rw [h2, beq_self_eq_true]

theorem notify_other {disc : String → Bytes} {s : Session} {i : Nat} {k : Pubkey} (h : k ≠ (s.objs i).pubkey) (data : Bytes) :
    (s.notify disc k data).held i = s.held i := by
  refine fold_other _ _ _ _ (fun hm => ?_)
  obtain ⟨x, h1, h2⟩ := List.mem_map.mp hm
  have h3 := (List.mem_filter.mp h1).2
  rw [h2, beq_iff_eq] at h3
  exact h h3.symm

theorem run_other {disc : String → Bytes} {s : Session} {i : Nat} {l : List Action}
    (h : ∀ k data, Action.notify k data ∈ l → k ≠ (s.objs i).pubkey) : (s.run disc l).held i = s.held i := by
  induction l generalizing s with
  | nil => rfl
  | cons a l ih =>
    rw [run_cons, ih (fun k data hm => by rw [act_objs]; exact h k data (List.mem_cons_of_mem _ hm))]
    cases a with
    | add j => rfl
    | notify k data => exact notify_other (h k data List.mem_cons_self) data
    | clear => rfl

/-! ### stopping -/

theorem notify_rest (disc : String → Bytes) (s : Session) (k : Pubkey) (data : Bytes) :
    (s.notify disc k data).objs = s.objs ∧ (s.notify disc k data).subs = s.subs ∧ (s.notify disc k data).nextId = s.nextId ∧
    (s.notify disc k data).accountSubs = s.accountSubs := fold_rest ..

/-- The addresses that are added. -/
def added (objs : Nat → Obj) (l : List Action) : List Pubkey :=
  l.filterMap (fun a => match a with
    | .add i => some (objs i).pubkey
    | _ => none)

/-- Each subscription is the one that is noted for its address. -/
def Noted (s : Session) : Prop := ∀ x ∈ s.subs, s.accountSubs (s.objs x.obj).pubkey = some x.id

theorem noted_run {disc : String → Bytes} {s : Session} {l : List Action} (h : Noted s) (hd : (added s.objs l).Nodup)
    (hn : ∀ x ∈ s.subs, (s.objs x.obj).pubkey ∉ added s.objs l) : Noted (s.run disc l) := by
  induction l generalizing s with
  | nil => exact h
  | cons a l ih =>
    rw [run_cons]
    have ho := act_objs disc s a
    cases a with
    | add i =>
      have hd' : ((s.objs i).pubkey :: added s.objs l).Nodup := hd
      have hn' : ∀ x ∈ s.subs, (s.objs x.obj).pubkey ∉ (s.objs i).pubkey :: added s.objs l := hn
      have hcases : ∀ x ∈ (s.add i).subs, x ∈ s.subs ∨ x = { id := s.nextId, obj := i } := fun x hx => by
        have hx' : x ∈ s.subs ++ [{ id := s.nextId, obj := i }] := hx
        rcases List.mem_append.mp hx' with hx' | hx'
        · exact .inl hx'
        · exact .inr (List.mem_singleton.mp hx')
      refine ih (s := s.add i) (fun x hx => ?_) (List.nodup_cons.mp hd').2 (fun x hx => ?_)
      · show (if (s.objs x.obj).pubkey = (s.objs i).pubkey then some s.nextId else s.accountSubs (s.objs x.obj).pubkey) = some x.id
        rcases hcases x hx with hx | rfl
        · rw [if_neg (fun e => hn' x hx (by rw [e]; exact List.mem_cons_self))]
          exact h x hx
        · rw [if_pos rfl]
      · show (s.objs x.obj).pubkey ∉ added s.objs l
        rcases hcases x hx with hx | rfl
        · exact fun hm => hn' x hx (List.mem_cons_of_mem _ hm)
        · exact (List.nodup_cons.mp hd').1
    | notify k data =>
      obtain ⟨h1, h2, -, h4⟩ := notify_rest disc s k data
      refine ih (s := s.notify disc k data) (fun x hx => ?_) (by rw [h1]; exact hd) (fun x hx => ?_)
      · rw [h2] at hx; rw [h1, h4]; exact h x hx
      · rw [h2] at hx; rw [h1]; exact hn x hx
    | clear =>
      refine ih (s := s.clear) (fun x hx => h x (List.mem_filter.mp hx).1) hd (fun x hx => hn x (List.mem_filter.mp hx).1)

theorem noted_clear {s : Session} (h : Noted s) : s.clear.subs = [] := by
  refine List.filter_eq_nil_iff.mpr (fun x hx => ?_)
  rw [h x hx]
  simp

theorem notify_none {disc : String → Bytes} {s : Session} (h : s.subs = []) (k : Pubkey) (data : Bytes) : s.notify disc k data = s := by
  unfold Session.notify
  rw [h]
  rfl

end OB.Watcher
