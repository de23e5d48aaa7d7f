import Verif.Spec.Fetcher
/-! The account cache: its state is a function of its history, and what each event says about the events before it. -/
namespace OB
open Spec Fetcher

variable {D : Type}

/-- `P` holds of every event and the events before it. -/
def Always (P : Event D → List (Event D) → Prop) : List (Event D) → Prop
  | [] => True
  | e :: h => P e h ∧ Always P h

theorem Always.at {P : Event D → List (Event D) → Prop} {post : List (Event D)} {e : Event D} {pre : List (Event D)}
    (h : Always P (post ++ e :: pre)) : P e pre := by
  induction post with
  | nil => exact h.1
  | cons x post ih => exact ih h.2

theorem Always.rest {P : Event D → List (Event D) → Prop} {post pre : List (Event D)} (h : Always P (post ++ pre)) : Always P pre := by
  induction post with
  | nil => exact h
  | cons x post ih => exact ih h.2

/-- The job for a request. -/
def job (s : AccountCache D) : Req → Option (List Nat)
  | .account k => s.accountJobs k
  | .program p => s.programJobs p

/-- Histories that differ only in events of callers say the same. -/
theorem lastGiven_returned (k : Pubkey) (cs : List Nat) (r : Req) (a : Answer D) (h : List (Event D)) :
    lastGiven k ((cs.map (fun c => Event.returned c r a)) ++ h) = lastGiven k h := by
  induction cs with
  | nil => rfl
  | cons c cs ih => exact ih

theorem pending_returned (r' : Req) (cs : List Nat) (r : Req) (a : Answer D) (h : List (Event D)) :
    pending r' ((cs.map (fun c => Event.returned c r a)) ++ h) = pending r' h := by
  induction cs with
  | nil => rfl
  | cons c cs ih => exact ih

theorem calls_returned (c' : Nat) (r' : Req) (cs : List Nat) (r : Req) (a : Answer D) (h : List (Event D)) :
    calls c' r' ((cs.map (fun c => Event.returned c r a)) ++ h) = calls c' r' h := by
  unfold calls
  induction cs with
  | nil => rfl
  | cons c cs ih => rw [List.map_cons, List.cons_append, List.countP_cons, ih]; simp

theorem returns_returned (c' : Nat) (r' : Req) (cs : List Nat) (r : Req) (a : Answer D) (h : List (Event D)) :
    returns c' r' ((cs.map (fun c => Event.returned c r a)) ++ h) = returns c' r' h + (if r = r' then cs.count c' else 0) := by
  unfold returns
  induction cs with
  | nil => simp
  | cons c cs ih =>
    rw [List.map_cons, List.cons_append, List.countP_cons, ih, List.count_cons]
    by_cases h1 : r = r' <;> by_cases h2 : c = c' <;> simp [h1, h2] <;> omega

/-- An answer is what its request asks for: for a single account, data of this account. -/
def Fitting : Req → Answer D → Prop
  | .account k, some l => ∃ d, l = [(k, d)]
  | _, _ => True

/-- What an event says about the events before it. -/
def Said : Event D → List (Event D) → Prop
  | .asked r, h => pending r h = false ∧ ∀ k, r = .account k → lastGiven k h = none
  | .answered r a, h => pending r h = true ∧ Fitting r a
  | .returned _ (.account k) (some l), h => ∃ d, l = [(k, d)] ∧ lastGiven k h = some d
  | .returned c r none, h => ∃ (cs : List Nat) (h' : List (Event D)), h = (cs.map (fun c => Event.returned c r none)) ++ .answered r none :: h' ∧ returns c r h < calls c r h
  | .returned _ (.program _) (some l), h =>
      (∀ x ∈ l, ∃ h1 r l' h2, h = h1 ++ .answered r (some l') :: h2 ∧ x ∈ l') ∧ ((l.map (·.1)).Nodup → ∀ x ∈ l, lastGiven x.1 h = some x.2)
  | _, _ => True

structure CacheInv (h : List (Event D)) (s : AccountCache D) : Prop where
  said : Always Said h
  accounts : ∀ k, s.accounts k = lastGiven k h
  keys : ∀ p ks, s.keys p = some ks → ∀ k ∈ ks, (s.accounts k).isSome = true
  jobs : ∀ r, (job s r).isSome = pending r h
  waits : ∀ r c, calls c r h = returns c r h + ((job s r).getD []).count c

theorem dataOf_mem {k : Pubkey} {l : List (Pubkey × D)} {d : D} (h : dataOf k l = some d) : (k, d) ∈ l := by
  induction l with
  | nil => cases h
  | cons x l ih =>
    obtain ⟨k', d'⟩ := x
    rw [dataOf] at h
    cases h1 : dataOf k l with
    | some d1 =>
      rw [h1] at h
      injection h with h
      subst h
      exact List.mem_cons_of_mem _ (ih h1)
    | none =>
      rw [h1] at h
      by_cases h2 : k' = k
      · rw [if_pos h2] at h
        injection h with h
        rw [← h, h2]
        exact List.mem_cons_self
      · rw [if_neg h2] at h; cases h

theorem dataOf_none {k : Pubkey} {l : List (Pubkey × D)} (h : k ∉ l.map (·.1)) : dataOf k l = none := by
  cases hd : dataOf k l with
  | none => rfl
  | some d => exact absurd (List.mem_map.mpr ⟨_, dataOf_mem hd, rfl⟩) h

theorem dataOf_nodup {l : List (Pubkey × D)} {x : Pubkey × D} (hd : (l.map (·.1)).Nodup) (hx : x ∈ l) : dataOf x.1 l = some x.2 := by
  induction l with
  | nil => cases hx
  | cons y l ih =>
    rw [List.map_cons, List.nodup_cons] at hd
    rw [dataOf]
    rcases List.mem_cons.mp hx with rfl | hx
    · rw [dataOf_none hd.1, if_pos rfl]; rfl
    · rw [ih hd.2 hx]; rfl

/-- What was given last since the last clearing was given by an answer since then. -/
theorem lastGiven_from {k : Pubkey} {d : D} (mid pre : List (Event D)) (h : lastGiven k (mid ++ .cleared :: pre) = some d) :
    ∃ h1 r l h2, mid = h1 ++ .answered r (some l) :: h2 ∧ (k, d) ∈ l := by
  induction mid with
  | nil => cases h
  | cons e mid ih =>
    have older : lastGiven k (mid ++ .cleared :: pre) = some d → ∃ h1 r l h2, e :: mid = h1 ++ .answered r (some l) :: h2 ∧ (k, d) ∈ l := by
      intro h
      obtain ⟨h1, r, l, h2, e1, e2⟩ := ih h
      exact ⟨e :: h1, r, l, h2, by rw [e1]; rfl, e2⟩
    cases e with
    | cleared => cases h
    | answered r a =>
      cases a with
      | none => exact older h
      | some l =>
        rw [List.cons_append, lastGiven] at h
        cases h1 : dataOf k l with
        | some d1 =>
          rw [h1] at h
          injection h with h
          rw [h] at h1
          exact ⟨[], r, l, mid, rfl, dataOf_mem h1⟩
        | none => rw [h1] at h; exact older h
    | called c r => exact older h
    | asked r => exact older h
    | returned c r a => exact older h

theorem lastGiven_mem {k : Pubkey} {d : D} (h : List (Event D)) (hl : lastGiven k h = some d) :
    ∃ h1 r l h2, h = h1 ++ .answered r (some l) :: h2 ∧ (k, d) ∈ l := by
  induction h with
  | nil => cases hl
  | cons e h ih =>
    have older : lastGiven k h = some d → ∃ h1 r l h2, e :: h = h1 ++ .answered r (some l) :: h2 ∧ (k, d) ∈ l := by
      intro hl
      obtain ⟨h1, r, l, h2, e1, e2⟩ := ih hl
      exact ⟨e :: h1, r, l, h2, by rw [e1]; rfl, e2⟩
    cases e with
    | cleared => cases hl
    | answered r a =>
      cases a with
      | none => exact older hl
      | some l =>
        rw [lastGiven] at hl
        cases h1 : dataOf k l with
        | some d1 =>
          rw [h1] at hl
          injection hl with hl
          rw [hl] at h1
          exact ⟨[], r, l, h, rfl, dataOf_mem h1⟩
        | none => rw [h1] at hl; exact older hl
    | called c r => exact older hl
    | asked r => exact older hl
    | returned c r a => exact older hl

/-- What is pending after some events has been asked in them or was pending before. -/
theorem pending_from {r : Req} (mid pre : List (Event D)) (h : pending r (mid ++ pre) = true) : .asked r ∈ mid ∨ pending r pre = true := by
  induction mid with
  | nil => exact .inr h
  | cons e mid ih =>
    have older : pending r (mid ++ pre) = true → .asked r ∈ e :: mid ∨ pending r pre = true := fun h =>
      (ih h).imp_left (List.mem_cons_of_mem _)
    cases e with
    | asked r' =>
      rw [List.cons_append, pending, Bool.or_eq_true, decide_eq_true_eq] at h
      rcases h with rfl | h
      · exact .inl List.mem_cons_self
      · exact older h
    | answered r' a =>
      rw [List.cons_append, pending, Bool.and_eq_true] at h
      exact older h.2
    | called c r => exact older h
    | cleared => exact older h
    | returned c r a => exact older h

theorem foldl_put (k : Pubkey) (l : List (Pubkey × D)) (m : Pubkey → Option D) :
    (l.foldl (fun m x => put m x.1 (some x.2)) m) k = (dataOf k l).or (m k) := by
  induction l generalizing m with
  | nil => rfl
  | cons x l ih =>
    obtain ⟨k', d⟩ := x
    rw [List.foldl_cons, ih, dataOf]
    cases dataOf k l with
    | some d1 => rfl
    | none =>
      by_cases h : k' = k
      · subst h; simp [put]
      · have h' : ¬ k = k' := fun e => h e.symm
        simp [put, h, h']

/-- The calls that an answer serves. -/
theorem always_returned {r : Req} {a : Answer D} {h : List (Event D)} (h0 : Always Said (.answered r a :: h)) (cs : List Nat)
    (hroom : ∀ c, returns c r h + cs.count c ≤ calls c r h) :
    Always Said ((cs.map (fun c => Event.returned c r a)) ++ .answered r a :: h) := by
  induction cs with
  | nil => exact h0
  | cons c cs ih =>
    have ih := ih (fun c' => by
      have := hroom c'
      rw [List.count_cons] at this
      omega)
    rw [List.map_cons, List.cons_append]
    refine ⟨?_, ih⟩
    cases a with
    | none =>
      have hc := hroom c
      rw [List.count_cons_self] at hc
      have e1 := calls_returned c r cs r (none : Answer D) (.answered r none :: h)
      have e2 := returns_returned c r cs r (none : Answer D) (.answered r none :: h)
      rw [if_pos rfl] at e2
      have e3 : calls c r (Event.answered r none :: h) = calls c r h := by simp [calls]
      have e4 : returns c r (Event.answered r none :: h) = returns c r h := by simp [returns]
      have key : ∃ (cs' : List Nat) (h' : List (Event D)), (cs.map (fun c => Event.returned c r none)) ++ .answered r none :: h =
          (cs'.map (fun c => Event.returned c r none)) ++ .answered r none :: h' ∧
          returns c r ((cs.map (fun c => Event.returned c r none)) ++ .answered r none :: h) <
            calls c r ((cs.map (fun c => Event.returned c r none)) ++ .answered r none :: h) :=
        ⟨cs, h, rfl, by omega⟩
      cases r <;> exact key
    | some l =>
      cases r with
      | account k =>
        obtain ⟨d, rfl⟩ : ∃ d, l = [(k, d)] := h0.1.2
        refine ⟨d, rfl, ?_⟩
        rw [lastGiven_returned, lastGiven]
        simp [dataOf]
      | program p =>
        refine ⟨fun x hx => ⟨_, _, _, _, rfl, hx⟩, fun hd x hx => ?_⟩
        rw [lastGiven_returned, lastGiven, dataOf_nodup hd hx]
        rfl

theorem lookup_some {s : AccountCache D} {ks : List Pubkey} (h : ∀ k ∈ ks, (s.accounts k).isSome = true) :
    ∃ l, lookup s ks = some l ∧ ∀ x ∈ l, s.accounts x.1 = some x.2 := by
  induction ks with
  | nil => exact ⟨[], rfl, by simp⟩
  | cons k ks ih =>
    obtain ⟨l, h1, h2⟩ := ih (fun k hk => h k (List.mem_cons_of_mem _ hk))
    obtain ⟨d, hd⟩ := Option.isSome_iff_exists.mp (h k List.mem_cons_self)
    refine ⟨(k, d) :: l, by rw [lookup, h1, hd], fun x hx => ?_⟩
    rcases List.mem_cons.mp hx with rfl | hx
    · exact hd
    · exact h2 x hx

theorem CacheInv.new : CacheInv [] (.new : AccountCache D) where
  said := trivial
  accounts _ := rfl
  keys _ _ h := by cases h
  jobs r := by cases r <;> rfl
  waits r c := by cases r <;> rfl

/-- An event of a caller that waits. -/
theorem calls_called (c' : Nat) (r' : Req) (c : Nat) (r : Req) (h : List (Event D)) :
    calls c' r' (.called c r :: h) = calls c' r' h + (if c = c' ∧ r = r' then 1 else 0) := by
  unfold calls; rw [List.countP_cons]; simp

theorem returns_called (c' : Nat) (r' : Req) (c : Nat) (r : Req) (h : List (Event D)) :
    returns c' r' (.called c r :: h) = returns c' r' h := by
  unfold returns; rw [List.countP_cons]; simp

theorem calls_asked (c' : Nat) (r' r : Req) (h : List (Event D)) : calls c' r' (.asked r :: h) = calls c' r' h := by
  unfold calls; rw [List.countP_cons]; simp

theorem returns_asked (c' : Nat) (r' r : Req) (h : List (Event D)) : returns c' r' (.asked r :: h) = returns c' r' h := by
  unfold returns; rw [List.countP_cons]; simp

theorem calls_answered (c' : Nat) (r' r : Req) (a : Answer D) (h : List (Event D)) : calls c' r' (.answered r a :: h) = calls c' r' h := by
  unfold calls; rw [List.countP_cons]; simp

theorem returns_answered (c' : Nat) (r' r : Req) (a : Answer D) (h : List (Event D)) :
    returns c' r' (.answered r a :: h) = returns c' r' h := by
  unfold returns; rw [List.countP_cons]; simp

theorem calls_cleared (c' : Nat) (r' : Req) (h : List (Event D)) : calls c' r' (.cleared :: h) = calls c' r' h := by
  unfold calls; rw [List.countP_cons]; simp

theorem returns_cleared (c' : Nat) (r' : Req) (h : List (Event D)) : returns c' r' (.cleared :: h) = returns c' r' h := by
  unfold returns; rw [List.countP_cons]; simp

/-- A call that is served at once. -/
theorem CacheInv.hit {h : List (Event D)} {s : AccountCache D} (hi : CacheInv h s) {c : Nat} {r : Req} {l : List (Pubkey × D)}
    (hs : Said (.returned c r (some l)) (.called c r :: h)) : CacheInv (.returned c r (some l) :: .called c r :: h) s where
  said := ⟨hs, trivial, hi.said⟩
  accounts k := hi.accounts k
  keys := hi.keys
  jobs r := hi.jobs r
  waits r' c' := by
    have e1 := calls_returned c' r' [c] r (some l) (.called c r :: h)
    have e2 := returns_returned c' r' [c] r (some l) (.called c r :: h)
    rw [List.map_singleton, List.singleton_append] at e1 e2
    rw [e1, e2, calls_called, returns_called, hi.waits r' c', List.count_singleton]
    by_cases h1 : r = r' <;> by_cases h2 : c = c' <;> simp [h1, h2] <;> omega

/-- A call that waits for a job that exists. -/
theorem CacheInv.join {h : List (Event D)} {s s' : AccountCache D} (hi : CacheInv h s) {c : Nat} {r : Req} {ws : List Nat}
    (ha : s'.accounts = s.accounts) (hk : s'.keys = s.keys) (hj : job s r = some ws)
    (hj' : ∀ r', job s' r' = if r' = r then some (ws ++ [c]) else job s r') : CacheInv (.called c r :: h) s' where
  said := ⟨trivial, hi.said⟩
  accounts k := by rw [ha]; exact hi.accounts k
  keys := by rw [ha, hk]; exact hi.keys
  jobs r' := by
    rw [hj']
    by_cases h1 : r' = r
    · rw [if_pos h1, h1]
      have := hi.jobs r
      rw [hj] at this
      exact this
    · rw [if_neg h1]; exact hi.jobs r'
  waits r' c' := by
    rw [calls_called, returns_called, hi.waits r' c', hj']
    by_cases h1 : r' = r
    · subst h1
      rw [if_pos rfl, hj]
      by_cases h2 : c = c' <;> simp [h2, List.count_append]
      omega
    · have h1' : ¬ r = r' := fun e => h1 e.symm
      simp [h1, h1']

/-- A call that starts a job. -/
theorem CacheInv.start {h : List (Event D)} {s s' : AccountCache D} (hi : CacheInv h s) {c : Nat} {r : Req}
    (ha : s'.accounts = s.accounts) (hk : s'.keys = s.keys) (hj : job s r = none) (hn : ∀ k, r = .account k → s.accounts k = none)
    (hj' : ∀ r', job s' r' = if r' = r then some [c] else job s r') : CacheInv (.asked r :: .called c r :: h) s' where
  said := by
    refine ⟨⟨?_, fun k hk => ?_⟩, trivial, hi.said⟩
    · have := hi.jobs r
      rw [hj] at this
      exact this.symm
    · rw [← hn k hk, hi.accounts]; rfl
  accounts k := by rw [ha]; exact hi.accounts k
  keys := by rw [ha, hk]; exact hi.keys
  jobs r' := by
    rw [hj']
    by_cases h1 : r' = r
    · simp [h1, pending]
    · have h1' : ¬ r = r' := fun e => h1 e.symm
      rw [if_neg h1, hi.jobs r']
      simp [pending, h1']
  waits r' c' := by
    rw [calls_asked, returns_asked, calls_called, returns_called, hi.waits r' c', hj']
    by_cases h1 : r' = r
    · subst h1
      rw [if_pos rfl, hj]
      by_cases h2 : c = c' <;> simp [h2]
    · have h1' : ¬ r = r' := fun e => h1 e.symm
      simp [h1, h1']

/-- A job ends. -/
theorem CacheInv.arrive {h : List (Event D)} {s s' : AccountCache D} (hi : CacheInv h s) {r : Req} {ws : List Nat} {a : Answer D}
    (hj : job s r = some ws) (hf : Fitting r a) (ha : ∀ k, s'.accounts k = (a.bind (dataOf k)).or (s.accounts k))
    (hk : ∀ p ks, s'.keys p = some ks → s.keys p = some ks ∨ ∃ l, a = some l ∧ ks = l.map (·.1))
    (hj' : ∀ r', job s' r' = if r' = r then none else job s r') :
    CacheInv ((Event.answered r a :: ws.map (fun c => .returned c r a)).reverse ++ h) s' := by
  have hp : pending r h = true := by rw [← hi.jobs r, hj]; rfl
  rw [List.reverse_cons, List.append_assoc, List.singleton_append, ← List.map_reverse]
  refine ⟨?_, fun k => ?_, fun p ks hks k hkk => ?_, fun r' => ?_, fun r' c' => ?_⟩
  · refine always_returned ⟨⟨hp, hf⟩, hi.said⟩ _ (fun c => ?_)
    rw [hi.waits r c, hj, List.count_reverse]
    exact Nat.le_refl _
  · rw [lastGiven_returned, ha, hi.accounts]
    cases a <;> rfl
  · rw [ha]
    rcases hk p ks hks with h1 | ⟨l, rfl, rfl⟩
    · have := hi.keys p ks h1 k hkk
      cases a.bind (dataOf k) with
      | none => exact this
      | some d => rfl
    · obtain ⟨⟨k', d⟩, hx, rfl⟩ := List.mem_map.mp hkk
      have : (dataOf k' l).isSome = true := by
        clear hf hk hkk hks hi ha
        induction l with
        | nil => cases hx
        | cons y l ih =>
          rw [dataOf]
          rcases List.mem_cons.mp hx with rfl | hx
          · cases dataOf k' l <;> simp
          · obtain ⟨d', hd⟩ := Option.isSome_iff_exists.mp (ih hx)
            rw [hd]; rfl
      obtain ⟨d', hd⟩ := Option.isSome_iff_exists.mp this
      simp only [Option.bind_some, hd]
      rfl
  · rw [pending_returned, hj']
    by_cases h1 : r' = r
    · simp [h1, pending]
    · have h1' : ¬ r = r' := fun e => h1 e.symm
      rw [if_neg h1, hi.jobs r']
      simp [pending, h1']
  · rw [calls_returned, returns_returned, calls_answered, returns_answered, hi.waits r' c', hj', List.count_reverse]
    by_cases h1 : r' = r
    · subst h1
      simp [hj]
    · have h1' : ¬ r = r' := fun e => h1 e.symm
      simp [h1, h1']

theorem CacheInv.clear {h : List (Event D)} {s : AccountCache D} (hi : CacheInv h s) : CacheInv (.cleared :: h) (Fetcher.clear s).1 where
  said := ⟨trivial, hi.said⟩
  accounts _ := rfl
  keys _ _ h := by cases h
  jobs r := by
    have := hi.jobs r
    cases r <;> exact this
  waits r c := by
    have := hi.waits r c
    rw [calls_cleared, returns_cleared, this]
    cases r <;> rfl

/-- A list of accounts that is cached can be looked up. -/
theorem CacheInv.lookup {h : List (Event D)} {s : AccountCache D} (hi : CacheInv h s) {p : Prog} {ks : List Pubkey} (hk : s.keys p = some ks) :
    ∃ l, Fetcher.lookup s ks = some l ∧ ∀ x ∈ l, s.accounts x.1 = some x.2 :=
  lookup_some (hi.keys p ks hk)

theorem CacheInv.next {h : List (Event D)} {s s' : AccountCache D} {x : Step D} {es : List (Event D)} (hi : CacheInv h s)
    (hn : Fetcher.next s x = some (s', es)) : CacheInv (es.reverse ++ h) s' := by
  cases x with
  | fetch c k =>
    injection hn with hn
    unfold fetch at hn
    cases h1 : s.accounts k with
    | some d =>
      simp only [h1] at hn
      injection hn with e1 e2
      subst e1 e2
      exact hi.hit ⟨d, rfl, by rw [← h1, hi.accounts]; rfl⟩
    | none =>
      cases h2 : s.accountJobs k with
      | some ws =>
        simp only [h1, h2] at hn
        injection hn with e1 e2
        subst e1 e2
        refine hi.join (ws := ws) rfl rfl h2 (fun r' => ?_)
        cases r' <;> simp [job, put]
      | none =>
        simp only [h1, h2] at hn
        injection hn with e1 e2
        subst e1 e2
        refine hi.start rfl rfl h2 (fun k' e => by injection e with e; rw [← e]; exact h1) (fun r' => ?_)
        cases r' <;> simp [job, put]
  | fetchProgram c p =>
    change Fetcher.fetchProgram s c p = _ at hn
    unfold Fetcher.fetchProgram at hn
    cases h1 : s.keys p with
    | some ks =>
      obtain ⟨l, h2, h3⟩ := hi.lookup h1
      simp only [h1, h2] at hn
      injection hn with hn
      injection hn with e1 e2
      subst e1 e2
      refine hi.hit ⟨fun x hx => ?_, fun _ x hx => by rw [← h3 x hx, hi.accounts]; rfl⟩
      have h4 := h3 x hx
      rw [hi.accounts] at h4
      obtain ⟨h5, r, l', h6, e1, e2⟩ := lastGiven_mem h h4
      exact ⟨.called c (.program p) :: h5, r, l', h6, by rw [e1]; rfl, e2⟩
    | none =>
      cases h2 : s.programJobs p with
      | some ws =>
        simp only [h1, h2] at hn
        injection hn with hn
        injection hn with e1 e2
        subst e1 e2
        refine hi.join (ws := ws) rfl rfl h2 (fun r' => ?_)
        cases r' <;> simp [job, put]
      | none =>
        simp only [h1, h2] at hn
        injection hn with hn
        injection hn with e1 e2
        subst e1 e2
        refine hi.start rfl rfl h2 (fun k' e => by cases e) (fun r' => ?_)
        cases r' <;> simp [job, put]
  | account k a =>
    cases h1 : s.accountJobs k with
    | none => rw [Fetcher.next, h1] at hn; cases hn
    | some ws =>
      rw [Fetcher.next, h1] at hn
      injection hn with hn
      injection hn with e1 e2
      subst e1 e2
      refine hi.arrive (r := .account k) h1 ?_ (fun k' => ?_) (fun p ks h => .inl h) (fun r' => ?_)
      · cases a with
        | none => trivial
        | some d => exact ⟨d, rfl⟩
      · cases a with
        | none => rfl
        | some d =>
          by_cases h : k = k'
          · subst h; simp [put, dataOf]
          · have h' : ¬ k' = k := fun e => h e.symm
            simp [put, dataOf, h, h']
      · cases r' <;> simp [job, put]
  | program p a =>
    cases h1 : s.programJobs p with
    | none => rw [Fetcher.next, h1] at hn; cases hn
    | some ws =>
      rw [Fetcher.next, h1] at hn
      injection hn with hn
      injection hn with e1 e2
      subst e1 e2
      refine hi.arrive (r := .program p) h1 ?_ (fun k' => ?_) (fun p' ks h => ?_) (fun r' => ?_)
      · cases a <;> trivial
      · cases a with
        | none => rfl
        | some l => exact foldl_put k' l s.accounts
      · cases a with
        | none => exact .inl h
        | some l =>
          simp only [put] at h
          by_cases h2 : p' = p
          · rw [if_pos h2] at h
            injection h with h
            exact .inr ⟨l, rfl, h.symm⟩
          · rw [if_neg h2] at h
            exact .inl h
      · cases r' <;> simp [job, put]
  | clear =>
    injection hn with hn
    injection hn with e1 e2
    subst e1 e2
    exact hi.clear

theorem Fetcher.Runs.inv {h : List (Event D)} {s : AccountCache D} (hr : Runs h s) : CacheInv h s := by
  induction hr with
  | new => exact .new
  | next h s s' x es _ hn ih => exact ih.next hn

/-- Without clearing and without lists of accounts, an account is never asked for again once its data is known, and every call gets this data. -/
theorem said_frozen {h : List (Event D)} (hs : Always Said h) (hc : Event.cleared ∉ h) (hp : ∀ p, Event.asked (.program p) ∉ h) (k : Pubkey) :
    (∀ p, pending (.program p) h = false) ∧
    (∀ d, lastGiven k h = some d → pending (.account k) h = false) ∧
    (∀ c d, Event.returned c (.account k) (some [(k, d)]) ∈ h → lastGiven k h = some d) := by
  induction h with
  | nil => exact ⟨fun _ => rfl, fun _ h => (by cases h), fun _ _ h => (by cases h)⟩
  | cons e h ih =>
    obtain ⟨h1, h2, h3⟩ := ih hs.2 (fun hm => hc (List.mem_cons_of_mem _ hm)) (fun p hm => hp p (List.mem_cons_of_mem _ hm))
    cases e with
    | called c r =>
      refine ⟨h1, h2, fun c d hm => ?_⟩
      rcases List.mem_cons.mp hm with e | hm
      · cases e
      · exact h3 c d hm
    | cleared => exact absurd List.mem_cons_self hc
    | returned c r a =>
      refine ⟨h1, h2, fun c d hm => ?_⟩
      rcases List.mem_cons.mp hm with e | hm
      · injection e with e1 e2 e3
        subst e1 e2 e3
        obtain ⟨d', e4, e5⟩ := hs.1
        injection e4 with e4 _
        injection e4 with _ e4
        rw [e4]; exact e5
      · exact h3 c d hm
    | asked r =>
      cases r with
      | program p => exact absurd List.mem_cons_self (hp p)
      | account k' =>
        refine ⟨fun p => by simpa [pending] using h1 p, fun d hd => ?_, fun c d hm => ?_⟩
        · have hd : lastGiven k h = some d := hd
          have hne : ¬ Req.account k' = Req.account k := by
            intro e
            injection e with e
            have := hs.1.2 k' rfl
            rw [e, hd] at this
            cases this
          rw [pending, h2 d hd, decide_eq_false hne]
          rfl
        · rcases List.mem_cons.mp hm with e | hm
          · cases e
          · exact h3 c d hm
    | answered r a =>
      cases r with
      | program p =>
        have := hs.1.1
        rw [h1 p] at this
        cases this
      | account k' =>
        obtain ⟨hpend, hf⟩ := hs.1
        refine ⟨fun p => by simpa [pending] using h1 p, fun d hd => ?_, fun c d hm => ?_⟩
        · by_cases hk : k' = k
          · simp [pending, hk]
          · have hd : lastGiven k h = some d := by
              cases a with
              | none => exact hd
              | some l =>
                obtain ⟨d', rfl⟩ := hf
                simpa [lastGiven, dataOf, hk] using hd
            rw [pending, h2 d hd, Bool.and_false]
        · rcases List.mem_cons.mp hm with e | hm
          · cases e
          · have hl := h3 c d hm
            have hk : ¬ k' = k := by
              intro e
              rw [e, h2 d hl] at hpend
              cases hpend
            cases a with
            | none => exact hl
            | some l =>
              obtain ⟨d', rfl⟩ := hf
              simpa [lastGiven, dataOf, hk] using hl

/-- Running a list of steps. -/
def Fetcher.play : List (Step D) → Option (List (Event D) × AccountCache D) → Option (List (Event D) × AccountCache D)
  | [], o => o
  | x :: xs, o => play xs (o.bind (fun hs => (Fetcher.next hs.2 x).map (fun r => (r.2.reverse ++ hs.1, r.1))))

theorem Fetcher.play_runs (xs : List (Step D)) (o : Option (List (Event D) × AccountCache D)) (ho : ∀ h s, o = some (h, s) → Runs h s) :
    ∀ h s, play xs o = some (h, s) → Runs h s := by
  induction xs generalizing o with
  | nil => exact ho
  | cons x xs ih =>
    refine ih _ (fun h s e => ?_)
    cases o with
    | none => cases e
    | some hs =>
      obtain ⟨h0, s0⟩ := hs
      rw [Option.bind_some, Option.map_eq_some_iff] at e
      obtain ⟨⟨s', es⟩, e1, e2⟩ := e
      injection e2 with e2 e3
      subst e2 e3
      exact .next h0 s0 _ x es (ho _ _ rfl) e1

/-- The history of a list of steps from the empty cache. -/
theorem Fetcher.runs_of_play (xs : List (Step D)) (h : List (Event D)) (e : (Fetcher.play xs (some ([], .new))).map (·.1) = some h) :
    ∃ s, Runs h s := by
  rw [Option.map_eq_some_iff] at e
  obtain ⟨⟨h', s⟩, e1, e2⟩ := e
  refine ⟨s, play_runs xs _ (fun h0 s0 e0 => ?_) h s (by rw [e1]; exact congrArg some (congrArg (·, s) e2))⟩
  injection e0 with e0
  injection e0 with e3 e4
  subst e3 e4
  exact .new

end OB
