import Verif.Spec.Snapshot
import Verif.Props.C71_ChainData
/-!
C104  After a snapshot the client's cache shows every account at least as new as the snapshot.
Holds for the accounts that exist, once the cache knows the root; an account that was closed stays in the cache for good.
-/
namespace OB
open Spec Cache Snap

variable {α : Type} {chain : Nat → Nat → Option α} {ours : Nat → Nat → Prop} {gpa : Gpa α} {answers : List (List Nat × Option (Gma α))}
  {oracles : List Nat} {ws : List (Nat × Write α)} {h : List (Msg α)} {c c' : ChainData α}

theorem mapM_mem {β γ : Type} {f : β → Option γ} {l : List β} {r : List γ} (h : l.mapM f = some r) :
    (∀ y, y ∈ r ↔ ∃ x ∈ l, f x = some y) ∧ ∀ x ∈ l, ∃ y, f x = some y := by
  induction l generalizing r with
  | nil => cases h; simp
  | cons x l ih =>
    simp only [List.mapM_cons, bind, Option.bind_eq_some_iff, pure, Option.some.injEq] at h
    obtain ⟨y, h1, r', h2, rfl⟩ := h
    obtain ⟨i1, i2⟩ := ih h2
    constructor
    · intro z
      rw [List.mem_cons, i1]
      constructor
      · rintro (rfl | ⟨x', hx', e⟩)
        · exact ⟨x, List.mem_cons_self, h1⟩
        · exact ⟨x', List.mem_cons_of_mem _ hx', e⟩
      · rintro ⟨x', hx', e⟩
        rcases List.mem_cons.mp hx' with rfl | hx'
        · rw [h1] at e; exact .inl (Option.some.inj e).symm
        · exact .inr ⟨x', hx', e⟩
    · intro z hz
      rcases List.mem_cons.mp hz with rfl | hz
      · exact ⟨y, h1⟩
      · exact i2 z hz

theorem fromGpa_mem {l : List (Nat × Write α)} (h : fromGpa gpa = some l) (k : Nat) (w : Write α) :
    (k, w) ∈ l ↔ (k, some w.account) ∈ gpa.value ∧ w.slot = gpa.slot := by
  rw [(mapM_mem h).1]
  constructor
  · rintro ⟨⟨k', o⟩, hx, e⟩
    simp only [Option.map_eq_some_iff] at e
    obtain ⟨d, rfl, e⟩ := e
    cases e
    exact ⟨hx, rfl⟩
  · rintro ⟨hx, e⟩
    exact ⟨_, hx, by simp only [Option.map_some, ← e]⟩

theorem fromGma_mem {keys : List Nat} {r : Gma α} (hr : r.value = keys.map (fun k => (chain r.slot k).map some)) {l : List (Nat × Write α)}
    (h : fromGma keys r = some l) (k : Nat) (w : Write α) :
    (k, w) ∈ l ↔ k ∈ keys ∧ chain r.slot k = some w.account ∧ w.slot = r.slot := by
  rw [(mapM_mem h).1]
  have hz : ∀ k o, (k, o) ∈ (keys.zip r.value).filterMap (fun x => x.2.map (fun d => (x.1, d))) ↔
      k ∈ keys ∧ ∃ d, chain r.slot k = some d ∧ o = some d := by
    intro k o
    rw [hr]
    simp only [List.zip_map_right, List.mem_filterMap, List.mem_map, Option.map_eq_some_iff]
    constructor
    · rintro ⟨_, ⟨⟨a, b⟩, hab, rfl⟩, d, e1, e2⟩
      have : a = b := by
        clear e1 e2 hr h
        induction keys with
        | nil => cases hab
        | cons y ys ih =>
          simp only [List.zip_cons_cons, List.mem_cons] at hab
          rcases hab with hab | hab
          · cases hab; rfl
          · exact ih hab
      subst this
      cases e2
      simp only [Prod.map, id_eq, Option.map_eq_some_iff] at e1
      obtain ⟨d', e1, e2⟩ := e1
      exact ⟨(List.of_mem_zip hab).1, d', e1, e2.symm⟩
    · rintro ⟨hk, d, e1, rfl⟩
      refine ⟨(k, some (some d)), ⟨(k, k), ?_, by simp [Prod.map, e1]⟩, some d, rfl, rfl⟩
      clear hr h e1
      induction keys with
      | nil => cases hk
      | cons y ys ih =>
        simp only [List.zip_cons_cons, List.mem_cons]
        rcases List.mem_cons.mp hk with rfl | hk
        · exact .inl rfl
        · exact .inr (ih hk)
  constructor
  · rintro ⟨⟨k', o⟩, hx, e⟩
    obtain ⟨h1, d, h2, rfl⟩ := (hz _ _).mp hx
    simp only [Option.map_some, Option.some.injEq, Prod.mk.injEq] at e
    obtain ⟨rfl, rfl⟩ := e
    exact ⟨h1, h2, rfl⟩
  · rintro ⟨h1, h2, h3⟩
    exact ⟨_, (hz _ _).mpr ⟨h1, _, h2, rfl⟩, by simp only [Option.map_some, ← h3]⟩

/-- A snapshot that is sent holds every account of the program, and every oracle that exists, with the contents at the slot of its answer;
and nothing else. -/
theorem C104_complete (ht : Truthful chain ours gpa answers) (ho : RequestsFor oracles answers) (hf : feed (some gpa) answers = some ws) :
    (∀ k d, ours gpa.slot k → chain gpa.slot k = some d → (k, ⟨gpa.slot, d⟩) ∈ ws) ∧
    (∀ k ∈ oracles, ∃ slot, ∀ d, chain slot k = some d → (k, ⟨slot, d⟩) ∈ ws) ∧
    (∀ k w, (k, w) ∈ ws → chain w.slot k = some w.account ∧ (ours gpa.slot k ∧ w.slot = gpa.slot ∨ k ∈ oracles)) := by
  unfold feed at hf
  simp only [bind, Option.bind_eq_some_iff, pure, Option.some.injEq] at hf
  obtain ⟨r, rfl, a, ha, b, hb, rfl⟩ := hf
  obtain ⟨b1, b2⟩ := mapM_mem hb
  have hgma : ∀ x ∈ answers, ∃ r l, x.2 = some r ∧ fromGma x.1 r = some l ∧ l ∈ b := by
    intro x hx
    obtain ⟨l, hl⟩ := b2 x hx
    obtain ⟨r, e1, e2⟩ := Option.bind_eq_some_iff.mp hl
    exact ⟨r, l, e1, e2, (b1 l).mpr ⟨x, hx, hl⟩⟩
  refine ⟨?_, ?_, ?_⟩
  · intro k d h1 h2
    exact List.mem_append_left _ ((fromGpa_mem ha _ _).mpr ⟨(ht.program k d).mpr ⟨h1, h2⟩, rfl⟩)
  · intro k hk
    obtain ⟨⟨keys, o⟩, hx, hk⟩ := (ho k).mp hk
    obtain ⟨r, l, e1, e2, e3⟩ := hgma _ hx
    cases e1
    refine ⟨r.slot, fun d hd => List.mem_append_right _ (List.mem_flatten.mpr ⟨l, e3, ?_⟩)⟩
    exact (fromGma_mem (ht.multiple _ _ hx) e2 _ _).mpr ⟨hk, hd, rfl⟩
  · intro k w hw
    rcases List.mem_append.mp hw with hw | hw
    · obtain ⟨h1, h2⟩ := (fromGpa_mem ha _ _).mp hw
      obtain ⟨h3, h4⟩ := (ht.program _ _).mp h1
      exact ⟨by rw [h2]; exact h4, .inl ⟨h3, h2⟩⟩
    · obtain ⟨l, hl, hw⟩ := List.mem_flatten.mp hw
      obtain ⟨⟨keys, o⟩, hx, e⟩ := (b1 l).mp hl
      obtain ⟨r, e1, e2⟩ := Option.bind_eq_some_iff.mp e
      simp only at e1
      subst e1
      obtain ⟨h1, h2, h3⟩ := (fromGma_mem (ht.multiple _ _ hx) e2 _ _).mp hw
      exact ⟨by rw [h3]; exact h2, .inr ((ho k).mpr ⟨_, hx, h1⟩)⟩

/-- If a request fails, or one account of an answer cannot be decoded, nothing is sent, not a part. -/
theorem C104_whole {gpa : Option (Gpa α)} (hf : feed gpa answers = some ws) :
    (∃ r, gpa = some r ∧ ∀ k, (k, none) ∉ r.value) ∧ ∀ keys o, (keys, o) ∈ answers → ∃ r, o = some r ∧ ∀ k, (k, some none) ∉ keys.zip r.value := by
  unfold feed at hf
  simp only [bind, Option.bind_eq_some_iff, pure, Option.some.injEq] at hf
  obtain ⟨r, rfl, a, ha, b, hb, _⟩ := hf
  refine ⟨⟨r, rfl, fun k hk => ?_⟩, fun keys o hx => ?_⟩
  · obtain ⟨y, hy⟩ := (mapM_mem ha).2 _ hk
    cases hy
  · obtain ⟨l, hl⟩ := (mapM_mem hb).2 _ hx
    obtain ⟨r, e1, e2⟩ := Option.bind_eq_some_iff.mp hl
    refine ⟨r, e1, fun k hk => ?_⟩
    obtain ⟨y, hy⟩ := (mapM_mem e2).2 (k, none) (List.mem_filterMap.mpr ⟨_, hk, rfl⟩)
    cases hy

/-- Otherwise the snapshot is sent. -/
theorem C104_sent {gpa : Option (Gpa α)} {answers : List (List Nat × Option (Gma α))} : (∃ ws, feed gpa answers = some ws) ↔
    (∃ r, gpa = some r ∧ ∀ k, (k, none) ∉ r.value) ∧ ∀ keys o, (keys, o) ∈ answers → ∃ r, o = some r ∧ ∀ k, (k, some none) ∉ keys.zip r.value := by
  constructor
  · rintro ⟨ws, h⟩
    exact C104_whole h
  have all : ∀ {β γ : Type} {f : β → Option γ} {l : List β}, (∀ x ∈ l, ∃ y, f x = some y) → ∃ r, l.mapM f = some r := by
    intro β γ f l h
    induction l with
    | nil => exact ⟨[], rfl⟩
    | cons x l ih =>
      obtain ⟨y, hy⟩ := h x List.mem_cons_self
      obtain ⟨r, hr⟩ := ih (fun z hz => h z (List.mem_cons_of_mem _ hz))
      exact ⟨y :: r, by simp [List.mapM_cons, hy, hr]⟩
  rintro ⟨⟨r, rfl, hr⟩, ha⟩
  obtain ⟨a, h1⟩ : ∃ a, fromGpa r = some a := by
    refine all fun x hx => ?_
    obtain ⟨k, o⟩ := x
    cases o with
    | none => exact absurd hx (hr k)
    | some d => exact ⟨_, rfl⟩
  obtain ⟨b, h2⟩ : ∃ b, answers.mapM (fun x => do fromGma x.1 (← x.2)) = some b := by
    refine all fun x hx => ?_
    obtain ⟨keys, o⟩ := x
    obtain ⟨r', rfl, hn⟩ := ha keys o hx
    refine all (l := (keys.zip r'.value).filterMap (fun x => x.2.map (fun d => (x.1, d)))) fun x hx => ?_
    obtain ⟨⟨k, o⟩, h3, h4⟩ := List.mem_filterMap.mp hx
    cases o with
    | none => cases h4
    | some o =>
      injection h4 with h4
      subst h4
      cases o with
      | none => exact absurd h3 (hn k)
      | some d => exact ⟨_, rfl⟩
  exact ⟨a ++ b.flatten, by simp only [feed, bind, Option.bind_some, h1] at h2 ⊢; rw [h2]; rfl⟩

theorem deliver_run (hc : run h = some c) (ws : List (Nat × Write α)) :
    ∃ c', run (deliver ws h) = some c' ∧ c'.slots = c.slots ∧ c'.newestRooted = c.newestRooted ∧ c'.bestChain = c.bestChain ∧
      (∀ k v, v ∈ held c' k ↔ (k, v) ∈ ws ∨ v ∈ held c k) ∧ ∀ k, (∀ w, (k, w) ∉ ws) → c'.accounts k = c.accounts k := by
  unfold deliver
  rw [← List.map_reverse]
  have hm : ∀ x, x ∈ ws ↔ x ∈ ws.reverse := fun x => List.mem_reverse.symm
  simp only [hm]
  generalize ws.reverse = l
  induction l with
  | nil => exact ⟨c, hc, rfl, rfl, rfl, by simp, fun _ _ => rfl⟩
  | cons x l ih =>
    obtain ⟨c1, h1, h2, h3, h4, h5, h6⟩ := ih
    refine ⟨updateAccount c1 x.1 x.2, ?_, h2, h3, h4, ?_, ?_⟩
    · show (run (List.map (fun x => Msg.write x.1 x.2) l ++ h)).bind _ = _
      rw [h1]; rfl
    · intro k v
      rw [held_write]
      by_cases hk : k = x.1
      · rw [if_pos hk, ins_mem, h5]
        subst hk
        simp only [List.mem_cons, Prod.ext_iff, true_and, or_assoc]
      · rw [if_neg hk, h5]
        simp only [List.mem_cons, Prod.ext_iff, hk, false_and, false_or]
    · intro k hk
      have : k ≠ x.1 := fun e => hk x.2 (by rw [e]; exact List.mem_cons_self)
      show (if k = x.1 then _ else c1.accounts k) = _
      rw [if_neg this]
      exact h6 k (fun w hw => hk w (List.mem_cons_of_mem _ hw))

theorem read_held (c : ChainData α) (k : Nat) : accountAndSlot c k = (held c k).find? (isLive c) := by
  unfold accountAndSlot held
  cases c.accounts k <;> rfl

theorem isLive_same (e1 : c'.slots = c.slots) (e2 : c'.newestRooted = c.newestRooted) (e3 : c'.bestChain = c.bestChain) (w : Write α) :
    isLive c' w = isLive c w := by
  unfold isLive; rw [e1, e2, e3]

/-- Whatever was fed before: an account of the snapshot is shown as new as the snapshot or newer, if its slot counts as live in the cache; and
exactly with the contents of the snapshot, if nothing received before for this account and slot or a later one counts as live. -/
theorem C104_fresh_partial (hc : run h = some c) {k : Nat} {w : Write α} (hw : (k, w) ∈ ws) (hl : isLive c w = true) :
    ∃ c', run (deliver ws h) = some c' ∧ ∃ v, accountAndSlot c' k = some v ∧ w.slot ≤ v.slot ∧ isLive c' v = true ∧
      ((∀ u, accountAndSlot c k = some u → u.slot < w.slot) → (∀ u, (k, u) ∈ ws → u = w) → v = w) := by
  obtain ⟨c', h1, h2, h3, h4, h5, _⟩ := deliver_run hc ws
  have hl' := isLive_same h2 h3 h4
  refine ⟨c', h1, ?_⟩
  have hd := (any_held h1 k).1
  have hmem : w ∈ held c' k := (h5 k w).mpr (.inl hw)
  have hsome : ((held c' k).find? (isLive c')).isSome = true := by
    rw [List.find?_isSome]
    exact ⟨w, hmem, by rw [hl' w]; exact hl⟩
  obtain ⟨v, hv⟩ := Option.isSome_iff_exists.mp hsome
  obtain ⟨hlv, as, bs, he, hn⟩ := List.find?_eq_some_iff_append.mp hv
  have hvw : ∀ u ∈ held c' k, isLive c' u = true → u.slot ≤ v.slot := by
    intro u hu hlu
    rw [he] at hu hd
    rcases List.mem_append.mp hu with hu | hu
    · have := hn u hu; rw [hlu] at this; cases this
    · rcases List.mem_cons.mp hu with rfl | hu
      · exact Nat.le_refl _
      · exact (List.pairwise_cons.mp (List.pairwise_append.mp hd).2.1).1 u hu
  have hge := hvw w hmem (by rw [hl' w]; exact hl)
  refine ⟨v, by rw [read_held]; exact hv, hge, hlv, fun hold huniq => ?_⟩
  have hvm : v ∈ held c' k := List.mem_of_find?_eq_some hv
  rcases (h5 k v).mp hvm with hv1 | hv1
  · exact huniq v hv1
  · exfalso
    have : ((held c k).find? (isLive c)).isSome = true := by
      rw [List.find?_isSome]
      exact ⟨v, hv1, by rw [← hl' v]; exact hlv⟩
    obtain ⟨u, hu⟩ := Option.isSome_iff_exists.mp this
    have h6 := hold u (by rw [read_held]; exact hu)
    have h7 := (C71_newest hc (w := u) (key := k) (by rw [read_held]; exact hu) (ws := (held c k).reverse) (by
      unfold held at hv1 ⊢
      cases e : c.accounts k with
      | none => rw [e] at hv1; simp at hv1
      | some l => simp)).2 v (List.mem_reverse.mpr hv1) (by rw [← hl' v]; exact hlv)
    omega

/-- What is final at the node is live in the cache if the cache has heard of a root not before it and has no entry for the slot. -/
theorem C104_live (w : Write α) (h1 : c.slots w.slot = none) (h2 : w.slot ≤ c.newestRooted) : isLive c w = true := by
  unfold isLive; rw [h1]; exact decide_eq_true h2

/-- As long as the roots that the cache has heard of are behind the snapshot, and it has no entry for the slot, what the snapshot says
about the account is not shown. -/
theorem C104_hidden (hc : run h = some c) {k : Nat} (hall : ∀ w, (k, w) ∈ ws → c.slots w.slot = none ∧ c.newestRooted < w.slot) :
    ∃ c', run (deliver ws h) = some c' ∧ accountAndSlot c' k = accountAndSlot c k := by
  have hcm : ∀ l : List (Nat × Write α), (∀ x ∈ l, x ∈ ws) → ∃ c', run (l.map (fun x => Msg.write x.1 x.2) ++ h) = some c' ∧
      c'.slots = c.slots ∧ c'.newestRooted = c.newestRooted ∧ c'.bestChain = c.bestChain ∧ accountAndSlot c' k = accountAndSlot c k := by
    intro l
    induction l with
    | nil => intro _; exact ⟨c, hc, rfl, rfl, rfl, rfl⟩
    | cons x l ih =>
      intro hl
      obtain ⟨c1, h1, h2, h3, h4, h5⟩ := ih (fun y hy => hl y (List.mem_cons_of_mem _ hy))
      have hr : run (Msg.write x.1 x.2 :: (l.map (fun x => Msg.write x.1 x.2) ++ h)) = some (updateAccount c1 x.1 x.2) := by
        show (run _).bind _ = _
        rw [h1]; rfl
      refine ⟨updateAccount c1 x.1 x.2, hr, h2, h3, h4, ?_⟩
      obtain ⟨_, _, j1, j2⟩ := C71_last_word h1 hr
      by_cases hk : k = x.1
      · subst hk
        rw [j1 ?_, h5]
        obtain ⟨e1, e2⟩ := hall x.2 (hl x List.mem_cons_self)
        rw [isLive_same h2 h3 h4]
        unfold isLive
        rw [e1]
        exact decide_eq_false (by omega)
      · rw [j2 k hk, h5]
  obtain ⟨c', h1, _, _, _, h2⟩ := hcm ws.reverse (fun x hx => List.mem_reverse.mp hx)
  refine ⟨c', ?_, h2⟩
  unfold deliver
  rw [← List.map_reverse]
  exact h1

/-- An account that does not exist any more is not in the snapshot, so the cache goes on showing what it had. -/
theorem C104_closed (hc : run h = some c) (ht : Truthful chain ours gpa answers) (ho : RequestsFor oracles answers)
    (hf : feed (some gpa) answers = some ws) {k : Nat} (hk : chain gpa.slot k = none) (hno : k ∉ oracles) :
    ∃ c', run (deliver ws h) = some c' ∧ accountAndSlot c' k = accountAndSlot c k := by
  obtain ⟨c', h1, h2, h3, h4, _, h6⟩ := deliver_run hc ws
  refine ⟨c', h1, ?_⟩
  have hn : ∀ w, (k, w) ∉ ws := by
    intro w hw
    obtain ⟨g1, g2⟩ := (C104_complete ht ho hf).2.2 k w hw
    rcases g2 with ⟨_, e⟩ | g2
    · rw [e, hk] at g1; cases g1
    · exact hno g2
  have e := h6 k hn
  have : isLive c' = isLive c := funext (isLive_same h2 h3 h4)
  unfold accountAndSlot
  rw [e, this]

/-- The full claim: what the cache shows of an account of the program is not older than the snapshot, if the cache has heard of the root. -/
def C104_full : Prop :=
  ∀ (chain : Nat → Nat → Option Nat) (ours : Nat → Nat → Prop) (gpa : Gpa Nat) (ws : List (Nat × Write Nat)) (h : List (Msg Nat)) (c c' : ChainData Nat),
    Truthful chain ours gpa [] → feed (some gpa) [] = some ws → run h = some c → run (deliver ws h) = some c' →
    c.newestRooted = gpa.slot → ∀ k v, accountAndSlot c' k = some v → gpa.slot ≤ v.slot

/-- Account 7 was written at slot 3 and closed at slot 5; the message about its closing was lost; the snapshot is of slot 9. -/
theorem C104_false : ¬ C104_full := by
  intro H
  let chain : Nat → Nat → Option Nat := fun s k => if k = 8 then some 80 else if k = 7 ∧ s < 5 then some 70 else none
  let h : List (Msg Nat) := [.root 9, .write 7 ⟨3, 70⟩, .root 3]
  have ht : Truthful chain (fun _ k => k = 7 ∨ k = 8) ⟨9, [(8, some 80)]⟩ [] := by
    refine ⟨fun k d => ?_, fun _ _ hx => by cases hx⟩
    simp only [List.mem_cons, List.not_mem_nil, or_false, Prod.mk.injEq, Option.some.injEq, chain]
    constructor
    · rintro ⟨rfl, rfl⟩; exact ⟨.inr rfl, rfl⟩
    · rintro ⟨h1 | h1, h2⟩ <;> subst h1 <;> simp at h2
      exact ⟨rfl, h2.symm⟩
  have := H chain _ ⟨9, [(8, some 80)]⟩ [(8, ⟨9, 80⟩)] h _ _ ht rfl rfl rfl rfl 7 ⟨3, 70⟩ (by decide +kernel)
  exact absurd this (by decide)

/-- A snapshot of one account of the program and two oracles in two requests, one of which does not exist, replaces an older write. -/
example : ∃ (ws : List (Nat × Write Nat)) (c c' : ChainData Nat), feed (some ⟨9, [(8, some 80)]⟩) [([21], some ⟨10, [none]⟩), ([20], some ⟨9, [some (some 5)]⟩)] = some ws ∧
    run [.root 10, .write 8 ⟨3, 70⟩, .root 3] = some c ∧ run (deliver ws [.root 10, .write 8 ⟨3, 70⟩, .root 3]) = some c' ∧
    accountAndSlot c 8 = some ⟨3, 70⟩ ∧ accountAndSlot c' 8 = some ⟨9, 80⟩ ∧ accountAndSlot c' 20 = some ⟨9, 5⟩ ∧ accountAndSlot c' 21 = none :=
  ⟨_, _, _, rfl, rfl, rfl, by decide +kernel, by decide +kernel, by decide +kernel, by decide +kernel⟩

end OB
