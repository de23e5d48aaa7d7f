import Verif.Model.ClientAccounts
import Verif.Props.C54_Index
/-!
C82 — How the client libraries create and find the open orders accounts of an owner.
-/
namespace OB
open Spec Finder

namespace Spec

/-- `found` has all open orders accounts of this owner, each once, with the market it belongs to and the number it was created with. -/
structure FetchedAll (A : Addresses) (w : World) (owner : Pubkey) (found : List Fetched) : Prop where
  nodup : (found.map Fetched.key).Nodup
  exact_ : ∀ x k n, (∃ f ∈ found, f.key = x ∧ f.market = k ∧ f.num = n) ↔
    (∃ a, LivesIn w k x a ∧ a.owner = owner) ∧ x = A.ooAddr owner n

end Spec

/-! ### The TypeScript library -/

/-- An owner for whom there is room gets an account in any open market, with or without having an indexer already: the transaction
succeeds, the account is at the address that the library returns, where there was none, it is in the index then, and all other accounts
are as they were. -/
theorem C82_create {A : Addresses} {w : World} (hr : WReachable A w) {o k d : Pubkey} {p : Part}
    (hroom : ∀ ix, w.indexers o = some ix → ix.addresses.length < 256 ∧ ix.createdCounter + 1 < 4294967296)
    (hs : A.isPda o = false) (hp : w.markets k = some p) (hopen : p.closed = false) :
    ∃ w' x, x = (createIx A w k o d).2 ∧ runAll A w (createIx A w k o d).1 = .ok w' ∧ WReachable A w' ∧
      (∀ k' a, ¬ LivesIn w k' x a) ∧ LivesIn w' k x (OOA.fresh o d) ∧ findAll w' o = findAll w o ++ [x] ∧
      ∀ k' x' a', x' ≠ x → (LivesIn w' k' x' a' ↔ LivesIn w k' x' a') := by
  cases hix : w.indexers o with
  | some ix =>
    obtain ⟨h1, w', h2, h3, h4, _, h5⟩ := C54_create (d := d) hr hix (hroom ix hix).1 (hroom ix hix).2 hs hp hopen
    refine ⟨w', A.ooAddr o (ix.createdCounter + 1), by simp [createIx, hix], ?_, .step _ _ _ hr h2, h1, h3, ?_, h5⟩
    · have h2' : w.createOO A k o d = .ok w' := h2
      simp [createIx, hix, runAll, Ix.run, World.createOOAt, okOr, req, Addresses.next, h2', bind, Except.bind]
    · simp [findAll, hix, h4]
  | none =>
    have hc : w.step A (.createIndexer o) = .ok (w.setIndexer o (some { createdCounter := 0, addresses := [] })) := by
      show w.createIndexer A o = _
      unfold World.createIndexer
      simp only [bind_ok, req_ok, pure_ok]
      exact ⟨(), hs, (), by simp [hix], trivial⟩
    have hr1 := WReachable.step _ _ _ hr hc
    have hix1 : (w.setIndexer o (some { createdCounter := 0, addresses := [] })).indexers o =
        some { createdCounter := 0, addresses := [] } := by simp [World.setIndexer]
    obtain ⟨h1, w', h2, h3, h4, _, h5⟩ := C54_create (d := d) hr1 hix1 (by simp) (by simp) hs hp hopen
    refine ⟨w', A.ooAddr o 1, by simp [createIx, hix], ?_, .step _ _ _ hr1 h2, h1, h3, ?_, h5⟩
    · have h2' : (w.setIndexer o (some { createdCounter := 0, addresses := [] })).createOO A k o d = .ok w' := h2
      have hc' : w.createIndexer A o = .ok (w.setIndexer o (some { createdCounter := 0, addresses := [] })) := hc
      simp [createIx, hix, hix1, runAll, Ix.run, World.createOOAt, okOr, req, Addresses.next, h2', hc', bind, Except.bind]
    · simp [findAll, hix, h4]

/-- An account of the owner is in the index. -/
theorem mem_findAll {A : Addresses} {w : World} (hr : WReachable A w) {o x : Pubkey} :
    x ∈ findAll w o ↔ ∃ k a, LivesIn w k x a ∧ a.owner = o := by
  unfold findAll
  cases hix : w.indexers o with
  | some ix => exact (C54_exact hr hix).2.2 x
  | none =>
    refine ⟨fun h => by simp at h, ?_⟩
    rintro ⟨k, a, h, rfl⟩
    obtain ⟨ix, _, h1, _⟩ := C54_address hr h
    rw [hix] at h1; cases h1

/-- An account is of market `k` exactly if `k` is its home. -/
theorem home_iff {A : Addresses} {w : World} (hr : WReachable A w) {k x : Pubkey} : w.home x = some k ↔ ∃ a, LivesIn w k x a := by
  rw [(wreachable_WInv hr).home x k, Option.isSome_iff_exists]
  constructor
  · rintro ⟨o, h⟩
    obtain ⟨a, h1, _⟩ := ownerAt_iff.mp h
    exact ⟨a, h1⟩
  · rintro ⟨a, h⟩
    exact ⟨a.owner, ownerAt_iff.mpr ⟨a, h, rfl⟩⟩

theorem mem_and_home {A : Addresses} {w : World} (hr : WReachable A w) {o k x : Pubkey} :
    (x ∈ findAll w o ∧ w.home x = some k) ↔ ∃ a, LivesIn w k x a ∧ a.owner = o := by
  rw [mem_findAll hr, home_iff hr]
  constructor
  · rintro ⟨⟨k', a', h1, h2⟩, a, h3⟩
    obtain ⟨_, rfl⟩ := C54_one_market hr h1 h3
    exact ⟨_, h3, h2⟩
  · rintro ⟨a, h1, h2⟩
    exact ⟨⟨k, a, h1, h2⟩, a, h1⟩

/-- Looking for the accounts of an owner in a market finds exactly those, each once. -/
theorem C82_find {A : Addresses} {w : World} (hr : WReachable A w) (o k : Pubkey) :
    (findForMarket w o k).Nodup ∧ ∀ x, x ∈ findForMarket w o k ↔ ∃ a, LivesIn w k x a ∧ a.owner = o := by
  constructor
  · refine List.Nodup.filter _ ?_
    unfold findAll
    cases hix : w.indexers o with
    | some ix => exact (C54_exact hr hix).1
    | none => exact List.nodup_nil
  · intro x
    rw [← mem_and_home hr, findForMarket, List.mem_filter, beq_iff_eq]

/-- Loading an account of an owner in a market gives one if there is one, and nothing only if there is none. -/
theorem C82_load {A : Addresses} {w : World} (hr : WReachable A w) (o k : Pubkey) :
    match loadForMarket w o k with
    | some x => ∃ a, LivesIn w k x a ∧ a.owner = o
    | none => ∀ x a, LivesIn w k x a → a.owner ≠ o := by
  unfold loadForMarket
  split
  · rename_i x h
    exact (mem_and_home hr).mp ⟨List.mem_of_find?_eq_some h, by simpa using List.find?_some h⟩
  · rename_i h
    intro x a h1 h2
    obtain ⟨h3, h4⟩ := (mem_and_home hr).mpr ⟨a, h1, h2⟩
    have := List.find?_eq_none.mp h x h3
    simp [h4] at this

theorem mapM_some_iff {α β : Type} {f : α → Option β} : ∀ {l : List α}, (∃ r, l.mapM f = some r) ↔ ∀ x ∈ l, ∃ y, f x = some y
  | [] => by simp
  | a :: l => by
    rw [List.mapM_cons]
    cases ha : f a with
    | none => simp [ha]
    | some y =>
      cases hl : l.mapM f with
      | none =>
        have := (mapM_some_iff (f := f) (l := l)).not.mp (by simp [hl])
        simp only [List.mem_cons, forall_eq_or_imp]
        constructor
        · rintro ⟨r, h⟩; simp at h
        · rintro ⟨_, h⟩; exact absurd h this
      | some r =>
        have := (mapM_some_iff (f := f) (l := l)).mp ⟨r, hl⟩
        simpa [ha] using this

theorem mem_mapM {α β : Type} {f : α → Option β} : ∀ {l : List α} {r : List β}, l.mapM f = some r → ∀ y, y ∈ r ↔ ∃ x ∈ l, f x = some y
  | [], r, h, y => by simp at h; subst h; simp
  | a :: l, r, h, y => by
    rw [List.mapM_cons] at h
    cases ha : f a with
    | none => rw [ha] at h; cases h
    | some b =>
      cases hl : l.mapM f with
      | none => rw [ha, hl] at h; cases h
      | some r' =>
        rw [ha, hl] at h
        injection h with h; subst h
        simp [mem_mapM hl y, ha, eq_comm]

/-- Loading all accounts of an owner gives exactly these, with their markets, provided that all the markets are open. -/
theorem C82_load_all_partial {A : Addresses} {w : World} (hr : WReachable A w) {o : Pubkey}
    (hopen : ∀ k x a, LivesIn w k x a → a.owner = o → w.isOpen k = true) :
    ∃ l, loadAll w o = some l ∧ ∀ x k, (x, k) ∈ l ↔ ∃ a, LivesIn w k x a ∧ a.owner = o := by
  have hall : ∀ x ∈ findAll w o, ∃ k, w.home x = some k ∧ w.isOpen k = true := by
    intro x hx
    obtain ⟨k, a, h1, h2⟩ := (mem_findAll hr).mp hx
    exact ⟨k, (home_iff hr).mpr ⟨a, h1⟩, hopen k x a h1 h2⟩
  obtain ⟨l, hl⟩ : ∃ l, loadAll w o = some l := by
    unfold loadAll
    refine mapM_some_iff.mpr (fun x hx => ?_)
    obtain ⟨k, h1, h2⟩ := hall x hx
    exact ⟨(x, k), by simp [h1, h2]⟩
  refine ⟨l, hl, fun x k => ?_⟩
  rw [mem_mapM hl, ← mem_and_home hr]
  constructor
  · rintro ⟨y, hy, h⟩
    obtain ⟨j, h1, h2⟩ := hall y hy
    simp only [h1, h2, if_true, Option.some.injEq, Prod.mk.injEq] at h
    obtain ⟨rfl, rfl⟩ := h
    exact ⟨hy, h1⟩
  · rintro ⟨hx, h⟩
    obtain ⟨j, h1, h2⟩ := hall x hx
    rw [h] at h1; injection h1 with h1; subst h1
    exact ⟨x, hx, by simp [h, h2]⟩

/-- One account in a market that has been closed is enough to make it throw. -/
theorem C82_load_all_closed {A : Addresses} {w : World} (hr : WReachable A w) {k x : Pubkey} {a : OOA} (hx : LivesIn w k x a)
    (hclosed : w.isOpen k = false) : loadAll w a.owner = none := by
  cases h : loadAll w a.owner with
  | none => rfl
  | some l =>
    obtain ⟨y, hy⟩ := mapM_some_iff.mp ⟨l, h⟩ x ((mem_findAll hr).mpr ⟨k, a, hx, rfl⟩)
    rw [(home_iff hr).mpr ⟨a, hx⟩] at hy
    simp [hclosed] at hy

/-! ### The Rust library -/

theorem fetched_num_le {A : Addresses} {w : World} (hr : WReachable A w) {o : Pubkey} {ix : Indexer} (hx : w.indexers o = some ix)
    {found : List Fetched} (hf : FetchedAll A w o found) {f : Fetched} (h : f ∈ found) : f.num ≤ ix.createdCounter := by
  obtain ⟨⟨a, h1, h2⟩, h3⟩ := (hf.exact_ f.key f.market f.num).mp ⟨f, h, rfl, rfl, rfl⟩
  obtain ⟨ix', n, h4, _, _, h5, h6⟩ := C54_address hr h1
  rw [h2, hx] at h4; injection h4 with h4; subst h4
  rw [h3, h2] at h6
  rw [(A.ooAddr_inj h6).2]; exact h5

/-- The number that the library takes is the one the program wants exactly if the account created last is still there. -/
theorem nextNum_iff {A : Addresses} {w : World} (hr : WReachable A w) {o : Pubkey} {ix : Indexer} (hx : w.indexers o = some ix)
    {found : List Fetched} (hf : FetchedAll A w o found) :
    nextNum found = ix.createdCounter + 1 ↔ ∃ k a, LivesIn w k (A.ooAddr o ix.createdCounter) a ∧ a.owner = o := by
  constructor
  · intro h
    unfold nextNum at h
    split at h
    · rename_i n hn
      have hmem := List.max?_mem hn
      obtain ⟨f, hf1, hf2⟩ := List.mem_map.mp hmem
      obtain ⟨⟨a, h1, h2⟩, h3⟩ := (hf.exact_ f.key f.market f.num).mp ⟨f, hf1, rfl, rfl, rfl⟩
      have : f.num = ix.createdCounter := by omega
      rw [this] at h3
      exact ⟨f.market, a, h3 ▸ h1, h2⟩
    · omega
  · rintro ⟨k, a, h1, h2⟩
    obtain ⟨f, hf1, hf2, hf3, hf4⟩ := (hf.exact_ _ k _).mpr ⟨⟨a, h1, h2⟩, rfl⟩
    have hmem : f.num ∈ found.map Fetched.num := List.mem_map.mpr ⟨f, hf1, rfl⟩
    unfold nextNum
    cases hm : (found.map Fetched.num).max? with
    | none => rw [List.max?_eq_none_iff] at hm; rw [hm] at hmem; cases hmem
    | some n =>
      have h3 := (List.max?_eq_some_iff.mp hm).2 _ hmem
      obtain ⟨g, hg1, hg2⟩ := List.mem_map.mp (List.max?_mem hm)
      have h4 := fetched_num_le hr hx hf hg1
      simp only; omega

/-- An account of the given name that the owner has already is found.  Otherwise one is created in the market, provided that the owner has
an indexer with room and that the account created last has not been closed. -/
theorem C82_find_or_create_partial {A : Addresses} {w : World} (hr : WReachable A w) {o k : Pubkey} {nm : Nat} {p : Part} {ix : Indexer}
    {found : List Fetched} (hf : FetchedAll A w o found) (hx : w.indexers o = some ix) (hroom : ix.addresses.length < 256)
    (hn : ix.createdCounter + 1 < 4294967296) (hs : A.isPda o = false) (hp : w.markets k = some p) (hopen : p.closed = false)
    (hlast : ∃ k' a, LivesIn w k' (A.ooAddr o ix.createdCounter) a ∧ a.owner = o) :
    ∃ w' x, findOrCreate A w k o nm found = .ok (w', x) ∧
      ((w' = w ∧ ∃ f ∈ found, f.name = nm ∧ f.key = x) ∨
       ((∀ f ∈ found, f.name ≠ nm) ∧ x = A.ooAddr o (ix.createdCounter + 1) ∧ LivesIn w' k x (OOA.fresh o 0) ∧
        ∀ k' x' a', x' ≠ x → (LivesIn w' k' x' a' ↔ LivesIn w k' x' a'))) := by
  unfold findOrCreate
  split
  · rename_i f h
    exact ⟨w, f.key, rfl, .inl ⟨rfl, f, List.mem_of_find?_eq_some h, by simpa using List.find?_some h, rfl⟩⟩
  · rename_i h
    obtain ⟨h1, w', h2, h3, h4, _, h5⟩ := C54_create (d := 0) hr hx hroom hn hs hp hopen
    rw [(nextNum_iff hr hx hf).mpr hlast]
    have h2' : w.createOO A k o 0 = .ok w' := h2
    refine ⟨w', A.ooAddr o (ix.createdCounter + 1), ?_, .inr ⟨fun f hf e => ?_, rfl, h3, h5⟩⟩
    · simp [World.createOOAt, hx, okOr, req, Addresses.next, h2', bind, Except.bind, pure, Except.pure]
    · have := List.find?_eq_none.mp h f hf
      simp [e] at this

/-- If the account created last has been closed, or none has been created through the indexer, no account can be created any more, in
whichever market and with whichever new name: the program refuses the address. -/
theorem C82_last_closed {A : Addresses} {w : World} (hr : WReachable A w) {o : Pubkey} {ix : Indexer} {found : List Fetched}
    (hf : FetchedAll A w o found) (hx : w.indexers o = some ix)
    (hlast : ∀ k' a, LivesIn w k' (A.ooAddr o ix.createdCounter) a → a.owner ≠ o) (k : Pubkey) {nm : Nat}
    (hnew : ∀ f ∈ found, f.name ≠ nm) : findOrCreate A w k o nm found = .error .constraint := by
  have hne : ¬ nextNum found = ix.createdCounter + 1 := fun h => by
    obtain ⟨k', a, h1, h2⟩ := (nextNum_iff hr hx hf).mp h
    exact hlast k' a h1 h2
  unfold findOrCreate
  rw [List.find?_eq_none.mpr (fun f hf => by simpa using hnew f hf)]
  have : ¬ A.ooAddr o (nextNum found) = A.next o ix := fun e => hne (A.ooAddr_inj e).2
  simp [World.createOOAt, hx, okOr, req, this, bind, Except.bind]

/-- So nobody gets a first account this way, whether or not they have made an indexer. -/
theorem C82_first {A : Addresses} {w : World} (hr : WReachable A w) {o : Pubkey}
    (hnone : ∀ k x a, LivesIn w k x a → a.owner ≠ o) {found : List Fetched} (hf : FetchedAll A w o found) (k : Pubkey) (nm : Nat) :
    ∃ e, findOrCreate A w k o nm found = .error e := by
  have hfound : found = [] := List.eq_nil_iff_forall_not_mem.mpr (fun f h => by
    obtain ⟨⟨a, h1, h2⟩, _⟩ := (hf.exact_ f.key f.market f.num).mp ⟨f, h, rfl, rfl, rfl⟩
    exact hnone _ _ a h1 h2)
  cases hx : w.indexers o with
  | some ix => exact ⟨_, C82_last_closed hr hf hx (fun k' a h => hnone k' _ a h) k (by simp [hfound])⟩
  | none => exact ⟨.accountMissing, by simp [hfound, findOrCreate, World.createOOAt, hx, okOr, bind, Except.bind]⟩

/-- An account of the name is taken whichever market it belongs to: if that is another one, what the library returns for the market is
not an account of this market. -/
theorem C82_other_market {A : Addresses} {w : World} (hr : WReachable A w) {o k : Pubkey} {found : List Fetched} (hf : FetchedAll A w o found)
    {f : Fetched} (h : f ∈ found) (hname : ∀ g ∈ found, g.name = f.name → g = f) (hk : f.market ≠ k) :
    findOrCreate A w k o f.name found = .ok (w, f.key) ∧ ∀ a, ¬ LivesIn w k f.key a := by
  constructor
  · unfold findOrCreate
    cases e : found.find? (fun g => g.name == f.name) with
    | none => have := List.find?_eq_none.mp e f h; simp at this
    | some g => rw [hname g (List.mem_of_find?_eq_some e) (by simpa using List.find?_some e)]
  · intro a ha
    obtain ⟨⟨b, h1, _⟩, _⟩ := (hf.exact_ f.key f.market f.num).mp ⟨f, h, rfl, rfl, rfl⟩
    exact hk (C54_one_market hr h1 ha).1

/-- What is read of the accounts in the index is all. -/
theorem Spec.FetchedAll.of_index {A : Addresses} {w : World} (hr : WReachable A w) {o : Pubkey} {found : List Fetched}
    (hx : findAll w o = found.map Fetched.key) (hh : ∀ f ∈ found, w.home f.key = some f.market ∧ f.key = A.ooAddr o f.num)
    (hn : (found.map Fetched.key).Nodup) : FetchedAll A w o found := by
  refine ⟨hn, fun x k n => ⟨?_, ?_⟩⟩
  · rintro ⟨f, h1, rfl, rfl, rfl⟩
    exact ⟨(mem_and_home hr).mp ⟨hx ▸ List.mem_map.mpr ⟨f, h1, rfl⟩, (hh f h1).1⟩, (hh f h1).2⟩
  · rintro ⟨h1, h2⟩
    obtain ⟨h3, h4⟩ := (mem_and_home hr).mpr h1
    rw [hx] at h3
    obtain ⟨f, h5, h6⟩ := List.mem_map.mp h3
    obtain ⟨h7, h8⟩ := hh f h5
    refine ⟨f, h5, h6, ?_, ?_⟩
    · rw [h6, h4] at h7; injection h7 with h7; exact h7.symm
    · rw [h6, h2] at h8; exact (A.ooAddr_inj h8).2.symm

namespace Scenario

/-- What the Rust library fetches of the accounts of trader 3, who has called them 5 and 6. -/
def fetched3 : List Fetched :=
  [{ key := addrs.ooAddr 3 1, market := 15, name := 5, num := 1 }, { key := addrs.ooAddr 3 3, market := 19, name := 6, num := 3 }]

theorem fetched_spec {ops : List WOp} {o : Pubkey} {found : List Fetched} {p : World → Bool} (h : okAnd (wrun wempty ops) (fun w =>
    decide (findAll w o = found.map Fetched.key) && decide (∀ f ∈ found, w.home f.key = some f.market ∧ f.key = addrs.ooAddr o f.num) &&
    decide (found.map Fetched.key).Nodup && p w) = true) : ∃ w, WReachable addrs w ∧ FetchedAll addrs w o found ∧ p w = true := by
  obtain ⟨w, h1, h2⟩ := wexec_spec h
  simp only [Bool.and_eq_true, decide_eq_true_eq] at h2
  exact ⟨w, h1, .of_index h1 h2.1.1.1 h2.1.1.2 h2.1.2, h2.2⟩

/-- Trader 3 still has the account created last, the third, and has room: `C82_find_or_create_partial` and, with the name 5 and market 19,
`C82_other_market` apply. -/
example : ∃ w, WReachable addrs w ∧ FetchedAll addrs w 3 fetched3 ∧ (w.indexers 3).any (fun ix => ix.createdCounter == 3) = true ∧
    okAnd (findOrCreate addrs w 15 3 7 fetched3) (fun r => r.2 == addrs.ooAddr 3 4) = true := by
  obtain ⟨w, h1, h2, h3⟩ := fetched_spec (ops := wops) (o := 3) (found := fetched3) (p := fun w =>
    (w.indexers 3).any (fun ix => ix.createdCounter == 3) &&
    okAnd (findOrCreate addrs w 15 3 7 fetched3) (fun r => r.2 == addrs.ooAddr 3 4)) (by decide +kernel)
  simp only [Bool.and_eq_true] at h3
  exact ⟨w, h1, h2, h3⟩

/-- Somebody asks for their account in market 19 and is given the one in market 15. -/
example : ∃ w, WReachable addrs w ∧ FetchedAll addrs w 3 fetched3 ∧ findOrCreate addrs w 19 3 5 fetched3 = .ok (w, addrs.ooAddr 3 1) ∧
    ∀ a, ¬ LivesIn w 19 (addrs.ooAddr 3 1) a := by
  obtain ⟨w, h1, h2, _⟩ := fetched_spec (ops := wops) (o := 3) (found := fetched3) (p := fun _ => true) (by decide +kernel)
  obtain ⟨h3, h4⟩ := C82_other_market h1 h2 (f := { key := addrs.ooAddr 3 1, market := 15, name := 5, num := 1 }) (by decide) (k := 19)
    (by decide) (by decide)
  exact ⟨w, h1, h2, h3, h4⟩

/-- Trader 3 has two accounts in market 15, and has closed the second, made last: `C82_last_closed` applies, and the TypeScript library
makes a third. -/
example : ∃ w, WReachable addrs w ∧
    FetchedAll addrs w 3 [{ key := addrs.ooAddr 3 1, market := 15, name := 5, num := 1 }] ∧
    (w.indexers 3).any (fun ix => ix.createdCounter == 2) = true ∧ w.home (addrs.ooAddr 3 2) = none ∧
    okAnd (runAll addrs w (createIx addrs w 15 3 0).1) (fun w' => findAll w' 3 == [addrs.ooAddr 3 1, addrs.ooAddr 3 3]) = true := by
  obtain ⟨w, h1, h2, h3⟩ := fetched_spec (ops := wops.take 7 ++ [.closeOO (addrs.ooAddr 3 2) 3]) (o := 3)
    (found := [{ key := addrs.ooAddr 3 1, market := 15, name := 5, num := 1 }]) (p := fun w =>
    (w.indexers 3).any (fun ix => ix.createdCounter == 2) && decide (w.home (addrs.ooAddr 3 2) = none) &&
    okAnd (runAll addrs w (createIx addrs w 15 3 0).1) (fun w' => findAll w' 3 == [addrs.ooAddr 3 1, addrs.ooAddr 3 3]))
    (by decide +kernel)
  simp only [Bool.and_eq_true, decide_eq_true_eq] at h3
  exact ⟨w, h1, h2, h3.1.1, h3.1.2, h3.2⟩

/-- Trader 11 has an indexer and no account: `C82_first` applies, and so does `C82_create`. -/
example : ∃ w, WReachable addrs w ∧ FetchedAll addrs w 11 [] ∧ w.isOpen 15 = true ∧
    okAnd (runAll addrs w (createIx addrs w 15 11 0).1) (fun w' => loadForMarket w' 11 15 == some (addrs.ooAddr 11 1)) = true := by
  obtain ⟨w, h1, h2, h3⟩ := fetched_spec (ops := wops) (o := 11) (found := []) (p := fun w => w.isOpen 15 &&
    okAnd (runAll addrs w (createIx addrs w 15 11 0).1) (fun w' => loadForMarket w' 11 15 == some (addrs.ooAddr 11 1)))
    (by decide +kernel)
  simp only [Bool.and_eq_true] at h3
  exact ⟨w, h1, h2, h3⟩

/-- The market is closed while trader 3 still has an account there. -/
example : ∃ w k x a, WReachable addrs w ∧ LivesIn w k x a ∧ a.owner = 3 ∧ w.isOpen k = false ∧ loadAll w 3 = none := by
  obtain ⟨w, h1, h2⟩ := wexec_spec (ops := wops.take 8 ++ [.market 15 (.setMarketExpired 3 1000), .market 15 (.closeMarket 3 1000)])
    (p := fun w => (partGet w 15 (addrs.ooAddr 3 1)).any (fun a => a.owner == 3) && !w.isOpen 15) (by decide +kernel)
  simp only [Bool.and_eq_true, Bool.not_eq_true'] at h2
  obtain ⟨a, ha, hb⟩ := Option.any_eq_true _ _ |>.mp h2.1
  have hb : a.owner = 3 := by simpa using hb
  exact ⟨w, 15, _, a, h1, livesIn_of ha, hb, h2.2, hb ▸ C82_load_all_closed h1 (livesIn_of ha) h2.2⟩

/-- Trader 3 has accounts in two open markets, and all of them are loaded. -/
example : ∃ w, WReachable addrs w ∧ loadAll w 3 = some [(addrs.ooAddr 3 1, 15), (addrs.ooAddr 3 3, 19)] ∧
    findForMarket w 3 19 = [addrs.ooAddr 3 3] := by
  obtain ⟨w, h1, h2⟩ := wexec_spec (ops := wops) (p := fun w =>
    decide (loadAll w 3 = some [(addrs.ooAddr 3 1, 15), (addrs.ooAddr 3 3, 19)]) && decide (findForMarket w 3 19 = [addrs.ooAddr 3 3]))
    (by decide +kernel)
  simp only [Bool.and_eq_true, decide_eq_true_eq] at h2
  exact ⟨w, h1, h2⟩

end Scenario

end OB
