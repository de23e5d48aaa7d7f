import Verif.Model.TsMarkets
import Mathlib.Data.List.Basic
/-!
C99  `findAllMarkets` of the TypeScript library lists every market once.

The library finds one exactly if its event is the twelfth
inner instruction and the transaction is among the fifty last ones: the batches after the first fifty signatures are the first fifty again.
-/
namespace OB
open Ts TsMarkets

/-- An inner instruction that is the program's event for the creation of a market. -/
def IsCreation (authority program : Pubkey) (tx : Tx) (ix : InnerIx) (e : FoundMarket) : Prop :=
  (∃ a l, ix.accounts = a :: l ∧ tx.staticKeys[a]? = some authority) ∧ tx.staticKeys[ix.programIdIndex]? = some program ∧ ix.event = some e

/-- The keys that the library looks up are in the message. -/
def StaticTx (tx : Tx) : Prop :=
  ∀ groups, tx.inner = some groups → ∀ g ∈ groups, ∀ ix ∈ g, ix.programIdIndex < tx.staticKeys.length ∧ ∀ a ∈ ix.accounts, a < tx.staticKeys.length

/-- The markets made by the transaction, one for each group that has such an event in the twelfth place, with the time of the transaction. -/
def MadeBy (authority program : Pubkey) (tx : Tx) (ms : List FoundMarket) : Prop :=
  ∃ groups, tx.inner = some groups ∧ ∃ per : List (List FoundMarket), ms = per.flatten ∧
    List.Forall₂ (fun g m =>
      (∃ ix e, g[11]? = some ix ∧ IsCreation authority program tx ix e ∧ m = [{ e with timestamp := tx.blockTime }]) ∨
      ((∀ ix e, g[11]? = some ix → ¬ IsCreation authority program tx ix e) ∧ m = [])) groups per

/-- The markets that the answer of the node for a transaction shows: none if the node does not know the transaction or has not recorded its
inner instructions, else those made by it.  The keys are in the message. -/
def AnsweredBy (authority program : Pubkey) (answer : Option Tx) (ms : List FoundMarket) : Prop :=
  (answer = none ∧ ms = []) ∨ ∃ tx, answer = some tx ∧ ((tx.inner = none ∧ ms = []) ∨ (StaticTx tx ∧ MadeBy authority program tx ms))

section lemmas
variable {authority program : Pubkey}

theorem readAll_ok {α : Type} {f : α → Js (List FoundMarket)} {g : α → List FoundMarket} (l : List α) (h : ∀ x ∈ l, f x = .ok (g x)) :
    readAll f l = .ok (l.map g).flatten := by
  induction l with
  | nil => rfl
  | cons x l ih =>
    rw [readAll, h x (by simp), ih (fun y hy => h y (by simp [hy]))]
    rfl

theorem readAll_err {α : Type} {f : α → Js (List FoundMarket)} {e : JsErr} (l : List α) {x : α} (hx : x ∈ l) (h : f x = .error e) :
    ∃ e', readAll f l = .error e' := by
  induction l with
  | nil => cases hx
  | cons y l ih =>
    rw [readAll]
    rcases List.mem_cons.mp hx with rfl | hx
    · rw [h]; exact ⟨e, rfl⟩
    · obtain ⟨e', he⟩ := ih hx
      cases hy : f y with
      | error e2 => exact ⟨e2, rfl⟩
      | ok m => rw [he]; exact ⟨e', rfl⟩

theorem readAll_same {α : Type} {f : α → Js (List FoundMarket)} {x : α} {m : List FoundMarket} (n : Nat) (h : f x = .ok m) :
    readAll f (List.replicate n x) = .ok (List.replicate n m).flatten := by
  rw [readAll_ok (g := fun _ => m) _ (fun y hy => by rw [List.eq_of_mem_replicate hy]; exact h), List.map_replicate]

theorem batches_eq (sigs : List Nat) (fuel left : Nat) (h : left ≤ fuel) :
    batches sigs fuel left = List.replicate ((left + 49) / 50) (sigs.take 50) := by
  induction fuel generalizing left with
  | zero =>
    have : left = 0 := by omega
    subst this; rfl
  | succ fuel ih =>
    rw [batches]
    split
    · rename_i h0; subst h0; rfl
    · rename_i h0
      rw [ih (left - 50) (by omega)]
      have : (left + 49) / 50 = (left - 50 + 49) / 50 + 1 := by omega
      rw [this, List.replicate_succ]

theorem readGroup_ok {tx : Tx} {g : List InnerIx} (h : ∀ ix ∈ g, ix.programIdIndex < tx.staticKeys.length ∧ ∀ a ∈ ix.accounts, a < tx.staticKeys.length) :
    ∃ m, readGroup authority program tx g = .ok m ∧
      ((∃ ix e, g[11]? = some ix ∧ IsCreation authority program tx ix e ∧ m = [{ e with timestamp := tx.blockTime }]) ∨
       ((∀ ix e, g[11]? = some ix → ¬ IsCreation authority program tx ix e) ∧ m = [])) := by
  unfold readGroup
  cases hg : g[11]? with
  | none => exact ⟨[], rfl, .inr ⟨fun _ _ h => (Option.noConfusion rfl (heq_of_eq h)), rfl⟩⟩
  | some ix =>
    obtain ⟨hp, ha⟩ := h ix (List.mem_of_getElem? hg)
    cases hacc : ix.accounts with
    | nil =>
      refine ⟨[], by simp [hacc], .inr ⟨?_, rfl⟩⟩
      rintro _ e h1 ⟨⟨a, l, h2, _⟩, _⟩
      cases h1
      rw [hacc] at h2; cases h2
    | cons a l =>
      have hal := ha a (by simp [hacc])
      obtain ⟨ka, hka⟩ : ∃ k, tx.staticKeys[a]? = some k := ⟨_, List.getElem?_eq_getElem hal⟩
      obtain ⟨kp, hkp⟩ : ∃ k, tx.staticKeys[ix.programIdIndex]? = some k := ⟨_, List.getElem?_eq_getElem hp⟩
      simp only [hacc, List.getElem?_cons_zero, keyAt, hka, hkp, bind, Except.bind, pure, Except.pure]
      by_cases e1 : ka = authority
      · by_cases e2 : kp = program
        · cases he : ix.event with
          | none =>
            refine ⟨[], by simp [e1, e2], .inr ⟨?_, rfl⟩⟩
            rintro _ e h1 ⟨_, _, h2⟩
            cases h1
            rw [he] at h2; cases h2
          | some e =>
            exact ⟨_, by simp [e1, e2], .inl ⟨ix, e, rfl, ⟨⟨a, l, hacc, by rw [hka, e1]⟩, by rw [hkp, e2], he⟩, rfl⟩⟩
        · refine ⟨[], by simp [e1, e2], .inr ⟨?_, rfl⟩⟩
          rintro _ e h1 ⟨_, h2, _⟩
          cases h1
          rw [hkp] at h2; injection h2 with h2; exact e2 h2
      · refine ⟨[], by simp [e1], .inr ⟨?_, rfl⟩⟩
        rintro _ e h1 ⟨⟨a', l', h2, h3⟩, _⟩
        cases h1
        rw [hacc] at h2
        injection h2 with h2 _
        subst h2
        rw [hka] at h3; injection h3 with h3; exact e1 h3

theorem readTx_ok {tx : Tx} (hs : StaticTx tx) {groups : List (List InnerIx)} (hg : tx.inner = some groups) :
    ∃ ms, readTx authority program (some tx) = .ok ms ∧ MadeBy authority program tx ms := by
  have key : ∀ G : List (List InnerIx), (∀ g ∈ G, g ∈ groups) → ∃ per : List (List FoundMarket),
      readAll (readGroup authority program tx) G = .ok per.flatten ∧ List.Forall₂ (fun g m =>
      (∃ ix e, g[11]? = some ix ∧ IsCreation authority program tx ix e ∧ m = [{ e with timestamp := tx.blockTime }]) ∨
      ((∀ ix e, g[11]? = some ix → ¬ IsCreation authority program tx ix e) ∧ m = [])) G per := by
    intro G
    induction G with
    | nil => exact fun _ => ⟨[], rfl, .nil⟩
    | cons g G ih =>
      intro h
      obtain ⟨m, h1, h2⟩ := readGroup_ok (authority := authority) (program := program) (hs groups hg g (h g (by simp)))
      obtain ⟨per, h3, h4⟩ := ih (fun x hx => h x (by simp [hx]))
      refine ⟨m :: per, ?_, .cons h2 h4⟩
      rw [readAll, h1, h3]; rfl
  obtain ⟨per, h1, h2⟩ := key groups (fun _ h => h)
  exact ⟨per.flatten, by unfold readTx; simp only [hg]; exact h1, groups, hg, per, rfl, h2⟩

theorem madeBy_unique {tx : Tx} {ms ms' : List FoundMarket} (h : MadeBy authority program tx ms) (h' : MadeBy authority program tx ms') : ms = ms' := by
  obtain ⟨G, hG, per, rfl, hf⟩ := h
  obtain ⟨G', hG', per', rfl, hf'⟩ := h'
  rw [hG] at hG'; cases hG'
  congr 1
  clear hG
  induction hf generalizing per' with
  | nil => cases hf'; rfl
  | cons h _ ih =>
    cases hf' with
    | cons h' hf' =>
      rw [ih _ hf']
      congr 1
      rcases h with ⟨ix, e, a1, a2, rfl⟩ | ⟨a1, rfl⟩ <;> rcases h' with ⟨ix', e', b1, b2, rfl⟩ | ⟨b1, rfl⟩
      · rw [a1] at b1; cases b1
        have := a2.2.2.symm.trans b2.2.2
        cases this; rfl
      · exact absurd a2 (b1 _ _ a1)
      · exact absurd b2 (a1 _ _ b1)
      · rfl

end lemmas

variable {authority program : Pubkey} {sigs : List Nat} {node : Nat → Option Tx} {made : Nat → List FoundMarket}

/-- What the function answers if no keys come from lookup tables: the markets that the node shows of the fifty last transactions, once for
every fifty transactions begun.  Transactions of which the node shows nothing are passed over. -/
theorem C99_answer (h : ∀ sig ∈ sigs.take 50, AnsweredBy authority program (node sig) (made sig)) :
    findAllMarkets authority program sigs node =
      .ok (List.replicate ((sigs.length + 49) / 50) ((sigs.take 50).map made).flatten).flatten := by
  unfold findAllMarkets
  rw [batches_eq _ _ _ (Nat.le_refl _), readAll]
  have hb : readAll (fun sig => readTx authority program (node sig)) (sigs.take 50) = .ok ((sigs.take 50).map made).flatten :=
    readAll_ok _ (fun sig hsig => by
      rcases h sig hsig with ⟨h1, h2⟩ | ⟨tx, h1, ⟨h2, h3⟩ | ⟨h2, h3⟩⟩
      · rw [h1, h2]; rfl
      · rw [h1, h3]; unfold readTx; simp only [h2]
      obtain ⟨groups, hg, _⟩ := id h3
      obtain ⟨ms, h4, h5⟩ := readTx_ok (authority := authority) (program := program) h2 hg
      rw [h1, h4, madeBy_unique h5 h3])
  rw [readAll_same (f := fun batch => readAll (fun sig => readTx authority program (node sig)) batch) _ hb]
  rfl

/-- With at most fifty transactions it lists every market, once, the last made first. -/
theorem C99_few_partial (hn : sigs.length ≤ 50) (h : ∀ sig ∈ sigs, AnsweredBy authority program (node sig) (made sig)) :
    findAllMarkets authority program sigs node = .ok (sigs.map made).flatten := by
  have ht : sigs.take 50 = sigs := List.take_of_length_le hn
  rw [C99_answer (by rw [ht]; exact h), ht]
  by_cases h0 : sigs = []
  · subst h0; rfl
  · have : 0 < sigs.length := List.length_pos_iff.mpr h0
    have : (sigs.length + 49) / 50 = 1 := by omega
    rw [this]; simp

/-- With more, a market that was made before the last fifty transactions is not listed, and the others are listed more than once. -/
theorem C99_many (hn : 50 < sigs.length) (h : ∀ sig ∈ sigs.take 50, AnsweredBy authority program (node sig) (made sig)) :
    ∃ L, findAllMarkets authority program sigs node = .ok L ∧
      (∀ m, (∀ sig ∈ sigs.take 50, m ∉ made sig) → m ∉ L) ∧
      ∀ sig ∈ sigs.take 50, ∀ m ∈ made sig, 2 ≤ L.count m := by
  refine ⟨_, C99_answer h, fun m hm hL => ?_, fun sig hsig m hm => ?_⟩
  · obtain ⟨l, h1, h2⟩ := List.mem_flatten.mp hL
    rw [List.eq_of_mem_replicate h1] at h2
    obtain ⟨l', h3, h4⟩ := List.mem_flatten.mp h2
    obtain ⟨sig, h5, rfl⟩ := List.mem_map.mp h3
    exact hm sig h5 h4
  · obtain ⟨n, hn'⟩ : ∃ n, (sigs.length + 49) / 50 = n + 2 := ⟨(sigs.length + 49) / 50 - 2, by omega⟩
    rw [hn', List.replicate_succ, List.replicate_succ, List.flatten_cons, List.flatten_cons, List.count_append, List.count_append]
    have : 1 ≤ List.count m ((sigs.take 50).map made).flatten :=
      List.one_le_count_iff.mpr (List.mem_flatten.mpr ⟨_, List.mem_map_of_mem hsig, hm⟩)
    omega

/-- One transaction among the last fifty whose twelfth inner instruction has its first account from a lookup table, and the function throws:
no market is listed.  Anybody can send such a transaction. -/
theorem C99_lookup_table {sig : Nat} {tx : Tx} {groups : List (List InnerIx)} {g : List InnerIx} {ix : InnerIx} {a : Nat} {l : List Nat}
    (hs : sig ∈ sigs.take 50) (ht : node sig = some tx) (hg : tx.inner = some groups) (hgm : g ∈ groups) (hix : g[11]? = some ix)
    (ha : ix.accounts = a :: l) (hk : tx.staticKeys.length ≤ a) : ∃ e, findAllMarkets authority program sigs node = .error e := by
  have h1 : readGroup authority program tx g = .error .undefined := by
    unfold readGroup
    simp only [hix, ha, List.getElem?_cons_zero, keyAt, List.getElem?_eq_none hk]
    rfl
  obtain ⟨e1, h2⟩ := readAll_err groups hgm h1
  have h3 : readTx authority program (node sig) = .error e1 := by
    rw [ht]; unfold readTx; simp only [hg]; exact h2
  obtain ⟨e2, h4⟩ := readAll_err (f := fun sig => readTx authority program (node sig)) (sigs.take 50) hs h3
  unfold findAllMarkets
  refine readAll_err _ (x := sigs.take 50) ?_ h4
  rw [batches_eq _ _ _ (Nat.le_refl _)]
  refine List.mem_cons_of_mem _ (List.mem_replicate.mpr ⟨?_, rfl⟩)
  have : 0 < sigs.length := by
    cases sigs with
    | nil => cases hs
    | cons => simp
  omega

/-! Cases: program 7, event authority 8; an instruction with eleven inner instructions before the event. -/
namespace AllMarketsCase

def event (m : Nat) : FoundMarket := ⟨m, 10, 11, "A-B", none⟩
def creation (m : Nat) : Tx := ⟨[7, 8, 9], some [List.replicate 11 ⟨[2], 2, none⟩ ++ [⟨[1], 0, some (event m)⟩]], some 1000⟩
def other : Tx := ⟨[7, 8, 9], some [List.replicate 12 ⟨[2], 2, none⟩, [⟨[0], 0, none⟩]], some 1000⟩
def lookup : Tx := ⟨[7, 8, 9], some [List.replicate 12 ⟨[3], 2, none⟩], some 1000⟩
/-- Signature `i` made market `100 + i` if `i` is even.  The node does not know 1, and has no inner instructions of 5. -/
def ledger (i : Nat) : Option Tx := if i = 1 then none else if i = 5 then some { other with inner := none } else
  some (if i % 2 = 0 then creation (100 + i) else other)
def listed (i : Nat) : List FoundMarket := if i % 2 = 0 then [{ event (100 + i) with timestamp := some 1000 }] else []

theorem known (i : Nat) : AnsweredBy 8 7 (ledger i) (listed i) := by
  by_cases h1 : i = 1
  · subst h1; exact .inl ⟨rfl, rfl⟩
  by_cases h5 : i = 5
  · subst h5; exact .inr ⟨_, rfl, .inl ⟨rfl, rfl⟩⟩
  unfold ledger listed
  rw [if_neg h1, if_neg h5]
  suffices H : ∃ tx, some (if i % 2 = 0 then creation (100 + i) else other) = some tx ∧ StaticTx tx ∧
      MadeBy 8 7 tx (if i % 2 = 0 then [{ event (100 + i) with timestamp := some 1000 }] else []) by
    obtain ⟨tx, k1, k2⟩ := H
    exact .inr ⟨tx, k1, .inr k2⟩
  by_cases h : i % 2 = 0
  · refine ⟨creation (100 + i), by rw [if_pos h], ?_, ?_⟩
    · intro G hG g hg ix hix
      cases hG
      rw [List.mem_singleton.mp hg] at hix
      rcases List.mem_append.mp hix with hix | hix
      · rw [List.eq_of_mem_replicate hix]; simp [creation]
      · rw [List.mem_singleton.mp hix]; simp [creation]
    · rw [if_pos h]
      exact ⟨_, rfl, [[_]], rfl, .cons (.inl ⟨_, event (100 + i), rfl, ⟨⟨1, [], rfl, rfl⟩, rfl, rfl⟩, rfl⟩) .nil⟩
  · refine ⟨other, by rw [if_neg h], ?_, ?_⟩
    · intro G hG g hg ix hix
      cases hG
      simp only [List.mem_cons, List.not_mem_nil, or_false] at hg
      rcases hg with rfl | rfl
      · rw [List.eq_of_mem_replicate hix]; simp [other]
      · rw [List.mem_singleton.mp hix]; simp [other]
    · rw [if_neg h]
      refine ⟨_, rfl, [[], []], rfl, .cons (.inr ⟨?_, rfl⟩) (.cons (.inr ⟨fun _ _ h => by simp at h, rfl⟩) .nil)⟩
      intro ix e h1 h2
      have h3 : ix = ⟨[2], 2, none⟩ := by simpa using h1.symm
      subst h3
      cases h2.2.2

end AllMarketsCase

open AllMarketsCase in
/-- Five transactions, two markets. -/
example : findAllMarkets 8 7 [5, 4, 3, 2, 1] ledger = .ok ([5, 4, 3, 2, 1].map listed).flatten ∧
    ([5, 4, 3, 2, 1].map listed).flatten.length = 2 :=
  ⟨C99_few_partial (by decide) (fun i _ => known i), by decide⟩

open AllMarketsCase in
/-- Sixty transactions: the market of signature 56 is not listed, that of signature 0 twice. -/
example : ∃ L, findAllMarkets 8 7 (List.range 60) ledger = .ok L ∧ { event 156 with timestamp := some 1000 } ∉ L ∧
    2 ≤ L.count { event 100 with timestamp := some 1000 } ∧ { event 156 with timestamp := some 1000 } ∈ listed 56 := by
  obtain ⟨L, h1, h2, h3⟩ := C99_many (authority := 8) (program := 7) (sigs := List.range 60) (node := ledger) (made := listed)
    (by decide) (fun i _ => known i)
  exact ⟨L, h1, h2 _ (by decide), h3 0 (by decide) _ (by decide), by decide⟩

open AllMarketsCase in
/-- One transaction of somebody, and the market of the other is not listed. -/
example : ∃ e, findAllMarkets 8 7 [1, 0] (fun i => if i = 1 then some lookup else ledger i) = .error e :=
  C99_lookup_table (sig := 1) (tx := lookup) (g := List.replicate 12 ⟨[3], 2, none⟩) (ix := ⟨[3], 2, none⟩) (a := 3) (l := [])
    (by decide) rfl rfl (by simp) rfl rfl (by decide)

end OB
