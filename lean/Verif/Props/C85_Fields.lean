import Verif.Proofs.FieldsStep
import Verif.Proofs.TsBook
import Verif.Proofs.TsEvents
import Verif.Props.Scenario
import Mathlib.Tactic.Linarith
/-!
C85: every number that the program stores fits the type of its field.

The numbers of the model are unbounded, with a check where the code checks.  The theorems say that no state of the model holds a number
that its field in the account could not hold, so the places where the model does not check (slots, handles, counters, times, keys,
quantities computed by `min` and division) need no check either.  They also discharge the hypotheses `SideFits` and `HeapFits` of C75,
C78 and C84. -/
namespace OB
open Spec

theorem fside_fits {b : BookSide} {ot : Comp → Option T} (h : FSide b) (hb : BSOk b ot) : SideFits b := by
  have hn : maxOrderTreeNodes = 1024 := rfl
  have hl := hb.slab.length_le
  rw [List.length_append] at hl
  have hc : ∀ c, (b.root c).leafCount ≤ (OT.hs (ot c)).length := by
    intro c
    have h1 := hb.rep c
    have h2 := (OT.hs_length (ot c)).2.2
    cases ho : ot c with
    | none => rw [ho] at h1; have h3 : (b.root c).leafCount = 0 := h1; omega
    | some t =>
      rw [ho] at h1 h2
      have h3 : (b.root c).leafCount = t.lvs.length := h1.2.1
      have h4 : (OT.lvs (some t)).length = t.lvs.length := rfl
      omega
  have c1 : b.rootFixed.leafCount ≤ (OT.hs (ot .fixed)).length := hc .fixed
  have c2 : b.rootPegged.leafCount ≤ (OT.hs (ot .pegged)).length := hc .pegged
  have hbump := h.tree.bump
  obtain ⟨⟨fl, -, f2, f3⟩, -⟩ := hb.slab
  have f4 := f3.length_eq
  rw [List.length_append, List.length_range] at f4
  exact ⟨⟨h.fixed, by omega⟩, ⟨h.pegged, by omega⟩, by omega, by omega, h.tree.head, fun i _ => (h.tree.nodes i).fits⟩

theorem fmarket_fits {m : Market} (h : FMarket m) : MarketFits m := by
  refine ⟨h.keys, fun x hx => fitsI64_in.mpr (h.i64s x hx), h.seq, ?_, ?_⟩
  · simp only [List.mem_cons, List.not_mem_nil, or_false, forall_eq_or_imp, forall_eq, fitsU64_in]
    exact ⟨h.rra, h.fav, h.bdt, h.qdt⟩
  · simp only [List.mem_cons, List.not_mem_nil, or_false, forall_eq_or_imp, forall_eq, fitsU128_in]
    exact ⟨h.facc, h.ftr, h.mv, h.tv⟩

theorem facct_fits {a : OOA} (h : FAcct a) : AccountFits a := by
  have hp := h.pos
  refine ⟨h.owner, h.delegate, ⟨?_, ?_, ?_⟩, fun o ho => ⟨(h.slots o ho).1, (h.slots o ho).2.1, fitsI64_in.mpr (h.slots o ho).2.2⟩, h.len⟩
  · simp only [List.mem_cons, List.not_mem_nil, or_false, forall_eq_or_imp, forall_eq, fitsI64_in]
    exact ⟨hp.bb, hp.ab, hp.bq⟩
  · simp only [List.mem_cons, List.not_mem_nil, or_false, forall_eq_or_imp, forall_eq, fitsU64_in]
    exact ⟨hp.bf, hp.qf, hp.lf, hp.rr, hp.pc⟩
  · simp only [List.mem_cons, List.not_mem_nil, or_false, forall_eq_or_imp, forall_eq, fitsU128_in]
    exact ⟨hp.mv, hp.tv⟩

/-- In every history each number of each account fits the type of its field. -/
theorem C85_fits {s : State} (h : SizedReachable s) : StateFits s := by
  have hf := sized_FState h
  have hb := (reachable_Inv (sized_reachable h)).core.bookOk.ok
  obtain ⟨_, h1⟩ := hb .bid
  obtain ⟨_, h2⟩ := hb .ask
  exact ⟨hf.key, fmarket_fits hf.g.market, hf.g.heap, fun x hx => ⟨(hf.g.accts x hx).1, facct_fits (hf.g.accts x hx).2⟩,
    fside_fits hf.book.bids h1, fside_fits hf.book.asks h2, fun k => ⟨(hf.tokens k).1, (hf.tokens k).2.1, fitsU64_in.mpr (hf.tokens k).2.2⟩,
    fun k => fitsU64_in.mpr (hf.lamports k)⟩

/-- `timestamp + time_in_force` (nodes.rs:227 and 234) does not overflow, for any leaf in the arrays of the book. -/
theorem C85_expiry {s : State} (h : SizedReachable s) (sd : Side) (i : Nat) {l : LeafNode} (hl : (s.book.side sd).nodes.nodes i = .leaf l) :
    l.timestamp + l.timeInForce < 2 ^ 64 := by
  have h1 := ((sized_FState h).book.side sd).tree.nodes i
  rw [hl] at h1
  obtain ⟨⟨-, h2, -⟩, h3⟩ := h1
  omega

/-- The products of the fee functions (market.rs:301-355), which are computed as `i128`, do not overflow, for all amounts of their
argument types. -/
theorem C85_products {s : State} (h : SizedReachable s) {x : Int} (hx : -2 ^ 63 ≤ x ∧ x < 2 ^ 64) :
    ∀ y ∈ [x * 1000000, 1000000 + s.g.market.takerFee, x * s.g.market.makerFee.natAbs, x * s.g.market.makerFee.natAbs + 999999,
      x * s.g.market.takerFee, x * s.g.market.takerFee + 999999], -2 ^ 127 ≤ y ∧ y < 2 ^ 127 := by
  have hf := (reachable_Inv (sized_reachable h)).core.fees
  have h1 : (s.g.market.makerFee.natAbs : Int) ≤ 1000000 ∧ 0 ≤ s.g.market.takerFee ∧ s.g.market.takerFee ≤ 1000000 := by
    obtain ⟨q1, q2, q3, q4⟩ := hf
    omega
  have key : ∀ f : Int, 0 ≤ f → f ≤ 1000000 → -2 ^ 84 ≤ x * f ∧ x * f < 2 ^ 84 := by
    intro f f0 f1
    constructor
    · nlinarith
    · nlinarith
  have k1 := key s.g.market.makerFee.natAbs (by omega) h1.1
  have k2 := key _ h1.2.1 h1.2.2
  simp only [List.mem_cons, List.not_mem_nil, or_false, forall_eq_or_imp, forall_eq]
  omega

/-- The hypotheses of C75, C78 and C84 that the numbers fit hold in every history: the accounts of the book and of the queue can be
decoded. -/
theorem C85_decodes {s : State} (h : SizedReachable s) :
    (∃ x, Loads s.book .bid x) ∧ (∃ x, Loads s.book .ask x) ∧ ∃ x, HoldsHeap s.g.heap x := by
  have hf := C85_fits h
  exact ⟨Ts.Loads.exists hf.bids, Ts.Loads.exists hf.asks, _, List.replicate 8 0, by simp, Ts.decodeHeap_bytes _ _ (by simp) hf.heap⟩

/-! A state with orders of both kinds on both sides and a queue of two events, reached with such inputs. -/
namespace SizedCase

instance (k : Pubkey) : Decidable (FitsKey k) := by unfold FitsKey; infer_instance
instance (op : Op) : Decidable (Sized op) := by cases op <;> unfold Sized <;> infer_instance
instance (a : CreateArgs) : Decidable (SizedArgs a) := by unfold SizedArgs; infer_instance

theorem run_sized {s s' : State} {ops : List Op} (hs : SizedReachable s) (ho : ∀ op ∈ ops, Sized op) (h : Scenario.run s ops = .ok s') :
    SizedReachable s' := by
  induction ops generalizing s with
  | nil => injection h with h; rwa [← h]
  | cons op ops ih =>
    unfold Scenario.run at h
    cases h1 : step s op with
    | error e => rw [h1] at h; cases h
    | ok s1 =>
      rw [h1] at h
      exact ih (.step s s1 op hs (ho op List.mem_cons_self) h1) (fun x hx => ho x (List.mem_cons_of_mem _ hx)) h

theorem tokens_fit (k : Pubkey) : TokenFits (Scenario.tokens0 k) := by
  have h1 : FitsU64 1000000 := by unfold FitsU64; omega
  have h2 : FitsU64 100000000 := by unfold FitsU64; omega
  have h3 : FitsU64 0 := by unfold FitsU64; omega
  unfold Scenario.tokens0
  split
  next h => exact ⟨by unfold FitsKey; dsimp only; unfold Pubkey at *; omega, by show 10 < _; decide, h1⟩
  · split
    next h => exact ⟨by unfold FitsKey; dsimp only; unfold Pubkey at *; omega, by show 11 < _; decide, h2⟩
    · exact ⟨by show 0 < _; decide, by show 0 < _; decide, h3⟩

theorem exec_sized {a : CreateArgs} {ops : List Op} {p : State → Bool} (ha : SizedArgs a) (ho : ∀ op ∈ ops, Sized op)
    (h : Scenario.okAnd (Scenario.exec a ops) p = true) : ∃ s, SizedReachable s ∧ p s = true := by
  obtain ⟨s, h1, h2⟩ := Scenario.okAnd_spec h
  refine ⟨s, ?_, h2⟩
  unfold Scenario.exec at h1
  cases h3 : Scenario.start a with
  | error e => rw [h3] at h1; cases h1
  | ok s1 =>
    rw [h3] at h1
    exact run_sized (.init a 0 Scenario.tokens0 Scenario.lamports0 s1 ha tokens_fit (fun _ => by unfold FitsU64 Scenario.lamports0; omega) h3) ho h1

end SizedCase

example : ∃ s, SizedReachable s ∧ (s.book.resting.length = 4 ∧ s.g.heap.count = 2 ∧ (∃ x ∈ s.book.resting, x.2.1 = .pegged)) := by
  obtain ⟨s, h1, h2⟩ := SizedCase.exec_sized (a := Scenario.args) (ops := Scenario.ops1)
    (p := fun s => decide (s.book.resting.length = 4 ∧ s.g.heap.count = 2 ∧ (∃ x ∈ s.book.resting, x.2.1 = .pegged)))
    (by decide +kernel) (by decide +kernel) (by decide +kernel)
  exact ⟨s, h1, of_decide_eq_true h2⟩

end OB
