import Verif.Spec.Stub
import Verif.Proofs.Oracle
import Verif.Props.Scenario
import Mathlib.Data.Nat.Pairing
/-!
C68 — The price of a stub oracle is what its owner last announced.
-/
namespace OB
open Spec

theorem stub_create {D : StubAddr} {s s' : Stubs} {o m : Pubkey} {p : F64} {now : Int} {slot : Nat} (h : s.create D o m p now slot = .ok s') :
    s (D.addr o m) = none ∧ s' = fun y => if y = D.addr o m then
      some { owner := o, mint := m, price := p, lastUpdateTs := now, lastUpdateSlot := slot, deviation := .fin 0 } else s y := by
  unfold Stubs.create at h
  simp only [bind_ok, req_ok, pure_ok, Option.isNone_iff_eq_none] at h
  obtain ⟨_, h1, h2⟩ := h
  exact ⟨h1, h2.symm⟩

theorem stub_set {s s' : Stubs} {o x : Pubkey} {p : F64} {now : Int} {slot : Nat} (h : s.set o x p now slot = .ok s') :
    ∃ t, s x = some t ∧ t.owner = o ∧
      s' = fun y => if y = x then some { t with price := p, lastUpdateTs := now, lastUpdateSlot := slot } else s y := by
  unfold Stubs.set at h
  simp only [bind_ok, req_ok, pure_ok, okOr_ok] at h
  obtain ⟨t, h1, _, h2, h3⟩ := h
  exact ⟨t, h1, h2, h3.symm⟩

theorem stub_close {s s' : Stubs} {o x : Pubkey} (h : s.close o x = .ok s') :
    ∃ t, s x = some t ∧ t.owner = o ∧ s' = fun y => if y = x then none else s y := by
  unfold Stubs.close at h
  simp only [bind_ok, req_ok, pure_ok, okOr_ok] at h
  obtain ⟨t, h1, _, h2, h3⟩ := h
  exact ⟨t, h1, h2, h3.symm⟩

/-- Every stub oracle is where its owner and mint put it, and its deviation is zero. -/
theorem stub_inv {D : StubAddr} {ops : List StubOp} {s : Stubs} (h : StubHistory D ops s) :
    ∀ x t, s x = some t → x = D.addr t.owner t.mint ∧ t.deviation = .fin 0 := by
  induction h with
  | nil => intro x t ht; cases ht
  | step ops s s' op _ hs ih =>
    intro x t ht
    cases op with
    | create o m p now slot =>
      obtain ⟨_, rfl⟩ := stub_create hs
      simp only at ht
      split at ht
      · rename_i e; injection ht with ht; subst ht; exact ⟨e, rfl⟩
      · exact ih x t ht
    | set o y p now slot =>
      obtain ⟨u, h1, _, rfl⟩ := stub_set hs
      simp only at ht
      split at ht
      · rename_i e; injection ht with ht; subst ht; subst e; exact ih x u h1
      · exact ih x t ht
    | close o y =>
      obtain ⟨_, _, _, rfl⟩ := stub_close hs
      simp only at ht
      split at ht
      · cases ht
      · exact ih x t ht

/-- Whoever the oracle derived from `o` and a mint belongs to, every instruction about it is signed by `o`: when it is created, changed,
closed and created again. -/
theorem C68_only_owner {D : StubAddr} {ops : List StubOp} {s : Stubs} (h : StubHistory D ops s) (o m : Pubkey) :
    ∀ op ∈ ops, stubTarget D op = D.addr o m → stubSigner op = o := by
  induction h with
  | nil => intro op hop; cases hop
  | step ops s s' op hh hs ih =>
    intro op' hop
    rcases List.mem_cons.mp hop with rfl | hop
    · intro ht
      cases op' with
      | create o' m' p now slot => exact (D.inj ht).1
      | set o' x p now slot =>
        obtain ⟨t, h1, h2, _⟩ := stub_set hs
        have ht : x = D.addr o m := ht
        have := (stub_inv hh x t h1).1
        rw [ht] at this
        show o' = o
        rw [← h2]; exact (D.inj this).1.symm
      | close o' x =>
        obtain ⟨t, h1, h2, _⟩ := stub_close hs
        have ht : x = D.addr o m := ht
        have := (stub_inv hh x t h1).1
        rw [ht] at this
        show o' = o
        rw [← h2]; exact (D.inj this).1.symm
    · exact ih op' hop

theorem latest_cons (D : StubAddr) (op : StubOp) (ops : List StubOp) (x : Pubkey) :
    latest D (op :: ops) x = if stubTarget D op = x then stubSays op else latest D ops x := by
  unfold latest
  rw [List.find?_cons]
  by_cases e : stubTarget D op = x
  · rw [decide_eq_true e, if_pos e]; rfl
  · rw [decide_eq_false e, if_neg e]

/-- An oracle exists exactly if the latest instruction about it was not its closing; then it shows the price and slot of this
instruction, the deviation zero, and it is where its owner and mint put it. -/
theorem C68_latest {D : StubAddr} {ops : List StubOp} {s : Stubs} (h : StubHistory D ops s) (x : Pubkey) :
    (s x).map (fun t => (t.price, t.lastUpdateSlot)) = latest D ops x ∧
    ∀ t, s x = some t → x = D.addr t.owner t.mint ∧ t.deviation = .fin 0 := by
  refine ⟨?_, stub_inv h x⟩
  induction h with
  | nil => rfl
  | step ops s s' op hh hs ih =>
    rw [latest_cons]
    cases op with
    | create o m p now slot =>
      obtain ⟨_, rfl⟩ := stub_create hs
      show _ = if D.addr o m = x then _ else _
      by_cases e : x = D.addr o m
      · simp [e, stubSays]
      · rw [if_neg (fun c => e (Eq.symm c))]; simp only [if_neg e]; exact ih
    | set o y p now slot =>
      obtain ⟨u, h1, _, rfl⟩ := stub_set hs
      show _ = if y = x then _ else _
      by_cases e : x = y
      · simp [e, stubSays]
      · rw [if_neg (fun c => e (Eq.symm c))]; simp only [if_neg e]; exact ih
    | close o y =>
      obtain ⟨_, _, _, rfl⟩ := stub_close hs
      show _ = if y = x then _ else _
      by_cases e : x = y
      · simp [e, stubSays]
      · rw [if_neg (fun c => e (Eq.symm c))]; simp only [if_neg e]; exact ih

/-- A market with one oracle, a stub of `o`: if an instruction gets a price, then it is computed from the latest announcement of `o`, and
unless that was in slot 0, it is not older than the market allows. -/
theorem C68_price {D : StubAddr} {ops : List StubOp} {s : Stubs} (h : StubHistory D ops s) {m : Market} {i : OracleInfo} {o mint : Pubkey}
    {slot : Nat} {l : Int} (hb : m.oracleB = 0) (hslot : slot < 2 ^ 64)
    (hl : oraclePriceLots m i (s.passed (D.addr o mint)) none slot = .ok (some l)) :
    ∃ p t bits, latest D ops (D.addr o mint) = some (p, t) ∧ fixedPrice i p = .ok (some bits) ∧ nativePriceToLot m bits = .ok l ∧
      (t ≠ 0 → 0 ≤ i.config.maxStalenessSlots → (slot : Int) ≤ t + i.config.maxStalenessSlots) := by
  obtain ⟨_, bits, h1, h2⟩ := price_cases hl
  rcases h2 with ⟨_, x, os, e1, e2, e3, e4, e5⟩ | ⟨hb', _⟩
  · have hlat := (C68_latest h (D.addr o mint)).1
    unfold Stubs.passed at e1
    cases hs : s (D.addr o mint) with
    | none => rw [hs] at e1; cases e1
    | some u =>
      rw [hs] at e1 hlat
      injection e1 with e1; injection e1 with _ e1; subst e1
      have e2' := e2
      unfold OracleAcc.state at e2
      injection e2 with e2; subst e2
      refine ⟨u.price, u.lastUpdateSlot, bits, hlat.symm, e5, h1, fun ht h0 => ?_⟩
      exact not_stale e2' e3 (by simp only [lastUpdate, if_neg ht]) h0 (by unfold maxSlot; omega)
  · exact absurd hb hb'

/-- A price that is not negative and was announced recently enough is used: the market does not reject it as stale or uncertain. -/
theorem C68_used {D : StubAddr} {ops : List StubOp} {s : Stubs} (h : StubHistory D ops s) {m : Market} {i : OracleInfo} {o mint : Pubkey}
    {slot t : Nat} {p c : Rat} {bits l : Int} (ha : m.oracleA = D.addr o mint) (hb : m.oracleB = 0)
    (hlat : latest D ops (D.addr o mint) = some (.fin p, t)) (hp : 0 ≤ p) (hc : i.config.confFilter = .fin c) (h0 : 0 ≤ c)
    (hfresh : t = 0 ∨ i.config.maxStalenessSlots < 0 ∨ (slot : Int) ≤ t + i.config.maxStalenessSlots) (hslot : slot < 2 ^ 64)
    (hbits : fixedPrice i (.fin p) = .ok (some bits)) (hl : nativePriceToLot m bits = .ok l) :
    oraclePriceLots m i (s.passed (D.addr o mint)) none slot = .ok (some l) := by
  obtain ⟨h1, h2⟩ := C68_latest h (D.addr o mint)
  rw [hlat] at h1
  cases hs : s (D.addr o mint) with
  | none => rw [hs] at h1; cases h1
  | some u =>
    rw [hs] at h1
    obtain ⟨_, hd⟩ := h2 u hs
    injection h1 with h1; injection h1 with hp' ht
    have hpass : s.passed (D.addr o mint) = some (D.addr o mint, .stub (.fin p) (.fin 0) t) := by
      unfold Stubs.passed; rw [hs]; simp only [Option.map_some, hp', ht, hd]
    have hst : OracleState.isStale { price := .fin p, deviation := .fin 0, lastUpdateSlot := if t = 0 then maxSlot else t } i.config slot = false := by
      unfold OracleState.isStale
      rw [Bool.and_eq_false_iff, decide_eq_false_iff_not, decide_eq_false_iff_not]
      by_cases hm : 0 ≤ i.config.maxStalenessSlots
      · right
        simp only
        unfold maxSlot
        split <;> omega
      · left; exact hm
    have hconf : OracleState.hasValidConfidence { price := .fin p, deviation := .fin 0, lastUpdateSlot := if t = 0 then maxSlot else t } i.config = true := by
      unfold OracleState.hasValidConfidence
      simp only [hc, fin_mul]
      have hcp : 0 ≤ c * p := mul_nonneg h0 hp
      have : F64.gt (.fin 0) (F64.rnd (c * p)) = false := by
        unfold F64.rnd
        split
        · simp [F64.gt]
        · simp only
          split
          · simp [F64.gt, not_lt.mpr hcp]
          · simp only [F64.gt, decide_eq_false_iff_not, not_lt]
            have hu : 0 < pow2 (max (ilog2 (c * p)) (-1022) - 52) := by rw [pow2_eq]; positivity
            exact mul_nonneg (by exact_mod_cast roundEven_nonneg (div_nonneg hcp hu.le)) hu.le
      rw [this]; rfl
    have hne : m.oracleA ≠ 0 := by rw [ha]; exact D.ne_zero _ _
    unfold oraclePriceLots
    simp only [bind_ok, req_ok]
    refine ⟨(), by rw [ha, hpass]; rfl, (), by rw [hb]; rfl, some bits, ?_, ?_⟩
    · rw [if_neg (fun c => c.2 hb), if_pos hne, hpass]
      simp only [unwrapR, ok_bind, oraclePriceFromA, OracleAcc.state, hst, hconf]
      simpa using hbits
    · simp only [bind_ok, pure_ok]
      exact ⟨l, hl, rfl⟩

namespace StubCase
open Scenario

def derive : StubAddr where
  addr o m := Nat.pair o m + 1
  inj h := Nat.pair_eq_pair.mp (by have : Nat.pair _ _ + 1 = Nat.pair _ _ + 1 := h; omega)
  ne_zero o m := Nat.succ_ne_zero _

/-- Owner 3 announces 1000 and then 2000; another oracle is created and closed in between. -/
def past : List StubOp :=
  [.set 3 (derive.addr 3 10) (.fin 2000) 60 9, .close 7 (derive.addr 7 10), .create 7 10 (.fin 5) 50 8, .create 3 10 (.fin 1000) 40 7]

def after : List StubOp → R Stubs
  | [] => .ok (fun _ => none)
  | op :: ops => do (← after ops).step derive op

theorem after_history {ops : List StubOp} {s : Stubs} (h : after ops = .ok s) : StubHistory derive ops s := by
  induction ops generalizing s with
  | nil => injection h with h; rw [← h]; exact .nil
  | cons op ops ih =>
    unfold after at h
    cases h1 : after ops with
    | error e => rw [h1] at h; cases h
    | ok s1 => rw [h1] at h; exact .step ops s1 s op (ih h1) h

/-- A market with this oracle sees the price 2000 for ten slots, as 20000 lots. -/
example : ∃ (s : Stubs) (m : Market) (i : OracleInfo) (bits : Int), StubHistory derive past s ∧ m.oracleA = derive.addr 3 10 ∧ m.oracleB = 0 ∧
    latest derive past (derive.addr 3 10) = some (.fin 2000, 9) ∧ i.config = { confFilter := .fin (1 / 10), maxStalenessSlots := 10 } ∧
    fixedPrice i (.fin 2000) = .ok (some bits) ∧ nativePriceToLot m bits = .ok 20000 ∧
    oraclePriceLots m i (s.passed (derive.addr 3 10)) none 19 = .ok (some 20000) ∧
    oraclePriceLots m i (s.passed (derive.addr 3 10)) none 20 = .ok none := by
  obtain ⟨s, h1, h2⟩ := okAnd_spec (r := after past) (p := fun s =>
    decide (oraclePriceLots { args.market with oracleA := derive.addr 3 10 }
      { config := { confFilter := .fin (1 / 10), maxStalenessSlots := 10 }, baseDecimals := 6, quoteDecimals := 6 }
      (s.passed (derive.addr 3 10)) none 19 = .ok (some 20000)) &&
    decide (oraclePriceLots { args.market with oracleA := derive.addr 3 10 }
      { config := { confFilter := .fin (1 / 10), maxStalenessSlots := 10 }, baseDecimals := 6, quoteDecimals := 6 }
      (s.passed (derive.addr 3 10)) none 20 = .ok none)) (by decide +kernel)
  rw [Bool.and_eq_true, decide_eq_true_eq, decide_eq_true_eq] at h2
  exact ⟨s, _, _, 2000 * 281474976710656, after_history h1, rfl, rfl, by decide +kernel, rfl, by decide +kernel, by decide +kernel, h2⟩

end StubCase

end OB
