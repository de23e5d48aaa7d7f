import Verif.Proofs.LogsRun
import Verif.Proofs.OOLife
import Verif.Proofs.StepAcct
import Verif.Spec.Volume
/-! The sums of the volumes of all accounts. -/
namespace OB
open Spec

theorem sum_of_perm {xs ys : List Int} (h : xs.Perm ys) : xs.sum = ys.sum := by
  induction h with
  | nil => rfl
  | cons x _ ih => simp only [List.sum_cons, ih]
  | swap x y l => simp only [List.sum_cons]; omega
  | trans _ _ h1 h2 => rw [h1, h2]

/-- Value of an account, 0 if it does not exist. -/
def valOf (as : Accts) (v : OOA → Int) (k : Pubkey) : Int := ((as.get? k).map v).getD 0

def acctSum (as : Accts) (v : OOA → Int) : Int := (as.map (fun x => v x.2)).sum

theorem acctSum_keys {as : Accts} (hn : (as.map (·.1)).Nodup) (v : OOA → Int) : acctSum as v = ((as.map (·.1)).map (valOf as v)).sum := by
  unfold acctSum
  rw [List.map_map]
  congr 1
  refine List.map_congr_left (fun x hx => ?_)
  show v x.2 = valOf as v x.1
  unfold valOf
  rw [(Accts.get?_some_iff hn).mpr (show (x.1, x.2) ∈ as from hx)]
  rfl

theorem sum_filters {α : Type} (ks : List Pubkey) (hn : ks.Nodup) (xs : List α) (key : α → Pubkey) (v : α → Int) :
    (ks.map (fun k => sumOf (xs.filter (fun x => key x = k)) v)).sum = sumOf (xs.filter (fun x => decide (key x ∈ ks))) v := by
  induction ks with
  | nil => simp [sumOf]
  | cons k ks ih =>
    rw [List.nodup_cons] at hn
    rw [List.map_cons, List.sum_cons, ih hn.2]
    clear ih
    induction xs with
    | nil => rfl
    | cons x xs ih =>
      by_cases h1 : key x = k
      · have h2 : key x ∉ ks := by rw [h1]; exact hn.1
        have h3 : key x ∈ k :: ks := by simp [h1]
        simp only [List.filter_cons, h1, hn.1, List.mem_cons, true_or, decide_true, if_true, decide_false, Bool.false_eq_true, if_false]
        simp only [sumOf, List.map_cons, List.sum_cons, List.mem_cons] at *
        omega
      · by_cases h2 : key x ∈ ks
        · have h3 : key x ∈ k :: ks := by simp [h2]
          simp only [List.filter_cons, h1, h2, h3, decide_true, if_true, decide_false, Bool.false_eq_true, if_false]
          simp only [sumOf, List.map_cons, List.sum_cons, List.mem_cons] at *
          omega
        · have h3 : key x ∉ k :: ks := by simp [h1, h2]
          simp only [List.filter_cons, h1, h2, h3, decide_false, Bool.false_eq_true, if_false]
          exact ih

/-- The same accounts, each with its own gain. -/
theorem acctSum_gain {A A' : Accts} (hn : (A.map (·.1)).Nodup) (hn' : (A'.map (·.1)).Nodup)
    (hk : ∀ k, (A'.get? k).isSome = (A.get? k).isSome) (v : OOA → Int) (gain : Pubkey → Int)
    (h : ∀ k a a', A.get? k = some a → A'.get? k = some a' → v a' = v a + gain k) :
    acctSum A' v = acctSum A v + ((A.map (·.1)).map gain).sum := by
  have hp : (A'.map (·.1)).Perm (A.map (·.1)) := by
    refine (List.perm_ext_iff_of_nodup hn' hn).mpr (fun k => ?_)
    rw [← Accts.isSome_get?, ← Accts.isSome_get?, hk]
  rw [acctSum_keys hn', acctSum_keys hn, sum_of_perm (hp.map _)]
  have key : ∀ ks : List Pubkey, (∀ k ∈ ks, (A.get? k).isSome) →
      (ks.map (valOf A' v)).sum = (ks.map (valOf A v)).sum + (ks.map gain).sum := by
    intro ks
    induction ks with
    | nil => intro _; rfl
    | cons k ks ih =>
      intro hks
      have := ih (fun j hj => hks j (by simp [hj]))
      simp only [List.map_cons, List.sum_cons]
      have hs := hks k (by simp)
      obtain ⟨a, ha⟩ := Option.isSome_iff_exists.mp hs
      rw [← hk] at hs
      obtain ⟨a', ha'⟩ := Option.isSome_iff_exists.mp hs
      have e := h k a a' ha ha'
      have e1 : valOf A' v k = v a' := by unfold valOf; rw [ha']; rfl
      have e2 : valOf A v k = v a := by unfold valOf; rw [ha]; rfl
      rw [e1, e2]
      omega
  exact key _ (fun k hk => Accts.isSome_get?.mpr hk)

theorem acctSum_del {A : Accts} (v : OOA → Int) {k : Pubkey} {a : OOA} (h : A.get? k = some a) : acctSum (A.del k) v + v a = acctSum A v := by
  induction A with
  | nil => cases h
  | cons x xs ih =>
    rw [Accts.get?_cons] at h
    unfold Accts.del
    by_cases hx : x.1 = k
    · rw [if_pos hx] at h
      injection h with h
      rw [if_pos hx]
      unfold acctSum
      rw [List.map_cons, List.sum_cons, h]
      omega
    · rw [if_neg hx] at h
      rw [if_neg hx]
      have := ih h
      unfold acctSum at *
      rw [List.map_cons, List.sum_cons, List.map_cons, List.sum_cons]
      omega

theorem sum_split {α : Type} (xs : List α) (p : α → Bool) (v : α → Int) :
    sumOf (xs.filter p) v + sumOf (xs.filter (fun x => !p x)) v = sumOf xs v := by
  induction xs with
  | nil => rfl
  | cons x xs ih =>
    cases h : p x <;> simp only [List.filter_cons, h, sumOf, List.map_cons, List.sum_cons, if_true, Bool.false_eq_true, if_false, Bool.not_true, Bool.not_false] at * <;> omega

/-- The value of the totals of calls is the value of the fills. -/
theorem totals_value {m : Market} (cs : List (Env × OrderResult)) : sumOf (totalsFor m cs) totalValue = sumOf (tradesOf cs) (fillQuote m) := by
  have one : ∀ (env : Env) (r : OrderResult), totalValue (totalFor m env r) = sumOf r.fills (fillQuote m) := by
    intro env r
    have e : sumOf r.fills (fillQuote m) = Spec.sumQuote r.fills * m.quoteLotSize := by
      unfold sumOf Spec.sumQuote fillQuote
      generalize r.fills = fs
      induction fs with
      | nil => simp
      | cons f fs ih => simp only [List.map_cons, List.sum_cons, ih, Int.add_mul]
    rw [e]
    unfold totalValue totalFor
    cases env.order.side <;> simp
  induction cs with
  | nil => rfl
  | cons x cs ih =>
    have et : tradesOf (x :: cs) = x.2.fills ++ tradesOf cs := by simp [tradesOf]
    rw [et, sumOf_append, ← ih]
    by_cases hf : x.2.fills = []
    · have : totalsFor m (x :: cs) = totalsFor m cs := by unfold totalsFor; simp [hf]
      rw [this, hf, sumOf_nil]; omega
    · have : totalsFor m (x :: cs) = totalFor m x.1 x.2 :: totalsFor m cs := by unfold totalsFor; simp [hf]
      rw [this]
      have e := one x.1 x.2
      unfold sumOf at *
      rw [List.map_cons, List.sum_cons, e]

theorem nodup_of {s : State} (hr : Reachable s) : (s.g.accts.map (·.1)).Nodup := by
  obtain ⟨O, q, hw⟩ := (reachable_Inv hr).core.linv
  exact hw.ginv.nodup

/-- How the sums of the volumes change in one instruction. -/
theorem step_volumes {s s' : State} {op : Op} (hr : Reachable s) (h : step s op = .ok s') :
    makersTotal s' + makerGone s op - s'.g.market.makerVolume = makersTotal s - s.g.market.makerVolume ∧
    takersTotal s' + takerGone s op + s'.g.market.takerVolumeWoOo - (s'.g.market.makerVolume + waitingValue s') =
      takersTotal s + s.g.market.takerVolumeWoOo - (s.g.market.makerVolume + waitingValue s) := by
  obtain ⟨L, cr, dn, h1, h2, h3⟩ := step_emits hr h
  have hr' : Reachable s' := .step s s' op hr h
  have hc := (reachable_Inv hr).core
  have hcr : ∀ f ∈ cr, 0 ≤ f.quantity ∧ 0 ≤ f.price := by
    rcases h3 with ⟨_, rfl, _⟩ | ⟨p, s1, cs, g1, ls, _, hl, _, rfl⟩
    · intro f hf; cases hf
    · intro f hf; exact created_nonneg hl.place.calls hf
  have hdn : ∀ f ∈ dn, 0 ≤ f.quantity ∧ 0 ≤ f.price := fun f hf => by
    have := h2.queue.mem_iff.mpr (List.mem_append_left _ hf)
    rcases List.mem_append.mp this with hq | hq
    · exact queued_nonneg hr hq
    · exact hcr f hq
  -- the fills delivered, in true values
  have hraw : sumOf dn (rawQuote s.g.market) = sumOf dn (fillQuote s.g.market) := by
    have := h2.logs
    clear h2
    revert hdn
    generalize fillLogs L = ls at this
    induction this with
    | nil => intro _; rfl
    | @cons l f ls fs w _ ih =>
      intro hd
      have e := (raw_value hc.qls (hd f (by simp)) w)
      have i := ih (fun x hx => hd x (by simp [hx]))
      have e' : rawQuote s.g.market f = fillQuote s.g.market f := by
        unfold rawQuote fillQuote
        exact asU64_eq e.2.1 (by have := e.2.2; simp only [i64Max, u64Max] at *; omega)
      unfold sumOf at *
      rw [List.map_cons, List.sum_cons, List.map_cons, List.sum_cons, i, e']
  have hrt := step_rates hr h
  have hfq : fillQuote s'.g.market = fillQuote s.g.market := by funext f; unfold fillQuote; rw [hrt.lots]
  -- the queue
  have hqueue : waitingValue s + sumOf cr (fillQuote s.g.market) = sumOf dn (fillQuote s.g.market) + waitingValue s' := by
    have := sum_of_perm (h2.queue.map (fillQuote s.g.market))
    rw [List.map_append, List.map_append, List.sum_append, List.sum_append] at this
    unfold waitingValue sumOf
    rw [hfq]
    exact this
  -- the totals written
  have htot : sumOf (totalLogs L) totalValue = sumOf cr (fillQuote s.g.market) := by
    rcases h3 with ⟨_, rfl, ht⟩ | ⟨p, s1, cs, g1, ls, _, hl, rfl, rfl⟩
    · rw [ht]; rfl
    · rw [calls_total hl.place.calls hl.calls, totals_value]
      have : fillQuote s1.g.market = fillQuote s.g.market := by
        funext f; unfold fillQuote; rw [hl.place.market1 hr]
      rw [this]
  have hm := h2.mvol
  rw [hraw] at hm
  have hA := step_accts (reachable_Inv hr) h
  have quiet : totalLogs L = [] → dn = [] → s'.g.market.makerVolume = s.g.market.makerVolume ∧
      s'.g.market.takerVolumeWoOo = s.g.market.takerVolumeWoOo := by
    intro e1 e2
    refine ⟨by rw [hm, e2]; simp [sumOf], ?_⟩
    rw [h2.walk, e1]; simp [sumOf]
  have main : (∀ k, (s'.g.accts.get? k).isSome = (s.g.accts.get? k).isSome) →
      makersTotal s' = makersTotal s + sumOf dn (fillQuote s.g.market) ∧
      takersTotal s' + s'.g.market.takerVolumeWoOo = takersTotal s + s.g.market.takerVolumeWoOo + sumOf cr (fillQuote s.g.market) := by
    intro hk
    have g1 := acctSum_gain (nodup_of hr) (nodup_of hr') hk (fun a => a.position.makerVolume) _ h2.maker
    have g2 := acctSum_gain (nodup_of hr) (nodup_of hr') hk (fun a => a.position.takerVolume) _ h2.taker
    rw [sum_filters _ (nodup_of hr)] at g1 g2
    have f1 : dn.filter (fun x => decide (x.maker ∈ s.g.accts.map (·.1))) = dn := by
      refine List.filter_eq_self.mpr (fun f hf => ?_)
      rw [decide_eq_true_eq]
      exact Accts.isSome_get?.mp (h2.known f hf)
    have f2 : (fun x : TotalLog => decide (x.taker ∈ s.g.accts.map (·.1))) = (fun x => (s.g.accts.get? x.taker).isSome) := by
      funext x
      rw [Bool.eq_iff_iff, decide_eq_true_eq]
      exact Accts.isSome_get?.symm
    have f3 := sum_split (totalLogs L) (fun x => (s.g.accts.get? x.taker).isSome) totalValue
    have f4 : (fun x : TotalLog => !(s.g.accts.get? x.taker).isSome) = (fun x => (s.g.accts.get? x.taker).isNone) := by
      funext x; simp
    rw [f4] at f3
    rw [f1, hraw] at g1
    rw [f2] at g2
    have hw := h2.walk
    unfold acctSum at g1 g2
    simp only at g1 g2
    unfold makersTotal takersTotal
    constructor
    · exact g1
    · rw [g2, hw]; omega
  have other : makerGone s op = 0 → takerGone s op = 0 → (∀ k, (s'.g.accts.get? k).isSome = (s.g.accts.get? k).isSome) →
      makersTotal s' + makerGone s op - s'.g.market.makerVolume = makersTotal s - s.g.market.makerVolume ∧
      takersTotal s' + takerGone s op + s'.g.market.takerVolumeWoOo - (s'.g.market.makerVolume + waitingValue s') =
        takersTotal s + s.g.market.takerVolumeWoOo - (s.g.market.makerVolume + waitingValue s) := by
    intro e1 e2 hk
    obtain ⟨m1, m2⟩ := main hk
    rw [e1, e2]
    omega
  by_cases hcl : ∃ k o, op = .closeOO k o
  · obtain ⟨k, o, rfl⟩ := hcl
    have h' := h
    obtain ⟨a, ha, _, _, rfl⟩ := closeOO_inv h
    have e1 := acctSum_del (fun a => a.position.makerVolume) ha
    have e2 := acctSum_del (fun a => a.position.takerVolume) ha
    have e3 : makerGone s (.closeOO k o) = a.position.makerVolume := by simp [makerGone, ha]
    have e4 : takerGone s (.closeOO k o) = a.position.takerVolume := by simp [takerGone, ha]
    rw [e3, e4]
    unfold acctSum at e1 e2
    unfold makersTotal takersTotal
    simp only at e1 e2 ⊢
    have e5 : waitingValue { s with g := { s.g with accts := s.g.accts.del k } } = waitingValue s := rfl
    constructor
    · omega
    · show _ + _ + _ - (_ + waitingValue s) = _
      omega
  · by_cases hcr' : ∃ k o d, op = .createOO k o d
    · obtain ⟨k, o, d, rfl⟩ := hcr'
      obtain ⟨_, _, hn, rfl⟩ := createOO_inv h
      have e1 : makersTotal { s with g := { s.g with accts := s.g.accts ++ [(k, OOA.fresh o d)] } } = makersTotal s := by
        unfold makersTotal; simp [OOA.fresh]
      have e2 : takersTotal { s with g := { s.g with accts := s.g.accts ++ [(k, OOA.fresh o d)] } } = takersTotal s := by
        unfold takersTotal; simp [OOA.fresh]
      refine ⟨?_, ?_⟩
      · show makersTotal { s with g := { s.g with accts := s.g.accts ++ [(k, OOA.fresh o d)] } } + 0 - s.g.market.makerVolume = _
        rw [e1]; omega
      · show takersTotal { s with g := { s.g with accts := s.g.accts ++ [(k, OOA.fresh o d)] } } + 0 + s.g.market.takerVolumeWoOo -
          (s.g.market.makerVolume + waitingValue s) = _
        rw [e2]; omega
    · refine other ?_ ?_ (fun k => ?_)
      · cases op <;> first | rfl | exact absurd ⟨_, _, rfl⟩ hcl
      · cases op <;> first | rfl | exact absurd ⟨_, _, rfl⟩ hcl
      · cases hg : s.g.accts.get? k with
        | some a =>
          rcases hA.old k a hg with ⟨a', ha', _⟩ | ⟨_, e, _⟩
          · rw [ha']; rfl
          · exact absurd ⟨_, _, e⟩ hcl
        | none =>
          cases hg' : s'.g.accts.get? k with
          | none => rfl
          | some a' =>
            obtain ⟨o, d, e, _⟩ := hA.new k a' hg hg'
            exact absurd ⟨_, _, _, e⟩ hcr'

end OB
