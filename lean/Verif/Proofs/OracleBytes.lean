import Verif.Spec.OracleBytes
import Verif.Proofs.TsEvents
import Verif.Proofs.Ieee
import Verif.Proofs.Oracle
/-! Reading oracle accounts from bytes. -/
namespace OB
open Spec Layout

/-! ### doubles -/

theorem ofBits_parts {s e m : Nat} (hs : s < 2) (he : e < 2048) (hm : m < 2 ^ 52) :
    F64.ofBits (s * 2 ^ 63 + (e * 2 ^ 52 + m)) = if e = 2047 then (if m = 0 then .inf (decide (s = 1)) else .nan)
      else .fin (let v : Rat := if e = 0 then (m : Rat) * 2 ^ (-1074 : Int) else ((2 ^ 52 + m : Nat) : Rat) * 2 ^ ((e : Int) - 1075)
        if s = 1 then -v else v) := by
  have h1 : (s * 2 ^ 63 + (e * 2 ^ 52 + m)) / 2 ^ 63 % 2 = s := by omega
  have h2 : (s * 2 ^ 63 + (e * 2 ^ 52 + m)) / 2 ^ 52 % 2 ^ 11 = e := by omega
  have h3 : (s * 2 ^ 63 + (e * 2 ^ 52 + m)) % 2 ^ 52 = m := by omega
  unfold F64.ofBits
  simp only [h1, h2, h3, pow2_eq]

theorem bits_parts {n : Nat} (h : n < 2 ^ 64) : ∃ s e m, s < 2 ∧ e < 2048 ∧ m < 2 ^ 52 ∧ n = s * 2 ^ 63 + (e * 2 ^ 52 + m) :=
  ⟨n / 2 ^ 63, n / 2 ^ 52 % 2 ^ 11, n % 2 ^ 52, by omega, by omega, by omega, by omega⟩

theorem isDouble_neg {v : Rat} (h : IsDouble v) : IsDouble (-v) := by
  obtain ⟨m, e, h1, h2, h3, h4⟩ := h
  exact ⟨-m, e, by rwa [abs_neg], h2, h3, by rw [h4]; push_cast; ring⟩

theorem ofBits_double {n : Nat} (h : n < 2 ^ 64) :
    F64.ofBits n = .nan ∨ (∃ b, F64.ofBits n = .inf b) ∨ ∃ v, F64.ofBits n = .fin v ∧ IsDouble v := by
  obtain ⟨s, e, m, hs, he, hm, rfl⟩ := bits_parts h
  rw [ofBits_parts hs he hm]
  split
  · split
    · exact .inr (.inl ⟨_, rfl⟩)
    · exact .inl rfl
  · rename_i hne
    refine .inr (.inr ⟨_, rfl, ?_⟩)
    have hv : IsDouble (if e = 0 then (m : Rat) * 2 ^ (-1074 : Int) else ((2 ^ 52 + m : Nat) : Rat) * 2 ^ ((e : Int) - 1075)) := by
      split
      · refine ⟨m, -1074, ?_, by omega, by omega, by push_cast; rfl⟩
        rw [abs_of_nonneg (by omega)]; omega
      · refine ⟨((2 ^ 52 + m : Nat) : Int), (e : Int) - 1075, ?_, by omega, by omega, by push_cast; rfl⟩
        rw [abs_of_nonneg (by omega)]; omega
    simp only
    split
    · exact isDouble_neg hv
    · exact hv

/-- The form of a double with 53 bits, or with the smallest exponent. -/
theorem double_form {v : Rat} (h : IsDouble v) :
    ∃ (M : Nat) (e : Int), M < 2 ^ 53 ∧ (2 ^ 52 ≤ M ∨ e = -1074) ∧ -1074 ≤ e ∧ e ≤ 971 ∧ |v| = (M : Rat) * 2 ^ e := by
  by_cases h0 : v = 0
  · exact ⟨0, -1074, by norm_num, .inr rfl, le_refl _, by norm_num, by simp [h0]⟩
  obtain ⟨m, e, h1, h2, h3, h4⟩ := h
  obtain ⟨k1, k2⟩ := ilog2_spec h0
  have hva : |v| = ((|m| : Int) : Rat) * 2 ^ e := by
    rw [h4, abs_mul, abs_of_pos (two_pos' e)]; push_cast; rfl
  have hm53 : ((|m| : Int) : Rat) < 2 ^ (53 : Int) := by
    have : ((|m| : Int) : Rat) < ((2 ^ 53 : Int) : Rat) := by exact_mod_cast h1
    refine lt_of_lt_of_eq this ?_
    norm_num
  have hee : max (ilog2 v) (-1022) - 52 ≤ e := by
    rcases le_total (ilog2 v) (-1022) with hl | hl
    · rw [max_eq_right hl]; omega
    · rw [max_eq_left hl]
      have : (2 : Rat) ^ ilog2 v < 2 ^ (53 + e) := by
        rw [two_add]
        exact lt_of_le_of_lt k1 (by rw [hva]; exact mul_lt_mul_of_pos_right hm53 (two_pos' e))
      have := two_lt this
      omega
  obtain ⟨k, hk⟩ := Int.eq_ofNat_of_zero_le (show 0 ≤ e - (max (ilog2 v) (-1022) - 52) by omega)
  have hM : |v| = ((|m|.toNat * 2 ^ k : Nat) : Rat) * 2 ^ (max (ilog2 v) (-1022) - 52) := by
    rw [hva, show e = (k : Int) + (max (ilog2 v) (-1022) - 52) by omega, two_add, zpow_natCast]
    have : ((|m|.toNat : Nat) : Rat) = ((|m| : Int) : Rat) := by
      have := Int.toNat_of_nonneg (abs_nonneg m)
      exact_mod_cast this
    push_cast [this]
    ring
  generalize hE : max (ilog2 v) (-1022) - 52 = E at *
  refine ⟨|m|.toNat * 2 ^ k, E, ?_, ?_, by omega, by omega, hM⟩
  · have : |v| < 2 ^ (53 + E) := lt_of_lt_of_le k2 (two_le (by omega))
    rw [hM, two_add] at this
    have := lt_of_mul_lt_mul_right this (le_of_lt (two_pos' E))
    have h53 : (2 : Rat) ^ (53 : Int) = ((2 ^ 53 : Nat) : Rat) := by norm_num
    rw [h53] at this
    exact_mod_cast this
  · by_cases hE' : E = -1074
    · exact .inr hE'
    · left
      have : (2 : Rat) ^ (52 + E) ≤ |v| := le_trans (two_le (by omega)) k1
      rw [hM, two_add] at this
      have := le_of_mul_le_mul_right this (two_pos' E)
      have h52 : (2 : Rat) ^ (52 : Int) = ((2 ^ 52 : Nat) : Rat) := by norm_num
      rw [h52] at this
      exact_mod_cast this

theorem double_bits {v : Rat} (h : IsDouble v) : ∃ n < 2 ^ 64, F64.ofBits n = .fin v := by
  obtain ⟨M, e, h1, h2, h3, h4, h5⟩ := double_form h
  obtain ⟨s, hs, hsv⟩ : ∃ s : Nat, s < 2 ∧ v = if s = 1 then -|v| else |v| := by
    rcases le_total 0 v with h | h
    · exact ⟨0, by omega, by rw [if_neg (by omega), abs_of_nonneg h]⟩
    · exact ⟨1, by omega, by rw [if_pos rfl, abs_of_nonpos h, neg_neg]⟩
  by_cases hM : M < 2 ^ 52
  · have he : e = -1074 := by rcases h2 with h2 | h2 <;> omega
    refine ⟨s * 2 ^ 63 + (0 * 2 ^ 52 + M), by omega, ?_⟩
    rw [ofBits_parts hs (by omega) hM, if_neg (by omega)]
    simp only [if_true]
    rw [← he, ← h5, ← hsv]
  · obtain ⟨x, hx⟩ := Int.eq_ofNat_of_zero_le (show 0 ≤ e + 1075 by omega)
    refine ⟨s * 2 ^ 63 + (x * 2 ^ 52 + (M - 2 ^ 52)), by omega, ?_⟩
    rw [ofBits_parts hs (by omega) (by omega), if_neg (by omega)]
    simp only
    rw [if_neg (show x ≠ 0 by omega), show 2 ^ 52 + (M - 2 ^ 52) = M by omega, show (x : Int) - 1075 = e by omega, ← h5, ← hsv]

/-! ### the kind of an account -/

theorem magic_iff {d : Bytes} (h : 4 ≤ d.length) : at' 4 0 d = pythMagic ↔ d.take 4 = [0xd4, 0xc3, 0xb2, 0xa1] := by
  match d, h with
  | a :: b :: c :: e :: r, _ =>
    unfold at' pythMagic
    simp only [List.drop_zero, List.take_succ_cons, List.take_zero, Ts.unle, List.cons.injEq, and_true]
    have ha := a.toNat_lt
    have hb := b.toNat_lt
    have hc := c.toNat_lt
    have he := e.toNat_lt
    rw [← UInt8.toNat_inj, ← UInt8.toNat_inj, ← UInt8.toNat_inj, ← UInt8.toNat_inj]
    simp only [show (0xd4 : UInt8).toNat = 212 from rfl, show (0xc3 : UInt8).toNat = 195 from rfl, show (0xb2 : UInt8).toNat = 178 from rfl,
      show (0xa1 : UInt8).toNat = 161 from rfl]
    omega

/-- Of what looks foreign the owner is not asked. -/
theorem determine_foreign {F : Feeds} {a : RawAccount} (h : LooksForeign a.data) (o : Pubkey) :
    determineType F a = determineType F { a with owner := o } := by
  have h4 : 4 ≤ a.data.length := by
    rcases h with h | h <;> (have := congrArg List.length h; simp at this; omega)
  unfold determineType
  simp only
  congr 1; funext _
  by_cases hm : at' 4 0 a.data = pythMagic
  · rw [if_pos hm, if_pos hm]
  · rw [if_neg hm, if_neg hm]
    have h8 := h.resolve_left (fun e => hm ((magic_iff h4).mpr e))
    congr 1; funext _
    have h1 : a.data.take 8 ≠ stubDisc := by rw [h8]; decide
    have h2 : a.data.take 8 = switchboardDisc := h8
    rw [if_neg h1, if_neg h1, if_pos h2, if_pos h2]

/-- The kinds that are recognised by their data. -/
theorem determine_kind {F : Feeds} {a : RawAccount} {t : OracleType} (h : determineType F a = .ok t) :
    ((t = .pyth ∨ t = .switchboardV2) ∧ LooksForeign a.data) ∨ (t = .stub ∧ startsAsStub a.data ∧ ¬ LooksForeign a.data) ∨
      (t = .switchboardV1 ∧ (a.owner = F.switchboardDevnet ∨ a.owner = F.switchboardMainnet) ∧ ¬ LooksForeign a.data) ∨
      (t = .raydium ∧ a.owner = F.raydium ∧ ¬ LooksForeign a.data) := by
  unfold determineType at h
  simp only [assertR, bind_ok, req_ok] at h
  obtain ⟨_, h4, h⟩ := h
  split at h
  · rename_i hm
    injection h with h; subst h
    exact .inl ⟨.inl rfl, .inl ((magic_iff h4).mp hm)⟩
  rename_i hm
  have hm' : ¬ a.data.take 4 = [0xd4, 0xc3, 0xb2, 0xa1] := fun e => hm ((magic_iff h4).mpr e)
  simp only [bind_ok] at h
  obtain ⟨_, _, h⟩ := h
  split at h
  · rename_i hs
    injection h with h; subst h
    exact .inr (.inl ⟨rfl, hs, fun hf => (by rcases hf with hf | hf; exact hm' hf; rw [hs] at hf; revert hf; decide)⟩)
  split at h
  · rename_i hs
    injection h with h; subst h
    exact .inl ⟨.inr rfl, .inr hs⟩
  rename_i hs
  have hf : ¬ LooksForeign a.data := fun hf => hf.elim hm' hs
  split at h
  · rename_i ho
    injection h with h; subst h
    exact .inr (.inr (.inl ⟨rfl, ho, hf⟩))
  split at h
  · rename_i ho
    injection h with h; subst h
    exact .inr (.inr (.inr ⟨rfl, ho, hf⟩))
  · cases h

theorem determine_short {F : Feeds} {a : RawAccount} (h : a.data.length < 4 ∨ (a.data.length < 8 ∧ ¬ LooksForeign a.data)) :
    determineType F a = .error .panic := by
  unfold determineType
  by_cases h4 : 4 ≤ a.data.length
  · obtain ⟨h8, hf⟩ := h.resolve_left (by omega)
    rw [assertR, req_true h4, ok_bind, if_neg (fun e => hf (.inl ((magic_iff h4).mp e))), assertR, req, if_neg (by omega)]
    rfl
  · rw [assertR, req, if_neg h4]
    rfl

/-! ### prices -/

theorem raw_eq {F : Feeds} {m : Market} {i : OracleInfo} {a b : RawPassed} {a' b' : OraclePassed} {slot : Nat}
    (ha : ReadsAs F (m.oracleA ≠ 0) a a') (hb : ReadsAs F (m.oracleA ≠ 0 ∧ m.oracleB ≠ 0) b b') :
    rawPriceLots F m i a b slot = oraclePriceLots m i a' b' slot := by
  have key : ∀ {n : Prop} {x : RawPassed} {y : OraclePassed}, ReadsAs F n x y → (x.map (·.1)).getD 0 = passedKey y := by
    intro n x y h
    match x, y, h with
    | none, none, _ => rfl
    | some _, some _, h => exact h.1
  unfold rawPriceLots oraclePriceLots
  rw [key ha, key hb]
  congr 1; funext _
  congr 1; funext _
  congr 1
  by_cases h1 : m.oracleA = 0
  · simp [h1]
  by_cases h2 : m.oracleB = 0
  · have hn : ¬ (m.oracleA ≠ 0 ∧ m.oracleB ≠ 0) := by simp [h2]
    rw [if_neg hn, if_neg hn, if_pos h1, if_pos h1]
    match a, a', ha with
    | none, none, _ => rfl
    | some (_, x), some _, ha =>
      simp only [unwrapR, ok_bind, ha.2 h1]
  · rw [if_pos ⟨h1, h2⟩, if_pos ⟨h1, h2⟩]
    match a, a', ha with
    | none, none, _ => rfl
    | some (_, x), some _, ha =>
      match b, b', hb with
      | none, none, _ => rfl
      | some (_, y), some _, hb =>
        simp only [unwrapR, ok_bind, ha.2 h1, hb.2 ⟨h1, h2⟩]

/-- If there is an answer then the oracles were read. -/
theorem raw_read {F : Feeds} {m : Market} {i : OracleInfo} {a b : RawPassed} {slot : Nat} {o : Option Int}
    (h : rawPriceLots F m i a b slot = .ok o) :
    ∃ a' b', ReadsAs F (m.oracleA ≠ 0) a a' ∧ ReadsAs F (m.oracleA ≠ 0 ∧ m.oracleB ≠ 0) b b' := by
  have free : ∀ {n : Prop} (x : RawPassed), ¬ n → ∃ y, ReadsAs F n x y := by
    intro n x hn
    cases x with
    | none => exact ⟨none, trivial⟩
    | some x => exact ⟨some (x.1, .unknown), rfl, fun h => absurd h hn⟩
  unfold rawPriceLots at h
  simp only [bind_ok] at h
  obtain ⟨_, _, _, _, price, h, _⟩ := h
  by_cases h1 : m.oracleA = 0
  · obtain ⟨a', ha⟩ := free (n := m.oracleA ≠ 0) a (by simp [h1])
    obtain ⟨b', hb⟩ := free (n := m.oracleA ≠ 0 ∧ m.oracleB ≠ 0) b (by simp [h1])
    exact ⟨a', b', ha, hb⟩
  by_cases h2 : m.oracleB = 0
  · obtain ⟨b', hb⟩ := free (n := m.oracleA ≠ 0 ∧ m.oracleB ≠ 0) b (by simp [h2])
    rw [if_neg (by simp [h2]), if_pos h1] at h
    simp only [bind_ok, unwrapR_ok] at h
    obtain ⟨⟨k, x⟩, rfl, x', hx, _⟩ := h
    exact ⟨some (k, x'), b', ⟨rfl, fun _ => hx⟩, hb⟩
  · rw [if_pos ⟨h1, h2⟩] at h
    simp only [bind_ok, unwrapR_ok] at h
    obtain ⟨⟨k, x⟩, rfl, ⟨k', y⟩, rfl, x', hx, y', hy, _⟩ := h
    exact ⟨some (k, x'), some (k', y'), ⟨rfl, fun _ => hx⟩, ⟨rfl, fun _ => hy⟩⟩

theorem raw_oracle {F : Feeds} {m : Market} {a b : RawPassed} {a' b' : OraclePassed} {x : RawAccount} (hx : IsRawOracle m a b x)
    (ha : ReadsAs F (m.oracleA ≠ 0) a a') (hb : ReadsAs F (m.oracleA ≠ 0 ∧ m.oracleB ≠ 0) b b') : ∃ y, readOracle F x = .ok y := by
  obtain ⟨h1, rfl | ⟨h2, rfl⟩⟩ := hx
  · cases a' with
    | none => exact absurd ha id
    | some y => exact ⟨_, ha.2 h1⟩
  · cases b' with
    | none => exact absurd hb id
    | some y => exact ⟨_, hb.2 ⟨h1, h2⟩⟩

theorem stepRaw_ok {F : Feeds} {s s' : State} {i : OracleInfo} {a b : RawPassed} {slot : Nat} {op : Op} (hu : op.usesOracle = true)
    (h : stepRaw F s i a b slot op = .ok s') : ∃ o, rawPriceLots F s.g.market i a b slot = .ok o := by
  unfold stepRaw at h
  rw [if_pos hu] at h
  simp only [bind_ok] at h
  exact ⟨_, h.choose_spec.1⟩

theorem read_kind {F : Feeds} {a : RawAccount} {x : OracleAcc} (h : readOracle F a = .ok x) :
    LooksForeign a.data ∨ (a.owner = F.program ∧ startsAsStub a.data) ∨ a.owner = F.switchboardDevnet ∨ a.owner = F.switchboardMainnet ∨
      a.owner = F.raydium := by
  unfold readOracle at h
  simp only [bind_ok] at h
  obtain ⟨t, ht, h⟩ := h
  rcases determine_kind ht with ⟨_, h1⟩ | ⟨rfl, h1, _⟩ | ⟨rfl, h1, _⟩ | ⟨rfl, h1, _⟩
  · exact .inl h1
  · simp only [readStub, bind_ok, req_ok] at h
    exact .inr (.inl ⟨h.choose_spec.1, h1⟩)
  · exact .inr (.inr (h1.elim .inl (fun h => .inr (.inl h))))
  · exact .inr (.inr (.inr (.inr h1)))

theorem read_foreign {F : Feeds} {a : RawAccount} (h : LooksForeign a.data) (o : Pubkey) :
    readOracle F a = readOracle F { a with owner := o } := by
  unfold readOracle
  rw [determine_foreign h o]
  cases ht : determineType F { a with owner := o } with
  | error e => rfl
  | ok t =>
    rw [ok_bind, ok_bind]
    rcases determine_kind ht with ⟨ht, _⟩ | ⟨_, _, h1⟩ | ⟨_, _, h1⟩ | ⟨_, _, h1⟩
    · rcases ht with rfl | rfl <;> rfl
    · exact absurd h h1
    · exact absurd h h1
    · exact absurd h h1

end OB
