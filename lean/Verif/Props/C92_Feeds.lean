import Verif.Proofs.OracleBytes
import Verif.Props.C52_Blocked
import Verif.Props.C68_Stub
/-!
C92  Prices come from feeds: what a market takes as its oracle is an account of an oracle program, read as that program wrote it.

False in the code for Pyth and the second version of Switchboard: they are recognised by the first bytes of the data, whoever owns the
account.  And a market can be created with an oracle that can not be read, whereupon nobody can trade.
-/
namespace OB
open Spec Layout Ts

/-- An instruction that gets oracle accounts as bytes is the instruction that gets what is read from them, so that what C49 to C52 and
C68 say holds for it. -/
theorem C92_read {F : Feeds} {s : State} {i : OracleInfo} {a b : RawPassed} {a' b' : OraclePassed} {slot : Nat} {op : Op}
    (ha : ReadsAs F (s.g.market.oracleA ≠ 0) a a') (hb : ReadsAs F (s.g.market.oracleA ≠ 0 ∧ s.g.market.oracleB ≠ 0) b b') :
    stepRaw F s i a b slot op = stepPriced s i a' b' slot op := by
  unfold stepRaw stepPriced
  rw [raw_eq ha hb]

/-- If it succeeds then the oracles were read. -/
theorem C92_readable {F : Feeds} {s s' : State} {i : OracleInfo} {a b : RawPassed} {slot : Nat} {op : Op} (hu : op.usesOracle = true)
    (h : stepRaw F s i a b slot op = .ok s') :
    ∃ a' b', ReadsAs F (s.g.market.oracleA ≠ 0) a a' ∧ ReadsAs F (s.g.market.oracleA ≠ 0 ∧ s.g.market.oracleB ≠ 0) b b' ∧
      stepPriced s i a' b' slot op = .ok s' := by
  obtain ⟨o, ho⟩ := stepRaw_ok hu h
  obtain ⟨a', b', ha, hb⟩ := raw_read ho
  exact ⟨a', b', ha, hb, (C92_read ha hb).symm.trans h⟩

/-- The oracles that an instruction used are accounts of this program that begin as a stub oracle, of Switchboard or of Raydium.
Missing: those that look like Pyth or the second version of Switchboard (`C92_any_owner`). -/
theorem C92_owner_partial {F : Feeds} {s s' : State} {i : OracleInfo} {a b : RawPassed} {slot : Nat} {op : Op} {x : RawAccount}
    (hu : op.usesOracle = true) (h : stepRaw F s i a b slot op = .ok s') (hx : IsRawOracle s.g.market a b x) (hf : ¬ LooksForeign x.data) :
    (x.owner = F.program ∧ startsAsStub x.data) ∨ x.owner = F.switchboardDevnet ∨ x.owner = F.switchboardMainnet ∨ x.owner = F.raydium := by
  obtain ⟨a', b', ha, hb, _⟩ := C92_readable hu h
  obtain ⟨y, hy⟩ := raw_oracle hx ha hb
  exact (read_kind hy).resolve_left hf

/-- What looks like Pyth or the second version of Switchboard is taken for it, whoever owns the account: another owner changes nothing,
neither when a market is created nor when orders are placed. -/
theorem C92_any_owner {F : Feeds} {x : RawAccount} (h : LooksForeign x.data) (o k : Pubkey) :
    (∀ args now tokens lamports, createRaw F args now tokens lamports (some (k, x)) none =
      createRaw F args now tokens lamports (some (k, { x with owner := o })) none) ∧
    (∀ s i slot op, stepRaw F s i (some (k, x)) none slot op = stepRaw F s i (some (k, { x with owner := o })) none slot op) := by
  constructor
  · intro args now tokens lamports
    unfold createRaw rawCheck givenRaw
    by_cases hk : k = 0
    · simp only [if_pos hk]; rfl
    · simp only [if_neg hk, determine_foreign h o]; rfl
  · intro s i slot op
    unfold stepRaw rawPriceLots
    simp only [Option.map, Option.getD, unwrapR, ok_bind, read_foreign h o]

/-- An account that is too short to tell what it is, as one that was closed, is no oracle: no market is created with it, and on a market
that has it as an oracle no order can be placed, whatever the order. -/
theorem C92_short {F : Feeds} {x : RawAccount} (h : x.data.length < 4 ∨ (x.data.length < 8 ∧ ¬ LooksForeign x.data)) :
    (∀ args now tokens lamports k s, k ≠ 0 → createRaw F args now tokens lamports (some (k, x)) none ≠ .ok s) ∧
    (∀ s i a b slot op s', op.usesOracle = true → IsRawOracle s.g.market a b x → stepRaw F s i a b slot op ≠ .ok s') := by
  constructor
  · intro args now tokens lamports k s hk he
    unfold createRaw rawCheck givenRaw at he
    simp only [if_neg hk, determine_short h, bind_ok, reduceCtorEq, false_and, exists_false, and_false] at he
  · intro s i a b slot op s' hu hx he
    obtain ⟨a', b', ha, hb, _⟩ := C92_readable hu he
    obtain ⟨y, hy⟩ := raw_oracle hx ha hb
    unfold readOracle at hy
    rw [determine_short h] at hy
    cases hy

theorem take_len {d p : Bytes} {n : Nat} (h : d.take n = p) (hn : p.length = n) : n ≤ d.length := by
  have := congrArg List.length h
  rw [List.length_take] at this
  omega

/-- The kind of an oracle is what the first bytes and the owner say. -/
theorem C92_kinds (F : Feeds) (a : RawAccount) (t : OracleType) : determineType F a = .ok t ↔ KindOf F a t := by
  by_cases h4 : 4 ≤ a.data.length
  swap
  · rw [determine_short (.inl (by omega))]
    refine ⟨fun h => (nomatch h), fun h => ?_⟩
    cases h with
    | pyth h => exact absurd (take_len h rfl) h4
    | stub h => have := take_len h rfl; omega
    | switchboardV2 h => have := take_len h rfl; omega
    | switchboardV1 _ _ h _ => omega
    | raydium _ _ h _ _ _ => omega
  have pref : ∀ {p : Bytes}, a.data.take 8 = p → a.data.take 4 = p.take 4 := by
    intro p h; rw [← h, List.take_take]; rfl
  by_cases hm : a.data.take 4 = [0xd4, 0xc3, 0xb2, 0xa1]
  · have : determineType F a = .ok .pyth := by
      unfold determineType
      rw [assertR, req_true h4, ok_bind, if_pos ((magic_iff h4).mpr hm)]; rfl
    rw [this]
    constructor
    · intro h; injection h with h; subst h; exact .pyth hm
    · intro h
      cases h with
      | pyth _ => rfl
      | stub h => have := pref h; rw [hm] at this; revert this; decide
      | switchboardV2 h => have := pref h; rw [hm] at this; revert this; decide
      | switchboardV1 h _ _ _ => exact absurd (.inl hm) h
      | raydium h _ _ _ _ _ => exact absurd (.inl hm) h
  by_cases h8 : 8 ≤ a.data.length
  swap
  · rw [determine_short (.inr ⟨by omega, fun h => h.elim hm (fun h => h8 (take_len h rfl))⟩)]
    refine ⟨fun h => (nomatch h), fun h => ?_⟩
    cases h with
    | pyth h => exact absurd h hm
    | stub h => exact absurd (take_len h rfl) h8
    | switchboardV2 h => exact absurd (take_len h rfl) h8
    | switchboardV1 _ _ h _ => exact absurd h h8
    | raydium _ _ h _ _ _ => exact absurd h h8
  have e : determineType F a = (if a.data.take 8 = stubDisc then return .stub
      else if a.data.take 8 = switchboardDisc then return .switchboardV2
      else if a.owner = F.switchboardDevnet ∨ a.owner = F.switchboardMainnet then return .switchboardV1
      else if a.owner = F.raydium then return .raydium
      else .error .unknownOracleType) := by
    unfold determineType
    rw [assertR, req_true h4, ok_bind, if_neg (fun e => hm ((magic_iff h4).mp e)), assertR, req_true h8, ok_bind]
  rw [e]
  by_cases hs : a.data.take 8 = stubDisc
  · rw [if_pos hs]
    constructor
    · intro h; injection h with h; subst h; exact .stub hs
    · intro h
      cases h with
      | pyth h => exact absurd h hm
      | stub _ => rfl
      | switchboardV2 h => rw [hs] at h; revert h; decide
      | switchboardV1 _ h _ _ => exact absurd hs h
      | raydium _ h _ _ _ _ => exact absurd hs h
  rw [if_neg hs]
  by_cases hb : a.data.take 8 = switchboardDisc
  · rw [if_pos hb]
    constructor
    · intro h; injection h with h; subst h; exact .switchboardV2 hb
    · intro h
      cases h with
      | pyth h => exact absurd h hm
      | stub h => exact absurd h hs
      | switchboardV2 _ => rfl
      | switchboardV1 h _ _ _ => exact absurd (.inr hb) h
      | raydium h _ _ _ _ _ => exact absurd (.inr hb) h
  rw [if_neg hb]
  have hf : ¬ LooksForeign a.data := fun h => h.elim hm hb
  by_cases h1 : a.owner = F.switchboardDevnet ∨ a.owner = F.switchboardMainnet
  · rw [if_pos h1]
    constructor
    · intro h; injection h with h; subst h; exact .switchboardV1 hf hs h8 h1
    · intro h
      cases h with
      | pyth h => exact absurd h hm
      | stub h => exact absurd h hs
      | switchboardV2 h => exact absurd h hb
      | switchboardV1 _ _ _ _ => rfl
      | raydium _ _ _ k1 k2 _ => exact absurd h1 (by simp [k1, k2])
  rw [if_neg h1]
  by_cases h2 : a.owner = F.raydium
  · rw [if_pos h2]
    constructor
    · intro h; injection h with h; subst h
      exact .raydium hf hs h8 (fun e => h1 (.inl e)) (fun e => h1 (.inr e)) h2
    · intro h
      cases h with
      | pyth h => exact absurd h hm
      | stub h => exact absurd h hs
      | switchboardV2 h => exact absurd h hb
      | switchboardV1 _ _ _ k => exact absurd k h1
      | raydium _ _ _ _ _ _ => rfl
  rw [if_neg h2]
  refine ⟨fun h => (nomatch h), fun h => ?_⟩
  cases h with
  | pyth h => exact absurd h hm
  | stub h => exact absurd h hs
  | switchboardV2 h => exact absurd h hb
  | switchboardV1 _ _ _ k => exact absurd k h1
  | raydium _ _ _ _ _ k => exact absurd k h2

/-- A market is created only with oracles whose kind is known; with two, of the same kind and at different addresses. -/
theorem C92_created {F : Feeds} {args : CreateArgs} {now : Int} {tokens : Tokens} {lamports : Lamports} {pa pb : RawPassed} {s : State}
    (h : createRaw F args now tokens lamports pa pb = .ok s) :
    (args.oracleA = 0 ∧ args.oracleB = 0) ∨
    (∃ x t, pa = some (args.oracleA, x) ∧ args.oracleA ≠ 0 ∧ determineType F x = .ok t ∧ (args.oracleB = 0 ∨
      ∃ y, pb = some (args.oracleB, y) ∧ args.oracleB ≠ args.oracleA ∧ determineType F y = .ok t)) := by
  unfold createRaw at h
  simp only [bind_ok, req_ok] at h
  obtain ⟨_, ⟨k1, k2⟩, _, h, _⟩ := h
  unfold rawCheck at h
  rcases pa with _ | ⟨ka, x⟩
  · rcases pb with _ | ⟨kb, y⟩
    · exact .inl ⟨k1, k2⟩
    · simp only [Option.map, Option.getD] at k1 k2
      subst k2
      by_cases hb : args.oracleB = 0
      · exact .inl ⟨k1, hb⟩
      · simp only [givenRaw, if_neg hb, reduceCtorEq] at h
  · simp only [Option.map, Option.getD] at k1
    subst k1
    by_cases ha : args.oracleA = 0
    · rcases pb with _ | ⟨kb, y⟩
      · exact .inl ⟨ha, k2⟩
      · simp only [Option.map, Option.getD] at k2
        subst k2
        by_cases hb : args.oracleB = 0
        · exact .inl ⟨ha, hb⟩
        · simp only [givenRaw, if_neg hb, if_pos ha, reduceCtorEq] at h
    · have one : ∀ (u : Unit), (do let _ ← determineType F x; return () : R Unit) = .ok u → ∃ t, determineType F x = .ok t := by
        intro u hu
        cases ht : determineType F x with
        | ok t => exact ⟨t, rfl⟩
        | error e => rw [ht] at hu; cases hu
      rcases pb with _ | ⟨kb, y⟩
      · simp only [Option.map, Option.getD] at k2
        simp only [givenRaw, if_neg ha] at h
        obtain ⟨t, ht⟩ := one _ h
        exact .inr ⟨x, t, rfl, ha, ht, .inl k2⟩
      · simp only [Option.map, Option.getD] at k2
        subst k2
        by_cases hb : args.oracleB = 0
        · simp only [givenRaw, if_neg ha, if_pos hb] at h
          obtain ⟨t, ht⟩ := one _ h
          exact .inr ⟨x, t, rfl, ha, ht, .inl hb⟩
        · simp only [givenRaw, if_neg ha, if_neg hb, bind_ok, req_ok] at h
          obtain ⟨_, hn, t, ht, t', ht', he⟩ := h
          subst he
          exact .inr ⟨x, t, rfl, ha, ht, .inr ⟨y, rfl, fun e => hn e.symm, ht'⟩⟩

/-! ### stub oracles -/

theorem stubBytes_length (o m p : Nat) (ts : Int) (s d : Nat) : (stubBytes o m p ts s d).length = 208 := by
  simp [stubBytes, stubDisc, leI64, le_length, zeros_length]

/-- A stub oracle is read as it was written: price, deviation and slot are those in the account. -/
theorem C92_stub {F : Feeds} (t : Stub) {p d : Nat} (hp : p < 2 ^ 64) (hd : d < 2 ^ 64) (hs : t.lastUpdateSlot < 2 ^ 64)
    (ep : F64.ofBits p = t.price) (ed : F64.ofBits d = t.deviation) :
    readOracle F ⟨F.program, stubBytes t.owner t.mint p t.lastUpdateTs t.lastUpdateSlot d⟩ = .ok (.stub t.price t.deviation t.lastUpdateSlot) := by
  have hl := stubBytes_length t.owner t.mint p t.lastUpdateTs t.lastUpdateSlot d
  have h8 : (stubBytes t.owner t.mint p t.lastUpdateTs t.lastUpdateSlot d).take 8 = stubDisc := rfl
  have hm : ¬ at' 4 0 (stubBytes t.owner t.mint p t.lastUpdateTs t.lastUpdateSlot d) = pythMagic := by
    rw [magic_iff (by rw [hl]; decide)]
    show ¬ [224, 251, 254, 99] = [_, _, _, _]
    decide
  have e1 : at' 8 72 (stubBytes t.owner t.mint p t.lastUpdateTs t.lastUpdateSlot d) = p := by
    unfold stubBytes
    rw [at_skip _ _ _ _ (by decide), at_skip _ _ _ _ (by rw [le_length]; decide), at_skip _ _ _ _ (by rw [le_length, le_length]; decide)]
    simp only [le_length, show stubDisc.length = 8 from rfl]
    exact at_here 8 p _ hp
  have e2 : at' 8 88 (stubBytes t.owner t.mint p t.lastUpdateTs t.lastUpdateSlot d) = t.lastUpdateSlot := by
    unfold stubBytes leI64
    rw [at_skip _ _ _ _ (by decide), at_skip _ _ _ _ (by rw [le_length]; decide), at_skip _ _ _ _ (by rw [le_length, le_length]; decide),
      at_skip _ _ _ _ (by simp only [le_length]; decide), at_skip _ _ _ _ (by simp only [le_length]; decide)]
    simp only [le_length, show stubDisc.length = 8 from rfl]
    exact at_here 8 _ _ hs
  have e3 : at' 8 96 (stubBytes t.owner t.mint p t.lastUpdateTs t.lastUpdateSlot d) = d := by
    unfold stubBytes leI64
    rw [at_skip _ _ _ _ (by decide), at_skip _ _ _ _ (by rw [le_length]; decide), at_skip _ _ _ _ (by rw [le_length, le_length]; decide),
      at_skip _ _ _ _ (by simp only [le_length]; decide), at_skip _ _ _ _ (by simp only [le_length]; decide),
      at_skip _ _ _ _ (by simp only [le_length]; decide)]
    simp only [le_length, show stubDisc.length = 8 from rfl]
    exact at_here 8 _ _ hd
  unfold readOracle determineType
  simp only [assertR]
  rw [req_true (by rw [hl]; decide), ok_bind, if_neg hm, req_true (by rw [hl]; decide), ok_bind, if_pos h8]
  simp only [pure, Except.pure, ok_bind]
  unfold readStub
  simp only [assertR]
  rw [req_true trivial, ok_bind, req_true (by rw [hl]; decide), ok_bind, req_true h8, ok_bind, req_true (by rw [hl]), ok_bind, e1, e2, e3, ep, ed]
  rfl

/-- Nobody but this program makes a stub oracle: an account of another owner with the same data is refused. -/
theorem C92_stub_forged {F : Feeds} {x : RawAccount} (h : startsAsStub x.data) (ho : x.owner ≠ F.program) (y : OracleAcc) :
    readOracle F x ≠ .ok y := by
  intro hy
  unfold readOracle at hy
  simp only [bind_ok] at hy
  obtain ⟨t, ht, hy⟩ := hy
  unfold determineType at ht
  simp only [assertR, bind_ok, req_ok] at ht
  obtain ⟨_, h4, ht⟩ := ht
  have hm : ¬ at' 4 0 x.data = pythMagic := by
    rw [magic_iff h4]
    intro e
    have := congrArg (List.take 4) h
    rw [List.take_take, show min 4 8 = 4 from rfl, e] at this
    revert this; decide
  rw [if_neg hm] at ht
  simp only [bind_ok, req_ok] at ht
  obtain ⟨_, _, ht⟩ := ht
  rw [if_pos (show _ = stubDisc from h)] at ht
  injection ht with ht
  subst ht
  simp only [readStub, bind_ok, req_ok] at hy
  exact ho hy.choose_spec.1

/-- The two doubles of a stub oracle can be any, and nothing else: NaN, the infinities, and the numbers of IEEE 754. -/
theorem C92_doubles :
    (∀ n < 2 ^ 64, F64.ofBits n = .nan ∨ (∃ b, F64.ofBits n = .inf b) ∨ ∃ v, F64.ofBits n = .fin v ∧ IsDouble v) ∧
    (∀ v, IsDouble v → ∃ n < 2 ^ 64, F64.ofBits n = .fin v) ∧ (∀ b, ∃ n < 2 ^ 64, F64.ofBits n = .inf b) ∧ (∃ n < 2 ^ 64, F64.ofBits n = .nan) := by
  refine ⟨fun n hn => ofBits_double hn, fun v hv => double_bits hv, fun b => ?_, ⟨0x7ff8000000000000, by decide, by decide +kernel⟩⟩
  cases b
  · exact ⟨0x7ff0000000000000, by decide, by decide +kernel⟩
  · exact ⟨0xfff0000000000000, by decide, by decide +kernel⟩

/-! ### Raydium -/

/-- A pool of Raydium is read as it was written: decimals and square root of the price are those in the account. -/
theorem C92_pool {F : Feeds} {disc before rest : Bytes} {d0 d1 tick liquidity sqrt : Nat} (h1 : disc.length = 8) (h2 : before.length = 225)
    (h3 : rest.length = 1275) (k0 : d0 < 256) (k1 : d1 < 256) (ks : sqrt < 2 ^ 128) (hf : ¬ LooksForeign disc) (hs : ¬ startsAsStub disc)
    (hv : F.raydium ≠ F.switchboardDevnet ∧ F.raydium ≠ F.switchboardMainnet) :
    readOracle F ⟨F.raydium, poolBytes disc before d0 d1 tick liquidity sqrt rest⟩ = .ok (.raydium sqrt d0 d1) := by
  generalize hD : poolBytes disc before d0 d1 tick liquidity sqrt rest = D
  have hl : D.length = 1544 := by subst hD; simp [poolBytes, le_length, h1, h2, h3]
  have h8 : D.take 8 = disc := by subst hD; exact Ts.take_at _ _ _ h1
  have h4 : D.take 4 = disc.take 4 := by rw [← h8, List.take_take]; rfl
  have hm : ¬ at' 4 0 D = pythMagic := by
    rw [magic_iff (by rw [hl]; decide), h4]
    exact fun e => hf (.inl e)
  have hd8 : disc.take 8 = disc := by rw [← h1, List.take_length]
  have e1 : at' 1 233 D = d0 := by
    subst hD; unfold poolBytes
    rw [at_skip _ _ _ _ (by omega), at_skip _ _ _ _ (by omega)]
    simp only [h1, h2]
    exact at_here 1 _ _ k0
  have e2 : at' 1 234 D = d1 := by
    subst hD; unfold poolBytes
    rw [at_skip _ _ _ _ (by omega), at_skip _ _ _ _ (by omega), at_skip _ _ _ _ (by rw [le_length]; omega)]
    simp only [h1, h2, le_length]
    exact at_here 1 _ _ k1
  have e3 : at' 16 253 D = sqrt := by
    subst hD; unfold poolBytes
    rw [at_skip _ _ _ _ (by omega), at_skip _ _ _ _ (by omega), at_skip _ _ _ _ (by rw [le_length]; omega),
      at_skip _ _ _ _ (by simp only [le_length]; omega), at_skip _ _ _ _ (by simp only [le_length]; omega),
      at_skip _ _ _ _ (by simp only [le_length]; omega)]
    simp only [h1, h2, le_length]
    exact at_here 16 _ _ ks
  unfold readOracle determineType
  simp only [assertR]
  rw [req_true (by rw [hl]; decide), ok_bind, if_neg hm, req_true (by rw [hl]; decide), ok_bind, h8,
    if_neg (show ¬ disc = stubDisc from fun e => hs (hd8.trans e)),
    if_neg (show ¬ disc = switchboardDisc from fun e => hf (.inr (hd8.trans e))), if_neg (by rintro (e | e); exact hv.1 e; exact hv.2 e), if_pos trivial]
  simp only [pure, Except.pure, ok_bind]
  unfold readRaydium
  simp only [assertR]
  rw [req_true hl, ok_bind, e1, e2, e3]
  rfl

/-! ### where the code violates the claim -/

/-- Addresses, and readers in place of those of the other crates: here the price is in the second 8 bytes of what Pyth would write. -/
def feeds : Feeds where
  program := 1
  switchboardDevnet := 2
  switchboardMainnet := 3
  raydium := 4
  pyth := fun d => if d.length < 16 then none else some (true, (at' 8 8 d : Nat), 1, 90, 0, 0, 0, -2)
  switchboardV1 := fun _ => none
  switchboardV2 := fun _ => none

/-- An account of somebody's own program, which writes what it likes after the bytes that Pyth begins with. -/
def forged (price : Nat) : RawAccount := ⟨999, [0xd4, 0xc3, 0xb2, 0xa1, 2, 0, 0, 0] ++ le 8 price⟩

/-- An account of a program that is no oracle program is accepted as the oracle of a market, and the price is what it says: 10, then 50. -/
theorem C92_owner_false : ∃ (F : Feeds) (s : State) (x y : RawAccount), Reachable s ∧ x.owner = 999 ∧ y.owner = 999 ∧
    999 ∉ [F.program, F.switchboardDevnet, F.switchboardMainnet, F.raydium] ∧
    createRaw F Scenario.args 0 Scenario.tokens0 Scenario.lamports0 (some (50, x)) none = .ok s ∧
    rawPriceLots F s.g.market (oracleInfo (.fin (1 / 128))) (some (50, x)) none 95 = .ok (some 100) ∧
    rawPriceLots F s.g.market (oracleInfo (.fin (1 / 128))) (some (50, y)) none 95 = .ok (some 500) := by
  have h : Scenario.okAnd (createRaw feeds Scenario.args 0 Scenario.tokens0 Scenario.lamports0 (some (50, forged 1000)) none) (fun s =>
      decide (rawPriceLots feeds s.g.market (oracleInfo (.fin (1 / 128))) (some (50, forged 1000)) none 95 = .ok (some 100) ∧
        rawPriceLots feeds s.g.market (oracleInfo (.fin (1 / 128))) (some (50, forged 5000)) none 95 = .ok (some 500))) = true := by
    decide +kernel
  obtain ⟨s, h1, h2⟩ := Scenario.okAnd_spec h
  obtain ⟨h2, h3⟩ := of_decide_eq_true h2
  refine ⟨feeds, s, forged 1000, forged 5000, ?_, rfl, rfl, by decide, h1, h2, h3⟩
  unfold createRaw at h1
  simp only [bind_ok] at h1
  obtain ⟨_, _, _, _, h1⟩ := h1
  exact Scenario.start_reachable h1

/-- Creating a market asks only of what kind the oracle is.  An account of Raydium that is not a pool passes, and no order can ever be
placed on the market, unless that account changes. -/
theorem C92_unreadable_false {F : Feeds} (hv : F.raydium ≠ F.switchboardDevnet ∧ F.raydium ≠ F.switchboardMainnet) :
    ∃ (x : RawAccount) (s : State), createRaw F Scenario.args 0 Scenario.tokens0 Scenario.lamports0 (some (50, x)) none = .ok s ∧
      ∀ s1 s2 i slot op b, s1.g.market.oracleA = 50 → op.usesOracle = true → stepRaw F s1 i (some (50, x)) b slot op ≠ .ok s2 := by
  have ht : determineType F ⟨F.raydium, zeros 100⟩ = .ok .raydium := by
    unfold determineType
    simp only [assertR]
    rw [req_true (by decide), ok_bind, if_neg (by decide), req_true (by decide), ok_bind, if_neg (by decide), if_neg (by decide),
      if_neg (by rintro (e | e); exact hv.1 e; exact hv.2 e), if_pos trivial]
    rfl
  obtain ⟨s, hs, _⟩ := Scenario.okAnd_spec (show Scenario.okAnd (Scenario.start Scenario.args) (fun _ => true) = true by decide +kernel)
  refine ⟨⟨F.raydium, zeros 100⟩, s, ?_, fun s1 s2 i slot op b ha hu h => ?_⟩
  · unfold createRaw rawCheck givenRaw
    simp only [if_neg (show ¬ (50 : Nat) = 0 by decide), ht]
    exact hs
  · obtain ⟨a', b', h1, h2, _⟩ := C92_readable hu h
    obtain ⟨y, hy⟩ := raw_oracle (x := ⟨F.raydium, zeros 100⟩) ⟨by rw [ha]; decide, .inl (by rw [ha])⟩ h1 h2
    unfold readOracle at hy
    rw [ht, ok_bind] at hy
    unfold readRaydium at hy
    simp only [assertR, bind_ok, req_ok] at hy
    exact absurd hy.choose_spec.1 (by decide)

/-! That the hypotheses can be met. -/

/-- A stub with price 1.5 at slot 90. -/
def stubAccount : RawAccount := ⟨1, stubBytes 7 10 0x3ff8000000000000 1700000000 90 0⟩

example : F64.ofBits 0x3ff8000000000000 = .fin (3 / 2) ∧ F64.ofBits 0xc05ec00000000000 = .fin (-123) ∧ F64.ofBits 1 = .fin (pow2 (-1074)) ∧
    F64.ofBits 0 = .fin 0 := by decide +kernel

example : readOracle feeds stubAccount = .ok (.stub (.fin (3 / 2)) (.fin 0) 90) := by decide +kernel

/-- The first bytes of a pool: those of the SHA-256 hash of `account:PoolState`. -/
example : ¬ LooksForeign [247, 237, 227, 245, 215, 195, 222, 70] ∧ ¬ startsAsStub [247, 237, 227, 245, 215, 195, 222, 70] := by
  unfold LooksForeign startsAsStub; decide

example : KindOf feeds stubAccount .stub := .stub rfl
example : KindOf feeds ⟨4, zeros 8⟩ .raydium :=
  .raydium (by unfold LooksForeign; decide) (by unfold startsAsStub; decide) (by decide) (by decide) (by decide) rfl

example : LooksForeign (forged 1000).data := .inl rfl

/-- An order placed with a stub oracle passed as bytes, and the same refused when the oracle is closed. -/
example : ∃ s s' op, Reachable s ∧ op.usesOracle = true ∧ IsRawOracle s.g.market (some (50, stubAccount)) none stubAccount ∧
    ¬ LooksForeign stubAccount.data ∧ stepRaw feeds s (oracleInfo (.fin (1 / 128))) (some (50, stubAccount)) none 95 op = .ok s' := by
  have h : Scenario.okAnd (Scenario.exec Scenario.args Scenario.ops1) (fun s =>
      Scenario.okAnd (stepRaw feeds s (oracleInfo (.fin (1 / 128))) (some (50, stubAccount)) none 95 (Scenario.place 0 .ask 1010 5 1)) (fun _ => true) &&
      decide (s.g.market.oracleA = 50)) = true := by decide +kernel
  obtain ⟨s, h1, h2⟩ := Scenario.okAnd_spec h
  simp only [Bool.and_eq_true, decide_eq_true_eq] at h2
  obtain ⟨h2, h3⟩ := h2
  obtain ⟨s', h2, _⟩ := Scenario.okAnd_spec h2
  refine ⟨s, s', _, Scenario.exec_reachable h1, rfl, ⟨by rw [h3]; decide, .inl (by rw [h3])⟩, ?_, h2⟩
  unfold LooksForeign
  decide

end OB
