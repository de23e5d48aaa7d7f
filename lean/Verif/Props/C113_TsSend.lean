import Verif.Model.TsSend
/-!
C113  The TypeScript client sends exactly the instructions it is given, signed by all who must sign, and returns a signature only if the
transaction was executed without error.

What is sent and what is reported is right.  But two ways of calling it never send anything: without a fee among the options, and with a
`banksClient` unless the wallet is named as an additional signer.
-/
namespace OB
open TsSend

/-- The calls among the instructions of a transaction: all but the price of compute units. -/
def callsOf (ixs : List Ix) : List Ix := ixs.filter fun ix => match ix with
  | .call _ _ => true
  | .unitPrice _ => false

/-- The transaction that the node was handed, if it was handed one. -/
def handed : Outcome → Option Tx
  | .threw => none
  | .refused tx | .unconfirmed tx | .failed tx _ | .signature tx | .banksDone tx => some tx

/-- Whatever is handed to the node carries the instructions in the order in which they were given, with at most a price in front, is paid by
the wallet of the client, and is signed only by the wallet and the signers that the caller named. -/
theorem C113_sent {c : Client} {env : Env} {ixs : List Ix} {o : CallOpts} {tx : Tx} (h : handed (c.sendAndConfirm env ixs o) = some tx) :
    tx.payer = c.wallet ∧ (tx.ixs = ixs ∨ ∃ n, 0 < n ∧ tx.ixs = .unitPrice n :: ixs) ∧ callsOf tx.ixs = callsOf ixs ∧
    ∀ k ∈ tx.signed, k = c.wallet ∨ k ∈ o.additionalSigners := by
  have fin : ∀ l s, (l = ixs ∨ ∃ n, 0 < n ∧ l = .unitPrice n :: ixs) → (∀ k ∈ s, k = c.wallet ∨ k ∈ o.additionalSigners) →
      tx = ⟨c.wallet, l, s⟩ → tx.payer = c.wallet ∧ (tx.ixs = ixs ∨ ∃ n, 0 < n ∧ tx.ixs = .unitPrice n :: ixs) ∧
      callsOf tx.ixs = callsOf ixs ∧ ∀ k ∈ tx.signed, k = c.wallet ∨ k ∈ o.additionalSigners := by
    rintro l s hl hs rfl
    refine ⟨rfl, hl, ?_, hs⟩
    rcases hl with rfl | ⟨n, _, rfl⟩
    · rfl
    · simp [callsOf]
  unfold Client.sendAndConfirm sendTransaction at h
  split at h
  · split at h
    · dsimp only at h
      split at h <;> simp only [handed, Option.some.injEq] at h
      all_goals exact fin _ _ (.inl rfl) (fun k hk => .inr hk) h.symm
    · simp [handed] at h
  · split at h
    · simp [handed] at h
    · rename_i l hl
      have hl' : l = ixs ∨ ∃ n, 0 < n ∧ l = .unitPrice n :: ixs := by
        unfold withFee at hl
        split at hl
        · exact .inl (by simpa using hl.symm)
        · simp at hl
        · exact .inl (by simpa using hl.symm)
        · rename_i n hn _
          exact .inr ⟨n, Nat.pos_of_ne_zero fun e => by simp_all, by simpa using hl.symm⟩
      have hs : ∀ k ∈ o.additionalSigners ++ [c.wallet], k = c.wallet ∨ k ∈ o.additionalSigners := by
        intro k hk
        rcases List.mem_append.1 hk with h' | h'
        · exact .inr h'
        · exact .inl (by simpa using h')
      split at h
      · dsimp only at h
        split at h
        · split at h <;> simp only [handed, Option.some.injEq] at h
          all_goals exact fin _ _ hl' hs h.symm
        · simp only [handed, Option.some.injEq] at h
          exact fin _ _ hl' hs h.symm
      · simp [handed] at h

/-- What the caller asks for: their own commitment if they give one, otherwise that of the client. -/
def awaited (c : Client) (o : CallOpts) : Commitment :=
  match o.commitment with
  | none => c.commitment
  | some (.val k) => k
  | some _ => .processed

/-- A signature is returned only for a transaction with all required signatures which the node took and, under the commitment asked for,
executed without error; an `OpenBookError` only if it was executed with that error. -/
theorem C113_reported {c : Client} {env : Env} {ixs : List Ix} {o : CallOpts} {tx : Tx} :
    (c.sendAndConfirm env ixs o = .signature tx →
      env.takes tx = true ∧ env.ended tx (awaited c o) = some none ∧
      c.wallet ∈ tx.signed ∧ ∀ ix ∈ ixs, ∀ k ∈ ix.signers, k ∈ tx.signed) ∧
    (∀ e, c.sendAndConfirm env ixs o = .failed tx e →
      env.takes tx = true ∧ env.ended tx (awaited c o) = some (some e)) ∧
    (c.sendAndConfirm env ixs o = .banksDone tx →
      env.takes tx = true ∧ c.wallet ∈ tx.signed ∧ ∀ ix ∈ ixs, ∀ k ∈ ix.signers, k ∈ tx.signed) := by
  have hask : (o.commitment.getD (.val c.commitment)).orElse .processed = awaited c o := by
    unfold awaited
    cases o.commitment with
    | none => rfl
    | some k => cases k <;> rfl
  unfold Client.sendAndConfirm sendTransaction
  split
  · split
    · dsimp only
      split
      · rename_i hr
        simp only [Bool.and_eq_true, List.all_eq_true, List.contains_iff_mem] at hr
        refine ⟨by simp, by simp, ?_⟩
        intro h
        cases h
        exact ⟨hr.2, hr.1 _ (by simp [required]), fun ix hix k hk => hr.1 k (by simp only [required, List.mem_cons, List.mem_flatMap]; exact .inr ⟨ix, hix, hk⟩)⟩
      · simp
    · simp
  · split
    · simp
    · rename_i l hl
      have hsub : ∀ ix ∈ ixs, ix ∈ l := by
        unfold withFee at hl
        split at hl
        · intro ix hix; cases hl; exact hix
        · simp at hl
        · intro ix hix; cases hl; exact hix
        · intro ix hix; cases hl; exact List.mem_cons_of_mem _ hix
      split
      · dsimp only
        split
        · rename_i hr
          simp only [Bool.and_eq_true, List.all_eq_true, List.contains_iff_mem] at hr
          rw [hask]
          split
          · simp
          · rename_i he
            refine ⟨?_, by simp, by simp⟩
            intro h
            cases h
            exact ⟨hr.2, he, hr.1 _ (by simp [required]), fun ix hix k hk =>
              hr.1 k (by simp only [required, List.mem_cons, List.mem_flatMap]; exact .inr ⟨ix, hsub ix hix, hk⟩)⟩
          · rename_i e he
            refine ⟨by simp, ?_, by simp⟩
            intro e' h
            cases h
            exact ⟨hr.2, he⟩
        · simp
      · simp

/-- If the client says that the node refused the transaction, it did or a required signature was missing; if it does not know how the
transaction ended, the node took it and did not say. -/
theorem C113_not_done {c : Client} {env : Env} {ixs : List Ix} {o : CallOpts} {tx : Tx} :
    (c.sendAndConfirm env ixs o = .refused tx →
      env.takes tx = false ∨ c.wallet ∉ tx.signed ∨ ∃ ix ∈ ixs, ∃ k ∈ ix.signers, k ∉ tx.signed) ∧
    (c.sendAndConfirm env ixs o = .unconfirmed tx → env.takes tx = true ∧ env.ended tx (awaited c o) = none) := by
  have hask : (o.commitment.getD (.val c.commitment)).orElse .processed = awaited c o := by
    unfold awaited
    cases o.commitment with
    | none => rfl
    | some k => cases k <;> rfl
  have fin : ∀ l signed, (∀ ix ∈ l, ix ∈ ixs ∨ ix.signers = []) → ∀ t : Bool,
      ¬ ((required c.wallet l).all (fun k => List.contains signed k) && t) = true →
      t = false ∨ c.wallet ∉ signed ∨ ∃ ix ∈ ixs, ∃ k ∈ ix.signers, k ∉ signed := by
    intro l signed hl t h
    cases t with
    | false => exact .inl rfl
    | true =>
      refine .inr ?_
      simp only [Bool.and_true, List.all_eq_true, List.contains_iff_mem, required, List.mem_cons, List.mem_flatMap] at h
      by_cases hw : c.wallet ∈ signed
      · refine .inr ?_
        refine Classical.byContradiction fun hn => h ?_
        rintro k (rfl | ⟨ix, hix, hk⟩)
        · exact hw
        · rcases hl ix hix with h' | h'
          · exact Classical.byContradiction fun hk' => hn ⟨ix, h', k, hk, hk'⟩
          · rw [h'] at hk; cases hk
      · exact .inl hw
  unfold Client.sendAndConfirm sendTransaction
  split
  · split
    · dsimp only
      split
      · simp
      · rename_i hr
        refine ⟨?_, by simp⟩
        intro h
        cases h
        exact fin _ _ (fun ix h => .inl h) _ hr
    · simp
  · split
    · simp
    · rename_i l hl
      have hsub : ∀ ix ∈ l, ix ∈ ixs ∨ ix.signers = [] := by
        unfold withFee at hl
        split at hl
        · intro ix hix; cases hl; exact .inl hix
        · simp at hl
        · intro ix hix; cases hl; exact .inl hix
        · intro ix hix
          cases hl
          rcases List.mem_cons.1 hix with rfl | h
          · exact .inr rfl
          · exact .inl h
      split
      · dsimp only
        split
        · rename_i hr
          simp only [Bool.and_eq_true] at hr
          rw [hask]
          split
          · rename_i he
            refine ⟨by simp, ?_⟩
            intro h
            cases h
            exact ⟨hr.2, he⟩
          · simp
          · simp
        · rename_i hr
          refine ⟨?_, by simp⟩
          intro h
          cases h
          exact fin _ _ hsub _ hr
      · simp

/-- The full claim: a call with a willing wallet, a node that takes and executes everything, and exactly the signers that are needed besides
the wallet, sends the instructions. -/
def Sends (c : Client) (env : Env) (ixs : List Ix) (o : CallOpts) : Prop :=
  env.walletSigns = true → (∀ tx, env.takes tx = true) → (∀ tx k, env.ended tx k = some none) →
  (∀ k, k ∈ o.additionalSigners → ∃ ix ∈ ixs, k ∈ ix.signers) →
  (∀ ix ∈ ixs, ∀ k ∈ ix.signers, k = c.wallet ∨ k ∈ o.additionalSigners) →
  ∃ tx, c.sendAndConfirm env ixs o = .signature tx ∨ c.sendAndConfirm env ixs o = .banksDone tx

/-- It holds over a node, however the client was constructed, if the caller gives no fee, `null` or a number; missing are an `undefined` fee
and a `banksClient`, where it is false. -/
theorem C113_sends_partial {c : Client} {env : Env} {ixs : List Ix} {o : CallOpts} (hb : env.banks = false)
    (hf : o.prioritizationFee ≠ some .undefined) : Sends c env ixs o := by
  intro hw ht he hadd hreq
  have hl : ∃ l, withFee (o.prioritizationFee.getD (.val c.prioritizationFee)) ixs = some l ∧
      (∀ k, k ∈ l.flatMap Ix.signers ↔ k ∈ ixs.flatMap Ix.signers) := by
    have hv : ∀ n, ∃ l, withFee (.val n) ixs = some l ∧ (∀ k, k ∈ l.flatMap Ix.signers ↔ k ∈ ixs.flatMap Ix.signers) := by
      intro n
      cases n with
      | zero => exact ⟨_, rfl, fun _ => Iff.rfl⟩
      | succ n => exact ⟨_, rfl, fun k => by simp [Ix.signers]⟩
    match hfe : o.prioritizationFee with
    | none => exact hv _
    | some .undefined => exact absurd hfe hf
    | some .null => exact ⟨_, rfl, fun _ => Iff.rfl⟩
    | some (.val n) => exact hv n
  obtain ⟨l, hl, hmem⟩ := hl
  have h1 : (o.additionalSigners.all fun k => (required c.wallet l).contains k) = true := by
    simp only [List.all_eq_true, List.contains_iff_mem]
    intro k hk
    obtain ⟨ix, hix, hk'⟩ := hadd k hk
    exact List.mem_cons_of_mem _ ((hmem k).2 (List.mem_flatMap.2 ⟨ix, hix, hk'⟩))
  have h2 : ((required c.wallet l).all fun k => (o.additionalSigners ++ [c.wallet]).contains k) = true := by
    simp only [List.all_eq_true, List.contains_iff_mem]
    intro k hk
    rcases List.mem_cons.1 hk with rfl | hk
    · simp
    · obtain ⟨ix, hix, hk'⟩ := List.mem_flatMap.1 ((hmem k).1 hk)
      rcases hreq ix hix k hk' with rfl | h <;> simp [*]
  refine ⟨⟨c.wallet, l, o.additionalSigners ++ [c.wallet]⟩, .inl ?_⟩
  unfold Client.sendAndConfirm sendTransaction
  simp only [hb, hl, h1, h2, hw, ht, he, Bool.and_self, if_true, Bool.false_eq_true, if_false]

/-- `sendTransaction` called without options, its own default, never hands anything to a node (rpc.ts:17, 50-52); the same for a client whose
caller gives a fee that is `undefined`, which overrides the fee of the client (client.ts:128-133). -/
theorem C113_undefined_fee {env : Env} (hb : env.banks = false) :
    (∀ wallet ixs, sendTransaction env wallet ixs noOpts = .threw) ∧
    ∀ (c : Client) ixs (o : CallOpts), o.prioritizationFee = some .undefined → c.sendAndConfirm env ixs o = .threw := by
  refine ⟨fun _ _ => ?_, fun c ixs o h => ?_⟩
  · simp [sendTransaction, hb, noOpts, withFee]
  · simp [Client.sendAndConfirm, sendTransaction, hb, h, withFee]

/-- With a `banksClient` nothing is executed unless the wallet itself is named among the additional signers: the wallet is never asked to
sign (rpc.ts:32-36). -/
theorem C113_banks {c : Client} {env : Env} {ixs : List Ix} {o : CallOpts} (hb : env.banks = true) (hn : c.wallet ∉ o.additionalSigners)
    (tx : Tx) : c.sendAndConfirm env ixs o ≠ .banksDone tx ∧ c.sendAndConfirm env ixs o ≠ .signature tx := by
  unfold Client.sendAndConfirm sendTransaction
  simp only [hb, if_true]
  split
  · rw [if_neg]
    · simp
    · simp [required, hn]
  · simp

/-- One signer too many and nothing is sent: a key that no instruction has to be signed by (web3.js refuses to sign with it). -/
theorem C113_extra_signer {c : Client} {env : Env} {ixs : List Ix} {o : CallOpts} {k : Nat} (hk : k ∈ o.additionalSigners)
    (hw : k ≠ c.wallet) (hn : ∀ ix ∈ ixs, k ∉ ix.signers) : c.sendAndConfirm env ixs o = .threw := by
  unfold Client.sendAndConfirm sendTransaction
  have key : ∀ l : List Ix, (∀ ix ∈ l, k ∉ ix.signers) → (o.additionalSigners.all fun k => (required c.wallet l).contains k) = false := by
    intro l hl
    rw [List.all_eq_false]
    refine ⟨k, hk, ?_⟩
    simp only [List.contains_iff_mem, required, List.mem_cons, List.mem_flatMap, not_or, not_exists, not_and]
    exact ⟨hw, hl⟩
  split
  · rw [if_neg (by rw [key ixs hn]; simp)]
  · split
    · rfl
    · rename_i l hl
      have hl' : ∀ ix ∈ l, k ∉ ix.signers := by
        unfold withFee at hl
        split at hl <;> cases hl
        · exact hn
        · exact hn
        · intro ix hix
          rcases List.mem_cons.1 hix with rfl | h
          · simp [Ix.signers]
          · exact hn ix h
      rw [if_neg (by rw [key l hl']; simp)]

/-- Which instructions are handed over, in terms of the fee. -/
private theorem handed_ixs {c : Client} {env : Env} {ixs : List Ix} {o : CallOpts} {tx : Tx} (h : handed (c.sendAndConfirm env ixs o) = some tx) :
    (env.banks = true ∧ tx.ixs = ixs) ∨
    (env.banks = false ∧ withFee (o.prioritizationFee.getD (.val c.prioritizationFee)) ixs = some tx.ixs) := by
  unfold Client.sendAndConfirm sendTransaction at h
  split at h
  · rename_i hb
    refine .inl ⟨hb, ?_⟩
    split at h
    · dsimp only at h
      split at h <;> simp only [handed, Option.some.injEq] at h <;> rw [← h]
    · simp [handed] at h
  · rename_i hb
    refine .inr ⟨by simpa using hb, ?_⟩
    split at h
    · simp [handed] at h
    · rename_i l hl
      dsimp only at hl
      rw [hl]
      split at h
      · dsimp only at h
        split at h
        · split at h <;> simp only [handed, Option.some.injEq] at h <;> rw [← h]
        · simp only [handed, Option.some.injEq] at h
          rw [← h]
      · simp [handed] at h

/-- However it was constructed, a client takes the caller's word first, then its own options, then the provider's, and waits for `processed`
only if nobody says otherwise; it pays no price for compute units unless someone asks for one. -/
theorem C113_defaults (wallet : Nat) (fee : Js Nat) (commitment provider : Js Commitment) :
    let c := Client.new wallet fee commitment provider
    (∀ k, commitment = .val k → awaited c {} = k) ∧
    (∀ k, commitment = .undefined → provider = .val k → awaited c {} = k) ∧
    (commitment = .undefined → provider = .undefined → awaited c {} = .processed) ∧
    (∀ k, awaited c { commitment := some (.val k) } = k) ∧
    (fee = .undefined → ∀ env ixs s tx, handed (c.sendAndConfirm env ixs { additionalSigners := s }) = some tx → tx.ixs = ixs) ∧
    (∀ n, fee = .val (n + 1) → ∀ env ixs s tx, env.banks = false →
      handed (c.sendAndConfirm env ixs { additionalSigners := s }) = some tx → tx.ixs = .unitPrice (n + 1) :: ixs) ∧
    (∀ n env ixs s tx, env.banks = false →
      handed (c.sendAndConfirm env ixs { additionalSigners := s, prioritizationFee := some (.val (n + 1)) }) = some tx →
      tx.ixs = .unitPrice (n + 1) :: ixs) := by
  refine ⟨?_, ?_, ?_, fun _ => rfl, ?_, ?_, ?_⟩
  · rintro k rfl; rfl
  · rintro k rfl rfl; rfl
  · rintro rfl rfl; rfl
  · rintro rfl env ixs s tx h
    rcases handed_ixs h with ⟨_, h⟩ | ⟨_, h⟩
    · exact h
    · exact (Option.some.inj h).symm
  · rintro n rfl env ixs s tx hb h
    rcases handed_ixs h with ⟨hb', _⟩ | ⟨_, h⟩
    · rw [hb] at hb'; cases hb'
    · exact (Option.some.inj h).symm
  · intro n env ixs s tx hb h
    rcases handed_ixs h with ⟨hb', _⟩ | ⟨_, h⟩
    · rw [hb] at hb'; cases hb'
    · exact (Option.some.inj h).symm

/-! Cases that meet the hypotheses: a delegate 7 signs besides the wallet 5. -/

private def goodNode : Env := ⟨false, true, fun _ => true, fun _ _ => some none⟩
private def someIxs : List Ix := [.call [7] 1, .call [5, 7] 2]

example : (Client.new 5 (.val 3) .undefined (.val .confirmed)).sendAndConfirm goodNode someIxs { additionalSigners := [7] } =
    .signature ⟨5, [.unitPrice 3, .call [7] 1, .call [5, 7] 2], [7, 5]⟩ := by decide
example : (Client.new 5 .undefined .undefined .undefined).sendAndConfirm { goodNode with ended := fun _ _ => some (some 6000) } someIxs
    { additionalSigners := [7] } = .failed ⟨5, someIxs, [7, 5]⟩ 6000 := by decide
/-- a `banksClient` works once the wallet is named as well -/
example : (Client.new 5 .undefined .undefined .undefined).sendAndConfirm { goodNode with banks := true } someIxs
    { additionalSigners := [7, 5] } = .banksDone ⟨5, someIxs, [7, 5]⟩ := by decide
/-- the hypotheses of `Sends` can all hold where the claim fails -/
example : ¬ Sends (Client.new 5 .undefined .undefined .undefined) { goodNode with banks := true } someIxs { additionalSigners := [7] } := by
  intro h
  obtain ⟨tx, h⟩ := h rfl (fun _ => rfl) (fun _ _ => rfl) (by simp [someIxs, Ix.signers]) (by simp [someIxs, Ix.signers, Client.new])
  have := C113_banks (c := Client.new 5 .undefined .undefined .undefined) (env := { goodNode with banks := true }) (ixs := someIxs)
    (o := { additionalSigners := [7] }) rfl (by simp [Client.new]) tx
  rcases h with h | h
  · exact this.2 h
  · exact this.1 h
example : ¬ Sends (Client.new 5 .undefined .undefined .undefined) goodNode someIxs
    { additionalSigners := [7], prioritizationFee := some .undefined } := by
  intro h
  obtain ⟨tx, h⟩ := h rfl (fun _ => rfl) (fun _ _ => rfl) (by simp [someIxs, Ix.signers]) (by simp [someIxs, Ix.signers, Client.new])
  rw [(C113_undefined_fee (env := goodNode) rfl).2 _ _ _ rfl] at h
  simp at h
/-- a delegate who does not have to sign stops everything -/
example : (Client.new 5 .undefined .undefined .undefined).sendAndConfirm goodNode [.call [5] 1] { additionalSigners := [7] } = .threw := by
  decide

end OB
