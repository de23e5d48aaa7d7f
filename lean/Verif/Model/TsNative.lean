import Verif.Model.ClientIx
/-!
`depositNativeIx` of ts/client/src/client.ts:523-577: a transaction that creates a token account of wrapped SOL, deposits, and closes the
token account again.
-/
namespace OB.TsNative

/-- client.ts:539-552: `SystemProgram.createAccount` and `initializeAccount3`.  The new account `w` must not exist; the token program gives
an account of the native mint the balance of its lamports above the rent `rent`, and refuses an account with less. -/
def openWrapped (s : State) (owner w native : Pubkey) (lamports rent : Int) : R State := do
  req ((s.tokens w).mint = 0 ∧ s.lamports w = 0 ∧ w ≠ owner) .constraint
  req (lamports ≤ s.lamports owner) .insufficientFunds
  req (rent ≤ lamports) .constraint
  let s ← externalLamports s owner (s.lamports owner - lamports)
  let s ← externalLamports s w lamports
  externalToken s w { owner := owner, mint := native, amount := lamports - rent }

/-- client.ts:553-559: `closeAccount` of the token program for an account of the native mint: the owner gets all its lamports. -/
def closeWrapped (s : State) (owner w : Pubkey) : R State := do
  req ((s.tokens w).owner = owner) .tokenAuth
  let s ← externalLamports s owner (s.lamports owner + s.lamports w)
  let s ← externalLamports s w 0
  externalToken s w { owner := 0, mint := 0, amount := 0 }

/-- client.ts:523-577.  `w` is the key pair made by the function, `native` the mint of wrapped SOL.  `lamports.toNumber()` throws from 2^53 on
(client.ts:543). -/
def depositNative (s : State) (a : OOA) (oo userBase userQuote w native : Pubkey) (base quote rent now : Int) (keys : List Pubkey) : R State := do
  req (base + 10000000 < 2 ^ 53) .constraint
  let s1 ← openWrapped s a.owner w native (base + 10000000) rent
  let s2 ← (Sent.tsDeposit a oo userBase userQuote base quote now).run s1 keys
  closeWrapped s2 a.owner w

end OB.TsNative
