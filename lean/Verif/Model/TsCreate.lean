import Verif.Model.World
import Verif.Model.TsHelpers
/-!
`createMarketIx` of the TypeScript library, ts/client/src/client.ts:211-309, with `createProgramAccountIx` (client.ts:162-179).  The name of
the market and the parameters for oracles are not part of the model of a market and left out.
-/
namespace OB.TsCreate

/-- client.ts:70 -/
def booksideSpace : Nat := 90944 + 8

/-- client.ts:71 -/
def eventHeapSpace : Nat := 91280 + 8

/-- The parameters (client.ts:211-231), and the key pairs: that of the market is given or made, those of the three accounts are made. -/
structure Params where
  payer : Pubkey
  quoteMint : Pubkey
  baseMint : Pubkey
  quoteLotSize : Int
  baseLotSize : Int
  makerFee : Int
  takerFee : Int
  timeExpiry : Int
  oracleA : Option Pubkey
  oracleB : Option Pubkey
  openOrdersAdmin : Option Pubkey
  consumeEventsAdmin : Option Pubkey
  closeMarketAdmin : Option Pubkey
  collectFeeAdmin : Option Pubkey
  market : Pubkey
  bids : Pubkey
  asks : Pubkey
  heap : Pubkey

/-- client.ts:245-302: the instruction for the program.  `null` is the key 0. -/
def createArgs (A : Addresses) (p : Params) : CreateArgs :=
  let marketAuthority := A.authority p.market
  { marketKey := p.market, marketAuthority
    collectFeeAdmin := p.collectFeeAdmin.getD p.payer
    openOrdersAdmin := p.openOrdersAdmin.getD 0
    consumeEventsAdmin := p.consumeEventsAdmin.getD 0
    closeMarketAdmin := p.closeMarketAdmin.getD 0
    oracleA := p.oracleA.getD 0
    oracleB := p.oracleB.getD 0
    baseMint := p.baseMint, quoteMint := p.quoteMint
    baseVault := A.vault marketAuthority p.baseMint
    quoteVault := A.vault marketAuthority p.quoteMint
    quoteLotSize := p.quoteLotSize, baseLotSize := p.baseLotSize, makerFee := p.makerFee, takerFee := p.takerFee, timeExpiry := p.timeExpiry }

/-- client.ts:232-243 and 304-308: the instructions with the signatures they need, and the signers returned.  The creation of an account is
signed by who pays and by the account, that of the market by the market and the payer (accounts_ix/create_market.rs:11-34). -/
def createMarketIx (p : Params) : TsSend.Sending :=
  ⟨[.call [p.payer, p.bids] 0, .call [p.payer, p.asks] 1, .call [p.payer, p.heap] 2, .call [p.market, p.payer] 3],
    [p.market, p.bids, p.asks, p.heap]⟩

/-- The sizes of the three accounts, in the order of the instructions (client.ts:232-243). -/
def sizes : List Nat := [booksideSpace, booksideSpace, eventHeapSpace]

end OB.TsCreate
