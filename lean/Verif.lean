import Verif.Model.Num
import Verif.Model.Types
import Verif.Model.Market
import Verif.Model.Keys
import Verif.Model.OrderTree
import Verif.Model.BookSide
import Verif.Model.Heap
import Verif.Model.OpenOrders
import Verif.Model.Book
import Verif.Model.Program
import Verif.Model.Client
import Verif.Spec.Fees
import Verif.Proofs.Basic
import Verif.Proofs.Fees
import Verif.Proofs.Keys
import Verif.Props.C01_Fees
import Verif.Props.C20_Keys
import Verif.Spec.Queue
import Verif.Proofs.Heap
import Verif.Props.C21_EventHeap
import Verif.Proofs.Bits
import Verif.Proofs.Slab
import Verif.Proofs.TreeRep
import Verif.Proofs.TreeOps
import Verif.Proofs.TreeIter
import Verif.Proofs.BookSide
import Verif.Proofs.OrderMapRef
import Verif.Spec.OrderMap
import Verif.Props.C18_Driver
import Verif.Props.C18_OrderTree
import Verif.Proofs.SideIter
import Verif.Proofs.Items
import Verif.Proofs.MatchStep
import Verif.Proofs.Accts
import Verif.Proofs.OOA
import Verif.Proofs.FeeFun
import Verif.Proofs.Obl
import Verif.Spec.Observe
import Verif.Proofs.VBook
import Verif.Proofs.Ledger
import Verif.Proofs.Loop
import Verif.Proofs.Trace
import Verif.Proofs.NewOrder
import Verif.Proofs.Post
import Verif.Proofs.Place
import Verif.Proofs.Consume
import Verif.Proofs.Funds
import Verif.Proofs.PlaceIx
import Verif.Proofs.OOLife
import Verif.Proofs.Inv
import Verif.Proofs.Reach
import Verif.Spec.Ledger
import Verif.Spec.Engine
import Verif.Proofs.Facts
import Verif.Proofs.Engine
import Verif.Proofs.Match
import Verif.Props.Scenario
import Verif.Props.C13_Conservation
import Verif.Props.C38_Homes
import Verif.Proofs.Call
import Verif.Proofs.Amounts
import Verif.Proofs.Step
import Verif.Proofs.Again
import Verif.Proofs.Bridge
import Verif.Proofs.TakeIx
import Verif.Props.C02_Budget
import Verif.Props.C31_Take
import Verif.Props.C04_Fills
import Verif.Proofs.Posted
import Verif.Proofs.BookEv
import Verif.Props.C07_PostOnly
import Verif.Props.C09_Types
import Verif.Spec.Deliver
import Verif.Spec.Cancel
import Verif.Proofs.Deliver
import Verif.Proofs.ConsumeIx
import Verif.Proofs.Solvent
import Verif.Proofs.StepAcct
import Verif.Proofs.Extra
import Verif.Props.C22_Consume
import Verif.Proofs.Cancel
import Verif.Proofs.Live
import Verif.Props.C16_Cancel
import Verif.Props.C40_Live
import Verif.Spec.Instr
import Verif.Proofs.Placing
import Verif.Props.C17_LockedFees
import Verif.Spec.Room
import Verif.Proofs.Room
import Verif.Props.C37_Full
import Verif.Props.C37_FullCase
import Verif.Spec.Fate
import Verif.Proofs.Chain
import Verif.Props.C44_Orders
import Verif.Spec.Settle
import Verif.Proofs.MarketStep
import Verif.Props.C42_Config
import Verif.Props.C43_Admins
import Verif.Props.C24_Close
import Verif.Props.C26_Settle
import Verif.Proofs.Payable
import Verif.Spec.Expired
import Verif.Props.C23_Expired
import Verif.Spec.Others
import Verif.Props.C33_Others
import Verif.Spec.Ids
import Verif.Props.C19_Ids
import Verif.Props.C34_Expiry
import Verif.Props.C35_Peg
import Verif.Props.C27_SelfTrade
import Verif.Props.C28_Edit
import Verif.Proofs.Client
import Verif.Props.C41_Client
import Verif.Spec.Exit
import Verif.Proofs.Exit
import Verif.Props.C46_Exit
import Verif.Props.C47_Closable
import Verif.Spec.Wind
import Verif.Proofs.Wind
import Verif.Props.C48_Wind
import Verif.Model.Oracle
import Verif.Spec.Oracle
import Verif.Proofs.Float
import Verif.Proofs.Oracle
import Verif.Props.C50_Frozen
import Verif.Props.C49_Oracle
import Verif.Props.C51_Lots
import Verif.Props.C52_Blocked
import Verif.Proofs.Frame
import Verif.Props.C53_Wallets
import Verif.Model.World
import Verif.Spec.World
import Verif.Proofs.World
import Verif.Props.WorldScenario
import Verif.Props.C54_Index
import Verif.Props.C55_Isolation
import Verif.Spec.Match
import Verif.Proofs.SeqUniq
import Verif.Proofs.Greedy
import Verif.Proofs.PostRest
import Verif.Props.C56_Greedy
import Verif.Spec.Wealth
import Verif.Proofs.Wealth
import Verif.Proofs.WealthCall
import Verif.Proofs.WealthIx
import Verif.Props.C58_Wealth
import Verif.Spec.Pay
import Verif.Props.C59_Payment
import Verif.Spec.Accept
import Verif.Proofs.LiveLoop
import Verif.Proofs.LiveTaker
import Verif.Proofs.LivePost
import Verif.Proofs.LiveOrder
import Verif.Proofs.LivePlace
import Verif.Proofs.LivePlaceIx
import Verif.Proofs.LiveTake
import Verif.Props.C60_Accept
import Verif.Spec.Batch
import Verif.Proofs.LiveMulti
import Verif.Proofs.LiveMultiIx
import Verif.Props.C61_Batch
import Verif.Spec.Crank
import Verif.Proofs.Crank
import Verif.Props.C62_Crank
import Verif.Spec.Penalty
import Verif.Proofs.Penalty
import Verif.Props.C63_Penalty
import Verif.Model.Logs
import Verif.Spec.Logs
import Verif.Proofs.Logs
import Verif.Proofs.LogsStep
import Verif.Proofs.LogsRun
import Verif.Props.C64_Logs
import Verif.Spec.Named
import Verif.Proofs.Named
import Verif.Props.C65_Named
import Verif.Model.Depth
import Verif.Spec.Depth
import Verif.Proofs.Depth
import Verif.Props.C66_Depth
import Verif.Spec.Lives
import Verif.Props.C67_Again
import Verif.Model.Stub
import Verif.Spec.Stub
import Verif.Props.C68_Stub
import Verif.Spec.Group
import Verif.Proofs.Stake
import Verif.Proofs.StakeIx
import Verif.Proofs.StakeWorth
import Verif.Props.C69_Group
import Verif.Model.Chain
import Verif.Spec.Chain
import Verif.Proofs.ChainList
import Verif.Proofs.ChainSlots
import Verif.Proofs.ChainInv
import Verif.Proofs.ChainFair
import Verif.Props.C70_Chain
import Verif.Props.C71_ChainData
import Verif.Spec.Volume
import Verif.Proofs.Volume
import Verif.Props.C72_Volume
import Verif.Spec.Exact
import Verif.Proofs.Exact
import Verif.Props.C73_Exact
import Verif.Spec.View
import Verif.Proofs.Sim
import Verif.Proofs.SimSide
import Verif.Proofs.SimMatch
import Verif.Proofs.SimBook
import Verif.Proofs.SimStep
import Verif.Proofs.SimView
import Verif.Props.C74_Layout
import Verif.Props.C74_Peak
import Verif.Model.Layout
import Verif.Model.Ts
import Verif.Spec.Ts
import Verif.Proofs.Ts
import Verif.Proofs.TsBook
import Verif.Props.C75_TsBook
import Verif.Proofs.TsBalance
import Verif.Props.C76_TsBalance
import Verif.Model.Find
import Verif.Proofs.Find
import Verif.Props.C77_Find
import Verif.Proofs.TsAccount
import Verif.Props.C78_TsAccount
import Verif.Model.TsConsume
import Verif.Props.C79_TsConsume
import Verif.Model.Ui
import Verif.Spec.Ui
import Verif.Proofs.Ui
import Verif.Props.C80_Ui
import Verif.Model.Context
import Verif.Props.C81_Context
import Verif.Model.ClientAccounts
import Verif.Props.C82_Accounts
import Verif.Model.ClientIx
import Verif.Spec.Sent
import Verif.Props.C83_Instructions
import Verif.Model.TsEvents
import Verif.Spec.TsEvents
import Verif.Proofs.TsEvents
import Verif.Props.C84_EventBytes
import Verif.Spec.Fields
import Verif.Proofs.FieldsTree
import Verif.Proofs.FieldsAcct
import Verif.Proofs.FieldsOrder
import Verif.Proofs.FieldsStep
import Verif.Props.C85_Fields
import Verif.Spec.Ieee
import Verif.Proofs.Ieee
import Verif.Props.C86_Choice
import Verif.Spec.OneByOne
import Verif.Proofs.Split
import Verif.Proofs.SplitIx
import Verif.Proofs.SplitBatch
import Verif.Props.C87_OneByOne
import Verif.Spec.More
import Verif.Proofs.More
import Verif.Props.C88_More
import Verif.Model.Fetcher
import Verif.Spec.Fetcher
import Verif.Proofs.Fetcher
import Verif.Proofs.FetcherList
import Verif.Props.C89_Fetcher
import Verif.Spec.Commute
import Verif.Proofs.Commute
import Verif.Props.C90_Commute
import Verif.Model.Router
import Verif.Spec.Router
import Verif.Proofs.Router
import Verif.Props.C91_Router
import Verif.Model.OracleBytes
import Verif.Spec.OracleBytes
import Verif.Proofs.OracleBytes
import Verif.Props.C92_Feeds
import Verif.Spec.Pieces
import Verif.Proofs.Pieces
import Verif.Props.C93_Pieces
import Verif.Model.TsDecode
import Verif.Spec.TsDecode
import Verif.Proofs.TsDecode
import Verif.Props.C94_Decode
import Verif.Model.Watcher
import Verif.Proofs.Watcher
import Verif.Props.C95_Watch
import Verif.Model.TsTrade
import Verif.Spec.TsTrade
import Verif.Proofs.TsTrade
import Verif.Props.C96_CancelAll
import Verif.Proofs.TsPlace
import Verif.Props.C97_Place
import Verif.Spec.TsCancel
import Verif.Proofs.TsCancel
import Verif.Props.C98_CancelSeen
import Verif.Model.TsMarkets
import Verif.Props.C99_AllMarkets
import Verif.Model.TsNative
import Verif.Props.C100_Native
import Verif.Spec.Life
import Verif.Proofs.Life
import Verif.Props.C101_Life
import Verif.Model.Sending
import Verif.Props.C102_Sending
import Verif.Spec.Statement
import Verif.Props.C103_Statement
import Verif.Model.Snapshot
import Verif.Spec.Snapshot
import Verif.Props.C104_Snapshot
import Verif.Model.Refresh
import Verif.Props.C105_Refresh
import Verif.Props.C106_Queue
import Verif.Spec.Requote
import Verif.Proofs.Requote
import Verif.Props.C107_Requote
import Verif.Spec.Best
import Verif.Proofs.Best
import Verif.Props.C108_Best
import Verif.Spec.Spread
import Verif.Proofs.Spread
import Verif.Props.C109_Spread
import Verif.Spec.Sandwich
import Verif.Proofs.Sandwich
import Verif.Props.C110_Sandwich
import Verif.Spec.Range
import Verif.Proofs.Range
import Verif.Props.C111_Range
import Verif.Spec.Takings
import Verif.Proofs.Takings
import Verif.Proofs.TsObjects
import Verif.Props.C112_Takings
import Verif.Model.TsSend
import Verif.Props.C113_TsSend
import Verif.Model.TsHelpers
import Verif.Props.C114_TsSigners
import Verif.Model.TsClose
import Verif.Props.C115_TsClose
import Verif.Model.TsCreate
import Verif.Props.C116_TsCreate
