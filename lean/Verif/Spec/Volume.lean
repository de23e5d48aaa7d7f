import Verif.Spec.Logs
import Verif.Spec.Ledger
/-!
Vocabulary for the traded volumes that the market and the accounts keep.  Used only in statements.
-/
namespace OB.Spec
open OB

/-- The maker volumes of all accounts together. -/
def makersTotal (s : State) : Int := (s.g.accts.map (fun x => x.2.position.makerVolume)).sum

/-- The taker volumes of all accounts together. -/
def takersTotal (s : State) : Int := (s.g.accts.map (fun x => x.2.position.takerVolume)).sum

/-- The value of the fills that wait in the queue. -/
def waitingValue (s : State) : Int := ((queuedFills s.g).map (fillQuote s.g.market)).sum

/-- The volumes that leave with an account when an instruction closes it: as maker and as taker. -/
def makerGone (s : State) : Op → Int
  | .closeOO k _ => ((s.g.accts.get? k).map (fun a => a.position.makerVolume)).getD 0
  | _ => 0
def takerGone (s : State) : Op → Int
  | .closeOO k _ => ((s.g.accts.get? k).map (fun a => a.position.takerVolume)).getD 0
  | _ => 0

/-- A history since the market was created, with the volumes that left with closed accounts. -/
inductive VolumeHistory : State → Int → Int → Prop
  | init (a : CreateArgs) (now : Int) (tokens : Tokens) (lamports : Lamports) (s : State)
      (h : createMarket a now tokens lamports = .ok s) : VolumeHistory s 0 0
  | step (s s' : State) (op : Op) (m t : Int) (hs : VolumeHistory s m t) (h : step s op = .ok s') :
      VolumeHistory s' (m + makerGone s op) (t + takerGone s op)

end OB.Spec
