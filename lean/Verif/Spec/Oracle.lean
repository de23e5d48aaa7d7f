import Verif.Spec.Asked
import Verif.Model.Oracle
/-!
What oracle accounts report.  Used only in statements.
-/
namespace OB.Spec
open OB

/-- The slot of the last update, for accounts that have one. -/
def lastUpdate : OracleAcc → Option Nat
  | .pyth trading _ _ aggSlot _ _ prevSlot _ => some (if trading then aggSlot else prevSlot)
  | .stub _ _ slot => if slot = 0 then none else some slot
  | .switchboardV1 _ _ _ slot => some slot
  | .switchboardV2 _ _ slot => some slot
  | .raydium .. => none
  | .unknown => none

/-- The exact price and its deviation, for accounts that report finite numbers.  Switchboard v1 reports the deviation as a range. -/
def reported : OracleAcc → Option (Rat × Rat)
  | .pyth trading aggPrice aggConf _ prevPrice prevConf _ expo =>
    if trading then some (aggPrice * (10 : Rat) ^ expo, aggConf * (10 : Rat) ^ expo)
    else some (prevPrice * (10 : Rat) ^ expo, prevConf * (10 : Rat) ^ expo)
  | .stub (.fin p) (.fin d) _ => some (p, d)
  | .switchboardV1 (.fin p) hi lo _ => match hi.add lo.neg with | .fin d => some (p, d) | _ => none
  | .switchboardV2 (some (.fin p)) (some (.fin d)) _ => some (p, d)
  | _ => none

/-- What the types and the limits of the oracle programs guarantee: exponents and amounts in range. -/
def sane : OracleAcc → Prop
  | .pyth _ aggPrice aggConf _ prevPrice prevConf _ expo =>
    (-128 ≤ expo ∧ expo ≤ 127) ∧ (inI64 aggPrice ∧ inI64 prevPrice) ∧ (aggConf < 2 ^ 64 ∧ prevConf < 2 ^ 64)
  | _ => True

/-- The account that is passed as first or second oracle of the market. -/
def isOracle (m : Market) (a b : OraclePassed) (o : OracleAcc) : Prop :=
  (m.oracleA ≠ 0 ∧ a = some (m.oracleA, o)) ∨ (m.oracleB ≠ 0 ∧ b = some (m.oracleB, o))

/-- Accounts of the same oracle program. -/
inductive SameKind : OracleAcc → OracleAcc → Prop
  | pyth (t p c s p' c' s' e t2 p2 c2 s2 p2' c2' s2' e2) : SameKind (.pyth t p c s p' c' s' e) (.pyth t2 p2 c2 s2 p2' c2' s2' e2)
  | stub (p d s p2 d2 s2) : SameKind (.stub p d s) (.stub p2 d2 s2)
  | switchboardV1 (p h l s p2 h2 l2 s2) : SameKind (.switchboardV1 p h l s) (.switchboardV1 p2 h2 l2 s2)
  | switchboardV2 (p d s p2 d2 s2) : SameKind (.switchboardV2 p d s) (.switchboardV2 p2 d2 s2)
  | raydium (q a b q2 a2 b2) : SameKind (.raydium q a b) (.raydium q2 a2 b2)

/-- The oracles that a market names, given the accounts passed: none; one account of an oracle program; or two different ones of the
same program. -/
structure WellChosen (keyA keyB : Pubkey) (a b : OraclePassed) : Prop where
  first : keyB ≠ 0 → keyA ≠ 0
  differ : keyB ≠ 0 → keyB ≠ keyA
  known : keyA ≠ 0 → ∃ x, a = some (keyA, x) ∧ SameKind x x
  same : keyB ≠ 0 → ∃ x y, a = some (keyA, x) ∧ b = some (keyB, y) ∧ SameKind x y

end OB.Spec
