import Verif.Proofs.Basic
import Verif.Model.Keys
import Verif.Model.BookSide
/-! Order key arithmetic. -/
namespace OB

theorem shl_or {p s : Nat} (h : s < two64) : (p <<< 64) ||| s = p * two64 + s := by
  rw [← Nat.shiftLeft_add_eq_or_of_lt (i := 64) (by unfold two64 at h; omega), Nat.shiftLeft_eq]
  rfl

/-- The low half of a key. -/
def seqPart (side : Side) (n : Nat) : Nat := if side = .bid then two64 - 1 - n else n

theorem seqPart_lt {side : Side} {n : Nat} (h : n < two64) : seqPart side n < two64 := by
  unfold seqPart; unfold two64 at *; split <;> omega

theorem newNodeKey_eq {side : Side} {p n : Nat} (h : n < two64) :
    newNodeKey side p n = p * two64 + seqPart side n := by
  unfold newNodeKey
  exact shl_or (seqPart_lt h)

theorem newNodeKey_lt {side : Side} {p n : Nat} (hp : p < two64) (h : n < two64) :
    newNodeKey side p n < 2 ^ 128 := by
  rw [newNodeKey_eq h]
  have := @seqPart_lt side n h
  unfold two64 at *
  omega

theorem newNodeKey_div {side : Side} {p n : Nat} (hp : p < two64) (h : n < two64) :
    (newNodeKey side p n >>> 64) % two64 = p := by
  rw [newNodeKey_eq h, Nat.shiftRight_eq_div_pow]
  have := @seqPart_lt side n h
  unfold two64 at *
  omega

theorem newNodeKey_mod {side : Side} {p n : Nat} (h : n < two64) :
    newNodeKey side p n % two64 = seqPart side n := by
  rw [newNodeKey_eq h]
  have := @seqPart_lt side n h
  unfold two64 at *
  omega

theorem seqPart_inj {s : Side} {n m : Nat} (hn : n < two64) (hm : m < two64) (h : seqPart s n = seqPart s m) : n = m := by
  unfold seqPart at h; unfold two64 at *; split at h <;> omega

theorem newNodeKey_inj_seq {s : Side} {p q n m : Nat} (hn : n < two64) (hm : m < two64)
    (h : newNodeKey s p n = newNodeKey s q m) : n = m := by
  have h' := congrArg (· % two64) h
  simp only [newNodeKey_mod hn, newNodeKey_mod hm] at h'
  exact seqPart_inj hn hm h'

theorem fixedPriceData_ok {p : Int} (h1 : 1 ≤ p) (h2 : p ≤ i64Max) : fixedPriceData p = .ok p.toNat := by
  unfold fixedPriceData
  rw [req_true h1]
  simp only [ok_bind]
  rw [asU64_eq (by omega) (by unfold u64Max; unfold i64Max at h2; omega)]
  rfl

theorem fixedPriceLots_ok {d : Nat} (h : (d : Int) ≤ i64Max) : fixedPriceLots d = .ok d := by
  unfold fixedPriceLots
  rw [show assertR ((d : Int) ≤ i64Max) = .ok () from req_true h]
  simp only [ok_bind]
  rw [asI64_eq (by unfold i64Min; omega) h]
  rfl

theorem oraclePeggedPriceData_eq {o : Int} (h : i64Min ≤ o ∧ o ≤ i64Max) :
    (oraclePeggedPriceData o : Int) = o + 9223372036854775808 := by
  unfold oraclePeggedPriceData asU64 two64
  unfold i64Min i64Max at h
  omega

theorem oraclePeggedPriceOffset_eq {d : Nat} (h : d < two64) :
    oraclePeggedPriceOffset d = (d : Int) - 9223372036854775808 := by
  unfold oraclePeggedPriceOffset asI64 i64Max two64
  unfold two64 at h
  simp only
  split <;> omega

end OB
