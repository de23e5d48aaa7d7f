import Verif.Model.ClientIx
import Verif.Spec.Instr
/-!
What a user expects of an instruction built by a library.  Used only in statements.
-/
namespace OB.Spec

/-- The built instruction is as good as any other: whatever the user could do by an operation of the kind meant, signed with the keys at
hand, the built instruction does when signed with these keys. -/
def AsGood (s : State) (keys : List Pubkey) (i : Sent.Ix) (meant : Op → Prop) : Prop :=
  ∀ op s', meant op → (∀ k ∈ signers op, k ∈ keys) → step s op = .ok s' → i.run s keys = .ok s'

/-- The built instruction is refused, whatever the state is. -/
def Refused (s : State) (keys : List Pubkey) (i : Sent.Ix) : Prop := ∃ e, i.run s keys = .error e

end OB.Spec
