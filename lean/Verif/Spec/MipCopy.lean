import Verif.Model.MipCopy

/-!
# What programs see of MIP fields

The properties speak of the answers of calls after histories of calls.
-/

namespace F3D
namespace Spec
namespace MipCopy
open F3D.MipCopy
variable {α A : Type}

/-- What a call answers in a state; `none` is undefined behaviour. -/
def answer (file : A → Option (Lvl α)) (w : World α A) (c : Call α A) : Option (Ans α) := (step file w c).map (·.2)

/-- What reading a voxel of a level of MIP field `o` answers. -/
def reads (file : A → Option (Lvl α)) (w : World α A) (o l : Nat) (v : V3i) : Option (Ans α) :=
  answer file w (.value o l v)

/-- The states of programs. -/
def Reached (file : A → Option (Lvl α)) (w : World α A) : Prop := ∃ cs, run file ⟨[], [], []⟩ cs = some w

/-- The call does not change the MIP fields in `P`: it sets up, clears, assigns to none of them and takes no level of
them out; and it writes through, and sets up fields from, none of the first `H` pointers of the program. -/
def Spares (P : Nat → Prop) (H : Nat) : Call α A → Prop
  | .write h _ _ => H ≤ h
  | .setup o hs => ¬ P o ∧ ∀ h ∈ hs, H ≤ h
  | .setupLazy o _ _ => ¬ P o
  | .clear o => ¬ P o
  | .assign o _ => ¬ P o
  | .level o _ => ¬ P o
  | _ => True

/-- The call gives MIP field `o` levels or takes them away. -/
def Prepares (o : Nat) : Call α A → Prop
  | .setup o' _ => o' = o
  | .setupLazy o' _ _ => o' = o
  | .clear o' => o' = o
  | .assign o' _ => o' = o
  | _ => False

end MipCopy
end Spec
end F3D
