import Verif.Basic

/-! # Comparing two builds of the same function -/

namespace Hacspec.Spec

/-- Whenever the debug build returns a value, the release build returns the same value. -/
def Keeps {α : Type} (debug release : M α) : Prop := ∀ a, debug = .ok a → release = .ok a

end Hacspec.Spec
