import Verif.Model.Leak.Base

/-! # The number of steps of a run: memory accesses, branches and iterations of loops -/

namespace Hacspec.Spec

open Leak

/-- One for every access and every branch, and the number of iterations for every loop. -/
def steps : List Ev → Nat
  | [] => 0
  | .times n :: t => n + steps t
  | .read _ :: t => 1 + steps t
  | .write _ :: t => 1 + steps t
  | .branch _ :: t => 1 + steps t

end Hacspec.Spec
