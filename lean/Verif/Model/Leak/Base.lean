import Verif.Basic

/-!
# What an observer of the processor sees

The same functions as in `Verif/Model`, in a monad that also records the events visible to an observer of the program's
control flow and memory accesses: the index of every access to a vector or array, the outcome of every branch and the
number of iterations of every loop.  Straight-line arithmetic on machine words is invisible.

The definitions under `Verif/Model/Leak` repeat those of `Verif/Model` word for word, except that `if` is written
`branch`; `Verif/Lemmas/Leak` proves that forgetting the events gives back the definitions of `Verif/Model`.
-/

namespace Hacspec.Leak

/-- A visible event. -/
inductive Ev where
  /-- `v[i]`, read -/
  | read (i : Nat)
  /-- `v[i] = x` -/
  | write (i : Nat)
  /-- a branch and its outcome -/
  | branch (b : Bool)
  /-- a loop and the number of its iterations -/
  | times (n : Nat)
  deriving DecidableEq, Repr

/-- A computation with the events it causes, up to its end or its panic. -/
structure L (α : Type) where
  trace : List Ev
  res : M α

namespace L

/-- A returned value; no event. -/
def ok {α : Type} (a : α) : L α := ⟨[], .ok a⟩

/-- One computation after the other; a panic ends it. -/
def bind {α β : Type} (c : L α) (f : α → L β) : L β :=
  match c.res with
  | .ok a => ⟨c.trace ++ (f a).trace, (f a).res⟩
  | .error e => ⟨c.trace, .error e⟩

instance : Monad L where
  pure := ok
  bind := bind

end L

/-- Straight-line code: no event. -/
def lift {α : Type} (x : M α) : L α := ⟨[], x⟩

/-- A Rust panic. -/
def panic {α : Type} : L α := ⟨[], Hacspec.panic⟩

/-- `assert!(c)`: a branch. -/
def require (c : Prop) [Decidable c] : L Unit := ⟨[.branch (decide c)], Hacspec.require c⟩

/-- `if c { t } else { e }`. -/
def branch {α : Type} (c : Prop) [Decidable c] (t e : L α) : L α :=
  let r := if c then t else e
  ⟨.branch (decide c) :: r.trace, r.res⟩

/-- The iterations of a loop. -/
def iterate {σ : Type} (n : Nat) (body : Nat → σ → L σ) (s : σ) : L σ :=
  match n with
  | 0 => .ok s
  | k + 1 => iterate k body s >>= body k

/-- `for i in 0..n { s = body(i, s) }`. -/
def loop {σ : Type} (n : Nat) (body : Nat → σ → L σ) (s : σ) : L σ :=
  ⟨.times n :: (iterate n body s).trace, (iterate n body s).res⟩

/-- `v[i]`: the address depends on `i`. -/
def idx {α : Type} (l : List α) (i : Nat) : L α := ⟨[.read i], Hacspec.idx l i⟩

/-- `v[i] = x`: the address depends on `i`. -/
def setIdx {α : Type} (l : List α) (i : Nat) (x : α) : L (List α) := ⟨[.write i], Hacspec.setIdx l i x⟩

end Hacspec.Leak
