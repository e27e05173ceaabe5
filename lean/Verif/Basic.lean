/-!
# Base definitions: the result monad of the model and loops

Rust functions are modelled as total functions into `M`.  A panic (failed `assert!`/`debug_assert!`,
out-of-bounds index, arithmetic overflow in a debug build, `unimplemented!`) is `.error .panic`;
an infinite loop is `.error .diverge`.
-/

namespace Hacspec

/-- Ways in which a Rust call may fail to return. -/
inductive Fail where
  | panic
  | diverge
  deriving DecidableEq, Repr

/-- Result of running a Rust function. -/
abbrev M := Except Fail

instance {α : Type} [DecidableEq α] : DecidableEq (M α)
  | .ok a, .ok b => if h : a = b then isTrue (h ▸ rfl) else isFalse (fun e => h (Except.ok.inj e))
  | .error a, .error b =>
    if h : a = b then isTrue (h ▸ rfl) else isFalse (fun e => h (Except.error.inj e))
  | .ok _, .error _ => isFalse (fun e => nomatch e)
  | .error _, .ok _ => isFalse (fun e => nomatch e)

/-- A Rust panic. -/
def panic {α : Type} : M α := .error .panic

/-- `assert!(c)` / `debug_assert!(c)` (debug build). -/
def require (c : Prop) [Decidable c] : M Unit := if c then .ok () else panic

/-- `for i in 0..n { s = body(i, s) }`. -/
def loop {σ : Type} (n : Nat) (body : Nat → σ → M σ) (s : σ) : M σ :=
  match n with
  | 0 => .ok s
  | k + 1 => loop k body s >>= body k

/-- `v[i]` on a Rust vector, slice or array: panics when out of bounds. -/
def idx {α : Type} (l : List α) (i : Nat) : M α :=
  match l[i]? with
  | some x => .ok x
  | none => panic

/-- `v[i] = x` on a Rust vector, slice or array: panics when out of bounds. -/
def setIdx {α : Type} (l : List α) (i : Nat) (x : α) : M (List α) :=
  if i < l.length then .ok (l.set i x) else panic

/-! ## Rules for reasoning -/

@[simp] theorem bind_ok {α β : Type} (a : α) (f : α → M β) : ((Except.ok a : M α) >>= f) = f a := rfl
@[simp] theorem bind_error {α β : Type} (e : Fail) (f : α → M β) :
    ((Except.error e : M α) >>= f) = .error e := rfl
@[simp] theorem bind_panic {α β : Type} (f : α → M β) : ((panic : M α) >>= f) = panic := rfl
@[simp] theorem pure_eq_ok {α : Type} (a : α) : (pure a : M α) = .ok a := rfl
@[simp] theorem map_ok {α β : Type} (a : α) (f : α → β) : (f <$> (Except.ok a : M α)) = .ok (f a) := rfl
@[simp] theorem map_panic {α β : Type} (f : α → β) : (f <$> (panic : M α)) = panic := rfl

theorem bind_assoc' {α β γ : Type} (x : M α) (f : α → M β) (g : β → M γ) :
    (x >>= f) >>= g = x >>= fun a => f a >>= g := by cases x <;> rfl

@[simp] theorem panic_ne_ok {α : Type} (a : α) : ((panic : M α) = .ok a) = False := by
  simp [panic]

@[simp] theorem ok_ne_panic {α : Type} (a : α) : ((Except.ok a : M α) = panic) = False := by
  simp [panic]

theorem bind_eq_ok {α β : Type} {x : M α} {f : α → M β} {b : β} :
    (x >>= f) = .ok b ↔ ∃ a, x = .ok a ∧ f a = .ok b := by
  cases x <;> simp [bind, Except.bind]

@[simp] theorem require_true {c : Prop} [Decidable c] (h : c) : require c = .ok () := by
  simp [require, h]

@[simp] theorem require_false {c : Prop} [Decidable c] (h : ¬ c) : require c = panic := by
  simp [require, h]

theorem require_eq_ok {c : Prop} [Decidable c] {u : Unit} : require c = .ok u ↔ c := by
  by_cases h : c <;> simp [h]

@[simp] theorem loop_zero {σ : Type} (body : Nat → σ → M σ) (s : σ) : loop 0 body s = .ok s := rfl

theorem loop_succ {σ : Type} (k : Nat) (body : Nat → σ → M σ) (s : σ) :
    loop (k + 1) body s = loop k body s >>= body k := rfl

/-- Loop rule: an indexed invariant that the body establishes for the next index. -/
theorem loop_inv {σ : Type} (P : Nat → σ → Prop) {n : Nat} {body : Nat → σ → M σ} {s : σ}
    (h0 : P 0 s)
    (hs : ∀ i, i < n → ∀ t, P i t → ∃ t', body i t = .ok t' ∧ P (i + 1) t') :
    ∃ t, loop n body s = .ok t ∧ P n t := by
  induction n with
  | zero => exact ⟨s, rfl, h0⟩
  | succ k ih =>
    obtain ⟨t, ht, hp⟩ := ih (fun i hi => hs i (Nat.lt_succ_of_lt hi))
    obtain ⟨t', ht', hp'⟩ := hs k (Nat.lt_succ_self k) t hp
    exact ⟨t', by rw [loop_succ, ht, bind_ok, ht'], hp'⟩

/-- Loop rule with an explicit description of the state. -/
theorem loop_eq {σ : Type} (f : Nat → σ) {n : Nat} {body : Nat → σ → M σ}
    (hs : ∀ i, i < n → body i (f i) = .ok (f (i + 1))) :
    loop n body (f 0) = .ok (f n) := by
  obtain ⟨t, ht, hp⟩ := loop_inv (fun i t => t = f i) (s := f 0) (n := n) (body := body) rfl
    (fun i hi t ht => ⟨f (i + 1), by rw [ht]; exact hs i hi, rfl⟩)
  rw [ht, hp]

/-- Loop rule: pure bodies. -/
theorem loop_pure {σ : Type} (n : Nat) (f : Nat → σ → σ) (s : σ) :
    loop n (fun i t => .ok (f i t)) s = .ok (Nat.rec s (fun i t => f i t) n) := by
  induction n with
  | zero => rfl
  | succ k ih => rw [loop_succ, ih]; rfl

/-- Splitting a loop. -/
theorem loop_add {σ : Type} (m n : Nat) (body : Nat → σ → M σ) (s : σ) :
    loop (m + n) body s = loop m body s >>= loop n (fun i => body (m + i)) := by
  induction n with
  | zero => simp [loop]; cases loop m body s <;> rfl
  | succ k ih => rw [← Nat.add_assoc, loop_succ, ih, bind_assoc']; rfl

theorem loop_congr {σ : Type} {n : Nat} {b1 b2 : Nat → σ → M σ} (h : ∀ i, i < n → ∀ s, b1 i s = b2 i s)
    (s : σ) : loop n b1 s = loop n b2 s := by
  induction n with
  | zero => rfl
  | succ k ih =>
    rw [loop_succ, loop_succ, ih (fun i hi => h i (Nat.lt_succ_of_lt hi))]
    congr 1; funext t; exact h k (Nat.lt_succ_self k) t

/-- A loop that panics at some iteration whose prefix succeeds, panics. -/
theorem loop_panic {σ : Type} {n k : Nat} {body : Nat → σ → M σ} {s t : σ} (hk : k < n)
    (hp : loop k body s = .ok t) (hb : body k t = panic) : loop n body s = panic := by
  induction n with
  | zero => omega
  | succ m ih =>
    rw [loop_succ]
    by_cases h : k = m
    · subst h; rw [hp, bind_ok, hb]
    · rw [ih (by omega), bind_panic]

theorem idx_eq_ok {α : Type} {l : List α} {i : Nat} {x : α} : idx l i = .ok x ↔ l[i]? = some x := by
  unfold idx; cases h : l[i]? <;> simp

theorem idx_ok {α : Type} {l : List α} {i : Nat} (h : i < l.length) : idx l i = .ok l[i] := by
  rw [idx_eq_ok]; exact List.getElem?_eq_getElem h

theorem idx_panic {α : Type} {l : List α} {i : Nat} (h : l.length ≤ i) : idx l i = panic := by
  unfold idx; rw [List.getElem?_eq_none h]

theorem setIdx_ok {α : Type} {l : List α} {i : Nat} {x : α} (h : i < l.length) :
    setIdx l i x = .ok (l.set i x) := by simp [setIdx, h]

theorem setIdx_panic {α : Type} {l : List α} {i : Nat} {x : α} (h : l.length ≤ i) :
    setIdx l i x = panic := by simp [setIdx, Nat.not_lt.mpr h]

end Hacspec

namespace Hacspec

/-- `while cond(s) { s = body(s) }`, executed for at most `fuel - 1` iterations; running out of fuel is
reported as `.diverge`.  Every use supplies more fuel than the loop state has values, so by
determinism running out of fuel means that the Rust loop never terminates. -/
def whileM {σ : Type} (fuel : Nat) (cond : σ → Bool) (body : σ → M σ) (s : σ) : M σ :=
  match fuel with
  | 0 => .error .diverge
  | f + 1 => if cond s then body s >>= whileM f cond body else .ok s

theorem whileM_done {σ : Type} {fuel : Nat} {cond : σ → Bool} {body : σ → M σ} {s : σ}
    (hf : 0 < fuel) (h : cond s = false) : whileM fuel cond body s = .ok s := by
  cases fuel with
  | zero => omega
  | succ f => simp [whileM, h]

theorem whileM_step {σ : Type} {fuel : Nat} {cond : σ → Bool} {body : σ → M σ} {s : σ}
    (h : cond s = true) : whileM (fuel + 1) cond body s = body s >>= whileM fuel cond body := by
  simp [whileM, h]

/-- While rule: an invariant and a decreasing measure below the fuel. -/
theorem whileM_inv {σ : Type} (P : σ → Prop) (μ : σ → Nat) {cond : σ → Bool} {body : σ → M σ}
    (hs : ∀ s, P s → cond s = true → ∃ s', body s = .ok s' ∧ P s' ∧ μ s' < μ s)
    {fuel : Nat} {s : σ} (hP : P s) (hf : μ s < fuel) :
    ∃ t, whileM fuel cond body s = .ok t ∧ P t ∧ cond t = false := by
  induction fuel generalizing s with
  | zero => omega
  | succ f ih =>
    cases hc : cond s with
    | false => exact ⟨s, whileM_done (Nat.succ_pos f) hc, hP, hc⟩
    | true =>
      obtain ⟨s', hb, hP', hμ⟩ := hs s hP hc
      obtain ⟨t, ht, hPt, hct⟩ := ih hP' (by omega)
      exact ⟨t, by rw [whileM_step hc, hb, bind_ok, ht], hPt, hct⟩

end Hacspec
