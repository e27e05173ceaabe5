import Verif.Model.Leak.Seq

/-! # Forgetting the events, and computations with the same events -/

namespace Hacspec.Leak

/-! ## Forgetting the events -/

theorem L.ext' {α : Type} {c d : L α} (h : c.trace = d.trace) (h' : c.res = d.res) : c = d := by
  cases c; cases d; simp_all

@[simp] theorem res_ok {α : Type} (a : α) : (L.ok a).res = .ok a := rfl
@[simp] theorem trace_ok {α : Type} (a : α) : (L.ok a).trace = [] := rfl
@[simp] theorem res_pure {α : Type} (a : α) : (pure a : L α).res = .ok a := rfl
@[simp] theorem res_lift {α : Type} (x : M α) : (lift x).res = x := rfl
@[simp] theorem res_panic {α : Type} : (panic : L α).res = Hacspec.panic := rfl
@[simp] theorem res_require (c : Prop) [Decidable c] : (require c).res = Hacspec.require c := rfl
@[simp] theorem res_idx {α : Type} (l : List α) (i : Nat) : (idx l i).res = Hacspec.idx l i := rfl
@[simp] theorem res_setIdx {α : Type} (l : List α) (i : Nat) (x : α) : (setIdx l i x).res = Hacspec.setIdx l i x := rfl
@[simp] theorem res_count (n : Nat) : (Seq.count n).res = .ok () := rfl

@[simp] theorem res_branch {α : Type} (c : Prop) [Decidable c] (t e : L α) :
    (branch c t e).res = if c then t.res else e.res := by
  unfold branch; split <;> rfl

theorem bind_def {α β : Type} (c : L α) (f : α → L β) : c >>= f = L.bind c f := rfl

@[simp] theorem res_bind {α β : Type} (c : L α) (f : α → L β) : (c >>= f).res = c.res >>= fun a => (f a).res := by
  rw [bind_def, L.bind]
  cases h : c.res <;> rfl

theorem res_iterate {σ : Type} (n : Nat) (body : Nat → σ → L σ) (s : σ) :
    (iterate n body s).res = Hacspec.loop n (fun i s => (body i s).res) s := by
  induction n with
  | zero => rfl
  | succ n ih => rw [iterate, res_bind, ih, Hacspec.loop_succ]

@[simp] theorem res_loop {σ : Type} (n : Nat) (body : Nat → σ → L σ) (s : σ) :
    (loop n body s).res = Hacspec.loop n (fun i s => (body i s).res) s := res_iterate n body s

theorem trace_bind_ok {α β : Type} {c : L α} {f : α → L β} {a : α} (h : c.res = .ok a) :
    (c >>= f).trace = c.trace ++ (f a).trace := by
  rw [bind_def, L.bind, h]

/-! ## The same events -/

/-- Results that are both failures of the same kind, or related values. -/
def ResRel {α β : Type} (R : α → β → Prop) : M α → M β → Prop
  | .ok a, .ok b => R a b
  | .error e, .error f => e = f
  | _, _ => False

/-- Two computations cause the same events, fail together, and their values are related. -/
def Same {α β : Type} (R : α → β → Prop) (c : L α) (d : L β) : Prop := c.trace = d.trace ∧ ResRel R c.res d.res

variable {α β γ δ : Type}

theorem Same.mono {R S : α → β → Prop} {c : L α} {d : L β} (h : Same R c d) (hRS : ∀ a b, R a b → S a b) :
    Same S c d := by
  refine ⟨h.1, ?_⟩
  have := h.2
  cases hc : c.res <;> cases hd : d.res <;> rw [hc, hd] at this <;> simp_all [ResRel]

theorem Same.ok {R : α → β → Prop} {a : α} {b : β} (h : R a b) : Same R (.ok a) (.ok b) := ⟨rfl, h⟩

theorem Same.refl {c : L α} : Same Eq c c := by
  refine ⟨rfl, ?_⟩
  cases c.res <;> simp [ResRel]

theorem Same.bind {R : α → β → Prop} {S : γ → δ → Prop} {c : L α} {d : L β} {f : α → L γ} {g : β → L δ}
    (h : Same R c d) (hf : ∀ a b, R a b → Same S (f a) (g b)) : Same S (c >>= f) (d >>= g) := by
  obtain ⟨h1, h2⟩ := h
  rw [bind_def, bind_def, L.bind, L.bind]
  cases hc : c.res <;> cases hd : d.res <;> rw [hc, hd] at h2
  · exact ⟨h1, h2⟩
  · exact h2.elim
  · exact h2.elim
  · obtain ⟨k1, k2⟩ := hf _ _ h2
    exact ⟨by simp only [h1, k1], k2⟩

theorem ResRel.bind {R : α → β → Prop} {S : γ → δ → Prop} {x : M α} {y : M β} {f : α → M γ} {g : β → M δ}
    (h : ResRel R x y) (hf : ∀ a b, R a b → ResRel S (f a) (g b)) : ResRel S (x >>= f) (y >>= g) := by
  cases x <;> cases y
  · exact h
  · exact h.elim
  · exact h.elim
  · exact hf _ _ h

theorem ResRel.refl {x : M α} : ResRel Eq x x := by
  cases x <;> simp [ResRel]

theorem Same.lift {R : α → β → Prop} {x : M α} {y : M β} (h : ResRel R x y) : Same R (Leak.lift x) (Leak.lift y) :=
  ⟨rfl, h⟩

theorem Same.require {c d : Prop} [Decidable c] [Decidable d] (h : c ↔ d) :
    Same (fun _ _ => True) (Leak.require c) (Leak.require d) := by
  refine ⟨by simp [Leak.require, h], ?_⟩
  rw [res_require, res_require]
  by_cases hc : c
  · rw [Hacspec.require_true hc, Hacspec.require_true (h.1 hc)]; trivial
  · rw [Hacspec.require_false hc, Hacspec.require_false (fun k => hc (h.2 k))]; exact rfl

theorem Same.branch {R : α → β → Prop} {c d : Prop} [Decidable c] [Decidable d] {t e : L α} {t' e' : L β}
    (h : c ↔ d) (h1 : c → Same R t t') (h2 : ¬ c → Same R e e') : Same R (Leak.branch c t e) (Leak.branch d t' e') := by
  by_cases hc : c
  · have hd := h.1 hc
    obtain ⟨k1, k2⟩ := h1 hc
    exact ⟨by simp [Leak.branch, hc, hd, k1], by simpa [hc, hd] using k2⟩
  · have hd : ¬ d := fun k => hc (h.2 k)
    obtain ⟨k1, k2⟩ := h2 hc
    exact ⟨by simp [Leak.branch, hc, hd, k1], by simpa [hc, hd] using k2⟩

theorem Same.iterate {R : α → β → Prop} {n : Nat} {b : Nat → α → L α} {b' : Nat → β → L β} {s : α} {s' : β}
    (h0 : R s s') (hb : ∀ i, i < n → ∀ t t', R t t' → Same R (b i t) (b' i t')) :
    Same R (Leak.iterate n b s) (Leak.iterate n b' s') := by
  induction n with
  | zero => exact Same.ok h0
  | succ n ih =>
    exact Same.bind (ih fun i hi => hb i (Nat.lt_succ_of_lt hi)) fun t t' ht => hb n (Nat.lt_succ_self n) t t' ht

theorem Same.loop {R : α → β → Prop} {n n' : Nat} {b : Nat → α → L α} {b' : Nat → β → L β} {s : α} {s' : β}
    (hn : n = n') (h0 : R s s') (hb : ∀ i, i < n → ∀ t t', R t t' → Same R (b i t) (b' i t')) :
    Same R (Leak.loop n b s) (Leak.loop n' b' s') := by
  subst hn
  obtain ⟨h1, h2⟩ := Same.iterate h0 hb
  exact ⟨by simp only [Leak.loop, h1], h2⟩

theorem Same.count {n n' : Nat} (hn : n = n') : Same (fun _ _ => True) (Seq.count n) (Seq.count n') := by
  subst hn; exact ⟨rfl, trivial⟩

/-! ## Lists whose lengths are public -/

/-- Lists of the same length. -/
def Len (l : List α) (l' : List β) : Prop := l.length = l'.length

/-- No relation. -/
def Any (_ : α) (_ : β) : Prop := True

/-- Components related. -/
def Both (R : α → β → Prop) (S : γ → δ → Prop) (p : α × γ) (q : β × δ) : Prop := R p.1 q.1 ∧ S p.2 q.2

theorem Same.idx {l : List α} {l' : List β} {i j : Nat} (h : Len l l') (hi : i = j) :
    Same Any (Leak.idx l i) (Leak.idx l' j) := by
  subst hi
  unfold Len at h
  refine ⟨rfl, ?_⟩
  rw [res_idx, res_idx]
  by_cases hl : i < l.length
  · rw [Hacspec.idx_ok hl, Hacspec.idx_ok (by omega)]; exact True.intro
  · rw [Hacspec.idx_panic (by omega), Hacspec.idx_panic (by omega)]; exact rfl

theorem Same.setIdx {l : List α} {l' : List β} {i j : Nat} {x : α} {y : β} (h : Len l l') (hi : i = j) :
    Same Len (Leak.setIdx l i x) (Leak.setIdx l' j y) := by
  subst hi
  unfold Len at h
  refine ⟨rfl, ?_⟩
  rw [res_setIdx, res_setIdx]
  by_cases hl : i < l.length
  · rw [Hacspec.setIdx_ok hl, Hacspec.setIdx_ok (by omega)]
    show (List.set _ _ _).length = (List.set _ _ _).length
    simp [h]
  · rw [Hacspec.setIdx_panic (by omega), Hacspec.setIdx_panic (by omega)]; exact rfl

theorem Both.mk {R : α → β → Prop} {S : γ → δ → Prop} {p : α × γ} {q : β × δ} (h : R p.1 q.1) (h' : S p.2 q.2) :
    Both R S p q := ⟨h, h'⟩
theorem Both.eq {S : γ → δ → Prop} {p : α × γ} {q : α × δ} (h : Both Eq S p q) : p.1 = q.1 := h.1
theorem Both.len {R : α → β → Prop} {p : α × List γ} {q : β × List δ} (h : Both R Len p q) : Len p.2 q.2 := h.2
theorem Both.len' {S : γ → δ → Prop} {p : List α × γ} {q : List β × δ} (h : Both Len S p q) : Len p.1 q.1 := h.1
theorem Len.nil : Len ([] : List α) ([] : List β) := rfl
theorem Len.cons {a : α} {b : β} {l : List α} {l' : List β} (h : Len l l') : Len (a :: l) (b :: l') := by
  unfold Len at *; simp [h]

/-- Conclusion: the same events. -/
theorem Same.trace {R : α → β → Prop} {c : L α} {d : L β} (h : Same R c d) : c.trace = d.trace := h.1

end Hacspec.Leak
