import Verif.Lemmas.Leak.Seq

/-! # Events that tell something about the data

`Tells R c d`: if both computations end, and their events are the first events of the same list, then their values are
related by `R`, and the same events remain. -/

namespace Hacspec.Leak

variable {α β γ δ : Type}

/-- If the events of two computations agree, then `R` holds of their values. -/
def Tells (R : α → β → Prop) (c : L α) (d : L β) : Prop :=
  ∀ a b, c.res = .ok a → d.res = .ok b → ∀ t t', c.trace ++ t = d.trace ++ t' → R a b ∧ t = t'

theorem Tells.mono {R S : α → β → Prop} {c : L α} {d : L β} (h : Tells R c d) (hRS : ∀ a b, R a b → S a b) :
    Tells S c d := fun a b ha hb t t' ht => ⟨hRS _ _ (h a b ha hb t t' ht).1, (h a b ha hb t t' ht).2⟩

theorem Tells.mono' {R S : α → β → Prop} {c : L α} {d : L β} (h : Tells R c d)
    (hRS : ∀ a b, c.res = .ok a → d.res = .ok b → R a b → S a b) :
    Tells S c d := fun a b ha hb t t' ht => ⟨hRS _ _ ha hb (h a b ha hb t t' ht).1, (h a b ha hb t t' ht).2⟩

theorem Same.tells {R : α → β → Prop} {c : L α} {d : L β} (h : Same R c d) : Tells R c d := by
  intro a b ha hb t t' ht
  obtain ⟨h1, h2⟩ := h
  rw [ha, hb] at h2
  rw [h1] at ht
  exact ⟨h2, List.append_cancel_left ht⟩

theorem Tells.ok {R : α → β → Prop} {a : α} {b : β} (h : R a b) : Tells R (.ok a) (.ok b) := (Same.ok h).tells

theorem Tells.bind {R : α → β → Prop} {S : γ → δ → Prop} {c : L α} {d : L β} {f : α → L γ} {g : β → L δ}
    (h : Tells R c d) (hf : ∀ a b, c.res = .ok a → d.res = .ok b → R a b → Tells S (f a) (g b)) :
    Tells S (c >>= f) (d >>= g) := by
  intro x y hx hy t t' ht
  rw [res_bind] at hx hy
  obtain ⟨a, ha, hx⟩ := bind_eq_ok.1 hx
  obtain ⟨b, hb, hy⟩ := bind_eq_ok.1 hy
  rw [trace_bind_ok ha, trace_bind_ok hb, List.append_assoc, List.append_assoc] at ht
  obtain ⟨h1, h2⟩ := h a b ha hb _ _ ht
  exact hf a b ha hb h1 x y hx hy t t' h2

theorem Tells.lift {R : α → β → Prop} {x : M α} {y : M β} (h : ∀ a b, x = .ok a → y = .ok b → R a b) :
    Tells R (Leak.lift x) (Leak.lift y) := fun a b ha hb _ _ ht => ⟨h a b ha hb, ht⟩

theorem Tells.require {c d : Prop} [Decidable c] [Decidable d] :
    Tells (fun _ _ => True) (Leak.require c) (Leak.require d) := by
  intro a b _ _ t t' ht
  simp only [Leak.require, List.cons_append, List.nil_append, List.cons.injEq] at ht
  exact ⟨trivial, ht.2⟩

theorem Tells.branch {R : α → β → Prop} {c d : Prop} [Decidable c] [Decidable d] {t e : L α} {t' e' : L β}
    (h1 : c → d → Tells R t t') (h2 : ¬ c → ¬ d → Tells R e e') :
    Tells R (Leak.branch c t e) (Leak.branch d t' e') := by
  intro a b ha hb u u' hu
  rw [res_branch] at ha hb
  simp only [Leak.branch, List.cons_append, List.cons.injEq, Ev.branch.injEq, decide_eq_decide] at hu
  obtain ⟨hcd, hu⟩ := hu
  by_cases hc : c
  · have hd := hcd.1 hc
    rw [if_pos hc] at ha; rw [if_pos hd] at hb
    rw [if_pos hc, if_pos hd] at hu
    exact h1 hc hd a b ha hb u u' hu
  · have hd : ¬ d := fun k => hc (hcd.2 k)
    rw [if_neg hc] at ha; rw [if_neg hd] at hb
    rw [if_neg hc, if_neg hd] at hu
    exact h2 hc hd a b ha hb u u' hu

theorem Tells.idx {l : List α} {l' : List β} {i j : Nat} :
    Tells (fun _ _ => i = j) (Leak.idx l i) (Leak.idx l' j) := by
  intro a b _ _ t t' ht
  simp only [Leak.idx, List.cons_append, List.nil_append, List.cons.injEq, Ev.read.injEq] at ht
  exact ht

theorem Tells.setIdx {l : List α} {l' : List β} {i j : Nat} {x : α} {y : β} :
    Tells (fun _ _ => i = j) (Leak.setIdx l i x) (Leak.setIdx l' j y) := by
  intro a b _ _ t t' ht
  simp only [Leak.setIdx, List.cons_append, List.nil_append, List.cons.injEq, Ev.write.injEq] at ht
  exact ht

theorem Tells.iterate {R : Nat → α → β → Prop} {n : Nat} {b : Nat → α → L α} {b' : Nat → β → L β} {s : α} {s' : β}
    (h0 : R 0 s s') (hb : ∀ i, i < n → ∀ t t', R i t t' → Tells (R (i + 1)) (b i t) (b' i t')) :
    Tells (R n) (Leak.iterate n b s) (Leak.iterate n b' s') := by
  induction n with
  | zero => exact Tells.ok h0
  | succ n ih =>
    exact Tells.bind (ih fun i hi => hb i (Nat.lt_succ_of_lt hi)) fun t t' _ _ ht => hb n (Nat.lt_succ_self n) t t' ht

theorem Tells.loop (R : Nat → α → β → Prop) {n : Nat} {b : Nat → α → L α} {b' : Nat → β → L β} {s : α} {s' : β}
    (h0 : R 0 s s') (hb : ∀ i, i < n → ∀ t t', R i t t' → Tells (R (i + 1)) (b i t) (b' i t')) :
    Tells (R n) (Leak.loop n b s) (Leak.loop n b' s') := by
  intro x y hx hy t t' ht
  simp only [Leak.loop, List.cons_append, List.cons.injEq] at ht
  exact Tells.iterate h0 hb x y hx hy t t' ht.2

/-- Loops whose numbers of iterations are not known to be equal. -/
theorem Tells.loop' (R : Nat → α → β → Prop) {n n' : Nat} {b : Nat → α → L α} {b' : Nat → β → L β} {s : α} {s' : β}
    (h0 : R 0 s s') (hb : ∀ i, i < n → ∀ t t', R i t t' → Tells (R (i + 1)) (b i t) (b' i t')) :
    Tells (fun t t' => n = n' ∧ R n t t') (Leak.loop n b s) (Leak.loop n' b' s') := by
  intro x y hx hy t t' ht
  have hn : n = n' := by
    simp only [Leak.loop, List.cons_append, List.cons.injEq, Ev.times.injEq] at ht
    exact ht.1
  subst hn
  obtain ⟨h1, h2⟩ := Tells.loop R h0 hb x y hx hy t t' ht
  exact ⟨⟨rfl, h1⟩, h2⟩

/-- What the events of whole computations tell. -/
theorem Tells.trace {R : α → β → Prop} {c : L α} {d : L β} {a : α} {b : β} (h : Tells R c d) (hc : c.res = .ok a)
    (hd : d.res = .ok b) (ht : c.trace = d.trace) : R a b :=
  (h a b hc hd [] [] (by rw [ht])).1

/-- What the events of the first part of two computations tell; the rest is arbitrary. -/
theorem Tells.head {R : α → β → Prop} {c : L α} {d : L β} {f : α → L γ} {g : β → L δ} {a : α} {b : β}
    (h : Tells R c d) (hc : c.res = .ok a) (hd : d.res = .ok b) (ht : (c >>= f).trace = (d >>= g).trace) : R a b := by
  rw [trace_bind_ok hc, trace_bind_ok hd] at ht
  exact (h a b hc hd _ _ ht).1

end Hacspec.Leak
