import Verif.Lemmas.Leak.Tells

/-! # The same events of computations that end

`Sync R c d`: if both computations end, then their events are the same and their values are related by `R`. -/

namespace Hacspec.Leak

variable {α β γ δ : Type}

/-- The same events if both end. -/
def Sync (R : α → β → Prop) (c : L α) (d : L β) : Prop :=
  ∀ a b, c.res = .ok a → d.res = .ok b → c.trace = d.trace ∧ R a b

theorem Sync.mono {R S : α → β → Prop} {c : L α} {d : L β} (h : Sync R c d)
    (hRS : ∀ a b, c.res = .ok a → d.res = .ok b → R a b → S a b) : Sync S c d :=
  fun a b ha hb => ⟨(h a b ha hb).1, hRS _ _ ha hb (h a b ha hb).2⟩

theorem Same.sync {R : α → β → Prop} {c : L α} {d : L β} (h : Same R c d) : Sync R c d := by
  intro a b ha hb
  obtain ⟨h1, h2⟩ := h
  rw [ha, hb] at h2
  exact ⟨h1, h2⟩

theorem Sync.tells {R : α → β → Prop} {c : L α} {d : L β} (h : Sync R c d) : Tells R c d := by
  intro a b ha hb t t' ht
  obtain ⟨h1, h2⟩ := h a b ha hb
  rw [h1] at ht
  exact ⟨h2, List.append_cancel_left ht⟩

theorem Sync.ok {R : α → β → Prop} {a : α} {b : β} (h : R a b) : Sync R (.ok a) (.ok b) := (Same.ok h).sync

theorem Sync.bind {R : α → β → Prop} {S : γ → δ → Prop} {c : L α} {d : L β} {f : α → L γ} {g : β → L δ}
    (h : Sync R c d) (hf : ∀ a b, c.res = .ok a → d.res = .ok b → R a b → Sync S (f a) (g b)) :
    Sync S (c >>= f) (d >>= g) := by
  intro x y hx hy
  rw [res_bind] at hx hy
  obtain ⟨a, ha, hx⟩ := bind_eq_ok.1 hx
  obtain ⟨b, hb, hy⟩ := bind_eq_ok.1 hy
  obtain ⟨h1, h2⟩ := h a b ha hb
  obtain ⟨k1, k2⟩ := hf a b ha hb h2 x y hx hy
  rw [trace_bind_ok ha, trace_bind_ok hb, h1, k1]
  exact ⟨rfl, k2⟩

theorem Sync.lift {R : α → β → Prop} {x : M α} {y : M β} (h : ∀ a b, x = .ok a → y = .ok b → R a b) :
    Sync R (Leak.lift x) (Leak.lift y) := fun a b ha hb => ⟨rfl, h a b ha hb⟩

theorem Sync.require {c d : Prop} [Decidable c] [Decidable d] :
    Sync (fun _ _ => c ∧ d) (Leak.require c) (Leak.require d) := by
  intro a b ha hb
  rw [res_require] at ha hb
  by_cases hc : c <;> by_cases hd : d
  · exact ⟨by simp [Leak.require, hc, hd], hc, hd⟩
  · rw [Hacspec.require_false hd] at hb; cases hb
  · rw [Hacspec.require_false hc] at ha; cases ha
  · rw [Hacspec.require_false hc] at ha; cases ha

theorem Sync.branch {R : α → β → Prop} {c d : Prop} [Decidable c] [Decidable d] {t e : L α} {t' e' : L β}
    (h : c ↔ d) (h1 : c → d → Sync R t t') (h2 : ¬ c → ¬ d → Sync R e e') :
    Sync R (Leak.branch c t e) (Leak.branch d t' e') := by
  intro a b ha hb
  rw [res_branch] at ha hb
  by_cases hc : c
  · have hd := h.1 hc
    rw [if_pos hc] at ha; rw [if_pos hd] at hb
    obtain ⟨k1, k2⟩ := h1 hc hd a b ha hb
    exact ⟨by simp [Leak.branch, hc, hd, k1], k2⟩
  · have hd : ¬ d := fun k => hc (h.2 k)
    rw [if_neg hc] at ha; rw [if_neg hd] at hb
    obtain ⟨k1, k2⟩ := h2 hc hd a b ha hb
    exact ⟨by simp [Leak.branch, hc, hd, k1], k2⟩

theorem Sync.loop (R : Nat → α → β → Prop) {n n' : Nat} {b : Nat → α → L α} {b' : Nat → β → L β} {s : α} {s' : β}
    (hn : n = n') (h0 : R 0 s s') (hb : ∀ i, i < n → ∀ t t', R i t t' → Sync (R (i + 1)) (b i t) (b' i t')) :
    Sync (R n) (Leak.loop n b s) (Leak.loop n' b' s') := by
  subst hn
  have : Sync (R n) (Leak.iterate n b s) (Leak.iterate n b' s') := by
    induction n with
    | zero => exact Sync.ok h0
    | succ n ih =>
      exact Sync.bind (ih fun i hi => hb i (Nat.lt_succ_of_lt hi)) fun t t' _ _ ht => hb n (Nat.lt_succ_self n) t t' ht
  intro x y hx hy
  obtain ⟨h1, h2⟩ := this x y hx hy
  exact ⟨by simp only [Leak.loop, h1], h2⟩

end Hacspec.Leak
