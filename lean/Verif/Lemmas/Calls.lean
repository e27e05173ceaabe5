import Verif.Spec.Calls

/-! # Collisions of iterated compression functions -/

namespace Hacspec.Spec

variable {B S : Type} {f : B → S → M S}

theorem chained_append (s : S) (as bs : List B) :
    chained f s (as ++ bs) = chained f s as >>= fun t => chained f t bs := by
  induction as generalizing s with
  | nil => rfl
  | cons a as ih =>
    rw [List.cons_append, chained, chained]
    cases f a s with
    | error e => rfl
    | ok t => exact ih t

theorem callsFrom_append {s t : S} {as : List B} (h : chained f s as = .ok t) (bs : List B) :
    callsFrom f s (as ++ bs) = callsFrom f s as ++ callsFrom f t bs := by
  induction as generalizing s with
  | nil => rw [chained] at h; injection h with h; rw [h]; rfl
  | cons a as ih =>
    rw [chained] at h
    obtain ⟨u, h1, h2⟩ := bind_eq_ok.mp h
    rw [List.cons_append, callsFrom, callsFrom, h1]
    exact congrArg _ (ih h2)

theorem chained_concat {s d : S} {as : List B} {b : B} (h : chained f s (as ++ [b]) = .ok d) :
    ∃ t, chained f s as = .ok t ∧ f b t = .ok d ∧ callsFrom f s (as ++ [b]) = callsFrom f s as ++ [(b, t)] := by
  rw [chained_append] at h
  obtain ⟨t, h1, h2⟩ := bind_eq_ok.mp h
  rw [chained] at h2
  obtain ⟨u, h3, h4⟩ := bind_eq_ok.mp h2
  rw [chained] at h4
  injection h4 with h4
  subst h4
  refine ⟨t, h1, h3, ?_⟩
  rw [callsFrom_append h1, callsFrom, h3]
  rfl

theorem Collide.mono {l l' k k' : List (B × S)} (h : Collide f l l') (h1 : l ⊆ k) (h2 : l' ⊆ k') : Collide f k k' := by
  obtain ⟨x, hx, y, hy, h⟩ := h
  exact ⟨x, h1 hx, y, h2 hy, h⟩

theorem Reaches.mono {s : S} {l k : List (B × S)} (h : Reaches f s l) (h1 : l ⊆ k) : Reaches f s k := by
  obtain ⟨x, hx, h⟩ := h
  exact ⟨x, h1 hx, h⟩

theorem nil_or_concat (l : List B) : l = [] ∨ ∃ as b, l = as ++ [b] := by
  rcases List.eq_nil_or_concat l with h | ⟨as, b, h⟩
  · exact .inl h
  · exact .inr ⟨as, b, by rw [h, List.concat_eq_append]⟩

/-- Different last blocks with one result are a collision. -/
theorem collide_last {s d : S} {as as' : List B} {b b' : B} (h : chained f s (as ++ [b]) = .ok d)
    (h' : chained f s (as' ++ [b']) = .ok d) (hb : b ≠ b') :
    Collide f (callsFrom f s (as ++ [b])) (callsFrom f s (as' ++ [b'])) := by
  obtain ⟨t, -, h2, h3⟩ := chained_concat h
  obtain ⟨t', -, h2', h3'⟩ := chained_concat h'
  refine ⟨(b, t), by rw [h3]; simp, (b', t'), by rw [h3']; simp, ?_, d, h2, h2'⟩
  intro e
  exact hb (congrArg Prod.fst e)

/-- Two computations with one result: the same blocks, a collision, or a call that returns the initial value. -/
theorem collide_or {s d : S} (bs bs' : List B) (h : chained f s bs = .ok d) (h' : chained f s bs' = .ok d) :
    bs = bs' ∨ Collide f (callsFrom f s bs) (callsFrom f s bs') ∨
      (bs.length ≠ bs'.length ∧ (Reaches f s (callsFrom f s bs) ∨ Reaches f s (callsFrom f s bs'))) := by
  classical
  induction hn : bs.length generalizing bs bs' d with
  | zero =>
    have := List.eq_nil_of_length_eq_zero hn
    subst this
    rcases nil_or_concat bs' with rfl | ⟨as', b', rfl⟩
    · exact .inl rfl
    · obtain ⟨t', -, h2', h3'⟩ := chained_concat h'
      rw [chained] at h
      injection h with h
      subst h
      exact .inr (.inr ⟨by simp, .inr ⟨(b', t'), by rw [h3']; simp, h2'⟩⟩)
  | succ n ih =>
    rcases nil_or_concat bs with rfl | ⟨as, b, rfl⟩
    · simp at hn
    obtain ⟨t, h1, h2, h3⟩ := chained_concat h
    rcases nil_or_concat bs' with rfl | ⟨as', b', rfl⟩
    · rw [chained] at h'
      injection h' with h'
      subst h'
      exact .inr (.inr ⟨by simp, .inl ⟨(b, t), by rw [h3]; simp, h2⟩⟩)
    obtain ⟨t', h1', h2', h3'⟩ := chained_concat h'
    by_cases e : (b, t) = (b', t')
    · injection e with e1 e2
      subst e1 e2
      rcases ih as as' h1 h1' (by simpa using hn) with rfl | hc | ⟨hl, hr⟩
      · exact .inl rfl
      · exact .inr (.inl (hc.mono (by rw [h3]; simp) (by rw [h3']; simp)))
      · refine .inr (.inr ⟨by simp; omega, hr.imp (fun hr => hr.mono (by rw [h3]; simp)) fun hr => hr.mono (by rw [h3']; simp)⟩)
    · exact .inr (.inl ⟨(b, t), by rw [h3]; simp, (b', t'), by rw [h3']; simp, e, d, h2, h2'⟩)

theorem length_fullBlocks {α : Type} (n : Nat) (l : List α) : (fullBlocks n l).length = l.length / n := by
  simp [fullBlocks]

theorem flatten_fullBlocks {α : Type} (n : Nat) (l : List α) (hl : l.length % n = 0) :
    (fullBlocks n l).flatten = l := by
  have key : ∀ k, n * k ≤ l.length → ((List.range k).map fun i => (l.drop (n * i)).take n).flatten = l.take (n * k) := by
    intro k hk
    induction k with
    | zero => simp
    | succ k ih =>
      rw [List.range_succ, List.map_append, List.flatten_append, ih (by rw [Nat.mul_succ] at hk; omega), Nat.mul_succ,
        List.take_add]
      simp
  have hm : n * (l.length / n) = l.length := by
    have := Nat.div_add_mod l.length n
    omega
  rw [fullBlocks, key _ (by omega), hm, List.take_of_length_le (Nat.le_refl _)]

end Hacspec.Spec
