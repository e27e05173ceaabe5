import Verif.Lemmas.Ideal.DaviesMeyer

/-! # Sponges with a random permutation -/

namespace Hacspec.Ideal

open Spec Finset

variable {X B I O : Type} (mix : B → X → X) (inner : X → I) (x₀ : X)

/-- One block: mix it into the state and permute. -/
def spongeStep (π : Equiv.Perm X) (b : B) (x : X) : M X := .ok (π (mix b x))

/-- The questions that absorb the blocks. -/
def soak : List B → X → Prog (Dir Unit X) X Unit
  | [], _ => .ret ()
  | b :: bs, x => .ask (.fwd () (mix b x)) fun y => soak bs y

theorem soak_within (bs : List B) (x : X) : (soak mix bs x).Within bs.length := by
  induction bs generalizing x with
  | nil => trivial
  | cons b bs ih => exact ⟨bs.length, rfl, fun r => ih _⟩

/-- The inner parts that are reached from the start with the triples seen. -/
inductive Rooted (ts : List (Unit × X × X)) : I → Prop
  | start : Rooted ts (inner x₀)
  | step (t : Unit × X × X) : t ∈ ts → Rooted ts (inner t.2.1) → Rooted ts (inner t.2.2)

/-- The inner part of `r` was seen: at the start, in `ts` or in the question. -/
def Stale (ts : List (Unit × X × X)) (z r : X) : Prop :=
  inner r = inner x₀ ∨ inner r = inner z ∨ ∃ t ∈ ts, inner r = inner t.2.1 ∨ inner r = inner t.2.2

/-- What must not happen: inner parts seen before; states `W` as answers to forward questions. -/
def SpongeBad (W : List (Unit × X × X) → X → Prop) (ts : List (Unit × X × X)) : Dir Unit X → X → Prop
  | .fwd _ x, y => Stale inner x₀ ts x y ∨ W ts y
  | .bwd _ y, x => Stale inner x₀ ts y x

theorem rooted_mono {ts ts' : List (Unit × X × X)} (h : ts ⊆ ts') {v : I} (hv : Rooted inner x₀ ts v) : Rooted inner x₀ ts' v := by
  induction hv with
  | start => exact .start
  | step t ht _ ih => exact .step t (h ht) ih

theorem rooted_seen {ts : List (Unit × X × X)} {v : I} (hv : Rooted inner x₀ ts v) :
    v = inner x₀ ∨ ∃ t ∈ ts, v = inner t.2.2 := by
  cases hv with
  | start => exact .inl rfl
  | step t ht _ => exact .inr ⟨t, ht, rfl⟩

/-- A new forward triple adds at most its own end. -/
theorem rooted_fwd {ts : List (Unit × X × X)} {x y : X} (hs : ¬ Stale inner x₀ ts x y) {v : I}
    (hv : Rooted inner x₀ (((), x, y) :: ts) v) : Rooted inner x₀ ts v ∨ (Rooted inner x₀ ts (inner x) ∧ v = inner y) := by
  induction hv with
  | start => exact .inl .start
  | step t ht _ ih =>
    rcases List.mem_cons.mp ht with rfl | ht
    · rcases ih with h | ⟨-, h⟩
      · exact .inr ⟨h, rfl⟩
      · exact absurd (.inr (.inl h.symm)) hs
    · rcases ih with h | ⟨-, h⟩
      · exact .inl (.step t ht h)
      · exact absurd (.inr (.inr ⟨t, ht, .inl h.symm⟩)) hs

/-- A new backward triple adds nothing. -/
theorem rooted_bwd {ts : List (Unit × X × X)} {x y : X} (hs : ¬ Stale inner x₀ ts y x) {v : I}
    (hv : Rooted inner x₀ (((), x, y) :: ts) v) : Rooted inner x₀ ts v ∧ v ≠ inner x := by
  have key : ∀ v, Rooted inner x₀ ts v → v ≠ inner x := by
    rintro v hv rfl
    rcases rooted_seen inner x₀ hv with h | ⟨t, ht, h⟩
    · exact hs (.inl h)
    · exact hs (.inr (.inr ⟨t, ht, .inr h⟩))
  suffices h : Rooted inner x₀ ts v from ⟨h, key v h⟩
  induction hv with
  | start => exact .start
  | step t ht _ ih =>
    rcases List.mem_cons.mp ht with rfl | ht
    · exact absurd rfl (key _ ih)
    · exact .step t ht ih

/-- What holds if nothing bad happened: on the reached triples, inner parts are new, and `U` and `V` do not occur. -/
structure Clean (U : X → Prop) (V : X → X → Prop) (ts : List (Unit × X × X)) : Prop where
  start : ∀ t ∈ ts, Rooted inner x₀ ts (inner t.2.1) → inner t.2.2 ≠ inner x₀
  inj : ∀ t ∈ ts, ∀ t' ∈ ts, Rooted inner x₀ ts (inner t.2.1) → Rooted inner x₀ ts (inner t'.2.1) →
    inner t.2.2 = inner t'.2.2 → t = t'
  one : ∀ t ∈ ts, Rooted inner x₀ ts (inner t.2.1) → ¬ U t.2.2
  two : ∀ t ∈ ts, ∀ t' ∈ ts, Rooted inner x₀ ts (inner t.2.1) → Rooted inner x₀ ts (inner t'.2.1) → V t.2.2 t'.2.2 → t = t'

/-- The states that are forbidden by `U` and `V`. -/
def Forbidden (U : X → Prop) (V : X → X → Prop) (ts : List (Unit × X × X)) (y : X) : Prop :=
  U y ∨ ∃ t ∈ ts, V y t.2.2 ∨ V t.2.2 y

theorem clean_nil (U : X → Prop) (V : X → X → Prop) : Clean inner x₀ U V [] :=
  ⟨fun _ h => absurd h List.not_mem_nil, fun _ h => absurd h List.not_mem_nil, fun _ h => absurd h List.not_mem_nil,
    fun _ h => absurd h List.not_mem_nil⟩

theorem clean_dup {U : X → Prop} {V : X → X → Prop} {ts : List (Unit × X × X)} {t : Unit × X × X} (h : Clean inner x₀ U V ts)
    (ht : t ∈ ts) : Clean inner x₀ U V (t :: ts) := by
  have hsub : t :: ts ⊆ ts := by
    intro u hu
    rcases List.mem_cons.mp hu with rfl | hu
    · exact ht
    · exact hu
  have hr := fun {v} => rooted_mono inner x₀ (v := v) hsub
  exact ⟨fun u hu h1 => h.start u (hsub hu) (hr h1), fun u hu v hv h1 h2 => h.inj u (hsub hu) v (hsub hv) (hr h1) (hr h2),
    fun u hu h1 => h.one u (hsub hu) (hr h1), fun u hu v hv h1 h2 => h.two u (hsub hu) v (hsub hv) (hr h1) (hr h2)⟩

theorem clean_step {U : X → Prop} {V : X → X → Prop} {ts : List (Unit × X × X)} {d : Dir Unit X} {r : X}
    (h : Clean inner x₀ U V ts) (hb : ¬ SpongeBad inner x₀ (Forbidden U V) ts d r) : Clean inner x₀ U V (triple (d, r) :: ts) := by
  cases d with
  | fwd k x =>
    have hs : ¬ Stale inner x₀ ts x r := fun h => hb (.inl h)
    have hf : ¬ Forbidden U V ts r := fun h => hb (.inr h)
    have hr : ∀ t ∈ ts, Rooted inner x₀ (((), x, r) :: ts) (inner t.2.1) → Rooted inner x₀ ts (inner t.2.1) := by
      intro t ht h1
      rcases rooted_fwd inner x₀ hs h1 with h1 | ⟨-, h1⟩
      · exact h1
      · exact absurd (.inr (.inr ⟨t, ht, .inl h1.symm⟩)) hs
    show Clean inner x₀ U V (((), x, r) :: ts)
    refine ⟨?_, ?_, ?_, ?_⟩
    · intro t ht h1
      rcases List.mem_cons.mp ht with rfl | ht
      · exact fun e => hs (.inl e)
      · exact h.start t ht (hr t ht h1)
    · intro t ht t' ht' h1 h2 e
      rcases List.mem_cons.mp ht with rfl | ht1 <;> rcases List.mem_cons.mp ht' with rfl | ht2
      · rfl
      · exact absurd (.inr (.inr ⟨t', ht2, .inr e⟩)) hs
      · exact absurd (.inr (.inr ⟨t, ht1, .inr e.symm⟩)) hs
      · exact h.inj t ht1 t' ht2 (hr t ht1 h1) (hr t' ht2 h2) e
    · intro t ht h1
      rcases List.mem_cons.mp ht with rfl | ht
      · exact fun e => hf (.inl e)
      · exact h.one t ht (hr t ht h1)
    · intro t ht t' ht' h1 h2 e
      rcases List.mem_cons.mp ht with rfl | ht1 <;> rcases List.mem_cons.mp ht' with rfl | ht2
      · rfl
      · exact absurd (.inr ⟨t', ht2, .inl e⟩) hf
      · exact absurd (.inr ⟨t, ht1, .inr e⟩) hf
      · exact h.two t ht1 t' ht2 (hr t ht1 h1) (hr t' ht2 h2) e
  | bwd k y =>
    have hs : ¬ Stale inner x₀ ts y r := hb
    have hr : ∀ t ∈ ((), r, y) :: ts, Rooted inner x₀ (((), r, y) :: ts) (inner t.2.1) →
        t ∈ ts ∧ Rooted inner x₀ ts (inner t.2.1) := by
      intro t ht h1
      obtain ⟨h2, h3⟩ := rooted_bwd inner x₀ hs h1
      rcases List.mem_cons.mp ht with rfl | ht
      · exact absurd rfl h3
      · exact ⟨ht, h2⟩
    show Clean inner x₀ U V (((), r, y) :: ts)
    refine ⟨?_, ?_, ?_, ?_⟩
    · intro t ht h1
      exact h.start t (hr t ht h1).1 (hr t ht h1).2
    · intro t ht t' ht' h1 h2
      exact h.inj t (hr t ht h1).1 t' (hr t' ht' h2).1 (hr t ht h1).2 (hr t' ht' h2).2
    · intro t ht h1
      exact h.one t (hr t ht h1).1 (hr t ht h1).2
    · intro t ht t' ht' h1 h2
      exact h.two t (hr t ht h1).1 t' (hr t' ht' h2).1 (hr t ht h1).2 (hr t' ht' h2).2

/-! ## Computations -/

variable (hmix : ∀ b x, inner (mix b x) = inner x) (hinj : ∀ b b' x, mix b x = mix b' x → b = b')

/-- The triples of a computation are seen. -/
def Soaked (π : Equiv.Perm X) (ts : List (Unit × X × X)) (x : X) (bs : List B) : Prop :=
  ∀ c ∈ callsFrom (spongeStep mix π) x bs, ((), mix c.1 c.2, π (mix c.1 c.2)) ∈ ts

theorem soaked_trace (π : Equiv.Perm X) (bs : List B) (x : X) (h : List (Dir Unit X × X)) :
    Soaked mix π ((trace (allPerms X).ev π (soak mix bs x) h).map triple) x bs := by
  induction bs generalizing x h with
  | nil => exact fun c hc => absurd hc List.not_mem_nil
  | cons b bs ih =>
    intro c hc
    rw [callsFrom, spongeStep] at hc
    rcases List.mem_cons.mp hc with rfl | hc
    · exact List.mem_map_of_mem (f := triple) (subset_trace (allPerms X).ev π (soak mix bs (π (mix b x)))
        ((Dir.fwd () (mix b x), π (mix b x)) :: h) (List.mem_cons_self ..))
    · exact ih _ _ c hc

include hmix in
/-- The states of a computation are reached. -/
theorem rooted_calls {π : Equiv.Perm X} {ts : List (Unit × X × X)} {x : X} {bs : List B} (hs : Soaked mix π ts x bs)
    (hx : Rooted inner x₀ ts (inner x)) : ∀ c ∈ callsFrom (spongeStep mix π) x bs, Rooted inner x₀ ts (inner (mix c.1 c.2)) ∧
      (c.2 = x ∨ ∃ t ∈ ts, t.2.2 = c.2 ∧ Rooted inner x₀ ts (inner t.2.1)) := by
  induction bs generalizing x with
  | nil => exact fun c hc => absurd hc List.not_mem_nil
  | cons b bs ih =>
    intro c hc
    have e : callsFrom (spongeStep mix π) x (b :: bs) = (b, x) :: callsFrom (spongeStep mix π) (π (mix b x)) bs := rfl
    have hs1 := hs (b, x) (by rw [e]; exact List.mem_cons_self ..)
    have hs2 : Soaked mix π ts (π (mix b x)) bs := fun c hc => hs c (by rw [e]; exact List.mem_cons_of_mem _ hc)
    have hxm : Rooted inner x₀ ts (inner (mix b x)) := by rw [hmix]; exact hx
    rw [e] at hc
    rcases List.mem_cons.mp hc with rfl | hc
    · exact ⟨hxm, .inl rfl⟩
    · obtain ⟨h1, h2⟩ := ih hs2 (.step _ hs1 hxm) c hc
      refine ⟨h1, .inr ?_⟩
      rcases h2 with h2 | h2
      · exact ⟨_, hs1, h2.symm, hxm⟩
      · exact h2

include hmix hinj in
/-- Different blocks, different states. -/
theorem soaked_inj {π : Equiv.Perm X} {U : X → Prop} {V : X → X → Prop} {ts : List (Unit × X × X)} (hc : Clean inner x₀ U V ts)
    {bs bs' : List B} (hs : Soaked mix π ts x₀ bs) (hs' : Soaked mix π ts x₀ bs') {t : X}
    (h : chained (spongeStep mix π) x₀ bs = .ok t) (h' : chained (spongeStep mix π) x₀ bs' = .ok t) : bs = bs' := by
  have r := rooted_calls mix inner x₀ hmix hs .start
  have r' := rooted_calls mix inner x₀ hmix hs' .start
  rcases collide_or _ _ h h' with e | ⟨c, hc1, c', hc2, hne, u, e, e'⟩ | ⟨-, ⟨c, hc1, e⟩ | ⟨c, hc1, e⟩⟩
  · exact e
  · exfalso
    rw [spongeStep] at e e'
    injection e with e
    injection e' with e'
    have em : mix c.1 c.2 = mix c'.1 c'.2 := π.injective (e.trans e'.symm)
    have ei : inner c.2 = inner c'.2 := by rw [← hmix c.1, em, hmix]
    have key : c.2 ≠ c'.2 := by
      intro e2
      refine hne (Prod.ext (hinj _ _ c.2 ?_) e2)
      rw [em, e2]
    rcases (r c hc1).2 with h1 | ⟨t1, ht1, h1, g1⟩ <;> rcases (r' c' hc2).2 with h2 | ⟨t2, ht2, h2, g2⟩
    · exact key (h1.trans h2.symm)
    · exact hc.start t2 ht2 g2 (by rw [h2, ← ei, h1])
    · exact hc.start t1 ht1 g1 (by rw [h1, ei, h2])
    · refine key ?_
      rw [← h1, ← h2, hc.inj t1 ht1 t2 ht2 g1 g2 (by rw [h1, h2, ei])]
  · exfalso
    rw [spongeStep] at e
    injection e with e
    exact hc.start _ (hs c hc1) (r c hc1).1 (congrArg inner e)
  · exfalso
    rw [spongeStep] at e
    injection e with e
    exact hc.start _ (hs' c hc1) (r' c hc1).1 (congrArg inner e)

include hmix in
/-- The last triple of a computation. -/
theorem soaked_last {π : Equiv.Perm X} {ts : List (Unit × X × X)} {bs : List B} (hs : Soaked mix π ts x₀ bs) (hne : bs ≠ []) {y : X}
    (h : chained (spongeStep mix π) x₀ bs = .ok y) : ∃ t ∈ ts, t.2.2 = y ∧ Rooted inner x₀ ts (inner t.2.1) := by
  rcases nil_or_concat bs with e | ⟨as, b, e⟩
  · exact absurd e hne
  · rw [e] at h
    obtain ⟨s, -, h3, h4⟩ := chained_concat h
    have hm : (b, s) ∈ callsFrom (spongeStep mix π) x₀ bs := by
      rw [e, h4]; exact List.mem_append_right _ (List.mem_singleton_self _)
    rw [spongeStep] at h3
    injection h3 with h3
    exact ⟨_, hs _ hm, h3, (rooted_calls mix inner x₀ hmix hs .start _ hm).1⟩

/-! ## Counting -/

variable [Fintype X]

open Classical in
theorem card_stale {A : Nat} (hA : ∀ v, (univ.filter fun x => inner x = v).card ≤ A) (ts : List (Unit × X × X)) (z : X) :
    (univ.filter fun r => Stale inner x₀ ts z r).card ≤ (2 * ts.length + 2) * A := by
  let vs : Finset I := (inner x₀ :: inner z :: (ts.map fun t => inner t.2.1) ++ ts.map fun t => inner t.2.2).toFinset
  have hv : vs.card ≤ 2 * ts.length + 2 := by
    refine (List.toFinset_card_le _).trans ?_
    simp only [List.cons_append, List.length_cons, List.length_append, List.length_map]
    omega
  have hsub : (univ.filter fun r => Stale inner x₀ ts z r) ⊆ vs.biUnion fun v => univ.filter fun x => inner x = v := by
    intro r hr
    refine Finset.mem_biUnion.mpr ⟨inner r, List.mem_toFinset.mpr ?_, Finset.mem_filter.mpr ⟨Finset.mem_univ _, rfl⟩⟩
    rcases (Finset.mem_filter.mp hr).2 with h | h | ⟨t, ht, h | h⟩
    · rw [h]; simp
    · rw [h]; simp
    · rw [h]
      exact List.mem_append_left _ (List.mem_cons_of_mem _ (List.mem_cons_of_mem _ (List.mem_map.mpr ⟨t, ht, rfl⟩)))
    · rw [h]
      exact List.mem_append_right _ (List.mem_map.mpr ⟨t, ht, rfl⟩)
  refine (Finset.card_le_card hsub).trans (Finset.card_biUnion_le.trans ((Finset.sum_le_card_nsmul _ _ A fun v _ => hA v).trans ?_))
  rw [nsmul_eq_mul, Nat.cast_id]
  exact Nat.mul_le_mul_right _ hv

theorem sum_two_succ (s A : Nat) : ∑ j ∈ Finset.range s, (2 * j + 2) * A = s * (s + 1) * A := by
  induction s with
  | zero => simp
  | succ s ih => rw [Finset.sum_range_succ, ih]; ring

open Classical in
/-- Attacks on a sponge whose success needs something bad. -/
theorem sponge_bound {U : X → Prop} {V : X → X → Prop} {A : Nat} {w : Nat → Nat}
    (hA : ∀ v, (univ.filter fun x => inner x = v).card ≤ A)
    (hW : ∀ ts, (univ.filter fun y => Forbidden U V ts y).card ≤ w ts.length) (p : Prog (Dir Unit X) X O) (s : Nat) (hp : p.Within s)
    (Win : Equiv.Perm X → Prop)
    (hw : ∀ π, Clean inner x₀ U V ((trace (allPerms X).ev π p []).map triple) → ¬ Win π) :
    (Fintype.card X - s) * (univ.filter Win).card ≤
      (s * (s + 1) * A + ∑ j ∈ Finset.range s, w j) * Fintype.card (Equiv.Perm X) := by
  have hbound := card_badAnswer (allPerms X) (T := SpongeBad inner x₀ (Forbidden U V)) (b := fun j => (2 * j + 2) * A + w j) ?_ p s hp
  · rw [Finset.sum_add_distrib, sum_two_succ] at hbound
    refine (Nat.mul_le_mul_left _ (Finset.card_le_card ?_)).trans hbound
    intro π hπ
    refine Finset.mem_filter.mpr ⟨Finset.mem_univ _, ?_⟩
    by_contra hbad
    refine hw π ?_ (Finset.mem_filter.mp hπ).2
    exact (trace_answers (allPerms X) (I := Clean inner x₀ U V) (fun ts d r h hT => clean_step inner x₀ h hT)
      (fun ts t h ht => clean_dup inner x₀ h ht) p [] (clean_nil inner x₀ U V) (fun t ht => absurd ht List.not_mem_nil) hbad).1
  · intro ts d
    cases d with
    | fwd k x =>
      have hsub : (univ.filter fun r => SpongeBad inner x₀ (Forbidden U V) ts (.fwd k x) r) ⊆
          (univ.filter fun r => Stale inner x₀ ts x r) ∪ univ.filter fun y => Forbidden U V ts y := by
        intro r hr
        rcases (Finset.mem_filter.mp hr).2 with h | h
        · exact Finset.mem_union_left _ (Finset.mem_filter.mpr ⟨Finset.mem_univ _, h⟩)
        · exact Finset.mem_union_right _ (Finset.mem_filter.mpr ⟨Finset.mem_univ _, h⟩)
      exact (Finset.card_le_card hsub).trans ((Finset.card_union_le _ _).trans
        (Nat.add_le_add (card_stale inner x₀ hA ts x) (hW ts)))
    | bwd k y =>
      exact (card_stale inner x₀ hA ts y).trans (Nat.le_add_right _ _)

end Hacspec.Ideal
