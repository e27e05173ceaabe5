import Verif.Lemmas.Ideal.SpongeAttack

/-! # Second preimages of a sponge with a random permutation -/

namespace Hacspec.Ideal

open Spec Finset

variable {B X I D O : Type} (mix : B → X → X) (inner : X → I) (x₀ : X) (out : X → D) (n₀ : Nat)

/-- The answer to question number `n₀`. -/
def aimed (ts : List (Unit × X × X)) : Option (Unit × X × X) := ts.reverse[n₀ - 1]?

/-- The outputs that must not occur: in the first `n₀` questions those seen before, then that of question `n₀`. -/
def Aims (ts : List (Unit × X × X)) (y : X) : Prop :=
  (ts.length < n₀ ∧ ∃ t ∈ ts, out y = out t.2.2) ∨ (n₀ ≤ ts.length ∧ ∃ z, aimed n₀ ts = some z ∧ out y = out z.2.2)

/-- What holds if nothing bad happened. -/
structure Missed (ts : List (Unit × X × X)) : Prop where
  clean : Clean inner x₀ (fun _ => False) (fun _ _ => False) ts
  early : ts.length ≤ n₀ → ∀ t ∈ ts, ∀ t' ∈ ts, Rooted inner x₀ ts (inner t.2.1) → Rooted inner x₀ ts (inner t'.2.1) →
    out t.2.2 = out t'.2.2 → t = t'
  late : n₀ ≤ ts.length → ∀ z, aimed n₀ ts = some z → Rooted inner x₀ ts (inner z.2.1) →
    ∀ t ∈ ts, Rooted inner x₀ ts (inner t.2.1) → out t.2.2 = out z.2.2 → t = z

theorem aimed_mem {ts : List (Unit × X × X)} {z : Unit × X × X} (h : aimed n₀ ts = some z) : z ∈ ts :=
  List.mem_reverse.mp (List.mem_of_getElem? h)

theorem aimed_cons {ts : List (Unit × X × X)} (t : Unit × X × X) (hn : 0 < n₀) (h : n₀ ≤ ts.length) :
    aimed n₀ (t :: ts) = aimed n₀ ts := by
  rw [aimed, List.reverse_cons, List.getElem?_append_left (by rw [List.length_reverse]; omega), aimed]

theorem missed_nil (hn : 0 < n₀) : Missed inner x₀ out n₀ [] :=
  ⟨clean_nil inner x₀ _ _, fun _ _ h => absurd h List.not_mem_nil, fun h => absurd h (by simp; omega)⟩

theorem missed_dup (hn : 0 < n₀) {ts : List (Unit × X × X)} {t : Unit × X × X} (h : Missed inner x₀ out n₀ ts)
    (ht : t ∈ ts) : Missed inner x₀ out n₀ (t :: ts) := by
  have hsub : t :: ts ⊆ ts := by
    intro u hu
    rcases List.mem_cons.mp hu with rfl | hu
    · exact ht
    · exact hu
  have hr := fun {v} => rooted_mono inner x₀ (v := v) hsub
  refine ⟨clean_dup inner x₀ h.clean ht, ?_, ?_⟩
  · intro hl u hu v hv h1 h2
    rw [List.length_cons] at hl
    exact h.early (by omega) u (hsub hu) v (hsub hv) (hr h1) (hr h2)
  · intro hl z hz h1 u hu h2 e
    rw [List.length_cons] at hl
    by_cases hc : n₀ ≤ ts.length
    · rw [aimed_cons n₀ t hn hc] at hz
      exact h.late hc z hz (hr h1) u (hsub hu) (hr h2) e
    · exact h.early (by omega) u (hsub hu) z (hsub (aimed_mem n₀ hz)) (hr h2) (hr h1) e

theorem missed_step (hn : 0 < n₀) {ts : List (Unit × X × X)} {d : Dir Unit X} {r : X} (h : Missed inner x₀ out n₀ ts)
    (hb : ¬ SpongeBad inner x₀ (Aims out n₀) ts d r) : Missed inner x₀ out n₀ (triple (d, r) :: ts) := by
  cases d with
  | fwd k x =>
    have hs : ¬ Stale inner x₀ ts x r := fun h => hb (.inl h)
    have hf : ¬ Aims out n₀ ts r := fun h => hb (.inr h)
    have hr : ∀ t ∈ ts, Rooted inner x₀ (((), x, r) :: ts) (inner t.2.1) → Rooted inner x₀ ts (inner t.2.1) := by
      intro t ht h1
      rcases rooted_fwd inner x₀ hs h1 with h1 | ⟨-, h1⟩
      · exact h1
      · exact absurd (.inr (.inr ⟨t, ht, .inl h1.symm⟩)) hs
    have hearly : ts.length < n₀ → ∀ t ∈ ((), x, r) :: ts, ∀ t' ∈ ((), x, r) :: ts,
        Rooted inner x₀ (((), x, r) :: ts) (inner t.2.1) → Rooted inner x₀ (((), x, r) :: ts) (inner t'.2.1) →
        out t.2.2 = out t'.2.2 → t = t' := by
      intro hl t ht t' ht' h1 h2 e
      rcases List.mem_cons.mp ht with rfl | ht1 <;> rcases List.mem_cons.mp ht' with rfl | ht2
      · rfl
      · exact absurd (.inl ⟨hl, t', ht2, e⟩) hf
      · exact absurd (.inl ⟨hl, t, ht1, e.symm⟩) hf
      · exact h.early (by omega) t ht1 t' ht2 (hr t ht1 h1) (hr t' ht2 h2) e
    refine ⟨clean_step inner x₀ h.clean ?_, ?_, ?_⟩
    · rintro (h | h | ⟨t, -, h | h⟩)
      · exact hs h
      · exact h
      · exact h
      · exact h
    · intro hl
      exact hearly (by rw [List.length_cons] at hl; omega)
    · intro hl z hz h1 t ht h2 e
      by_cases hc : n₀ ≤ ts.length
      · rw [aimed_cons n₀ _ hn hc] at hz
        have hzm := aimed_mem n₀ hz
        rcases List.mem_cons.mp ht with rfl | ht1
        · exact absurd (.inr ⟨hc, z, hz, e⟩) hf
        · exact h.late hc z hz (hr z hzm h1) t ht1 (hr t ht1 h2) e
      · exact hearly (by omega) t ht z (aimed_mem n₀ hz) h2 h1 e
  | bwd k y =>
    have hs : ¬ Stale inner x₀ ts y r := hb
    have hr : ∀ t ∈ ((), r, y) :: ts, Rooted inner x₀ (((), r, y) :: ts) (inner t.2.1) →
        t ∈ ts ∧ Rooted inner x₀ ts (inner t.2.1) := by
      intro t ht h1
      obtain ⟨h2, h3⟩ := rooted_bwd inner x₀ hs h1
      rcases List.mem_cons.mp ht with rfl | ht
      · exact absurd rfl h3
      · exact ⟨ht, h2⟩
    refine ⟨clean_step inner x₀ h.clean hb, ?_, ?_⟩
    · intro hl t ht t' ht' h1 h2
      exact h.early (by rw [List.length_cons] at hl; omega) t (hr t ht h1).1 t' (hr t' ht' h2).1 (hr t ht h1).2 (hr t' ht' h2).2
    · intro hl z hz h1 t ht h2 e
      have hzm := hr z (aimed_mem n₀ hz) h1
      have htm := hr t ht h2
      by_cases hc : n₀ ≤ ts.length
      · rw [aimed_cons n₀ _ hn hc] at hz
        exact h.late hc z hz hzm.2 t htm.1 htm.2 e
      · exact h.early (by omega) t htm.1 z hzm.1 htm.2 hzm.2 e

/-! ## The questions -/

theorem suffix_trace {Q R Ω P : Type} (ev : Ω → Q → R) (ω : Ω) (p : Prog Q R P) (h : List (Q × R)) : h <:+ trace ev ω p h := by
  induction p generalizing h with
  | ret o => exact List.suffix_refl h
  | ask x k ih => exact (List.suffix_cons _ _).trans (ih _ _)

theorem length_trace_soak [Fintype X] (π : Equiv.Perm X) (bs : List B) (x : X) (h : List (Dir Unit X × X)) :
    (trace (allPerms X).ev π (soak mix bs x) h).length = h.length + bs.length := by
  induction bs generalizing x h with
  | nil => rfl
  | cons b bs ih =>
    show (trace (allPerms X).ev π (soak mix bs (π (mix b x))) ((Dir.fwd () (mix b x), π (mix b x)) :: h)).length = _
    rw [ih, List.length_cons, List.length_cons]
    omega

theorem head_trace_soak [Fintype X] (π : Equiv.Perm X) (bs : List B) (x t : X) (h : List (Dir Unit X × X)) (hne : bs ≠ [])
    (ht : chained (spongeStep mix π) x bs = .ok t) :
    ∃ c ∈ callsFrom (spongeStep mix π) x bs,
      ((trace (allPerms X).ev π (soak mix bs x) h).map triple).head? = some ((), mix c.1 c.2, t) := by
  induction bs generalizing x h with
  | nil => exact absurd rfl hne
  | cons b bs ih =>
    have e : trace (allPerms X).ev π (soak mix (b :: bs) x) h =
      trace (allPerms X).ev π (soak mix bs (π (mix b x))) ((Dir.fwd () (mix b x), π (mix b x)) :: h) := rfl
    have e' : callsFrom (spongeStep mix π) x (b :: bs) = (b, x) :: callsFrom (spongeStep mix π) (π (mix b x)) bs := rfl
    have ht : chained (spongeStep mix π) (π (mix b x)) bs = .ok t := ht
    rw [e, e']
    cases bs with
    | nil =>
      have ht := Except.ok.inj ht
      exact ⟨(b, x), List.mem_cons_self .., by rw [← ht]; rfl⟩
    | cons b' bs =>
      obtain ⟨c, hc, h1⟩ := ih (π (mix b x)) ((Dir.fwd () (mix b x), π (mix b x)) :: h) (by simp) ht
      exact ⟨c, List.mem_cons_of_mem _ hc, h1⟩

theorem aimed_suffix {l ts : List (Unit × X × X)} (h : l <:+ ts) (hl : l.length = n₀) (hn : 0 < n₀) : aimed n₀ ts = l.head? := by
  obtain ⟨a, rfl⟩ := h
  rw [aimed, List.reverse_append, List.getElem?_append_left (by rw [List.length_reverse]; omega), ← hl]
  rw [List.getElem?_reverse (by omega), show l.length - 1 - (l.length - 1) = 0 by omega, List.head?_eq_getElem?]

/-! ## Counting -/

variable [Fintype X] {A C : Nat}

open Classical in
theorem card_aims (hC : ∀ d, (univ.filter fun x => out x = d).card ≤ C) (ts : List (Unit × X × X)) :
    (univ.filter fun y => Aims out n₀ ts y).card ≤ if ts.length < n₀ then ts.length * C else C := by
  split
  next hl =>
    have hsub : (univ.filter fun y => Aims out n₀ ts y) ⊆
        (ts.map fun t => out t.2.2).toFinset.biUnion fun d => univ.filter fun y => out y = d := by
      intro y hy
      rcases (Finset.mem_filter.mp hy).2 with ⟨-, t, ht, h⟩ | ⟨h, -⟩
      · exact Finset.mem_biUnion.mpr ⟨out t.2.2, List.mem_toFinset.mpr (List.mem_map.mpr ⟨t, ht, rfl⟩),
          Finset.mem_filter.mpr ⟨Finset.mem_univ _, h⟩⟩
      · omega
    refine (Finset.card_le_card hsub).trans ((Finset.card_biUnion_le_card_mul _ _ C fun d _ => hC d).trans
      (Nat.mul_le_mul_right _ ?_))
    exact (List.toFinset_card_le _).trans (by rw [List.length_map])
  next hl =>
    by_cases hz : ∃ z, aimed n₀ ts = some z
    · obtain ⟨z, hz⟩ := hz
      refine (Finset.card_le_card fun y hy => ?_).trans (hC (out z.2.2))
      rcases (Finset.mem_filter.mp hy).2 with ⟨h, -⟩ | ⟨-, z', hz', h⟩
      · exact absurd h hl
      · rw [hz] at hz'
        cases hz'
        exact Finset.mem_filter.mpr ⟨Finset.mem_univ _, h⟩
    · rw [Finset.card_eq_zero.mpr]
      · exact Nat.zero_le _
      · refine Finset.filter_eq_empty_iff.mpr fun y _ hy => ?_
        rcases hy with ⟨h, -⟩ | ⟨-, z, h, -⟩
        · exact hl h
        · exact hz ⟨z, h⟩

theorem sum_aims (r C : Nat) :
    2 * ∑ j ∈ Finset.range (n₀ + r), (if j < n₀ then j * C else C) = (n₀ * (n₀ - 1) + 2 * r) * C := by
  rw [Finset.sum_range_add, Nat.mul_add]
  have h1 : ∑ j ∈ Finset.range n₀, (if j < n₀ then j * C else C) = ∑ j ∈ Finset.range n₀, j * C :=
    Finset.sum_congr rfl fun j hj => if_pos (Finset.mem_range.mp hj)
  have h2 : ∑ j ∈ Finset.range r, (if n₀ + j < n₀ then (n₀ + j) * C else C) = r * C := by
    rw [Finset.sum_const_nat (m := C) fun j _ => if_neg (by omega), Finset.card_range]
  rw [h1, h2, two_sum_id]
  ring

open Classical in
theorem aims_bound (hn : 0 < n₀) (hA : ∀ v, (univ.filter fun x => inner x = v).card ≤ A)
    (hC : ∀ d, (univ.filter fun x => out x = d).card ≤ C) (p : Prog (Dir Unit X) X O) (r : Nat) (hp : p.Within (n₀ + r))
    (Win : Equiv.Perm X → Prop)
    (hw : ∀ π, Missed inner x₀ out n₀ ((trace (allPerms X).ev π p []).map triple) → ¬ Win π) :
    2 * (Fintype.card X - (n₀ + r)) * (univ.filter Win).card ≤
      (2 * ((n₀ + r) * (n₀ + r + 1)) * A + (n₀ * (n₀ - 1) + 2 * r) * C) * Fintype.card (Equiv.Perm X) := by
  have hbound := card_badAnswer (allPerms X) (T := SpongeBad inner x₀ (Aims out n₀))
    (b := fun j => (2 * j + 2) * A + if j < n₀ then j * C else C) ?_ p (n₀ + r) hp
  · rw [Finset.sum_add_distrib, sum_two_succ] at hbound
    have hle : (univ.filter Win).card ≤
        (univ.filter fun π => GoesBad (allPerms X).ev (BadAnswer (SpongeBad inner x₀ (Aims out n₀))) π p []).card := by
      refine Finset.card_le_card fun π hπ => Finset.mem_filter.mpr ⟨Finset.mem_univ _, ?_⟩
      by_contra hbad
      refine hw π ?_ (Finset.mem_filter.mp hπ).2
      exact (trace_answers (allPerms X) (I := Missed inner x₀ out n₀) (fun ts d r h hT => missed_step inner x₀ out n₀ hn h hT)
        (fun ts t h ht => missed_dup inner x₀ out n₀ hn h ht) p [] (missed_nil inner x₀ out n₀ hn)
        (fun t ht => absurd ht List.not_mem_nil) hbad).1
    calc 2 * (Fintype.card X - (n₀ + r)) * (univ.filter Win).card
        = 2 * ((Fintype.card X - (n₀ + r)) * (univ.filter Win).card) := by ring
      _ ≤ 2 * (((n₀ + r) * (n₀ + r + 1) * A + ∑ j ∈ Finset.range (n₀ + r), (if j < n₀ then j * C else C)) *
            Fintype.card (Equiv.Perm X)) :=
          Nat.mul_le_mul_left _ ((Nat.mul_le_mul_left _ hle).trans hbound)
      _ = (2 * ((n₀ + r) * (n₀ + r + 1)) * A + 2 * ∑ j ∈ Finset.range (n₀ + r), (if j < n₀ then j * C else C)) *
            Fintype.card (Equiv.Perm X) := by
          rw [← Nat.mul_assoc, Nat.mul_add, Nat.mul_assoc 2 _ A]
      _ = _ := by rw [sum_aims]
  · intro ts d
    cases d with
    | fwd k x =>
      have hsub : (univ.filter fun r => SpongeBad inner x₀ (Aims out n₀) ts (.fwd k x) r) ⊆
          (univ.filter fun r => Stale inner x₀ ts x r) ∪ univ.filter fun y => Aims out n₀ ts y := by
        intro r hr
        rcases (Finset.mem_filter.mp hr).2 with h | h
        · exact Finset.mem_union_left _ (Finset.mem_filter.mpr ⟨Finset.mem_univ _, h⟩)
        · exact Finset.mem_union_right _ (Finset.mem_filter.mpr ⟨Finset.mem_univ _, h⟩)
      exact (Finset.card_le_card hsub).trans ((Finset.card_union_le _ _).trans
        (Nat.add_le_add (card_stale inner x₀ hA ts x) (card_aims out n₀ hC ts)))
    | bwd k y =>
      exact (card_stale inner x₀ hA ts y).trans (Nat.le_add_right _ _)

open Classical in
/-- Another list of blocks with the output of `bs₀`. -/
theorem sponge_second (hmix : ∀ b x, inner (mix b x) = inner x) (hinj : ∀ b b' x, mix b x = mix b' x → b = b')
    (hA : ∀ v, (univ.filter fun x => inner x = v).card ≤ A)
    (hC : ∀ d, (univ.filter fun x => out x = d).card ≤ C) (bs₀ : List B) (hne₀ : bs₀ ≠ [])
    (p : Prog (Dir Unit X) X O) (q ℓ : Nat) (hp : p.Within q) (g : O → List B) (Win : Equiv.Perm X → Prop)
    (hw : ∀ π, Win π → ∃ o, p.run ((allPerms X).ev π) = o ∧ (g o).length ≤ ℓ ∧ g o ≠ bs₀ ∧ g o ≠ [] ∧
      ∃ t t', chained (spongeStep mix π) x₀ bs₀ = .ok t ∧ chained (spongeStep mix π) x₀ (g o) = .ok t' ∧ out t = out t') :
    2 * (Fintype.card X - (bs₀.length + (q + ℓ))) * (univ.filter Win).card ≤
      (2 * ((bs₀.length + (q + ℓ)) * (bs₀.length + (q + ℓ) + 1)) * A + (bs₀.length * (bs₀.length - 1) + 2 * (q + ℓ)) * C) *
        Fintype.card (Equiv.Perm X) := by
  let f : O → Prog (Dir Unit X) X Unit := fun o => if (g o).length ≤ ℓ then soak mix (g o) x₀ else .ret ()
  have hf : ∀ o, (f o).Within ℓ := by
    intro o
    by_cases h : (g o).length ≤ ℓ
    · simp only [f, if_pos h]
      exact within_mono (soak_within mix _ _) h
    · simp only [f, if_neg h]
      trivial
  have hn : 0 < bs₀.length := List.length_pos_iff.mpr hne₀
  refine aims_bound inner x₀ out bs₀.length hn hA hC (andThen (soak mix bs₀ x₀) fun _ => andThen p f) (q + ℓ)
    (within_andThen (soak_within mix bs₀ x₀) fun _ => within_andThen hp hf) Win ?_
  intro π hm hπ
  obtain ⟨o, ho, l1, hne, n1, t, t', h1, h2, e⟩ := hw π hπ
  have htr : trace (allPerms X).ev π (andThen (soak mix bs₀ x₀) fun _ => andThen p f) [] =
      trace (allPerms X).ev π (soak mix (g o) x₀) (trace (allPerms X).ev π p (trace (allPerms X).ev π (soak mix bs₀ x₀) [])) := by
    rw [trace_andThen, trace_andThen, ho]
    simp only [f]
    rw [if_pos l1]
  rw [htr] at hm
  have hsuf := ((suffix_trace (allPerms X).ev π p (trace (allPerms X).ev π (soak mix bs₀ x₀) [])).trans
    (suffix_trace (allPerms X).ev π (soak mix (g o) x₀) _)).map (triple (K := Unit) (X := X))
  have hlen : ((trace (allPerms X).ev π (soak mix bs₀ x₀) []).map (triple (K := Unit) (X := X))).length = bs₀.length := by
    rw [List.length_map, length_trace_soak, List.length_nil, Nat.zero_add]
  obtain ⟨c, hc, hz⟩ := head_trace_soak mix π bs₀ x₀ t [] hne₀ h1
  have haim := (aimed_suffix bs₀.length hsuf hlen hn).trans hz
  have hs : Soaked mix π ((trace (allPerms X).ev π (soak mix (g o) x₀)
      (trace (allPerms X).ev π p (trace (allPerms X).ev π (soak mix bs₀ x₀) []))).map triple) x₀ bs₀ :=
    fun c hc => hsuf.subset (soaked_trace mix π bs₀ x₀ [] c hc)
  have hs' := soaked_trace mix π (g o) x₀ (trace (allPerms X).ev π p (trace (allPerms X).ev π (soak mix bs₀ x₀) []))
  obtain ⟨u, hu, e2, r2⟩ := soaked_last mix inner x₀ hmix hs' n1 h2
  have huz := hm.late (hlen ▸ hsuf.length_le) _ haim (rooted_calls mix inner x₀ hmix hs .start c hc).1 u hu r2 (by rw [e2]; exact e.symm)
  have htt : t' = t := by rw [← e2, huz]
  exact hne (soaked_inj mix inner x₀ hmix hinj hm.clean hs' hs h2 (by rw [htt]; exact h1))

end Hacspec.Ideal
