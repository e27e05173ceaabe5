import Verif.Lemmas.Calls
import Verif.Lemmas.Ideal.Oracle

/-! # Iterated hash functions from block ciphers (Davies and Meyer, Merkle and Damgård) -/

namespace Hacspec.Ideal

open Spec Finset

/-- All block ciphers. -/
noncomputable def allCiphers (K X : Type) : Ciphers K X (K → Equiv.Perm X) := by
  classical
  exact
    { get := fun E => E
      put := fun E k f => Function.update E k f
      get_put := fun E k f => Function.update_self ..
      get_other := fun E k f k' h => Function.update_of_ne h ..
      put_put := fun E k f g => Function.update_idem ..
      put_get := fun E k => Function.update_eq_self .. }

/-- All permutations. -/
def allPerms (X : Type) : Ciphers Unit X (Equiv.Perm X) where
  get f _ := f
  put _ _ g := g
  get_put _ _ _ := rfl
  get_other _ _ _ _ h := absurd rfl h
  put_put _ _ _ _ := rfl
  put_get _ _ := rfl

section Trace

variable {K X Ω O : Type} (C : Ciphers K X Ω)

/-- What an attack has seen if nothing bad happened. -/
theorem trace_answers {T : List (K × X × X) → Dir K X → X → Prop} {I : List (K × X × X) → Prop}
    (hstep : ∀ ts d r, I ts → ¬ T ts d r → I (triple (d, r) :: ts)) (hdup : ∀ ts t, I ts → t ∈ ts → I (t :: ts)) {ω : Ω}
    (p : Prog (Dir K X) X O) (h : List (Dir K X × X)) (hI : I (h.map triple))
    (hc : ∀ t ∈ h.map triple, C.get ω t.1 t.2.1 = t.2.2) (hb : ¬ GoesBad C.ev (BadAnswer T) ω p h) :
    I ((trace C.ev ω p h).map triple) ∧ ∀ t ∈ (trace C.ev ω p h).map triple, C.get ω t.1 t.2.1 = t.2.2 := by
  refine trace_inv C.ev (ω := ω) (Bad := BadAnswer T)
    (I := fun h => I (h.map triple) ∧ ∀ t ∈ h.map triple, C.get ω t.1 t.2.1 = t.2.2) ?_ p h ⟨hI, hc⟩ hb
  rintro h d ⟨hI, hc⟩ hb
  have hok : C.get ω (triple (d, C.ev ω d)).1 (triple (d, C.ev ω d)).2.1 = (triple (d, C.ev ω d)).2.2 := by
    cases d with
    | fwd k x => rfl
    | bwd k y => exact (C.get ω k).apply_symm_apply y
  refine ⟨?_, ?_⟩
  · rw [List.map_cons]
    by_cases hn : NewTriple h d
    · exact hstep _ _ _ hI fun hT => hb ⟨hn, hT⟩
    · refine hdup _ _ hI ?_
      cases d with
      | fwd k x =>
        rw [NewTriple] at hn
        push Not at hn
        obtain ⟨t, ht, e1, e2⟩ := hn
        have := hc _ (List.mem_map_of_mem ht)
        have e : triple t = (k, x, C.get ω k x) := Prod.ext e1 (Prod.ext e2 (by rw [← this, e1, e2]))
        exact List.mem_map.mpr ⟨t, ht, e⟩
      | bwd k y =>
        rw [NewTriple] at hn
        push Not at hn
        obtain ⟨t, ht, e1, e2⟩ := hn
        have := hc _ (List.mem_map_of_mem ht)
        rw [e1, e2] at this
        have e : triple t = (k, (C.get ω k).symm y, y) := Prod.ext e1 (Prod.ext (by rw [← this, Equiv.symm_apply_apply]) e2)
        exact List.mem_map.mpr ⟨t, ht, e⟩
  · intro t ht
    rw [List.map_cons, List.mem_cons] at ht
    rcases ht with rfl | ht
    · exact hok
    · exact hc t ht

theorem trace_triples {T : List (K × X × X) → K × X × X → Prop} {I : List (K × X × X) → Prop}
    (hstep : ∀ ts t, I ts → ¬ T ts t → I (t :: ts)) (hdup : ∀ ts t, I ts → t ∈ ts → I (t :: ts)) {ω : Ω}
    (p : Prog (Dir K X) X O) (h : List (Dir K X × X)) (hI : I (h.map triple))
    (hc : ∀ t ∈ h.map triple, C.get ω t.1 t.2.1 = t.2.2) (hb : ¬ GoesBad C.ev (BadTriple T) ω p h) :
    I ((trace C.ev ω p h).map triple) ∧ ∀ t ∈ (trace C.ev ω p h).map triple, C.get ω t.1 t.2.1 = t.2.2 :=
  trace_answers C (fun ts _ _ hI hT => hstep ts _ hI hT) hdup p h hI hc hb

end Trace

/-! ## Compression functions from block ciphers -/

section Iterated

variable {B S K X Ω O : Type} (key : B → K) (ini : B → S → X) (out : X → X → S)

/-- The compression function: encipher, with a key and an input made from block and state, and combine input and output. -/
def cstep (E : K → Equiv.Perm X) (b : B) (s : S) : M S := .ok (out (E (key b) (ini b s)) (ini b s))

/-- The questions that compute the iteration. -/
def walk : List B → S → Prog (Dir K X) X Unit
  | [], _ => .ret ()
  | b :: bs, s => .ask (.fwd (key b) (ini b s)) fun y => walk bs (out y (ini b s))

theorem walk_within (ks : List B) (x : S) : (walk key ini out ks x).Within ks.length := by
  induction ks generalizing x with
  | nil => trivial
  | cons k ks ih => exact ⟨ks.length, rfl, fun r => ih _⟩

variable (C : Ciphers K X Ω)

theorem calls_mem_trace (ω : Ω) (ks : List B) (x : S) (h : List (Dir K X × X)) (c : B × S)
    (hc : c ∈ callsFrom (cstep key ini out (C.get ω)) x ks) :
    (key c.1, ini c.1 c.2, C.get ω (key c.1) (ini c.1 c.2)) ∈ (trace C.ev ω (walk key ini out ks x) h).map triple := by
  induction ks generalizing x h with
  | nil => exact absurd hc List.not_mem_nil
  | cons k ks ih =>
    rw [callsFrom, cstep] at hc
    rcases List.mem_cons.mp hc with rfl | hc
    · exact List.mem_map_of_mem (f := triple) (subset_trace C.ev ω (walk key ini out ks (out (C.get ω (key k) (ini k x)) (ini k x)))
        ((Dir.fwd (key k) (ini k x), C.get ω (key k) (ini k x)) :: h) (List.mem_cons_self ..))
    · exact ih _ _ hc

theorem length_trace_walk (ω : Ω) (ks : List B) (x : S) (h : List (Dir K X × X)) :
    (trace C.ev ω (walk key ini out ks x) h).length = h.length + ks.length := by
  induction ks generalizing x h with
  | nil => rfl
  | cons k ks ih =>
    rw [walk, trace, ih, List.length_cons, List.length_cons]
    omega

variable [Fintype Ω] [Fintype X]

open Classical in
theorem card_out_mem {f : X → S} {D : Nat} (hD : ∀ d, (univ.filter fun y => f y = d).card ≤ D) (L : List S) :
    (univ.filter fun y => f y ∈ L).card ≤ L.length * D := by
  have hsub : (univ.filter fun y => f y ∈ L) ⊆ L.toFinset.biUnion fun d => univ.filter fun y => f y = d := by
    intro y hy
    exact Finset.mem_biUnion.mpr ⟨f y, List.mem_toFinset.mpr (Finset.mem_filter.mp hy).2,
      Finset.mem_filter.mpr ⟨Finset.mem_univ _, rfl⟩⟩
  exact (Finset.card_le_card hsub).trans ((Finset.card_biUnion_le_card_mul _ _ D fun d _ => hD d).trans
    (Nat.mul_le_mul_right _ (List.toFinset_card_le L)))

variable {D : Nat}

open Classical in
theorem card_badSum {L : List (K × X × X) → List S} {b : Nat → Nat} (hb : ∀ ts, (L ts).length ≤ b ts.length)
    (hr : ∀ x d, (univ.filter fun y => out y x = d).card ≤ D) (hl : ∀ y d, (univ.filter fun x => out y x = d).card ≤ D)
    (p : Prog (Dir K X) X O) (s : Nat) (hp : p.Within s) :
    (Fintype.card X - s) * (univ.filter fun ω => GoesBad C.ev (BadTriple fun ts t => out t.2.2 t.2.1 ∈ L ts) ω p []).card ≤
      (∑ j ∈ Finset.range s, b j) * D * Fintype.card Ω := by
  rw [Finset.sum_mul]
  exact card_badTriple C (b := fun j => b j * D)
    (fun ts _ x => by convert Nat.le_trans (card_out_mem (hr x) (L ts)) (Nat.mul_le_mul_right D (hb ts)))
    (fun ts _ y => by convert Nat.le_trans (card_out_mem (hl y) (L ts)) (Nat.mul_le_mul_right D (hb ts))) p s hp

theorem two_sum_succ (s : Nat) : 2 * ∑ j ∈ Finset.range s, (j + 1) = s * (s + 1) := by
  induction s with
  | zero => rfl
  | succ s ih => rw [Finset.sum_range_succ, Nat.mul_add, ih]; ring

open Classical in
/-- Collisions. -/
theorem cstep_collision (hini : ∀ b b' s s', key b = key b' → ini b s = ini b' s' → b = b' ∧ s = s')
    (hr : ∀ x d, (univ.filter fun y => out y x = d).card ≤ D) (hl : ∀ y d, (univ.filter fun x => out y x = d).card ≤ D)
    (p : Prog (Dir K X) X O) (q ℓ : Nat) (hp : p.Within q) (g g' : O → List B) (x₀ : S) (Win : Ω → Prop)
    (hw : ∀ ω, Win ω → (g (p.run (C.ev ω))).length ≤ ℓ ∧ (g' (p.run (C.ev ω))).length ≤ ℓ ∧
      g (p.run (C.ev ω)) ≠ g' (p.run (C.ev ω)) ∧
      ∃ d, chained (cstep key ini out (C.get ω)) x₀ (g (p.run (C.ev ω))) = .ok d ∧
        chained (cstep key ini out (C.get ω)) x₀ (g' (p.run (C.ev ω))) = .ok d) :
    2 * (Fintype.card X - (q + 2 * ℓ)) * (univ.filter Win).card ≤ (q + 2 * ℓ) * (q + 2 * ℓ + 1) * D * Fintype.card Ω := by
  let f : O → Prog (Dir K X) X Unit := fun o => if (g o).length ≤ ℓ ∧ (g' o).length ≤ ℓ then
    andThen (walk key ini out (g o) x₀) fun _ => walk key ini out (g' o) x₀ else .ret ()
  have hf : ∀ o, (f o).Within (2 * ℓ) := by
    intro o
    by_cases h : (g o).length ≤ ℓ ∧ (g' o).length ≤ ℓ
    · simp only [f, if_pos h]
      exact within_mono (within_andThen (walk_within key ini out _ _) fun _ => walk_within key ini out _ _) (by omega)
    · simp only [f, if_neg h]
      trivial
  let L : List (K × X × X) → List S := fun ts => x₀ :: ts.map fun t => out t.2.2 t.2.1
  have hbound := card_badSum out C (L := L) (b := fun j => j + 1) (fun ts => by simp [L]) hr hl (andThen p f) (q + 2 * ℓ)
    (within_andThen hp hf)
  have hsub : (univ.filter Win) ⊆
      univ.filter fun ω => GoesBad C.ev (BadTriple fun ts t => out t.2.2 t.2.1 ∈ L ts) ω (andThen p f) [] := by
    intro ω hω
    have hω := (Finset.mem_filter.mp hω).2
    refine Finset.mem_filter.mpr ⟨Finset.mem_univ _, ?_⟩
    by_contra hbad
    obtain ⟨l1, l2, hne, d, h1, h2⟩ := hw ω hω
    have htr := trace_triples C (T := fun ts t => out t.2.2 t.2.1 ∈ L ts)
      (I := fun ts => (∀ t ∈ ts, out t.2.2 t.2.1 ≠ x₀) ∧ ∀ t ∈ ts, ∀ t' ∈ ts, out t.2.2 t.2.1 = out t'.2.2 t'.2.1 → t = t') ?_ ?_
      (andThen p f) [] ?_ ?_ hbad
    · obtain ⟨⟨hI, hI'⟩, -⟩ := htr
      have hmem : ∀ c, c ∈ callsFrom (cstep key ini out (C.get ω)) x₀ (g (p.run (C.ev ω))) ∨
          c ∈ callsFrom (cstep key ini out (C.get ω)) x₀ (g' (p.run (C.ev ω))) →
          (key c.1, ini c.1 c.2, C.get ω (key c.1) (ini c.1 c.2)) ∈ (trace C.ev ω (andThen p f) []).map triple := by
        intro c hc
        rw [trace_andThen]
        simp only [f]
        rw [if_pos ⟨l1, l2⟩, trace_andThen]
        rcases hc with hc | hc
        · obtain ⟨t, ht, e⟩ := List.mem_map.mp (calls_mem_trace key ini out C ω _ x₀ (trace C.ev ω p []) c hc)
          exact List.mem_map.mpr ⟨t, subset_trace C.ev ω _ _ ht, e⟩
        · exact calls_mem_trace key ini out C ω _ x₀ _ c hc
      have hreach : ∀ c : B × S, (key c.1, ini c.1 c.2, C.get ω (key c.1) (ini c.1 c.2)) ∈ (trace C.ev ω (andThen p f) []).map triple →
          cstep key ini out (C.get ω) c.1 c.2 ≠ .ok x₀ := by
        intro c hc e
        rw [cstep] at e
        injection e with e
        exact hI _ hc e
      rcases collide_or _ _ h1 h2 with e | ⟨c, hc, c', hc', hcc, t, e, e'⟩ | ⟨-, ⟨c, hc, e⟩ | ⟨c, hc, e⟩⟩
      · exact hne e
      · rw [cstep] at e e'
        injection e with e
        injection e' with e'
        have := hI' _ (hmem c (.inl hc)) _ (hmem c' (.inr hc')) (e.trans e'.symm)
        injection this with e1 e2
        injection e2 with e2 e3
        obtain ⟨e1, e2⟩ := hini _ _ _ _ e1 e2
        exact hcc (Prod.ext e1 e2)
      · exact hreach c (hmem c (.inl hc)) e
      · exact hreach c (hmem c (.inr hc)) e
    · rintro ts t ⟨i1, i2⟩ hT
      simp only [L, List.mem_cons, List.mem_map, not_or, not_exists, not_and] at hT
      refine ⟨fun u hu => ?_, fun u hu v hv e => ?_⟩
      · rcases List.mem_cons.mp hu with rfl | hu
        · exact hT.1
        · exact i1 u hu
      · rcases List.mem_cons.mp hu with rfl | hu' <;> rcases List.mem_cons.mp hv with rfl | hv'
        · rfl
        · exact absurd e.symm (hT.2 v hv')
        · exact absurd e (hT.2 u hu')
        · exact i2 u hu' v hv' e
    · rintro ts t ⟨i1, i2⟩ ht
      refine ⟨fun u hu => ?_, fun u hu v hv e => ?_⟩
      · rcases List.mem_cons.mp hu with rfl | hu
        · exact i1 _ ht
        · exact i1 u hu
      · have hu : u ∈ ts := by rcases List.mem_cons.mp hu with rfl | hu <;> assumption
        have hv : v ∈ ts := by rcases List.mem_cons.mp hv with rfl | hv <;> assumption
        exact i2 u hu v hv e
    · exact ⟨fun t ht => absurd ht List.not_mem_nil, fun t ht => absurd ht List.not_mem_nil⟩
    · exact fun t ht => absurd ht List.not_mem_nil
  calc 2 * (Fintype.card X - (q + 2 * ℓ)) * (univ.filter Win).card
      = 2 * ((Fintype.card X - (q + 2 * ℓ)) * (univ.filter Win).card) := by ring
    _ ≤ 2 * ((∑ j ∈ Finset.range (q + 2 * ℓ), (j + 1)) * D * Fintype.card Ω) :=
        Nat.mul_le_mul_left _ ((Nat.mul_le_mul_left _ (Finset.card_le_card hsub)).trans hbound)
    _ = _ := by rw [← Nat.mul_assoc, ← Nat.mul_assoc, two_sum_succ]

open Classical in
/-- Preimages of a given value. -/
theorem cstep_preimage (hr : ∀ x d, (univ.filter fun y => out y x = d).card ≤ D) (hl : ∀ y d, (univ.filter fun x => out y x = d).card ≤ D)
    (p : Prog (Dir K X) X O) (q ℓ : Nat) (hp : p.Within q) (g : O → List B) (x₀ d : S) (Win : Ω → Prop)
    (hw : ∀ ω, Win ω → (g (p.run (C.ev ω))).length ≤ ℓ ∧ g (p.run (C.ev ω)) ≠ [] ∧
      chained (cstep key ini out (C.get ω)) x₀ (g (p.run (C.ev ω))) = .ok d) :
    (Fintype.card X - (q + ℓ)) * (univ.filter Win).card ≤ (q + ℓ) * D * Fintype.card Ω := by
  let f : O → Prog (Dir K X) X Unit := fun o => if (g o).length ≤ ℓ then walk key ini out (g o) x₀ else .ret ()
  have hf : ∀ o, (f o).Within ℓ := by
    intro o
    by_cases h : (g o).length ≤ ℓ
    · simp only [f, if_pos h]
      exact within_mono (walk_within key ini out _ _) h
    · simp only [f, if_neg h]
      trivial
  have hbound := card_badSum out C (L := fun _ => [d]) (b := fun _ => 1) (fun ts => Nat.le_refl _) hr hl (andThen p f) (q + ℓ)
    (within_andThen hp hf)
  have hsub : (univ.filter Win) ⊆
      univ.filter fun ω => GoesBad C.ev (BadTriple fun ts t => out t.2.2 t.2.1 ∈ [d]) ω (andThen p f) [] := by
    intro ω hω
    have hω := (Finset.mem_filter.mp hω).2
    refine Finset.mem_filter.mpr ⟨Finset.mem_univ _, ?_⟩
    by_contra hbad
    obtain ⟨l1, hne, h1⟩ := hw ω hω
    have htr := trace_triples C (T := fun ts t => out t.2.2 t.2.1 ∈ [d]) (I := fun ts => ∀ t ∈ ts, out t.2.2 t.2.1 ≠ d) ?_ ?_
      (andThen p f) [] ?_ ?_ hbad
    · obtain ⟨hI, -⟩ := htr
      obtain h | ⟨as, b, e⟩ := nil_or_concat (g (p.run (C.ev ω)))
      · exact hne h
      · rw [e] at h1
        obtain ⟨t, -, h3, h4⟩ := chained_concat h1
        refine hI (key b, ini b t, C.get ω (key b) (ini b t)) ?_ ?_
        · rw [trace_andThen]
          simp only [f]
          rw [if_pos l1]
          refine calls_mem_trace key ini out C ω _ x₀ _ (b, t) ?_
          rw [e, h4]
          exact List.mem_append_right _ (List.mem_singleton_self _)
        · rw [cstep] at h3
          injection h3
    · intro ts t i1 hT u hu
      rcases List.mem_cons.mp hu with rfl | hu
      · exact fun e => hT (List.mem_singleton.mpr e)
      · exact i1 u hu
    · intro ts t i1 ht u hu
      rcases List.mem_cons.mp hu with rfl | hu
      · exact i1 _ ht
      · exact i1 u hu
    · exact fun t ht => absurd ht List.not_mem_nil
    · exact fun t ht => absurd ht List.not_mem_nil
  refine (Nat.mul_le_mul_left _ (Finset.card_le_card hsub)).trans (hbound.trans (Nat.le_of_eq ?_))
  simp

theorem mem_old {α : Type} {n : Nat} {t u : α} {ts : List α} (h : u ∈ (t :: ts).reverse.take n) :
    u ∈ ts.reverse.take n ∨ u = t ∧ ts.length < n := by
  rw [List.reverse_cons, List.take_append] at h
  rcases List.mem_append.mp h with h | h
  · exact .inl h
  · refine .inr ⟨List.mem_singleton.mp (List.mem_of_mem_take h), ?_⟩
    by_contra hn
    rw [List.length_reverse, Nat.sub_eq_zero_of_le (by omega), List.take_zero] at h
    exact List.not_mem_nil h

open Classical in
/-- Second preimages of a given input. -/
theorem cstep_second (hini : ∀ b b' s s', key b = key b' → ini b s = ini b' s' → b = b' ∧ s = s')
    (hr : ∀ x d, (univ.filter fun y => out y x = d).card ≤ D) (hl : ∀ y d, (univ.filter fun x => out y x = d).card ≤ D)
    (p : Prog (Dir K X) X O) (q ℓ : Nat) (hp : p.Within q) (g : O → List B) (x₀ : S) (ks₀ : List B) (Win : Ω → Prop)
    (hw : ∀ ω, Win ω → (g (p.run (C.ev ω))).length ≤ ℓ ∧ ks₀ ≠ g (p.run (C.ev ω)) ∧
      ∃ d, chained (cstep key ini out (C.get ω)) x₀ ks₀ = .ok d ∧ chained (cstep key ini out (C.get ω)) x₀ (g (p.run (C.ev ω))) = .ok d) :
    (Fintype.card X - (ks₀.length + (q + ℓ))) * (univ.filter Win).card ≤
      (ks₀.length + (q + ℓ)) * (ks₀.length + 1) * D * Fintype.card Ω := by
  let f : O → Prog (Dir K X) X Unit := fun o => if (g o).length ≤ ℓ then walk key ini out (g o) x₀ else .ret ()
  have hf : ∀ o, (f o).Within ℓ := by
    intro o
    by_cases h : (g o).length ≤ ℓ
    · simp only [f, if_pos h]
      exact within_mono (walk_within key ini out _ _) h
    · simp only [f, if_neg h]
      trivial
  let P : Prog (Dir K X) X Unit := andThen (walk key ini out ks₀ x₀) fun _ => andThen p f
  let L : List (K × X × X) → List S := fun ts => x₀ :: (ts.reverse.take ks₀.length).map fun t => out t.2.2 t.2.1
  have hbound := card_badSum out C (L := L) (b := fun _ => ks₀.length + 1)
    (fun ts => by simp only [L, List.length_cons, List.length_map, List.length_take]; omega) hr hl P (ks₀.length + (q + ℓ))
    (within_andThen (walk_within key ini out _ _) fun _ => within_andThen hp hf)
  have hsub : (univ.filter Win) ⊆
      univ.filter fun ω => GoesBad C.ev (BadTriple fun ts t => out t.2.2 t.2.1 ∈ L ts) ω P [] := by
    intro ω hω
    have hω := (Finset.mem_filter.mp hω).2
    refine Finset.mem_filter.mpr ⟨Finset.mem_univ _, ?_⟩
    by_contra hbad
    obtain ⟨l1, hne, d, h1, h2⟩ := hw ω hω
    have htr := trace_triples C (T := fun ts t => out t.2.2 t.2.1 ∈ L ts)
      (I := fun ts => (∀ t ∈ ts, out t.2.2 t.2.1 ≠ x₀) ∧
        ∀ t ∈ ts.reverse.take ks₀.length, ∀ t' ∈ ts, out t.2.2 t.2.1 = out t'.2.2 t'.2.1 → t = t') ?_ ?_ P [] ?_ ?_ hbad
    · obtain ⟨⟨hI, hI'⟩, -⟩ := htr
      have hold : ∀ c, c ∈ callsFrom (cstep key ini out (C.get ω)) x₀ ks₀ →
          (key c.1, ini c.1 c.2, C.get ω (key c.1) (ini c.1 c.2)) ∈ ((trace C.ev ω P []).map triple).reverse.take ks₀.length := by
        intro c hc
        have h3 := calls_mem_trace key ini out C ω ks₀ x₀ [] c hc
        have h4 := length_trace_walk key ini out C ω ks₀ x₀ []
        have hsuf : ∀ {O' : Type} (p : Prog (Dir K X) X O') h, ∃ k, trace C.ev ω p h = k ++ h := by
          intro O' p
          induction p with
          | ret o => exact fun h => ⟨[], rfl⟩
          | ask x k ih =>
            intro h
            obtain ⟨l, e⟩ := ih (C.ev ω x) ((x, C.ev ω x) :: h)
            exact ⟨l ++ [(x, C.ev ω x)], by rw [trace, e, List.append_assoc]; rfl⟩
        simp only [P]
        rw [trace_andThen]
        obtain ⟨k, e⟩ := hsuf (andThen p f) (trace C.ev ω (walk key ini out ks₀ x₀) [])
        rw [e, List.map_append, List.reverse_append, List.take_left' (by simpa using h4)]
        exact List.mem_reverse.mpr h3
      have hmem : ∀ c, c ∈ callsFrom (cstep key ini out (C.get ω)) x₀ (g (p.run (C.ev ω))) →
          (key c.1, ini c.1 c.2, C.get ω (key c.1) (ini c.1 c.2)) ∈ (trace C.ev ω P []).map triple := by
        intro c hc
        simp only [P]
        rw [trace_andThen, trace_andThen]
        simp only [f]
        rw [if_pos l1]
        exact calls_mem_trace key ini out C ω _ x₀ _ c hc
      have hreach : ∀ c : B × S, (key c.1, ini c.1 c.2, C.get ω (key c.1) (ini c.1 c.2)) ∈ (trace C.ev ω P []).map triple → cstep key ini out (C.get ω) c.1 c.2 ≠ .ok x₀ := by
        intro c hc e
        rw [cstep] at e
        injection e with e
        exact hI _ hc e
      rcases collide_or _ _ h1 h2 with e | ⟨c, hc, c', hc', hcc, t, e, e'⟩ | ⟨-, ⟨c, hc, e⟩ | ⟨c, hc, e⟩⟩
      · exact hne e
      · rw [cstep] at e e'
        injection e with e
        injection e' with e'
        have := hI' _ (hold c hc) _ (hmem c' hc') (e.trans e'.symm)
        injection this with e1 e2
        injection e2 with e2 e3
        obtain ⟨e1, e2⟩ := hini _ _ _ _ e1 e2
        exact hcc (Prod.ext e1 e2)
      · exact hreach c (List.mem_reverse.mp (List.mem_of_mem_take (hold c hc))) e
      · exact hreach c (hmem c hc) e
    · rintro ts t ⟨i1, i2⟩ hT
      simp only [L, List.mem_cons, List.mem_map, not_or, not_exists, not_and] at hT
      refine ⟨fun u hu => ?_, fun u hu v hv e => ?_⟩
      · rcases List.mem_cons.mp hu with rfl | hu
        · exact hT.1
        · exact i1 u hu
      · rcases mem_old hu with hu' | ⟨rfl, hlt⟩ <;> rcases List.mem_cons.mp hv with rfl | hv'
        · exact absurd e (hT.2 u hu')
        · exact i2 u hu' v hv' e
        · rfl
        · refine absurd e.symm (hT.2 v ?_)
          rw [List.take_of_length_le (by rw [List.length_reverse]; omega)]
          exact List.mem_reverse.mpr hv'
    · rintro ts t ⟨i1, i2⟩ ht
      refine ⟨fun u hu => ?_, fun u hu v hv e => ?_⟩
      · rcases List.mem_cons.mp hu with rfl | hu
        · exact i1 _ ht
        · exact i1 u hu
      · have hv' : v ∈ ts := by rcases List.mem_cons.mp hv with rfl | hv <;> assumption
        rcases mem_old hu with hu' | ⟨rfl, hlt⟩
        · exact i2 u hu' v hv' e
        · refine i2 u ?_ v hv' e
          rw [List.take_of_length_le (by rw [List.length_reverse]; omega)]
          exact List.mem_reverse.mpr ht
    · exact ⟨fun t ht => absurd ht List.not_mem_nil, fun t ht => absurd (List.mem_of_mem_take ht) List.not_mem_nil⟩
    · exact fun t ht => absurd ht List.not_mem_nil
  refine (Nat.mul_le_mul_left _ (Finset.card_le_card hsub)).trans (hbound.trans (Nat.le_of_eq ?_))
  simp

end Iterated

/-! ## Davies and Meyer -/

section DaviesMeyer

variable {K X Ω O : Type} (op : X → X → X)

/-- The compression function: encipher the state with the block as key and combine. -/
def dm (E : K → Equiv.Perm X) (k : K) (x : X) : M X := .ok (op (E k x) x)

variable (C : Ciphers K X Ω) [Fintype Ω] [Fintype X]

open Classical in
theorem card_eq_one {S : Type} {f : X → S} (h : ∀ y y', f y = f y' → y = y') (d : S) : (univ.filter fun y => f y = d).card ≤ 1 :=
  Finset.card_le_one.mpr fun y hy y' hy' => h y y' ((Finset.mem_filter.mp hy).2.trans (Finset.mem_filter.mp hy').2.symm)

open Classical in
/-- Collisions. -/
theorem dm_collision (hr : ∀ x y y', op y x = op y' x → y = y') (hl : ∀ x y y', op x y = op x y' → y = y')
    (p : Prog (Dir K X) X O) (q ℓ : Nat) (hp : p.Within q) (g g' : O → List K) (x₀ : X) (Win : Ω → Prop)
    (hw : ∀ ω, Win ω → (g (p.run (C.ev ω))).length ≤ ℓ ∧ (g' (p.run (C.ev ω))).length ≤ ℓ ∧
      g (p.run (C.ev ω)) ≠ g' (p.run (C.ev ω)) ∧
      ∃ d, chained (dm op (C.get ω)) x₀ (g (p.run (C.ev ω))) = .ok d ∧
        chained (dm op (C.get ω)) x₀ (g' (p.run (C.ev ω))) = .ok d) :
    2 * (Fintype.card X - (q + 2 * ℓ)) * (univ.filter Win).card ≤ (q + 2 * ℓ) * (q + 2 * ℓ + 1) * Fintype.card Ω := by
  have h := cstep_collision (fun k : K => k) (fun _ x => x) op C (D := 1) (fun _ _ _ _ e e' => ⟨e, e'⟩) (fun x => card_eq_one (hr x))
    (fun y => card_eq_one (hl y)) p q ℓ hp g g' x₀ Win hw
  rwa [Nat.mul_one] at h

open Classical in
/-- Preimages of a given value. -/
theorem dm_preimage (hr : ∀ x y y', op y x = op y' x → y = y') (hl : ∀ x y y', op x y = op x y' → y = y')
    (p : Prog (Dir K X) X O) (q ℓ : Nat) (hp : p.Within q) (g : O → List K) (x₀ d : X) (Win : Ω → Prop)
    (hw : ∀ ω, Win ω → (g (p.run (C.ev ω))).length ≤ ℓ ∧ g (p.run (C.ev ω)) ≠ [] ∧
      chained (dm op (C.get ω)) x₀ (g (p.run (C.ev ω))) = .ok d) :
    (Fintype.card X - (q + ℓ)) * (univ.filter Win).card ≤ (q + ℓ) * Fintype.card Ω := by
  have h := cstep_preimage (fun k : K => k) (fun _ x => x) op C (D := 1) (fun x => card_eq_one (hr x))
    (fun y => card_eq_one (hl y)) p q ℓ hp g x₀ d Win hw
  rwa [Nat.mul_one] at h

open Classical in
/-- Second preimages of a given input. -/
theorem dm_second (hr : ∀ x y y', op y x = op y' x → y = y') (hl : ∀ x y y', op x y = op x y' → y = y')
    (p : Prog (Dir K X) X O) (q ℓ : Nat) (hp : p.Within q) (g : O → List K) (x₀ : X) (ks₀ : List K) (Win : Ω → Prop)
    (hw : ∀ ω, Win ω → (g (p.run (C.ev ω))).length ≤ ℓ ∧ ks₀ ≠ g (p.run (C.ev ω)) ∧
      ∃ d, chained (dm op (C.get ω)) x₀ ks₀ = .ok d ∧ chained (dm op (C.get ω)) x₀ (g (p.run (C.ev ω))) = .ok d) :
    (Fintype.card X - (ks₀.length + (q + ℓ))) * (univ.filter Win).card ≤
      (ks₀.length + (q + ℓ)) * (ks₀.length + 1) * Fintype.card Ω := by
  have h := cstep_second (fun k : K => k) (fun _ x => x) op C (D := 1) (fun _ _ _ _ e e' => ⟨e, e'⟩) (fun x => card_eq_one (hr x))
    (fun y => card_eq_one (hl y)) p q ℓ hp g x₀ ks₀ Win hw
  rwa [Nat.mul_one] at h

end DaviesMeyer

end Hacspec.Ideal
