import Verif.Lemmas.Ideal.Sampling
import Verif.Spec.Permutations

/-! # A random permutation at secret points

`feed k π j` is the value of a permutation at a point that a key `k` and a question `j` determine, changed by a bijection.  Who can
ask `π` as well, in both directions, rarely sees a difference to a random function of `j`. -/

namespace Hacspec.Ideal

open Spec Finset

section

variable {X Y J K O : Type}

/-- A point and its value. -/
def pairOf : Dir Unit X → X → X × X
  | .fwd _ x, y => (x, y)
  | .bwd _ y, x => (x, y)

/-- What is learnt of the permutation and of the function. -/
def collect (π : Equiv.Perm X) (R : J → Y) : Prog (Dir Unit X ⊕ J) (X ⊕ Y) O → List (X × X) → List (J × Y) → List (X × X) × List (J × Y)
  | .ret _, T, U => (T, U)
  | .ask (.inl d) k, T, U => collect π R (k (.inl (d.answer fun _ => π))) (pairOf d (d.answer fun _ => π) :: T) U
  | .ask (.inr j) k, T, U => collect π R (k (.inr (R j))) T ((j, R j) :: U)

variable (s : J → X) (φ : J → X ≃ Y)

/-- The value at the point of a question. -/
def feed (π : Equiv.Perm X) (j : J) : Y := φ j (π (s j))

/-- The points of the questions and their values do not meet the others, and the values are different. -/
def Fine (T : List (X × X)) (U : List (J × Y)) : Prop :=
  (∀ t ∈ T, ∀ u ∈ U, t.1 ≠ s u.1 ∧ t.2 ≠ (φ u.1).symm u.2) ∧
  ∀ u ∈ U, ∀ u' ∈ U, (φ u.1).symm u.2 = (φ u'.1).symm u'.2 → u.1 = u'.1

/-- The points of the questions, with their values. -/
def points (U : List (J × Y)) : List (X × X) := U.map fun u => (s u.1, (φ u.1).symm u.2)

theorem subset_collect (π : Equiv.Perm X) (R : J → Y) (p : Prog (Dir Unit X ⊕ J) (X ⊕ Y) O) (T : List (X × X)) (U : List (J × Y)) :
    T ⊆ (collect π R p T U).1 ∧ U ⊆ (collect π R p T U).2 := by
  induction p generalizing T U with
  | ret o => exact ⟨fun _ h => h, fun _ h => h⟩
  | ask x k ih =>
    cases x with
    | inl d =>
      have h := ih (.inl (d.answer fun _ => π)) (pairOf d (d.answer fun _ => π) :: T) U
      exact ⟨fun t ht => h.1 (List.mem_cons_of_mem _ ht), h.2⟩
    | inr j =>
      have h := ih (.inr (R j)) T ((j, R j) :: U)
      exact ⟨h.1, fun t ht => h.2 (List.mem_cons_of_mem _ ht)⟩

theorem Fine.mono {s : J → X} {φ : J → X ≃ Y} {T T' : List (X × X)} {U U' : List (J × Y)} (h : Fine s φ T' U') (hT : T ⊆ T')
    (hU : U ⊆ U') : Fine s φ T U :=
  ⟨fun t ht u hu => h.1 t (hT ht) u (hU hu), fun u hu u' hu' => h.2 u (hU hu) u' (hU hu')⟩

variable [Fintype X] [DecidableEq X]

open Classical in
/-- The permutations with these values. -/
noncomputable def perms (T : List (X × X)) : Finset (Equiv.Perm X) := univ.filter fun π => ∀ t ∈ T, π t.1 = t.2

theorem mem_perms {T : List (X × X)} {π : Equiv.Perm X} : π ∈ perms T ↔ ∀ t ∈ T, π t.1 = t.2 := by
  rw [perms, Finset.mem_filter]
  simp

theorem mem_perms_pair {T : List (X × X)} {d : Dir Unit X} {r : X} {π : Equiv.Perm X} :
    π ∈ perms (pairOf d r :: T) ↔ (d.answer fun _ => π) = r ∧ π ∈ perms T := by
  rw [mem_perms, mem_perms]
  simp only [List.mem_cons, forall_eq_or_imp]
  refine and_congr_left fun _ => ?_
  cases d with
  | fwd _ x => exact Iff.rfl
  | bwd _ y =>
    show π r = y ↔ π.symm y = r
    rw [Equiv.symm_apply_eq, eq_comm]

theorem perms_known {T : List (X × X)} {t : X × X} (ht : t ∈ T) : perms (t :: T) = perms T := by
  ext π
  rw [mem_perms, mem_perms]
  simp only [List.mem_cons, forall_eq_or_imp]
  exact ⟨fun h => h.2, fun h => ⟨h t ht, h⟩⟩

/-- The values left for a new point are equally likely. -/
theorem card_perms {T : List (X × X)} {x y : X} (hx : ∀ t ∈ T, t.1 ≠ x) (hy : ∀ t ∈ T, t.2 ≠ y) :
    (perms T).card = (Fintype.card X - ((T.map Prod.snd).toFinset).card) * (perms ((x, y) :: T)).card := by
  classical
  have hle : ∀ y y', (∀ t ∈ T, t.2 ≠ y) → (∀ t ∈ T, t.2 ≠ y') → (perms ((x, y) :: T)).card ≤ (perms ((x, y') :: T)).card := by
    intro y y' hy hy'
    refine Finset.card_le_card_of_injOn (fun π => π.trans (Equiv.swap y y')) ?_ ?_
    · intro π hπ
      have hπ := mem_perms.mp (Finset.mem_coe.mp hπ)
      refine Finset.mem_coe.mpr (mem_perms.mpr fun t ht => ?_)
      rw [Equiv.trans_apply]
      rcases List.mem_cons.mp ht with rfl | ht
      · rw [hπ _ (List.mem_cons_self ..)]
        exact Equiv.swap_apply_left _ _
      · rw [hπ t (List.mem_cons_of_mem _ ht), Equiv.swap_apply_of_ne_of_ne (hy t ht) (hy' t ht)]
    · intro π _ π' _ e
      ext z
      have := congrArg (fun f => f z) e
      exact (Equiv.swap y y').injective this
  have hsum : (perms T).card = ∑ y ∈ ((T.map Prod.snd).toFinset)ᶜ, (perms ((x, y) :: T)).card := by
    rw [Finset.card_eq_sum_card_fiberwise (f := fun π => π x) (t := ((T.map Prod.snd).toFinset)ᶜ)]
    · refine Finset.sum_congr rfl fun y _ => congrArg _ ?_
      ext π
      rw [Finset.mem_filter, mem_perms, mem_perms]
      simp only [List.mem_cons, forall_eq_or_imp]
      exact and_comm
    · intro π hπ
      have hπ := mem_perms.mp (Finset.mem_coe.mp hπ)
      refine Finset.mem_coe.mpr (Finset.mem_compl.mpr fun h => ?_)
      obtain ⟨t, ht, e⟩ := List.mem_map.mp (List.mem_toFinset.mp h)
      exact hx t ht (π.injective ((hπ t ht).trans e))
  rw [hsum, Finset.sum_congr rfl fun y' hy' => ?_, Finset.sum_const, Finset.card_compl, nsmul_eq_mul, Nat.cast_id]
  have hy' : ∀ t ∈ T, t.2 ≠ y' := fun t ht e =>
    Finset.mem_compl.mp hy' (List.mem_toFinset.mpr (List.mem_map.mpr ⟨t, ht, e⟩))
  exact Nat.le_antisymm (hle _ _ hy' hy) (hle _ _ hy hy')

theorem perms_congr {T T' : List (X × X)} (h : ∀ t, t ∈ T ↔ t ∈ T') : perms T = perms T' := by
  ext π
  rw [mem_perms, mem_perms]
  simp only [h]

theorem mul_step {a b c c' d d' : Nat} (h1 : b * d' ≤ a * c') (h2 : d * c' ≤ c * d') (h3 : 0 < c') : b * d ≤ a * c := by
  refine Nat.le_of_mul_le_mul_right (c := c') ?_ h3
  calc b * d * c' = b * (d * c') := Nat.mul_assoc ..
    _ ≤ b * (c * d') := Nat.mul_le_mul_left _ h2
    _ = c * (b * d') := by ring
    _ ≤ c * (a * c') := Nat.mul_le_mul_left _ h1
    _ = a * c * c' := by ring

variable [Fintype Y] [Nonempty Y] [Fintype J] [DecidableEq J] {s φ}

open Classical in
/-- After the same answers, acceptance without a meeting has at most the share among pairs of a permutation and a function that
acceptance has among the permutations. -/
theorem card_fine (hs : Function.Injective s) (acc : O → Prop) (p : Prog (Dir Unit X ⊕ J) (X ⊕ Y) O) (T : List (X × X)) (U : List (J × Y)) :
    ((perms T ×ˢ fits U).filter fun ω => Fine s φ (collect ω.1 ω.2 p T U).1 (collect ω.1 ω.2 p T U).2 ∧
        acc (p.run (bothAnswer ω.1 ω.2))).card * (perms (T ++ points s φ U)).card ≤
      ((perms (T ++ points s φ U)).filter fun π => acc (p.run (bothAnswer π (feed s φ π)))).card * ((perms T).card * (fits U).card) := by
  induction p generalizing T U with
  | ret o =>
    by_cases ha : acc o
    · rw [Finset.filter_true_of_mem (s := perms (T ++ points s φ U)) (p := fun π => acc ((Prog.ret o).run (bothAnswer π (feed s φ π))))
        (fun g _ => ha), Nat.mul_comm]
      refine Nat.mul_le_mul_left _ ((Finset.card_filter_le _ _).trans ?_)
      rw [Finset.card_product]
    · rw [Finset.filter_false_of_mem (s := perms T ×ˢ fits U) (fun g _ h => ha h.2)]
      simp
  | ask x k ih =>
    cases x with
    | inl d =>
      have s1 : ((perms T ×ˢ fits U).filter fun ω => Fine s φ (collect ω.1 ω.2 (.ask (.inl d) k) T U).1
            (collect ω.1 ω.2 (.ask (.inl d) k) T U).2 ∧ acc ((Prog.ask (.inl d) k).run (bothAnswer ω.1 ω.2))).card =
          ∑ r, ((perms (pairOf d r :: T) ×ˢ fits U).filter fun ω => Fine s φ (collect ω.1 ω.2 (k (.inl r)) (pairOf d r :: T) U).1
            (collect ω.1 ω.2 (k (.inl r)) (pairOf d r :: T) U).2 ∧ acc ((k (.inl r)).run (bothAnswer ω.1 ω.2))).card := by
        rw [Finset.card_eq_sum_card_fiberwise (f := fun ω => d.answer fun _ => ω.1) (t := univ)
          fun g _ => Finset.mem_coe.mpr (Finset.mem_univ _)]
        refine Finset.sum_congr rfl fun r _ => congrArg _ ?_
        ext ω
        rw [Finset.mem_filter, Finset.mem_filter, Finset.mem_filter, Finset.mem_product, Finset.mem_product, mem_perms_pair]
        simp only [collect, Prog.run, bothAnswer, sideAnswer]
        constructor
        · rintro ⟨⟨⟨h1, h2⟩, h3⟩, e⟩
          rw [e] at h3
          exact ⟨⟨⟨e, h1⟩, h2⟩, h3⟩
        · rintro ⟨⟨⟨e, h1⟩, h2⟩, h3⟩
          rw [e]
          exact ⟨⟨⟨h1, h2⟩, h3⟩, rfl⟩
      have s2 : ((perms (T ++ points s φ U)).filter fun π => acc ((Prog.ask (.inl d) k).run (bothAnswer π (feed s φ π)))).card =
          ∑ r, ((perms (pairOf d r :: T ++ points s φ U)).filter fun π => acc ((k (.inl r)).run (bothAnswer π (feed s φ π)))).card := by
        rw [Finset.card_eq_sum_card_fiberwise (f := fun π => d.answer fun _ => π) (t := univ)
          fun g _ => Finset.mem_coe.mpr (Finset.mem_univ _)]
        refine Finset.sum_congr rfl fun r _ => congrArg _ ?_
        ext ω
        rw [Finset.mem_filter, Finset.mem_filter, Finset.mem_filter, List.cons_append, mem_perms_pair]
        simp only [Prog.run, bothAnswer, sideAnswer]
        constructor
        · rintro ⟨⟨h1, h3⟩, e⟩
          rw [e] at h3
          exact ⟨⟨e, h1⟩, h3⟩
        · rintro ⟨⟨e, h1⟩, h3⟩
          rw [e]
          exact ⟨⟨h1, h3⟩, rfl⟩
      rw [s1, s2, Finset.sum_mul, Finset.sum_mul]
      refine Finset.sum_le_sum fun r _ => ?_
      by_cases he : ((perms (pairOf d r :: T) ×ˢ fits U).filter fun ω => Fine s φ (collect ω.1 ω.2 (k (.inl r)) (pairOf d r :: T) U).1
            (collect ω.1 ω.2 (k (.inl r)) (pairOf d r :: T) U).2 ∧ acc ((k (.inl r)).run (bothAnswer ω.1 ω.2))) = ∅
      · rw [he]
        simp
      · obtain ⟨ω, hω⟩ := Finset.nonempty_iff_ne_empty.mpr he
        obtain ⟨hω, hf, -⟩ := Finset.mem_filter.mp hω
        obtain ⟨hπ, hR⟩ := Finset.mem_product.mp hω
        have hf := hf.mono (subset_collect ..).1 (subset_collect ..).2
        refine mul_step (ih (.inl r) (pairOf d r :: T) U) ?_ (Nat.mul_pos (Finset.card_pos.mpr ⟨_, hπ⟩) (Finset.card_pos.mpr ⟨_, hR⟩))
        rw [List.cons_append]
        have hπ' := mem_perms.mp hπ
        have h0 := hπ' _ (List.mem_cons_self ..)
        by_cases ht : pairOf d r ∈ T
        · rw [perms_known ht, perms_known (List.mem_append_left _ ht), Nat.mul_comm]
        · have hx : ∀ t ∈ T, t.1 ≠ (pairOf d r).1 := fun t h e => ht <| by
            have := hπ' t (List.mem_cons_of_mem _ h)
            rw [e, h0] at this
            rwa [show pairOf d r = t from Prod.ext e.symm this]
          have hy : ∀ t ∈ T, t.2 ≠ (pairOf d r).2 := fun t h e => hx t h <| by
            have := hπ' t (List.mem_cons_of_mem _ h)
            rw [e, ← h0] at this
            exact ω.1.injective this
          have hx' : ∀ t ∈ T ++ points s φ U, t.1 ≠ (pairOf d r).1 := by
            intro t h
            rcases List.mem_append.mp h with h | h
            · exact hx t h
            · obtain ⟨u, hu, rfl⟩ := List.mem_map.mp h
              exact (hf.1 _ (List.mem_cons_self ..) u hu).1.symm
          have hy' : ∀ t ∈ T ++ points s φ U, t.2 ≠ (pairOf d r).2 := by
            intro t h
            rcases List.mem_append.mp h with h | h
            · exact hy t h
            · obtain ⟨u, hu, rfl⟩ := List.mem_map.mp h
              exact (hf.1 _ (List.mem_cons_self ..) u hu).2.symm
          have c1 := card_perms hx hy
          have c2 := card_perms hx' hy'
          rw [Prod.mk.eta] at c1 c2
          have hle : ((T.map Prod.snd).toFinset).card ≤ (((T ++ points s φ U).map Prod.snd).toFinset).card := by
            refine Finset.card_le_card fun y h => ?_
            rw [List.mem_toFinset] at h ⊢
            rw [List.map_append]
            exact List.mem_append_left _ h
          rw [c1, c2]
          calc _ = (Fintype.card X - (((T ++ points s φ U).map Prod.snd).toFinset).card) *
                ((perms (pairOf d r :: (T ++ points s φ U))).card * ((perms (pairOf d r :: T)).card * (fits U).card)) := by ring
            _ ≤ (Fintype.card X - ((T.map Prod.snd).toFinset).card) *
                ((perms (pairOf d r :: (T ++ points s φ U))).card * ((perms (pairOf d r :: T)).card * (fits U).card)) :=
              Nat.mul_le_mul_right _ (by omega)
            _ = _ := by ring
    | inr j =>
      have hp : ∀ r, perms (T ++ points s φ ((j, r) :: U)) = perms ((s j, (φ j).symm r) :: (T ++ points s φ U)) := by
        intro r
        refine perms_congr fun t => ?_
        rw [points, List.map_cons]
        simp only [List.mem_append, List.mem_cons]
        exact or_left_comm
      have s1 : ((perms T ×ˢ fits U).filter fun ω => Fine s φ (collect ω.1 ω.2 (.ask (.inr j) k) T U).1
            (collect ω.1 ω.2 (.ask (.inr j) k) T U).2 ∧ acc ((Prog.ask (.inr j) k).run (bothAnswer ω.1 ω.2))).card =
          ∑ r, ((perms T ×ˢ fits ((j, r) :: U)).filter fun ω => Fine s φ (collect ω.1 ω.2 (k (.inr r)) T ((j, r) :: U)).1
            (collect ω.1 ω.2 (k (.inr r)) T ((j, r) :: U)).2 ∧ acc ((k (.inr r)).run (bothAnswer ω.1 ω.2))).card := by
        rw [Finset.card_eq_sum_card_fiberwise (f := fun ω => ω.2 j) (t := univ)
          fun g _ => Finset.mem_coe.mpr (Finset.mem_univ _)]
        refine Finset.sum_congr rfl fun r _ => congrArg _ ?_
        ext ω
        rw [Finset.mem_filter, Finset.mem_filter, Finset.mem_filter, Finset.mem_product, Finset.mem_product, mem_fits, mem_fits]
        simp only [collect, Prog.run, bothAnswer, sideAnswer, List.mem_cons, forall_eq_or_imp]
        constructor
        · rintro ⟨⟨⟨h1, h2⟩, h3⟩, e⟩
          rw [e] at h3
          exact ⟨⟨h1, e, h2⟩, h3⟩
        · rintro ⟨⟨h1, e, h2⟩, h3⟩
          rw [e]
          exact ⟨⟨⟨h1, h2⟩, h3⟩, rfl⟩
      have s2 : ((perms (T ++ points s φ U)).filter fun π => acc ((Prog.ask (.inr j) k).run (bothAnswer π (feed s φ π)))).card =
          ∑ r, ((perms (T ++ points s φ ((j, r) :: U))).filter fun π => acc ((k (.inr r)).run (bothAnswer π (feed s φ π)))).card := by
        rw [Finset.card_eq_sum_card_fiberwise (f := fun π => feed s φ π j) (t := univ)
          fun g _ => Finset.mem_coe.mpr (Finset.mem_univ _)]
        refine Finset.sum_congr rfl fun r _ => congrArg _ ?_
        ext π
        rw [Finset.mem_filter, Finset.mem_filter, Finset.mem_filter, hp, mem_perms, mem_perms]
        have hfeed : feed s φ π j = r ↔ π (s j) = (φ j).symm r := by rw [feed, Equiv.eq_symm_apply]
        simp only [Prog.run, bothAnswer, sideAnswer, List.mem_cons, forall_eq_or_imp, ← hfeed]
        constructor
        · rintro ⟨⟨h1, h3⟩, e⟩
          rw [e] at h3
          exact ⟨⟨e, h1⟩, h3⟩
        · rintro ⟨⟨e, h1⟩, h3⟩
          rw [e]
          exact ⟨⟨h1, h3⟩, rfl⟩
      rw [s1, s2, Finset.sum_mul, Finset.sum_mul]
      refine Finset.sum_le_sum fun r _ => ?_
      by_cases he : ((perms T ×ˢ fits ((j, r) :: U)).filter fun ω => Fine s φ (collect ω.1 ω.2 (k (.inr r)) T ((j, r) :: U)).1
            (collect ω.1 ω.2 (k (.inr r)) T ((j, r) :: U)).2 ∧ acc ((k (.inr r)).run (bothAnswer ω.1 ω.2))) = ∅
      · rw [he]
        simp
      · obtain ⟨ω, hω⟩ := Finset.nonempty_iff_ne_empty.mpr he
        obtain ⟨hω, hf, -⟩ := Finset.mem_filter.mp hω
        obtain ⟨hπ, hR⟩ := Finset.mem_product.mp hω
        have hf := hf.mono (subset_collect ..).1 (subset_collect ..).2
        refine mul_step (ih (.inr r) T ((j, r) :: U)) ?_ (Nat.mul_pos (Finset.card_pos.mpr ⟨_, hπ⟩) (Finset.card_pos.mpr ⟨_, hR⟩))
        rw [hp]
        have hR' := mem_fits.mp hR
        have h0 : ω.2 j = r := hR' (j, r) (List.mem_cons_self ..)
        by_cases hj : ∃ u ∈ U, u.1 = j
        · obtain ⟨⟨j, r'⟩, hu, rfl⟩ := hj
          have h1 : ω.2 j = r' := hR' _ (List.mem_cons_of_mem _ hu)
          obtain rfl : r' = r := h1.symm.trans h0
          have e1 : fits ((j, r') :: U) = fits U := by
            ext g
            rw [mem_fits, mem_fits]
            simp only [List.mem_cons, forall_eq_or_imp]
            exact ⟨fun h => h.2, fun h => ⟨h _ hu, h⟩⟩
          have e2 : (s j, (φ j).symm r') ∈ T ++ points s φ U := List.mem_append_right _ (List.mem_map.mpr ⟨_, hu, rfl⟩)
          rw [e1, perms_known e2, Nat.mul_comm]
        · push Not at hj
          have hx' : ∀ t ∈ T ++ points s φ U, t.1 ≠ s j := by
            intro t h
            rcases List.mem_append.mp h with h | h
            · exact (hf.1 t h (j, r) (List.mem_cons_self ..)).1
            · obtain ⟨u, hu, rfl⟩ := List.mem_map.mp h
              exact fun e => hj u hu (hs e)
          have hy' : ∀ t ∈ T ++ points s φ U, t.2 ≠ (φ j).symm r := by
            intro t h
            rcases List.mem_append.mp h with h | h
            · exact (hf.1 t h (j, r) (List.mem_cons_self ..)).2
            · obtain ⟨u, hu, rfl⟩ := List.mem_map.mp h
              exact fun e => hj u hu (hf.2 u (List.mem_cons_of_mem _ hu) (j, r) (List.mem_cons_self ..) e)
          have c1 := card_fits hj r
          have c2 := card_perms hx' hy'
          have hN : Fintype.card X = Fintype.card Y := Fintype.card_congr (φ j)
          rw [← c1, c2]
          calc _ = (Fintype.card X - (((T ++ points s φ U).map Prod.snd).toFinset).card) *
                ((perms ((s j, (φ j).symm r) :: (T ++ points s φ U))).card * ((perms T).card * (fits ((j, r) :: U)).card)) := by ring
            _ ≤ Fintype.card Y *
                ((perms ((s j, (φ j).symm r) :: (T ++ points s φ U))).card * ((perms T).card * (fits ((j, r) :: U)).card)) :=
              Nat.mul_le_mul_right _ (by omega)
            _ = _ := by ring

theorem share_fine (hs : Function.Injective s) (acc : O → Prop) (p : Prog (Dir Unit X ⊕ J) (X ⊕ Y) O) :
    share (fun ω : Equiv.Perm X × (J → Y) => Fine s φ (collect ω.1 ω.2 p [] []).1 (collect ω.1 ω.2 p [] []).2 ∧
        acc (p.run (bothAnswer ω.1 ω.2))) ≤
      share fun π : Equiv.Perm X => acc (p.run (bothAnswer π (feed s φ π))) := by
  classical
  have e1 : perms ([] : List (X × X)) = univ := by ext g; rw [mem_perms]; simp
  have e2 : fits ([] : List (J × Y)) = univ := by ext g; rw [mem_fits]; simp
  have h := card_fine (φ := φ) hs acc p [] []
  rw [points, List.map_nil, List.append_nil, e1, e2, Finset.card_univ, Finset.card_univ, univ_product_univ] at h
  have n1 : (0 : ℚ) < Fintype.card (Equiv.Perm X) := Nat.cast_pos.mpr Fintype.card_pos
  have n2 : (0 : ℚ) < Fintype.card (Equiv.Perm X × (J → Y)) := Nat.cast_pos.mpr Fintype.card_pos
  rw [share, share, div_le_div_iff₀ n2 n1, Fintype.card_prod]
  have h' := (Nat.cast_le (α := ℚ)).mpr h
  push_cast at h' ⊢
  convert h' using 1 <;> congr!

end

/-! ## The questions about the function alone -/

section

variable {D X Q R O : Type}

/-- What is asked besides questions whose answers are known. -/
def strip (g : D → X) : Prog (D ⊕ Q) (X ⊕ R) O → Prog Q R O
  | .ret o => .ret o
  | .ask (.inl d) k => strip g (k (.inl (g d)))
  | .ask (.inr x) k => .ask x fun r => strip g (k (.inr r))

theorem run_strip (g : D → X) (f : Q → R) (p : Prog (D ⊕ Q) (X ⊕ R) O) : (strip g p).run f = p.run (sideAnswer g f) := by
  induction p with
  | ret o => rfl
  | ask x k ih =>
    cases x with
    | inl d => exact ih _
    | inr x => exact ih _

theorem strip_within (g : D → X) {p : Prog (D ⊕ Q) (X ⊕ R) O} {q a : Nat} (h : p.Counts q a) : (strip g p).Within a := by
  induction p generalizing q a with
  | ret o => trivial
  | ask x k ih =>
    cases x with
    | inl d =>
      obtain ⟨q, rfl, h⟩ := h
      exact ih _ (h _)
    | inr x =>
      obtain ⟨a, rfl, h⟩ := h
      exact ⟨a, rfl, fun r => ih _ (h _)⟩

theorem collect_strip (π : Equiv.Perm X) (f : Q → R) (p : Prog (Dir Unit X ⊕ Q) (X ⊕ R) O) (T : List (X × X)) (U : List (Q × R)) :
    (collect π f p T U).2 = trace (fun (f : Q → R) x => f x) f (strip (Dir.answer fun _ => π) p) U := by
  induction p generalizing T U with
  | ret o => rfl
  | ask x k ih =>
    cases x with
    | inl d => exact ih _ _ _
    | inr x => exact ih _ _ _

theorem length_collect (π : Equiv.Perm X) (f : Q → R) {p : Prog (Dir Unit X ⊕ Q) (X ⊕ R) O} {q a : Nat} (h : p.Counts q a)
    (T : List (X × X)) (U : List (Q × R)) :
    (collect π f p T U).1.length ≤ T.length + q ∧ (collect π f p T U).2.length ≤ U.length + a := by
  induction p generalizing q a T U with
  | ret o => exact ⟨Nat.le_add_right .., Nat.le_add_right ..⟩
  | ask x k ih =>
    cases x with
    | inl d =>
      obtain ⟨q, rfl, h⟩ := h
      have := ih _ (h (.inl (d.answer fun _ => π))) (pairOf d (d.answer fun _ => π) :: T) U
      rw [List.length_cons] at this
      exact ⟨this.1.trans (by omega), this.2⟩
    | inr x =>
      obtain ⟨a, rfl, h⟩ := h
      have := ih _ (h (.inr (f x))) T ((x, f x) :: U)
      rw [List.length_cons] at this
      exact ⟨this.1, this.2.trans (by omega)⟩

end

section

variable {X Y J K O : Type} [Fintype Y] [Fintype J] [DecidableEq J] [Nonempty Y]

/-- A new question with the value of another. -/
def SameValue (φ : J → X ≃ Y) (h : List (J × Y)) (j : J) (r : Y) : Prop :=
  (∀ u ∈ h, u.1 ≠ j) ∧ ∃ u ∈ h, (φ u.1).symm u.2 = (φ j).symm r

/-- Equal values are rare. -/
theorem share_sameValue (φ : J → X ≃ Y) {p : Prog J Y O} {a : Nat} (hp : p.Within a) :
    share (fun f : J → Y => ∃ u ∈ trace (fun (f : J → Y) x => f x) f p [], ∃ u' ∈ trace (fun (f : J → Y) x => f x) f p [],
      (φ u.1).symm u.2 = (φ u'.1).symm u'.2 ∧ u.1 ≠ u'.1) ≤ a * (a - 1) / (2 * Fintype.card Y) := by
  classical
  have hcons : ∀ h : List (J × Y), consistent (fun (f : J → Y) x => f x) h = fits h := fun h => by
    ext f
    simp only [consistent, mem_fits, Finset.mem_filter, Finset.mem_univ, true_and]
  have h1 := card_goesBad (fun (f : J → Y) x => f x) (Bad := SameValue φ) (S := a) (W := Fintype.card Y) (b := fun n => n) ?_ p [] a hp
    (by simp)
  · have hall : consistent (fun (f : J → Y) x => f x) [] = (univ : Finset (J → Y)) := by
      rw [hcons]
      ext f
      rw [mem_fits]
      simp
    rw [hall] at h1
    have hN : (0 : ℚ) < Fintype.card Y := Nat.cast_pos.mpr Fintype.card_pos
    have hA : (0 : ℚ) < Fintype.card (J → Y) := Nat.cast_pos.mpr Fintype.card_pos
    have hsub : share (fun f : J → Y => ∃ u ∈ trace (fun (f : J → Y) x => f x) f p [], ∃ u' ∈ trace (fun (f : J → Y) x => f x) f p [],
        (φ u.1).symm u.2 = (φ u'.1).symm u'.2 ∧ u.1 ≠ u'.1) ≤ share fun f : J → Y => GoesBad (fun (f : J → Y) x => f x) (SameValue φ) f p [] := by
      refine share_mono fun f hf => ?_
      by_contra hb
      have := trace_inv (fun (f : J → Y) x => f x) (Bad := SameValue φ) (ω := f)
        (I := fun h => (∀ u ∈ h, f u.1 = u.2) ∧ ∀ u ∈ h, ∀ u' ∈ h, (φ u.1).symm u.2 = (φ u'.1).symm u'.2 → u.1 = u'.1) ?_ p [] ?_ hb
      · obtain ⟨u, hu, u', hu', e, hne⟩ := hf
        exact hne (this.2 u hu u' hu' e)
      · intro h j hI hn
        have new : ∀ u ∈ h, (φ u.1).symm u.2 = (φ j).symm (f j) → u.1 = j := by
          intro u hu e
          by_contra hne
          by_cases hj : ∃ u' ∈ h, u'.1 = j
          · obtain ⟨u', hu', rfl⟩ := hj
            rw [hI.1 u' hu'] at e
            exact hne (hI.2 u hu u' hu' e)
          · push Not at hj
            exact hn ⟨hj, u, hu, e⟩
        refine ⟨fun u hu => ?_, fun u hu u' hu' e => ?_⟩
        · rcases List.mem_cons.mp hu with rfl | hu
          · rfl
          · exact hI.1 u hu
        · rcases List.mem_cons.mp hu with rfl | hu <;> rcases List.mem_cons.mp hu' with rfl | hu'
          · rfl
          · exact (new u' hu' e.symm).symm
          · exact new u hu e
          · exact hI.2 u hu u' hu' e
      · exact ⟨fun u hu => absurd hu List.not_mem_nil, fun u hu => absurd hu List.not_mem_nil⟩
    refine hsub.trans ?_
    have hsum : (2 : ℚ) * ((∑ j ∈ Finset.range a, (([] : List (J × Y)).length + j) : ℕ) : ℚ) = a * (a - 1) := by
      have : ∀ n : Nat, (2 : ℚ) * ((∑ j ∈ Finset.range n, (([] : List (J × Y)).length + j) : ℕ) : ℚ) = n * (n - 1) := by
        intro n
        induction n with
        | zero => simp
        | succ n ih =>
          rw [Finset.sum_range_succ, Nat.cast_add, mul_add, ih]
          push_cast
          simp
          ring
      have := this a
      push_cast at this ⊢
      simpa using this
    rw [share, div_le_div_iff₀ hA (by positivity)]
    have h1' := (Nat.cast_le (α := ℚ)).mpr h1
    rw [Finset.card_univ] at h1'
    push_cast at h1' hsum
    simp only [List.length_nil, Nat.cast_zero, zero_add] at h1' hsum
    calc _ = 2 * ((Fintype.card Y : ℚ) * ((univ.filter fun f : J → Y => GoesBad (fun (f : J → Y) x => f x) (SameValue φ) f p []).card : ℚ)) := by
          ring
      _ ≤ 2 * ((∑ x ∈ Finset.range a, (x : ℚ)) * (Fintype.card (J → Y) : ℚ)) := by
          refine mul_le_mul_of_nonneg_left ?_ (by norm_num)
          convert h1' using 2
      _ = _ := by rw [← mul_assoc, hsum]
  · intro h j _
    rw [hcons]
    by_cases hj : ∀ u ∈ h, u.1 ≠ j
    · have hsub : ((fits h).filter fun f => SameValue φ h j (f j)) ⊆
          h.toFinset.biUnion fun u => fits ((j, φ j ((φ u.1).symm u.2)) :: h) := by
        intro f hf
        obtain ⟨hf, -, u, hu, e⟩ := Finset.mem_filter.mp hf
        refine Finset.mem_biUnion.mpr ⟨u, List.mem_toFinset.mpr hu, mem_fits.mpr fun t ht => ?_⟩
        rcases List.mem_cons.mp ht with rfl | ht
        · show f j = φ j ((φ u.1).symm u.2)
          rw [e, Equiv.apply_symm_apply]
        · exact mem_fits.mp hf t ht
      refine (Nat.mul_le_mul_left _ ((Finset.card_le_card hsub).trans Finset.card_biUnion_le)).trans ?_
      rw [Finset.mul_sum, Finset.sum_congr rfl fun u _ => card_fits hj _, Finset.sum_const, nsmul_eq_mul, Nat.cast_id]
      exact Nat.mul_le_mul_right _ (List.toFinset_card_le _)
    · rw [Finset.filter_false_of_mem fun f _ hb => hj hb.1]
      simp

variable [Fintype X] [DecidableEq X] [Fintype K] [Nonempty K]

/-- Two questions have one value. -/
theorem share_swap {A B : Type} [Fintype A] [Fintype B] (P : A × B → Prop) : share (fun x : B × A => P (x.2, x.1)) = share P :=
  share_equiv (Equiv.prodComm B A) P

/-- The bound for `q` questions to the permutation and `a` to the function, `k` keys and `n` values. -/
def feedBound (q a k n : ℚ) : ℚ := q * (1 + a) / k + a * (a - 1) / (2 * n)

/-- What an attack asks seldom meets the points of the function, if every point is unlikely. -/
theorem share_notFine {s : K → J → X} {φ : K → J → X ≃ Y} {εA εB : ℚ} (hA : ∀ x, share (fun k => ∃ j, x = s k j) ≤ εA)
    (hB : ∀ x j r, share (fun k => x = (φ k j).symm r) ≤ εB) (hA0 : 0 ≤ εA) (hB0 : 0 ≤ εB) {p : Prog (Dir Unit X ⊕ J) (X ⊕ Y) O}
    {q a : Nat} (hp : p.Counts q a) :
    share (fun ω : (Equiv.Perm X × (J → Y)) × K =>
      ¬ Fine (s ω.2) (φ ω.2) (collect ω.1.1 ω.1.2 p [] []).1 (collect ω.1.1 ω.1.2 p [] []).2) ≤
      q * (εA + a * εB) + a * (a - 1) / (2 * Fintype.card Y) := by
  have hY : (0 : ℚ) < Fintype.card Y := Nat.cast_pos.mpr Fintype.card_pos
  have hle := share_le_add (P := fun ω : (Equiv.Perm X × (J → Y)) × K =>
      ¬ Fine (s ω.2) (φ ω.2) (collect ω.1.1 ω.1.2 p [] []).1 (collect ω.1.1 ω.1.2 p [] []).2)
    (Q := fun ω => (∃ t ∈ (collect ω.1.1 ω.1.2 p [] []).1, (∃ j, t.1 = s ω.2 j) ∨
      ∃ u ∈ (collect ω.1.1 ω.1.2 p [] []).2, t.2 = (φ ω.2 u.1).symm u.2))
    (R := fun ω => ∃ u ∈ (collect ω.1.1 ω.1.2 p [] []).2, ∃ u' ∈ (collect ω.1.1 ω.1.2 p [] []).2,
      (φ ω.2 u.1).symm u.2 = (φ ω.2 u'.1).symm u'.2 ∧ u.1 ≠ u'.1) ?_
  · have hB : share (fun ω : (Equiv.Perm X × (J → Y)) × K => (∃ t ∈ (collect ω.1.1 ω.1.2 p [] []).1, (∃ j, t.1 = s ω.2 j) ∨
        ∃ u ∈ (collect ω.1.1 ω.1.2 p [] []).2, t.2 = (φ ω.2 u.1).symm u.2)) ≤ q * (εA + a * εB) := by
      refine share_prod_le (by positivity) fun ω => ?_
      obtain ⟨l1, l2⟩ := length_collect ω.1 ω.2 hp [] []
      rw [List.length_nil, Nat.zero_add] at l1 l2
      have := share_exists_mem (Ω := K) (collect ω.1 ω.2 p [] []).1 (P := fun t k => (∃ j, t.1 = s k j) ∨
        ∃ u ∈ (collect ω.1 ω.2 p [] []).2, t.2 = (φ k u.1).symm u.2) (ε := εA + a * εB) fun t => ?_
      · exact this.trans (mul_le_mul_of_nonneg_right (Nat.cast_le.mpr l1) (by positivity))
      · refine (share_or _ _).trans (add_le_add (hA t.1) ?_)
        exact (share_exists_mem (Ω := K) (collect ω.1 ω.2 p [] []).2 (P := fun u k => t.2 = (φ k u.1).symm u.2)
          fun u => hB t.2 u.1 u.2).trans (mul_le_mul_of_nonneg_right (Nat.cast_le.mpr l2) hB0)
    have hR : share (fun ω : (Equiv.Perm X × (J → Y)) × K => ∃ u ∈ (collect ω.1.1 ω.1.2 p [] []).2, ∃ u' ∈ (collect ω.1.1 ω.1.2 p [] []).2,
        (φ ω.2 u.1).symm u.2 = (φ ω.2 u'.1).symm u'.2 ∧ u.1 ≠ u'.1) ≤ a * (a - 1) / (2 * Fintype.card Y) := by
      have hpos : (0 : ℚ) ≤ a * (a - 1) / (2 * Fintype.card Y) := by
        refine div_nonneg ?_ (by positivity)
        rcases Nat.eq_zero_or_pos a with rfl | ha
        · simp
        · have : (1 : ℚ) ≤ a := by exact_mod_cast ha
          exact mul_nonneg (by linarith) (by linarith)
      rw [← share_swap]
      refine share_prod_le hpos fun k => share_prod_le hpos fun π => ?_
      have := share_sameValue (φ k) (strip_within (Dir.answer fun _ => π) hp)
      refine le_trans (le_of_eq ?_) this
      refine share_congr fun f => ?_
      simp only [collect_strip]
    exact hle.trans (add_le_add hB hR)
  · intro ω h
    by_contra hn
    rw [not_or] at hn
    refine h ⟨fun t ht u hu => ⟨fun e => hn.1 ⟨t, ht, .inl ⟨_, e⟩⟩, fun e => hn.1 ⟨t, ht, .inr ⟨u, hu, e⟩⟩⟩, fun u hu u' hu' e => ?_⟩
    by_contra hne
    exact hn.2 ⟨u, hu, u', hu', e, hne⟩

/-- Who asks the permutation and the function with a random key sees hardly more than with a random function. -/
theorem share_feed_any {s : K → J → X} {φ : K → J → X ≃ Y} {εA εB εC : ℚ} (h0 : share (fun k => ¬ Function.Injective (s k)) ≤ εC)
    (hA : ∀ x, share (fun k => ∃ j, x = s k j) ≤ εA) (hB : ∀ x j r, share (fun k => x = (φ k j).symm r) ≤ εB) (hA0 : 0 ≤ εA) (hB0 : 0 ≤ εB)
    {p : Prog (Dir Unit X ⊕ J) (X ⊕ Y) O} {q a : Nat} (hp : p.Counts q a) (acc : O → Prop) :
    share (fun ω : Equiv.Perm X × (J → Y) => acc (p.run (bothAnswer ω.1 ω.2))) ≤
      share (fun ω : Equiv.Perm X × K => acc (p.run (bothAnswer ω.1 (feed (s ω.2) (φ ω.2) ω.1)))) +
        (q * (εA + a * εB) + a * (a - 1) / (2 * Fintype.card Y) + εC) := by
  have e1 : share (fun ω : Equiv.Perm X × (J → Y) => acc (p.run (bothAnswer ω.1 ω.2))) =
      share (fun ω : (Equiv.Perm X × (J → Y)) × K => acc (p.run (bothAnswer ω.1.1 ω.1.2))) := (share_fst _).symm
  rw [e1]
  have h0' : share (fun ω : (Equiv.Perm X × (J → Y)) × K => ¬ Function.Injective (s ω.2)) ≤ εC := by
    rw [share_snd fun k => ¬ Function.Injective (s k)]
    exact h0
  refine (share_le_add (Q := fun ω : (Equiv.Perm X × (J → Y)) × K => Function.Injective (s ω.2) ∧ Fine (s ω.2) (φ ω.2)
    (collect ω.1.1 ω.1.2 p [] []).1 (collect ω.1.1 ω.1.2 p [] []).2 ∧ acc (p.run (bothAnswer ω.1.1 ω.1.2)))
    (R := fun ω : (Equiv.Perm X × (J → Y)) × K =>
      ¬ Fine (s ω.2) (φ ω.2) (collect ω.1.1 ω.1.2 p [] []).1 (collect ω.1.1 ω.1.2 p [] []).2 ∨ ¬ Function.Injective (s ω.2)) fun ω h => ?_).trans
    (add_le_add ?_ ((share_or _ _).trans (add_le_add (share_notFine hA hB hA0 hB0 hp) h0')))
  · by_cases hi : Function.Injective (s ω.2)
    · by_cases hf : Fine (s ω.2) (φ ω.2) (collect ω.1.1 ω.1.2 p [] []).1 (collect ω.1.1 ω.1.2 p [] []).2
      · exact .inl ⟨hi, hf, h⟩
      · exact .inr (.inl hf)
    · exact .inr (.inr hi)
  · have i1 := share_swap fun x : (Equiv.Perm X × (J → Y)) × K => Function.Injective (s x.2) ∧ Fine (s x.2) (φ x.2)
      (collect x.1.1 x.1.2 p [] []).1 (collect x.1.1 x.1.2 p [] []).2 ∧ acc (p.run (bothAnswer x.1.1 x.1.2))
    have i2 := share_swap fun x : Equiv.Perm X × K => acc (p.run (bothAnswer x.1 (feed (s x.2) (φ x.2) x.1)))
    rw [← i1, ← i2]
    refine share_prod_mono (A := K) (P := fun x : K × (Equiv.Perm X × (J → Y)) => Function.Injective (s x.1) ∧ Fine (s x.1) (φ x.1)
      (collect x.2.1 x.2.2 p [] []).1 (collect x.2.1 x.2.2 p [] []).2 ∧ acc (p.run (bothAnswer x.2.1 x.2.2)))
      (Q := fun x : K × Equiv.Perm X => acc (p.run (bothAnswer x.2 (feed (s x.1) (φ x.1) x.2)))) fun k => ?_
    by_cases hi : Function.Injective (s k)
    · exact (share_mono fun ω h => h.2).trans (share_fine (s := s k) (φ := φ k) hi acc p)
    · refine (share_mono (Q := fun _ => False) fun ω h => hi h.1).trans ?_
      refine (share_le (c := 0) fun S hS => ?_).trans ((le_of_eq (by simp)).trans (share_nonneg _))
      rw [Finset.eq_empty_of_forall_notMem fun x hx => hS x hx, Finset.card_empty]

/-- The same if different keys never give one point. -/
theorem share_feed {s : K → J → X} {φ : K → J → X ≃ Y} (h0 : ∀ k, Function.Injective (s k)) (h1 : ∀ k k' j j', s k j = s k' j' → k = k')
    (h2 : ∀ k k' j r, (φ k j).symm r = (φ k' j).symm r → k = k') {p : Prog (Dir Unit X ⊕ J) (X ⊕ Y) O} {q a : Nat} (hp : p.Counts q a)
    (acc : O → Prop) :
    share (fun ω : Equiv.Perm X × (J → Y) => acc (p.run (bothAnswer ω.1 ω.2))) ≤
      share (fun ω : Equiv.Perm X × K => acc (p.run (bothAnswer ω.1 (feed (s ω.2) (φ ω.2) ω.1)))) +
        feedBound q a (Fintype.card K) (Fintype.card Y) := by
  have one : ∀ P : K → Prop, (∀ k k', P k → P k' → k = k') → share P ≤ 1 / Fintype.card K := by
    intro P hP
    have := share_le (P := P) (c := 1) fun S hS => Finset.card_le_one.mpr fun x hx y hy => hP x y (hS x hx) (hS y hy)
    simpa using this
  have hC : share (fun k => ¬ Function.Injective (s k)) ≤ 0 := by
    refine (share_le (c := 0) fun S hS => ?_).trans (le_of_eq (by simp))
    rw [Finset.eq_empty_of_forall_notMem fun x hx => hS x hx (h0 x), Finset.card_empty]
  refine (share_feed_any hC (fun x => one _ fun k k' ⟨j, e⟩ ⟨j', e'⟩ => h1 k k' j j' (e.symm.trans e'))
    (fun x j r => one _ fun k k' e e' => h2 k k' j r (e.symm.trans e')) (by positivity) (by positivity) hp acc).trans
    (le_of_eq ?_)
  rw [feedBound]
  ring

end

end Hacspec.Ideal
