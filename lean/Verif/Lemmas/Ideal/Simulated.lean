import Verif.Lemmas.Ideal.Indifferent
import Verif.Lemmas.Ideal.Sampling

/-! # A sponge with a random permutation and a random function with the simulator: all questions -/

namespace Hacspec.Ideal

open Spec Spec.Sponge Finset

variable {B X I D R Y Z A O : Type} [DecidableEq I] [DecidableEq X] [Fintype X] [Fintype D] [Fintype R] [Fintype Y] [DecidableEq Y]
variable {S : Sponge B X I D R Y} {G : (Y → D) → Z → A} {acc : O → Prop}

omit [DecidableEq I] [DecidableEq X] [Fintype X] [Fintype D] [Fintype R] [Fintype Y] [DecidableEq Y] in
theorem point_iff (hS : Lawful S) {bs : List B} {y : Y} : S.point bs = some y ↔ S.path y = bs := by
  rw [point]
  constructor
  · intro h
    split at h
    next h1 => exact Option.some.inj h ▸ h1.choose_spec
    next => cases h
  · intro h
    rw [dif_pos ⟨y, h⟩]
    exact congrArg some (hS.path_inj ((Exists.choose_spec (p := fun y => S.path y = bs) ⟨y, h⟩).trans h.symm))

/-- The outputs in the table are among `K`. -/
def Tracked (S : Sponge B X I D R Y) (T : List (Entry B X)) (K : List (Y × D)) : Prop :=
  ∀ e ∈ T, ∀ y, e.blocks = some (S.path y) → (y, (S.split e.y).1) ∈ K

theorem share_le_one {Ω : Type} [Fintype Ω] (P : Ω → Prop) : share P ≤ 1 := by
  rw [share]
  refine div_le_one_of_le₀ (Nat.cast_le.mpr ?_) (Nat.cast_nonneg _)
  exact Finset.card_le_univ _

/-! ## Questions to the permutation -/

theorem split_card (S : Sponge B X I D R Y) : Fintype.card X = Fintype.card D * Fintype.card R := by
  rw [Fintype.card_congr S.split, Fintype.card_prod]

theorem share_rest (S : Sponge B X I D R Y) (r : R) : share (fun c : X => (S.split c).2 = r) ≤ 1 / Fintype.card R := by
  by_cases hD : Nonempty D
  · rw [share_equiv S.split (fun c : D × R => c.2 = r), share_snd (fun c : R => c = r), share_eq]
  · rw [share_false fun c => fun _ => hD ⟨(S.split c).1⟩]
    positivity

theorem claim_fwd (hS : Lawful S) {x : X} {k : X ⊕ A → Prog (Dir Unit X ⊕ Z) (X ⊕ A) O} {n : Nat} {T : List (Entry B X)}
    {K : List (Y × D)} (hT : Sound S T) (hK : Tracked S T K)
    (h : ∀ y T' K', T ⊆ T' → Sound S T' → Tracked S T' K' → (∃ e ∈ T', e.x = x ∧ e.y = y) →
      (∀ k ∈ K', k ∈ K ∨ ∃ e ∈ T', e.blocks = some (S.path k.1)) → Claim S G acc (k (.inl y)) n T' K') :
    Claim S G acc (.ask (.inl (.fwd () x)) k) (n + 1) T K := by
  have hne : Nonempty X := ⟨S.start⟩
  have hX : (0 : ℚ) < Fintype.card X := Nat.cast_pos.mpr Fintype.card_pos
  have hR : (0 : ℚ) < Fintype.card R := by
    have : Nonempty R := ⟨(S.split S.start).2⟩
    exact Nat.cast_pos.mpr Fintype.card_pos
  cases hf : T.find? fun e => e.x = x with
  | some e =>
    have hx : e.x = x := by simpa using List.find?_some hf
    have he := List.mem_of_find?_eq_some hf
    refine claim_old _ k n T K e.y (fun H c => by simp only [simulate, hf]) (fun π hπ => ?_) ?_
    · rw [← hπ e he, hx]
      rfl
    · exact h e.y T K (List.Subset.refl T) hT hK ⟨e, he, hx, rfl⟩ fun k hk => .inl hk
  | none =>
    have hx : ∀ e ∈ T, e.x ≠ x := fun e he => by simpa using List.find?_eq_none.mp hf e he
    have hsub : ∀ e : Entry B X, T ⊆ e :: T := fun e => List.subset_cons_self _ _
    cases hr : (S.route T x).bind S.point with
    | none =>
      refine claim_new _ k n T K (fun _ c => c) (fun y => ⟨x, y, S.route T x⟩) (fun _ => K) (NewInner S T x) (Fintype.card X) hX ?_
        (fun r hc => hc hx) ?_ (fun y => ?_) (fun π y e => e) (fun _ => List.Subset.refl K) fun y hy => ?_
      · intro H c
        simp only [simulate, hf, invent, hr]
      · intro y Ψ
        rw [← share_eq y, ← share_and]
      · rw [weight, hr]
        rfl
      · refine h y _ K (hsub _) (sound_fwd hS hT hx hy) ?_ ⟨_, List.mem_cons_self .., rfl, rfl⟩ fun k hk => .inl hk
        intro e he y' hb
        rcases List.mem_cons.mp he with rfl | he
        · rw [show S.route T x = some (S.path y') from hb, Option.bind_some, (point_iff hS).mpr rfl] at hr
          cases hr
        · exact hK e he y' hb
    | some pt =>
      have hroute : S.route T x = some (S.path pt) := by
        obtain ⟨bs, h1, h2⟩ := Option.bind_eq_some_iff.mp hr
        rw [h1, (point_iff hS).mp h2]
      refine claim_new _ k n T K (fun H c => S.split.symm (H pt, (S.split c).2)) (fun y => ⟨x, y, S.route T x⟩)
        (fun y => (pt, (S.split y).1) :: K) (NewInner S T x) (Fintype.card R) hR ?_ (fun r hc => hc hx) ?_ (fun y => ?_)
        (fun π y e => e) (fun y => List.subset_cons_self _ _) fun y hy => ?_
      · intro H c
        simp only [simulate, hf, invent, hr]
      · intro y Ψ
        refine le_trans (share_mono (Q := fun ω : X × ((Y → D) × (Fin n → X)) => (S.split ω.1).2 = (S.split y).2 ∧
          ((∀ k ∈ (pt, (S.split y).1) :: K, ω.2.1 k.1 = k.2) ∧ Ψ ω.2)) ?_) ?_
        · rintro ω ⟨e, hk, hΨ⟩
          have e := (Equiv.symm_apply_eq _).mp e
          have e1 : ω.2.1 pt = (S.split y).1 := (Prod.ext_iff.mp e).1
          have e2 : (S.split ω.1).2 = (S.split y).2 := (Prod.ext_iff.mp e).2
          refine ⟨e2, fun k hk' => ?_, hΨ⟩
          rcases List.mem_cons.mp hk' with rfl | hk'
          · exact e1
          · exact hk k hk'
        · rw [share_and (fun c => (S.split c).2 = (S.split y).2)
            fun ω : (Y → D) × (Fin n → X) => (∀ k ∈ (pt, (S.split y).1) :: K, ω.1 k.1 = k.2) ∧ Ψ ω]
          exact mul_le_mul_of_nonneg_right (share_rest S _) (share_nonneg _)
      · rw [weight, hr]
        rfl
      · refine h y _ _ (hsub _) (sound_fwd hS hT hx hy) ?_ ⟨_, List.mem_cons_self .., rfl, rfl⟩ fun k hk => ?_
        · intro e he y' hb
          rcases List.mem_cons.mp he with rfl | he
          · have h1 : S.route T x = some (S.path y') := hb
            have h2 := hS.path_inj (Option.some.inj (h1.symm.trans hroute))
            rw [h2]
            exact List.mem_cons_self ..
          · exact List.mem_cons_of_mem _ (hK e he y' hb)
        · rcases List.mem_cons.mp hk with rfl | hk
          · exact .inr ⟨_, List.mem_cons_self .., hroute⟩
          · exact .inl hk

theorem claim_bwd (hS : Lawful S) {y : X} {k : X ⊕ A → Prog (Dir Unit X ⊕ Z) (X ⊕ A) O} {n : Nat} {T : List (Entry B X)}
    {K : List (Y × D)} (hT : Sound S T) (hK : Tracked S T K)
    (h : ∀ x T', T ⊆ T' → Sound S T' → Tracked S T' K → Claim S G acc (k (.inl x)) n T' K) :
    Claim S G acc (.ask (.inl (.bwd () y)) k) (n + 1) T K := by
  have hne : Nonempty X := ⟨S.start⟩
  have hX : (0 : ℚ) < Fintype.card X := Nat.cast_pos.mpr Fintype.card_pos
  cases hf : T.find? fun e => e.y = y with
  | some e =>
    have hy : e.y = y := by simpa using List.find?_some hf
    have he := List.mem_of_find?_eq_some hf
    refine claim_old _ k n T K e.x (fun H c => by simp only [simulate, hf]) (fun π hπ => ?_) ?_
    · rw [← hy, ← hπ e he]
      exact π.symm_apply_apply _
    · exact h e.x T (List.Subset.refl T) hT hK
  | none =>
    have hy : ∀ e ∈ T, e.y ≠ y := fun e he => by simpa using List.find?_eq_none.mp hf e he
    refine claim_new _ k n T K (fun _ c => c) (fun c => ⟨c, y, none⟩) (fun _ => K) (NewInner S T y) (Fintype.card X) hX ?_
        (fun r hc => hc hy) ?_ (fun c => ?_) (fun π c e => ?_) (fun _ => List.Subset.refl K) fun c hc => ?_
    · intro H c
      simp only [simulate, hf]
    · intro c Ψ
      rw [← share_eq c, ← share_and]
    · rw [weight]
      rfl
    · exact (Equiv.symm_apply_eq _).mpr (Eq.symm e)
    · refine h c _ (List.subset_cons_self _ _) (sound_bwd hS hT hy hc) ?_
      intro e he y' hb
      rcases List.mem_cons.mp he with rfl | he
      · cases hb
      · exact hK e he y' hb

/-! ## The end -/

/-- Permutations that agree with a table. -/
theorem share_table {T : List (Entry B X)} {e : Entry B X} (hx : e.x ∉ T.map Entry.x) (hy : e.y ∉ T.map Entry.y) :
    share (fun π : Equiv.Perm X => ∀ e ∈ T, π e.x = e.y) ≤
      Fintype.card X * share (fun π : Equiv.Perm X => ∀ e' ∈ e :: T, π e'.x = e'.y) := by
  rw [share_split (fun π : Equiv.Perm X => π e.x)]
  refine (Finset.sum_le_card_nsmul _ _ (share fun π : Equiv.Perm X => ∀ e' ∈ e :: T, π e'.x = e'.y) fun y _ => ?_).trans
    (by rw [nsmul_eq_mul, Finset.card_univ])
  by_cases hyT : y ∈ T.map Entry.y
  · refine (share_false fun π hπ => ?_).le.trans (share_nonneg _)
    obtain ⟨e', he', rfl⟩ := List.mem_map.mp hyT
    have h1 := hπ.1.trans (hπ.2 e' he').symm
    exact hx (List.mem_map.mpr ⟨e', he', (π.injective h1).symm⟩)
  · let E : Equiv.Perm X ≃ Equiv.Perm X := Equiv.mulLeft (Equiv.swap y e.y)
    rw [← share_equiv E fun π : Equiv.Perm X => ∀ e' ∈ e :: T, π e'.x = e'.y]
    refine share_mono fun π hπ e' he' => ?_
    show Equiv.swap y e.y (π e'.x) = e'.y
    rcases List.mem_cons.mp he' with rfl | he'
    · rw [hπ.1, Equiv.swap_apply_left]
    · rw [hπ.2 e' he', Equiv.swap_apply_of_ne_of_ne]
      · exact fun h => hyT (h ▸ List.mem_map_of_mem he')
      · exact fun h => hy (h ▸ List.mem_map_of_mem he')

/-- The outputs in the table. -/
noncomputable def outputs (S : Sponge B X I D R Y) (T : List (Entry B X)) : List (Y × D) :=
  T.filterMap fun e => (e.blocks.bind S.point).map fun y => (y, (S.split e.y).1)

omit [DecidableEq I] [DecidableEq X] [Fintype X] [Fintype D] [Fintype R] [Fintype Y] [DecidableEq Y] in
theorem mem_outputs (hS : Lawful S) {T : List (Entry B X)} {k : Y × D} :
    k ∈ outputs S T ↔ ∃ e ∈ T, e.blocks = some (S.path k.1) ∧ (S.split e.y).1 = k.2 := by
  rw [outputs, List.mem_filterMap]
  constructor
  · rintro ⟨e, he, h⟩
    obtain ⟨y, h1, rfl⟩ := Option.map_eq_some_iff.mp h
    obtain ⟨bs, h2, h3⟩ := Option.bind_eq_some_iff.mp h1
    exact ⟨e, he, by rw [h2, (point_iff hS).mp h3], rfl⟩
  · rintro ⟨e, he, h1, h2⟩
    exact ⟨e, he, by rw [h1, Option.bind_some, (point_iff hS).mpr rfl, Option.map_some, h2]⟩

theorem share_outputs (hS : Lawful S) {T : List (Entry B X)} (hx : (T.map Entry.x).Nodup) (hy : (T.map Entry.y).Nodup)
    (hb : ∀ e ∈ T, ∀ e' ∈ T, ∀ bs, e.blocks = some bs → e'.blocks = some bs → e = e') :
    share (fun H : Y → D => ∀ k ∈ outputs S T, H k.1 = k.2) ≤
      weight S T * share (fun π : Equiv.Perm X => ∀ e ∈ T, π e.x = e.y) := by
  classical
  have hD : Nonempty D := ⟨(S.split S.start).1⟩
  have hR : Nonempty R := ⟨(S.split S.start).2⟩
  have hD0 : (0 : ℚ) < Fintype.card D := Nat.cast_pos.mpr Fintype.card_pos
  have hR0 : (0 : ℚ) < Fintype.card R := Nat.cast_pos.mpr Fintype.card_pos
  induction T with
  | nil =>
    have h1 : share (fun π : Equiv.Perm X => ∀ e ∈ ([] : List (Entry B X)), π e.x = e.y) = 1 := by
      rw [share_congr (Q := fun _ => True) fun π => by simp, share_const, if_pos trivial]
    rw [h1, weight, mul_one]
    exact share_le_one _
  | cons e T ih =>
    rw [List.map_cons, List.nodup_cons] at hx hy
    have ih := ih hx.2 hy.2 fun e he e' he' => hb e (List.mem_cons_of_mem _ he) e' (List.mem_cons_of_mem _ he')
    have h1 := share_table (T := T) hx.1 hy.1
    have hw := weight_nonneg S T
    have hN : (Fintype.card X : ℚ) = Fintype.card D * Fintype.card R := by rw [split_card S, Nat.cast_mul]
    rw [weight]
    cases hp : e.blocks.bind S.point with
    | none =>
      have ho : outputs S (e :: T) = outputs S T := by
        rw [outputs, List.filterMap_cons, hp]
        rfl
      rw [ho]
      simp only [Option.isSome_none, Bool.false_eq_true, if_false]
      calc _ ≤ _ := ih
        _ ≤ weight S T * (Fintype.card X * share (fun π : Equiv.Perm X => ∀ e' ∈ e :: T, π e'.x = e'.y)) :=
            mul_le_mul_of_nonneg_left h1 hw
        _ = _ := by ring
    | some y =>
      have ho : outputs S (e :: T) = (y, (S.split e.y).1) :: outputs S T := by
        rw [outputs, List.filterMap_cons, hp]
        rfl
      have heb : e.blocks = some (S.path y) := by
        obtain ⟨bs, h1, h2⟩ := Option.bind_eq_some_iff.mp hp
        rw [h1, (point_iff hS).mp h2]
      have hfit := card_fits (hist := outputs S T) (a := y) (fun k hk e1 => by
        obtain ⟨e', he', h2, -⟩ := (mem_outputs hS).mp hk
        rw [e1] at h2
        have := hb e (List.mem_cons_self ..) e' (List.mem_cons_of_mem _ he') _ heb h2
        exact hx.1 (this ▸ List.mem_map_of_mem he')) (S.split e.y).1
      have hsh : share (fun H : Y → D => ∀ k ∈ outputs S T, H k.1 = k.2) =
          Fintype.card D * share (fun H : Y → D => ∀ k ∈ outputs S (e :: T), H k.1 = k.2) := by
        rw [ho, share, share, ← mul_div_assoc, ← Nat.cast_mul]
        congr 2
        rw [fits, fits] at hfit
        convert hfit.symm
      simp only [Option.isSome_some, if_true]
      rw [hsh] at ih
      have h2 := mul_le_mul_of_nonneg_left h1 hw
      rw [hN] at h2
      have h3 := ih.trans h2
      refine le_of_mul_le_mul_left (h3.trans (le_of_eq ?_)) hD0
      ring

theorem claim_ret (hS : Lawful S) (o : O) (n : Nat) {T : List (Entry B X)} {K : List (Y × D)} (hT : Sound S T) (hK : Tracked S T K)
    (hc : ∀ k ∈ K, ∃ e ∈ T, e.blocks = some (S.path k.1)) : Claim S G acc (.ret o) n T K := by
  have hne : Nonempty X := ⟨S.start⟩
  by_cases ho : acc o
  · by_cases hall : ∀ k ∈ K, k ∈ outputs S T
    · rw [Claim]
      calc _ ≤ share (fun ω : (Y → D) × (Fin n → X) => ∀ k ∈ outputs S T, ω.1 k.1 = k.2) := by
            refine share_mono fun ω hω k hk => hω.1 k ?_
            obtain ⟨e, he, h1, h2⟩ := (mem_outputs hS).mp hk
            have := hK e he _ h1
            rwa [h2] at this
        _ = share (fun H : Y → D => ∀ k ∈ outputs S T, H k.1 = k.2) :=
            share_fst (B := Fin n → X) fun H : Y → D => ∀ k ∈ outputs S T, H k.1 = k.2
        _ ≤ _ := share_outputs hS hT.xs hT.ys fun e he e' he' bs h h' => blocks_inj hT he he' h h'
        _ ≤ _ := by
            refine mul_le_mul_of_nonneg_left (share_mono fun π hπ => ⟨hπ, fun k hk => ?_, ho⟩) (weight_nonneg S T)
            obtain ⟨e, he, h1, h2⟩ := (mem_outputs hS).mp (hall k hk)
            rw [value, walk_node hT hπ (.inr ⟨e, he, rfl, h1⟩), h2]
    · refine (share_false fun ω hω => hall fun k hk => ?_).le.trans (mul_nonneg (weight_nonneg S T) (share_nonneg _))
      obtain ⟨e, he, h1⟩ := hc k hk
      refine (mem_outputs hS).mpr ⟨e, he, h1, ?_⟩
      exact (hω.1 _ (hK e he _ h1)).symm.trans (hω.1 k hk)
  · exact (share_false fun ω hω => ho hω.2.2).le.trans (mul_nonneg (weight_nonneg S T) (share_nonneg _))

/-! ## All questions

After the attack, the blocks of the questions to the sponge are asked. -/

/-- The questions about blocks, from a state on. -/
def soakTo (S : Sponge B X I D R Y) (cont : Prog (Dir Unit X ⊕ Z) (X ⊕ A) O) : List B → X → Prog (Dir Unit X ⊕ Z) (X ⊕ A) O
  | [], _ => cont
  | b :: bs, x => .ask (.inl (.fwd () (S.mix b x))) fun r => match r with
    | .inl y => soakTo S cont bs y
    | .inr _ => cont

/-- The questions about lists of blocks. -/
def soakAll (S : Sponge B X I D R Y) (cont : Prog (Dir Unit X ⊕ Z) (X ⊕ A) O) : List (List B) → Prog (Dir Unit X ⊕ Z) (X ⊕ A) O
  | [] => cont
  | bs :: todo => soakTo S (soakAll S cont todo) bs S.start

/-- An attack, and then the questions about the blocks `full z` of its questions to the sponge. -/
def extend (S : Sponge B X I D R Y) (full : Z → List B) : Prog (Dir Unit X ⊕ Z) (X ⊕ A) O → List (List B) → Prog (Dir Unit X ⊕ Z) (X ⊕ A) O
  | .ret o, todo => soakAll S (.ret o) todo
  | .ask (.inl d) k, todo => .ask (.inl d) fun r => extend S full (k r) todo
  | .ask (.inr z) k, todo => .ask (.inr z) fun r => extend S full (k r) (full z :: todo)

theorem claim_soakTo (hS : Lawful S) (bs : List B) {cont : Prog (Dir Unit X ⊕ Z) (X ⊕ A) O} {done : List B} {x : X} {n : Nat}
    {T : List (Entry B X)} {K : List (Y × D)} (hT : Sound S T) (hK : Tracked S T K) (hx : Node S T done x)
    (h : ∀ T' K', T ⊆ T' → Sound S T' → Tracked S T' K' →
      (∀ k ∈ K', k ∈ K ∨ ∃ e ∈ T', e.blocks = some (S.path k.1)) →
      (∀ as, as <+: bs → as ≠ [] → ∃ e ∈ T', e.blocks = some (done ++ as)) → Claim S G acc cont n T' K') :
    Claim S G acc (soakTo S cont bs x) (bs.length + n) T K := by
  induction bs generalizing T K done x with
  | nil =>
    rw [List.length_nil, Nat.zero_add]
    exact h T K (List.Subset.refl T) hT hK (fun k hk => .inl hk) fun as h1 h2 => absurd (List.prefix_nil.mp h1) h2
  | cons b bs ih =>
    rw [List.length_cons, Nat.add_right_comm]
    refine claim_fwd hS hT hK fun y T1 K1 hs1 hT1 hK1 he1 hc1 => ?_
    obtain ⟨e, he, hex, hey⟩ := he1
    have hb := hT1.complete e he b x done (node_mono hs1 hx) hex
    refine ih hT1 hK1 (done := done ++ [b]) (.inr ⟨e, he, hey, hb⟩) fun T2 K2 hs2 hT2 hK2 hc2 hp2 => ?_
    refine h T2 K2 (fun e he => hs2 (hs1 he)) hT2 hK2 (fun k hk => ?_) fun as h1 h2 => ?_
    · rcases hc2 k hk with h3 | h3
      · rcases hc1 k h3 with h4 | ⟨e', he', h4⟩
        · exact .inl h4
        · exact .inr ⟨e', hs2 he', h4⟩
      · exact .inr h3
    · obtain ⟨a, as, rfl⟩ := List.exists_cons_of_ne_nil h2
      obtain ⟨rfl, h1'⟩ := List.cons_prefix_cons.mp h1
      by_cases has : as = []
      · subst has
        exact ⟨e, hs2 he, hb⟩
      · obtain ⟨e', he', h3⟩ := hp2 as h1' has
        exact ⟨e', he', by rw [h3, List.append_assoc, List.singleton_append]⟩

theorem claim_soakAll (hS : Lawful S) (o : O) (todo : List (List B)) {n : Nat} {T : List (Entry B X)} {K : List (Y × D)}
    (hT : Sound S T) (hK : Tracked S T K)
    (hc : ∀ k ∈ K, (∃ e ∈ T, e.blocks = some (S.path k.1)) ∨ ∃ bs ∈ todo, S.path k.1 <+: bs) :
    Claim S G acc (soakAll S (.ret o) todo) ((todo.map List.length).sum + n) T K := by
  induction todo generalizing T K with
  | nil =>
    refine claim_ret hS o _ hT hK fun k hk => ?_
    rcases hc k hk with h | ⟨bs, h, -⟩
    · exact h
    · exact absurd h List.not_mem_nil
  | cons bs todo ih =>
    rw [List.map_cons, List.sum_cons, Nat.add_assoc]
    refine claim_soakTo hS bs hT hK (.inl ⟨rfl, rfl⟩) fun T' K' hs hT' hK' hc' hp => ih hT' hK' fun k hk => ?_
    rcases hc' k hk with h | h
    · rcases hc k h with ⟨e, he, h⟩ | ⟨bs', h, h1⟩
      · exact .inl ⟨e, hs he, h⟩
      · rcases List.mem_cons.mp h with rfl | h
        · obtain ⟨e, he, h2⟩ := hp _ h1 (hS.path_ne k.1)
          exact .inl ⟨e, he, h2⟩
        · exact .inr ⟨bs', h, h1⟩
    · exact .inl h

theorem claim_extend (hS : Lawful S) {full : Z → List B} {pts : Z → List Y} {ℓ : Nat} (hℓ : ∀ z, (full z).length ≤ ℓ)
    (hpts : ∀ z, ∀ y ∈ pts z, S.path y <+: full z) (hG : ∀ z, ∀ H H' : Y → D, (∀ y ∈ pts z, H y = H' y) → G H z = G H' z)
    {p : Prog (Dir Unit X ⊕ Z) (X ⊕ A) O} {q a : Nat} (hp : p.Counts q a) (todo : List (List B)) {n : Nat} {T : List (Entry B X)}
    {K : List (Y × D)} (hn : q + a * ℓ + (todo.map List.length).sum ≤ n) (hT : Sound S T) (hK : Tracked S T K)
    (hc : ∀ k ∈ K, (∃ e ∈ T, e.blocks = some (S.path k.1)) ∨ ∃ bs ∈ todo, S.path k.1 <+: bs) :
    Claim S G acc (extend S full p todo) n T K := by
  induction p generalizing q a todo n T K with
  | ret o =>
    obtain ⟨m, rfl⟩ := Nat.exists_eq_add_of_le (show (todo.map List.length).sum ≤ n by omega)
    exact claim_soakAll hS o todo hT hK hc
  | ask x k ih =>
    cases x with
    | inl d =>
      obtain ⟨q, rfl, hp⟩ := hp
      obtain ⟨n, rfl⟩ := Nat.exists_eq_add_of_le' (show 1 ≤ n by omega)
      cases d with
      | fwd u x =>
        refine claim_fwd hS hT hK fun y T' K' hs hT' hK' _ hc' => ih _ (hp _) todo (by omega) hT' hK' fun k hk => ?_
        rcases hc' k hk with h | h
        · rcases hc k h with ⟨e, he, h⟩ | h
          · exact .inl ⟨e, hs he, h⟩
          · exact .inr h
        · exact .inl h
      | bwd u y =>
        refine claim_bwd hS hT hK fun x T' hs hT' hK' => ih _ (hp _) todo (by omega) hT' hK' fun k hk => ?_
        rcases hc k hk with ⟨e, he, h⟩ | h
        · exact .inl ⟨e, hs he, h⟩
        · exact .inr h
    | inr z =>
      obtain ⟨a, rfl, hp⟩ := hp
      refine claim_ask z (pts z) (hG z) _ n T K fun K' v h1 h2 => ih _ (hp _) (full z :: todo) ?_ hT ?_ ?_
      · have := hℓ z
        rw [List.map_cons, List.sum_cons]
        rw [Nat.add_mul] at hn
        omega
      · exact fun e he y h => h1 (hK e he y h)
      · intro k hk
        rcases h2 k hk with h | h
        · rcases hc k h with h | ⟨bs, h, h3⟩
          · exact .inl h
          · exact .inr ⟨bs, List.mem_cons_of_mem _ h, h3⟩
        · exact .inr ⟨full z, List.mem_cons_self .., hpts z _ h⟩

/-! ## The added questions change nothing -/

omit [Fintype X] [Fintype D] [Fintype R] [Fintype Y] [DecidableEq Y] in
theorem simulated_soakTo (H : Y → D) (ans : Z → A) (cont : Prog (Dir Unit X ⊕ Z) (X ⊕ A) O) (o : O)
    (h : ∀ cs T, S.simulated H ans cont cs T = o) (bs : List B) (x : X) (cs : List X) (T : List (Entry B X)) :
    S.simulated H ans (soakTo S cont bs x) cs T = o := by
  induction bs generalizing x cs T with
  | nil => exact h cs T
  | cons b bs ih => exact ih _ _ _

omit [Fintype X] [Fintype D] [Fintype R] [Fintype Y] [DecidableEq Y] in
theorem simulated_extend (H : Y → D) (ans : Z → A) (full : Z → List B) (p : Prog (Dir Unit X ⊕ Z) (X ⊕ A) O) (todo : List (List B))
    (cs : List X) (T : List (Entry B X)) : S.simulated H ans (extend S full p todo) cs T = S.simulated H ans p cs T := by
  induction p generalizing todo cs T with
  | ret o =>
    have h : ∀ todo cs T, S.simulated H ans (soakAll S (.ret o : Prog (Dir Unit X ⊕ Z) (X ⊕ A) O) todo) cs T = o := by
      intro todo
      induction todo with
      | nil => exact fun cs T => rfl
      | cons bs todo ih => exact fun cs T => simulated_soakTo H ans _ o ih bs _ cs T
    exact h todo cs T
  | ask x k ih =>
    cases x with
    | inl d => exact ih _ _ _ _
    | inr z => exact ih _ _ _ _

omit [DecidableEq I] [DecidableEq X] [Fintype X] [Fintype D] [Fintype R] [Fintype Y] [DecidableEq Y] in
theorem run_extend (full : Z → List B) (π : Equiv.Perm X) (p : Prog (Dir Unit X ⊕ Z) (X ⊕ A) O) (todo : List (List B)) :
    (extend S full p todo).run (spongeEv S G π) = p.run (spongeEv S G π) := by
  induction p generalizing todo with
  | ret o =>
    have h1 : ∀ (cont : Prog (Dir Unit X ⊕ Z) (X ⊕ A) O) bs x, cont.run (spongeEv S G π) = o →
        (soakTo S cont bs x).run (spongeEv S G π) = o := by
      intro cont bs
      induction bs with
      | nil => exact fun x h => h
      | cons b bs ih => exact fun x h => ih _ h
    have h : ∀ todo, (soakAll S (.ret o : Prog (Dir Unit X ⊕ Z) (X ⊕ A) O) todo).run (spongeEv S G π) = o := by
      intro todo
      induction todo with
      | nil => rfl
      | cons bs todo ih => exact h1 _ bs _ ih
    exact h todo
  | ask x k ih =>
    cases x with
    | inl d => exact ih _ _
    | inr z => exact ih _ _

omit [DecidableEq I] [DecidableEq X] [Fintype X] [Fintype D] [Fintype R] [Fintype Y] [DecidableEq Y] in
theorem counts_more {Q : Type} {p : Prog (Dir Unit X ⊕ Z) Q O} {q n q' : Nat} (hp : p.Counts q n) (h : q ≤ q') : p.Counts q' n := by
  induction p generalizing q n q' with
  | ret o => trivial
  | ask x k ih =>
    cases x with
    | inl d =>
      obtain ⟨q, rfl, hp⟩ := hp
      exact ⟨q' - 1, by omega, fun r => ih r (hp r) (by omega)⟩
    | inr z =>
      obtain ⟨n, rfl, hp⟩ := hp
      exact ⟨n, rfl, fun r => ih r (hp r) h⟩

omit [DecidableEq I] [DecidableEq X] [Fintype X] [Fintype D] [Fintype R] [Fintype Y] [DecidableEq Y] in
theorem counts_extend {full : Z → List B} {ℓ : Nat} (hℓ : ∀ z, (full z).length ≤ ℓ) {p : Prog (Dir Unit X ⊕ Z) (X ⊕ A) O} {q a : Nat}
    (hp : p.Counts q a) (todo : List (List B)) : (extend S full p todo).Counts (q + a * ℓ + (todo.map List.length).sum) a := by
  induction p generalizing q a todo with
  | ret o =>
    have h1 : ∀ (cont : Prog (Dir Unit X ⊕ Z) (X ⊕ A) O) bs x m, cont.Counts m a → (soakTo S cont bs x).Counts (bs.length + m) a := by
      intro cont bs
      induction bs with
      | nil => exact fun x m h => by rw [List.length_nil, Nat.zero_add]; exact h
      | cons b bs ih =>
        refine fun x m h => ⟨bs.length + m, by rw [List.length_cons]; omega, fun r => ?_⟩
        cases r with
        | inl y => exact ih y m h
        | inr v => exact counts_more h (by omega)
    have h : ∀ todo, (soakAll S (.ret o : Prog (Dir Unit X ⊕ Z) (X ⊕ A) O) todo).Counts (todo.map List.length).sum a := by
      intro todo
      induction todo with
      | nil => trivial
      | cons bs todo ih => rw [List.map_cons, List.sum_cons]; exact h1 _ bs _ _ ih
    exact counts_more (h todo) (by omega)
  | ask x k ih =>
    cases x with
    | inl d =>
      obtain ⟨q, rfl, hp⟩ := hp
      exact ⟨q + a * ℓ + (todo.map List.length).sum, by omega, fun r => ih r (hp r) todo⟩
    | inr z =>
      obtain ⟨a, rfl, hp⟩ := hp
      refine ⟨a, rfl, fun r => counts_more (ih r (hp r) (full z :: todo)) ?_⟩
      have := hℓ z
      rw [List.map_cons, List.sum_cons, Nat.add_mul]
      omega

/-! ## Inner parts rarely repeat -/

omit [DecidableEq X] [Fintype Y] [DecidableEq Y] in
theorem share_invent {ε : ℚ} (hε : ∀ d v, share (fun r : R => S.inner (S.split.symm (d, r)) = v) ≤ ε) (H : Y → D) (T : List (Entry B X))
    (x : X) (v : I) : share (fun c => S.inner (S.invent H T x c) = v) ≤ ε := by
  have hD : Nonempty D := ⟨(S.split S.start).1⟩
  have h0 : 0 ≤ ε := (share_nonneg _).trans (hε (S.split S.start).1 v)
  cases hr : (S.route T x).bind S.point with
  | none =>
    have e : ∀ c, S.invent H T x c = c := fun c => by simp only [invent, hr]
    simp only [e]
    rw [← share_equiv S.split.symm (fun c => S.inner c = v)]
    exact share_prod_le h0 fun d => hε d v
  | some y =>
    have e : ∀ c, S.invent H T x c = S.split.symm (H y, (S.split c).2) := fun c => by simp only [invent, hr]
    simp only [e]
    rw [share_equiv S.split (fun u : D × R => S.inner (S.split.symm (H y, u.2)) = v),
      share_snd fun r => S.inner (S.split.symm (H y, r)) = v]
    exact hε (H y) v

omit [DecidableEq I] [DecidableEq X] [Fintype Y] [DecidableEq Y] in
theorem share_coin {ε : ℚ} (hε : ∀ d v, share (fun r : R => S.inner (S.split.symm (d, r)) = v) ≤ ε) (v : I) :
    share (fun c => S.inner c = v) ≤ ε := by
  have h0 : 0 ≤ ε := (share_nonneg _).trans (hε (S.split S.start).1 v)
  rw [← share_equiv S.split.symm (fun c => S.inner c = v)]
  exact share_prod_le h0 fun d => hε d v

omit [DecidableEq I] [DecidableEq X] [Fintype D] [Fintype R] [Fintype Y] [DecidableEq Y] in
theorem share_stale {ε : ℚ} (f : X → X) (hf : ∀ v, share (fun c => S.inner (f c) = v) ≤ ε) (T : List (Entry B X)) (q : X) :
    share (fun c => ¬ NewInner S T q (f c)) ≤ (2 * T.length + 2) * ε := by
  let L : List I := S.inner S.start :: S.inner q :: ((T.map fun e => S.inner e.x) ++ T.map fun e => S.inner e.y)
  refine (share_mono (Q := fun c => ∃ v ∈ L, S.inner (f c) = v) fun c hc => ?_).trans
    ((share_exists_mem L (P := fun v c => S.inner (f c) = v) hf).trans (le_of_eq ?_))
  · by_contra hn
    refine hc ⟨fun h => hn ⟨_, List.mem_cons_self .., h⟩, fun h => hn ⟨_, List.mem_cons_of_mem _ (List.mem_cons_self ..), h⟩, fun e he => ⟨fun h => hn ⟨_, ?_, h⟩, fun h => hn ⟨_, ?_, h⟩⟩⟩
    · exact List.mem_cons_of_mem _ (List.mem_cons_of_mem _ (List.mem_append_left _ (List.mem_map.mpr ⟨e, he, rfl⟩)))
    · exact List.mem_cons_of_mem _ (List.mem_cons_of_mem _ (List.mem_append_right _ (List.mem_map.mpr ⟨e, he, rfl⟩)))
  · simp only [L, List.length_cons, List.length_append, List.length_map]
    push_cast
    ring

theorem share_clear {ε : ℚ} (hε : ∀ d v, share (fun r : R => S.inner (S.split.symm (d, r)) = v) ≤ ε) (H : Y → D) (T : List (Entry B X))
    (d : Dir Unit X) : share (fun c => ¬ Clear S T d (S.simulate H T c d).1) ≤ (2 * T.length + 2) * ε := by
  cases d with
  | fwd u x =>
    refine (share_mono fun c hc => ?_).trans (share_stale (S.invent H T x) (share_invent hε H T x) T x)
    intro hf
    refine hc fun hx => ?_
    have hnone : (T.find? fun e => e.x = x) = none := List.find?_eq_none.mpr fun e he => by simpa using hx e he
    simp only [simulate, hnone]
    exact hf
  | bwd u y =>
    refine (share_mono fun c hc => ?_).trans (share_stale id (share_coin hε) T y)
    intro hf
    refine hc fun hy => ?_
    have hnone : (T.find? fun e => e.y = y) = none := List.find?_eq_none.mpr fun e he => by simpa using hy e he
    simp only [simulate, hnone]
    exact hf

omit [Fintype X] [Fintype D] [Fintype R] [Fintype Y] [DecidableEq Y] in
theorem length_simulate (H : Y → D) (T : List (Entry B X)) (c : X) (d : Dir Unit X) : (S.simulate H T c d).2.length ≤ T.length + 1 := by
  cases d with
  | fwd u x =>
    rw [simulate]
    split
    · exact Nat.le_succ _
    · exact Nat.le_refl _
  | bwd u y =>
    rw [simulate]
    split
    · exact Nat.le_succ _
    · exact Nat.le_refl _

/-- Random states, one after the other. -/
def coinsEquiv (X : Type) (n : Nat) : X × (Fin n → X) ≃ (Fin (n + 1) → X) where
  toFun ω := Fin.cons ω.1 ω.2
  invFun ω := (ω 0, Fin.tail ω)
  left_inv ω := by simp
  right_inv ω := by simp

theorem share_bad {ε : ℚ} (hε : ∀ d v, share (fun r : R => S.inner (S.split.symm (d, r)) = v) ≤ ε) (H : Y → D) (ans : Z → A)
    {p : Prog (Dir Unit X ⊕ Z) (X ⊕ A) O} {n a : Nat} (hp : p.Counts n a) (T : List (Entry B X)) {t : Nat} (ht : T.length ≤ t) :
    share (fun cs : Fin n → X => ¬ Good S H ans p (List.ofFn cs) T) ≤ ∑ j ∈ Finset.range n, (2 * ((t + j : Nat) : ℚ) + 2) * ε := by
  have h0 : ∀ v : I, 0 ≤ ε := fun v => (share_nonneg _).trans (hε (S.split S.start).1 v)
  have h0 := h0 (S.inner S.start)
  induction p generalizing n a T t with
  | ret o =>
    refine (share_false fun cs h => h trivial).le.trans (Finset.sum_nonneg fun j _ => by positivity)
  | ask x k ih =>
    cases x with
    | inl d =>
      obtain ⟨n, rfl, hp⟩ := hp
      have hX : Nonempty X := ⟨S.start⟩
      have hA : share (fun ω : X × (Fin n → X) => ¬ Clear S T d (S.simulate H T ω.1 d).1) ≤ (2 * ((t + 0 : Nat) : ℚ) + 2) * ε := by
        rw [share_fst fun c => ¬ Clear S T d (S.simulate H T c d).1]
        refine (share_clear hε H T d).trans (mul_le_mul_of_nonneg_right ?_ h0)
        have : (T.length : ℚ) ≤ t := Nat.cast_le.mpr ht
        push_cast
        linarith
      have hB : share (fun ω : X × (Fin n → X) => ¬ Good S H ans (k (.inl (S.simulate H T ω.1 d).1)) (List.ofFn ω.2)
          (S.simulate H T ω.1 d).2) ≤ ∑ j ∈ Finset.range n, (2 * ((t + (j + 1) : Nat) : ℚ) + 2) * ε := by
        refine share_prod_le (Finset.sum_nonneg fun j _ => by positivity) fun c => ?_
        have hl : (S.simulate H T c d).2.length ≤ t + 1 := (length_simulate H T c d).trans (Nat.succ_le_succ ht)
        have hi := ih (.inl (S.simulate H T c d).1) (hp (.inl (S.simulate H T c d).1)) (S.simulate H T c d).2 hl
        refine hi.trans (le_of_eq ?_)
        refine Finset.sum_congr rfl fun j _ => ?_
        rw [Nat.add_assoc, Nat.add_comm 1 j]
      have hC : share (fun cs : Fin (n + 1) → X => ¬ Good S H ans (.ask (.inl d) k) (List.ofFn cs) T) ≤
          share (fun ω : X × (Fin n → X) => ¬ Clear S T d (S.simulate H T ω.1 d).1) +
          share (fun ω : X × (Fin n → X) => ¬ Good S H ans (k (.inl (S.simulate H T ω.1 d).1)) (List.ofFn ω.2) (S.simulate H T ω.1 d).2) := by
        rw [← share_equiv (coinsEquiv X n)]
        refine share_le_add fun ω hω => ?_
        simp only [coinsEquiv, Equiv.coe_fn_mk] at hω
        rw [List.ofFn_cons, Good, List.headD_cons, List.tail_cons, not_and_or] at hω
        exact hω
      rw [Finset.sum_range_succ']
      linarith
    | inr z =>
      obtain ⟨a, rfl, hp⟩ := hp
      exact ih _ (hp _) T ht

theorem sum_bad (n : Nat) (ε : ℚ) : ∑ j ∈ Finset.range n, (2 * ((0 + j : Nat) : ℚ) + 2) * ε = n * (n + 1) * ε := by
  induction n with
  | zero => simp
  | succ n ih =>
    rw [Finset.sum_range_succ, ih]
    push_cast
    ring

/-! ## Both together -/

variable (S G acc)

/-- What is accepted with a random function and the simulator is accepted as often with a sponge and a random permutation, up to
`n (n + 1) ε`. -/
theorem simulator_le (hS : Lawful S) {full : Z → List B} {pts : Z → List Y} {ℓ : Nat} (hℓ : ∀ z, (full z).length ≤ ℓ)
    (hpts : ∀ z, ∀ y ∈ pts z, S.path y <+: full z) (hG : ∀ z, ∀ H H' : Y → D, (∀ y ∈ pts z, H y = H' y) → G H z = G H' z)
    {ε : ℚ} (hε : ∀ d v, share (fun r : R => S.inner (S.split.symm (d, r)) = v) ≤ ε)
    {p : Prog (Dir Unit X ⊕ Z) (X ⊕ A) O} {q a n : Nat} (hp : p.Counts q a) (hn : n = q + a * ℓ) :
    share (fun ω : (Y → D) × (Fin n → X) => acc (S.simulated ω.1 (G ω.1) p (List.ofFn ω.2) [])) ≤
      share (fun π : Equiv.Perm X => acc (p.run (spongeEv S G π))) + n * (n + 1) * ε := by
  have h0 : 0 ≤ ε := (share_nonneg _).trans (hε (S.split S.start).1 (S.inner S.start))
  have h1 := claim_extend (G := G) (acc := acc) hS hℓ hpts hG hp [] (n := n) (T := []) (K := []) (by simp [hn]) sound_nil
    (fun e he => absurd he List.not_mem_nil) (fun k hk => absurd hk List.not_mem_nil)
  rw [Claim, weight, one_mul] at h1
  have hc : (extend S full p []).Counts n a := by
    have := counts_extend (S := S) hℓ hp []
    rw [hn]
    exact this
  refine (share_le_add (Q := fun ω : (Y → D) × (Fin n → X) => (∀ k ∈ ([] : List (Y × D)), ω.1 k.1 = k.2) ∧
      IdealEv S G acc (extend S full p []) [] ω.1 (List.ofFn ω.2))
    (R := fun ω : (Y → D) × (Fin n → X) => ¬ Good S ω.1 (G ω.1) (extend S full p []) (List.ofFn ω.2) []) fun ω hω => ?_).trans
    (add_le_add (h1.trans (share_mono fun π hπ => ?_)) ?_)
  · by_cases hg : Good S ω.1 (G ω.1) (extend S full p []) (List.ofFn ω.2) []
    · exact .inl ⟨fun k hk => absurd hk List.not_mem_nil, hg, by rw [simulated_extend]; exact hω⟩
    · exact .inr hg
  · have := hπ.2.2
    rwa [run_extend] at this
  · refine share_prod_le (by positivity) fun H => ?_
    exact (share_bad hε H (G H) hc [] (t := 0) (Nat.le_refl 0)).trans (le_of_eq (sum_bad n ε))

/-- A sponge with a random permutation, and a random function with the simulator, are accepted equally often. -/
theorem simulator_abs (hS : Lawful S) {full : Z → List B} {pts : Z → List Y} {ℓ : Nat} (hℓ : ∀ z, (full z).length ≤ ℓ)
    (hpts : ∀ z, ∀ y ∈ pts z, S.path y <+: full z) (hG : ∀ z, ∀ H H' : Y → D, (∀ y ∈ pts z, H y = H' y) → G H z = G H' z)
    {ε : ℚ} (hε : ∀ d v, share (fun r : R => S.inner (S.split.symm (d, r)) = v) ≤ ε)
    {p : Prog (Dir Unit X ⊕ Z) (X ⊕ A) O} {q a n : Nat} (hp : p.Counts q a) (hn : n = q + a * ℓ) :
    |share (fun π : Equiv.Perm X => acc (p.run (spongeEv S G π))) -
      share (fun ω : (Y → D) × (Fin n → X) => acc (S.simulated ω.1 (G ω.1) p (List.ofFn ω.2) []))| ≤ n * (n + 1) * ε := by
  have hX : Nonempty X := ⟨S.start⟩
  have hD : Nonempty D := ⟨(S.split S.start).1⟩
  have h1 := simulator_le S G acc hS hℓ hpts hG hε hp hn
  have h2 := simulator_le S G (fun o => ¬ acc o) hS hℓ hpts hG hε hp hn
  rw [share_sub, share_sub] at h2
  rw [abs_le]
  constructor <;> linarith

end Hacspec.Ideal
