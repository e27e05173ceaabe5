import Mathlib.GroupTheory.Perm.Basic
import Mathlib.Algebra.Group.End
import Verif.Lemmas.Ideal.Indifferent
import Verif.Lemmas.Ideal.Nested
import Verif.Lemmas.Ideal.Keyed

/-! # A nested function of an input that is hard to guess, with a block cipher that can be asked -/

namespace Hacspec.Ideal

open Spec Finset

section

variable {Ω : Type} [Fintype Ω]

theorem share_near {P Q R : Ω → Prop} (h : ∀ ω, ¬ R ω → (P ω ↔ Q ω)) : |share P - share Q| ≤ share R := by
  have h1 := share_le_add (P := P) (Q := Q) (R := R) fun ω hp => by
    by_cases hr : R ω
    · exact .inr hr
    · exact .inl ((h ω hr).mp hp)
  have h2 := share_le_add (P := Q) (Q := P) (R := R) fun ω hp => by
    by_cases hr : R ω
    · exact .inr hr
    · exact .inl ((h ω hr).mpr hp)
  rw [abs_le]
  constructor <;> linarith

/-- One of the elements of a set, each of which is excluded for few possibilities. -/
theorem share_mem_finset {X : Type} {V : Finset X} {f : Ω → X} {ε : ℚ} (hε : ∀ x, share (fun ω => f ω = x) ≤ ε) :
    share (fun ω => f ω ∈ V) ≤ V.card * ε := by
  have h := share_exists_mem V.toList (P := fun x ω => f ω = x) hε
  rw [Finset.length_toList] at h
  refine le_trans (le_of_eq (share_congr fun ω => ?_)) h
  constructor
  · intro h
    exact ⟨_, Finset.mem_toList.mpr h, rfl⟩
  · rintro ⟨x, h, e⟩
    rw [e]
    exact Finset.mem_toList.mp h

end

section

variable {K S O : Type}

/-- The keys that are asked about. -/
def keysOf [DecidableEq K] (E : K → Equiv.Perm S) (p : Prog (Dir K S) S O) : Finset K := ((askedOf E p).map Prod.fst).toFinset

theorem keysOf_ask [DecidableEq K] (E : K → Equiv.Perm S) (d : Dir K S) (k : S → Prog (Dir K S) S O) :
    keysOf E (.ask d k) = insert (triple (d, d.answer E)).1 (keysOf E (k (d.answer E))) := by
  rw [keysOf, askedOf, List.map_cons, List.toFinset_cons]
  rfl

theorem card_keysOf [DecidableEq K] (E : K → Equiv.Perm S) {p : Prog (Dir K S) S O} {n : Nat} (h : p.Within n) :
    (keysOf E p).card ≤ n :=
  (List.toFinset_card_le _).trans (by rw [List.length_map]; exact length_askedOf E h)

theorem answer_agree {E E' : K → Equiv.Perm S} {d : Dir K S} (h : E' (triple (d, d.answer E)).1 = E (triple (d, d.answer E)).1) :
    d.answer E' = d.answer E := by
  cases d with
  | fwd k x => exact congrArg (fun π : Equiv.Perm S => π x) h
  | bwd k y => exact congrArg (fun π : Equiv.Perm S => π.symm y) h

theorem run_agree [DecidableEq K] {E E' : K → Equiv.Perm S} {p : Prog (Dir K S) S O} (h : ∀ k ∈ keysOf E p, E' k = E k) :
    p.run (Dir.answer E') = p.run (Dir.answer E) ∧ keysOf E' p = keysOf E p := by
  induction p with
  | ret o => exact ⟨rfl, rfl⟩
  | ask d k ih =>
    rw [keysOf_ask] at h
    have hd := answer_agree (h _ (Finset.mem_insert_self _ _))
    have := ih (d.answer E) fun k hk => h k (Finset.mem_insert_of_mem hk)
    rw [Prog.run, Prog.run, keysOf_ask, keysOf_ask, hd, this.1, this.2]
    exact ⟨rfl, rfl⟩

end

section

variable {K S Ω : Type} (op dv : S → S → S) (b1 b3 : K) (iv : S) (c : Ω → K) (o : S → K)

/-- The state after the block of the inner key. -/
def exIn (E : K → Equiv.Perm S) : S := op (E b1 iv) iv

/-- The state after the input. -/
def exMid (E : K → Equiv.Perm S) (w : Ω) : S := op (E (c w) (exIn op b1 iv E)) (exIn op b1 iv E)

/-- The result. -/
def exOut (E : K → Equiv.Perm S) (w : Ω) : S :=
  op (E (o (exMid op b1 iv c E w)) (exIn op b3 iv E)) (exIn op b3 iv E)

/-- The last block is none of the others. -/
def exFresh (E : K → Equiv.Perm S) (w : Ω) : Prop :=
  o (exMid op b1 iv c E w) ≠ b1 ∧ o (exMid op b1 iv c E w) ≠ b3 ∧ o (exMid op b1 iv c E w) ≠ c w

variable [DecidableEq K] [DecidableEq S]

/-- The cipher with another value at one point. -/
def turned (E : K → Equiv.Perm S) (b : K) (s v : S) : K → Equiv.Perm S :=
  Function.update E b ((E b).trans (Equiv.swap (E b s) v))

theorem turned_ne (E : K → Equiv.Perm S) {b k : K} (s v : S) (h : k ≠ b) : turned E b s v k = E k := Function.update_of_ne h _ _

theorem turned_at (E : K → Equiv.Perm S) (b : K) (s v : S) : turned E b s v b s = v := by
  rw [turned, Function.update_self, Equiv.trans_apply, Equiv.swap_apply_left]

theorem turned_back (E : K → Equiv.Perm S) (b : K) (s v : S) : turned (turned E b s v) b s (E b s) = E := by
  funext k
  by_cases h : k = b
  · subst h
    rw [turned, Function.update_self, turned_at, turned, Function.update_self, Equiv.trans_assoc, Equiv.swap_comm]
    ext x
    simp
  · rw [turned_ne _ _ _ h, turned_ne _ _ _ h]

open Classical in
/-- Exchange the result with an independent value. -/
noncomputable def exSwap (x : ((K → Equiv.Perm S) × Ω) × S) : ((K → Equiv.Perm S) × Ω) × S :=
  if exFresh op b1 b3 iv c o x.1.1 x.1.2 then
    ((turned x.1.1 (o (exMid op b1 iv c x.1.1 x.1.2)) (exIn op b3 iv x.1.1) (dv x.2 (exIn op b3 iv x.1.1)), x.1.2),
      exOut op b1 b3 iv c o x.1.1 x.1.2)
  else x

variable {op dv b1 b3 iv c o}

theorem exSwap_states {E : K → Equiv.Perm S} {w : Ω} (h : exFresh op b1 b3 iv c o E w) (v : S) :
    let E' := turned E (o (exMid op b1 iv c E w)) (exIn op b3 iv E) v
    exIn op b1 iv E' = exIn op b1 iv E ∧ exIn op b3 iv E' = exIn op b3 iv E ∧ exMid op b1 iv c E' w = exMid op b1 iv c E w := by
  intro E'
  have h1 : exIn op b1 iv E' = exIn op b1 iv E := by
    rw [exIn, exIn, show E' b1 = E b1 from turned_ne _ _ _ h.1.symm]
  refine ⟨h1, by rw [exIn, exIn, show E' b3 = E b3 from turned_ne _ _ _ h.2.1.symm], ?_⟩
  rw [exMid, h1, show E' (c w) = E (c w) from turned_ne _ _ _ h.2.2.symm]
  rfl

theorem exSwap_out (hdv : ∀ v x, op (dv v x) x = v) {E : K → Equiv.Perm S} {w : Ω} (h : exFresh op b1 b3 iv c o E w) (r : S) :
    exOut op b1 b3 iv c o (turned E (o (exMid op b1 iv c E w)) (exIn op b3 iv E) (dv r (exIn op b3 iv E))) w = r := by
  obtain ⟨-, h3, hm⟩ := exSwap_states h (dv r (exIn op b3 iv E))
  rw [exOut, h3, hm, turned_at, hdv]

theorem exSwap_invol (hdv : ∀ v x, op (dv v x) x = v) (hop : ∀ x y y', op y x = op y' x → y = y') :
    Function.Involutive (exSwap op dv b1 b3 iv c o) := by
  rintro ⟨⟨E, w⟩, r⟩
  by_cases h : exFresh op b1 b3 iv c o E w
  · obtain ⟨h1, h3, hm⟩ := exSwap_states h (dv r (exIn op b3 iv E))
    have hout := exSwap_out hdv h r
    have h' : exFresh op b1 b3 iv c o (turned E (o (exMid op b1 iv c E w)) (exIn op b3 iv E) (dv r (exIn op b3 iv E))) w := by
      rw [exFresh, hm]
      exact h
    have e : exSwap op dv b1 b3 iv c o ((E, w), r) = ((turned E (o (exMid op b1 iv c E w)) (exIn op b3 iv E) (dv r (exIn op b3 iv E)), w),
      exOut op b1 b3 iv c o E w) := if_pos h
    rw [e, exSwap, if_pos h']
    simp only [hout, h3, hm]
    have ed : dv (exOut op b1 b3 iv c o E w) (exIn op b3 iv E) = E (o (exMid op b1 iv c E w)) (exIn op b3 iv E) :=
      hop _ _ _ (by rw [hdv]; rfl)
    rw [ed, turned_back]
  · have e : exSwap op dv b1 b3 iv c o ((E, w), r) = ((E, w), r) := if_neg h
    rw [e, e]

variable [Fintype K] [Fintype S] [Fintype Ω] {O : Type}

theorem share_perm_at (x y : S) : share (fun π : Equiv.Perm S => π x = y) ≤ 1 / Fintype.card S := by
  have hS : (0 : ℚ) < Fintype.card S := Nat.cast_pos.mpr (Fintype.card_pos_iff.mpr ⟨x⟩)
  have e : ∀ y', share (fun π : Equiv.Perm S => π x = y') = share (fun π : Equiv.Perm S => π x = y) := by
    intro y'
    rw [← share_equiv (Equiv.mulLeft (Equiv.swap y y')) (fun π : Equiv.Perm S => π x = y)]
    refine share_congr fun π => ?_
    simp only [Equiv.coe_mulLeft, Equiv.Perm.coe_mul, Function.comp_apply]
    rw [Equiv.swap_apply_eq_iff, Equiv.swap_apply_left]
  have h1 := share_split (fun π : Equiv.Perm S => π x) (fun _ => True)
  simp only [and_true, e] at h1
  rw [Finset.sum_const, Finset.card_univ, nsmul_eq_mul, share_const, if_pos trivial] at h1
  rw [le_div_iff₀ hS, mul_comm, ← h1]

/-- The permutation for one key may be chosen last. -/
theorem share_choose_last (k : K) (P : (K → Equiv.Perm S) → Prop) :
    share P = share fun x : (K → Equiv.Perm S) × Equiv.Perm S => P (Function.update x.1 k x.2) := by
  refine (share_regular (fun x : (K → Equiv.Perm S) × Equiv.Perm S => Function.update x.1 k x.2) (fun x => x.1 k) ?_
    (Fintype.card_prod _ _) P).symm
  rintro ⟨E, π⟩ ⟨E', π'⟩ h
  simp only [Prod.mk.injEq] at h
  have hπ : π = π' := by
    have := congrFun h.1 k
    rwa [Function.update_self, Function.update_self] at this
  refine Prod.ext (funext fun j => ?_) hπ
  by_cases hj : j = k
  · rw [hj]; exact h.2
  · have := congrFun h.1 j
    rwa [Function.update_of_ne hj, Function.update_of_ne hj] at this

omit [Fintype Ω] in
/-- Whoever did not ask for the block of the input does not ask for the last one. -/
theorem share_mid_le (hop : ∀ x y y', op y x = op y' x → y = y') (ho : Function.Injective o) {p : Prog (Dir K S) S O} {T : Nat}
    (hp : p.Within T) (w : Ω) (hw : c w ≠ b1) :
    share (fun E : K → Equiv.Perm S => c w ∉ keysOf E p ∧ (o (exMid op b1 iv c E w) ∈ keysOf E p ∨ ¬ exFresh op b1 b3 iv c o E w)) ≤
      (T + 3) / Fintype.card S := by
  have hS : (0 : ℚ) < Fintype.card S := Nat.cast_pos.mpr (Fintype.card_pos_iff.mpr ⟨iv⟩)
  rw [share_choose_last (c w)]
  refine share_prod_le (div_nonneg (by positivity) hS.le) fun E => ?_
  by_cases hE : ∃ π, c w ∉ keysOf (Function.update E (c w) π) p
  · obtain ⟨π₀, hπ₀⟩ := hE
    have hk : ∀ π, keysOf (Function.update E (c w) π) p = keysOf (Function.update E (c w) π₀) p := fun π =>
      (run_agree fun k hk => by
        have hne : k ≠ c w := fun e => hπ₀ (e ▸ hk)
        rw [Function.update_of_ne hne, Function.update_of_ne hne]).2
    have hin : ∀ π, exIn op b1 iv (Function.update E (c w) π) = exIn op b1 iv E := fun π => by
      rw [exIn, exIn, Function.update_of_ne hw.symm]
    have hmid : ∀ π, exMid op b1 iv c (Function.update E (c w) π) w = op (π (exIn op b1 iv E)) (exIn op b1 iv E) := fun π => by
      rw [exMid, hin, Function.update_self]
    have h1 : ∀ k, share (fun π : Equiv.Perm S => o (op (π (exIn op b1 iv E)) (exIn op b1 iv E)) = k) ≤ 1 / Fintype.card S := by
      intro k
      by_cases hy : ∃ y, o (op y (exIn op b1 iv E)) = k
      · obtain ⟨y, rfl⟩ := hy
        exact (share_mono fun π h => hop _ _ _ (ho h)).trans (share_perm_at (exIn op b1 iv E) y)
      · refine le_trans (le_of_eq (share_false fun π h => hy ⟨_, h⟩)) (by positivity)
    have h2 := share_mem_finset (V := insert b1 (insert b3 (insert (c w) (keysOf (Function.update E (c w) π₀) p)))) h1
    have hc := card_keysOf (Function.update E (c w) π₀) hp
    have hc : (insert b1 (insert b3 (insert (c w) (keysOf (Function.update E (c w) π₀) p)))).card ≤ T + 3 := by
      refine (Finset.card_insert_le _ _).trans (Nat.succ_le_succ ((Finset.card_insert_le _ _).trans
        (Nat.succ_le_succ ((Finset.card_insert_le _ _).trans (Nat.succ_le_succ hc)))))
    refine le_trans (share_mono fun π h => ?_) (h2.trans ?_)
    · rw [hk, exFresh, hmid] at h
      simp only [Finset.mem_insert]
      tauto
    · rw [mul_one_div]
      refine div_le_div_of_nonneg_right ?_ hS.le
      exact_mod_cast hc
  · exact le_trans (le_of_eq (share_false fun π h => hE ⟨π, h.1⟩)) (div_nonneg (by positivity) hS.le)

/-- The result for an input that is hard to guess is like a random value, for whoever asks the cipher only. -/
theorem extract_near [Nonempty Ω] (hdv : ∀ v x, op (dv v x) x = v) (hop : ∀ x y y', op y x = op y' x → y = y')
    (ho : Function.Injective o) {ε : ℚ} (hc : ∀ k, share (fun w => c w = k) ≤ ε) {p : S → Prog (Dir K S) S O} {T : Nat}
    (hp : ∀ r, (p r).Within T) (acc : O → Prop) :
    |share (fun x : (K → Equiv.Perm S) × Ω => acc ((p (exOut op b1 b3 iv c o x.1 x.2)).run (Dir.answer x.1))) -
      share (fun x : (K → Equiv.Perm S) × S => acc ((p x.2).run (Dir.answer x.1)))| ≤ (T + 1) * ε + (T + 3) / Fintype.card S := by
  have hS : (0 : ℚ) < Fintype.card S := Nat.cast_pos.mpr (Fintype.card_pos_iff.mpr ⟨iv⟩)
  have : Nonempty S := ⟨iv⟩
  have hε : 0 ≤ ε := (share_nonneg _).trans (hc b1)
  have e1 : share (fun x : (K → Equiv.Perm S) × Ω => acc ((p (exOut op b1 b3 iv c o x.1 x.2)).run (Dir.answer x.1))) =
      share (fun x : ((K → Equiv.Perm S) × Ω) × S => acc ((p (exOut op b1 b3 iv c o (exSwap op dv b1 b3 iv c o x).1.1
        (exSwap op dv b1 b3 iv c o x).1.2)).run (Dir.answer (exSwap op dv b1 b3 iv c o x).1.1))) := by
    rw [← share_fst (B := S)]
    exact (share_equiv ((exSwap_invol hdv hop).toPerm _) fun x : ((K → Equiv.Perm S) × Ω) × S =>
      acc ((p (exOut op b1 b3 iv c o x.1.1 x.1.2)).run (Dir.answer x.1.1))).symm
  have e2 : share (fun x : (K → Equiv.Perm S) × S => acc ((p x.2).run (Dir.answer x.1))) =
      share (fun x : ((K → Equiv.Perm S) × Ω) × S => acc ((p x.2).run (Dir.answer x.1.1))) := by
    rw [← share_fst (B := Ω)]
    exact (share_equiv (Equiv.mk (fun x : ((K → Equiv.Perm S) × Ω) × S => ((x.1.1, x.2), x.1.2)) (fun x => ((x.1.1, x.2), x.1.2))
      (fun _ => rfl) fun _ => rfl) fun x : ((K → Equiv.Perm S) × S) × Ω => acc ((p x.1.2).run (Dir.answer x.1.1))).symm
  rw [e1, e2]
  refine (share_near (R := fun x : ((K → Equiv.Perm S) × Ω) × S => (c x.1.2 = b1 ∨ c x.1.2 ∈ keysOf x.1.1 (p x.2)) ∨
    (c x.1.2 ≠ b1 ∧ c x.1.2 ∉ keysOf x.1.1 (p x.2) ∧ (o (exMid op b1 iv c x.1.1 x.1.2) ∈ keysOf x.1.1 (p x.2) ∨
      ¬ exFresh op b1 b3 iv c o x.1.1 x.1.2))) ?_).trans ?_
  · rintro ⟨⟨E, w⟩, r⟩ h
    simp only [not_or, not_and, not_not, ne_eq] at h
    obtain ⟨⟨g1, g2⟩, g3⟩ := h
    obtain ⟨g4, g5⟩ := g3 g1 g2
    have e : exSwap op dv b1 b3 iv c o ((E, w), r) = ((turned E (o (exMid op b1 iv c E w)) (exIn op b3 iv E) (dv r (exIn op b3 iv E)), w),
      exOut op b1 b3 iv c o E w) := if_pos g5
    rw [e]
    simp only
    have hr := (run_agree (E := E) (p := p r) (E' := turned E (o (exMid op b1 iv c E w)) (exIn op b3 iv E) (dv r (exIn op b3 iv E)))
      fun k hk => turned_ne _ _ _ fun e => g4 (by rw [← e]; exact hk)).1
    rw [exSwap_out hdv g5, hr]
  · refine (share_or _ _).trans (add_le_add ?_ ?_)
    · have h := share_equiv (Equiv.mk (fun x : ((K → Equiv.Perm S) × Ω) × S => ((x.1.1, x.2), x.1.2)) (fun x => ((x.1.1, x.2), x.1.2))
        (fun _ => rfl) fun _ => rfl) fun x : ((K → Equiv.Perm S) × S) × Ω => c x.2 = b1 ∨ c x.2 ∈ keysOf x.1.1 (p x.1.2)
      refine le_trans (le_of_eq h) (share_prod_le (by positivity) ?_)
      rintro ⟨E, r⟩
      refine le_trans (share_mono fun w h => ?_) ((share_mem_finset (V := insert b1 (keysOf E (p r))) hc).trans ?_)
      · rw [Finset.mem_insert]; exact h
      · refine mul_le_mul_of_nonneg_right ?_ hε
        exact_mod_cast (Finset.card_insert_le _ _).trans (Nat.succ_le_succ (card_keysOf E (hp r)))
    · have h := share_equiv (Equiv.mk (fun x : ((K → Equiv.Perm S) × Ω) × S => ((x.1.2, x.2), x.1.1)) (fun x => ((x.2, x.1.1), x.1.2))
        (fun _ => rfl) fun _ => rfl) fun x : (Ω × S) × (K → Equiv.Perm S) => c x.1.1 ≠ b1 ∧ c x.1.1 ∉ keysOf x.2 (p x.1.2) ∧
          (o (exMid op b1 iv c x.2 x.1.1) ∈ keysOf x.2 (p x.1.2) ∨ ¬ exFresh op b1 b3 iv c o x.2 x.1.1)
      refine le_trans (le_of_eq h) (share_prod_le (div_nonneg (by positivity) hS.le) ?_)
      rintro ⟨w, r⟩
      by_cases hw : c w = b1
      · exact le_trans (le_of_eq (share_false fun E h => h.1 hw)) (div_nonneg (by positivity) hS.le)
      · exact (share_mono fun E h => h.2).trans (share_mid_le hop ho (hp r) w hw)

end

section

variable {B S K Z O : Type} (op : S → S → S) (ki ko : K → B) (iv : S) (ob : S → B) (bl : Z → List B)

/-- The questions that compute the nested function. -/
def nestedProg (k : K) (z : Z) : Prog (Dir B S) S S :=
  .ask (.fwd (ki k) iv) fun y => andThen (walkTo op (bl z) (op y iv)) fun m =>
    .ask (.fwd (ko k) iv) fun u => .ask (.fwd (ob m) (op u iv)) fun v => .ret (op v (op u iv))

theorem run_nestedProg (E : B → Equiv.Perm S) (k : K) (z : Z) :
    (nestedProg op ki ko iv ob bl k z).run (Dir.answer E) = nested op ki ko iv ob bl E k z := by
  rw [nestedProg, Prog.run, run_andThen (fun E : B → Equiv.Perm S => Dir.answer E) E, run_walkTo]
  rfl

theorem nestedProg_within {ℓ : Nat} (hbl : ∀ z, (bl z).length ≤ ℓ) (k : K) (z : Z) :
    (nestedProg op ki ko iv ob bl k z).Within (ℓ + 3) :=
  ⟨ℓ + 2, rfl, fun _ => within_andThen (within_mono (walkTo_within _ _ _) (hbl z)) fun _ => ⟨1, rfl, fun _ => ⟨0, rfl, fun _ => trivial⟩⟩⟩

/-- The same attack that computes the nested function itself. -/
def unnest (k : K) : Prog (Dir B S ⊕ Z) S O → Prog (Dir B S) S O
  | .ret o => .ret o
  | .ask (.inl d) f => .ask d fun s => unnest k (f s)
  | .ask (.inr z) f => andThen (nestedProg op ki ko iv ob bl k z) fun s => unnest k (f s)

theorem run_unnest (E : B → Equiv.Perm S) (k : K) (p : Prog (Dir B S ⊕ Z) S O) :
    (unnest op ki ko iv ob bl k p).run (Dir.answer E) = p.run (evReal op ki ko iv ob bl (E, k)) := by
  induction p with
  | ret o => rfl
  | ask x f ih =>
    cases x with
    | inl d => rw [unnest, Prog.run, ih]; rfl
    | inr z =>
      rw [unnest, run_andThen (fun E : B → Equiv.Perm S => Dir.answer E) E, run_nestedProg, ih]
      rfl

theorem unnest_within {ℓ : Nat} (hbl : ∀ z, (bl z).length ≤ ℓ) (k : K) {p : Prog (Dir B S ⊕ Z) S O} {q a : Nat} (hp : p.Counts q a) :
    (unnest op ki ko iv ob bl k p).Within (q + a * (ℓ + 3)) := by
  induction p generalizing q a with
  | ret o => trivial
  | ask x f ih =>
    cases x with
    | inl d =>
      obtain ⟨q, rfl, h⟩ := hp
      exact ⟨q + a * (ℓ + 3), by omega, fun s => ih s (h s)⟩
    | inr z =>
      obtain ⟨a, rfl, h⟩ := hp
      refine within_mono (within_andThen (nestedProg_within op ki ko iv ob bl hbl k z) fun s => ih s (h s)) ?_
      rw [Nat.succ_mul]
      omega

end

end Hacspec.Ideal
