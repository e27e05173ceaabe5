import Verif.Lemmas.Ideal.DaviesMeyer
import Verif.Lemmas.Ideal.Sampling

/-! # Nested message authentication over a block cipher

The inner and the outer iteration start from states that depend on the key; without the key they look random. -/

namespace Hacspec.Ideal

open Spec Finset

section

variable {B S K Z O : Type} (op : S → S → S)

/-- The last state. -/
def iter (E : B → Equiv.Perm S) : List B → S → S
  | [], s => s
  | b :: bs, s => iter E bs (op (E b s) s)

theorem chained_dm (E : B → Equiv.Perm S) (bs : List B) (s : S) : chained (dm op E) s bs = .ok (iter op E bs s) := by
  induction bs generalizing s with
  | nil => rfl
  | cons b bs ih => rw [chained, dm, bind_ok, ih]; rfl

/-- The questions that compute it. -/
def walkTo : List B → S → Prog (Dir B S) S S
  | [], s => .ret s
  | b :: bs, s => .ask (.fwd b s) fun y => walkTo bs (op y s)

theorem run_walkTo (E : B → Equiv.Perm S) (bs : List B) (s : S) : (walkTo op bs s).run (Dir.answer E) = iter op E bs s := by
  induction bs generalizing s with
  | nil => rfl
  | cons b bs ih => rw [walkTo, Prog.run, ih]; rfl

theorem walkTo_within (bs : List B) (s : S) : (walkTo op bs s).Within bs.length := by
  induction bs generalizing s with
  | nil => trivial
  | cons b bs ih => exact ⟨bs.length, rfl, fun r => ih _⟩

/-- What is asked of the cipher, with the answers. -/
def askedOf (E : B → Equiv.Perm S) : Prog (Dir B S) S O → List (B × S × S)
  | .ret _ => []
  | .ask d k => triple (d, d.answer E) :: askedOf E (k (d.answer E))

theorem askedOf_andThen {P : Type} (E : B → Equiv.Perm S) (p : Prog (Dir B S) S O) (f : O → Prog (Dir B S) S P) :
    askedOf E (andThen p f) = askedOf E p ++ askedOf E (f (p.run (Dir.answer E))) := by
  induction p with
  | ret o => rfl
  | ask d k ih => rw [andThen, askedOf, ih, askedOf, Prog.run]; rfl

theorem length_askedOf (E : B → Equiv.Perm S) {p : Prog (Dir B S) S O} {n : Nat} (h : p.Within n) : (askedOf E p).length ≤ n := by
  induction p generalizing n with
  | ret o => exact Nat.zero_le _
  | ask d k ih =>
    obtain ⟨m, rfl, h⟩ := h
    exact Nat.succ_le_succ (ih _ (h _))

theorem askedOf_trace (E : B → Equiv.Perm S) (p : Prog (Dir B S) S O) (h : List (Dir B S × S)) {t : B × S × S} (ht : t ∈ askedOf E p) :
    t ∈ (trace (allCiphers B S).ev E p h).map triple := by
  induction p generalizing h with
  | ret o => exact absurd ht List.not_mem_nil
  | ask d k ih =>
    rcases List.mem_cons.mp ht with rfl | ht
    · exact List.mem_map_of_mem (f := triple) (subset_trace _ E (k (d.answer E)) _ (List.mem_cons_self ..))
    · exact ih _ _ ht

theorem askedOf_ok (E : B → Equiv.Perm S) (p : Prog (Dir B S) S O) {t : B × S × S} (ht : t ∈ askedOf E p) : E t.1 t.2.1 = t.2.2 := by
  induction p with
  | ret o => exact absurd ht List.not_mem_nil
  | ask d k ih =>
    rcases List.mem_cons.mp ht with rfl | ht
    · cases d with
      | fwd b x => rfl
      | bwd b y => exact (E b).apply_symm_apply y
    · exact ih _ ht

theorem calls_walkTo (E : B → Equiv.Perm S) (bs : List B) (s : S) (c : B × S) (hc : c ∈ callsFrom (dm op E) s bs) :
    (c.1, c.2, E c.1 c.2) ∈ askedOf E (walkTo op bs s) := by
  induction bs generalizing s with
  | nil => exact absurd hc List.not_mem_nil
  | cons b bs ih =>
    rw [callsFrom, dm] at hc
    rcases List.mem_cons.mp hc with rfl | hc
    · exact List.mem_cons_self ..
    · exact List.mem_cons_of_mem _ (ih _ hc)

/-! ## The three games -/

variable (ki ko : K → B) (iv : S) (ob : S → B) (bl : Z → List B)

/-- Nested authentication with a key. -/
def nested (E : B → Equiv.Perm S) (k : K) (z : Z) : S :=
  op (E (ob (iter op E (bl z) (op (E (ki k) iv) iv))) (op (E (ko k) iv) iv)) (op (E (ko k) iv) iv)

/-- Cipher and authentication are asked. -/
def evReal (ω : (B → Equiv.Perm S) × K) : Dir B S ⊕ Z → S
  | .inl d => d.answer ω.1
  | .inr z => nested op ki ko iv ob bl ω.1 ω.2 z

/-- The first states and the outer function are chosen at random. -/
def evHidden (E : B → Equiv.Perm S) (si : S) (g : B → S) : Dir B S ⊕ Z → S
  | .inl d => d.answer E
  | .inr z => g (ob (iter op E (bl z) si))

/-- A random function of the message. -/
def evIdeal (ω : (B → Equiv.Perm S) × (Z → S)) : Dir B S ⊕ Z → S
  | .inl d => d.answer ω.1
  | .inr z => ω.2 z

/-- The questions to the cipher in the second game. -/
def compile (si : S) (g : B → S) : Prog (Dir B S ⊕ Z) S O → Prog (Dir B S) S O
  | .ret o => .ret o
  | .ask (.inl d) k => .ask d fun r => compile si g (k r)
  | .ask (.inr z) k => andThen (walkTo op (bl z) si) fun t => compile si g (k (g (ob t)))

/-- The outer blocks in the second game. -/
def outers (E : B → Equiv.Perm S) (si : S) (g : B → S) : Prog (Dir B S ⊕ Z) S O → List B
  | .ret _ => []
  | .ask (.inl d) k => outers E si g (k (d.answer E))
  | .ask (.inr z) k => ob (iter op E (bl z) si) :: outers E si g (k (g (ob (iter op E (bl z) si))))

theorem run_compile (E : B → Equiv.Perm S) (si : S) (g : B → S) (p : Prog (Dir B S ⊕ Z) S O) :
    (compile op ob bl si g p).run (Dir.answer E) = p.run (evHidden op ob bl E si g) := by
  induction p with
  | ret o => rfl
  | ask x k ih =>
    cases x with
    | inl d => rw [compile, Prog.run, ih]; rfl
    | inr z =>
      have := run_andThen (allCiphers B S).ev E (walkTo op (bl z) si) fun t => compile op ob bl si g (k (g (ob t)))
      have this : (andThen (walkTo op (bl z) si) fun t => compile op ob bl si g (k (g (ob t)))).run (Dir.answer E) =
        (compile op ob bl si g (k (g (ob ((walkTo op (bl z) si).run (Dir.answer E)))))).run (Dir.answer E) := this
      rw [compile, this, run_walkTo, ih, Prog.run]
      rfl

theorem within_compile {ℓ : Nat} (hbl : ∀ z, (bl z).length ≤ ℓ) (si : S) (g : B → S) {p : Prog (Dir B S ⊕ Z) S O} {q n : Nat}
    (hp : p.Counts q n) : (compile op ob bl si g p).Within (q + n * ℓ) := by
  induction p generalizing q n with
  | ret o => trivial
  | ask x k ih =>
    cases x with
    | inl d =>
      obtain ⟨q, rfl, h⟩ := hp
      exact ⟨q + n * ℓ, by omega, fun r => ih r (h r)⟩
    | inr z =>
      obtain ⟨n, rfl, h⟩ := hp
      refine within_mono (within_andThen (walkTo_within op _ _) fun t => ih _ (h _)) ?_
      have := hbl z
      rw [Nat.succ_mul]
      omega

theorem length_outers (E : B → Equiv.Perm S) (si : S) (g : B → S) {p : Prog (Dir B S ⊕ Z) S O} {q n : Nat} (hp : p.Counts q n) :
    (outers op ob bl E si g p).length ≤ n := by
  induction p generalizing q n with
  | ret o => exact Nat.zero_le _
  | ask x k ih =>
    cases x with
    | inl d =>
      obtain ⟨q, rfl, h⟩ := hp
      exact ih _ (h _)
    | inr z =>
      obtain ⟨n, rfl, h⟩ := hp
      exact Nat.succ_le_succ (ih _ (h _))

/-! ## From the first game to the second -/

section Hide

variable [DecidableEq B] [DecidableEq S] (dv : S → S → S)

/-- The input at which the cipher is changed. -/
def spot (k : K) (so : S) (b : B) : S := if b = ki k ∨ b = ko k then iv else so

/-- The value it gets. -/
def goal (si : S) (g : B → S) (k : K) (so : S) (b : B) : S :=
  if b = ki k then dv si iv else if b = ko k then dv so iv else dv (g b) so

/-- The cipher with which the first game is the second. -/
def plant (E : B → Equiv.Perm S) (si : S) (g : B → S) (k : K) (so : S) (b : B) : Equiv.Perm S :=
  (E b).trans (Equiv.swap (E b (spot ki ko iv k so b)) (goal ki ko iv dv si g k so b))

theorem plant_spot (E : B → Equiv.Perm S) (si : S) (g : B → S) (k : K) (so : S) (b : B) :
    plant ki ko iv dv E si g k so b (spot ki ko iv k so b) = goal ki ko iv dv si g k so b := by
  rw [plant, Equiv.trans_apply, Equiv.swap_apply_left]

/-- A question that shows the difference. -/
def Touches (g : B → S) (k : K) (so : S) (t : B × S × S) : Prop :=
  t.1 = ki k ∨ t.1 = ko k ∨ t.2.1 = so ∨ op t.2.2 so = g t.1

variable {op ki ko iv dv}

theorem plant_same (hdv : ∀ v x, op (dv v x) x = v) {E : B → Equiv.Perm S} {si : S} {g : B → S} {k : K} {so : S} {b : B} {x : S}
    (h : ¬ Touches op ki ko g k so (b, x, E b x)) : plant ki ko iv dv E si g k so b x = E b x := by
  simp only [Touches, not_or] at h
  obtain ⟨h1, h2, h3, h4⟩ := h
  rw [plant, Equiv.trans_apply, spot, goal, if_neg (by simp [h1, h2]), if_neg h1, if_neg h2, Equiv.swap_apply_of_ne_of_ne]
  · exact fun e => h3 ((E b).injective e)
  · intro e
    exact h4 (by rw [e, hdv])

theorem plant_answer (hdv : ∀ v x, op (dv v x) x = v) {E : B → Equiv.Perm S} {si : S} {g : B → S} {k : K} {so : S} {d : Dir B S}
    (h : ¬ Touches op ki ko g k so (triple (d, d.answer E))) :
    d.answer (plant ki ko iv dv E si g k so) = d.answer E := by
  cases d with
  | fwd b x => exact plant_same hdv h
  | bwd b y =>
    show (plant ki ko iv dv E si g k so b).symm y = (E b).symm y
    rw [Equiv.symm_apply_eq]
    have h : ¬ Touches op ki ko g k so (b, (E b).symm y, y) := h
    rw [plant_same hdv (by rwa [Equiv.apply_symm_apply]), Equiv.apply_symm_apply]

theorem plant_iter (hdv : ∀ v x, op (dv v x) x = v) {E : B → Equiv.Perm S} {si : S} {g : B → S} {k : K} {so : S} (bs : List B) (s : S)
    (h : ∀ t ∈ askedOf E (walkTo op bs s), ¬ Touches op ki ko g k so t) :
    iter op (plant ki ko iv dv E si g k so) bs s = iter op E bs s := by
  induction bs generalizing s with
  | nil => rfl
  | cons b bs ih =>
    rw [iter, plant_same hdv (h (b, s, E b s) (List.mem_cons_self ..))]
    exact ih _ fun t ht => h t (List.mem_cons_of_mem _ ht)

theorem plant_inner (hdv : ∀ v x, op (dv v x) x = v) (E : B → Equiv.Perm S) (si : S) (g : B → S) (k : K) (so : S) :
    op (plant ki ko iv dv E si g k so (ki k) iv) iv = si := by
  have := plant_spot ki ko iv dv E si g k so (ki k)
  rw [spot, if_pos (.inl rfl), goal, if_pos rfl] at this
  rw [this, hdv]

theorem plant_outer (hdv : ∀ v x, op (dv v x) x = v) (hne : ∀ k, ki k ≠ ko k) (E : B → Equiv.Perm S) (si : S) (g : B → S) (k : K) (so : S) :
    op (plant ki ko iv dv E si g k so (ko k) iv) iv = so := by
  have := plant_spot ki ko iv dv E si g k so (ko k)
  rw [spot, if_pos (.inr rfl), goal, if_neg (hne k).symm, if_pos rfl] at this
  rw [this, hdv]

theorem plant_other (hdv : ∀ v x, op (dv v x) x = v) (E : B → Equiv.Perm S) (si : S) (g : B → S) (k : K) (so : S) (b : B)
    (h1 : b ≠ ki k) (h2 : b ≠ ko k) : op (plant ki ko iv dv E si g k so b so) so = g b := by
  have := plant_spot ki ko iv dv E si g k so b
  rw [spot, if_neg (by simp [h1, h2]), goal, if_neg h1, if_neg h2] at this
  rw [this, hdv]

/-- Without such a question the games agree. -/
theorem run_plant (hdv : ∀ v x, op (dv v x) x = v) (hne : ∀ k, ki k ≠ ko k) {E : B → Equiv.Perm S} {si : S} {g : B → S} {k : K} {so : S}
    (p : Prog (Dir B S ⊕ Z) S O) (h : ∀ t ∈ askedOf E (compile op ob bl si g p), ¬ Touches op ki ko g k so t)
    (ho : ∀ b ∈ outers op ob bl E si g p, b ≠ ki k ∧ b ≠ ko k) :
    p.run (evReal op ki ko iv ob bl (plant ki ko iv dv E si g k so, k)) = p.run (evHidden op ob bl E si g) := by
  induction p with
  | ret o => rfl
  | ask x c ih =>
    cases x with
    | inl d =>
      have e : d.answer (plant ki ko iv dv E si g k so) = d.answer E := plant_answer hdv (h _ (List.mem_cons_self ..))
      rw [Prog.run, Prog.run, evReal, evHidden, e]
      exact ih _ (fun t ht => h t (List.mem_cons_of_mem _ ht)) ho
    | inr z =>
      rw [compile, askedOf_andThen, run_walkTo] at h
      obtain ⟨h1, h2⟩ := ho _ (List.mem_cons_self ..)
      have e : nested op ki ko iv ob bl (plant ki ko iv dv E si g k so) k z = g (ob (iter op E (bl z) si)) := by
        rw [nested, plant_inner hdv, plant_outer hdv hne, plant_iter hdv _ _ fun t ht => h t (List.mem_append_left _ ht)]
        exact plant_other hdv E si g k so _ h1 h2
      rw [Prog.run, Prog.run, evReal, evHidden, e]
      exact ih _ (fun t ht => h t (List.mem_append_right _ ht)) (fun b hb => ho b (List.mem_cons_of_mem _ hb))

variable [Fintype B] [Fintype S] [Fintype K]

/-- All first games arise equally often. -/
theorem share_plant [Nonempty S] (hdv : ∀ v x, op (dv v x) x = v) (hne : ∀ k, ki k ≠ ko k) (P : (B → Equiv.Perm S) × K → Prop) :
    share (fun ω : ((B → Equiv.Perm S) × S × (B → S)) × (K × S) => P (plant ki ko iv dv ω.1.1 ω.1.2.1 ω.1.2.2 ω.2.1 ω.2.2, ω.2.1)) =
      share P := by
  refine share_regular (C := (B → S) × S × S)
    (fun ω : ((B → Equiv.Perm S) × S × (B → S)) × (K × S) => (plant ki ko iv dv ω.1.1 ω.1.2.1 ω.1.2.2 ω.2.1 ω.2.2, ω.2.1))
    (fun ω => (fun b => ω.1.1 b (spot ki ko iv ω.2.1 ω.2.2 b), ω.1.2.2 (ki ω.2.1), ω.1.2.2 (ko ω.2.1))) ?_ ?_ P
  · rintro ⟨⟨E, si, g⟩, k, so⟩ ⟨⟨E', si', g'⟩, k', so'⟩ h
    simp only [Prod.mk.injEq] at h
    obtain ⟨⟨h1, rfl⟩, h2, h3, h4⟩ := h
    have e1 : si = si' := by
      rw [← plant_inner (iv := iv) (ko := ko) hdv E si g k so, h1, plant_inner hdv]
    have e2 : so = so' := by
      rw [← plant_outer (iv := iv) (ko := ko) hdv hne E si g k so, h1, plant_outer hdv hne]
    subst e1 e2
    have e3 : g = g' := by
      funext b
      by_cases b1 : b = ki k
      · rw [b1]; exact h3
      by_cases b2 : b = ko k
      · rw [b2]; exact h4
      rw [← plant_other (iv := iv) hdv E si g k so b b1 b2, h1, plant_other hdv _ _ _ _ _ _ b1 b2]
    subst e3
    have e4 : E = E' := by
      funext b
      have a1 := congrFun h1 b
      have a2 := congrFun h2 b
      ext x
      have a3 := congrArg (fun f => f x) a1
      simp only [plant, Equiv.trans_apply] at a3
      rw [a2] at a3
      exact (Equiv.swap _ _).injective a3
    subst e4
    rfl
  · simp only [Fintype.card_prod, Fintype.card_fun]
    ring

/-- Few keys and states are touched. -/
theorem share_touches (hr : ∀ x y y', op y x = op y' x → y = y') (hl : ∀ x y y', op x y = op x y' → y = y')
    (hki : Function.Injective ki) (hko : Function.Injective ko) [Nonempty K] [Nonempty S] (g : B → S) (L : List (B × S × S)) (L' : List B) :
    share (fun ω : K × S => (∃ t ∈ L, Touches op ki ko g ω.1 ω.2 t) ∨ ∃ b ∈ L', b = ki ω.1 ∨ b = ko ω.1) ≤
      L.length * (2 / Fintype.card K + 2 / Fintype.card S) + L'.length * (2 / Fintype.card K) := by
  have one : ∀ {Ω : Type} [Fintype Ω] (P : Ω → Prop), (∀ a b, P a → P b → a = b) → share P ≤ 1 / Fintype.card Ω := by
    intro Ω _ P h
    refine (share_le (c := 1) fun s hs => ?_).trans (by rw [Nat.cast_one])
    exact Finset.card_le_one.mpr fun a ha b hb => h a b (hs a ha) (hs b hb)
  have two : ∀ b, share (fun ω : K × S => b = ki ω.1 ∨ b = ko ω.1) ≤ 2 / Fintype.card K := by
    intro b
    refine (share_or _ _).trans ?_
    rw [share_fst (fun k : K => b = ki k), share_fst (fun k : K => b = ko k)]
    have h1 := one (fun k : K => b = ki k) fun a c ha hc => hki (ha.symm.trans hc)
    have h2 := one (fun k : K => b = ko k) fun a c ha hc => hko (ha.symm.trans hc)
    calc _ ≤ (1 : ℚ) / Fintype.card K + 1 / Fintype.card K := add_le_add h1 h2
      _ = _ := by ring
  refine (share_or _ _).trans (add_le_add (share_exists_mem L fun t => ?_) (share_exists_mem L' two))
  have e : ∀ ω : K × S, Touches op ki ko g ω.1 ω.2 t → (t.1 = ki ω.1 ∨ t.1 = ko ω.1) ∨ (t.2.1 = ω.2 ∨ op t.2.2 ω.2 = g t.1) := by
    rintro ω (h | h | h | h)
    · exact .inl (.inl h)
    · exact .inl (.inr h)
    · exact .inr (.inl h)
    · exact .inr (.inr h)
  refine (share_le_add e).trans (add_le_add (two t.1) ?_)
  refine (share_or _ _).trans ?_
  rw [share_snd (fun s : S => t.2.1 = s), share_snd (fun s : S => op t.2.2 s = g t.1)]
  have h1 := one (fun s : S => t.2.1 = s) fun a c ha hc => ha.symm.trans hc
  have h2 := one (fun s : S => op t.2.2 s = g t.1) fun a c ha hc => hl _ _ _ (ha.trans hc.symm)
  calc _ ≤ (1 : ℚ) / Fintype.card S + 1 / Fintype.card S := add_le_add h1 h2
    _ = _ := by ring

/-- From the first game to the second. -/
theorem share_real_hidden (hdv : ∀ v x, op (dv v x) x = v) (hne : ∀ k, ki k ≠ ko k)
    (hr : ∀ x y y', op y x = op y' x → y = y') (hl : ∀ x y y', op x y = op x y' → y = y')
    (hki : Function.Injective ki) (hko : Function.Injective ko) [Nonempty K] [Nonempty S] {ℓ : Nat} (hbl : ∀ z, (bl z).length ≤ ℓ)
    {p : Prog (Dir B S ⊕ Z) S O} {q n : Nat} (hp : p.Counts q n) (acc : O → Prop) :
    share (fun ω : (B → Equiv.Perm S) × K => acc (p.run (evReal op ki ko iv ob bl ω))) ≤
      share (fun ω : (B → Equiv.Perm S) × S × (B → S) => acc (p.run (evHidden op ob bl ω.1 ω.2.1 ω.2.2))) +
        ((q + n * ℓ : Nat) * (2 / Fintype.card K + 2 / Fintype.card S) + n * (2 / Fintype.card K)) := by
  rw [← share_plant (dv := dv) hdv hne, ← share_fst (B := K × S)
    (fun ω : (B → Equiv.Perm S) × S × (B → S) => acc (p.run (evHidden op ob bl ω.1 ω.2.1 ω.2.2)))]
  refine (share_le_add (R := fun ω : ((B → Equiv.Perm S) × S × (B → S)) × (K × S) =>
    (∃ t ∈ askedOf ω.1.1 (compile op ob bl ω.1.2.1 ω.1.2.2 p), Touches op ki ko ω.1.2.2 ω.2.1 ω.2.2 t) ∨
      ∃ b ∈ outers op ob bl ω.1.1 ω.1.2.1 ω.1.2.2 p, b = ki ω.2.1 ∨ b = ko ω.2.1) ?_).trans (add_le_add_right ?_ _)
  · intro ω h
    by_cases hT : (∃ t ∈ askedOf ω.1.1 (compile op ob bl ω.1.2.1 ω.1.2.2 p), Touches op ki ko ω.1.2.2 ω.2.1 ω.2.2 t) ∨
      ∃ b ∈ outers op ob bl ω.1.1 ω.1.2.1 ω.1.2.2 p, b = ki ω.2.1 ∨ b = ko ω.2.1
    · exact .inr hT
    · left
      rw [not_or] at hT
      rwa [run_plant ob bl hdv hne p (fun t ht hh => hT.1 ⟨t, ht, hh⟩)
        (fun b hb => not_or.mp fun hh => hT.2 ⟨b, hb, hh⟩)] at h
  · have hK : (0 : ℚ) ≤ 2 / Fintype.card K := by positivity
    have hS : (0 : ℚ) ≤ 2 / Fintype.card S := by positivity
    refine share_prod_le (by positivity) fun a => ?_
    have h := share_touches (op := op) (ki := ki) (ko := ko) hr hl hki hko a.2.2 (askedOf a.1 (compile op ob bl a.2.1 a.2.2 p))
      (outers op ob bl a.1 a.2.1 a.2.2 p)
    refine le_trans h (add_le_add ?_ ?_)
    · exact mul_le_mul_of_nonneg_right (Nat.cast_le.mpr (length_askedOf _ (within_compile op ob bl hbl _ _ hp))) (by positivity)
    · exact mul_le_mul_of_nonneg_right (Nat.cast_le.mpr (length_outers op ob bl _ _ _ hp)) hK

end Hide

/-! ## From the second game to the third -/

section Sample

/-- The cipher is known. -/
def fix (E : B → Equiv.Perm S) : Prog (Dir B S ⊕ Z) S O → Prog Z S O
  | .ret o => .ret o
  | .ask (.inl d) k => fix E (k (d.answer E))
  | .ask (.inr z) k => .ask z fun r => fix E (k r)

/-- The outer block of a message. -/
def outer (E : B → Equiv.Perm S) (si : S) (z : Z) : B := ob (iter op E (bl z) si)

theorem run_fix_hidden (E : B → Equiv.Perm S) (si : S) (g : B → S) (p : Prog (Dir B S ⊕ Z) S O) :
    (fix E p).run (g ∘ outer op ob bl E si) = p.run (evHidden op ob bl E si g) := by
  induction p with
  | ret o => rfl
  | ask x k ih =>
    cases x with
    | inl d => rw [fix, Prog.run, ih]; rfl
    | inr z => rw [fix, Prog.run, Prog.run, ih]; rfl

theorem run_fix_ideal (E : B → Equiv.Perm S) (R : Z → S) (p : Prog (Dir B S ⊕ Z) S O) :
    (fix E p).run R = p.run (evIdeal (E, R)) := by
  induction p with
  | ret o => rfl
  | ask x k ih =>
    cases x with
    | inl d => rw [fix, Prog.run, ih]; rfl
    | inr z => rw [fix, Prog.run, Prog.run, ih]; rfl

/-- No result comes up twice or is the first state. -/
def Fresh (si : S) (ts : List (B × S × S)) : Prop :=
  (∀ t ∈ ts, ∀ t' ∈ ts, op t.2.2 t.2.1 = op t'.2.2 t'.2.1 → t = t') ∧ ∀ t ∈ ts, op t.2.2 t.2.1 ≠ si

variable {op ob bl}

theorem clean_of_fresh (hob : Function.Injective ob) (hbl : Function.Injective bl) {E : B → Equiv.Perm S} {si : S} {g : B → S}
    {ts : List (B × S × S)} (hF : Fresh op si ts) (p : Prog (Dir B S ⊕ Z) S O) (used : List Z)
    (hused : ∀ z ∈ used, ∀ c ∈ callsFrom (dm op E) si (bl z), (c.1, c.2, E c.1 c.2) ∈ ts)
    (hp : ∀ t ∈ askedOf E (compile op ob bl si g p), t ∈ ts) :
    CleanRun (outer op ob bl E si) (g ∘ outer op ob bl E si) (fix E p) used := by
  induction p generalizing used with
  | ret o => trivial
  | ask x k ih =>
    cases x with
    | inl d => exact ih _ used hused fun t ht => hp t (List.mem_cons_of_mem _ ht)
    | inr z =>
      rw [compile, askedOf_andThen, run_walkTo] at hp
      have hz : ∀ c ∈ callsFrom (dm op E) si (bl z), (c.1, c.2, E c.1 c.2) ∈ ts := fun c hc =>
        hp _ (List.mem_append_left _ (calls_walkTo op E _ _ c hc))
      refine ⟨fun z' hz' e => ?_, ?_⟩
      · have e := hob e
        have h1 := chained_dm op E (bl z') si
        have h2 := chained_dm op E (bl z) si
        rw [e] at h1
        rcases collide_or _ _ h1 h2 with h | ⟨c, hc, c', hc', hne, d, hd, hd'⟩ | ⟨-, ⟨c, hc, hd⟩ | ⟨c, hc, hd⟩⟩
        · exact hbl h
        · rw [dm] at hd hd'
          injection hd with hd
          injection hd' with hd'
          have := hF.1 _ (hused z' hz' c hc) _ (hz c' hc') (hd.trans hd'.symm)
          simp only [Prod.mk.injEq] at this
          exact absurd (Prod.ext this.1 this.2.1) hne
        · rw [dm] at hd
          injection hd with hd
          exact absurd hd (hF.2 _ (hused z' hz' c hc))
        · rw [dm] at hd
          injection hd with hd
          exact absurd hd (hF.2 _ (hz c hc))
      · refine ih _ (z :: used) (fun z' hz' => ?_) fun t ht => hp t (List.mem_append_right _ ht)
        rcases List.mem_cons.mp hz' with rfl | hz'
        · exact hz
        · exact hused z' hz'

variable [Fintype B] [DecidableEq B] [Fintype S] [DecidableEq S]

/-- Results are rarely repeated. -/
theorem share_not_clean (hr : ∀ x y y', op y x = op y' x → y = y') (hl : ∀ x y y', op x y = op x y' → y = y')
    (hob : Function.Injective ob) (hbl : Function.Injective bl) {ℓ : Nat} (hlen : ∀ z, (bl z).length ≤ ℓ)
    {p : Prog (Dir B S ⊕ Z) S O} {q n : Nat} (hp : p.Counts q n) (hT : q + n * ℓ < Fintype.card S) (si : S) (g : B → S) :
    share (fun E : B → Equiv.Perm S => ¬ CleanRun (outer op ob bl E si) (g ∘ outer op ob bl E si) (fix E p) []) ≤
      ((q + n * ℓ : Nat) * ((q + n * ℓ : Nat) + 1)) / (2 * (Fintype.card S - (q + n * ℓ : Nat))) := by
  classical
  set T := q + n * ℓ with hTdef
  let Bad : (B → Equiv.Perm S) → Prop := fun E => GoesBad (allCiphers B S).ev
    (BadTriple fun ts t => op t.2.2 t.2.1 ∈ si :: ts.map fun u => op u.2.2 u.2.1) E (compile op ob bl si g p) []
  have hsub : ∀ E : B → Equiv.Perm S,
      ¬ CleanRun (outer op ob bl E si) (g ∘ outer op ob bl E si) (fix E p) [] → Bad E := by
    intro E h
    by_contra hb
    have := (trace_triples (allCiphers B S) (I := Fresh op si) ?_ ?_ (compile op ob bl si g p) [] ?_ ?_ hb).1
    · exact h (clean_of_fresh hob hbl this p [] (by simp) fun t ht => askedOf_trace E _ [] ht)
    · intro ts t hI hn
      rw [List.mem_cons, not_or] at hn
      refine ⟨fun u hu u' hu' e => ?_, fun u hu => ?_⟩
      · rcases List.mem_cons.mp hu with rfl | hu
        · rcases List.mem_cons.mp hu' with rfl | hu'
          · rfl
          · exact absurd (List.mem_map.mpr ⟨u', hu', e.symm⟩) hn.2
        · rcases List.mem_cons.mp hu' with e' | hu'
          · subst e'
            exact absurd (List.mem_map.mpr ⟨u, ‹u ∈ ts›, e⟩) hn.2
          · exact hI.1 u hu u' hu' e
      · rcases List.mem_cons.mp hu with rfl | hu
        · exact hn.1
        · exact hI.2 u hu
    · intro ts t hI ht
      refine ⟨fun u hu u' hu' e => ?_, fun u hu => ?_⟩
      · exact hI.1 u ((List.mem_cons.mp hu).elim (fun h => h ▸ ht) id) u' ((List.mem_cons.mp hu').elim (fun h => h ▸ ht) id) e
      · exact hI.2 u ((List.mem_cons.mp hu).elim (fun h => h ▸ ht) id)
    · exact ⟨fun t ht => absurd ht List.not_mem_nil, fun t ht => absurd ht List.not_mem_nil⟩
    · exact fun t ht => absurd ht List.not_mem_nil
  refine (share_mono hsub).trans ?_
  have h := card_badSum (op) (allCiphers B S) (D := 1) (L := fun ts => si :: ts.map fun u => op u.2.2 u.2.1) (b := fun j => j + 1)
    (fun ts => by simp) (fun x => card_eq_one (hr x)) (fun y => card_eq_one (hl y)) (compile op ob bl si g p) T
    (within_compile op ob bl hlen si g hp)
  have h2 := two_sum_succ T
  have hc : 2 * (Fintype.card S - T) * (univ.filter Bad).card ≤ T * (T + 1) * Fintype.card (B → Equiv.Perm S) := by
    rw [← h2, Nat.mul_assoc, Nat.mul_assoc]
    rw [Nat.mul_one] at h
    exact Nat.mul_le_mul_left 2 (by convert h)
  have hc' : (2 : ℚ) * (Fintype.card S - T) * (univ.filter Bad).card ≤ T * (T + 1) * Fintype.card (B → Equiv.Perm S) := by
    have := (Nat.cast_le (α := ℚ)).mpr hc
    push_cast [Nat.cast_sub hT.le] at this
    exact this
  have hpos : (0 : ℚ) < Fintype.card S - T := sub_pos.mpr (Nat.cast_lt.mpr hT)
  have hpos2 : (0 : ℚ) < Fintype.card (B → Equiv.Perm S) := Nat.cast_pos.mpr Fintype.card_pos
  rw [share, div_le_div_iff₀ hpos2 (by positivity)]
  calc _ = (2 : ℚ) * (Fintype.card S - T) * (univ.filter Bad).card := by rw [mul_comm]
    _ ≤ _ := hc'

/-- From the second game to the third. -/
theorem share_hidden_ideal [Fintype Z] [DecidableEq Z] [Nonempty S] (hr : ∀ x y y', op y x = op y' x → y = y')
    (hl : ∀ x y y', op x y = op x y' → y = y')
    (hob : Function.Injective ob) (hbl : Function.Injective bl) {ℓ : Nat} (hlen : ∀ z, (bl z).length ≤ ℓ)
    {p : Prog (Dir B S ⊕ Z) S O} {q n : Nat} (hp : p.Counts q n) (hT : q + n * ℓ < Fintype.card S) (acc : O → Prop) :
    share (fun ω : (B → Equiv.Perm S) × S × (B → S) => acc (p.run (evHidden op ob bl ω.1 ω.2.1 ω.2.2))) ≤
      share (fun ω : (B → Equiv.Perm S) × (Z → S) => acc (p.run (evIdeal ω))) +
        ((q + n * ℓ : Nat) * ((q + n * ℓ : Nat) + 1)) / (2 * (Fintype.card S - (q + n * ℓ : Nat))) := by
  have hpos : (0 : ℚ) < Fintype.card S - (q + n * ℓ : Nat) := sub_pos.mpr (Nat.cast_lt.mpr hT)
  have h1 : share (fun ω : (B → Equiv.Perm S) × S × (B → S) => acc (p.run (evHidden op ob bl ω.1 ω.2.1 ω.2.2))) ≤
      share (fun ω : (B → Equiv.Perm S) × S × (B → S) =>
        CleanRun (outer op ob bl ω.1 ω.2.1) (ω.2.2 ∘ outer op ob bl ω.1 ω.2.1) (fix ω.1 p) [] ∧
          acc ((fix ω.1 p).run (ω.2.2 ∘ outer op ob bl ω.1 ω.2.1))) +
      share (fun ω : (B → Equiv.Perm S) × S × (B → S) =>
        ¬ CleanRun (outer op ob bl ω.1 ω.2.1) (ω.2.2 ∘ outer op ob bl ω.1 ω.2.1) (fix ω.1 p) []) := by
    refine share_le_add fun ω h => ?_
    by_cases hc : CleanRun (outer op ob bl ω.1 ω.2.1) (ω.2.2 ∘ outer op ob bl ω.1 ω.2.1) (fix ω.1 p) []
    · exact .inl ⟨hc, by rwa [run_fix_hidden]⟩
    · exact .inr hc
  refine h1.trans (add_le_add ?_ ?_)
  · calc _ ≤ share (fun ω : (B → Equiv.Perm S) × S × (Z → S) => acc (p.run (evIdeal (ω.1, ω.2.2)))) := by
          refine share_prod_mono fun E => share_prod_mono fun si => ?_
          rw [share_clean (outer op ob bl E si) acc (fix E p)]
          refine share_mono fun R h => ?_
          rw [← run_fix_ideal]
          exact h.2
      _ ≤ _ := by
          refine share_prod_mono fun E => ?_
          have h := share_snd (A := S) (fun R : Z → S => acc (p.run (evIdeal (E, R))))
          exact le_of_eq h
  · rw [← share_equiv (Equiv.prodComm (S × (B → S)) (B → Equiv.Perm S))]
    refine share_prod_le (by positivity) fun a => ?_
    have h := share_not_clean hr hl hob hbl hlen hp hT a.1 a.2
    exact h

end Sample

end

end Hacspec.Ideal
