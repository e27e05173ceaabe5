import Verif.Lemmas.Ideal.Feed
import Verif.Lemmas.Ideal.Nested
import Verif.Spec.AeadAttacks

/-! # Programs that attack authenticated encryption -/

namespace Hacspec.Ideal

open Spec Finset

theorem share_prod_add {A B C : Type} [Fintype A] [Fintype B] [Fintype C] [Nonempty A] {P : A × B → Prop} {Q : A × C → Prop} {ε : ℚ}
    (h : ∀ a, share (fun b => P (a, b)) ≤ share (fun c => Q (a, c)) + ε) : share P ≤ share Q + ε := by
  have hA : (0 : ℚ) < Fintype.card A := Nat.cast_pos.mpr Fintype.card_pos
  rw [share_prod, share_prod, div_add' _ _ _ hA.ne']
  refine div_le_div_of_nonneg_right ((Finset.sum_le_sum fun a _ => h a).trans (le_of_eq ?_)) (Nat.cast_nonneg _)
  rw [Finset.sum_add_distrib, Finset.sum_const, Finset.card_univ, nsmul_eq_mul, mul_comm]

section

variable {Q R O : Type}

/-- What is left of a program after some answers. -/
def residual : Prog Q R O → List R → Prog Q R O
  | p, [] => p
  | .ret o, _ :: _ => .ret o
  | .ask _ k, r :: h => residual (k r) h

theorem residual_ret (o : O) (h : List R) : residual (.ret o : Prog Q R O) h = .ret o := by
  cases h <;> rfl

theorem residual_append (p : Prog Q R O) (h h' : List R) : residual p (h ++ h') = residual (residual p h) h' := by
  induction h generalizing p with
  | nil => cases p <;> rfl
  | cons r h ih =>
    cases p with
    | ret o =>
      rw [residual_ret, residual_ret, residual_ret]
    | ask x k => exact ih (k r)

/-- The next question. -/
def firstAsk (f : Q → Ask) : Prog Q R O → Ask
  | .ret _ => .stop
  | .ask x _ => f x

/-- The attack of a program. -/
def strategyOf (f : Q → Ask) (p : Prog Q Seen O) (h : List Seen) : Ask := firstAsk f (residual p h)

variable {Ω : Type} (S : Aead Ω) (f : Q → Ask) (F : Ω) (p : Prog Q Seen O)

theorem residual_stays {i : Nat} {o : O} (h : residual p (S.play (strategyOf f p) F i) = .ret o) (m : Nat) :
    residual p (S.play (strategyOf f p) F (i + m)) = .ret o := by
  induction m with
  | zero => exact h
  | succ m ih => rw [← Nat.add_assoc, Aead.play, residual_append, ih]; rfl

theorem residual_step {i : Nat} {x : Q} {k : Seen → Prog Q Seen O} (h : residual p (S.play (strategyOf f p) F i) = .ask x k) :
    S.answer F (strategyOf f p (S.play (strategyOf f p) F i)) = S.answer F (f x) ∧
    residual p (S.play (strategyOf f p) F (i + 1)) = k (S.answer F (f x)) := by
  have e : strategyOf f p (S.play (strategyOf f p) F i) = f x := by rw [strategyOf, h]; rfl
  refine ⟨by rw [e], ?_⟩
  rw [Aead.play, residual_append, h, e]
  show residual (k (S.answer F (f x))) [] = _
  cases k (S.answer F (f x)) <;> rfl

theorem residual_from (p' : Prog Q Seen O) (i m : Nat) (h : residual p (S.play (strategyOf f p) F i) = p') (hm : p'.Within m) :
    residual p (S.play (strategyOf f p) F (i + m)) = .ret (p'.run fun x => S.answer F (f x)) := by
  induction p' generalizing i m with
  | ret o => exact residual_stays S f F p h m
  | ask x k ih =>
    obtain ⟨m, rfl, hm⟩ := hm
    rw [show i + (m + 1) = i + 1 + m by omega]
    exact ih _ (i + 1) m (residual_step S f F p h).2 (hm _)

/-- The result of a program is determined by what is seen. -/
theorem residual_play {n : Nat} (hn : p.Within n) :
    residual p (S.play (strategyOf f p) F n) = .ret (p.run fun x => S.answer F (f x)) := by
  have := residual_from S f F p p 0 n (by cases p <;> rfl) hn
  rwa [Nat.zero_add] at this

theorem answers_from (p' : Prog Q Seen O) (i m : Nat) (h : residual p (S.play (strategyOf f p) F i) = p') (hm : p'.Within m) {s : Seen}
    (hs : s ∈ p'.answers fun x => S.answer F (f x)) :
    ∃ k, k < i + m ∧ S.answer F (strategyOf f p (S.play (strategyOf f p) F k)) = s := by
  induction p' generalizing i m with
  | ret o => exact absurd hs List.not_mem_nil
  | ask x k ih =>
    obtain ⟨m, rfl, hm⟩ := hm
    have := residual_step S f F p h
    rcases List.mem_cons.mp hs with rfl | hs
    · exact ⟨i, by omega, this.1⟩
    · obtain ⟨j, hj, e⟩ := ih _ (i + 1) m this.2 (hm _) hs
      exact ⟨j, by omega, e⟩

/-- The answers of a program are answers in the game. -/
theorem answers_play {n : Nat} (hn : p.Within n) {s : Seen} (hs : s ∈ p.answers fun x => S.answer F (f x)) :
    ∃ k, k < n ∧ S.answer F (strategyOf f p (S.play (strategyOf f p) F k)) = s := by
  have := answers_from S f F p p 0 n (by cases p <;> rfl) hn hs
  rwa [Nat.zero_add] at this

end

section

variable {D X Q R O : Type}

theorem answers_strip (g : D → X) (f : Q → R) (p : Prog (D ⊕ Q) (X ⊕ R) O) {s : R} :
    .inr s ∈ p.answers (sideAnswer g f) ↔ s ∈ (strip g p).answers f := by
  induction p with
  | ret o => exact ⟨fun h => absurd h List.not_mem_nil, fun h => absurd h List.not_mem_nil⟩
  | ask x k ih =>
    cases x with
    | inl d =>
      rw [Prog.answers, List.mem_cons, strip, ← ih]
      simp [sideAnswer]
    | inr x =>
      rw [Prog.answers, List.mem_cons, strip, Prog.answers, List.mem_cons, ← ih]
      simp [sideAnswer]

/-- A program that returns the answers. -/
def record : Prog Q R O → List R → Prog Q R (List R)
  | .ret _, h => .ret h
  | .ask x k, h => .ask x fun r => record (k r) (h ++ [r])

theorem run_record (ev : Q → R) (p : Prog Q R O) (h : List R) : (record p h).run ev = h ++ p.answers ev := by
  induction p generalizing h with
  | ret o => exact (List.append_nil h).symm
  | ask x k ih => rw [record, Prog.run, ih, Prog.answers, List.append_assoc]; rfl

theorem record_counts {P : Type} {p : Prog (Q ⊕ P) R O} {q n : Nat} (hp : p.Counts q n) (h : List R) : (record p h).Counts q n := by
  induction p generalizing q n h with
  | ret o => trivial
  | ask x k ih =>
    cases x with
    | inl x =>
      obtain ⟨q, rfl, hp⟩ := hp
      exact ⟨q, rfl, fun r => ih _ (hp _) _⟩
    | inr x =>
      obtain ⟨n, rfl, hp⟩ := hp
      exact ⟨n, rfl, fun r => ih _ (hp _) _⟩

theorem record_rules (f : Q → Ask) (L : Nat) {p : Prog (D ⊕ Q) (X ⊕ Seen) O} {h : List Seen} (hp : ByRules f L p h) (h' : List (X ⊕ Seen)) :
    ByRules f L (record p h') h := by
  induction p generalizing h h' with
  | ret o => trivial
  | ask x k ih =>
    cases x with
    | inl d => exact fun x => ih _ (hp x) _
    | inr x => exact ⟨hp.1, fun s => ih _ (hp.2 s) _⟩

theorem allowed_strategy (f : Q → Ask) (L : Nat) (g : D → X) {p : Prog (D ⊕ Q) (X ⊕ Seen) O} {h : List Seen} (hp : ByRules f L p h)
    (h' : List Seen) : (strategyOf f (strip g p) h').Allowed L (h ++ h') := by
  induction p generalizing h h' with
  | ret o =>
    rw [strategyOf, strip, residual_ret]
    trivial
  | ask x k ih =>
    cases x with
    | inl d => exact ih _ (hp (g d)) h'
    | inr x =>
      cases h' with
      | nil =>
        rw [List.append_nil]
        exact hp.1
      | cons s h' =>
        have := ih (.inr s) (hp.2 s) h'
        rw [List.append_assoc] at this
        exact this

/-- By the rules, in the game. -/
theorem proper_strategy (f : Q → Ask) (L : Nat) (g : D → X) {p : Prog (D ⊕ Q) (X ⊕ Seen) O} (hp : ByRules f L p []) :
    Proper (strategyOf f (strip g p)) L := by
  have h := fun h' => allowed_strategy f L g hp h'
  refine ⟨fun h' iv aad m e => ?_, fun h' iv aad c t e => ?_, fun h' iv aad m e => ?_, fun h' iv aad c t e => ?_⟩
  · have := h h'; rw [e] at this; exact this.1
  · have := h h'; rw [e] at this; exact this.1
  · have := h h'; rw [e] at this; exact this.2
  · have := h h'; rw [e] at this; exact this.2

end

/-! ## Encryption by blocks -/

section

variable {D X Q J Y O : Type} [DecidableEq J]

/-- Ask for some values. -/
def askAll : List J → List (J × Y) → (List (J × Y) → Prog (D ⊕ J) (X ⊕ Y) O) → Prog (D ⊕ J) (X ⊕ Y) O
  | [], t, k => k t
  | j :: js, t, k => .ask (.inr j) fun r => askAll js (match r with | .inr y => (j, y) :: t | .inl _ => t) k

/-- The function with these values. -/
def tableFn (d : Y) (t : List (J × Y)) (j : J) : Y := ((t.find? fun u => u.1 = j).map Prod.snd).getD d

theorem run_askAll (g : D → X) (F : J → Y) (js : List J) (t : List (J × Y)) (k : List (J × Y) → Prog (D ⊕ J) (X ⊕ Y) O)
    (ht : ∀ u ∈ t, F u.1 = u.2) :
    ∃ t', (askAll js t k).run (sideAnswer g F) = (k t').run (sideAnswer g F) ∧ (∀ u ∈ t', F u.1 = u.2) ∧
      ∀ j, (j ∈ js ∨ j ∈ t.map Prod.fst) → j ∈ t'.map Prod.fst := by
  induction js generalizing t with
  | nil => exact ⟨t, rfl, ht, fun j h => by simpa using h⟩
  | cons j js ih =>
    obtain ⟨t', h1, h2, h3⟩ := ih ((j, F j) :: t) (by
      intro u hu
      rcases List.mem_cons.mp hu with rfl | hu
      · rfl
      · exact ht u hu)
    refine ⟨t', h1, h2, fun i hi => h3 i ?_⟩
    rw [List.map_cons, List.mem_cons]
    rcases hi with hi | hi
    · rcases List.mem_cons.mp hi with rfl | hi
      · exact .inr (.inl rfl)
      · exact .inl hi
    · exact .inr (.inr hi)

theorem tableFn_eq (d : Y) {F : J → Y} {t : List (J × Y)} (ht : ∀ u ∈ t, F u.1 = u.2) {j : J} (hj : j ∈ t.map Prod.fst) : tableFn d t j = F j := by
  obtain ⟨u, hu, rfl⟩ := List.mem_map.mp hj
  rw [tableFn]
  cases h : t.find? fun u' => u'.1 = u.1 with
  | none =>
    have := List.find?_eq_none.mp h u hu
    simp at this
  | some v =>
    have h1 := List.mem_of_find?_eq_some h
    have h2 : v.1 = u.1 := by simpa using List.find?_some h
    show v.2 = F u.1
    rw [← ht v h1, h2]

variable (S : Aead (J → Y)) (pts : Ask → List J) (d : Y) (f : Q → Ask) (L : Nat)

/-- A program that asks for blocks, at most `L` for each question, and computes the answers itself. -/
def byBlocks : Prog (D ⊕ Q) (X ⊕ Seen) O → Prog (D ⊕ J) (X ⊕ Y) O
  | .ret o => .ret o
  | .ask (.inl z) k => .ask (.inl z) fun r => byBlocks (k (match r with | .inl x => .inl x | .inr _ => .inr .stopped))
  | .ask (.inr x) k => askAll ((pts (f x)).take L) [] fun t => byBlocks (k (.inr (S.answer (tableFn d t) (f x))))

variable {S pts f L}

theorem run_byBlocks (hloc : ∀ a h, a.Allowed L h → ∀ F F' : J → Y, (∀ j ∈ pts a, F j = F' j) → S.answer F a = S.answer F' a)
    (hlen : ∀ a h, a.Allowed L h → (pts a).length ≤ L) (g : D → X) (F : J → Y) {p : Prog (D ⊕ Q) (X ⊕ Seen) O} {h : List Seen}
    (hp : ByRules f L p h) :
    (byBlocks S pts d f L p).run (sideAnswer g F) = p.run (sideAnswer g fun x => S.answer F (f x)) := by
  induction p generalizing h with
  | ret o => rfl
  | ask x k ih =>
    cases x with
    | inl z => exact ih _ (hp (g z))
    | inr x =>
      have ht : (pts (f x)).take L = pts (f x) := List.take_of_length_le (hlen _ _ hp.1)
      obtain ⟨t, h1, h2, h3⟩ := run_askAll g F (pts (f x)) [] (fun t => byBlocks S pts d f L (k (.inr (S.answer (tableFn d t) (f x)))))
        (fun u hu => absurd hu List.not_mem_nil)
      have e : S.answer (tableFn d t) (f x) = S.answer F (f x) := hloc _ _ hp.1 _ _ fun j hj => tableFn_eq d h2 (h3 j (.inl hj))
      rw [e] at h1
      rw [byBlocks, ht]
      exact h1.trans (ih _ (hp.2 _))

omit [DecidableEq J] in
theorem counts_mono {p : Prog (D ⊕ J) (X ⊕ Y) O} {q n m : Nat} (hp : p.Counts q n) (hm : n ≤ m) : p.Counts q m := by
  induction p generalizing q n m with
  | ret o => trivial
  | ask x k ih =>
    cases x with
    | inl x =>
      obtain ⟨q, rfl, h⟩ := hp
      exact ⟨q, rfl, fun r => ih _ (h _) hm⟩
    | inr x =>
      obtain ⟨n, rfl, h⟩ := hp
      exact ⟨m - 1, by omega, fun r => ih _ (h _) (by omega)⟩

omit [DecidableEq J] in
theorem askAll_counts {q n m : Nat} (js : List J) (hjs : js.length ≤ m) (t : List (J × Y)) {k : List (J × Y) → Prog (D ⊕ J) (X ⊕ Y) O}
    (hk : ∀ t, (k t).Counts q n) : (askAll js t k).Counts q (n + m) := by
  induction js generalizing t m with
  | nil => exact counts_mono (hk t) (Nat.le_add_right ..)
  | cons j js ih =>
    rw [List.length_cons] at hjs
    exact ⟨n + (m - 1), by omega, fun r => ih (by omega) _⟩

theorem byBlocks_counts {p : Prog (D ⊕ Q) (X ⊕ Seen) O} {q n : Nat} (hc : p.Counts q n) : (byBlocks S pts d f L p).Counts q (n * L) := by
  induction p generalizing q n with
  | ret o => trivial
  | ask x k ih =>
    cases x with
    | inl x =>
      obtain ⟨q, rfl, h⟩ := hc
      exact ⟨q, rfl, fun r => ih _ (h _)⟩
    | inr x =>
      obtain ⟨n, rfl, h⟩ := hc
      rw [Nat.succ_mul]
      exact askAll_counts _ (List.length_take_le ..) _ fun t => ih _ (h _)

end

end Hacspec.Ideal
