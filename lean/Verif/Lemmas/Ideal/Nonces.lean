import Verif.Lemmas.Ideal.Users
import Verif.Lemmas.Ideal.ChaCha
import Verif.Spec.Nonces

/-! # Random nonces -/

namespace Hacspec.Ideal

open Spec Finset

section

variable {D X Q O : Type} (f : Q → Ask)

open Classical in
/-- To go on after an answer that fits. -/
noncomputable def keep (a : Ask) (p p' : Prog (D ⊕ Q) (X ⊕ Seen) O) : X ⊕ Seen → Prog (D ⊕ Q) (X ⊕ Seen) O
  | .inl _ => p'
  | .inr s => if a.Fits s then p' else .ret (p.run fun _ => .inr .failed)

theorem keep_fits {a : Ask} {s : Seen} (h : a.Fits s) (p p' : Prog (D ⊕ Q) (X ⊕ Seen) O) : keep a p p' (.inr s) = p' := if_pos h

/-- An attack that stops at answers that do not fit. -/
noncomputable def careful : Prog (D ⊕ Q) (X ⊕ Seen) O → Prog (D ⊕ Q) (X ⊕ Seen) O
  | .ret o => .ret o
  | .ask (.inl d) k => .ask (.inl d) fun r => careful (k r)
  | .ask (.inr x) k => .ask (.inr x) fun r => keep (f x) (k r) (careful (k r)) r

theorem run_careful (g : D → X) {ans : Q → Seen} (hans : ∀ x, (f x).Fits (ans x)) (p : Prog (D ⊕ Q) (X ⊕ Seen) O) :
    (careful f p).run (sideAnswer g ans) = p.run (sideAnswer g ans) := by
  induction p with
  | ret o => rfl
  | ask x k ih =>
    cases x with
    | inl d => exact ih _
    | inr x =>
      rw [careful, Prog.run, Prog.run]
      show (keep _ _ _ (.inr (ans x))).run _ = _
      rw [keep_fits (hans x)]
      exact ih _

theorem answers_careful (g : D → X) {ans : Q → Seen} (hans : ∀ x, (f x).Fits (ans x)) (p : Prog (D ⊕ Q) (X ⊕ Seen) O) :
    (careful f p).answers (sideAnswer g ans) = p.answers (sideAnswer g ans) := by
  induction p with
  | ret o => rfl
  | ask x k ih =>
    cases x with
    | inl d => exact congrArg (List.cons _) (ih _)
    | inr x =>
      rw [careful, Prog.answers, Prog.answers]
      refine congrArg (List.cons _) ?_
      show (keep _ _ _ (.inr (ans x))).answers _ = _
      rw [keep_fits (hans x)]
      exact ih _

theorem careful_counts {p : Prog (D ⊕ Q) (X ⊕ Seen) O} {q n : Nat} (hp : p.Counts q n) : (careful f p).Counts q n := by
  induction p generalizing q n with
  | ret o => trivial
  | ask x k ih =>
    cases x with
    | inl d =>
      obtain ⟨c, rfl, hp⟩ := hp
      exact ⟨c, rfl, fun r => ih r (hp r)⟩
    | inr x =>
      obtain ⟨c, rfl, hp⟩ := hp
      refine ⟨c, rfl, fun r => ?_⟩
      cases r with
      | inl y => exact ih _ (hp _)
      | inr s =>
        show (keep _ _ _ _).Counts _ _
        rw [keep]
        split
        · exact ih _ (hp _)
        · trivial

theorem draw_counts (ivs : Nat → Bytes 12) {R : Type} {p : Prog (D ⊕ Drawn Q) R O} {q n : Nat} (hp : p.Counts q n) (i : Nat) : (p.draw ivs i).Counts q n := by
  induction p generalizing q n i with
  | ret o => trivial
  | ask x k ih =>
    match x with
    | .inl d =>
      obtain ⟨c, rfl, hp⟩ := hp
      exact ⟨c, rfl, fun r => ih r (hp r) _⟩
    | .inr (.inl x) =>
      obtain ⟨c, rfl, hp⟩ := hp
      exact ⟨c, rfl, fun r => ih r (hp r) _⟩
    | .inr (.inr x) =>
      obtain ⟨c, rfl, hp⟩ := hp
      exact ⟨c, rfl, fun r => ih r (hp r) _⟩

theorem careful_rules {n L : Nat} {ivs : Nat → Bytes 12} (hv : ∀ i j, i < n → j < n → ivs i = ivs j → i = j)
    {p : Prog (D ⊕ Drawn Q) (X ⊕ Seen) O} {q m i : Nat} {h : List Seen} (hp : ByRulesDrawn f L p h) (hc : p.Counts q m) (hi : i + m ≤ n)
    (hh : ∀ iv aad c t, Seen.enc iv aad c t ∈ h → ∃ j < i, iv = ivs j) : ByRules f L (careful f (p.draw ivs i)) h := by
  induction p generalizing q m i h with
  | ret o => trivial
  | ask x k ih =>
    match x with
    | .inl d =>
      obtain ⟨c, rfl, hc⟩ := hc
      exact fun x => ih _ (hp x) (hc _) hi hh
    | .inr (.inl x) =>
      obtain ⟨c, rfl, hc⟩ := hc
      obtain ⟨⟨iv, aad, ct, t, e, h1, h2⟩, hp⟩ := hp
      refine ⟨by rw [e]; exact ⟨h1, h2⟩, fun s => ?_⟩
      show ByRules f L (keep _ _ _ _) _
      rw [keep]
      split
      · rename_i hs
        refine ih _ (hp s hs) (hc _) (by omega) fun iv' aad' c' t' hmem => ?_
        rcases List.mem_append.mp hmem with hmem | hmem
        · exact hh _ _ _ _ hmem
        · rw [List.mem_singleton] at hmem
          rw [e, ← hmem] at hs
          exact hs.elim
      · trivial
    | .inr (.inr x) =>
      obtain ⟨c, rfl, hc⟩ := hc
      obtain ⟨⟨aad, m, e, h2⟩, hp⟩ := hp (ivs i)
      refine ⟨?_, fun s => ?_⟩
      · rw [e]
        refine ⟨fun aad' c' t' hmem => ?_, h2⟩
        obtain ⟨j, hj, ej⟩ := hh _ _ _ _ hmem
        have := hv i j (by omega) (by omega) ej
        omega
      · show ByRules f L (keep _ _ _ _) _
        rw [keep]
        split
        · rename_i hs
          refine ih _ (hp s hs) (hc _) (by omega) fun iv' aad' c' t' hmem => ?_
          rcases List.mem_append.mp hmem with hmem | hmem
          · obtain ⟨j, hj, ej⟩ := hh _ _ _ _ hmem
            exact ⟨j, by omega, ej⟩
          · rw [List.mem_singleton] at hmem
            rw [e, ← hmem] at hs
            exact ⟨i, by omega, hs.1⟩
        · trivial

theorem fits_answer {Ω : Type} (S : Aead Ω) (F : Ω) (a : Ask) : a.Fits (S.answer F a) := by
  cases a with
  | enc iv aad m =>
    rw [Aead.answer]
    split
    · exact ⟨rfl, rfl⟩
    · trivial
  | dec iv aad c t =>
    rw [Aead.answer]
    split
    · exact ⟨rfl, rfl, rfl, rfl⟩
    · trivial
  | stop => trivial

theorem fits_snd (x : Pair) {s : Seen} (h : x.snd.Fits s) : x.fst.Fits s := by
  obtain ⟨⟨a, b⟩, hab⟩ := x
  change b.Fits s at h
  show a.Fits s
  match a, b, hab with
  | .enc .., .enc .., ⟨h1, h2, _⟩ =>
    subst h1; subst h2
    cases s <;> exact h
  | .dec .., .dec .., ⟨h1, h2, h3, h4⟩ =>
    subst h1; subst h2; subst h3; subst h4
    exact h
  | .stop, .stop, _ => exact h

end

theorem firstNonces_inj {n : Nat} {v : Fin n → Bytes 12} (hv : Function.Injective v) (i j : Nat) (hi : i < n) (hj : j < n)
    (h : firstNonces v i = firstNonces v j) : i = j := by
  rw [firstNonces, firstNonces, dif_pos hi, dif_pos hj] at h
  exact congrArg Fin.val (hv h)

/-- What holds for different nonces holds for most nonces. -/
theorem share_nonces {n : Nat} {A B : Type} [Fintype A] [Fintype B] {P : (Fin n → Bytes 12) × A → Prop} {R : (Fin n → Bytes 12) × B → Prop}
    {ε : ℚ} (hε : 0 ≤ ε) (h : ∀ v, Function.Injective v → share (fun a => P (v, a)) ≤ share (fun b => R (v, b)) + ε) [Nonempty A] :
    share P ≤ share R + ε + noncesBound n := by
  classical
  have : Nonempty (Bytes 12) := ⟨⟨List.replicate 12 0, List.length_replicate⟩⟩
  have h1 := share_prod_add (P := fun x : (Fin n → Bytes 12) × A => P x ∧ Function.Injective x.1) (Q := R) (ε := ε) fun v => by
    by_cases hv : Function.Injective v
    · exact (share_mono fun a ha => ha.1).trans (h v hv)
    · rw [share_false fun a ha => hv ha.2]
      exact add_nonneg (share_nonneg _) hε
  have h2 : share (fun x : (Fin n → Bytes 12) × A => ¬ Function.Injective x.1) ≤ noncesBound n := by
    rw [share_fst fun v : Fin n → Bytes 12 => ¬ Function.Injective v]
    refine (share_not_injective n).trans (le_of_eq ?_)
    rw [noncesBound, card_bytes]
    norm_num
  have h3 := share_le_add (P := P) (Q := fun x => P x ∧ Function.Injective x.1) (R := fun x : (Fin n → Bytes 12) × A => ¬ Function.Injective x.1)
    fun x hx => by by_cases hv : Function.Injective x.1 <;> [exact .inl ⟨hx, hv⟩; exact .inr hv]
  linarith

end Hacspec.Ideal
