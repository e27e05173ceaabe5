import Verif.Lemmas.Ideal.Oracle
import Verif.Lemmas.Ideal.Shares

/-! # A random function at the values of another function

As long as no two questions have the same value under `h`, the answers `g (h z)` are those of a random function of `z`. -/

namespace Hacspec.Ideal

open Spec Finset

section

variable {Z B S O : Type}

/-- No two different questions have the same value. -/
def CleanRun (h : Z → B) (ev : Z → S) : Prog Z S O → List Z → Prop
  | .ret _, _ => True
  | .ask z k, used => (∀ z' ∈ used, h z' = h z → z' = z) ∧ CleanRun h ev (k (ev z)) (z :: used)

variable [Fintype S]

section Points

variable {D : Type} [Fintype D] [DecidableEq D] [Nonempty S]

open Classical in
/-- The functions with these values. -/
noncomputable def fits (hist : List (D × S)) : Finset (D → S) := univ.filter fun g => ∀ p ∈ hist, g p.1 = p.2

open Classical in
theorem mem_fits {hist : List (D × S)} {g : D → S} : g ∈ fits hist ↔ ∀ p ∈ hist, g p.1 = p.2 := by
  rw [fits, Finset.mem_filter]
  simp

theorem card_fits {hist : List (D × S)} {a : D} (ha : ∀ p ∈ hist, p.1 ≠ a) (s : S) :
    Fintype.card S * (fits ((a, s) :: hist)).card = (fits hist).card := by
  classical
  have hle : ∀ s s', (fits ((a, s) :: hist)).card ≤ (fits ((a, s') :: hist)).card := by
    intro s s'
    refine Finset.card_le_card_of_injOn (fun g => Function.update g a s') ?_ ?_
    · intro g hg
      have hg := mem_fits.mp (Finset.mem_coe.mp hg)
      refine Finset.mem_coe.mpr (mem_fits.mpr fun p hp => ?_)
      rcases List.mem_cons.mp hp with rfl | hp
      · simp
      · show Function.update g a s' p.1 = p.2
        rw [Function.update_of_ne (ha p hp)]
        exact hg p (List.mem_cons_of_mem _ hp)
    · intro g hg g' hg' e
      have h1 := mem_fits.mp (Finset.mem_coe.mp hg) (a, s) (List.mem_cons_self ..)
      have h2 := mem_fits.mp (Finset.mem_coe.mp hg') (a, s) (List.mem_cons_self ..)
      funext d
      by_cases hd : d = a
      · rw [hd]
        exact h1.trans h2.symm
      · have := congrFun e d
        simpa [Function.update_of_ne hd] using this
  have hsum : ∑ s, (fits ((a, s) :: hist)).card = (fits hist).card := by
    have : ∀ s, fits ((a, s) :: hist) = (fits hist).filter fun g => g a = s := by
      intro s
      ext g
      rw [Finset.mem_filter, mem_fits, mem_fits]
      simp only [List.mem_cons, forall_eq_or_imp]
      exact and_comm
    simp only [this]
    exact (Finset.card_eq_sum_card_fiberwise fun g _ => Finset.mem_coe.mpr (Finset.mem_univ (g a))).symm
  rw [← hsum, Finset.sum_congr rfl fun s' _ => Nat.le_antisymm (hle s' s) (hle s s'), Finset.sum_const, Finset.card_univ, nsmul_eq_mul, Nat.cast_id]

theorem fits_nonempty {hist : List (D × S)} (hf : ∀ p ∈ hist, ∀ p' ∈ hist, p.1 = p'.1 → p.2 = p'.2) : (fits hist).Nonempty := by
  classical
  refine ⟨fun d => if h : ∃ p ∈ hist, p.1 = d then h.choose.2 else Classical.arbitrary S, mem_fits.mpr fun p hp => ?_⟩
  have h : ∃ p' ∈ hist, p'.1 = p.1 := ⟨p, hp, rfl⟩
  rw [dif_pos h]
  exact hf _ h.choose_spec.1 p hp h.choose_spec.2

end Points

variable [Fintype B] [Fintype Z] [DecidableEq B] [DecidableEq Z] [Nonempty S] (h : Z → B)

/-- The history, at the values. -/
def moved (hist : List (Z × S)) : List (B × S) := hist.map fun p => (h p.1, p.2)

open Classical in
/-- After a history in which different questions have different values, acceptance has the same share of both. -/
theorem card_clean (acc : O → Prop) (p : Prog Z S O) (hist : List (Z × S))
    (hf : ∀ p ∈ hist, ∀ p' ∈ hist, p.1 = p'.1 → p.2 = p'.2) (hc : ∀ p ∈ hist, ∀ p' ∈ hist, h p.1 = h p'.1 → p.1 = p'.1) :
    ((fits (moved h hist)).filter fun g => CleanRun h (g ∘ h) p (hist.map Prod.fst) ∧ acc (p.run (g ∘ h))).card * (fits hist).card =
      ((fits hist).filter fun R => CleanRun h R p (hist.map Prod.fst) ∧ acc (p.run R)).card * (fits (moved h hist)).card := by
  induction p generalizing hist with
  | ret o =>
    by_cases ha : acc o
    · rw [Finset.filter_true_of_mem (fun g _ => ⟨trivial, ha⟩), Finset.filter_true_of_mem (fun g _ => ⟨trivial, ha⟩), Nat.mul_comm]
    · rw [Finset.filter_false_of_mem (fun g _ h => ha h.2), Finset.filter_false_of_mem (fun g _ h => ha h.2)]
      simp
  | ask z k ih =>
    by_cases hz : ∃ p ∈ hist, p.1 = z
    · -- a question asked before
      obtain ⟨⟨z, s⟩, hp, rfl⟩ := hz
      have e1 : ∀ g ∈ fits (moved h hist), g (h z) = s := fun g hg =>
        mem_fits.mp hg (h z, s) (List.mem_map.mpr ⟨(z, s), hp, rfl⟩)
      have e2 : ∀ R ∈ fits hist, R z = s := fun R hR => mem_fits.mp hR (z, s) hp
      have key : fits ((z, s) :: hist) = fits hist := by
        ext R
        rw [mem_fits, mem_fits]
        simp only [List.mem_cons, forall_eq_or_imp]
        exact ⟨fun h => h.2, fun h => ⟨h _ hp, h⟩⟩
      have key' : fits (moved h ((z, s) :: hist)) = fits (moved h hist) := by
        ext g
        rw [mem_fits, mem_fits, moved, List.map_cons]
        simp only [List.mem_cons, forall_eq_or_imp]
        exact ⟨fun h => h.2, fun h' => ⟨h' (h z, s) (List.mem_map.mpr ⟨(z, s), hp, rfl⟩), h'⟩⟩
      have hcl : ∀ z' ∈ hist.map Prod.fst, h z' = h z → z' = z := by
        intro z' hz' e
        obtain ⟨p', hp', rfl⟩ := List.mem_map.mp hz'
        exact hc p' hp' (z, s) hp e
      have := ih s ((z, s) :: hist) ?_ ?_
      · rw [key, key'] at this
        convert this using 2
        · refine congrArg _ (Finset.filter_congr fun g hg => ?_)
          rw [CleanRun, Prog.run, List.map_cons]
          simp only [Function.comp_apply, e1 g hg]
          exact and_congr_left fun _ => ⟨fun h => h.2, fun h => ⟨hcl, h⟩⟩
        · refine congrArg _ (Finset.filter_congr fun R hR => ?_)
          rw [CleanRun, Prog.run, List.map_cons, e2 R hR]
          exact and_congr_left fun _ => ⟨fun h => h.2, fun h => ⟨hcl, h⟩⟩
      · intro p hp1 p' hp2 e
        have hp1 : p ∈ hist := by rcases List.mem_cons.mp hp1 with rfl | h' <;> assumption
        have hp2 : p' ∈ hist := by rcases List.mem_cons.mp hp2 with rfl | h' <;> assumption
        exact hf p hp1 p' hp2 e
      · intro p hp1 p' hp2 e
        have hp1 : p ∈ hist := by rcases List.mem_cons.mp hp1 with rfl | h' <;> assumption
        have hp2 : p' ∈ hist := by rcases List.mem_cons.mp hp2 with rfl | h' <;> assumption
        exact hc p hp1 p' hp2 e
    · by_cases hz' : ∃ p ∈ hist, h p.1 = h z
      · -- two questions with one value
        obtain ⟨p, hp, e⟩ := hz'
        have hne : p.1 ≠ z := fun e => hz ⟨p, hp, e⟩
        rw [Finset.filter_false_of_mem (fun g _ hh => hne (hh.1.1 p.1 (List.mem_map_of_mem hp) e)),
          Finset.filter_false_of_mem (fun g _ hh => hne (hh.1.1 p.1 (List.mem_map_of_mem hp) e))]
        simp
      · push Not at hz hz'
        have hcl : ∀ z' ∈ hist.map Prod.fst, h z' = h z → z' = z := by
          intro z' hz'' e
          obtain ⟨p', hp', rfl⟩ := List.mem_map.mp hz''
          exact absurd e (hz' p' hp')
        have c1 : ∀ s, Fintype.card S * (fits ((z, s) :: hist)).card = (fits hist).card := fun s => card_fits hz s
        have c2 : ∀ s, Fintype.card S * (fits (moved h ((z, s) :: hist))).card = (fits (moved h hist)).card := by
          intro s
          refine card_fits (hist := moved h hist) (a := h z) ?_ s
          intro p hp
          obtain ⟨p', hp', rfl⟩ := List.mem_map.mp hp
          exact hz' p' hp'
        have s1 : ((fits (moved h hist)).filter fun g => CleanRun h (g ∘ h) (.ask z k) (hist.map Prod.fst) ∧ acc ((Prog.ask z k).run (g ∘ h))).card =
            ∑ s, ((fits (moved h ((z, s) :: hist))).filter fun g =>
              CleanRun h (g ∘ h) (k s) (((z, s) :: hist).map Prod.fst) ∧ acc ((k s).run (g ∘ h))).card := by
          rw [Finset.card_eq_sum_card_fiberwise (f := fun g => g (h z)) (t := univ) fun g _ => Finset.mem_coe.mpr (Finset.mem_univ _)]
          refine Finset.sum_congr rfl fun s _ => congrArg _ ?_
          ext g
          rw [Finset.mem_filter, Finset.mem_filter, Finset.mem_filter]
          simp only [mem_fits, moved, List.map_cons, List.mem_cons, forall_eq_or_imp, CleanRun, Prog.run,
            Function.comp_apply]
          constructor
          · rintro ⟨⟨h1, ⟨-, h2⟩, h3⟩, e⟩
            rw [e] at h2 h3
            exact ⟨⟨e, h1⟩, h2, h3⟩
          · rintro ⟨⟨e, h1⟩, h2, h3⟩
            rw [e]
            exact ⟨⟨h1, ⟨hcl, h2⟩, h3⟩, rfl⟩
        have s2 : ((fits hist).filter fun R => CleanRun h R (.ask z k) (hist.map Prod.fst) ∧ acc ((Prog.ask z k).run R)).card =
            ∑ s, ((fits ((z, s) :: hist)).filter fun R =>
              CleanRun h R (k s) (((z, s) :: hist).map Prod.fst) ∧ acc ((k s).run R)).card := by
          rw [Finset.card_eq_sum_card_fiberwise (f := fun R => R z) (t := univ) fun g _ => Finset.mem_coe.mpr (Finset.mem_univ _)]
          refine Finset.sum_congr rfl fun s _ => congrArg _ ?_
          ext R
          rw [Finset.mem_filter, Finset.mem_filter, Finset.mem_filter]
          simp only [mem_fits, List.map_cons, List.mem_cons, forall_eq_or_imp, CleanRun, Prog.run]
          constructor
          · rintro ⟨⟨h1, ⟨-, h2⟩, h3⟩, e⟩
            rw [e] at h2 h3
            exact ⟨⟨e, h1⟩, h2, h3⟩
          · rintro ⟨⟨e, h1⟩, h2, h3⟩
            rw [e]
            exact ⟨⟨h1, ⟨hcl, h2⟩, h3⟩, rfl⟩
        rw [s1, s2, Finset.sum_mul, Finset.sum_mul]
        refine Finset.sum_congr rfl fun s _ => ?_
        have := ih s ((z, s) :: hist) ?_ ?_
        · rw [← c1 s, ← c2 s, Nat.mul_left_comm, this, Nat.mul_left_comm]
        · intro p hp1 p' hp2 e
          rcases List.mem_cons.mp hp1 with rfl | h1 <;> rcases List.mem_cons.mp hp2 with rfl | h2
          · rfl
          · exact absurd e.symm (hz p' h2)
          · exact absurd e (hz p h1)
          · exact hf p h1 p' h2 e
        · intro p hp1 p' hp2 e
          rcases List.mem_cons.mp hp1 with rfl | h1 <;> rcases List.mem_cons.mp hp2 with rfl | h2
          · rfl
          · exact absurd e.symm (hz' p' h2)
          · exact absurd e (hz' p h1)
          · exact hc p h1 p' h2 e

theorem share_clean (acc : O → Prop) (p : Prog Z S O) :
    share (fun g : B → S => CleanRun h (g ∘ h) p [] ∧ acc (p.run (g ∘ h))) =
      share fun R : Z → S => CleanRun h R p [] ∧ acc (p.run R) := by
  classical
  have e1 : fits ([] : List (B × S)) = univ := by ext g; rw [mem_fits]; simp
  have e2 : fits ([] : List (Z × S)) = univ := by ext g; rw [mem_fits]; simp
  have := card_clean h acc p [] (fun p hp => absurd hp List.not_mem_nil) (fun p hp => absurd hp List.not_mem_nil)
  rw [moved, List.map_nil, List.map_nil, e1, e2, Finset.card_univ, Finset.card_univ] at this
  have n1 : (Fintype.card (B → S) : ℚ) ≠ 0 := Nat.cast_ne_zero.mpr Fintype.card_ne_zero
  have n2 : (Fintype.card (Z → S) : ℚ) ≠ 0 := Nat.cast_ne_zero.mpr Fintype.card_ne_zero
  rw [share, share, div_eq_div_iff n1 n2]
  convert congrArg (Nat.cast (R := ℚ)) this using 1 <;> push_cast <;> congr!

end

end Hacspec.Ideal
