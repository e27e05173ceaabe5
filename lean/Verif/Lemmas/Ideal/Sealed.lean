import Verif.Lemmas.Ideal.Streams
import Verif.Lemmas.Ideal.Games
import Verif.Spec.Sealed

/-! # Answers replaced one after another -/

namespace Hacspec.Ideal

open Spec Finset

section Hybrid

variable {D X O J Y : Type}

/-- The values of `V` at `js`, those of `H` elsewhere. -/
def mix [DecidableEq J] (js : List J) (V H : J → Y) : J → Y := fun j => if j ∈ js then V j else H j

theorem share_mix [Fintype J] [DecidableEq J] [Fintype Y] [Nonempty Y] (js : List J) (P : (J → Y) → Prop) :
    share (fun x : (J → Y) × (J → Y) => P (mix js x.1 x.2)) = share P := by
  let e : (J → Y) × (J → Y) ≃ (J → Y) × (J → Y) :=
    ⟨fun x => (mix js x.1 x.2, mix js x.2 x.1), fun x => (mix js x.1 x.2, mix js x.2 x.1),
      fun x => by
        refine Prod.ext (funext fun j => ?_) (funext fun j => ?_) <;> simp only [mix] <;> split <;> rfl,
      fun x => by
        refine Prod.ext (funext fun j => ?_) (funext fun j => ?_) <;> simp only [mix] <;> split <;> rfl⟩
  exact (share_equiv e fun x => P x.1).trans (share_fst P)

variable {L : Nat} {f : Ask → List J} {K : List J} {Used : List Seen → J → Prop}

/-- Only values that were not used before matter, and those at `K`. -/
theorem run_unseen (g : D → X) {ans : (J → Y) → Ask → Seen}
    (hfresh : ∀ a h, a.Allowed L h → ∀ j ∈ f a, ¬ Used h j ∧ j ∉ K)
    (hused : ∀ a h, a.Allowed L h → ∀ F, ∀ j ∈ f a, Used (h ++ [ans F a]) j)
    (hmono : ∀ h s j, Used h j → Used (h ++ [s]) j)
    (hloc : ∀ a h, a.Allowed L h → ∀ F F', (∀ j ∈ f a, F j = F' j) → (∀ j ∈ K, F j = F' j) → ans F a = ans F' a)
    {p : Prog (D ⊕ Ask) (X ⊕ Seen) O} {h : List Seen} (hp : ByRules id L p h) {F F' : J → Y}
    (e : ∀ j, ¬ Used h j → F j = F' j) (eK : ∀ j ∈ K, F j = F' j) :
    p.run (sideAnswer g (ans F)) = p.run (sideAnswer g (ans F')) := by
  induction p generalizing h with
  | ret o => rfl
  | ask x k ih =>
    cases x with
    | inl d => exact ih _ (hp _) e
    | inr a =>
      have ea : ans F a = ans F' a := hloc a h hp.1 F F' (fun j hj => e j (hfresh a h hp.1 j hj).1) eK
      show (k (.inr (ans F a))).run _ = (k (.inr (ans F' a))).run _
      rw [← ea]
      exact ih _ (hp.2 _) fun j hj => e j fun hu => hj (hmono _ _ _ hu)

/-- If each answer can hardly be told from another one, all answers together can hardly be. -/
theorem share_hybrid [Fintype J] [DecidableEq J] [Fintype Y] [Nonempty Y] (g : D → X) {real ans : (J → Y) → Ask → Seen}
    (hfresh : ∀ a h, a.Allowed L h → ∀ j ∈ f a, ¬ Used h j ∧ j ∉ K)
    (hused : ∀ a h, a.Allowed L h → ∀ F, ∀ j ∈ f a, Used (h ++ [real F a]) j)
    (hused' : ∀ a h, a.Allowed L h → ∀ F, ∀ j ∈ f a, Used (h ++ [ans F a]) j)
    (hmono : ∀ h s j, Used h j → Used (h ++ [s]) j)
    (hloc : ∀ a h, a.Allowed L h → ∀ F F', (∀ j ∈ f a, F j = F' j) → (∀ j ∈ K, F j = F' j) → real F a = real F' a)
    (hloc' : ∀ a h, a.Allowed L h → ∀ F F', (∀ j ∈ f a, F j = F' j) → ans F a = ans F' a) {ε : ℚ}
    (hstep : ∀ a h, a.Allowed L h → ∀ (H : J → Y) (P : Seen → Prop),
      share (fun V => P (real (mix (f a) V H) a)) ≤ share (fun V => P (ans (mix (f a) V H) a)) + ε) (hε : 0 ≤ ε)
    {p : Prog (D ⊕ Ask) (X ⊕ Seen) O} {h : List Seen} {q n : Nat} (hp : ByRules id L p h) (hc : p.Counts q n) (acc : O → Prop) :
    share (fun F : J → Y => acc (p.run (sideAnswer g (real F)))) ≤ share (fun F : J → Y => acc (p.run (sideAnswer g (ans F)))) + n * ε := by
  classical
  induction p generalizing h q n with
  | ret o => exact le_add_of_nonneg_right (mul_nonneg (Nat.cast_nonneg _) hε)
  | ask x k ih =>
    cases x with
    | inl d =>
      obtain ⟨q', rfl, hc⟩ := hc
      exact ih _ (hp _) (hc _)
    | inr a =>
      obtain ⟨n', rfl, hc⟩ := hc
      have ha := hp.1
      have hM : ∀ (V H : J → Y) j, j ∈ f a → mix (f a) V H j = V j := fun V H j hj => if_pos hj
      have hM' : ∀ (V H : J → Y) j, j ∉ f a → mix (f a) V H j = H j := fun V H j hj => if_neg hj
      have s1 : share (fun F : J → Y => acc ((Prog.ask (.inr a) k).run (sideAnswer g (real F)))) =
          share (fun x : (J → Y) × (J → Y) => acc ((k (.inr (real (mix (f a) x.2 x.1) a))).run (sideAnswer g (real x.1)))) := by
        rw [← share_mix (f a), ← share_swap]
        refine share_congr fun x => iff_of_eq (congrArg acc ?_)
        show (k (.inr (real (mix (f a) x.2 x.1) a))).run _ = _
        refine run_unseen g hfresh hused hmono hloc (hp.2 _) (fun j hj => ?_) fun j hj => ?_
        · exact hM' _ _ j fun hf => hj (hused a h ha _ j hf)
        · exact hM' _ _ j fun hf => (hfresh a h ha j hf).2 hj
      have s2 : share (fun x : (J → Y) × (J → Y) => acc ((k (.inr (real (mix (f a) x.2 x.1) a))).run (sideAnswer g (real x.1)))) ≤
          share (fun x : (J → Y) × (J → Y) => acc ((k (.inr (ans (mix (f a) x.2 x.1) a))).run (sideAnswer g (real x.1)))) + ε :=
        share_prod_add fun H => hstep a h ha H fun s => acc ((k (.inr s)).run (sideAnswer g (real H)))
      have s3 : share (fun x : (J → Y) × (J → Y) => acc ((k (.inr (ans (mix (f a) x.2 x.1) a))).run (sideAnswer g (real x.1)))) =
          share (fun x : (J → Y) × (J → Y) => acc ((k (.inr (ans x.1 a))).run (sideAnswer g (real x.2)))) := by
        rw [← share_swap]
        exact share_congr fun x => by rw [hloc' a h ha (mix (f a) x.1 x.2) x.1 (hM _ _)]
      have s4 : share (fun x : (J → Y) × (J → Y) => acc ((k (.inr (ans x.1 a))).run (sideAnswer g (real x.2)))) ≤
          share (fun x : (J → Y) × (J → Y) => acc ((k (.inr (ans x.1 a))).run (sideAnswer g (ans x.2)))) + n' * ε :=
        share_prod_add fun V => ih (.inr (ans V a)) (hp.2 _) (hc _)
      have s5 : share (fun x : (J → Y) × (J → Y) => acc ((k (.inr (ans x.1 a))).run (sideAnswer g (ans x.2)))) =
          share (fun F : J → Y => acc ((Prog.ask (.inr a) k).run (sideAnswer g (ans F)))) := by
        rw [← share_mix (f a) fun F : J → Y => acc ((Prog.ask (.inr a) k).run (sideAnswer g (ans F)))]
        refine share_congr fun x => iff_of_eq (congrArg acc ?_)
        show _ = (k (.inr (ans (mix (f a) x.1 x.2) a))).run _
        rw [hloc' a h ha (mix (f a) x.1 x.2) x.1 (hM _ _)]
        refine (run_unseen g hfresh hused' hmono (fun a h ha F F' e _ => hloc' a h ha F F' e) (hp.2 _) (fun j hj => ?_) fun j hj => ?_).symm
        · exact hM' _ _ j fun hf => hj (hused' a h ha _ j hf)
        · exact hM' _ _ j fun hf => (hfresh a h ha j hf).2 hj
      push_cast
      linarith

end Hybrid

/-! ## Nothing is decrypted -/

/-- If nothing is decrypted, nothing else is seen if decryption is switched off. -/
theorem run_blind {Ω D X O : Type} (S : Aead Ω) {L : Nat} (hS : ∀ F iv aad c t, blocks aad c ≤ L → ∃ r, S.dec F iv aad c t = .ok r) (g : D → X)
    (F : Ω) {p : Prog (D ⊕ Ask) (X ⊕ Seen) O} {h : List Seen} (hp : ByRules id L p h)
    (hd : ¬ Decrypted (p.answers (sideAnswer g (S.answer F)))) :
    p.run (sideAnswer g (S.answer F)) = p.run (sideAnswer g (blindAnswer S F)) := by
  induction p generalizing h with
  | ret o => rfl
  | ask x k ih =>
    have hk : ∀ r : X ⊕ Seen, sideAnswer g (S.answer F) x = r → ¬ Decrypted ((k r).answers (sideAnswer g (S.answer F))) := by
      rintro r rfl ⟨iv, aad, c, t, m, hm⟩
      exact hd ⟨iv, aad, c, t, m, List.mem_cons_of_mem _ hm⟩
    cases x with
    | inl d => exact ih _ (hp _) (hk _ rfl)
    | inr a =>
      have e : S.answer F a = blindAnswer S F a := by
        cases a with
        | enc iv aad m => rfl
        | stop => rfl
        | dec iv aad c t =>
          obtain ⟨r, hr⟩ := hS F iv aad c t hp.1.2
          have e : S.answer F (.dec iv aad c t) = .dec iv aad c t r := by rw [Aead.answer, hr]
          cases r with
          | none => exact e
          | some m =>
            refine absurd ⟨iv, aad, c, t, m, ?_⟩ hd
            exact List.mem_cons.mpr (.inl (congrArg Sum.inr e.symm))
      show (k (.inr (S.answer F a))).run _ = (k (.inr (blindAnswer S F a))).run _
      rw [← e]
      exact ih _ (hp.2 _) (hk _ rfl)

/-! ## Encryption with a stream and a tag -/

section Sealing

variable {n : Nat} {Z : Type}

/-- The points for a question. -/
def sealPoints (n : Nat) (t c : U32) : Ask → List (Bytes 12 × U32)
  | .enc iv _ m => (iv, t) :: StreamAsk.blocks n (iv, c, m)
  | _ => []

/-- The nonces that were used. -/
def sealUsed (h : List Seen) (j : Bytes 12 × U32) : Prop := ∃ aad c t, Seen.enc j.1 aad c t ∈ h

/-- The answers: a stream and a tag `tg`. -/
def sealing (t c : U32) (κ : (Bytes 12 × U32 → Bytes n) → Z) (tg : Z → Bytes n → List U8 → List U8 → List U8)
    (F : Bytes 12 × U32 → Bytes n) : Ask → Seen
  | .enc iv aad m => .enc iv aad (streamOf F (iv, c, m)) (tg (κ F) (F (iv, t)) aad (streamOf F (iv, c, m)))
  | .dec iv aad c t => .dec iv aad c t none
  | .stop => .stopped

theorem share_renew {J Y : Type} [Fintype J] [DecidableEq J] [Fintype Y] [Nonempty Y] (j : J) (P : (J → Y) → Prop) :
    share (fun x : (J → Y) × Y => P (Function.update x.1 j x.2)) = share P := by
  let e : (J → Y) × Y ≃ (J → Y) × Y :=
    ⟨fun x => (Function.update x.1 j x.2, x.1 j), fun x => (Function.update x.1 j x.2, x.1 j),
      fun x => by simp, fun x => by simp⟩
  exact (share_equiv e fun x => P x.1).trans (share_fst P)

theorem mem_streamBlocks {x : StreamAsk} {j : Bytes 12 × U32} (h : j ∈ x.blocks n) :
    j.1 = x.1 ∧ ∃ i, i < (x.2.2.length + n - 1) / n ∧ j.2 = x.2.1 + BitVec.ofNat 32 i := by
  obtain ⟨i, hi, rfl⟩ := List.mem_map.mp h
  exact ⟨rfl, i, List.mem_range.mp hi, rfl⟩

/-- One question. -/
theorem share_sealing [Nonempty (Bytes n)] [DecidableEq (Bytes 12 × U32)] (hn : 0 < n) {d : Nat} {t c : U32} {κ : (Bytes 12 × U32 → Bytes n) → Z} {K : List (Bytes 12 × U32)}
    (hκ : ∀ F F', (∀ j ∈ K, F j = F' j) → κ F = κ F') {tg : Z → Bytes n → List U8 → List U8 → List U8} {ε : ℚ} (hε : 0 ≤ ε)
    (htg : ∀ z aad c (P : List U8 → Prop), share (fun y => P (tg z y aad c)) ≤ share (fun y : Bytes n => P ((y.1.drop d).take 16)) + ε)
    {a : Ask} (hK : ∀ j ∈ sealPoints n t c a, j ∉ K)
    (hnd : ∀ iv aad m, a = .enc iv aad m → (sealPoints n t c a).Nodup) (H : Bytes 12 × U32 → Bytes n) (P : Seen → Prop) :
    share (fun V => P (sealing t c κ tg (mix (sealPoints n t c a) V H) a)) ≤
      share (fun V => P (randomSealed d t c (mix (sealPoints n t c a) V H) a)) + ε := by
  classical
  match a, hK, hnd with
  | .dec iv aad c t, _, _ => exact le_add_of_nonneg_right hε
  | .stop, _, _ => exact le_add_of_nonneg_right hε
  | .enc iv aad m, hK, hnd =>
    have hnd := List.nodup_cons.mp (hnd iv aad m rfl)
    let x : StreamAsk := (iv, c, m)
    have hκ' : ∀ V, κ (mix (sealPoints n t c (.enc iv aad m)) V H) = κ H := fun V => hκ _ _ fun j hj => if_neg fun h => hK j h hj
    have hM : ∀ (V : Bytes 12 × U32 → Bytes n) j, j ∈ (iv, t) :: x.blocks n → mix ((iv, t) :: x.blocks n) V H j = V j := fun V j hj => if_pos hj
    let T : (Bytes 12 × U32 → Bytes n) → Bytes 12 × U32 → Bytes n := fun V j =>
      if j ∈ x.blocks n then bxor (V j) (dl n m (List.replicate m.length 0) (j.2 - c).toNat) else V j
    have hT : Function.Injective T := fun V V' e => funext fun j => by
      have := congrFun e j
      simp only [T] at this
      by_cases hj : j ∈ x.blocks n
      · rw [if_pos hj, if_pos hj] at this
        rw [bxor_comm, bxor_comm (V' j)] at this
        exact bxor_left_inj this
      · rwa [if_neg hj, if_neg hj] at this
    have s1 : share (fun V => P (sealing t c κ tg (mix (sealPoints n t c (.enc iv aad m)) V H) (.enc iv aad m))) =
        share (fun V : Bytes 12 × U32 → Bytes n => P (.enc iv aad (randomStream V x) (tg (κ H) (V (iv, t)) aad (randomStream V x)))) := by
      refine Eq.trans (share_congr fun V => ?_) (share_equiv (Equiv.ofBijective T (Finite.injective_iff_bijective.mp hT))
        fun V : Bytes 12 × U32 → Bytes n => P (.enc iv aad (randomStream V x) (tg (κ H) (V (iv, t)) aad (randomStream V x))))
      refine iff_of_eq (congrArg P ?_)
      have e1 : streamOf (mix (sealPoints n t c (.enc iv aad m)) V H) (iv, c, m) = randomStream (T V) x := by
        refine (streamOf_local (iv, c, m) _ V fun j hj => hM V j (List.mem_cons_of_mem _ hj)).trans ?_
        rw [streamOf_eq hn V (iv, c, m) hnd.2]
        exact randomStream_local x _ _ fun j hj => (if_pos hj).symm
      have e2 : T V (iv, t) = V (iv, t) := if_neg hnd.1
      rw [sealing, hκ', e1, show mix (sealPoints n t c (.enc iv aad m)) V H (iv, t) = V (iv, t) from hM V _ (List.mem_cons_self ..)]
      show _ = Seen.enc iv aad (randomStream (T V) x) (tg (κ H) (T V (iv, t)) aad (randomStream (T V) x))
      rw [e2]
    have s2 : share (fun V => P (randomSealed d t c (mix (sealPoints n t c (.enc iv aad m)) V H) (.enc iv aad m))) =
        share (fun V : Bytes 12 × U32 → Bytes n => P (.enc iv aad (randomStream V x) (((V (iv, t)).1.drop d).take 16))) := by
      refine share_congr fun V => iff_of_eq (congrArg P ?_)
      rw [randomSealed, show randomStream (mix (sealPoints n t c (.enc iv aad m)) V H) (iv, c, m) = randomStream V (iv, c, m) from
        randomStream_local (iv, c, m) _ V fun j hj => hM V j (List.mem_cons_of_mem _ hj),
        show mix (sealPoints n t c (.enc iv aad m)) V H (iv, t) = V (iv, t) from hM V _ (List.mem_cons_self ..)]
    rw [s1, s2, ← share_renew (iv, t), ← share_renew (iv, t) fun V : Bytes 12 × U32 → Bytes n =>
      P (.enc iv aad (randomStream V x) (((V (iv, t)).1.drop d).take 16))]
    refine share_prod_add fun V => ?_
    have e : ∀ y, randomStream (Function.update V (iv, t) y) x = randomStream V x := fun y =>
      randomStream_local x _ _ fun j hj => Function.update_of_ne (fun e : j = (iv, t) => hnd.1 (e ▸ hj)) ..
    simp only [e, Function.update_self]
    exact htg (κ H) aad (randomStream V x) fun t => P (.enc iv aad (randomStream V x) t)

/-- All questions. -/
theorem share_sealed [Nonempty (Bytes n)] {D X O : Type} (g : D → X) (hn : 0 < n) {d L : Nat} {t c : U32} {κ : (Bytes 12 × U32 → Bytes n) → Z} {K : List (Bytes 12 × U32)}
    (hκ : ∀ F F', (∀ j ∈ K, F j = F' j) → κ F = κ F') {tg : Z → Bytes n → List U8 → List U8 → List U8} {ε : ℚ} (hε : 0 ≤ ε)
    (htg : ∀ z aad c (P : List U8 → Prop), share (fun y => P (tg z y aad c)) ≤ share (fun y : Bytes n => P ((y.1.drop d).take 16)) + ε)
    (hK : ∀ a h, a.Allowed L h → ∀ j ∈ sealPoints n t c a, j ∉ K)
    (hnd : ∀ iv aad m, blocks aad m ≤ L → (sealPoints n t c (.enc iv aad m)).Nodup)
    {p : Prog (D ⊕ Ask) (X ⊕ Seen) O} {q N : Nat} (hp : ByRules id L p []) (hc : p.Counts q N) (acc : O → Prop) :
    share (fun F => acc (p.run (sideAnswer g (sealing t c κ tg F)))) ≤
      share (fun H : Bytes 12 × U32 → Bytes n => acc (p.run (sideAnswer g (randomSealed d t c H)))) + N * ε := by
  classical
  have hpts : ∀ {iv aad m j}, j ∈ sealPoints n t c (.enc iv aad m) → j.1 = iv := fun hj => by
    rcases List.mem_cons.mp hj with rfl | hj
    · rfl
    · exact (mem_streamBlocks hj).1
  have hu : ∀ {a h s}, a.Allowed L h → (∀ iv aad m, a = .enc iv aad m → ∃ c t, s = Seen.enc iv aad c t) →
      ∀ j ∈ sealPoints n t c a, sealUsed (h ++ [s]) j := by
    intro a h s ha hs j hj
    cases a with
    | enc iv aad m =>
      obtain ⟨c, t, rfl⟩ := hs iv aad m rfl
      exact ⟨aad, c, t, List.mem_append_right _ (by rw [hpts hj]; exact List.mem_singleton_self _)⟩
    | dec iv aad c t => exact absurd hj List.not_mem_nil
    | stop => exact absurd hj List.not_mem_nil
  refine share_hybrid (L := L) (f := sealPoints n t c) (K := K) (Used := sealUsed) g ?_ ?_ ?_ ?_ ?_ ?_ ?_ hε hp hc acc
  · intro a h ha j hj
    refine ⟨?_, hK a h ha j hj⟩
    cases a with
    | enc iv aad m =>
      rintro ⟨aad', c', t', hm⟩
      rw [hpts hj] at hm
      exact ha.1 _ _ _ hm
    | dec iv aad c t => exact absurd hj List.not_mem_nil
    | stop => exact absurd hj List.not_mem_nil
  · exact fun a h ha F => hu ha fun iv aad m e => by subst e; exact ⟨_, _, rfl⟩
  · exact fun a h ha F => hu ha fun iv aad m e => by subst e; exact ⟨_, _, rfl⟩
  · rintro h s j ⟨aad, c, t, hm⟩
    exact ⟨aad, c, t, List.mem_append_left _ hm⟩
  · intro a h ha F F' e eK
    cases a with
    | enc iv aad m =>
      rw [sealing, sealing, hκ F F' eK, e _ (List.mem_cons_self ..),
        streamOf_local (iv, c, m) F F' fun j hj => e j (List.mem_cons_of_mem _ hj)]
    | dec iv aad c t => rfl
    | stop => rfl
  · intro a h ha F F' e
    cases a with
    | enc iv aad m =>
      rw [randomSealed, randomSealed, e _ (List.mem_cons_self ..),
        randomStream_local (iv, c, m) F F' fun j hj => e j (List.mem_cons_of_mem _ hj)]
    | dec iv aad c t => rfl
    | stop => rfl
  · intro a h ha H P
    exact share_sealing hn hκ hε htg (hK a h ha) (fun iv aad m e => by subst e; exact hnd iv aad m ha.2) H P

end Sealing

end Hacspec.Ideal
