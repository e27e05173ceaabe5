import Verif.Lemmas.Ideal.Ratchets
import Verif.Props.Sessions

/-! # C137: chains of keys with HKDF-Expand -/

namespace Hacspec.Props

open Spec Hacspec.Ideal Finset

section

variable {ℓ : Nat} (hℓ : ℓ < 2 ^ 54) (use next : Infos ℓ) {κ : Nat} (hκ : κ ≤ 32)

/-- The two questions of one step. -/
def stepWanted : List (Wanted ℓ 1) := [(use, ⟨κ, by omega⟩), (next, ⟨32, by omega⟩)]

theorem pad32 : 32 ≤ 64 := by decide

/-- One step, by questions to the cipher. -/
noncomputable def stepProg (k : Bytes 32) : Prog (Dir (Bytes 64) (Words 32 8)) (Words 32 8) (List (M (List U8))) :=
  unnest addWords (padKey 0x36#8 pad32) (padKey 0x5c#8 pad32) shaStart outerBlock (fun z : Texts false ℓ => restKeys z.1) k
    (kdfCompile (askKeys (.error .panic) (stepWanted use next hκ) fun l => .ret l))

include hℓ in
theorem run_stepProg (E : Bytes 64 → Equiv.Perm (Words 32 8)) (k : Bytes 32) : (stepProg use next hκ k).run (Dir.answer E) =
    [Hacspec.Ideal.expand E k.1 use.1 κ, Hacspec.Ideal.expand E k.1 next.1 32] := by
  rw [stepProg, run_unnest, run_kdfCompile]
  have e : kdfEv (evReal addWords (padKey 0x36#8 pad32) (padKey 0x5c#8 pad32) shaStart outerBlock (fun z : Texts false ℓ => restKeys z.1) (E, k)) =
      sideAnswer (Dir.answer E) fun x : Wanted ℓ 1 => Hacspec.Ideal.expand E k.1 x.1.1 x.2.1 := by
    funext x
    cases x with
    | inl d => rfl
    | inr x => exact (expand_blocks pad32 (by decide) hℓ (E, k) x).symm
  rw [e, run_askKeys]
  rfl

theorem stepProg_within (k : Bytes 32) : (stepProg use next hκ k).Within (2 * (ℓ + 3)) := by
  have h := askKeys_counts (D := Dir (Bytes 64) (Words 32 8)) (X := Words 32 8) (Except.error Fail.panic) (q := 0) (stepWanted use next hκ)
    (fun l : List (M (List U8)) => .ret l) fun _ => trivial
  have h2 := unnest_within addWords (padKey 0x36#8 pad32) (padKey 0x5c#8 pad32) shaStart outerBlock (fun z : Texts false ℓ => restKeys z.1)
    (fun z : Texts false ℓ => length_restKeys z.2.1) k (kdfCompile_counts h)
  refine within_mono h2 ?_
  rw [show (stepWanted use next hκ).length = 2 from rfl]
  omega

include hℓ in
theorem expand_bytes (E : Bytes 64 → Equiv.Perm (Words 32 8)) (k : Bytes 32) (info : Infos ℓ) {l : Nat} (hl : l ≤ 32) :
    ∃ b : Bytes l, Hacspec.Ideal.expand E k.1 info.1 l = .ok b.1 := by
  have h := expand_blocks (N := 1) pad32 (by decide) hℓ (E, k) (info, ⟨l, by omega⟩)
  have h := Sum.inr.inj h
  refine ⟨⟨_, ?_⟩, h⟩
  rw [List.range_one, List.map_singleton, List.map_singleton, List.flatten_singleton, List.length_take]
  exact (congrArg (min l) (Subtype.property (p := fun l : List U8 => l.length = 32) _)).trans (min_eq_left hl)

/-- All steps, by questions to the cipher. -/
noncomputable def ratchetProg : Nat → Bytes 32 → Prog (Dir (Bytes 64) (Words 32 8)) (Words 32 8) (M (List (List U8) × List U8))
  | 0, k => .ret (.ok ([], k.1))
  | r + 1, k => andThen (stepProg use next hκ k) fun
    | [.ok m, .ok k'] =>
      if h : k'.length = 32 then andThen (ratchetProg r ⟨k', h⟩) fun x => .ret (x >>= fun x => .ok (m :: x.1, x.2)) else .ret (.error .panic)
    | _ => .ret (.error .panic)

include hℓ in
theorem run_ratchetProg (E : Bytes 64 → Equiv.Perm (Words 32 8)) (r : Nat) (k : Bytes 32) : (ratchetProg use next hκ r k).run (Dir.answer E) =
    ratchet (Hacspec.Ideal.expand E) use.1 next.1 κ r k.1 := by
  induction r generalizing k with
  | zero => rfl
  | succ r ih =>
    obtain ⟨m, hm⟩ := expand_bytes hℓ E k use hκ
    obtain ⟨k', hk⟩ := expand_bytes hℓ E k next (le_refl 32)
    rw [ratchetProg, run_andThen (fun E : Bytes 64 → Equiv.Perm (Words 32 8) => Dir.answer E) E, run_stepProg hℓ, hm, hk]
    dsimp only
    rw [dif_pos k'.2, run_andThen (fun E : Bytes 64 → Equiv.Perm (Words 32 8) => Dir.answer E) E, ih, ratchet, hm, bind_ok, hk, bind_ok]
    rfl

theorem ratchetProg_within (r : Nat) (k : Bytes 32) : (ratchetProg use next hκ r k).Within (r * (2 * (ℓ + 3))) := by
  induction r generalizing k with
  | zero => trivial
  | succ r ih =>
    rw [Nat.succ_mul, Nat.add_comm (r * _)]
    refine within_andThen (stepProg_within use next hκ k) fun s => ?_
    split
    · split
      · exact within_andThen (m := 0) (ih _) fun _ => trivial
      · trivial
    · trivial

include hℓ hκ in
theorem ratchet_step (hne : use ≠ next) {O : Type} (r : Nat) (p : M (List (List U8) × List U8) → Prog (Dir (Bytes 64) (Words 32 8)) (Words 32 8) O)
    (q : Nat) (hp : ∀ x, (p x).Within q) (hT : q + r * (2 * (ℓ + 3)) + 2 * ℓ < 2 ^ 256) (acc : O → Prop) :
    |share (fun ω : (Bytes 64 → Equiv.Perm (Words 32 8)) × Bytes 32 =>
        acc ((p (ratchet (Hacspec.Ideal.expand ω.1) use.1 next.1 κ (r + 1) ω.2.1)).run (Dir.answer ω.1))) -
      share (fun ω : Bytes κ × ((Bytes 64 → Equiv.Perm (Words 32 8)) × Bytes 32) =>
        acc ((p (ratchet (Hacspec.Ideal.expand ω.2.1) use.1 next.1 κ r ω.2.2.1 >>= fun x => .ok (ω.1.1 :: x.1, x.2))).run (Dir.answer ω.2.1)))| ≤
      prfBound 32 (q + r * (2 * (ℓ + 3)) + 2 * ℓ) 2 := by
  classical
  let x₀ : Words 32 8 := ⟨List.replicate 8 0, List.length_replicate⟩
  let c : List (M (List U8)) → Prog (Dir (Bytes 64) (Words 32 8)) (Words 32 8) O := fun
    | [.ok m, .ok k'] => if h : k'.length = 32 then andThen (ratchetProg use next hκ r ⟨k', h⟩) fun x => p (x >>= fun x => .ok (m :: x.1, x.2))
        else .ret ((p (.error .panic)).run fun _ => x₀)
    | _ => .ret ((p (.error .panic)).run fun _ => x₀)
  have hc : ∀ l, (c l).Within (q + r * (2 * (ℓ + 3))) := by
    intro l
    dsimp only [c]
    split
    · split
      · rw [Nat.add_comm]
        exact within_andThen (ratchetProg_within use next hκ r _) fun _ => hp _
      · trivial
    · trivial
  let A : KdfAttack ℓ 1 O := askKeys (.error .panic) (stepWanted use next hκ) fun l => alone x₀ (c l)
  have hA : A.Counts (q + r * (2 * (ℓ + 3))) 2 := askKeys_counts (Except.error Fail.panic) (stepWanted use next hκ) _ fun l => alone_counts x₀ (hc l)
  have hr : ∀ (E : Bytes 64 → Equiv.Perm (Words 32 8)) (mac : Wanted ℓ 1 → M (List U8)) (m : List U8) (k' : Bytes 32),
      mac (use, ⟨κ, by omega⟩) = .ok m → mac (next, ⟨32, by omega⟩) = .ok k'.1 →
      A.run (macAnswer E mac) = (p (ratchet (Hacspec.Ideal.expand E) use.1 next.1 κ r k'.1 >>= fun x => .ok (m :: x.1, x.2))).run (Dir.answer E) := by
    intro E mac m k' h1 h2
    rw [macAnswer_side, run_askKeys, run_alone, stepWanted, List.map_cons, List.map_singleton, h1, h2]
    dsimp only [c]
    rw [dif_pos k'.2, run_andThen (fun E : Bytes 64 → Equiv.Perm (Words 32 8) => Dir.answer E) E, run_ratchetProg hℓ]
  have h := C114_prf (n := 32) pad32 (by decide) hℓ A _ 2 hA (by rw [Nat.mul_one]; exact hT) acc
  refine le_trans (le_of_eq ?_) (h.trans_eq (by rw [show (2 * 1 : Nat) = 2 from rfl]))
  congr 2
  · refine share_congr fun ω => ?_
    obtain ⟨m, hm⟩ := expand_bytes hℓ ω.1 ω.2 use hκ
    obtain ⟨k', hk⟩ := expand_bytes hℓ ω.1 ω.2 next (le_refl 32)
    rw [hr ω.1 (fun x => Hacspec.Ideal.expand ω.1 ω.2.1 x.1.1 x.2.1) m.1 k' hm hk, ratchet, hm, bind_ok, hk, bind_ok]
  · have e := share_equiv (Ω := (Bytes 64 → Equiv.Perm (Words 32 8)) × (Bytes 32 × Bytes κ))
      ⟨fun ω => (ω.2.2, ω.1, ω.2.1), fun ω => (ω.2.1, ω.2.2, ω.1), fun _ => rfl, fun _ => rfl⟩
      fun ω : Bytes κ × ((Bytes 64 → Equiv.Perm (Words 32 8)) × Bytes 32) =>
        acc ((p (ratchet (Hacspec.Ideal.expand ω.2.1) use.1 next.1 κ r ω.2.2.1 >>= fun x => .ok (ω.1.1 :: x.1, x.2))).run (Dir.answer ω.2.1))
    rw [← e]
    simp only [Equiv.coe_fn_mk]
    rw [share_prod, share_prod]
    congr 1
    refine Finset.sum_congr rfl fun E _ => ?_
    have hz : Function.Injective fun b : Bool => ((if b then use else next), (0 : Fin 1)) := by
      intro b b' h
      have h := (Prod.mk.inj h).1
      cases b <;> cases b'
      · rfl
      · exact absurd h.symm hne
      · exact absurd h hne
      · rfl
    have h1 := share_points hz fun F : Bool → Bytes 32 => acc ((p (ratchet (Hacspec.Ideal.expand E) use.1 next.1 κ r (F false).1 >>= fun x =>
      .ok ((F true).1.take κ :: x.1, x.2))).run (Dir.answer E))
    have h2 := share_equiv (Ω := Bool → Bytes 32) (Equiv.boolArrowEquivProd _) fun y : Bytes 32 × Bytes 32 =>
      acc ((p (ratchet (Hacspec.Ideal.expand E) use.1 next.1 κ r y.1.1 >>= fun x => .ok (y.2.1.take κ :: x.1, x.2))).run (Dir.answer E))
    have h3 : share (fun y : Bytes 32 × Bytes 32 =>
        acc ((p (ratchet (Hacspec.Ideal.expand E) use.1 next.1 κ r y.1.1 >>= fun x => .ok (y.2.1.take κ :: x.1, x.2))).run (Dir.answer E))) =
        share (fun y : Bytes 32 × Bytes κ =>
          acc ((p (ratchet (Hacspec.Ideal.expand E) use.1 next.1 κ r y.1.1 >>= fun x => .ok (y.2.1 :: x.1, x.2))).run (Dir.answer E))) := by
      rw [share_prod, share_prod]
      congr 1
      exact Finset.sum_congr rfl fun k _ => share_take_one hκ fun m : Bytes κ =>
        acc ((p (ratchet (Hacspec.Ideal.expand E) use.1 next.1 κ r k.1 >>= fun x => .ok (m.1 :: x.1, x.2))).run (Dir.answer E))
    rw [← h3, ← h2]
    refine h1.symm.trans ?_
    refine share_congr fun F => ?_
    rw [hr E (fun x => .ok (randomBytes F x)) ((F (use, 0)).1.take κ) (F (next, 0)) (by rw [randomBytes_one]) (by
      rw [randomBytes_one, List.take_of_length_le (le_of_eq (F (next, 0)).2)])]
    rfl

end

/-- **C137.**  A chain of keys: from a random key, `expand` derives with the string `use` a key of `κ` bytes and with `next` the next key of
the chain, `r` times.  Whoever has all these keys and the last key of the chain, and asks the cipher inside SHA-256 `q` times, decides as
often as for independent random keys, up to `ratchetBound`: the key of the chain at some time tells nothing about the keys before it. -/
theorem C137_keys {ℓ : Nat} (hℓ : ℓ < 2 ^ 54) (use next : Infos ℓ) (hne : use ≠ next) {κ : Nat} (hκ : κ ≤ 32) {O : Type} (r : Nat)
    (p : M (List (List U8) × List U8) → Prog (Dir (Bytes 64) (Words 32 8)) (Words 32 8) O) (q : Nat) (hp : ∀ x, (p x).Within q)
    (hT : q + r * (2 * (ℓ + 3)) + 2 * ℓ < 2 ^ 256) (acc : O → Prop) :
    |share (fun ω : (Bytes 64 → Equiv.Perm (Words 32 8)) × Bytes 32 =>
        acc ((p (ratchet (Hacspec.Ideal.expand ω.1) use.1 next.1 κ r ω.2.1)).run (Dir.answer ω.1))) -
      share (fun ω : (Bytes 64 → Equiv.Perm (Words 32 8)) × ((Fin r → Bytes κ) × Bytes 32) =>
        acc ((p (.ok (List.ofFn fun i => (ω.2.1 i).1, ω.2.2.1))).run (Dir.answer ω.1)))| ≤ ratchetBound q ℓ r := by
  induction r generalizing p with
  | zero =>
    have e := share_equiv (Ω := (Bytes 64 → Equiv.Perm (Words 32 8)) × Bytes 32)
      ⟨fun ω => (ω.1, (fun i : Fin 0 => i.elim0 : Fin 0 → Bytes κ), ω.2), fun ω => (ω.1, ω.2.2), fun _ => rfl, fun ω =>
        Prod.ext rfl (Prod.ext (Subsingleton.elim _ _) rfl)⟩
      fun ω : (Bytes 64 → Equiv.Perm (Words 32 8)) × ((Fin 0 → Bytes κ) × Bytes 32) =>
        acc ((p (.ok (List.ofFn fun i => (ω.2.1 i).1, ω.2.2.1))).run (Dir.answer ω.1))
    rw [← e]
    exact le_of_eq (by rw [show ∀ x y : ℚ, x = y → |x - y| = 0 from fun x y h => by rw [h, sub_self, abs_zero]]; · rfl
                       · rfl)
  | succ r ih =>
    have hT' : q + r * (2 * (ℓ + 3)) + 2 * ℓ < 2 ^ 256 := by
      rw [Nat.succ_mul] at hT
      omega
    have h1 := ratchet_step hℓ use next hκ hne r p q hp hT' acc
    have h2 := fun m : Bytes κ => abs_le.mp (ih (fun x => p (x >>= fun x => .ok (m.1 :: x.1, x.2))) (fun x => hp _) hT')
    have e := share_equiv (Ω := Bytes κ × ((Bytes 64 → Equiv.Perm (Words 32 8)) × ((Fin r → Bytes κ) × Bytes 32)))
      ⟨fun ω => (ω.2.1, (Fin.cons ω.1 ω.2.2.1 : Fin (r + 1) → Bytes κ), ω.2.2.2), fun ω => (ω.2.1 0, ω.1, Fin.tail ω.2.1, ω.2.2),
        fun _ => by simp, fun _ => by simp⟩
      fun ω : (Bytes 64 → Equiv.Perm (Words 32 8)) × ((Fin (r + 1) → Bytes κ) × Bytes 32) =>
        acc ((p (.ok (List.ofFn fun i => (ω.2.1 i).1, ω.2.2.1))).run (Dir.answer ω.1))
    rw [← e]
    simp only [Equiv.coe_fn_mk, List.ofFn_succ, Fin.cons_zero, Fin.cons_succ]
    have : Nonempty (Bytes κ) := ⟨⟨List.replicate κ 0, List.length_replicate⟩⟩
    have h3 := share_prod_add (A := Bytes κ) (P := fun ω : Bytes κ × ((Bytes 64 → Equiv.Perm (Words 32 8)) × Bytes 32) =>
        acc ((p (ratchet (Hacspec.Ideal.expand ω.2.1) use.1 next.1 κ r ω.2.2.1 >>= fun x => .ok (ω.1.1 :: x.1, x.2))).run (Dir.answer ω.2.1)))
      (Q := fun ω : Bytes κ × ((Bytes 64 → Equiv.Perm (Words 32 8)) × ((Fin r → Bytes κ) × Bytes 32)) =>
        acc ((p (.ok (ω.1.1 :: List.ofFn fun i => (ω.2.2.1 i).1, ω.2.2.2.1))).run (Dir.answer ω.2.1)))
      (ε := ratchetBound q ℓ r) fun m => sub_le_iff_le_add'.mp (h2 m).2
    have h4 := share_prod_add (A := Bytes κ) (Q := fun ω : Bytes κ × ((Bytes 64 → Equiv.Perm (Words 32 8)) × Bytes 32) =>
        acc ((p (ratchet (Hacspec.Ideal.expand ω.2.1) use.1 next.1 κ r ω.2.2.1 >>= fun x => .ok (ω.1.1 :: x.1, x.2))).run (Dir.answer ω.2.1)))
      (P := fun ω : Bytes κ × ((Bytes 64 → Equiv.Perm (Words 32 8)) × ((Fin r → Bytes κ) × Bytes 32)) =>
        acc ((p (.ok (ω.1.1 :: List.ofFn fun i => (ω.2.2.1 i).1, ω.2.2.2.1))).run (Dir.answer ω.2.1)))
      (ε := ratchetBound q ℓ r) fun m => neg_le_sub_iff_le_add.mp (h2 m).1
    rw [ratchetBound]
    have h1 := abs_le.mp h1
    rw [abs_le]
    constructor <;> linarith [h1.1, h1.2]

section

variable {ℓ : Nat} (hℓ : ℓ < 2 ^ 54) (use next : Infos ℓ) (hne : use ≠ next) {κ : Nat} (hκ : κ ≤ 32) {r : Nat}
  {P D X Q O : Type} [Fintype P] [Nonempty P] (g : P → D → X) (ans : P → Bytes κ → Q → Seen)

/-- The answers in sessions with the keys of a chain. -/
def ratchetAnswer (use next : Infos ℓ) (κ r : Nat) (g : D → X) (ans : Bytes κ → Q → Seen) (E : Bytes 64 → Equiv.Perm (Words 32 8)) (k : List U8) :
    (Dir (Bytes 64) (Words 32 8) ⊕ D) ⊕ Fin r × Q → (Words 32 8 ⊕ X) ⊕ Seen :=
  sideAnswer (sideAnswer (Dir.answer E) g) fun x =>
    withKey (stepKey (ratchet (Hacspec.Ideal.expand E) use.1 next.1 κ r k) x.1) fun k => ans k x.2

/-- The key of the chain after the sessions. -/
def ratchetLast (use next : Infos ℓ) (κ r : Nat) (E : Bytes 64 → Equiv.Perm (Words 32 8)) (k : List U8) : List U8 :=
  lastKey (ratchet (Hacspec.Ideal.expand E) use.1 next.1 κ r k)

theorem stepKey_ofFn (ms : Fin r → Bytes κ) (k : List U8) (i : Fin r) : stepKey (.ok (List.ofFn fun i => (ms i).1, k)) i = .ok (ms i).1 := by
  rw [stepKey, bind_ok]
  dsimp only
  rw [List.getElem?_ofFn, dif_pos i.2]

theorem withKey_ofFn (ms : Fin r → Bytes κ) (k : List U8) (i : Fin r) (f : Bytes κ → Seen) :
    withKey (stepKey (.ok (List.ofFn fun i => (ms i).1, k)) i) f = f (ms i) := by
  rw [stepKey_ofFn, withKey, dif_pos (ms i).2]

include hℓ hne hκ in
theorem ratchet_one (g : D → X) (ans : Bytes κ → Q → Seen) {p : List U8 → SessionsAttack D X r Q O} {q n : Nat} (hc : ∀ k, (p k).Counts q n)
    (hT : q + r * (2 * (ℓ + 3)) + 2 * ℓ < 2 ^ 256) (acc : O → Prop) :
    |share (fun ω : (Bytes 64 → Equiv.Perm (Words 32 8)) × Bytes 32 =>
        acc ((p (ratchetLast use next κ r ω.1 ω.2.1)).run (ratchetAnswer use next κ r g ans ω.1 ω.2.1))) -
      share (fun ω : (Bytes 64 → Equiv.Perm (Words 32 8)) × ((Fin r → Bytes κ) × Bytes 32) =>
        acc ((p ω.2.2.1).run (sideAnswer (sideAnswer (Dir.answer ω.1) g) fun x => ans (ω.2.1 x.1) x.2)))| ≤ ratchetBound q ℓ r := by
  have h := C137_keys hℓ use next hne hκ r (fun y => within g (fun x : Fin r × Q => withKey (stepKey y x.1) fun k => ans k x.2) (p (lastKey y))) q
    (fun y => within_within g _ (hc _)) hT acc
  simp only [run_within, withKey_ofFn] at h
  exact h

include hℓ hne hκ in
/-- The keys of the chain are replaced by random ones. -/
theorem ratchet_abs {p : List U8 → SessionsAttack D X r Q O} {q n : Nat} (hc : ∀ k, (p k).Counts q n)
    (hT : q + r * (2 * (ℓ + 3)) + 2 * ℓ < 2 ^ 256) (acc : O → Prop) :
    |share (fun ω : P × ((Bytes 64 → Equiv.Perm (Words 32 8)) × Bytes 32) =>
        acc ((p (ratchetLast use next κ r ω.2.1 ω.2.2.1)).run (ratchetAnswer use next κ r (g ω.1) (ans ω.1) ω.2.1 ω.2.2.1))) -
      share (fun ω : ((Bytes 64 → Equiv.Perm (Words 32 8)) × Bytes 32) × (P × (Fin r → Bytes κ)) =>
        acc ((absorb (Dir.answer ω.1.1) (p ω.1.2.1)).run (sideAnswer (g ω.2.1) fun x => ans ω.2.1 (ω.2.2 x.1) x.2)))| ≤ ratchetBound q ℓ r := by
  have e := share_equiv (Ω := P × ((Bytes 64 → Equiv.Perm (Words 32 8)) × ((Fin r → Bytes κ) × Bytes 32)))
    ⟨fun ω => ((ω.2.1, ω.2.2.2), ω.1, ω.2.2.1), fun ω => (ω.2.1, ω.1.1, ω.2.2, ω.1.2), fun _ => rfl, fun _ => rfl⟩
    fun ω : ((Bytes 64 → Equiv.Perm (Words 32 8)) × Bytes 32) × (P × (Fin r → Bytes κ)) =>
        acc ((absorb (Dir.answer ω.1.1) (p ω.1.2.1)).run (sideAnswer (g ω.2.1) fun x => ans ω.2.1 (ω.2.2 x.1) x.2))
  rw [← e]
  simp only [Equiv.coe_fn_mk, run_absorb]
  have h := fun a : P => abs_le.mp (ratchet_one hℓ use next hne hκ (g a) (ans a) hc hT acc)
  have h1 := share_prod_add (A := P) (P := fun ω : P × ((Bytes 64 → Equiv.Perm (Words 32 8)) × Bytes 32) =>
        acc ((p (ratchetLast use next κ r ω.2.1 ω.2.2.1)).run (ratchetAnswer use next κ r (g ω.1) (ans ω.1) ω.2.1 ω.2.2.1)))
    (Q := fun ω : P × ((Bytes 64 → Equiv.Perm (Words 32 8)) × ((Fin r → Bytes κ) × Bytes 32)) =>
        acc ((p ω.2.2.2.1).run (sideAnswer (sideAnswer (Dir.answer ω.2.1) (g ω.1)) fun x => ans ω.1 (ω.2.2.1 x.1) x.2)))
    (ε := ratchetBound q ℓ r) fun a => by linarith [(h a).2]
  have h2 := share_prod_add (A := P) (Q := fun ω : P × ((Bytes 64 → Equiv.Perm (Words 32 8)) × Bytes 32) =>
        acc ((p (ratchetLast use next κ r ω.2.1 ω.2.2.1)).run (ratchetAnswer use next κ r (g ω.1) (ans ω.1) ω.2.1 ω.2.2.1)))
    (P := fun ω : P × ((Bytes 64 → Equiv.Perm (Words 32 8)) × ((Fin r → Bytes κ) × Bytes 32)) =>
        acc ((p ω.2.2.2.1).run (sideAnswer (sideAnswer (Dir.answer ω.2.1) (g ω.1)) fun x => ans ω.1 (ω.2.2.1 x.1) x.2)))
    (ε := ratchetBound q ℓ r) fun a => by linarith [(h a).1]
  rw [abs_le]
  constructor <;> linarith

end

/-! ## ChaCha20-Poly1305 -/

/-- **C137.**  The keys of `r` sessions of ChaCha20-Poly1305 are the keys of a chain.  Whoever knows the key of the chain after the
sessions, asks the cipher inside SHA-256 and the permutation inside ChaCha20 `q` times altogether, and the sessions `n` times by the
rules, has a ciphertext decrypted that the session did not make for at most this share of all ciphers, permutations and first keys. -/
theorem C137_chacha_forgery {ℓ : Nat} (hℓ : ℓ < 2 ^ 54) (use next : Infos ℓ) (hne : use ≠ next) (r : Nat) {O : Type}
    (p : List U8 → SessionsAttack (Dir Unit (Words 32 16)) (Words 32 16) r Ask O)
    (L q n : Nat) (m : Fin r → Nat) (hL : L < 2 ^ 32) (hT : q + r * (2 * (ℓ + 3)) + 2 * ℓ < 2 ^ 256) (hc : ∀ k, (p k).Counts q n) (he : ∀ k, (p k).Each m)
    (hp : ∀ k, ByRulesEach id L (p k) fun _ => []) :
    share (fun ω : Equiv.Perm (Words 32 16) × ((Bytes 64 → Equiv.Perm (Words 32 8)) × Bytes 32) =>
        Decrypted ((p (ratchetLast use next 32 r ω.2.1 ω.2.2.1)).answers
          (ratchetAnswer use next 32 r (Dir.answer fun _ => ω.1) (fun k a => chachaPolyOf.answer (ω.1, k) a) ω.2.1 ω.2.2.1))) ≤
      ∑ i, chachaForgery L (m i) + usersBound r q (n * L) + ratchetBound q ℓ r := by
  have h := (abs_le.mp (ratchet_abs hℓ use next hne (le_refl 32) (P := Equiv.Perm (Words 32 16)) (fun π => Dir.answer fun _ => π)
    (fun π k a => chachaPolyOf.answer (π, k) a) (p := fun k => record (p k) []) (fun k => record_counts (hc k) []) hT Decrypted)).2
  simp only [run_absorb, run_record, List.nil_append] at h
  simp only [← decrypted_absorb] at h
  have hpos : 0 ≤ ∑ i, chachaForgery L (m i) + usersBound r q (n * L) :=
    le_trans (share_nonneg _) (C128_forgery r (absorb (Dir.answer fun _ => 1) (p [])) L q n m hL (absorb_counts _ (hc _)) (absorb_each _ (he _)) (absorb_rules _ id L (hp _)))
  have h2 := share_prod_le (P := fun ω : ((Bytes 64 → Equiv.Perm (Words 32 8)) × Bytes 32) × (Equiv.Perm (Words 32 16) × (Fin r → Bytes 32)) =>
    Decrypted ((absorb (Dir.answer ω.1.1) (p ω.1.2.1)).answers (sideAnswer (Dir.answer fun _ => ω.2.1) fun x => chachaPolyOf.answer (ω.2.1, ω.2.2 x.1) x.2)))
    hpos fun E => by
      have := C128_forgery r (absorb (Dir.answer E.1) (p E.2.1)) L q n m hL (absorb_counts _ (hc _)) (absorb_each _ (he _)) (absorb_rules _ id L (hp _))
      simp only [bothAnswer] at this
      exact this
  linarith

/-- **C137.**  The same attacks cannot tell which of two messages of one length are encrypted in the sessions. -/
theorem C137_chacha_privacy {ℓ : Nat} (hℓ : ℓ < 2 ^ 54) (use next : Infos ℓ) (hne : use ≠ next) (r : Nat) {O : Type}
    (p : List U8 → SessionsAttack (Dir Unit (Words 32 16)) (Words 32 16) r Pair O)
    (L q n : Nat) (m : Fin r → Nat) (hL : L < 2 ^ 32) (hT : q + r * (2 * (ℓ + 3)) + 2 * ℓ < 2 ^ 256) (hc : ∀ k, (p k).Counts q n) (he : ∀ k, (p k).Each m)
    (hp : ∀ k, ByRulesEach Pair.fst L (p k) fun _ => []) (acc : O → Prop) :
    |share (fun ω : Equiv.Perm (Words 32 16) × ((Bytes 64 → Equiv.Perm (Words 32 8)) × Bytes 32) =>
        acc ((p (ratchetLast use next 32 r ω.2.1 ω.2.2.1)).run
          (ratchetAnswer use next 32 r (Dir.answer fun _ => ω.1) (fun k a => chachaPolyOf.answer (ω.1, k) a.fst) ω.2.1 ω.2.2.1))) -
      share (fun ω : Equiv.Perm (Words 32 16) × ((Bytes 64 → Equiv.Perm (Words 32 8)) × Bytes 32) =>
        acc ((p (ratchetLast use next 32 r ω.2.1 ω.2.2.1)).run
          (ratchetAnswer use next 32 r (Dir.answer fun _ => ω.1) (fun k a => chachaPolyOf.answer (ω.1, k) a.snd) ω.2.1 ω.2.2.1)))| ≤
      2 * (∑ i, chachaForgery L (m i) + usersBound r q (n * L) + ratchetBound q ℓ r) := by
  have a1 := abs_le.mp (ratchet_abs hℓ use next hne (le_refl 32) (P := Equiv.Perm (Words 32 16)) (fun π => Dir.answer fun _ => π)
    (fun π k (a : Pair) => chachaPolyOf.answer (π, k) a.fst) hc hT acc)
  have a2 := abs_le.mp (ratchet_abs hℓ use next hne (le_refl 32) (P := Equiv.Perm (Words 32 16)) (fun π => Dir.answer fun _ => π)
    (fun π k (a : Pair) => chachaPolyOf.answer (π, k) a.snd) hc hT acc)
  have h := fun E : (Bytes 64 → Equiv.Perm (Words 32 8)) × Bytes 32 =>
    abs_le.mp (C128_privacy r (absorb (Dir.answer E.1) (p E.2.1)) L q n m hL (absorb_counts _ (hc _)) (absorb_each _ (he _)) (absorb_rules _ Pair.fst L (hp _)) acc)
  simp only [bothAnswer] at h
  have b1 := share_prod_add (P := fun ω : ((Bytes 64 → Equiv.Perm (Words 32 8)) × Bytes 32) × (Equiv.Perm (Words 32 16) × (Fin r → Bytes 32)) =>
      acc ((absorb (Dir.answer ω.1.1) (p ω.1.2.1)).run (sideAnswer (Dir.answer fun _ => ω.2.1) fun x => chachaPolyOf.answer (ω.2.1, ω.2.2 x.1) x.2.fst)))
    (Q := fun ω : ((Bytes 64 → Equiv.Perm (Words 32 8)) × Bytes 32) × (Equiv.Perm (Words 32 16) × (Fin r → Bytes 32)) =>
      acc ((absorb (Dir.answer ω.1.1) (p ω.1.2.1)).run (sideAnswer (Dir.answer fun _ => ω.2.1) fun x => chachaPolyOf.answer (ω.2.1, ω.2.2 x.1) x.2.snd)))
    (ε := 2 * (∑ i, chachaForgery L (m i) + usersBound r q (n * L))) fun E => sub_le_iff_le_add'.mp (h E).2
  have b2 := share_prod_add (Q := fun ω : ((Bytes 64 → Equiv.Perm (Words 32 8)) × Bytes 32) × (Equiv.Perm (Words 32 16) × (Fin r → Bytes 32)) =>
      acc ((absorb (Dir.answer ω.1.1) (p ω.1.2.1)).run (sideAnswer (Dir.answer fun _ => ω.2.1) fun x => chachaPolyOf.answer (ω.2.1, ω.2.2 x.1) x.2.fst)))
    (P := fun ω : ((Bytes 64 → Equiv.Perm (Words 32 8)) × Bytes 32) × (Equiv.Perm (Words 32 16) × (Fin r → Bytes 32)) =>
      acc ((absorb (Dir.answer ω.1.1) (p ω.1.2.1)).run (sideAnswer (Dir.answer fun _ => ω.2.1) fun x => chachaPolyOf.answer (ω.2.1, ω.2.2 x.1) x.2.snd)))
    (ε := 2 * (∑ i, chachaForgery L (m i) + usersBound r q (n * L))) fun E => neg_le_sub_iff_le_add.mp (h E).1
  rw [abs_le]
  constructor <;> linarith [a1.1, a1.2, a2.1, a2.2]

/-! ## AES-GCM -/

/-- **C137.**  The same for AES-GCM with keys of `k` bytes: forgeries. -/
theorem C137_gcm_forgery {ℓ : Nat} (hℓ : ℓ < 2 ^ 54) (use next : Infos ℓ) (hne : use ≠ next) (r : Nat) {k : Nat} (hk : k ≤ 32) {O : Type}
    (p : List U8 → SessionsAttack (Dir (Bytes k) (Bytes 16)) (Bytes 16) r Ask O) (L q n : Nat) (m : Fin r → Nat) (hL : L < 2 ^ 32)
    (hn : ∀ i, m i * L < 2 ^ 64) (hT : q + r * (2 * (ℓ + 3)) + 2 * ℓ < 2 ^ 256) (hc : ∀ k, (p k).Counts q n) (he : ∀ k, (p k).Each m)
    (hp : ∀ k, ByRulesEach id L (p k) fun _ => []) :
    share (fun ω : (Bytes k → Equiv.Perm (Bytes 16)) × ((Bytes 64 → Equiv.Perm (Words 32 8)) × Bytes 32) =>
        Decrypted ((p (ratchetLast use next k r ω.2.1 ω.2.2.1)).answers
          (ratchetAnswer use next k r (Dir.answer ω.1) (fun k' a => (aesGcmOf k).answer (ω.1, k') a) ω.2.1 ω.2.2.1))) ≤
      ∑ i, gcmForgery L (m i) + keysBound k r q + ratchetBound q ℓ r := by
  have h := (abs_le.mp (ratchet_abs hℓ use next hne hk (P := Bytes k → Equiv.Perm (Bytes 16)) (fun E => Dir.answer E)
    (fun E k' a => (aesGcmOf k).answer (E, k') a) (p := fun k => record (p k) []) (fun k => record_counts (hc k) []) hT Decrypted)).2
  simp only [run_absorb, run_record, List.nil_append] at h
  simp only [← decrypted_absorb] at h
  have hpos : 0 ≤ ∑ i, gcmForgery L (m i) + keysBound k r q :=
    le_trans (share_nonneg _) (C129_forgery r (absorb (Dir.answer fun _ => 1) (p [])) L q n m hL hn (absorb_counts _ (hc _)) (absorb_each _ (he _)) (absorb_rules _ id L (hp _)))
  have h2 := share_prod_le (P := fun ω : ((Bytes 64 → Equiv.Perm (Words 32 8)) × Bytes 32) × ((Bytes k → Equiv.Perm (Bytes 16)) × (Fin r → Bytes k)) =>
    Decrypted ((absorb (Dir.answer ω.1.1) (p ω.1.2.1)).answers (sideAnswer (Dir.answer ω.2.1) fun x => (aesGcmOf k).answer (ω.2.1, ω.2.2 x.1) x.2)))
    hpos fun E => by
      have := C129_forgery r (absorb (Dir.answer E.1) (p E.2.1)) L q n m hL hn (absorb_counts _ (hc _)) (absorb_each _ (he _)) (absorb_rules _ id L (hp _))
      exact this
  linarith

/-- **C137.**  The same for AES-GCM with keys of `k` bytes: messages. -/
theorem C137_gcm_privacy {ℓ : Nat} (hℓ : ℓ < 2 ^ 54) (use next : Infos ℓ) (hne : use ≠ next) (r : Nat) {k : Nat} (hk : k ≤ 32) {O : Type}
    (p : List U8 → SessionsAttack (Dir (Bytes k) (Bytes 16)) (Bytes 16) r Pair O) (L q n : Nat) (m : Fin r → Nat) (hL : L < 2 ^ 32)
    (hn : ∀ i, m i * L < 2 ^ 64) (hT : q + r * (2 * (ℓ + 3)) + 2 * ℓ < 2 ^ 256) (hc : ∀ k, (p k).Counts q n) (he : ∀ k, (p k).Each m)
    (hp : ∀ k, ByRulesEach Pair.fst L (p k) fun _ => [])
    (acc : O → Prop) :
    |share (fun ω : (Bytes k → Equiv.Perm (Bytes 16)) × ((Bytes 64 → Equiv.Perm (Words 32 8)) × Bytes 32) =>
        acc ((p (ratchetLast use next k r ω.2.1 ω.2.2.1)).run
          (ratchetAnswer use next k r (Dir.answer ω.1) (fun k' a => (aesGcmOf k).answer (ω.1, k') a.fst) ω.2.1 ω.2.2.1))) -
      share (fun ω : (Bytes k → Equiv.Perm (Bytes 16)) × ((Bytes 64 → Equiv.Perm (Words 32 8)) × Bytes 32) =>
        acc ((p (ratchetLast use next k r ω.2.1 ω.2.2.1)).run
          (ratchetAnswer use next k r (Dir.answer ω.1) (fun k' a => (aesGcmOf k).answer (ω.1, k') a.snd) ω.2.1 ω.2.2.1)))| ≤
      ∑ i, gcmPrivacy L (m i) + 2 * keysBound k r q + 2 * ratchetBound q ℓ r := by
  have a1 := abs_le.mp (ratchet_abs hℓ use next hne hk (P := Bytes k → Equiv.Perm (Bytes 16)) (fun E => Dir.answer E)
    (fun E k' (a : Pair) => (aesGcmOf k).answer (E, k') a.fst) hc hT acc)
  have a2 := abs_le.mp (ratchet_abs hℓ use next hne hk (P := Bytes k → Equiv.Perm (Bytes 16)) (fun E => Dir.answer E)
    (fun E k' (a : Pair) => (aesGcmOf k).answer (E, k') a.snd) hc hT acc)
  have h := fun E : (Bytes 64 → Equiv.Perm (Words 32 8)) × Bytes 32 =>
    abs_le.mp (C129_privacy r (absorb (Dir.answer E.1) (p E.2.1)) L q n m hL hn (absorb_counts _ (hc _)) (absorb_each _ (he _)) (absorb_rules _ Pair.fst L (hp _)) acc)
  have b1 := share_prod_add (P := fun ω : ((Bytes 64 → Equiv.Perm (Words 32 8)) × Bytes 32) × ((Bytes k → Equiv.Perm (Bytes 16)) × (Fin r → Bytes k)) =>
      acc ((absorb (Dir.answer ω.1.1) (p ω.1.2.1)).run (sideAnswer (Dir.answer ω.2.1) fun x => (aesGcmOf k).answer (ω.2.1, ω.2.2 x.1) x.2.fst)))
    (Q := fun ω : ((Bytes 64 → Equiv.Perm (Words 32 8)) × Bytes 32) × ((Bytes k → Equiv.Perm (Bytes 16)) × (Fin r → Bytes k)) =>
      acc ((absorb (Dir.answer ω.1.1) (p ω.1.2.1)).run (sideAnswer (Dir.answer ω.2.1) fun x => (aesGcmOf k).answer (ω.2.1, ω.2.2 x.1) x.2.snd)))
    (ε := ∑ i, gcmPrivacy L (m i) + 2 * keysBound k r q) fun E => sub_le_iff_le_add'.mp (h E).2
  have b2 := share_prod_add (Q := fun ω : ((Bytes 64 → Equiv.Perm (Words 32 8)) × Bytes 32) × ((Bytes k → Equiv.Perm (Bytes 16)) × (Fin r → Bytes k)) =>
      acc ((absorb (Dir.answer ω.1.1) (p ω.1.2.1)).run (sideAnswer (Dir.answer ω.2.1) fun x => (aesGcmOf k).answer (ω.2.1, ω.2.2 x.1) x.2.fst)))
    (P := fun ω : ((Bytes 64 → Equiv.Perm (Words 32 8)) × Bytes 32) × ((Bytes k → Equiv.Perm (Bytes 16)) × (Fin r → Bytes k)) =>
      acc ((absorb (Dir.answer ω.1.1) (p ω.1.2.1)).run (sideAnswer (Dir.answer ω.2.1) fun x => (aesGcmOf k).answer (ω.2.1, ω.2.2 x.1) x.2.snd)))
    (ε := ∑ i, gcmPrivacy L (m i) + 2 * keysBound k r q) fun E => neg_le_sub_iff_le_add.mp (h E).1
  rw [abs_le]
  constructor <;> linarith [a1.1, a1.2, a2.1, a2.2]

/-! ## The code -/

/-- With a cipher that gives the hash function of the code, the chain is the one of the code. -/
theorem ratchet_code {E : Bytes 64 → Equiv.Perm (Words 32 8)} (hE : ∀ m : List U8, m.length < 2 ^ 61 → sha E m = Hacspec.Sha2.hash m)
    {ℓ : Nat} (hℓ : ℓ < 2 ^ 54) (use next : Infos ℓ) {κ : Nat} (hκ : κ ≤ 32) (r : Nat) (k : Bytes 32) :
    ∃ (ms : Fin r → Bytes κ) (k' : Bytes 32), ratchet (Hacspec.Ideal.expand E) use.1 next.1 κ r k.1 = .ok (List.ofFn fun i => (ms i).1, k'.1) ∧
      ratchet Hacspec.Hkdf.expand use.1 next.1 κ r k.1 = .ok (List.ofFn fun i => (ms i).1, k'.1) := by
  have hh : ∀ x : List U8, x.length < 2 ^ 61 → Hacspec.Sha2.hash x = .ok (hashOf E x) := fun x hx => (hE x hx).symm.trans (sha_hashOf E x hx)
  have he : ∀ (k : Bytes 32) (info : Infos ℓ) (l : Nat), l ≤ 32 → Hacspec.Ideal.expand E k.1 info.1 l = Hacspec.Hkdf.expand k.1 info.1 l := by
    intro k info l hl
    have hk : k.1.length ≤ 64 := by rw [k.2]; decide
    have hi : 97 + info.1.length < 2 ^ 61 := by have := info.2.1; omega
    rw [← Hacspec.Hkdf.expandWith_hash, Hacspec.Ideal.expand, Hacspec.Hkdf.expandWith_ok (sha_hashOf E) (length_hashOf E) hk hi (by omega),
      Hacspec.Hkdf.expandWith_ok hh (length_hashOf E) hk hi (by omega)]
  induction r generalizing k with
  | zero => exact ⟨fun i => i.elim0, k, rfl, rfl⟩
  | succ r ih =>
    obtain ⟨m, hm⟩ := expand_bytes hℓ E k use hκ
    obtain ⟨k', hk⟩ := expand_bytes hℓ E k next (le_refl 32)
    obtain ⟨ms, l, h1, h2⟩ := ih k'
    refine ⟨Fin.cons m ms, l, ?_, ?_⟩
    · rw [ratchet, hm, bind_ok, hk, bind_ok, h1, bind_ok, List.ofFn_succ]
      rfl
    · rw [ratchet, ← he k use κ hκ, hm, bind_ok, ← he k next 32 (le_refl 32), hk, bind_ok, h2, bind_ok, List.ofFn_succ]
      rfl

/-- **C137.**  `schedule` and `shuffle` are one of the ciphers, the rounds of ChaCha20 one of the permutations: with them, the key of the
chain after the sessions is the one that `expand` of the code gives, and a session answers with `expand` and `encrypt` or `decrypt`. -/
theorem C137_chacha_code : ∃ (E : Bytes 64 → Equiv.Perm (Words 32 8)) (π : Equiv.Perm (Words 32 16)),
    (∀ b s, (Hacspec.Sha2.schedule b.1 >>= fun ws => Hacspec.Sha2.shuffle ws s.1) = .ok (E b s).1) ∧
    (∀ s, Hacspec.ChaCha.rounds s.1 = .ok (π s).1) ∧
    ∀ {ℓ : Nat}, ℓ < 2 ^ 54 → ∀ (use next : Infos ℓ) (r : Nat) (k : Bytes 32),
      (∃ ms : List (List U8), ms.length = r ∧ ratchet Hacspec.Hkdf.expand use.1 next.1 32 r k.1 = .ok (ms, ratchetLast use next 32 r E k.1)) ∧
      ∀ (i : Fin r) (iv : Bytes 12) (aad m c : List U8) (t : Bytes 16),
      ratchetAnswer use next 32 r (Dir.answer fun _ : Unit => π) (fun k a => chachaPolyOf.answer (π, k) a) E k.1 (.inr (i, .enc iv aad m)) =
        .inr (encSeen iv aad (do
          let key ← stepKey (ratchet Hacspec.Hkdf.expand use.1 next.1 32 r k.1) i
          Hacspec.ChaChaPoly.encrypt key iv.1 aad m)) ∧
      ratchetAnswer use next 32 r (Dir.answer fun _ : Unit => π) (fun k a => chachaPolyOf.answer (π, k) a) E k.1 (.inr (i, .dec iv aad c t)) =
        .inr (decSeen iv aad c t (do
          let key ← stepKey (ratchet Hacspec.Hkdf.expand use.1 next.1 32 r k.1) i
          Hacspec.ChaChaPoly.decrypt key iv.1 aad c t.1)) := by
  obtain ⟨E, h1, h2⟩ := C109_code
  obtain ⟨π, h3, h4⟩ := C116_code
  refine ⟨E, π, h1, h3, fun {ℓ} hℓ use next r k => ?_⟩
  obtain ⟨ms, k', e1, e2⟩ := ratchet_code h2 hℓ use next (le_refl 32) r k
  refine ⟨⟨_, List.length_ofFn, by rw [ratchetLast, e1]; exact e2⟩, fun i iv aad m c t => ⟨?_, ?_⟩⟩
  · show Sum.inr (withKey _ _) = _
    rw [e1, e2, withKey_ofFn, stepKey_ofFn, bind_ok, ← (h4 (ms i) iv aad m c t).1]
    rfl
  · show Sum.inr (withKey _ _) = _
    rw [e1, e2, withKey_ofFn, stepKey_ofFn, bind_ok, ← (h4 (ms i) iv aad m c t).2]
    rfl

/-- **C137.**  The same for AES-GCM: AES is one of the block ciphers. -/
theorem C137_gcm_code (alg : Hacspec.Aes.Variant) :
    ∃ (E : Bytes 64 → Equiv.Perm (Words 32 8)) (F : Bytes (4 * Hacspec.Aes.nk alg) → Equiv.Perm (Bytes 16)),
    (∀ b s, (Hacspec.Sha2.schedule b.1 >>= fun ws => Hacspec.Sha2.shuffle ws s.1) = .ok (E b s).1) ∧
    (∀ key x, Hacspec.Aes.encryptBlock key.1 x.1 (Hacspec.Aes.nk alg) (Hacspec.Aes.nr alg) alg = .ok (F key x).1) ∧
    4 * Hacspec.Aes.nk alg ≤ 32 ∧
    ∀ {ℓ : Nat}, ℓ < 2 ^ 54 → ∀ (use next : Infos ℓ) (r : Nat) (k : Bytes 32),
      (∃ ms : List (List U8), ms.length = r ∧
        ratchet Hacspec.Hkdf.expand use.1 next.1 (4 * Hacspec.Aes.nk alg) r k.1 = .ok (ms, ratchetLast use next (4 * Hacspec.Aes.nk alg) r E k.1)) ∧
      ∀ (i : Fin r) (iv : Bytes 12) (aad m c : List U8) (t : Bytes 16),
      ratchetAnswer use next (4 * Hacspec.Aes.nk alg) r (Dir.answer F) (fun k a => (aesGcmOf _).answer (F, k) a) E k.1 (.inr (i, .enc iv aad m)) =
        .inr (encSeen iv aad (do
          let key ← stepKey (ratchet Hacspec.Hkdf.expand use.1 next.1 (4 * Hacspec.Aes.nk alg) r k.1) i
          Hacspec.AesGcm.encrypt key iv.1 aad m alg)) ∧
      ratchetAnswer use next (4 * Hacspec.Aes.nk alg) r (Dir.answer F) (fun k a => (aesGcmOf _).answer (F, k) a) E k.1 (.inr (i, .dec iv aad c t)) =
        .inr (decSeen iv aad c t (do
          let key ← stepKey (ratchet Hacspec.Hkdf.expand use.1 next.1 (4 * Hacspec.Aes.nk alg) r k.1) i
          Hacspec.AesGcm.decrypt key iv.1 aad c t.1 alg)) := by
  obtain ⟨E, h1, h2⟩ := C109_code
  obtain ⟨F, h3, h4⟩ := C117_code alg
  have hk : 4 * Hacspec.Aes.nk alg ≤ 32 := by cases alg <;> decide
  refine ⟨E, F, h1, h3, hk, fun {ℓ} hℓ use next r k => ?_⟩
  obtain ⟨ms, k', e1, e2⟩ := ratchet_code h2 hℓ use next hk r k
  refine ⟨⟨_, List.length_ofFn, by rw [ratchetLast, e1]; exact e2⟩, fun i iv aad m c t => ⟨?_, ?_⟩⟩
  · show Sum.inr (withKey _ _) = _
    rw [e1, e2, withKey_ofFn, stepKey_ofFn, bind_ok, ← (h4 (ms i) iv aad m c t).1]
    rfl
  · show Sum.inr (withKey _ _) = _
    rw [e1, e2, withKey_ofFn, stepKey_ofFn, bind_ok, ← (h4 (ms i) iv aad m c t).2]
    rfl

/-! ## The bound, and what is needed -/

/-- **C137.**  The bound grows with the number of steps as this product. -/
theorem C137_bound (q ℓ r : Nat) (hT : q + r * (2 * (ℓ + 3)) + 2 * ℓ < 2 ^ 256) : ratchetBound q ℓ r ≤ r * prfBound 32 (q + r * (2 * (ℓ + 3)) + 2 * ℓ) 2 := by
  have mono : ∀ {a b : Nat}, a ≤ b → b < 2 ^ 256 → prfBound 32 a 2 ≤ prfBound 32 b 2 := by
    intro a b h hb
    have h : (a : ℚ) ≤ b := by exact_mod_cast h
    have hb : (0 : ℚ) < 2 * (2 ^ 256 - b) := by
      have : (b : ℚ) < 2 ^ 256 := by exact_mod_cast hb
      linarith
    rw [prfBound, prfBound]
    gcongr
  have key : ∀ t, t ≤ r → ratchetBound q ℓ t ≤ t * prfBound 32 (q + r * (2 * (ℓ + 3)) + 2 * ℓ) 2 := by
    intro t ht
    induction t with
    | zero => simp [ratchetBound]
    | succ t ih =>
      rw [ratchetBound, Nat.cast_succ, add_mul, one_mul]
      refine add_le_add (ih (by omega)) (mono ?_ hT)
      have := Nat.mul_le_mul_right (2 * (ℓ + 3)) (show t ≤ r by omega)
      omega
  exact key r (le_refl r)

/-- **C137.**  That the strings differ is needed: with one string for both, the key of the last session is the key of the chain after it. -/
theorem C137_same (expand : List U8 → List U8 → Nat → M (List U8)) (use : List U8) (r : Nat) (k : List U8) (x : List (List U8) × List U8)
    (h : ratchet expand use use 32 (r + 1) k = .ok x) : stepKey (.ok x) r = .ok x.2 := by
  induction r generalizing k x with
  | zero =>
    rw [ratchet] at h
    cases hm : expand k use 32 with
    | error e => rw [hm] at h; cases h
    | ok m =>
      rw [hm, bind_ok, bind_ok] at h
      obtain rfl := Except.ok.inj h
      rfl
  | succ r ih =>
    rw [ratchet] at h
    cases hm : expand k use 32 with
    | error e => rw [hm] at h; cases h
    | ok m =>
      rw [hm, bind_ok, bind_ok] at h
      cases hx : ratchet expand use use 32 (r + 1) m with
      | error e => rw [hx] at h; cases h
      | ok y =>
        rw [hx, bind_ok] at h
        obtain rfl := Except.ok.inj h
        exact ih m y hx

/-! ## Examples -/

theorem two_ne : twoInfos 0 ≠ twoInfos 1 := fun h => absurd (twoInfos_inj h) (by decide)

/-- The last key of the chain is used as a block and compared with the first key. -/
example := C137_keys (by decide) (twoInfos 0) (twoInfos 1) two_ne (le_refl 32) 5
  (fun x => .ask (.fwd ⟨(lastKey x ++ List.replicate 64 0).take 64, by rw [List.length_take, List.length_append, List.length_replicate]; omega⟩
    ⟨List.replicate 8 0, List.length_replicate⟩) fun s => .ret (match stepKey x 0 with
      | .ok m => m = lastKey x ∨ s.1 = []
      | .error _ => False)) 1 (fun _ => ⟨0, rfl, fun _ => trivial⟩) (by norm_num) (fun b => b)

/-- The last key of the chain is used as a block, then two sessions are attacked. -/
def lastAttack (k : List U8) : SessionsAttack (Dir Unit (Words 32 16)) (Words 32 16) 2 Ask Unit :=
  .ask (.inl (.inl (.fwd ⟨(k ++ List.replicate 64 0).take 64, by rw [List.length_take, List.length_append, List.length_replicate]; omega⟩
    ⟨List.replicate 8 0, List.length_replicate⟩))) fun _ => crossAttack

example := C137_chacha_forgery (by decide) (twoInfos 0) (twoInfos 1) two_ne 2 lastAttack 3 2 2 (fun _ => 1) (by norm_num) (by norm_num)
  (fun _ => ⟨1, rfl, fun _ => crossAttack_counts⟩) (fun _ _ => crossAttack_each) (fun _ _ => crossAttack_rules)

example := C137_chacha_privacy (by decide) (twoInfos 0) (twoInfos 1) two_ne 2 (fun _ => compareSessions _ _) 3 0 2 (fun _ => 1) (by norm_num)
  (by norm_num) (fun _ => ⟨1, rfl, fun _ => ⟨0, rfl, fun _ => trivial⟩⟩) (fun _ => ⟨0, rfl, fun _ => ⟨0, rfl, fun _ => trivial⟩⟩)
  (fun _ => compareSessions_rules _ _) (fun b => b = true)

example := C137_gcm_privacy (by decide) (twoInfos 0) (twoInfos 1) two_ne 2 (k := 16) (by decide) (fun _ => compareSessions _ _) 3 0 2 (fun _ => 1)
  (by norm_num) (by norm_num) (by norm_num) (fun _ => ⟨1, rfl, fun _ => ⟨0, rfl, fun _ => trivial⟩⟩)
  (fun _ => ⟨0, rfl, fun _ => ⟨0, rfl, fun _ => trivial⟩⟩) (fun _ => compareSessions_rules _ _) (fun b => b = true)

example := C137_gcm_forgery (by decide) (twoInfos 0) (twoInfos 1) two_ne 2 (k := 32) (by decide)
  (fun k => .ask (.inr (0, .dec zeroIv (k.take 16) [] ⟨List.replicate 16 0, List.length_replicate⟩)) fun _ => .ret ()) 3 0 1
  (fun _ => 1) (by norm_num) (by norm_num) (by norm_num) (fun _ => ⟨0, rfl, fun _ => trivial⟩) (fun _ => ⟨0, rfl, fun _ => trivial⟩)
  (fun k => ⟨⟨List.not_mem_nil, by simp only [blocks, List.length_take, List.length_nil]; omega⟩, fun _ => trivial⟩)

/-- `2²⁰` steps with short strings, and `2⁸⁰` questions. -/
example : ratchetBound (2 ^ 80) 1 (2 ^ 20) < 1 / 2 ^ 70 := by
  refine (C137_bound _ _ _ (by norm_num)).trans_lt ?_
  rw [prfBound]
  norm_num

end Hacspec.Props
