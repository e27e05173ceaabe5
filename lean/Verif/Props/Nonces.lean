import Verif.Lemmas.Ideal.Nonces
import Verif.Props.SealedAeads

/-! # C135: random nonces -/

namespace Hacspec.Props

open Spec Hacspec.Ideal Finset

theorem fits_sealed {n : Nat} (d : Nat) (t c : BitVec 32) (H : Bytes 12 × BitVec 32 → Bytes n) (a : Ask) : a.Fits (randomSealed d t c H a) := by
  cases a with
  | enc => exact ⟨rfl, rfl⟩
  | dec => exact ⟨rfl, rfl, rfl, rfl⟩
  | stop => trivial

section

variable {D X Q O : Type} (f : Q → Ask) {L q n : Nat} {p : Prog (D ⊕ Drawn Q) (X ⊕ Seen) O} (hc : p.Counts q n) (hp : ByRulesDrawn f L p [])

include hc hp in
theorem nonces_rules {v : Fin n → Bytes 12} (hv : Function.Injective v) : ByRules f L (careful f (p.draw (firstNonces v) 0)) [] :=
  careful_rules f (firstNonces_inj hv) hp hc (by omega) fun _ _ _ _ h => absurd h List.not_mem_nil

include hc in
theorem nonces_counts (v : Fin n → Bytes 12) : (careful f (p.draw (firstNonces v) 0)).Counts q n := careful_counts f (draw_counts _ hc 0)

/-- What holds for attacks with nonces holds for attacks with random ones. -/
theorem nonces_le {A : Type} [Fintype A] [Nonempty A] {g : A → D → X} {ans : A → Q → Seen} (hans : ∀ a x, (f x).Fits (ans a x)) {ε : ℚ} (hε : 0 ≤ ε)
    (h : ∀ v : Fin n → Bytes 12, Function.Injective v →
      share (fun a => Decrypted ((careful f (p.draw (firstNonces v) 0)).answers (sideAnswer (g a) (ans a)))) ≤ ε) :
    share (fun ω : (Fin n → Bytes 12) × A => Decrypted ((p.draw (firstNonces ω.1) 0).answers (sideAnswer (g ω.2) (ans ω.2)))) ≤ ε + noncesBound n := by
  have h1 := share_nonces (R := fun _ : (Fin n → Bytes 12) × A => False) (P := fun ω : (Fin n → Bytes 12) × A =>
    Decrypted ((p.draw (firstNonces ω.1) 0).answers (sideAnswer (g ω.2) (ans ω.2)))) hε fun v hv => by
      have := h v hv
      have e := fun a => answers_careful f (g a) (hans a) (p.draw (firstNonces v) 0)
      simp only [e] at this
      exact this.trans (le_add_of_nonneg_left (share_nonneg _))
  rwa [share_false fun _ => id, zero_add] at h1

theorem nonces_abs {A B : Type} [Fintype A] [Fintype B] [Nonempty A] [Nonempty B] {g : A → D → X} {ans : A → Q → Seen} (hans : ∀ a x, (f x).Fits (ans a x))
    {g' : B → D → X} {ans' : B → Q → Seen} (hans' : ∀ a x, (f x).Fits (ans' a x)) {ε : ℚ} (hε : 0 ≤ ε) (acc : O → Prop)
    (h : ∀ v : Fin n → Bytes 12, Function.Injective v →
      |share (fun a => acc ((careful f (p.draw (firstNonces v) 0)).run (sideAnswer (g a) (ans a)))) -
        share (fun a => acc ((careful f (p.draw (firstNonces v) 0)).run (sideAnswer (g' a) (ans' a))))| ≤ ε) :
    |share (fun ω : (Fin n → Bytes 12) × A => acc ((p.draw (firstNonces ω.1) 0).run (sideAnswer (g ω.2) (ans ω.2)))) -
      share (fun ω : (Fin n → Bytes 12) × B => acc ((p.draw (firstNonces ω.1) 0).run (sideAnswer (g' ω.2) (ans' ω.2))))| ≤ ε + noncesBound n := by
  have e := fun a (v : Fin n → Bytes 12) => run_careful f (g a) (hans a) (p.draw (firstNonces v) 0)
  have e' := fun a (v : Fin n → Bytes 12) => run_careful f (g' a) (hans' a) (p.draw (firstNonces v) 0)
  simp only [e, e'] at h
  have h1 := share_nonces (P := fun ω : (Fin n → Bytes 12) × A => acc ((p.draw (firstNonces ω.1) 0).run (sideAnswer (g ω.2) (ans ω.2))))
    (R := fun ω : (Fin n → Bytes 12) × B => acc ((p.draw (firstNonces ω.1) 0).run (sideAnswer (g' ω.2) (ans' ω.2)))) hε
    fun v hv => by linarith [(abs_le.mp (h v hv)).2]
  have h2 := share_nonces (R := fun ω : (Fin n → Bytes 12) × A => acc ((p.draw (firstNonces ω.1) 0).run (sideAnswer (g ω.2) (ans ω.2))))
    (P := fun ω : (Fin n → Bytes 12) × B => acc ((p.draw (firstNonces ω.1) 0).run (sideAnswer (g' ω.2) (ans' ω.2)))) hε
    fun v hv => by linarith [(abs_le.mp (h v hv)).1]
  rw [abs_le]
  constructor <;> linarith

end

/-! ## ChaCha20-Poly1305 -/

theorem chacha_pos (L q n : Nat) : 0 ≤ chachaForgery L n + blockBound q (n * L) := by
  have h1 : 0 ≤ chachaForgery L n := by rw [chachaForgery]; positivity
  have h2 : ∀ a : Nat, (0 : ℚ) ≤ a * (a - 1) := fun a => by
    cases a with
    | zero => simp
    | succ a => rw [Nat.cast_succ, add_sub_cancel_right]; positivity
  have h3 : 0 ≤ blockBound q (n * L) := by
    rw [blockBound]
    exact add_nonneg (by positivity) (div_nonneg (h2 _) (by positivity))
  linarith

/-- **C135.**  With random nonces, `encrypt` and `decrypt` of ChaCha20-Poly1305 are as safe as with different ones, up to `n(n-1)/2⁹⁷` for `n`
questions: this is the share of all permutations, keys and nonces for which a ciphertext is decrypted that was not made. -/
theorem C135_chacha_forgery {O : Type} (p : ChaChaAttack (Drawn Ask) O) (L q n : Nat) (hL : L < 2 ^ 32) (hc : p.Counts q n)
    (hp : ByRulesDrawn id L p []) :
    share (fun ω : (Fin n → Bytes 12) × (Equiv.Perm (Words 32 16) × Bytes 32) =>
        Decrypted ((p.draw (firstNonces ω.1) 0).answers (bothAnswer ω.2.1 (chachaPolyOf.answer ω.2)))) ≤
      chachaForgery L n + blockBound q (n * L) + noncesBound n := by
  have h := fun v hv => C116_forgery (careful id (p.draw (firstNonces v) 0)) L q n hL (nonces_counts id hc v) (nonces_rules id hc hp hv)
  simp only [bothAnswer] at h ⊢
  exact nonces_le id (A := Equiv.Perm (Words 32 16) × Bytes 32) (g := fun ω => Dir.answer fun _ => ω.1) (ans := fun ω => chachaPolyOf.answer ω) (fun ω x => fits_answer chachaPolyOf ω x)
    (chacha_pos L q n) h

/-- **C135.**  Nor can the encryptions of messages of equal lengths be told apart. -/
theorem C135_chacha_privacy {O : Type} (p : ChaChaAttack (Drawn Pair) O) (L q n : Nat) (hL : L < 2 ^ 32) (hc : p.Counts q n)
    (hp : ByRulesDrawn Pair.fst L p []) (acc : O → Prop) :
    |share (fun ω : (Fin n → Bytes 12) × (Equiv.Perm (Words 32 16) × Bytes 32) =>
        acc ((p.draw (firstNonces ω.1) 0).run (bothAnswer ω.2.1 fun x => chachaPolyOf.answer ω.2 x.fst))) -
      share (fun ω : (Fin n → Bytes 12) × (Equiv.Perm (Words 32 16) × Bytes 32) =>
        acc ((p.draw (firstNonces ω.1) 0).run (bothAnswer ω.2.1 fun x => chachaPolyOf.answer ω.2 x.snd)))| ≤
      2 * (chachaForgery L n + blockBound q (n * L)) + noncesBound n := by
  have h := fun v hv => C116_privacy (careful Pair.fst (p.draw (firstNonces v) 0)) L q n hL (nonces_counts Pair.fst hc v)
    (nonces_rules Pair.fst hc hp hv) acc
  simp only [bothAnswer] at h ⊢
  exact nonces_abs Pair.fst (A := Equiv.Perm (Words 32 16) × Bytes 32) (B := Equiv.Perm (Words 32 16) × Bytes 32) (g := fun ω => Dir.answer fun _ => ω.1) (g' := fun ω => Dir.answer fun _ => ω.1)
    (ans := fun ω x => chachaPolyOf.answer ω x.fst) (ans' := fun ω x => chachaPolyOf.answer ω x.snd)
    (fun ω x => fits_answer chachaPolyOf ω x.fst) (fun ω x => fits_snd x (fits_answer chachaPolyOf ω x.snd))
    (mul_nonneg (by norm_num) (chacha_pos L q n)) acc h

/-- **C135.**  The ciphertexts are like random strings, and nothing is decrypted. -/
theorem C135_chacha_random {O : Type} (p : ChaChaAttack (Drawn Ask) O) (L q n : Nat) (hL : L < 2 ^ 32) (hc : p.Counts q n)
    (hp : ByRulesDrawn id L p []) (acc : O → Prop) :
    |share (fun ω : (Fin n → Bytes 12) × (Equiv.Perm (Words 32 16) × Bytes 32) =>
        acc ((p.draw (firstNonces ω.1) 0).run (bothAnswer ω.2.1 (chachaPolyOf.answer ω.2)))) -
      share (fun ω : (Fin n → Bytes 12) × (Equiv.Perm (Words 32 16) × (Bytes 12 × U32 → Bytes 64)) =>
        acc ((p.draw (firstNonces ω.1) 0).run (bothAnswer ω.2.1 (randomSealed 16 0 1 ω.2.2))))| ≤
      blockBound q (n * L) + chachaSealed L n + noncesBound n := by
  have h := fun v hv => C132_chacha (careful id (p.draw (firstNonces v) 0)) L q n hL (nonces_counts id hc v) (nonces_rules id hc hp hv) acc
  simp only [bothAnswer] at h ⊢
  exact nonces_abs id (A := Equiv.Perm (Words 32 16) × Bytes 32) (B := Equiv.Perm (Words 32 16) × (Bytes 12 × U32 → Bytes 64)) (g := fun ω => Dir.answer fun _ => ω.1) (g' := fun ω => Dir.answer fun _ => ω.1)
    (ans := fun ω => chachaPolyOf.answer ω) (ans' := fun ω => randomSealed 16 0 1 ω.2)
    (fun ω x => fits_answer chachaPolyOf ω x) (fun ω x => fits_sealed 16 0 1 ω.2 x)
    (by have := chacha_pos L q n; rw [chachaSealed]; have : (0 : ℚ) ≤ 5 * n / 2 ^ 128 := by positivity
        linarith) acc h

/-! ## AES-GCM -/

/-- **C135.**  The same for AES-GCM. -/
theorem C135_gcm_forgery {k : Nat} {O : Type} (p : GcmAttack k (Drawn Ask) O) (L q n : Nat) (hL : L < 2 ^ 32) (hn : n * L < 2 ^ 64)
    (hc : p.Counts q n) (hp : ByRulesDrawn id L p []) :
    share (fun ω : (Fin n → Bytes 12) × ((Bytes k → Equiv.Perm (Bytes 16)) × Bytes k) =>
        Decrypted ((p.draw (firstNonces ω.1) 0).answers (sideAnswer (Dir.answer ω.2.1) ((aesGcmOf k).answer ω.2)))) ≤
      gcmForgery L n + q / 2 ^ (8 * k) + noncesBound n :=
  nonces_le id (A := (Bytes k → Equiv.Perm (Bytes 16)) × Bytes k) (g := fun ω => Dir.answer ω.1) (ans := fun ω => (aesGcmOf k).answer ω) (fun ω x => fits_answer (aesGcmOf k) ω x)
    (by rw [gcmForgery]; positivity)
    fun v hv => C117_forgery (careful id (p.draw (firstNonces v) 0)) L q n hL hn (nonces_counts id hc v) (nonces_rules id hc hp hv)

/-- **C135.**  The same for AES-GCM. -/
theorem C135_gcm_privacy {k : Nat} {O : Type} (p : GcmAttack k (Drawn Pair) O) (L q n : Nat) (hL : L < 2 ^ 32) (hn : n * L < 2 ^ 64)
    (hc : p.Counts q n) (hp : ByRulesDrawn Pair.fst L p []) (acc : O → Prop) :
    |share (fun ω : (Fin n → Bytes 12) × ((Bytes k → Equiv.Perm (Bytes 16)) × Bytes k) =>
        acc ((p.draw (firstNonces ω.1) 0).run (sideAnswer (Dir.answer ω.2.1) fun x => (aesGcmOf k).answer ω.2 x.fst))) -
      share (fun ω : (Fin n → Bytes 12) × ((Bytes k → Equiv.Perm (Bytes 16)) × Bytes k) =>
        acc ((p.draw (firstNonces ω.1) 0).run (sideAnswer (Dir.answer ω.2.1) fun x => (aesGcmOf k).answer ω.2 x.snd)))| ≤
      gcmPrivacy L n + 2 * (q / 2 ^ (8 * k)) + noncesBound n :=
  nonces_abs Pair.fst (A := (Bytes k → Equiv.Perm (Bytes 16)) × Bytes k) (B := (Bytes k → Equiv.Perm (Bytes 16)) × Bytes k) (g := fun ω => Dir.answer ω.1) (g' := fun ω => Dir.answer ω.1)
    (ans := fun ω x => (aesGcmOf k).answer ω x.fst) (ans' := fun ω x => (aesGcmOf k).answer ω x.snd)
    (fun ω x => fits_answer (aesGcmOf k) ω x.fst) (fun ω x => fits_snd x (fits_answer (aesGcmOf k) ω x.snd))
    (by rw [gcmPrivacy]; positivity) acc
    fun v hv => C117_privacy (careful Pair.fst (p.draw (firstNonces v) 0)) L q n hL hn (nonces_counts Pair.fst hc v)
      (nonces_rules Pair.fst hc hp hv) acc

/-- **C135.**  The same for AES-GCM. -/
theorem C135_gcm_random {k : Nat} {O : Type} (p : GcmAttack k (Drawn Ask) O) (L q n : Nat) (hL : L < 2 ^ 32) (hc : p.Counts q n)
    (hp : ByRulesDrawn id L p []) (acc : O → Prop) :
    |share (fun ω : (Fin n → Bytes 12) × ((Bytes k → Equiv.Perm (Bytes 16)) × Bytes k) =>
        acc ((p.draw (firstNonces ω.1) 0).run (sideAnswer (Dir.answer ω.2.1) ((aesGcmOf k).answer ω.2)))) -
      share (fun ω : (Fin n → Bytes 12) × ((Bytes k → Equiv.Perm (Bytes 16)) × (Bytes 12 × U32 → Bytes 16)) =>
        acc ((p.draw (firstNonces ω.1) 0).run (sideAnswer (Dir.answer ω.2.1) (randomSealed 0 1 2 ω.2.2))))| ≤
      gcmSealed L n + q / 2 ^ (8 * k) + noncesBound n :=
  nonces_abs id (A := (Bytes k → Equiv.Perm (Bytes 16)) × Bytes k) (B := (Bytes k → Equiv.Perm (Bytes 16)) × (Bytes 12 × U32 → Bytes 16)) (g := fun ω => Dir.answer ω.1) (g' := fun ω => Dir.answer ω.1)
    (ans := fun ω => (aesGcmOf k).answer ω) (ans' := fun ω => randomSealed 0 1 2 ω.2)
    (fun ω x => fits_answer (aesGcmOf k) ω x) (fun ω x => fits_sealed 0 1 2 ω.2 x)
    (by rw [gcmSealed]; positivity) acc
    fun v hv => C132_gcm (careful id (p.draw (firstNonces v) 0)) L q n hL (nonces_counts id hc v) (nonces_rules id hc hp hv) acc

/-! ## The nonces can be equal -/

/-- A pair of questions with one nonce. -/
def encPair (m m' : U8) (iv : Bytes 12) : Pair := ⟨(.enc iv [] [m], .enc iv [] [m']), rfl, rfl, rfl⟩

/-- Two messages are encrypted, which are equal or different; whether the nonces are equal, and the ciphertexts. -/
def equalAttack {D X : Type} : Prog (D ⊕ Drawn Pair) (X ⊕ Seen) Prop :=
  .ask (.inr (.inr (encPair 0 0))) fun
    | .inr (.enc iv _ c _) => .ask (.inr (.inr (encPair 0 1))) fun
      | .inr (.enc iv' _ c' _) => .ret (iv = iv' ∧ c = c')
      | _ => .ret False
    | _ => .ret False

theorem equalAttack_counts {D X : Type} : (equalAttack (D := D) (X := X)).Counts 0 2 := by
  refine ⟨1, rfl, fun s => ?_⟩
  match s with
  | .inl _ | .inr (.dec ..) | .inr .failed | .inr .stopped => trivial
  | .inr (.enc iv aad c t) =>
    refine ⟨0, rfl, fun s => ?_⟩
    match s with
    | .inl _ | .inr (.dec ..) | .inr .failed | .inr .stopped | .inr (.enc ..) => trivial

theorem equalAttack_rules {D X : Type} : ByRulesDrawn Pair.fst 2 (equalAttack (D := D) (X := X)) [] := by
  refine fun iv => ⟨⟨[], [0], rfl, by decide⟩, fun s _ => ?_⟩
  match s with
  | .dec .. | .failed | .stopped => trivial
  | .enc iv aad c t =>
    refine fun iv => ⟨⟨[], [0], rfl, by decide⟩, fun s _ => ?_⟩
    match s with
    | .dec .. | .failed | .stopped | .enc .. => trivial

theorem share_repeated : share (fun v : Fin 2 → Bytes 12 => v 0 = v 1) = noncesBound 2 := by
  have h := share_equiv (finTwoArrowEquiv (Bytes 12)) fun x : Bytes 12 × Bytes 12 => x.1 = x.2
  refine (show share (fun v : Fin 2 → Bytes 12 => v 0 = v 1) = _ from h).trans ?_
  classical
  have e : ∀ a : Bytes 12, share (fun b => a = b) = 1 / 2 ^ 96 := fun a => by
    have e1 : (univ.filter fun b => a = b) = {a} := by
      ext b
      simp [eq_comm]
    rw [share, card_key]
    have e2 := congrArg Finset.card e1
    rw [Finset.card_singleton] at e2
    norm_num
    convert e2
  rw [share_prod]
  simp only [e]
  rw [Finset.sum_const, Finset.card_univ, nsmul_eq_mul, card_key, noncesBound]
  norm_num

theorem stream_ne {n : Nat} (hn : 0 < n) (g : Nat → Bytes n) : stream n (fun j => (g j).1) [0] ≠ stream n (fun j => (g j).1) [1] := by
  have h1 : ∀ x : U8, stream n (fun j => (g j).1) [x] = Spec.xor (Spec.block n [x] 0) (g 0).1 := by
    intro x
    rw [stream, show ([x] : List U8).length = 1 from rfl, show (1 + n - 1) / n = 1 from by
      rw [Nat.add_sub_cancel_left, Nat.div_self hn]]
    simp
  have h2 : ∀ x : U8, Spec.block n [x] 0 = [x] := by
    intro x
    rw [Spec.block, Nat.mul_zero, List.drop_zero, List.take_of_length_le (by simpa using Nat.succ_le_of_lt hn)]
  rw [h1, h1, h2, h2]
  have hg := (g 0).2
  rcases hb : (g 0).1 with _ | ⟨b, l⟩
  · rw [hb] at hg; simp at hg; omega
  · simp only [Spec.xor, List.zipWith_cons_cons, List.zipWith_nil_left, ne_eq, List.cons.injEq, and_true]
    intro e
    have := congrArg (· ^^^ b) e
    simp [BitVec.xor_assoc] at this

theorem twice_run {D X : Type} (g : D → X) {ans : Ask → Seen} {ct : Bytes 12 → U8 → List U8}
    (ha : ∀ iv m, ∃ t, ans (.enc iv [] [m]) = .enc iv [] (ct iv m) t) (hne : ∀ iv, ct iv 0 ≠ ct iv 1) (v : Fin 2 → Bytes 12) :
    ((equalAttack.draw (firstNonces v) 0).run (sideAnswer g fun x => ans x.fst) ↔ v 0 = v 1) ∧
      ¬ (equalAttack.draw (firstNonces v) 0).run (sideAnswer g fun x => ans x.snd) := by
  have e0 : firstNonces v 0 = v 0 := rfl
  have e1 : firstNonces v 1 = v 1 := rfl
  obtain ⟨t0, h0⟩ := ha (v 0) 0
  obtain ⟨t1, h1⟩ := ha (v 1) 0
  obtain ⟨t2, h2⟩ := ha (v 1) 1
  constructor
  · simp only [equalAttack, Prog.draw, Prog.run, sideAnswer, encPair, Pair.fst, e0, h0, e1, h1]
    exact ⟨fun h => h.1, fun h => ⟨h, by rw [h]⟩⟩
  · simp only [equalAttack, Prog.draw, Prog.run, sideAnswer, encPair, Pair.snd, e0, h0, e1, h2]
    rintro ⟨h, h'⟩
    rw [h] at h'
    exact hne _ h'

/-- **C135.**  The term for the nonces is needed: with two questions by the rules, and none to the permutation or the block cipher, just
this share tells apart the encryptions of two messages of equal lengths. -/
theorem C135_needed (k : Nat) : (∀ {D X : Type}, (equalAttack (D := D) (X := X)).Counts 0 2 ∧ ByRulesDrawn Pair.fst 2 (equalAttack (D := D) (X := X)) []) ∧
    (share (fun ω : (Fin 2 → Bytes 12) × (Equiv.Perm (Words 32 16) × Bytes 32) =>
        (equalAttack.draw (firstNonces ω.1) 0).run (bothAnswer ω.2.1 fun x => chachaPolyOf.answer ω.2 x.fst)) -
      share (fun ω : (Fin 2 → Bytes 12) × (Equiv.Perm (Words 32 16) × Bytes 32) =>
        (equalAttack.draw (firstNonces ω.1) 0).run (bothAnswer ω.2.1 fun x => chachaPolyOf.answer ω.2 x.snd)) = noncesBound 2) ∧
    share (fun ω : (Fin 2 → Bytes 12) × ((Bytes k → Equiv.Perm (Bytes 16)) × Bytes k) =>
        (equalAttack.draw (firstNonces ω.1) 0).run (sideAnswer (Dir.answer ω.2.1) fun x => (aesGcmOf k).answer ω.2 x.fst)) -
      share (fun ω : (Fin 2 → Bytes 12) × ((Bytes k → Equiv.Perm (Bytes 16)) × Bytes k) =>
        (equalAttack.draw (firstNonces ω.1) 0).run (sideAnswer (Dir.answer ω.2.1) fun x => (aesGcmOf k).answer ω.2 x.snd)) = noncesBound 2 := by
  have : Nonempty (Bytes k) := ⟨⟨List.replicate k 0, List.length_replicate⟩⟩
  have hC := fun ω : (Fin 2 → Bytes 12) × (Equiv.Perm (Words 32 16) × Bytes 32) =>
    twice_run (Dir.answer fun _ : Unit => ω.2.1) (ans := chachaPolyOf.answer ω.2) (ct := fun iv m => chachaCt (chachaFeed ω.2.1 ω.2.2) iv [m])
      (fun iv m => ⟨_, by rw [chachaPolyOf_answer, Aead.answer, chachaPoly_enc _ iv [] (by simp)]⟩)
      (fun iv => stream_ne (by decide) fun j => chachaFeed ω.2.1 ω.2.2 (iv, 1 + BitVec.ofNat 32 j)) ω.1
  have hG := fun ω : (Fin 2 → Bytes 12) × ((Bytes k → Equiv.Perm (Bytes 16)) × Bytes k) =>
    twice_run (Dir.answer ω.2.1) (ans := (aesGcmOf k).answer ω.2) (ct := fun iv m => gcmCt (ω.2.1 ω.2.2) iv [m])
      (fun iv m => ⟨_, by rw [aesGcmOf_answer, Aead.answer, aesGcm_enc _ iv [] (by simp)]⟩)
      (fun iv => stream_ne (by decide) fun j => ω.2.1 ω.2.2 (point iv (2 + BitVec.ofNat 32 j))) ω.1
  refine ⟨⟨equalAttack_counts, equalAttack_rules⟩, ?_, ?_⟩
  · simp only [bothAnswer]
    rw [share_congr fun ω => (hC ω).1, share_false fun ω => (hC ω).2, sub_zero, share_fst fun v : Fin 2 → Bytes 12 => v 0 = v 1, share_repeated]
  · rw [share_congr fun ω => (hG ω).1, share_false fun ω => (hG ω).2, sub_zero, share_fst fun v : Fin 2 → Bytes 12 => v 0 = v 1, share_repeated]

/-! ## Examples -/

/-- Two messages are encrypted, and one ciphertext is sent back with the nonce of the other. -/
def mixAttack {D X : Type} : Prog (D ⊕ Drawn Ask) (X ⊕ Seen) Unit :=
  .ask (.inr (.inr fun iv => .enc iv [1] [2, 3, 4])) fun
    | .inr (.enc iv aad c t) => .ask (.inr (.inr fun iv => .enc iv [1] [5, 6, 7])) fun
      | .inr (.enc iv' _ c' t') =>
        if h : t.length = 16 ∧ blocks aad c ≤ 3 ∧ iv' ≠ iv ∧ (c', t') ≠ (c, t) then .ask (.inr (.inl (.dec iv' aad c ⟨t, h.1⟩))) fun _ => .ret ()
        else .ret ()
      | _ => .ret ()
    | _ => .ret ()

theorem mixAttack_counts {D X : Type} : (mixAttack (D := D) (X := X)).Counts 0 3 := by
  refine ⟨2, rfl, fun s => ?_⟩
  match s with
  | .inl _ | .inr (.dec ..) | .inr .failed | .inr .stopped => trivial
  | .inr (.enc iv aad c t) =>
    refine ⟨1, rfl, fun s => ?_⟩
    match s with
    | .inl _ | .inr (.dec ..) | .inr .failed | .inr .stopped => trivial
    | .inr (.enc iv' _ c' t') =>
      dsimp only
      split
      · exact ⟨0, rfl, fun _ => trivial⟩
      · trivial

theorem mixAttack_rules {D X : Type} : ByRulesDrawn id 3 (mixAttack (D := D) (X := X)) [] := by
  refine fun iv => ⟨⟨[1], [2, 3, 4], rfl, by decide⟩, fun s _ => ?_⟩
  match s with
  | .dec .. | .failed | .stopped => trivial
  | .enc iv aad c t =>
    refine fun iv => ⟨⟨[1], [5, 6, 7], rfl, by decide⟩, fun s _ => ?_⟩
    match s with
    | .dec .. | .failed | .stopped => trivial
    | .enc iv' aad' c' t' =>
      dsimp only
      split
      · rename_i h
        refine ⟨⟨iv', aad, c, ⟨t, h.1⟩, rfl, fun hmem => ?_, h.2.1⟩, fun _ _ => trivial⟩
        rcases List.mem_append.mp hmem with hmem | hmem
        · rw [List.nil_append, List.mem_singleton, Seen.enc.injEq] at hmem
          exact h.2.2.1 hmem.1
        · rw [List.mem_singleton, Seen.enc.injEq] at hmem
          exact h.2.2.2 (Prod.ext hmem.2.2.1.symm hmem.2.2.2.symm)
      · trivial

example : share (fun ω : (Fin 3 → Bytes 12) × (Equiv.Perm (Words 32 16) × Bytes 32) =>
    Decrypted ((mixAttack.draw (firstNonces ω.1) 0).answers (bothAnswer ω.2.1 (chachaPolyOf.answer ω.2)))) ≤ 1 / 2 ^ 93 := by
  refine (C135_chacha_forgery mixAttack 3 0 3 (by norm_num) mixAttack_counts mixAttack_rules).trans ?_
  rw [chachaForgery, blockBound, noncesBound, show (2 : ℚ) ^ 513 = 2 ^ 171 * 2 ^ 171 * 2 ^ 171 by rw [← pow_add, ← pow_add]]
  norm_num

example : share (fun ω : (Fin 3 → Bytes 12) × ((Bytes 16 → Equiv.Perm (Bytes 16)) × Bytes 16) =>
    Decrypted ((mixAttack.draw (firstNonces ω.1) 0).answers (sideAnswer (Dir.answer ω.2.1) ((aesGcmOf 16).answer ω.2)))) ≤ 1 / 2 ^ 93 := by
  refine (C135_gcm_forgery mixAttack 3 0 3 (by norm_num) (by norm_num) mixAttack_counts mixAttack_rules).trans ?_
  rw [gcmForgery, noncesBound]
  norm_num

end Hacspec.Props
