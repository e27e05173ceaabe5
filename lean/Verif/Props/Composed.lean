import Verif.Lemmas.Ideal.Composed
import Verif.Props.CounterModes
import Verif.Props.Sessions

/-! # C139: encryption with ChaCha20 or AES and then authentication with HMAC -/

namespace Hacspec.Props

open Spec Hacspec.Ideal Finset

/-- `chacha20.rs:87-99` `chacha` with a permutation in place of the rounds. -/
noncomputable def chachaEnc (π : Equiv.Perm (Words 32 16)) (key : Bytes 32) (iv : Bytes 12) (m : List U8) : M (List U8) :=
  chachaStreamOf π key (iv, m)

/-- `aes.rs:288-308` `aes_encrypt` with a block cipher in place of AES, with first counter `c`. -/
noncomputable def aesEnc (c : U32) (F : Bytes 16 → Bytes 16) (iv : Bytes 12) (m : List U8) : M (List U8) := aesStreamOf F (iv, c, m)

/-! ## Any encryption -/

/-- Encryption succeeds and keeps lengths. -/
def KeepsLength (ℓ : Nat) (enc : Bytes 12 → List U8 → M (List U8)) : Prop :=
  ∀ x : Plain ℓ, ∃ c, enc x.1 x.2.1 = .ok c ∧ c.length = x.2.1.length

/-- The answer from the tag. -/
def withTag (c : List U8) (t : M (List U8)) : M (List U8 × List U8) := t >>= fun t => .ok (c, t)

theorem sealWith_ok {enc : Bytes 12 → List U8 → M (List U8)} (mac : List U8 → M (List U8)) {iv : Bytes 12} {m c : List U8}
    (h : enc iv m = .ok c) : sealWith enc mac iv m = withTag c (mac (iv.1 ++ c)) := by
  rw [sealWith, h]
  rfl

theorem composed_forgery {D X : Type} {ℓ n : Nat} (hn : n ≤ 64) (hℓ : ℓ < 2 ^ 54) (g : D → X) {enc : Bytes 12 → List U8 → M (List U8)}
    (henc : KeepsLength ℓ enc) (p : ComposedAttack D X ℓ (Plain ℓ × List U8)) (q a : Nat) (hp : p.Counts q a)
    (hT : q + (a + 1) * ℓ < 2 ^ 256) :
    share (fun ω : (Bytes 64 → Equiv.Perm (Words 32 8)) × Bytes n => ForgesSealed ω.1 g enc (Hacspec.Ideal.hmac ω.1 ω.2.1) p) ≤
      1 / 2 ^ 256 + prfBound n (q + (a + 1) * ℓ) (a + 1) := by
  choose ct h1 h2 using henc
  let P : MacAttack false ℓ (Texts false ℓ × List U8) := recast shaStart (.error .panic) g (fun x => sealedText x (ct x) (h2 x))
    (fun x t => withTag (ct x) t) (fun o => (sealedText o.1 o.1.2.1 rfl, o.2)) p
  refine le_trans (share_mono fun ω h => ?_) (C113_forgery hn hℓ P q a (recast_counts _ _ _ _ _ _ hp) hT)
  obtain ⟨h3, m, h4⟩ := h
  let mac := Hacspec.Ideal.hmac ω.1 ω.2.1
  have e : composedAnswer ω.1 g enc mac = sideAnswer (sideAnswer (Dir.answer ω.1) g) fun x : Plain ℓ =>
      withTag (ct x) (mac (sealedText x (ct x) (h2 x)).1) :=
    congrArg (sideAnswer (sideAnswer (Dir.answer ω.1) g)) (funext fun x => sealWith_ok mac (h1 x))
  rw [ForgesTag, macAnswer_side, run_recast]
  have e' : (sideAnswer (sideAnswer (Dir.answer ω.1) g) fun x : Plain ℓ => withTag (ct x)
      (Hacspec.Ideal.hmac ω.1 ω.2.1 (sealedText x (ct x) (h2 x)).1)) = composedAnswer ω.1 g enc mac := e.symm
  rw [e']
  generalize ho : p.run (composedAnswer ω.1 g enc mac) = o at h3 h4
  have h5 : mac (o.1.1.1 ++ o.1.2.1) = .ok o.2 := by
    rw [openWith] at h4
    cases h6 : Hacspec.Ideal.hmac ω.1 ω.2.1 (o.1.1.1 ++ o.1.2.1) with
    | error x => rw [h6] at h4; cases h4
    | ok t =>
      rw [h6] at h4
      by_cases ht : t = o.2
      · exact ht ▸ h6
      · have h4 : (if t = o.2 then some <$> enc o.1.1 o.1.2.1 else .ok none) = .ok (some m) := h4
        rw [if_neg ht] at h4
        cases h4
  refine ⟨fun hq => ?_, congrArg Sum.inr h5⟩
  obtain ⟨y, h6, h7⟩ := questions_recast _ _ _ _ _ _ _ _ _ _ hq
  rw [e'] at h7
  have h8 : y.1.1 ++ ct y = o.1.1.1 ++ o.1.2.1 := congrArg Subtype.val h6
  obtain ⟨h9, h10⟩ := List.append_inj h8 (y.1.2.trans o.1.1.2.symm)
  refine h3 y h7 (Subtype.ext h9) o.2 ?_
  refine (sealWith_ok mac (h1 y)).trans ?_
  rw [h8, h5, h10]
  rfl

theorem composed_tags {D X : Type} {ℓ n : Nat} (hn : n ≤ 64) (hℓ : ℓ < 2 ^ 54) (g : D → X) {O : Type} (p : ComposedAttack D X ℓ O) (q a : Nat)
    (hp : p.Counts q a) (hT : q + a * ℓ < 2 ^ 256) (ct : Plain ℓ → List U8) (hc : ∀ x, (ct x).length = x.2.1.length) (acc : O → Prop) :
    |share (fun ω : (Bytes 64 → Equiv.Perm (Words 32 8)) × Bytes n =>
        acc (p.run (sideAnswer (sideAnswer (Dir.answer ω.1) g) fun x => withTag (ct x) (Hacspec.Ideal.hmac ω.1 ω.2.1 (x.1.1 ++ ct x))))) -
      share (fun ω : (Bytes 64 → Equiv.Perm (Words 32 8)) × (Texts false ℓ → Bytes 32) =>
        acc (p.run (sideAnswer (sideAnswer (Dir.answer ω.1) g) fun x => .ok (ct x, (ω.2 (sealedText x (ct x) (hc x))).1))))| ≤
      prfBound n (q + a * ℓ) a := by
  have h := C113_prf (n := n) hn hℓ (recast shaStart (.error .panic) g (fun x => sealedText x (ct x) (hc x))
    (fun x t => withTag (ct x) t) id p) q a (recast_counts _ _ _ _ _ _ hp) hT acc
  simp only [macAnswer_side, run_recast] at h
  exact h

/-! ## ChaCha20 -/

theorem uses_plain {ℓ n : Nat} (hn : 0 < n) (k : Nat) (hk : n * k = 64) (c : U32) (x : Plain ℓ) :
    (StreamAsk.blocks n (x.1, c, x.2.1)).length ≤ k * ℓ := by
  have h := x.2.2.1
  rw [StreamAsk.blocks, List.length_map, List.length_range]
  refine Nat.le_of_lt_succ ((Nat.div_lt_iff_lt_mul hn).mpr ?_)
  have : (k * ℓ).succ * n = 64 * ℓ + n := by
    rw [Nat.succ_mul, Nat.mul_right_comm, Nat.mul_comm k n, hk]
  rw [this]
  show x.2.1.length + n - 1 < _
  omega

theorem chacha_keeps {ℓ : Nat} (hℓ : ℓ ≤ 2 ^ 32) (π : Equiv.Perm (Words 32 16)) (key : Bytes 32) : KeepsLength ℓ (chachaEnc π key) := fun x => by
  have h := uses_plain (ℓ := ℓ) (n := 64) (by omega) 1 rfl 1 x
  rw [StreamAsk.blocks, List.length_map, List.length_range] at h
  have h : (x.2.1.length + 64 - 1) / 64 ≤ 2 ^ 32 := h.trans (by omega)
  exact ⟨_, chachaStream_ok π key (x.1, x.2.1) (nodup_blocks _ h), length_streamOf (by omega) _ _⟩

theorem aes_keeps {ℓ : Nat} (hℓ : ℓ ≤ 2 ^ 30) (c : U32) (F : Bytes 16 → Bytes 16) : KeepsLength ℓ (aesEnc c F) := fun x => by
  have h := uses_plain (ℓ := ℓ) (n := 16) (by omega) 4 rfl c x
  rw [StreamAsk.blocks, List.length_map, List.length_range] at h
  have h : (x.2.1.length + 16 - 1) / 16 ≤ 2 ^ 32 := h.trans (by omega)
  exact ⟨_, aesStream_ok F (x.1, c, x.2.1) (nodup_blocks _ h), length_streamOf (by omega) _ _⟩

/-- **C139.**  ChaCha20 and HMAC, forgeries: whoever asks both primitives `q` times and gets `a` sealed messages of at most `ℓ` blocks, with
any nonces, even repeated ones, finds a new ciphertext that is opened for at most this share of keys and primitives. -/
theorem C139_chacha_forgery {ℓ n : Nat} (hn : n ≤ 64) (hℓ : ℓ ≤ 2 ^ 32)
    (p : ComposedAttack (Dir Unit (Words 32 16)) (Words 32 16) ℓ (Plain ℓ × List U8)) (q a : Nat) (hp : p.Counts q a)
    (hT : q + (a + 1) * ℓ < 2 ^ 256) :
    share (fun ω : (Equiv.Perm (Words 32 16) × Bytes 32) × ((Bytes 64 → Equiv.Perm (Words 32 8)) × Bytes n) =>
        ForgesSealed ω.2.1 (Dir.answer fun _ => ω.1.1) (chachaEnc ω.1.1 ω.1.2) (Hacspec.Ideal.hmac ω.2.1 ω.2.2.1) p) ≤
      1 / 2 ^ 256 + prfBound n (q + (a + 1) * ℓ) (a + 1) := by
  have h := fun κ : Equiv.Perm (Words 32 16) × Bytes 32 =>
    composed_forgery (n := n) hn (by omega) (Dir.answer fun _ => κ.1) (chacha_keeps hℓ κ.1 κ.2) p q a hp hT
  generalize 1 / 2 ^ 256 + prfBound n (q + (a + 1) * ℓ) (a + 1) = ε at h ⊢
  have hε : 0 ≤ ε := (share_nonneg _).trans (h (Classical.arbitrary _))
  exact share_prod_le (P := fun ω : (Equiv.Perm (Words 32 16) × Bytes 32) × ((Bytes 64 → Equiv.Perm (Words 32 8)) × Bytes n) =>
        ForgesSealed ω.2.1 (Dir.answer fun _ => ω.1.1) (chachaEnc ω.1.1 ω.1.2) (Hacspec.Ideal.hmac ω.2.1 ω.2.2.1) p) hε h

/-- **C139.**  AES and HMAC, forgeries. -/
theorem C139_aes_forgery {ℓ n k : Nat} (hn : n ≤ 64) (hℓ : ℓ ≤ 2 ^ 30) (c : U32)
    (p : ComposedAttack (Dir (Bytes k) (Bytes 16)) (Bytes 16) ℓ (Plain ℓ × List U8)) (q a : Nat) (hp : p.Counts q a)
    (hT : q + (a + 1) * ℓ < 2 ^ 256) :
    share (fun ω : ((Bytes k → Equiv.Perm (Bytes 16)) × Bytes k) × ((Bytes 64 → Equiv.Perm (Words 32 8)) × Bytes n) =>
        ForgesSealed ω.2.1 (Dir.answer ω.1.1) (aesEnc c (ω.1.1 ω.1.2)) (Hacspec.Ideal.hmac ω.2.1 ω.2.2.1) p) ≤
      1 / 2 ^ 256 + prfBound n (q + (a + 1) * ℓ) (a + 1) := by
  have h := fun κ : (Bytes k → Equiv.Perm (Bytes 16)) × Bytes k =>
    composed_forgery (n := n) hn (by omega) (Dir.answer κ.1) (aes_keeps hℓ c (κ.1 κ.2)) p q a hp hT
  generalize 1 / 2 ^ 256 + prfBound n (q + (a + 1) * ℓ) (a + 1) = ε at h ⊢
  have hε : 0 ≤ ε := (share_nonneg _).trans (h (Classical.arbitrary _))
  exact share_prod_le (P := fun ω : ((Bytes k → Equiv.Perm (Bytes 16)) × Bytes k) × ((Bytes 64 → Equiv.Perm (Words 32 8)) × Bytes n) =>
        ForgesSealed ω.2.1 (Dir.answer ω.1.1) (aesEnc c (ω.1.1 ω.1.2)) (Hacspec.Ideal.hmac ω.2.1 ω.2.2.1) p) hε h

/-! ## Privacy -/

theorem share_diff {A B C : Type} [Fintype A] [Fintype B] [Fintype C] [Nonempty A] (P : A × B → Prop) (Q : A × C → Prop) {ε : ℚ}
    (h : ∀ a, |share (fun b => P (a, b)) - share (fun c => Q (a, c))| ≤ ε) : |share P - share Q| ≤ ε := by
  have h1 := share_prod_add (P := P) (Q := Q) (ε := ε) fun a => by linarith [(abs_le.mp (h a)).2]
  have h2 := share_prod_add (P := Q) (Q := P) (ε := ε) fun a => by linarith [(abs_le.mp (h a)).1]
  rw [abs_le]
  constructor <;> linarith

theorem two_steps {K K' W W' : Type} [Fintype K] [Fintype K'] [Fintype W] [Fintype W'] [Nonempty K'] [Nonempty W] (P : K × W → Prop)
    (P' : K' × W → Prop) (Q : K' × W' → Prop) {ε δ : ℚ} (h1 : ∀ w, |share (fun κ => P (κ, w)) - share (fun κ => P' (κ, w))| ≤ ε)
    (h2 : ∀ κ, |share (fun w => P' (κ, w)) - share (fun w => Q (κ, w))| ≤ δ) : |share P - share Q| ≤ ε + δ := by
  have s1 := share_diff (fun x : W × K => P (x.2, x.1)) (fun x : W × K' => P' (x.2, x.1)) h1
  have s2 := share_diff P' Q h2
  rw [share_swap, share_swap] at s1
  have := abs_le.mp s1
  have := abs_le.mp s2
  rw [abs_le]
  constructor <;> linarith

theorem chacha_private {ℓ : Nat} (E : Bytes 64 → Equiv.Perm (Words 32 8)) (mac : List U8 → M (List U8)) {O : Type}
    (p : ComposedAttack (Dir Unit (Words 32 16)) (Words 32 16) ℓ O) (q a : Nat) (hp : p.Counts q a)
    (hf : FreshBlocks (fun x : Plain ℓ => StreamAsk.blocks 64 (x.1, 1, x.2.1)) p []) (acc : O → Prop) :
    |share (fun ω : Equiv.Perm (Words 32 16) × Bytes 32 =>
        acc (p.run (composedAnswer E (Dir.answer fun _ => ω.1) (chachaEnc ω.1 ω.2) mac))) -
      share (fun ω : Equiv.Perm (Words 32 16) × (Bytes 12 × U32 → Bytes 64) =>
        acc (p.run (sideAnswer (sideAnswer (Dir.answer E) (Dir.answer fun _ => ω.1)) fun x => withTag (randomStream ω.2 (x.1, 1, x.2.1))
          (mac (x.1.1 ++ randomStream ω.2 (x.1, 1, x.2.1))))))| ≤ blockBound q (a * ℓ) := by
  have h := C131_chacha (encPart (⟨List.replicate 16 0, List.length_replicate⟩ : Words 32 16) (.error .panic) (Dir.answer E)
    (fun x : Plain ℓ => (x.1, x.2.1)) (fun x c => c >>= fun c => withTag c (mac (x.1.1 ++ c))) p) q (a * ℓ)
    (encPart_uses _ _ _ (fun x : Plain ℓ => (x.1, x.2.1)) _ (L := ℓ) (fun x => by
      have := uses_plain (n := 64) (by omega) 1 rfl 1 x
      rw [Nat.one_mul] at this
      exact this) hp le_rfl)
    (encPart_fresh _ _ _ (fun x : Plain ℓ => (x.1, x.2.1)) _ hf) acc
  simp only [bothAnswer, run_encPart] at h
  exact h

theorem aes_private {ℓ k : Nat} (c : U32) (E : Bytes 64 → Equiv.Perm (Words 32 8)) (mac : List U8 → M (List U8)) {O : Type}
    (p : ComposedAttack (Dir (Bytes k) (Bytes 16)) (Bytes 16) ℓ O) (q a : Nat) (hp : p.Counts q a)
    (hf : FreshBlocks (fun x : Plain ℓ => StreamAsk.blocks 16 (x.1, c, x.2.1)) p []) (acc : O → Prop) :
    |share (fun ω : (Bytes k → Equiv.Perm (Bytes 16)) × Bytes k =>
        acc (p.run (composedAnswer E (Dir.answer ω.1) (aesEnc c (ω.1 ω.2)) mac))) -
      share (fun ω : (Bytes k → Equiv.Perm (Bytes 16)) × (Bytes 12 × U32 → Bytes 16) =>
        acc (p.run (sideAnswer (sideAnswer (Dir.answer E) (Dir.answer ω.1)) fun x => withTag (randomStream ω.2 (x.1, c, x.2.1))
          (mac (x.1.1 ++ randomStream ω.2 (x.1, c, x.2.1))))))| ≤ ctrBound k q (a * (4 * ℓ)) := by
  have h := C131_aes (encPart (⟨List.replicate 16 0, List.length_replicate⟩ : Bytes 16) (.error .panic) (Dir.answer E)
    (fun x : Plain ℓ => (x.1, c, x.2.1)) (fun x c => c >>= fun c => withTag c (mac (x.1.1 ++ c))) p) q (a * (4 * ℓ))
    (encPart_uses _ _ _ (fun x : Plain ℓ => (x.1, c, x.2.1)) _ (L := 4 * ℓ) (fun x => uses_plain (n := 16) (by omega) 4 rfl c x) hp le_rfl)
    (encPart_fresh _ _ _ (fun x : Plain ℓ => (x.1, c, x.2.1)) _ hf) acc
  simp only [run_encPart] at h
  exact h

/-- **C139.**  ChaCha20 and HMAC, privacy: if no block of the key stream is used twice, the sealed messages are like random strings of the
lengths of the messages with random tags. -/
theorem C139_chacha_privacy {ℓ n : Nat} (hn : n ≤ 64) (hℓ : ℓ ≤ 2 ^ 32) {O : Type}
    (p : ComposedAttack (Dir Unit (Words 32 16)) (Words 32 16) ℓ O) (q a : Nat) (hp : p.Counts q a)
    (hf : FreshBlocks (fun x : Plain ℓ => StreamAsk.blocks 64 (x.1, 1, x.2.1)) p []) (hT : q + a * ℓ < 2 ^ 256) (acc : O → Prop) :
    |share (fun ω : (Equiv.Perm (Words 32 16) × Bytes 32) × ((Bytes 64 → Equiv.Perm (Words 32 8)) × Bytes n) =>
        acc (p.run (composedAnswer ω.2.1 (Dir.answer fun _ => ω.1.1) (chachaEnc ω.1.1 ω.1.2) (Hacspec.Ideal.hmac ω.2.1 ω.2.2.1)))) -
      share (fun ω : (Equiv.Perm (Words 32 16) × (Bytes 12 × U32 → Bytes 64)) × ((Bytes 64 → Equiv.Perm (Words 32 8)) × (Texts false ℓ → Bytes 32)) =>
        acc (p.run (sideAnswer (sideAnswer (Dir.answer ω.2.1) (Dir.answer fun _ => ω.1.1)) (randomSeal (by decide) 1 ω.1.2 ω.2.2))))| ≤
      blockBound q (a * ℓ) + prfBound n (q + a * ℓ) a := by
  refine two_steps
    (fun ω : (Equiv.Perm (Words 32 16) × Bytes 32) × ((Bytes 64 → Equiv.Perm (Words 32 8)) × Bytes n) =>
      acc (p.run (composedAnswer ω.2.1 (Dir.answer fun _ => ω.1.1) (chachaEnc ω.1.1 ω.1.2) (Hacspec.Ideal.hmac ω.2.1 ω.2.2.1))))
    (fun ω : (Equiv.Perm (Words 32 16) × (Bytes 12 × U32 → Bytes 64)) × ((Bytes 64 → Equiv.Perm (Words 32 8)) × Bytes n) =>
      acc (p.run (sideAnswer (sideAnswer (Dir.answer ω.2.1) (Dir.answer fun _ => ω.1.1)) fun x => withTag (randomStream ω.1.2 (x.1, 1, x.2.1))
        (Hacspec.Ideal.hmac ω.2.1 ω.2.2.1 (x.1.1 ++ randomStream ω.1.2 (x.1, 1, x.2.1))))))
    (fun ω : (Equiv.Perm (Words 32 16) × (Bytes 12 × U32 → Bytes 64)) × ((Bytes 64 → Equiv.Perm (Words 32 8)) × (Texts false ℓ → Bytes 32)) =>
      acc (p.run (sideAnswer (sideAnswer (Dir.answer ω.2.1) (Dir.answer fun _ => ω.1.1)) (randomSeal (by decide) 1 ω.1.2 ω.2.2)))) ?_ ?_
  · intro κ
    have h := chacha_private κ.1 (Hacspec.Ideal.hmac κ.1 κ.2.1) p q a hp hf acc
    exact h
  · intro κ
    have h := composed_tags (n := n) hn (by omega) (Dir.answer fun _ => κ.1) p q a hp hT (fun x => randomStream κ.2 (x.1, 1, x.2.1))
      (fun x => length_randomStream (by decide) _ _) acc
    exact h

/-- **C139.**  AES and HMAC, privacy. -/
theorem C139_aes_privacy {ℓ n k : Nat} (hn : n ≤ 64) (hℓ : ℓ ≤ 2 ^ 30) (c : U32) {O : Type}
    (p : ComposedAttack (Dir (Bytes k) (Bytes 16)) (Bytes 16) ℓ O) (q a : Nat) (hp : p.Counts q a)
    (hf : FreshBlocks (fun x : Plain ℓ => StreamAsk.blocks 16 (x.1, c, x.2.1)) p []) (hT : q + a * ℓ < 2 ^ 256) (acc : O → Prop) :
    |share (fun ω : ((Bytes k → Equiv.Perm (Bytes 16)) × Bytes k) × ((Bytes 64 → Equiv.Perm (Words 32 8)) × Bytes n) =>
        acc (p.run (composedAnswer ω.2.1 (Dir.answer ω.1.1) (aesEnc c (ω.1.1 ω.1.2)) (Hacspec.Ideal.hmac ω.2.1 ω.2.2.1)))) -
      share (fun ω : ((Bytes k → Equiv.Perm (Bytes 16)) × (Bytes 12 × U32 → Bytes 16)) × ((Bytes 64 → Equiv.Perm (Words 32 8)) × (Texts false ℓ → Bytes 32)) =>
        acc (p.run (sideAnswer (sideAnswer (Dir.answer ω.2.1) (Dir.answer ω.1.1)) (randomSeal (by decide) c ω.1.2 ω.2.2))))| ≤
      ctrBound k q (a * (4 * ℓ)) + prfBound n (q + a * ℓ) a := by
  refine two_steps
    (fun ω : ((Bytes k → Equiv.Perm (Bytes 16)) × Bytes k) × ((Bytes 64 → Equiv.Perm (Words 32 8)) × Bytes n) =>
      acc (p.run (composedAnswer ω.2.1 (Dir.answer ω.1.1) (aesEnc c (ω.1.1 ω.1.2)) (Hacspec.Ideal.hmac ω.2.1 ω.2.2.1))))
    (fun ω : ((Bytes k → Equiv.Perm (Bytes 16)) × (Bytes 12 × U32 → Bytes 16)) × ((Bytes 64 → Equiv.Perm (Words 32 8)) × Bytes n) =>
      acc (p.run (sideAnswer (sideAnswer (Dir.answer ω.2.1) (Dir.answer ω.1.1)) fun x => withTag (randomStream ω.1.2 (x.1, c, x.2.1))
        (Hacspec.Ideal.hmac ω.2.1 ω.2.2.1 (x.1.1 ++ randomStream ω.1.2 (x.1, c, x.2.1))))))
    (fun ω : ((Bytes k → Equiv.Perm (Bytes 16)) × (Bytes 12 × U32 → Bytes 16)) × ((Bytes 64 → Equiv.Perm (Words 32 8)) × (Texts false ℓ → Bytes 32)) =>
      acc (p.run (sideAnswer (sideAnswer (Dir.answer ω.2.1) (Dir.answer ω.1.1)) (randomSeal (by decide) c ω.1.2 ω.2.2)))) ?_ ?_
  · intro κ
    have h := aes_private c κ.1 (Hacspec.Ideal.hmac κ.1 κ.2.1) p q a hp hf acc
    exact h
  · intro κ
    have h := composed_tags (n := n) hn (by omega) (Dir.answer κ.1) p q a hp hT (fun x => randomStream κ.2 (x.1, c, x.2.1))
      (fun x => length_randomStream (by decide) _ _) acc
    exact h

/-! ## The code -/

/-- **C139.**  The rounds, AES, and `schedule` with `shuffle` are among these primitives: with them, messages are sealed and opened with
`chacha` or `aes_encrypt`, and with `hmac`. -/
theorem C139_code (alg : Hacspec.Aes.Variant) :
    ∃ (E : Bytes 64 → Equiv.Perm (Words 32 8)) (π : Equiv.Perm (Words 32 16)) (A : Bytes (4 * Hacspec.Aes.nk alg) → Equiv.Perm (Bytes 16)),
      (∀ b s, (Hacspec.Sha2.schedule b.1 >>= fun ws => Hacspec.Sha2.shuffle ws s.1) = .ok (E b s).1) ∧
      (∀ s, Hacspec.ChaCha.rounds s.1 = .ok (π s).1) ∧
      (∀ key x, Hacspec.Aes.encryptBlock key.1 x.1 (Hacspec.Aes.nk alg) (Hacspec.Aes.nr alg) alg = .ok (A key x).1) ∧
      ∀ {ℓ n : Nat}, n ≤ 64 → ℓ ≤ 2 ^ 30 → ∀ (k : Bytes n) (x : Plain ℓ) (c : U32) (t : List U8),
        (∀ key, sealWith (chachaEnc π key) (Hacspec.Ideal.hmac E k.1) x.1 x.2.1 =
            sealWith (fun iv => Hacspec.ChaCha.chacha key.1 iv.1) (Hacspec.Hmac.hmac k.1) x.1 x.2.1 ∧
          openWith (chachaEnc π key) (Hacspec.Ideal.hmac E k.1) x.1 x.2.1 t =
            openWith (fun iv => Hacspec.ChaCha.chacha key.1 iv.1) (Hacspec.Hmac.hmac k.1) x.1 x.2.1 t) ∧
        ∀ key, sealWith (aesEnc c (A key)) (Hacspec.Ideal.hmac E k.1) x.1 x.2.1 =
            sealWith (fun iv m => Hacspec.Aes.encryptKey key.1 iv.1 c m alg) (Hacspec.Hmac.hmac k.1) x.1 x.2.1 ∧
          openWith (aesEnc c (A key)) (Hacspec.Ideal.hmac E k.1) x.1 x.2.1 t =
            openWith (fun iv m => Hacspec.Aes.encryptKey key.1 iv.1 c m alg) (Hacspec.Hmac.hmac k.1) x.1 x.2.1 t := by
  obtain ⟨E, e1, e2⟩ := C113_code
  obtain ⟨⟨π, p1, p2⟩, A, a1, a2⟩ := C131_code alg
  refine ⟨E, π, A, e1, p1, a1, fun {ℓ n} hn hℓ k x c t => ?_⟩
  have key : ∀ enc : Bytes 12 → List U8 → M (List U8), KeepsLength ℓ enc →
      sealWith enc (Hacspec.Ideal.hmac E k.1) x.1 x.2.1 = sealWith enc (Hacspec.Hmac.hmac k.1) x.1 x.2.1 ∧
      openWith enc (Hacspec.Ideal.hmac E k.1) x.1 x.2.1 t = openWith enc (Hacspec.Hmac.hmac k.1) x.1 x.2.1 t := by
    intro enc henc
    obtain ⟨y, h1, h2⟩ := henc x
    have hx := x.2.2.1
    have hm : ∀ z : List U8, z.length = x.2.1.length → Hacspec.Ideal.hmac E k.1 (x.1.1 ++ z) = Hacspec.Hmac.hmac k.1 (x.1.1 ++ z) := by
      intro z hz
      have hk := k.2
      have hi := x.1.2
      refine e2 _ _ (by omega) ?_
      rw [List.length_append]
      omega
    rw [sealWith_ok _ h1, sealWith_ok _ h1, hm y h2, openWith, openWith, hm _ rfl]
    exact ⟨rfl, rfl⟩
  refine ⟨fun κ => ?_, fun κ => ?_⟩
  · have e : chachaEnc π κ = fun iv => Hacspec.ChaCha.chacha κ.1 iv.1 := funext fun iv => funext fun m => p2 κ iv m
    have h := key _ (chacha_keeps (by omega) π κ)
    rwa [e] at h ⊢
  · have e : aesEnc c (A κ) = fun iv m => Hacspec.Aes.encryptKey κ.1 iv.1 c m alg := funext fun iv => funext fun m => a2 κ iv c m
    have h := key _ (aes_keeps hℓ c (A κ))
    rwa [e] at h ⊢

/-- Sealed messages are opened, and with no other tag. -/
theorem opened {enc : Bytes 12 → List U8 → M (List U8)} {mac : List U8 → M (List U8)} {iv : Bytes 12} {m c t : List U8}
    (h1 : enc iv m = .ok c) (h2 : enc iv c = .ok m) (h3 : mac (iv.1 ++ c) = .ok t) :
    ∃ c t, sealWith enc mac iv m = .ok (c, t) ∧ openWith enc mac iv c t = .ok (some m) ∧ ∀ t', t' ≠ t → openWith enc mac iv c t' = .ok none := by
  refine ⟨c, t, ?_, ?_, fun t' ht => ?_⟩
  · rw [sealWith_ok mac h1, h3]
    rfl
  · rw [openWith, h3, bind_ok, if_pos rfl, h2]
    rfl
  · rw [openWith, h3, bind_ok, if_neg (Ne.symm ht)]

theorem hmac_some (k m : List U8) (hk : k.length ≤ 64) (hm : 64 + m.length < 2 ^ 61) : ∃ t, Hacspec.Hmac.hmac k m = .ok t := by
  obtain ⟨E, -, hE⟩ := C113_code
  exact ⟨_, (hE k m hk hm).symm.trans (hmac_nested E hk ⟨k, rfl⟩ hm)⟩

/-- **C139.**  Sealed messages are opened, and with no other tag. -/
theorem C139_opens (alg : Hacspec.Aes.Variant) (key : Bytes 32) (akey : Bytes (4 * Hacspec.Aes.nk alg)) (k : List U8) (hk : k.length ≤ 64)
    (ctr : U32) (iv : Bytes 12) (m : List U8) (hm : m.length < 2 ^ 60) :
    (∃ c t, sealWith (fun iv => Hacspec.ChaCha.chacha key.1 iv.1) (Hacspec.Hmac.hmac k) iv m = .ok (c, t) ∧
      openWith (fun iv => Hacspec.ChaCha.chacha key.1 iv.1) (Hacspec.Hmac.hmac k) iv c t = .ok (some m) ∧
      ∀ t', t' ≠ t → openWith (fun iv => Hacspec.ChaCha.chacha key.1 iv.1) (Hacspec.Hmac.hmac k) iv c t' = .ok none) ∧
    ∃ c t, sealWith (fun iv m => Hacspec.Aes.encryptKey akey.1 iv.1 ctr m alg) (Hacspec.Hmac.hmac k) iv m = .ok (c, t) ∧
      openWith (fun iv m => Hacspec.Aes.encryptKey akey.1 iv.1 ctr m alg) (Hacspec.Hmac.hmac k) iv c t = .ok (some m) ∧
      ∀ t', t' ≠ t → openWith (fun iv m => Hacspec.Aes.encryptKey akey.1 iv.1 ctr m alg) (Hacspec.Hmac.hmac k) iv c t' = .ok none := by
  have hi := iv.2
  constructor
  · obtain ⟨c, h1, h2, h3, -⟩ := C36_involution key.1 iv.1 m key.2 hi (by omega)
    obtain ⟨t, ht⟩ := hmac_some k (iv.1 ++ c) hk (by rw [List.length_append]; omega)
    exact opened h1 h3 ht
  · obtain ⟨c, h1, h2, h3, -⟩ := C43_ctr alg akey.1 iv.1 m ctr akey.2 hi (by omega)
    obtain ⟨t, ht⟩ := hmac_some k (iv.1 ++ c) hk (by rw [List.length_append]; omega)
    exact opened h1 h3 ht

/-- **C139.**  The restriction of the lengths is needed: where the nonce and the ciphertext are not whole blocks, another ciphertext that is
found without any key is opened with the same tag. -/
theorem C139_mixed_refuted : ∃ f : Bytes 12 → List U8 → List U8, ∀ (key : Bytes 32) (k : List U8) (iv : Bytes 12) (m : List U8),
    k.length ≤ 64 → m.length < 2 ^ 60 → (m.length + 12) % 64 ≠ 0 →
    ∃ c t m', sealWith (fun iv => Hacspec.ChaCha.chacha key.1 iv.1) (Hacspec.Hmac.hmac k) iv m = .ok (c, t) ∧ f iv c ≠ c ∧
      openWith (fun iv => Hacspec.ChaCha.chacha key.1 iv.1) (Hacspec.Hmac.hmac k) iv (f iv c) t = .ok (some m') := by
  obtain ⟨E, -, hE⟩ := C113_code
  refine ⟨fun iv c => (afterKey (iv.1 ++ c)).drop 12, fun key k iv m hk hm hl => ?_⟩
  have hi := iv.2
  obtain ⟨c, h1, h2, -, -⟩ := C36_involution key.1 iv.1 m key.2 hi (by omega)
  have hlen : (iv.1 ++ c).length = m.length + 12 := by rw [List.length_append, hi, h2, Nat.add_comm]
  have hne : (iv.1 ++ c).length % 64 ≠ 0 := by rwa [hlen]
  have hz : (afterKey (iv.1 ++ c)).length % 64 = 0 := length_afterKey _
  have hb : (afterKey (iv.1 ++ c)).length ≤ m.length + 12 + 128 := by
    rw [← hlen, afterKey, if_neg hne]
    simp only [bytesBe64, List.length_append, List.length_cons, List.length_nil, List.length_replicate]; omega
  have hsplit : iv.1 ++ (afterKey (iv.1 ++ c)).drop 12 = afterKey (iv.1 ++ c) := by
    obtain ⟨r, hr⟩ : ∃ r, afterKey (iv.1 ++ c) = iv.1 ++ r := by
      rw [afterKey, if_neg hne]
      simp only [List.append_assoc]
      exact ⟨_, rfl⟩
    rw [hr, List.drop_left' hi]
  have e : restKeys (afterKey (iv.1 ++ c)) = restKeys (iv.1 ++ c) := by
    refine List.map_injective_iff.mpr Subtype.val_injective ?_
    rw [map_restKeys, map_restKeys, afterKey, if_pos hz]
  have t1 := hmac_nested E hk ⟨k, rfl⟩ (m := iv.1 ++ c) (by omega)
  have t2 := hmac_nested E hk ⟨k, rfl⟩ (m := afterKey (iv.1 ++ c)) (by omega)
  rw [hE k _ hk (by omega)] at t1 t2
  have e' : nested addWords (padKey 0x36#8 hk) (padKey 0x5c#8 hk) shaStart outerBlock restKeys E ⟨k, rfl⟩ (afterKey (iv.1 ++ c)) =
      nested addWords (padKey 0x36#8 hk) (padKey 0x5c#8 hk) shaStart outerBlock restKeys E ⟨k, rfl⟩ (iv.1 ++ c) := by
    rw [nested, nested, e]
  rw [e'] at t2
  have hd : ((afterKey (iv.1 ++ c)).drop 12).length < 2 ^ 63 := by rw [List.length_drop]; omega
  obtain ⟨m', h3, -⟩ := C36_involution key.1 iv.1 ((afterKey (iv.1 ++ c)).drop 12) key.2 hi hd
  generalize (digestOf (nested addWords (padKey 0x36#8 hk) (padKey 0x5c#8 hk) shaStart outerBlock restKeys E ⟨k, rfl⟩ (iv.1 ++ c))).1 = t at t1 t2
  refine ⟨c, t, m', ?_, fun h => hne ?_, ?_⟩
  · refine (sealWith_ok (Hacspec.Hmac.hmac k) h1).trans ?_
    rw [t1]
    rfl
  · rw [← hz, ← hsplit]
    exact congrArg (fun l : List U8 => (iv.1 ++ l).length % 64) h.symm
  · rw [openWith, hsplit, t2, bind_ok, if_pos rfl, h3]
    rfl

/-! ## Examples -/

/-- A message is sealed, both primitives are asked, and the ciphertext with one byte changed is returned with the same tag. -/
def changeAttack {D X : Type} (d : D) : ComposedAttack D X 1 (Plain 1 × List U8) :=
  .ask (.inr (zeroIv, ⟨[7], by decide, by decide⟩)) fun r => .ask (.inl (.inr d)) fun _ =>
    .ask (.inl (.inl (.fwd ⟨List.replicate 64 0, List.length_replicate⟩ shaStart))) fun _ => .ret (match r with
      | .inr (.ok (c, t)) => ((zeroIv, ⟨[c.headD 0 + 1], by simp, by simp⟩), t)
      | _ => ((zeroIv, ⟨[0], by decide, by decide⟩), []))

theorem changeAttack_counts {D X : Type} (d : D) : (changeAttack d : ComposedAttack D X 1 _).Counts 2 1 :=
  ⟨0, rfl, fun _ => ⟨1, rfl, fun _ => ⟨0, rfl, fun _ => trivial⟩⟩⟩

example := C139_chacha_forgery (n := 32) (by decide) (by decide) (changeAttack (.bwd () ⟨List.replicate 16 0, List.length_replicate⟩)) 2 1
  (changeAttack_counts _) (by norm_num)

example := C139_aes_forgery (n := 32) (k := 16) (by decide) (by decide) 1 (changeAttack (.fwd ⟨List.replicate 16 0, List.length_replicate⟩ (point zeroIv 1)))
  2 1 (changeAttack_counts _) (by norm_num)

example := C139_chacha_privacy (n := 32) (by decide) (by decide) (changeAttack (.bwd () ⟨List.replicate 16 0, List.length_replicate⟩)) 2 1
  (changeAttack_counts _) ⟨blocks_byte (by decide) _ _ _, fun _ _ => List.not_mem_nil, fun _ _ _ => trivial⟩ (by norm_num) (fun o => o.2 = [])

example := C139_aes_privacy (n := 32) (k := 16) (by decide) (by decide) 1 (changeAttack (.fwd ⟨List.replicate 16 0, List.length_replicate⟩ (point zeroIv 1)))
  2 1 (changeAttack_counts _) ⟨blocks_byte (by decide) _ _ _, fun _ _ => List.not_mem_nil, fun _ _ _ => trivial⟩ (by norm_num) (fun o => o.2 = [])

example := C139_code .aes256

example := C139_opens .aes128 ⟨List.replicate 32 1, List.length_replicate⟩ ⟨List.replicate 16 1, List.length_replicate⟩ [1, 2] (by decide) 1 zeroIv [3, 4]
  (by decide)

example := C139_mixed_refuted

/-- `2⁸⁰` questions, `2³⁰` messages of `2²⁰` blocks. -/
example : 1 / 2 ^ 256 + prfBound 32 (2 ^ 80 + (2 ^ 30 + 1) * 2 ^ 20) (2 ^ 30 + 1) < 1 / 2 ^ 95 ∧
    blockBound (2 ^ 80) (2 ^ 30 * 2 ^ 20) < 1 / 2 ^ 125 := by
  rw [prfBound, blockBound, show (2 : ℚ) ^ 513 = (2 ^ 171) ^ 3 from by rw [← pow_mul]]
  norm_num

end Hacspec.Props
