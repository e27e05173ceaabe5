import Verif.Lemmas.Leak.ChaCha
import Verif.Lemmas.Leak.Sync
import Verif.Model.Leak.Poly1305
import Verif.Lemmas.Poly1305

/-! # Poly1305 and ChaCha20-Poly1305: which data the events depend on -/

set_option linter.unusedSimpArgs false

namespace Hacspec.Leak.Poly1305

/-- Not by unfolding. -/
theorem res_lift' {α : Type} (x : M α) : (lift x).res = x := by cases x <;> rfl

theorem bind_congr' {α β : Type} {x : M α} {f g : α → M β} (h : ∀ a, f a = g a) : x >>= f = x >>= g := by
  rw [funext h]

theorem res_lift_bind {α β : Type} {x : M α} {f : α → L β} {g : α → M β} (h : ∀ a, (f a).res = g a) :
    (lift x >>= f).res = x >>= g := by
  rw [res_bind, res_lift]
  exact bind_congr' h

open Leak.Seq Leak.ChaCha
open Spec (leVal)
open Hacspec.Poly1305 (T T_WF T_n poly_ok polyInner_ok encodeR_ok wordFromLeBytes128 fromLiteral_ok toNat_leVal)

theorem res_keyGen (k : List U8) (iv : List U8) :
    (keyGen k iv).res = Hacspec.Poly1305.keyGen k iv := by
  unfold keyGen Hacspec.Poly1305.keyGen
  simp only [res_bind, res_lift', res_ok, res_loop, res_branch, res_idx, res_setIdx, res_arrFromSub, res_arrFromSubRange, res_updateSub, res_update, res_wordFromLeBytes, res_wordToLeBytes, res_block, res_chacha,  bind_ok]

theorem res_encodeR (b : List U8) :
    (encodeR b).res = Hacspec.Poly1305.encodeR b := by
  unfold encodeR Hacspec.Poly1305.encodeR
  rw [res_bind, res_updateSub]
  refine bind_congr' fun c => ?_
  rw [res_bind, res_wordFromLeBytes]
  refine bind_congr' fun c => ?_
  exact res_lift' _

theorem res_aux {α β γ δ : Type} (x : M α) (y : M β) (f : β → M γ) (g : α → γ → M δ) :
    (do let w ← lift x; let c ← lift y; let l ← lift (f c); lift (g w l)).res =
      (do let w ← x; let c ← y; let l ← f c; g w l) := by
  simp only [res_bind, res_lift]

theorem res_aux2 {α γ δ : Type} (x : L α) (f : α → L γ) (g : α → γ → M δ) (h : δ → γ → α → M δ) :
    (do let w ← x; let c ← f w; let d ← lift (g w c); lift (h d c w)).res =
      (do let w ← x.res; let c ← (f w).res; let d ← g w c; h d c w) := by
  simp only [res_bind, res_lift]

theorem res_aux3 {α β : Type} (x : M α) (f : α → L β) : (lift x >>= f).res = x >>= fun a => (f a).res := by
  rw [res_bind, res_lift]

theorem res_aux4 {α β γ δ ε ζ η : Type} (x : L α) (f : α → L β) (g : β → M γ) (y : L δ) (h : δ → L ε) (k : ε → L ζ)
    (l : ζ → γ → M η) (m : η → L (List U8)) :
    (do let a ← x; let b ← f a; let c ← lift (g b); let d ← y; let e ← h d; let z ← k e; let n ← lift (l z c); m n).res =
      (do let a ← x.res; let b ← (f a).res; let c ← g b; let d ← y.res; let e ← (h d).res; let z ← (k e).res
          let n ← l z c; (m n).res) := by
  simp only [res_bind, res_lift]

theorem res_encode (b : List U8) : (encode b).res = Hacspec.Poly1305.encode b := by
  unfold encode Hacspec.Poly1305.encode
  rw [res_bind, res_updateSub]
  refine congrArg _ (funext fun c => ?_)
  rw [res_bind, res_wordFromLeBytes]
  refine congrArg _ (funext fun c => ?_)
  exact res_aux _ _ _ _

theorem res_polyStep (m : List U8) (r : AbstractInt.Canvas) (k : Nat) (a : AbstractInt.Canvas) :
    (polyStep m r k a).res = Hacspec.Poly1305.polyStep m r k a := by
  unfold polyStep Hacspec.Poly1305.polyStep
  refine (res_aux2 _ encode (fun _ c => NatMod.add T a c) (fun a _ _ => NatMod.mul T a r)).trans ?_
  rw [res_updateSub]
  simp only [res_encode]

theorem res_polyInner (m : List U8) (r : AbstractInt.Canvas) :
    (polyInner m r).res = Hacspec.Poly1305.polyInner m r := by
  unfold polyInner Hacspec.Poly1305.polyInner
  refine (res_aux3 _ _).trans (congrArg _ (funext fun c => ?_))
  rw [res_loop]
  simp only [res_polyStep]

theorem res_poly (m k : List U8) : (poly m k).res = Hacspec.Poly1305.poly m k := by
  unfold poly Hacspec.Poly1305.poly
  refine (res_aux4 _ _ _ _ _ (polyInner m) _ _).trans ?_
  simp only [res_arrFromSub, res_wordFromLeBytes, res_arrFromSubRange, res_encodeR, res_polyInner, res_loop, res_bind,
    res_idx, res_setIdx]

theorem res_polyMac (m k iv : List U8) : (polyMac m k iv).res = Hacspec.Poly1305.polyMac m k iv := by
  unfold polyMac Hacspec.Poly1305.polyMac
  rw [res_bind, res_keyGen]
  simp only [res_poly]

theorem encodeR_sync {b b' : List U8} (h : Len b b') : Sync Any (encodeR b) (encodeR b') := by
  unfold encodeR
  refine Sync.bind (R := Len) (updateSub_same rfl h rfl rfl rfl).sync fun c c' _ _ hc => ?_
  refine Sync.bind (R := Any) (wordFromLeBytes_same hc).sync fun u u' _ _ _ => ?_
  exact Sync.lift fun _ _ _ _ => trivial

theorem encode_sync {b b' : List U8} (h : Len b b') : Sync Any (encode b) (encode b') := by
  have hl : b.length = b'.length := h
  unfold encode
  rw [hl]
  refine Sync.bind (R := Len) (updateSub_same rfl h rfl rfl rfl).sync fun c c' _ _ hc => ?_
  refine Sync.bind (R := Any) (wordFromLeBytes_same hc).sync fun u u' _ _ _ => ?_
  refine Sync.bind (R := Any) (Sync.lift fun _ _ _ _ => trivial) fun _ _ _ _ _ => ?_
  refine Sync.bind (R := Any) (Sync.lift fun _ _ _ _ => trivial) fun _ _ _ _ _ => ?_
  refine Sync.bind (R := Any) (Sync.lift fun _ _ _ _ => trivial) fun _ _ _ _ _ => ?_
  exact Sync.lift fun _ _ _ _ => trivial

theorem polyStep_sync {m m' : List U8} (h : Len m m') (r r' : AbstractInt.Canvas) (k : Nat) (a a' : AbstractInt.Canvas) :
    Sync Any (polyStep m r k a) (polyStep m' r' k a') := by
  have hl : m.length = m'.length := h
  unfold polyStep
  rw [hl]
  refine Sync.bind (R := Len) (updateSub_same rfl h rfl rfl rfl).sync fun c c' _ _ hc => ?_
  refine Sync.bind (R := Any) (encode_sync hc) fun _ _ _ _ _ => ?_
  refine Sync.bind (R := Any) (Sync.lift fun _ _ _ _ => trivial) fun _ _ _ _ _ => ?_
  exact Sync.lift fun _ _ _ _ => trivial

theorem polyInner_sync {m m' : List U8} (h : Len m m') (r r' : AbstractInt.Canvas) :
    Sync Any (polyInner m r) (polyInner m' r') := by
  have hl : m.length = m'.length := h
  unfold polyInner
  rw [hl]
  refine Sync.bind (R := Any) (Sync.lift fun _ _ _ _ => trivial) fun _ _ _ _ _ => ?_
  exact Sync.loop (fun _ => Any) rfl trivial fun i _ t t' _ => polyStep_sync h _ _ _ _ _

/-- The bytes of the result copied to the tag: all up to the most significant one that is not zero, at most 16. -/
def copied (n : Nat) : Nat := min 16 (AbstractInt.bytesLe n).length

/-- The number `poly` writes into the tag. -/
def total (m key : List U8) : Nat :=
  (Spec.Poly1305.acc (Spec.Poly1305.clampR key) m + Spec.Poly1305.keyS key) % Spec.Poly1305.p

theorem sElem_eq {key x : List U8} {su : BitVec 128} {s : AbstractInt.Canvas} (hk : key.length = 32)
    (h1 : (arrFromSub 16 key 16 16).res = .ok x) (h2 : (wordFromLeBytes 128 x).res = .ok su)
    (h3 : (lift (NatMod.fromLiteral T su)).res = .ok s) : s = T.enc (Spec.Poly1305.keyS key) := by
  rw [res_arrFromSub, Hacspec.Seq.arrFromSub, Hacspec.require_true (by omega), bind_ok,
    Hacspec.Seq.updateSub_ok (by rw [Hacspec.Seq.length_new]; omega) (by omega), Except.ok.injEq] at h1
  simp only [List.take_zero, List.nil_append, Nat.zero_add] at h1
  rw [List.drop_of_length_le (l := Hacspec.Seq.new 16) (by rw [Hacspec.Seq.length_new]; omega), List.append_nil] at h1
  subst h1
  rw [res_wordFromLeBytes, wordFromLeBytes128 (by simp; omega), Except.ok.injEq] at h2
  subst h2
  rw [res_lift, fromLiteral_ok, toNat_leVal (by simp; omega), Except.ok.injEq] at h3
  exact h3.symm

theorem rElem_eq {key x : List U8} {r : AbstractInt.Canvas} (hk : key.length = 32)
    (h1 : (arrFromSubRange 16 key 0 16).res = .ok x) (h2 : (encodeR x).res = .ok r) :
    r = T.enc (Spec.Poly1305.clampR key) := by
  rw [res_arrFromSubRange, Hacspec.ChaCha.arrFromSubRange_ok (by omega) (by omega) (by omega), Except.ok.injEq] at h1
  subst h1
  rw [res_encodeR, encodeR_ok (by simp; omega), Except.ok.injEq, List.drop_zero] at h2
  exact h2.symm

theorem n_eq {m key : List U8} {a n : AbstractInt.Canvas}
    (h1 : (polyInner m (T.enc (Spec.Poly1305.clampR key))).res = .ok a)
    (h2 : (lift (NatMod.add T a (T.enc (Spec.Poly1305.keyS key)))).res = .ok n) : n = T.enc (total m key) := by
  rw [res_polyInner, polyInner_ok, Except.ok.injEq] at h1
  subst h1
  rw [res_lift, NatMod.add_enc T_WF, T_n, Except.ok.injEq] at h2
  exact h2.symm

/-- The events of `poly` are determined by the lengths and the number of bytes copied. -/
theorem poly_sync {m m' k k' : List U8} (hm : Len m m') (hk : k.length = 32) (hk' : k'.length = 32)
    (hc : copied (total m k) = copied (total m' k')) : Sync Len (poly m k) (poly m' k') := by
  have hkk : Len k k' := by unfold Len; omega
  unfold poly
  refine Sync.bind (arrFromSub_same hkk rfl rfl).sync fun x x' a1 b1 hx => ?_
  refine Sync.bind (wordFromLeBytes_same hx).sync fun u u' a2 b2 _ => ?_
  refine Sync.bind (R := Any) (Sync.lift fun _ _ _ _ => trivial) fun s s' a3 b3 _ => ?_
  refine Sync.bind (arrFromSubRange_same hkk rfl rfl).sync fun y y' a4 b4 hy => ?_
  refine Sync.bind (encodeR_sync hy) fun r r' a5 b5 _ => ?_
  refine Sync.bind (polyInner_sync hm _ _) fun a a' a6 b6 _ => ?_
  refine Sync.bind (R := Any) (Sync.lift fun _ _ _ _ => trivial) fun n n' a7 b7 _ => ?_
  have hs := sElem_eq hk a1 a2 a3
  have hr := rElem_eq hk a4 a5
  have hs' := sElem_eq hk' b1 b2 b3
  have hr' := rElem_eq hk' b4 b5
  subst hs hr hs' hr'
  have hn := n_eq a6 a7
  have hn' := n_eq b6 b7
  subst hn hn'
  simp only [NatMod.toLeBytes_enc]
  refine Sync.loop (fun _ => Len) hc rfl fun i hi t t' ht => ?_
  refine Sync.bind (R := Any) ?_ fun _ _ _ _ _ => (Same.setIdx ht rfl).sync
  exact fun _ _ _ _ => ⟨rfl, trivial⟩

/-- The events of `poly` tell the number of bytes copied. -/
theorem poly_tells {m m' k k' : List U8} (hm : Len m m') (hk : k.length = 32) (hk' : k'.length = 32) :
    Tells (fun _ _ => copied (total m k) = copied (total m' k')) (poly m k) (poly m' k') := by
  have hkk : Len k k' := by unfold Len; omega
  unfold poly
  refine Tells.bind (arrFromSub_same hkk rfl rfl).tells fun x x' a1 b1 hx => ?_
  refine Tells.bind (wordFromLeBytes_same hx).tells fun u u' a2 b2 _ => ?_
  refine Tells.bind (R := Any) (Tells.lift fun _ _ _ _ => trivial) fun s s' a3 b3 _ => ?_
  refine Tells.bind (arrFromSubRange_same hkk rfl rfl).tells fun y y' a4 b4 hy => ?_
  refine Tells.bind (encodeR_sync hy).tells fun r r' a5 b5 _ => ?_
  refine Tells.bind (polyInner_sync hm _ _).tells fun a a' a6 b6 _ => ?_
  refine Tells.bind (R := Any) (Tells.lift fun _ _ _ _ => trivial) fun n n' a7 b7 _ => ?_
  have hs := sElem_eq hk a1 a2 a3
  have hr := rElem_eq hk a4 a5
  have hs' := sElem_eq hk' b1 b2 b3
  have hr' := rElem_eq hk' b4 b5
  subst hs hr hs' hr'
  have hn := n_eq a6 a7
  have hn' := n_eq b6 b7
  subst hn hn'
  simp only [NatMod.toLeBytes_enc]
  refine (Tells.loop' (fun _ => Any) trivial fun i hi t t' _ => ?_).mono fun _ _ h => h.1
  exact Tells.bind (R := Any) (Tells.idx.mono fun _ _ _ => trivial) fun _ _ _ _ _ => Tells.setIdx.mono fun _ _ _ => trivial

theorem copied_le {n n' j : Nat} (h : copied n = copied n') (h1 : 1 ≤ j) (h2 : j < 16) (hn : n < 256 ^ j) : n' < 256 ^ j := by
  unfold copied at h
  rw [AbstractInt.length_bytesLe, AbstractInt.length_bytesLe] at h
  have hp : 256 ^ j = 2 ^ (8 * j) := by rw [Nat.pow_mul]
  rw [hp] at hn ⊢
  by_cases h0 : n' = 0
  · subst h0; exact Nat.two_pow_pos _
  · rw [← Nat.log2_lt h0]
    have : n.log2 < 8 * j := by
      by_cases hz : n = 0
      · subst hz; simp; omega
      · exact (Nat.log2_lt hz).2 hn
    omega

theorem copied_of {n n' : Nat} (h : ∀ j, 1 ≤ j → j < 16 → (n < 256 ^ j ↔ n' < 256 ^ j)) : copied n ≤ copied n' := by
  unfold copied
  rw [AbstractInt.length_bytesLe, AbstractInt.length_bytesLe]
  by_cases hb : n'.log2 / 8 + 1 < 16
  · have hn' : n' < 256 ^ (n'.log2 / 8 + 1) := AbstractInt.lt_pow_log2 n'
    have hn := (h _ (by omega) hb).2 hn'
    have hp : 256 ^ (n'.log2 / 8 + 1) = 2 ^ (8 * (n'.log2 / 8 + 1)) := by rw [Nat.pow_mul]
    rw [hp] at hn
    have : n.log2 < 8 * (n'.log2 / 8 + 1) := by
      by_cases hz : n = 0
      · subst hz; simp
      · exact (Nat.log2_lt hz).2 hn
    omega
  · omega

/-- The number of bytes copied, without the model. -/
theorem copied_iff {n n' : Nat} : copied n = copied n' ↔ ∀ j, 1 ≤ j → j < 16 → (n < 256 ^ j ↔ n' < 256 ^ j) :=
  ⟨fun h _ h1 h2 => ⟨copied_le h h1 h2, copied_le h.symm h1 h2⟩,
    fun h => Nat.le_antisymm (copied_of h) (copied_of fun j h1 h2 => (h j h1 h2).symm)⟩

end Hacspec.Leak.Poly1305

namespace Hacspec.Leak.ChaChaPoly

open Leak.Seq Leak.ChaCha
open Leak.Poly1305 (res_lift')

@[simp] theorem res_padLen (l : Nat) : (padLen l).res = .ok (Hacspec.ChaChaPoly.padLen l) := by
  unfold padLen Hacspec.ChaChaPoly.padLen
  rw [res_branch]
  split <;> rfl

@[simp] theorem res_padAadMsg (a : List U8) (m : List U8) :
    (padAadMsg a m).res = Hacspec.ChaChaPoly.padAadMsg a m := by
  unfold padAadMsg Hacspec.ChaChaPoly.padAadMsg
  simp only [res_bind, res_lift', res_ok, res_loop, res_branch, res_idx, res_setIdx, res_arrFromSub, res_arrFromSubRange, res_updateSub, res_update, res_wordFromLeBytes, res_wordToLeBytes, res_block, res_chacha, Leak.Poly1305.res_poly, res_padLen,  bind_ok]

@[simp] theorem res_encrypt (k : List U8) (iv : List U8) (a : List U8) (m : List U8) :
    (encrypt k iv a m).res = Hacspec.ChaChaPoly.encrypt k iv a m := by
  unfold encrypt Hacspec.ChaChaPoly.encrypt
  simp only [res_padAadMsg, res_bind, res_lift', res_ok, res_loop, res_branch, res_idx, res_setIdx, res_arrFromSub, res_arrFromSubRange, res_updateSub, res_update, res_wordFromLeBytes, res_wordToLeBytes, res_block, res_chacha, Leak.Poly1305.res_poly, res_padLen,  bind_ok]

@[simp] theorem res_decrypt (k : List U8) (iv : List U8) (a : List U8) (c : List U8) (t : List U8) :
    (decrypt k iv a c t).res = Hacspec.ChaChaPoly.decrypt k iv a c t := by
  unfold decrypt Hacspec.ChaChaPoly.decrypt
  simp only [res_padAadMsg, res_bind, res_lift', res_ok, res_loop, res_branch, res_idx, res_setIdx, res_arrFromSub, res_arrFromSubRange, res_updateSub, res_update, res_wordFromLeBytes, res_wordToLeBytes, res_block, res_chacha, Leak.Poly1305.res_poly, res_padLen,  bind_ok]

theorem padAadMsg_same {a a' m m' : List U8} (ha : Len a a') (hm : Len m m') :
    Same Len (padAadMsg a m) (padAadMsg a' m') := by
  have ha' : a.length = a'.length := ha
  have hm' : m.length = m'.length := hm
  unfold padAadMsg
  rw [ha', hm']
  refine Same.bind (R := Eq) Same.refl ?_
  rintro p _ rfl
  refine Same.bind (R := Eq) Same.refl ?_
  rintro q _ rfl
  refine Same.bind (update_same rfl ha rfl) fun _ _ h1 => ?_
  refine Same.bind (update_same h1 hm rfl) fun _ _ h2 => ?_
  refine Same.bind (R := Eq) Same.refl ?_
  rintro u _ rfl
  refine Same.bind (update_same h2 rfl rfl) fun _ _ h3 => ?_
  refine Same.bind (R := Eq) Same.refl ?_
  rintro u _ rfl
  exact update_same h3 rfl rfl

/-- The one-time key. -/
def otk (key iv : List U8) : List U8 := (Spec.ChaCha.blockFn key 0 iv).take 32

theorem otk_def (key iv : List U8) : otk key iv = (Spec.ChaCha.blockFn key 0 iv).take 32 := rfl

theorem otk_eq {key iv b k : List U8} (hk : key.length = 32) (hi : iv.length = 12)
    (h1 : (ChaCha.block key 0 iv).res = .ok b) (h2 : (arrFromSubRange 32 b 0 32).res = .ok k) :
    k = otk key iv := by
  rw [res_block, Hacspec.ChaCha.block_ok 0 hk hi, Except.ok.injEq] at h1
  subst h1
  rw [res_arrFromSubRange, Hacspec.ChaCha.arrFromSubRange_ok (by omega) (by omega)
    (by rw [Hacspec.ChaCha.length_blockFn 0 hk hi]; omega), Except.ok.injEq] at h2
  rw [← h2, otk, List.drop_zero]

theorem length_otk {key iv : List U8} (hk : key.length = 32) (hi : iv.length = 12) : (otk key iv).length = 32 := by
  rw [otk, List.length_take, Hacspec.ChaCha.length_blockFn 0 hk hi, Nat.min_eq_left (by omega)]

attribute [irreducible] otk

/-- The number whose low bytes are the tag. -/
def tagNumber (key iv aad c : List U8) : Nat := Poly1305.total (Spec.Poly1305.macData aad c) (otk key iv)

theorem mac_eq {aad c p : List U8} (h : (padAadMsg aad c).res = .ok p) : p = Spec.Poly1305.macData aad c := by
  rw [res_padAadMsg, Hacspec.ChaChaPoly.padAadMsg_ok, Except.ok.injEq] at h
  exact h.symm

section
variable {k k' iv iv' a a' m m' : List U8}

theorem encrypt_sync (hk : k.length = 32) (hk' : k'.length = 32) (hi : iv.length = 12) (hi' : iv'.length = 12)
    (ha : Len a a') (hm : Len m m')
    (hc : ∀ c c', Hacspec.ChaCha.chacha k iv m = .ok c → Hacspec.ChaCha.chacha k' iv' m' = .ok c' →
      Poly1305.copied (tagNumber k iv a c) = Poly1305.copied (tagNumber k' iv' a' c')) :
    Sync Any (encrypt k iv a m) (encrypt k' iv' a' m') := by
  have hkk : Len k k' := by unfold Len; omega
  have hii : Len iv iv' := by unfold Len; omega
  unfold encrypt
  refine Sync.bind (block_same hkk hii).sync fun b b' h1 h1' hb => ?_
  refine Sync.bind (arrFromSubRange_same hb rfl rfl).sync fun o o' h2 h2' ho => ?_
  refine Sync.bind (chacha_same hkk hii hm).sync fun c c' h3 h3' hcc => ?_
  refine Sync.bind (padAadMsg_same ha hcc).sync fun p p' h4 h4' hp => ?_
  have ho := otk_eq hk hi h1 h2
  have ho' := otk_eq hk' hi' h1' h2'
  have hp1 := mac_eq h4
  have hp1' := mac_eq h4'
  subst ho ho' hp1 hp1'
  refine Sync.bind (Poly1305.poly_sync hp (length_otk hk hi) (length_otk hk' hi') ?_) fun _ _ _ _ _ => Sync.ok trivial
  rw [res_chacha] at h3 h3'
  exact hc c c' h3 h3'

theorem encrypt_tells (hk : k.length = 32) (hk' : k'.length = 32) (hi : iv.length = 12) (hi' : iv'.length = 12)
    (ha : Len a a') (hm : Len m m') :
    Tells (fun x x' => Poly1305.copied (tagNumber k iv a x.1) = Poly1305.copied (tagNumber k' iv' a' x'.1))
      (encrypt k iv a m) (encrypt k' iv' a' m') := by
  have hkk : Len k k' := by unfold Len; omega
  have hii : Len iv iv' := by unfold Len; omega
  unfold encrypt
  refine Tells.bind (block_same hkk hii).tells fun b b' h1 h1' hb => ?_
  refine Tells.bind (arrFromSubRange_same hb rfl rfl).tells fun o o' h2 h2' ho => ?_
  refine Tells.bind (chacha_same hkk hii hm).tells fun c c' h3 h3' hcc => ?_
  refine Tells.bind (padAadMsg_same ha hcc).tells fun p p' h4 h4' hp => ?_
  have ho := otk_eq hk hi h1 h2
  have ho' := otk_eq hk' hi' h1' h2'
  have hp1 := mac_eq h4
  have hp1' := mac_eq h4'
  subst ho ho' hp1 hp1'
  exact Tells.bind (Poly1305.poly_tells hp (length_otk hk hi) (length_otk hk' hi')) fun _ _ _ _ h => Tells.ok h

/-- The tag the receiver computes. -/
theorem tag_eq {key iv aad c t : List U8} (hk : key.length = 32) (hi : iv.length = 12)
    (h : (Poly1305.poly (Spec.Poly1305.macData aad c) (otk key iv)).res = .ok t) :
    t = Spec.leBytes 16 (tagNumber key iv aad c) := by
  rw [Poly1305.res_poly, Hacspec.Poly1305.poly_ok (length_otk hk hi), Except.ok.injEq] at h
  exact h.symm

theorem decrypt_sync {t t' : List U8} (hk : k.length = 32) (hk' : k'.length = 32) (hi : iv.length = 12)
    (hi' : iv'.length = 12) (ha : Len a a') (hm : Len m m')
    (hc : Poly1305.copied (tagNumber k iv a m) = Poly1305.copied (tagNumber k' iv' a' m'))
    (ht : Spec.leBytes 16 (tagNumber k iv a m) = t ↔ Spec.leBytes 16 (tagNumber k' iv' a' m') = t') :
    Sync Any (decrypt k iv a m t) (decrypt k' iv' a' m' t') := by
  have hkk : Len k k' := by unfold Len; omega
  have hii : Len iv iv' := by unfold Len; omega
  unfold decrypt
  refine Sync.bind (block_same hkk hii).sync fun b b' h1 h1' hb => ?_
  refine Sync.bind (arrFromSubRange_same hb rfl rfl).sync fun o o' h2 h2' ho => ?_
  refine Sync.bind (padAadMsg_same ha hm).sync fun p p' h4 h4' hp => ?_
  have ho := otk_eq hk hi h1 h2
  have ho' := otk_eq hk' hi' h1' h2'
  have hp1 := mac_eq h4
  have hp1' := mac_eq h4'
  subst ho ho' hp1 hp1'
  refine Sync.bind (Poly1305.poly_sync hp (length_otk hk hi) (length_otk hk' hi') hc) fun x x' h5 h5' _ => ?_
  have hx := tag_eq hk hi h5
  have hx' := tag_eq hk' hi' h5'
  subst hx hx'
  refine Sync.branch ht (fun _ _ => ?_) (fun _ _ => Sync.ok trivial)
  exact Sync.bind (chacha_same hkk hii hm).sync fun _ _ _ _ _ => Sync.ok trivial

theorem decrypt_tells {t t' : List U8} (hk : k.length = 32) (hk' : k'.length = 32) (hi : iv.length = 12)
    (hi' : iv'.length = 12) (ha : Len a a') (hm : Len m m') :
    Tells (fun _ _ => Poly1305.copied (tagNumber k iv a m) = Poly1305.copied (tagNumber k' iv' a' m') ∧
        (Spec.leBytes 16 (tagNumber k iv a m) = t ↔ Spec.leBytes 16 (tagNumber k' iv' a' m') = t'))
      (decrypt k iv a m t) (decrypt k' iv' a' m' t') := by
  have hkk : Len k k' := by unfold Len; omega
  have hii : Len iv iv' := by unfold Len; omega
  unfold decrypt
  refine Tells.bind (block_same hkk hii).tells fun b b' h1 h1' hb => ?_
  refine Tells.bind (arrFromSubRange_same hb rfl rfl).tells fun o o' h2 h2' ho => ?_
  refine Tells.bind (padAadMsg_same ha hm).tells fun p p' h4 h4' hp => ?_
  have ho := otk_eq hk hi h1 h2
  have ho' := otk_eq hk' hi' h1' h2'
  have hp1 := mac_eq h4
  have hp1' := mac_eq h4'
  subst ho ho' hp1 hp1'
  refine Tells.bind (Poly1305.poly_tells hp (length_otk hk hi) (length_otk hk' hi')) fun x x' h5 h5' h6 => ?_
  have hx := tag_eq hk hi h5
  have hx' := tag_eq hk' hi' h5'
  subst hx hx'
  refine Tells.branch (fun h h' => ?_) (fun h h' => Tells.ok ⟨h6, iff_of_false h h'⟩)
  exact Tells.bind (R := Any) ((chacha_same hkk hii hm).tells.mono fun _ _ _ => trivial)
    fun _ _ _ _ _ => Tells.ok ⟨h6, iff_of_true h h'⟩

end

end Hacspec.Leak.ChaChaPoly
