import Verif.Lemmas.Leak.AesTells
import Verif.Lemmas.Gcm

/-! # What the events of the counter mode, of GHASH and of AES-GCM tell -/

namespace Hacspec.Leak.Aes

open Leak.Seq
open Hacspec.Aes (nk nr)

theorem ctrKeyblock_tells {alg : Hacspec.Aes.Variant} {k k' n : List U8} {c : U32} (hk : k.length = 4 * nk alg)
    (hk' : k'.length = 4 * nk alg) :
    Tells (fun a b => k = k' ∧ Len a b) (ctrKeyblock k n c (nk alg) (nr alg) alg)
      (ctrKeyblock k' n c (nk alg) (nr alg) alg) := by
  have hlen : ∀ {k : List U8}, k.length = 4 * nk alg → ∀ {s a : List U8}, s.length = 16 →
      (encryptBlock k s (nk alg) (nr alg) alg).res = .ok a → a.length = 16 := by
    intro k hk s a hs h
    rw [res_encryptBlock, Hacspec.Aes.encryptBlock_ok hk hs] at h
    cases h
    exact Hacspec.Aes.length_cipher _ hk
  have hs : ∀ {x y : List U8} {o : Nat} {z : List U8}, (update x o y).res = .ok z → z.length = x.length := by
    intro x y o z h
    rw [res_update, Hacspec.Seq.update] at h
    by_cases hx : o + y.length ≤ x.length
    · rw [Hacspec.Seq.updateSub_ok hx (by omega)] at h
      cases h
      simp only [List.length_append, List.length_take, List.length_drop]; omega
    · rw [Hacspec.Seq.updateSub, Hacspec.require_false (by omega), bind_panic] at h
      cases h
  unfold ctrKeyblock
  refine Tells.bind (R := Eq) Same.refl.tells ?_
  rintro x _ hx - rfl
  refine Tells.bind (R := Eq) Same.refl.tells ?_
  rintro b _ - - rfl
  refine Tells.bind (R := Eq) Same.refl.tells ?_
  rintro s _ hs' - rfl
  have hl : s.length = 16 := by rw [hs hs', hs hx]; rfl
  exact Tells.mono' (encryptBlock_tells hk hk' hl) fun a b ha hb h =>
    ⟨h, (hlen hk hl ha).trans (hlen hk' hl hb).symm⟩

theorem ctrBranch_same {n i : Nat} {m m' k k' : List U8} {c : U32} {o o' : List U8} (hm : Len m m') (hk : Len k k')
    (ho : Len o o') : Same (Both Eq Len) (ctrBranch n m k i (c, o)) (ctrBranch n m' k' i (c, o')) := by
  have hl : m.length = m'.length := hm
  unfold ctrBranch
  refine Same.branch (by rw [hl]) (fun _ => ?_) fun _ => ?_
  · refine Same.bind (arrFromSeq_same hm) fun _ _ h1 => ?_
    refine Same.bind (xorBlock_same h1 hk) fun _ _ h2 => ?_
    refine Same.bind (setChunk_same ho h2 rfl rfl) fun _ _ h3 => ?_
    exact Same.ok ⟨rfl, h3⟩
  · refine Same.bind (updateStart_same rfl hm) fun _ _ h1 => ?_
    refine Same.bind (xorBlock_same h1 hk) fun _ _ h2 => ?_
    refine Same.bind (subr_same h2 rfl rfl) fun _ _ h2 => ?_
    refine Same.bind (setChunk_same ho h2 rfl rfl) fun _ _ h3 => ?_
    exact Same.ok ⟨rfl, h3⟩

/-- The events of the counter mode on a nonempty text tell the key. -/
theorem counterMode_tells {alg : Hacspec.Aes.Variant} {k k' n m m' : List U8} {c : U32} (hk : k.length = 4 * nk alg)
    (hk' : k'.length = 4 * nk alg) (hm : Len m m') :
    Tells (fun a b => (0 < m.length → m.length < 2 ^ 63 → k = k') ∧ Len a b)
      (counterMode k n c m (nk alg) (nr alg) alg) (counterMode k' n c m' (nk alg) (nr alg) alg) := by
  have hl : m.length = m'.length := hm
  unfold counterMode
  refine Tells.bind (numChunks_same hm rfl).tells ?_
  rintro j _ hj - rfl
  refine Tells.bind (Tells.loop (fun i st st' => st.1 = st'.1 ∧ Len st.2 st'.2 ∧ (0 < i → k = k')) ?_ ?_) ?_
  · exact ⟨rfl, by show _ = _; simp [Hacspec.Seq.new, hl], fun h => absurd h (by omega)⟩
  · rintro i hi ⟨c, o⟩ ⟨c', o'⟩ ⟨rfl, ho, -⟩
    unfold ctrStep
    refine Tells.bind (getChunk_same hm rfl rfl).tells ?_
    rintro ⟨n1, b1⟩ ⟨n2, b2⟩ - - ⟨h1, h2⟩
    refine Tells.bind (ctrKeyblock_tells hk hk') ?_
    rintro a b - - ⟨h3, h4⟩
    simp only at h1 h2 ⊢
    subst h1
    exact (ctrBranch_same h2 h4 ho).tells.mono fun _ _ h => ⟨h.1, h.2, fun _ => h3⟩
  · rintro ⟨c, o⟩ ⟨c', o'⟩ - - ⟨-, ho, h⟩
    refine Tells.ok ⟨fun h0 h1 => h ?_, ho⟩
    rw [res_numChunks, Hacspec.Seq.numChunks_ok (by omega) (by omega)] at hj
    cases hj
    omega

theorem encryptKey_tells {alg : Hacspec.Aes.Variant} {k k' n m m' : List U8} {c : U32} (hk : k.length = 4 * nk alg)
    (hk' : k'.length = 4 * nk alg) (hm : Len m m') :
    Tells (fun a b => (0 < m.length → m.length < 2 ^ 63 → k = k') ∧ Len a b)
      (encryptKey k n c m alg) (encryptKey k' n c m' alg) := by
  unfold encryptKey encrypt
  refine Tells.bind (fromSeq_same (hk.trans hk'.symm)).tells ?_
  intro a b ha hb _
  rw [res_fromSeq, Hacspec.Seq.fromSeq_ok] at ha hb
  cases ha; cases hb
  exact counterMode_tells hk hk' hm

/-- With the same key the events of the counter mode do not depend on the text. -/
theorem counterMode_same {alg : Hacspec.Aes.Variant} {k n m m' : List U8} {c : U32} (hm : Len m m') :
    Same Len (counterMode k n c m (nk alg) (nr alg) alg) (counterMode k n c m' (nk alg) (nr alg) alg) := by
  have hl : m.length = m'.length := hm
  unfold counterMode
  refine Same.bind (numChunks_same hm rfl) ?_
  rintro j _ rfl
  refine Same.bind (Same.loop (R := Both Eq Len) rfl ⟨rfl, by show _ = _; simp [Hacspec.Seq.new, hl]⟩ ?_)
    fun _ _ h => Same.ok h.2
  rintro i - ⟨c, o⟩ ⟨c', o'⟩ ⟨rfl, ho⟩
  unfold ctrStep
  refine Same.bind (getChunk_same hm rfl rfl) ?_
  rintro ⟨n1, b1⟩ ⟨n2, b2⟩ ⟨h1, h2⟩
  refine Same.bind (R := Eq) Same.refl ?_
  rintro a _ rfl
  simp only at h1 h2 ⊢
  subst h1
  exact ctrBranch_same h2 rfl ho

end Hacspec.Leak.Aes

namespace Hacspec.Leak.Gf128

open Leak.Seq
open Hacspec.Gf128 (getLsbD_and_one)

/-- The branches of `fmul` tell both factors. -/
theorem fmul_tells {x x' y y' : U128} : Tells (fun _ _ => x = x' ∧ y = y') (fmul x y) (fmul x' y') := by
  unfold fmul
  refine Tells.bind (Tells.loop (fun i (st st' : U128 × U128) =>
      (∀ j, j < i → y.getLsbD (127 - j) = y'.getLsbD (127 - j)) ∧ st.2 ^^^ st'.2 = (x ^^^ x') >>> i ∧
        ∀ j, j < i → (x ^^^ x').getLsbD j = false) ?_ ?_) ?_
  · exact ⟨fun j hj => absurd hj (by omega), by simp, fun j hj => absurd hj (by omega)⟩
  · rintro i hi ⟨r, s⟩ ⟨r', s'⟩ ⟨h1, h2, h3⟩
    simp only at h2
    unfold fmulStep
    refine Tells.bind (R := fun a b => a = 1#128 <<< (127 - i) ∧ b = 1#128 <<< (127 - i)) (Tells.lift ?_) ?_
    · intro a b ha hb
      rw [SecretInt.shl, if_pos (by omega)] at ha hb
      cases ha; cases hb
      exact ⟨rfl, rfl⟩
    rintro _ _ - - ⟨rfl, rfl⟩
    have e := getLsbD_and_one y (i := 127 - i) (by omega)
    have e' := getLsbD_and_one y' (i := 127 - i) (by omega)
    refine Tells.bind (R := fun _ _ => y.getLsbD (127 - i) = y'.getLsbD (127 - i))
      (Tells.branch (fun hc hd => Tells.ok ?_) fun hc hd => Tells.ok ?_) ?_
    · rw [e.1 hc, e'.1 hd]
    · rw [Bool.not_eq_true _ |>.mp fun k => hc (e.2 k), Bool.not_eq_true _ |>.mp fun k => hd (e'.2 k)]
    intro a a' _ _ hbit
    refine Tells.bind (R := fun a b => a = s >>> 1 ∧ b = s' >>> 1) (Tells.lift ?_) ?_
    · intro a b ha hb
      rw [SecretInt.shrU, if_pos (by omega)] at ha hb
      cases ha; cases hb
      exact ⟨rfl, rfl⟩
    rintro _ _ - - ⟨rfl, rfl⟩
    have f := getLsbD_and_one s (i := 0) (by omega)
    have f' := getLsbD_and_one s' (i := 0) (by omega)
    rw [BitVec.shiftLeft_zero] at f f'
    refine Tells.bind (R := fun a b => a ^^^ b = (s ^^^ s') >>> 1 ∧ s.getLsbD 0 = s'.getLsbD 0)
      (Tells.branch (fun hc hd => Tells.ok ⟨?_, ?_⟩) fun hc hd => Tells.ok ⟨?_, ?_⟩) ?_
    · apply BitVec.eq_of_getLsbD_eq
      intro j hj
      simp only [BitVec.getLsbD_xor, BitVec.getLsbD_ushiftRight]
      cases s.getLsbD (1 + j) <;> cases s'.getLsbD (1 + j) <;> simp
    · rw [f.1 hc, f'.1 hd]
    · apply BitVec.eq_of_getLsbD_eq
      intro j hj
      simp only [BitVec.getLsbD_xor, BitVec.getLsbD_ushiftRight]
    · rw [Bool.not_eq_true _ |>.mp fun k => hc (f.2 k), Bool.not_eq_true _ |>.mp fun k => hd (f'.2 k)]
    rintro b b' - - ⟨g1, g2⟩
    refine Tells.ok ⟨fun j hj => ?_, ?_, fun j hj => ?_⟩
    · rcases Nat.lt_or_ge j i with h | h
      · exact h1 j h
      · rw [show j = i by omega]; exact hbit
    · rw [g1, h2, BitVec.shiftRight_add]
    · rcases Nat.lt_or_ge j i with h | h
      · exact h3 j h
      · have := congrArg (fun v => BitVec.getLsbD v 0) h2
        simp only [BitVec.getLsbD_xor, BitVec.getLsbD_ushiftRight, Nat.add_zero, g2, Bool.xor_self] at this
        rw [show j = i by omega, BitVec.getLsbD_xor]
        exact this.symm
  · rintro a b - - ⟨h1, -, h3⟩
    refine Tells.ok ⟨?_, ?_⟩
    · have : x ^^^ x' = 0#128 := by
        apply BitVec.eq_of_getLsbD_eq
        intro j hj
        rw [h3 j hj]; simp
      exact BitVec.xor_eq_zero_iff.1 this
    · apply BitVec.eq_of_getLsbD_eq
      intro j hj
      have := h1 (127 - j) (by omega)
      rwa [show 127 - (127 - j) = j by omega] at this

theorem encode_inj {b b' : List U8} {e : U128} (hb : b.length = 16) (hb' : b'.length = 16)
    (h : (encode b).res = .ok e) (h' : (encode b').res = .ok e) : b = b' := by
  rw [res_encode, Hacspec.Gf128.encode_ok hb] at h
  rw [res_encode, Hacspec.Gf128.encode_ok hb'] at h'
  have : Hacspec.SecretInt.wordOfBe 128 b = Hacspec.SecretInt.wordOfBe 128 b' := by
    rw [Except.ok.injEq] at h h'; rw [h, h']
  rw [← Hacspec.Gf128.be_wordOfBe hb, this, Hacspec.Gf128.be_wordOfBe hb']

theorem update_tells {r r' : U128} {b b' : List U8} {a : U128} (hb : b.length = 16) (hb' : b'.length = 16) :
    Tells (fun x y => r = r' ∧ b = b' ∧ x = y) (update r b a) (update r' b' a) := by
  refine Tells.mono' (R := fun _ _ => r = r' ∧ b = b') ?_ ?_
  · unfold update
    refine Tells.bind (encode_same (hb.trans hb'.symm)).tells ?_
    intro e e' he he' _
    refine Tells.mono fmul_tells ?_
    rintro _ _ ⟨h1, h2⟩
    refine ⟨h2, encode_inj hb hb' he ?_⟩
    rw [he']
    unfold Hacspec.Gf128.fadd at h1
    have := congrArg (· ^^^ a) h1
    simp only [BitVec.xor_assoc, BitVec.xor_self, BitVec.xor_zero] at this
    rw [this]
  · rintro x y hx hy ⟨rfl, rfl⟩
    rw [hx] at hy
    cases hy
    exact ⟨rfl, rfl, rfl⟩

theorem getElem?_window {m m' : List U8} {i n j : Nat} (h : (m.drop i).take n = (m'.drop i).take n) (hj : i ≤ j)
    (hn : j < i + n) : m[j]? = m'[j]? := by
  have := congrArg (·[j - i]?) h
  simp only [List.getElem?_take, List.getElem?_drop, show j - i < n by omega, if_true, show i + (j - i) = j by omega] at this
  exact this

theorem poly_tells {m m' : List U8} {r r' : U128} (hm : m.length = m'.length) :
    Tells (fun _ _ => m = m' ∧ (m ≠ [] → r = r')) (poly m r) (poly m' r') := by
  have hl : Len m m' := hm
  unfold poly
  rw [← hm]
  refine Tells.bind (Tells.loop (fun i (a a' : U128) => a = a' ∧ (0 < i → r = r') ∧ ∀ j, j < 16 * i → m[j]? = m'[j]?)
    ⟨rfl, fun h => absurd h (by omega), fun j hj => absurd hj (by omega)⟩ ?_) ?_
  · rintro i hi a _ ⟨rfl, -, h2⟩
    unfold polyStep
    refine Tells.bind (subr_same hl rfl rfl).tells ?_
    intro s s' hs hs' _
    rw [res_subr, Hacspec.Seq.subr, Hacspec.require_true (by omega), bind_ok, Hacspec.Seq.sub_ok (by omega)] at hs hs'
    cases hs; cases hs'
    rw [Nat.add_sub_cancel_left]
    refine Tells.bind (updateStart_same rfl ?_).tells ?_
    · show _ = _; simp [hm]
    intro b b' hb hb' _
    have l1 : ((m.drop (i * 16)).take 16).length = 16 := by rw [List.length_take, List.length_drop]; omega
    have l2 : ((m'.drop (i * 16)).take 16).length = 16 := by rw [List.length_take, List.length_drop]; omega
    rw [res_updateStart, updateStart_new (by omega), l1, Nat.sub_self, List.replicate_zero, List.append_nil] at hb
    rw [res_updateStart, updateStart_new (by omega), l2, Nat.sub_self, List.replicate_zero, List.append_nil] at hb'
    cases hb; cases hb'
    refine Tells.mono (update_tells l1 l2) ?_
    rintro x y ⟨e1, e2, e3⟩
    refine ⟨e3, fun _ => e1, fun j hj => ?_⟩
    rcases Nat.lt_or_ge j (16 * i) with h | h
    · exact h2 j h
    · exact getElem?_window e2 (by omega) (by omega)
  · rintro a _ - - ⟨rfl, h1, h2⟩
    unfold polyLast
    simp only [← hm]
    refine Tells.branch (fun hc _ => ?_) fun hc _ => Tells.ok ?_
    · refine Tells.bind (updateSub_same rfl hl rfl rfl rfl).tells ?_
      intro b b' hb hb' _
      rw [res_updateSub, Hacspec.Seq.updateSub_ok (by rw [Hacspec.Seq.length_new]; omega) (by omega)] at hb hb'
      cases hb; cases hb'
      refine Tells.mono (update_tells ?_ ?_) ?_
      · simp only [List.length_append, List.length_take, List.length_drop, Hacspec.Seq.length_new]; omega
      · simp only [List.length_append, List.length_take, List.length_drop, Hacspec.Seq.length_new]; omega
      rintro x y ⟨e1, e2, -⟩
      refine ⟨List.ext_getElem? fun j => ?_, fun _ => e1⟩
      have e3 := List.append_cancel_left (by simpa only [List.append_assoc] using List.append_cancel_right e2)
      rcases Nat.lt_or_ge j (16 * (m.length / 16)) with h | h
      · exact h2 j h
      · rcases Nat.lt_or_ge j m.length with h' | h'
        · exact getElem?_window e3 (by omega) (by omega)
        · rw [List.getElem?_eq_none (by omega), List.getElem?_eq_none (by omega)]
    · refine ⟨List.ext_getElem? fun j => ?_, fun h => h1 ?_⟩
      · rcases Nat.lt_or_ge j m.length with h' | h'
        · exact h2 j (by omega)
        · rw [List.getElem?_eq_none (by omega), List.getElem?_eq_none (by omega)]
      · have := List.length_pos_of_ne_nil h
        omega

/-- The events of `gmac` tell the text and the key. -/
theorem gmac_tells {m m' k k' : List U8} (hm : m.length = m'.length) (hk : k.length = 16) (hk' : k'.length = 16) :
    Tells (fun _ _ => m = m' ∧ (m ≠ [] → k = k')) (gmac m k) (gmac m' k') := by
  unfold gmac
  refine Tells.bind (arrFromSeq_same (hk.trans hk'.symm)).tells ?_
  intro b b' hb hb' hl
  rw [res_arrFromSeq, Hacspec.Seq.arrFromSeq_ok hk] at hb
  rw [res_arrFromSeq, Hacspec.Seq.arrFromSeq_ok hk'] at hb'
  cases hb; cases hb'
  refine Tells.bind (encode_same hl).tells ?_
  intro r r' hr hr' _
  refine Tells.bind (poly_tells hm) ?_
  rintro a a' - - ⟨h1, h2⟩
  refine Tells.bind (R := Eq) Same.refl.tells ?_
  rintro e _ - - rfl
  refine Tells.bind decode_same.tells ?_
  intro d d' _ _ hd
  refine (arrFromSeq_same hd).tells.mono fun _ _ _ => ⟨h1, fun h => encode_inj hk hk' hr ?_⟩
  rw [hr', h2 h]

end Hacspec.Leak.Gf128

namespace Hacspec.Leak.AesGcm

open Leak.Seq
open Hacspec.Aes (nk nr)

/-- The first block encrypted is known: its events tell the key. -/
theorem encryptKey_head {alg : Hacspec.Aes.Variant} {k k' n n' a a' m m' : List U8} (hk : k.length = 4 * nk alg)
    (hk' : k'.length = 4 * nk alg) (h : (encryptKey k n a m alg).trace = (encryptKey k' n' a' m' alg).trace) : k = k' := by
  have e : (fromSeq k).res = .ok k := by rw [res_fromSeq, Hacspec.Seq.fromSeq_ok]
  have e' : (fromSeq k').res = .ok k' := by rw [res_fromSeq, Hacspec.Seq.fromSeq_ok]
  unfold encryptKey at h
  rw [trace_bind_ok e, trace_bind_ok e'] at h
  have h1 := ((fromSeq_same (hk.trans hk'.symm)).tells _ _ e e' _ _ h).2
  unfold encrypt at h1
  exact ((Aes.ctrKeyblock_tells hk hk').head
    ((Aes.res_ctrKeyblock ..).trans (Hacspec.Aes.ctrKeyblock_ok _ hk (Hacspec.Seq.length_new 12)))
    ((Aes.res_ctrKeyblock ..).trans (Hacspec.Aes.ctrKeyblock_ok _ hk' (Hacspec.Seq.length_new 12))) h1).1

theorem decryptKey_head {alg : Hacspec.Aes.Variant} {k k' n n' a a' c c' t t' : List U8} (hk : k.length = 4 * nk alg)
    (hk' : k'.length = 4 * nk alg) (h : (decryptKey k n a c t alg).trace = (decryptKey k' n' a' c' t' alg).trace) :
    k = k' := by
  have e : (fromSeq k).res = .ok k := by rw [res_fromSeq, Hacspec.Seq.fromSeq_ok]
  have e' : (fromSeq k').res = .ok k' := by rw [res_fromSeq, Hacspec.Seq.fromSeq_ok]
  unfold decryptKey at h
  rw [trace_bind_ok e, trace_bind_ok e'] at h
  have h1 := ((fromSeq_same (hk.trans hk'.symm)).tells _ _ e e' _ _ h).2
  unfold decrypt at h1
  exact ((Aes.ctrKeyblock_tells hk hk').head
    ((Aes.res_ctrKeyblock ..).trans (Hacspec.Aes.ctrKeyblock_ok _ hk (Hacspec.Seq.length_new 12)))
    ((Aes.res_ctrKeyblock ..).trans (Hacspec.Aes.ctrKeyblock_ok _ hk' (Hacspec.Seq.length_new 12))) h1).1

end Hacspec.Leak.AesGcm
