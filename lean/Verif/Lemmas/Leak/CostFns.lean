import Verif.Model.Leak.Curves
import Verif.Lemmas.Leak.Cost

/-! # The number of steps of the cryptographic functions -/

namespace Hacspec.Leak

open Seq VecInt

/-! ## ChaCha20 -/

namespace ChaCha

set_option maxRecDepth 8000 in
theorem block_costs {k iv : List U8} {c : U32} (hk : k.length = 32) (hi : iv.length = 12) :
    Costs 3211 (HasLen 64) (block k c iv) :=
  Costs.ofSame (d := block (List.replicate 32 0) 0 (List.replicate 12 0))
    (block_same (by simp [Len, hk]) (by simp [Len, hi])) (by decide +kernel)

theorem chachaStep_costs {k iv m : List U8} {i : Nat} {s : U32 × List U8} (hk : k.length = 32) (hi : iv.length = 12)
    (hs : s.2.length = m.length) : Costs 4249 (fun t => t.2.length = m.length) (chachaStep k iv m i s) := by
  unfold chachaStep
  refine Costs.step 196 getChunk_costs (by omega) fun c hc => ?_
  refine Costs.step 3211 (block_costs hk hi) (by omega) fun b hb => ?_
  refine Costs.step 194 updateStart_costs (by omega) fun p hp => ?_
  rw [HasLen, Hacspec.Seq.new, List.length_replicate] at hp
  refine Costs.step 256 arrXorSecret_costs (by omega) fun x hx => ?_
  refine Costs.step 195 subr_costs (by omega) fun y hy => ?_
  refine Costs.step 197 setChunk_costs (by omega) fun o ho => ?_
  exact Costs.ok (Eq.trans ho hs)

theorem chacha_costs {k iv m : List U8} (hk : k.length = 32) (hi : iv.length = 12) :
    Costs (3 + 4250 * ((m.length + 63) / 64)) (HasLen m.length) (chacha k iv m) := by
  unfold chacha
  refine Costs.step 3 numChunks_costs (by omega) fun n hn => ?_
  subst hn
  refine Costs.step (4250 * ((m.length + 63) / 64)) (Costs.loop (I := fun s => s.2.length = m.length)
    (by simp [Hacspec.Seq.new]) fun i _ s hs => chachaStep_costs hk hi hs) (by omega) fun s hs => ?_
  exact Costs.done (P := HasLen m.length) hs

end ChaCha

/-! ## SHA-256, HMAC, HKDF -/

namespace Sha2

set_option maxRecDepth 8000 in
theorem compress_costs {b : List U8} {h : List U32} (hb : b.length = 64) (hh : h.length = 8) :
    Costs 11570 (HasLen 8) (compress b h) :=
  Costs.ofSame (d := compress (List.replicate 64 0) (List.replicate 8 0))
    (compress_same (by simp [Len, hb]) (by simp [Len, hh])) (by decide +kernel)

theorem lastBlock_costs {n l : Nat} {b : List U8} {h : List U32} (hb : b.length ≤ 64) (hh : h.length = 8) :
    Costs 23584 (HasLen 8) (lastBlock n l b h) := by
  unfold lastBlock
  refine Costs.step 194 updateStart_costs (by omega) fun c hc => ?_
  rw [HasLen, Hacspec.Seq.new, List.length_replicate] at hc
  refine Costs.step 194 update_costs (by omega) fun d hd => ?_
  rw [HasLen, Hacspec.Seq.new, List.length_replicate] at hd
  refine Costs.step 1 .setIdx (by omega) fun e he => ?_
  rw [HasLen, hd] at he
  refine Costs.step 1 .require (by omega) fun _ _ => ?_
  refine (Costs.branch (k := 23193) (l := 23193) (fun _ => ?_) fun _ => ?_).le (by omega)
  · refine Costs.step 25 wordToBeBytes_costs (by omega) fun x hx => ?_
    refine Costs.step 26 update_costs (by omega) fun f hf => ?_
    exact (compress_costs (Eq.trans hf he) hh).le (by omega)
  · refine Costs.step 25 wordToBeBytes_costs (by omega) fun x hx => ?_
    refine Costs.step 26 update_costs (by omega) fun f hf => ?_
    rw [HasLen, Hacspec.Seq.new, List.length_replicate] at hf
    refine Costs.step 11570 (compress_costs he hh) (by omega) fun g hg => ?_
    exact (compress_costs hf hg).le (by omega)

theorem hashStep_costs {m : List U8} {i : Nat} {h : List U32} (hh : h.length = 8) :
    Costs 23781 (HasLen 8) (hashStep m i h) := by
  unfold hashStep
  refine Costs.step 196 getChunk_costs (by omega) fun c hc => ?_
  refine (Costs.branch (k := 23584) (l := 23584) (fun _ => lastBlock_costs (by omega) hh) fun _ => ?_).le (by omega)
  refine Costs.step 194 updateStart_costs (by omega) fun b hb => ?_
  rw [HasLen, Hacspec.Seq.new, List.length_replicate] at hb
  exact (compress_costs hb hh).le (by omega)

theorem digest_costs {h : List U32} : Costs 112 (HasLen 32) (arrToBeBytes 8 h) := by
  unfold arrToBeBytes arrToBytes
  refine (Costs.loop (n := 8) (k := 13) (I := HasLen 32) (by simp [HasLen, Hacspec.Seq.new]) fun i _ t ht => ?_).le (by omega)
  refine Costs.step 1 .idx (by omega) fun x _ => ?_
  refine (Costs.loop (n := 32 / 8) (k := 2) (I := HasLen 32) ht fun j _ u hu => ?_).le (by omega)
  refine Costs.step 1 .idx (by omega) fun x _ => ?_
  exact Costs.setIdx.mono (by omega) fun a ha => Eq.trans ha hu

theorem hash_costs {m : List U8} : Costs (238 + 23782 * ((m.length + 63) / 64)) (HasLen 32) (hash m) := by
  unfold hash
  refine Costs.step 26 arrFromPublicSlice_costs (by omega) fun h hh => ?_
  refine Costs.step 3 numChunks_costs (by omega) fun n hn => ?_
  subst hn
  refine Costs.step (23782 * ((m.length + 63) / 64)) (Costs.loop (I := HasLen 8) hh fun i _ s hs => hashStep_costs hs)
    (by omega) fun s hs => ?_
  refine Costs.step 112 digest_costs (by omega) fun d hd => ?_
  exact arrFromSeq_costs.le (by omega)

end Sha2

namespace Hmac

theorem keyBlock_costs {k : List U8} : Costs (337 + 23782 * ((k.length + 63) / 64)) (HasLen 64) (keyBlock k) := by
  unfold keyBlock
  refine (Costs.branch (k := 336 + 23782 * ((k.length + 63) / 64)) (l := 194) (fun _ => ?_) fun _ => ?_).le (by omega)
  · refine Costs.step (238 + 23782 * ((k.length + 63) / 64)) Sha2.hash_costs (by omega) fun h hh => ?_
    refine updateStart_costs.mono (by omega) fun a ha => ?_
    rw [HasLen, Hacspec.Seq.new, List.length_replicate] at ha; exact ha
  · refine updateStart_costs.mono (by omega) fun a ha => ?_
    rw [HasLen, Hacspec.Seq.new, List.length_replicate] at ha; exact ha

theorem blockThen_costs {b t : List U8} (hb : b.length = 64) : Costs (196 + 3 * t.length) (HasLen (64 + t.length)) (blockThen b t) := by
  unfold blockThen
  refine Costs.step 194 update_costs (by omega) fun h hh => ?_
  refine update_costs.mono (by omega) fun a ha => ?_
  rw [HasLen, Hacspec.Seq.new, List.length_replicate] at hh; exact Eq.trans ha hh

theorem hmac_costs {k t : List U8} : Costs (73644 + 23782 * ((k.length + 63) / 64) + 23782 * ((t.length + 63) / 64) + 3 * t.length)
    (HasLen 32) (hmac k t) := by
  unfold hmac
  refine Costs.step 194 arrFromPublicSlice_costs (by omega) fun i hi => ?_
  refine Costs.step 194 arrFromPublicSlice_costs (by omega) fun o ho => ?_
  refine Costs.step (337 + 23782 * ((k.length + 63) / 64)) keyBlock_costs (by omega) fun kb hkb => ?_
  refine Costs.step 256 arrXorSecret_costs (by omega) fun ki hki => ?_
  refine Costs.step 256 arrXorSecret_costs (by omega) fun ko hko => ?_
  refine Costs.step (196 + 3 * t.length) (blockThen_costs hki) (by omega) fun a ha => ?_
  rw [HasLen] at ha
  refine Costs.step (238 + 23782 * ((t.length + 63) / 64 + 1)) Sha2.hash_costs (by omega) fun d hd => ?_
  rw [HasLen] at hd
  refine Costs.step 292 (blockThen_costs hko) (by omega) fun b hb => ?_
  rw [HasLen] at hb
  refine Costs.step (238 + 23782 * 2) Sha2.hash_costs (by omega) fun e he => ?_
  exact arrFromSeq_costs.le (by omega)

end Hmac

namespace Hkdf

theorem extract_costs {salt ikm : List U8} : Costs (97524 + 23782 * ((salt.length + 63) / 64) + 23782 * ((ikm.length + 63) / 64) +
    3 * salt.length + 3 * ikm.length) (HasLen 32) (extract salt ikm) := by
  unfold extract saltOrZero
  refine Costs.step (1 + 3 * salt.length) (P := fun s => s.length ≤ max salt.length 32)
    (Costs.cases (fun _ => fromSeq_costs.mono (Nat.le_refl _) fun a ha => ?_) fun _ => (Costs.ok ?_).le (Nat.zero_le _))
    (by omega) fun s hs => ?_
  · rw [HasLen] at ha; omega
  · simp [Hacspec.Seq.new]; omega
  refine Costs.step (97426 + 23782 * ((salt.length + 63) / 64) + 23782 * ((ikm.length + 63) / 64) + 3 * ikm.length) Hmac.hmac_costs
    (by omega) fun h _ => ?_
  exact arrFromSeq_costs.le (by omega)

theorem buildHmacTxt_costs {t info : List U8} {i : U8} :
    Costs (5 + 3 * t.length + 3 * info.length) (HasLen (t.length + info.length + 1)) (buildHmacTxt t info i) := by
  unfold buildHmacTxt
  refine Costs.step (2 + 3 * t.length) update_costs (by omega) fun a ha => ?_
  rw [HasLen, Hacspec.Seq.new, List.length_replicate] at ha
  refine Costs.step (2 + 3 * info.length) update_costs (by omega) fun b hb => ?_
  exact Costs.setIdx.mono (by omega) fun c hc => Eq.trans hc (Eq.trans hb ha)

theorem hmacTxtIn_costs {t info : List U8} {i : Nat} (ht : t.length = 32) :
    Costs (198 + 3 * info.length) (fun x => x.length ≤ info.length + 33) (hmacTxtIn info t i) := by
  unfold hmacTxtIn
  refine (Costs.cases (k := 197 + 3 * info.length) (fun _ => ?_) fun _ => ?_).le (by omega)
  · refine buildHmacTxt_costs.mono ?_ fun a ha => ?_
    · simp [Hacspec.Seq.new]
    · rw [HasLen] at ha; simp [Hacspec.Seq.new] at ha; omega
  · refine Costs.step 96 fromSeq_costs (by omega) fun s hs => ?_
    rw [HasLen] at hs
    refine buildHmacTxt_costs.mono (by omega) fun a ha => ?_
    rw [HasLen] at ha; omega

theorem expandStep_costs {prk info : List U8} {i : Nat} {st : List U8 × List U8} (hp : prk.length = 32) (hs : st.1.length = 32) :
    Costs (121603 + 23782 * ((info.length + 63) / 64) + 6 * info.length) (fun s => s.1.length = 32) (expandStep prk info i st) := by
  unfold expandStep
  refine Costs.step (198 + 3 * info.length) (hmacTxtIn_costs hs) (by omega) fun x hx => ?_
  refine Costs.step (121307 + 23782 * ((info.length + 63) / 64) + 3 * info.length) Hmac.hmac_costs (by omega) fun t ht => ?_
  rw [HasLen] at ht
  refine Costs.step 98 update_costs (by omega) fun o _ => ?_
  exact Costs.done ht

theorem expand_costs {prk info : List U8} {l : Nat} (hp : prk.length = 32) :
    Costs (3 + 254 * (121604 + 23782 * ((info.length + 63) / 64) + 6 * info.length) + 3 * l) (HasLen l) (expand prk info l) := by
  unfold expand
  refine Costs.step 1 .require (by omega) fun _ hn => ?_
  refine Costs.step (254 * (121604 + 23782 * ((info.length + 63) / 64) + 6 * info.length))
    (Costs.loop (I := fun s => s.1.length = 32) (by simp [Hacspec.Seq.new]) fun i _ s hs => expandStep_costs hp hs)
    ⟨?_, by omega⟩ fun s _ => ?_
  · have h : ∀ n k, n + n * k = n * (k + 1) := fun n k => by rw [Nat.mul_succ, Nat.add_comm]
    rw [h]
    exact Nat.mul_le_mul (by omega) (by omega)
  · exact fromSub_costs.le (by omega)

end Hkdf

/-! ## SHA-3 and SHAKE -/

namespace Fips202

set_option maxRecDepth 8000 in
theorem keccakf1600_costs {s : List U64} (hs : s.length = 25) : Costs 12816 (HasLen 25) (keccakf1600 s) :=
  Costs.ofSame (d := keccakf1600 (List.replicate 25 0)) (keccakf1600_same (by simp [Len, hs])) (by decide +kernel)

theorem absorbByte_costs {b : List U8} {i : Nat} {s : List U64} (hs : s.length = 25) : Costs 3 (HasLen 25) (absorbByte b i s) := by
  unfold absorbByte xorAt
  refine Costs.step 1 .idx (by omega) fun x _ => ?_
  refine Costs.step 0 .lift (by omega) fun y _ => ?_
  refine Costs.step 1 .idx (by omega) fun x _ => ?_
  exact Costs.setIdx.mono (by omega) fun a ha => Eq.trans ha hs

theorem absorbBlock_costs {b : List U8} {s : List U64} (hs : s.length = 25) :
    Costs (12816 + 4 * b.length) (HasLen 25) (absorbBlock s b) := by
  unfold absorbBlock
  refine Costs.step (4 * b.length) (Costs.loop (I := HasLen 25) hs fun i _ t ht => absorbByte_costs ht) (by omega) fun t ht => ?_
  exact (keccakf1600_costs ht).le (by omega)

theorem absorbStep_costs {rate : Nat} {d : List U8} {i : Nat} {st : Hacspec.Fips202.Sponge} (hs : st.s.length = 25)
    (hb : st.buf.length = rate) : Costs (12821 + 7 * rate) (fun t => t.s.length = 25 ∧ t.buf.length = rate) (absorbStep rate d i st) := by
  unfold absorbStep absorbBranch
  refine Costs.step (4 + 3 * rate) getChunk_costs (by omega) fun c hc => ?_
  refine (Costs.cases (k := 12816 + 4 * rate) (fun _ => ?_) fun _ => ?_).le (by omega)
  · refine Costs.step (12816 + 4 * rate) (absorbBlock_costs hs) (by omega) fun t ht => ?_
    exact Costs.done ⟨ht, hb⟩
  · refine Costs.step (2 + 3 * rate) updateStart_costs (by omega) fun t ht => ?_
    exact Costs.done ⟨hs, Eq.trans ht hb⟩

theorem padBuf_costs {rate : Nat} {p : U8} {l : Nat} {b : List U8} : Costs 3 (HasLen b.length) (padBuf rate p l b) := by
  unfold padBuf
  refine Costs.step 1 .setIdx (by omega) fun c hc => ?_
  refine Costs.step 1 .idx (by omega) fun x _ => ?_
  exact Costs.setIdx.mono (by omega) fun a ha => Eq.trans ha hc

theorem squeezeStep_costs {rate i : Nat} {st : List U64 × List U8} (hs : st.1.length = 25) :
    Costs (3 + if (i + 1) % rate = 0 then 12816 else 0) (fun t => t.1.length = 25) (squeezeStep rate i st) := by
  unfold squeezeStep squeezeNext
  refine Costs.step 1 .idx (by omega) fun x _ => ?_
  refine Costs.step 0 .lift (by omega) fun y _ => ?_
  refine Costs.step 1 .setIdx (by omega) fun o _ => ?_
  by_cases h : (i + 1) % rate = 0
  · rw [if_pos h]
    refine Costs.step 12817 (Costs.cases (fun _ => keccakf1600_costs hs) fun h' => absurd h h') (by omega) fun t ht => ?_
    exact Costs.done ht
  · rw [if_neg h]
    refine Costs.step 1 (Costs.cases (fun h' => absurd h' h) fun _ => Costs.ok (P := HasLen 25) hs) (by omega) fun t ht => ?_
    exact Costs.done ht

theorem sum_multiples (k rate n : Nat) : ((List.range n).map fun i => 3 + if (i + 1) % rate = 0 then k else 0).sum =
    3 * n + k * (n / rate) := by
  induction n with
  | zero => simp
  | succ n ih =>
    rw [List.range_succ, List.map_append, List.sum_append, ih, Nat.succ_div]
    by_cases h : (n + 1) % rate = 0
    · simp only [List.map_cons, List.map_nil, List.sum_cons, List.sum_nil, h, if_true, Nat.dvd_of_mod_eq_zero h, Nat.mul_add]
      omega
    · have : ¬ rate ∣ n + 1 := fun hd => h (Nat.mod_eq_zero_of_dvd hd)
      simp only [List.map_cons, List.map_nil, List.sum_cons, List.sum_nil, h, if_false, this, Nat.add_zero]
      omega

theorem squeeze_costs {s : List U64} {n rate : Nat} (hs : s.length = 25) :
    Costs (4 * n + 12816 * (n / rate)) Free (squeeze s n rate) := by
  unfold squeeze
  refine Costs.step (4 * n + 12816 * (n / rate)) (Costs.loopSum _ (I := fun _ t => t.1.length = 25) hs
    fun i _ t ht => squeezeStep_costs ht) ⟨?_, by omega⟩ fun t _ => Costs.done trivial
  rw [sum_multiples]; omega

theorem keccak_costs {rate : Nat} {d : List U8} {p : U8} {n : Nat} :
    Costs (12822 + 4 * rate + (12822 + 7 * rate) * ((d.length + rate - 1) / rate) + 4 * n + 12816 * (n / rate)) Free
      (keccak rate d p n) := by
  unfold keccak
  refine Costs.step 3 numChunks_costs (by omega) fun c hc => ?_
  subst hc
  refine Costs.step ((12822 + 7 * rate) * ((d.length + rate - 1) / rate)) (Costs.loop
    (I := fun t => t.s.length = 25 ∧ t.buf.length = rate) (by simp [Hacspec.Seq.new]) fun i _ t ht => absorbStep_costs ht.1 ht.2)
    ⟨?_, by omega⟩ fun st hst => ?_
  · have h : ∀ n k, n + n * k = (1 + k) * n := fun n k => by rw [Nat.add_mul, Nat.one_mul, Nat.mul_comm]
    rw [h]
    exact Nat.mul_le_mul (by omega) (Nat.le_refl _)
  refine Costs.step 3 padBuf_costs (by omega) fun b hb => ?_
  rw [HasLen, hst.2] at hb
  refine Costs.step (12816 + 4 * rate) (absorbBlock_costs hst.1) (by omega) fun s hs => ?_
  exact (squeeze_costs hs).le (by omega)

end Fips202

/-! ## BLAKE2b -/

namespace Blake2

theorem compress_costs {h : List U64} {m : List U8} {t : List U64} {last : Bool} (hh : h.length = 8) (hm : m.length = 128)
    (ht : t.length = 2) : Costs 3714 (HasLen 8) (compress Hacspec.Blake2.ivb h m t last .blake2b) := by
  cases last
  · exact Costs.ofSame (d := compress Hacspec.Blake2.ivb (List.replicate 8 0) (List.replicate 128 0) (List.replicate 2 0) false .blake2b)
      (compress_same rfl (by simp [Len, hh]) (by simp [Len, hm]) (by simp [Len, ht])) (by decide +kernel)
  · exact Costs.ofSame (d := compress Hacspec.Blake2.ivb (List.replicate 8 0) (List.replicate 128 0) (List.replicate 2 0) true .blake2b)
      (compress_same rfl (by simp [Len, hh]) (by simp [Len, hm]) (by simp [Len, ht])) (by decide +kernel)

theorem incCounter_costs {t : List U64} {x : U64} : Costs 5 (HasLen 2) (incCounter t x) := by
  unfold incCounter incHigh
  refine Costs.step 1 .idx (by omega) fun a _ => ?_
  refine Costs.step 0 .lift (by omega) fun a _ => ?_
  refine Costs.step 1 .setIdx (by omega) fun b hb => ?_
  rw [HasLen, Hacspec.Seq.new, List.length_replicate] at hb
  refine (Costs.cases (k := 2) (fun _ => ?_) fun _ => (Costs.ok (P := HasLen 2) hb).le (Nat.zero_le _)).le (by omega)
  refine Costs.step 1 .idx (by omega) fun a _ => ?_
  refine Costs.step 0 .lift (by omega) fun a _ => ?_
  exact Costs.setIdx.mono (by omega) fun c hc => Eq.trans hc hb

theorem blockBranch_costs {n : Nat} {b : List U8} {st : List U64 × List U64} (hn : n = b.length) (hb : b.length ≤ 128)
    (h1 : st.1.length = 8) :
    Costs 4106 (fun s => s.1.length = 8 ∧ s.2.length = 2) (blockBranch Hacspec.Blake2.ivb .blake2b n b st) := by
  unfold blockBranch
  refine (Costs.cases (k := 4105) (fun h => ?_) fun h => ?_).le (by omega)
  · refine Costs.step 5 incCounter_costs (by omega) fun t ht => ?_
    refine Costs.step 384 fromSeq_costs (by omega) fun c hc => ?_
    rw [HasLen, ← hn, h] at hc
    refine Costs.step 3714 (compress_costs h1 hc ht) (by omega) fun g hg => ?_
    exact Costs.done ⟨hg, ht⟩
  · refine Costs.step 5 incCounter_costs (by omega) fun t ht => ?_
    refine Costs.step 386 updateStart_costs (by omega) fun c hc => ?_
    rw [HasLen, Hacspec.Seq.new, List.length_replicate] at hc
    refine Costs.step 3714 (compress_costs h1 hc ht) (by omega) fun g hg => ?_
    exact Costs.done ⟨hg, ht⟩

theorem blockStep_costs {d : List U8} {i : Nat} {st : List U64 × List U64} (h1 : st.1.length = 8) :
    Costs 4494 (fun s => s.1.length = 8 ∧ s.2.length = 2) (blockStep Hacspec.Blake2.ivb .blake2b d i st) := by
  unfold blockStep
  refine Costs.step 388 getChunk_costs (by omega) fun c hc => ?_
  exact (blockBranch_costs (by omega) (by omega) h1).le (by omega)

theorem getByte_costs {x : U64} {i : Nat} : Costs 26 Free (getByte x i) := by
  unfold getByte
  refine Costs.step 0 .lift (by omega) fun y _ => ?_
  refine Costs.step 25 wordToLeBytes_costs (by omega) fun b _ => ?_
  exact Costs.idx.mono (by omega) fun _ _ => trivial

theorem blake2b_costs {d : List U8} : Costs (2062 + 4495 * ((d.length + 127) / 128)) (HasLen 64) (blake2b d) := by
  unfold blake2b blake2
  refine Costs.step _ (k' := 1869 + 4495 * ((d.length + 127) / 128)) (P := HasLen 64) ?_ ⟨Nat.le_refl _, by omega⟩ fun e he => ?_
  · refine Costs.step 1 .idx (by omega) fun x _ => ?_
    refine Costs.step 1 .setIdx (by omega) fun h hh => ?_
    replace hh : h.length = 8 := hh
    refine Costs.step 3 numChunks_costs (by omega) fun n hn => ?_
    subst hn
    refine Costs.step (4495 * ((d.length + 127) / 128)) (Costs.loop (I := fun s => s.1.length = 8 ∧ s.2.length = 2)
      ⟨hh, by simp [Hacspec.Seq.new]⟩ fun i _ s hs => blockStep_costs hs.1) (by omega) fun s hs => ?_
    refine (Costs.loop (k := 232) (I := HasLen 64) (by simp [HasLen, Hacspec.Seq.new, Hacspec.Blake2.Variant.digest])
      fun i _ t ht => ?_).le (by omega)
    refine (Costs.loop (k := 28) (I := HasLen 64) ht fun j _ t ht => ?_).le (by omega)
    refine Costs.step 1 .idx (by omega) fun x _ => ?_
    refine Costs.step 26 getByte_costs (by omega) fun b _ => ?_
    exact Costs.setIdx.mono (by omega) fun a ha => Eq.trans ha ht
  · rw [HasLen] at he
    exact arrFromSeq_costs.le (by omega)

end Blake2

/-! ## AES and GCM -/

namespace Aes

open Hacspec.Aes (Variant nk nr)

theorem subByte_costs {x : U8} : Costs 1 Free (subByte x) := Costs.idx.mono (Nat.le_refl _) fun _ _ => trivial

theorem subBytes_costs {s : List U8} : Costs 64 (HasLen s.length) (subBytes s) := by
  unfold subBytes
  refine (Costs.loop (k := 3) (I := HasLen s.length) rfl fun i _ t ht => ?_).le (by omega)
  refine Costs.step 1 .idx (by omega) fun x _ => ?_
  refine Costs.step 1 subByte_costs (by omega) fun y _ => ?_
  exact Costs.setIdx.mono (by omega) fun a ha => Eq.trans ha ht

theorem shiftRow_costs {i k : Nat} {s : List U8} : Costs 8 (HasLen s.length) (shiftRow i k s) := by
  unfold shiftRow
  refine Costs.step 1 .idx (by omega) fun x _ => ?_
  refine Costs.step 1 .setIdx (by omega) fun a ha => ?_
  refine Costs.step 1 .idx (by omega) fun x _ => ?_
  refine Costs.step 1 .setIdx (by omega) fun b hb => ?_
  refine Costs.step 1 .idx (by omega) fun x _ => ?_
  refine Costs.step 1 .setIdx (by omega) fun c hc => ?_
  refine Costs.step 1 .idx (by omega) fun x _ => ?_
  exact Costs.setIdx.mono (by omega) fun d hd => Eq.trans hd (Eq.trans hc (Eq.trans hb ha))

theorem shiftRows_costs {s : List U8} : Costs 24 (HasLen s.length) (shiftRows s) := by
  unfold shiftRows
  refine Costs.step 8 shiftRow_costs (by omega) fun a ha => ?_
  refine Costs.step 8 shiftRow_costs (by omega) fun b hb => ?_
  exact shiftRow_costs.mono (by omega) fun c hc => Eq.trans hc (Eq.trans hb ha)

theorem xtime_costs {x : U8} : Costs 0 Free (xtime x) := by
  unfold xtime
  refine Costs.step 0 .lift (by omega) fun a _ => ?_
  refine Costs.step 0 .lift (by omega) fun b _ => ?_
  exact Costs.done trivial

theorem mixColumn_costs {i : Nat} {s : List U8} : Costs 8 (HasLen s.length) (mixColumn i s) := by
  unfold mixColumn
  refine Costs.step 1 .idx (by omega) fun x _ => ?_
  refine Costs.step 1 .idx (by omega) fun x _ => ?_
  refine Costs.step 1 .idx (by omega) fun x _ => ?_
  refine Costs.step 1 .idx (by omega) fun x _ => ?_
  refine Costs.step 0 xtime_costs (by omega) fun x _ => ?_
  refine Costs.step 1 .setIdx (by omega) fun a ha => ?_
  refine Costs.step 0 xtime_costs (by omega) fun x _ => ?_
  refine Costs.step 1 .setIdx (by omega) fun b hb => ?_
  refine Costs.step 0 xtime_costs (by omega) fun x _ => ?_
  refine Costs.step 1 .setIdx (by omega) fun c hc => ?_
  refine Costs.step 0 xtime_costs (by omega) fun x _ => ?_
  exact Costs.setIdx.mono (by omega) fun d hd => Eq.trans hd (Eq.trans hc (Eq.trans hb ha))

theorem mixColumns_costs {s : List U8} : Costs 32 (HasLen s.length) (mixColumns s) := by
  unfold mixColumns
  refine Costs.step 8 mixColumn_costs (by omega) fun a ha => ?_
  refine Costs.step 8 mixColumn_costs (by omega) fun b hb => ?_
  refine Costs.step 8 mixColumn_costs (by omega) fun c hc => ?_
  exact mixColumn_costs.mono (by omega) fun d hd => Eq.trans hd (Eq.trans hc (Eq.trans hb ha))

theorem addRoundKey_costs {s k : List U8} : Costs 64 (HasLen s.length) (addRoundKey s k) := by
  unfold addRoundKey
  refine (Costs.loop (k := 3) (I := HasLen s.length) rfl fun i _ t ht => ?_).le (by omega)
  refine Costs.step 1 .idx (by omega) fun x _ => ?_
  refine Costs.step 1 .idx (by omega) fun y _ => ?_
  exact Costs.setIdx.mono (by omega) fun a ha => Eq.trans ha ht

theorem xorBlock_costs {s k : List U8} : Costs 64 (HasLen s.length) (xorBlock s k) := addRoundKey_costs

theorem aesEnc_costs {s k : List U8} : Costs 184 (HasLen s.length) (aesEnc s k) := by
  unfold aesEnc
  refine Costs.step 64 subBytes_costs (by omega) fun a ha => ?_
  refine Costs.step 24 shiftRows_costs (by omega) fun b hb => ?_
  refine Costs.step 32 mixColumns_costs (by omega) fun c hc => ?_
  exact addRoundKey_costs.mono (by omega) fun d hd => Eq.trans hd (Eq.trans hc (Eq.trans hb ha))

theorem aesEncLast_costs {s k : List U8} : Costs 152 (HasLen s.length) (aesEncLast s k) := by
  unfold aesEncLast
  refine Costs.step 64 subBytes_costs (by omega) fun a ha => ?_
  refine Costs.step 24 shiftRows_costs (by omega) fun b hb => ?_
  exact addRoundKey_costs.mono (by omega) fun d hd => Eq.trans hd (Eq.trans hb ha)

theorem roundsAes_costs {s k : List U8} : Costs (3 + 286 * ((k.length + 15) / 16)) (HasLen s.length) (roundsAes s k) := by
  unfold roundsAes
  refine Costs.step 3 numChunks_costs (by omega) fun n hn => ?_
  subst hn
  refine (Costs.loop (k := 285) (I := HasLen s.length) rfl fun i _ t ht => ?_).le (by omega)
  refine Costs.step 52 getChunk_costs (by omega) fun c hc => ?_
  refine Costs.step 49 arrFromSeq_costs (by omega) fun r _ => ?_
  exact aesEnc_costs.mono (by omega) fun a ha => Eq.trans ha ht

theorem blockCipher_costs {s k : List U8} {alg : Variant} : Costs 4667 (HasLen s.length) (blockCipher s k (nr alg)) := by
  unfold blockCipher
  have hr : nr alg ≤ 14 := by cases alg <;> decide
  refine Costs.step 52 arrFromSubRange_costs (by omega) fun k0 _ => ?_
  refine Costs.step 627 fromSubRange_costs (by omega) fun k1 hk => ?_
  rw [HasLen] at hk
  refine Costs.step 51 arrFromSub_costs (by omega) fun kn _ => ?_
  refine Costs.step 64 addRoundKey_costs (by omega) fun a ha => ?_
  refine Costs.step 3721 roundsAes_costs (by omega) fun b hb => ?_
  exact aesEncLast_costs.mono (by omega) fun c hc => Eq.trans hc (Eq.trans hb ha)

theorem rotateWord_costs {w : List U8} : Costs 4 (HasLen 4) (rotateWord w) := by
  unfold rotateWord
  refine Costs.step 1 .idx (by omega) fun x _ => ?_
  refine Costs.step 1 .idx (by omega) fun x _ => ?_
  refine Costs.step 1 .idx (by omega) fun x _ => ?_
  refine Costs.step 1 .idx (by omega) fun x _ => ?_
  exact Costs.done rfl

theorem subWord_costs {w : List U8} : Costs 8 (HasLen 4) (subWord w) := by
  unfold subWord
  refine Costs.step 1 .idx (by omega) fun x _ => ?_
  refine Costs.step 1 subByte_costs (by omega) fun x _ => ?_
  refine Costs.step 1 .idx (by omega) fun x _ => ?_
  refine Costs.step 1 subByte_costs (by omega) fun x _ => ?_
  refine Costs.step 1 .idx (by omega) fun x _ => ?_
  refine Costs.step 1 subByte_costs (by omega) fun x _ => ?_
  refine Costs.step 1 .idx (by omega) fun x _ => ?_
  refine Costs.step 1 subByte_costs (by omega) fun x _ => ?_
  exact Costs.done rfl

theorem keygenAssist_costs {w : List U8} {rc : U8} : Costs 14 (HasLen 4) (keygenAssist w rc) := by
  unfold keygenAssist
  refine Costs.step 4 rotateWord_costs (by omega) fun a _ => ?_
  refine Costs.step 8 subWord_costs (by omega) fun b hb => ?_
  refine Costs.step 1 .idx (by omega) fun x _ => ?_
  exact Costs.setIdx.mono (by omega) fun c hc => Eq.trans hc hb

theorem expansionCore_costs {w : List U8} {i n : Nat} (hw : w.length = 4) : Costs 17 (HasLen 4) (expansionCore w i n) := by
  unfold expansionCore
  refine Costs.step 1 .require (by omega) fun _ _ => ?_
  refine (Costs.cases (k := 15) (fun _ => ?_) fun _ => ?_).le (by omega)
  · refine Costs.step 1 .idx (by omega) fun x _ => ?_
    exact keygenAssist_costs.le (by omega)
  · exact (Costs.cases (k := 8) (fun _ => subWord_costs) fun _ => (Costs.ok (P := HasLen 4) hw).le (Nat.zero_le _)).le (by omega)

theorem expansionWord_costs {v w : List U8} {i n r : Nat} (hw : w.length = 4) :
    Costs 34 (HasLen 4) (expansionWord v w i n r) := by
  unfold expansionWord
  refine Costs.step 1 .require (by omega) fun _ _ => ?_
  refine Costs.step 17 (expansionCore_costs hw) (by omega) fun k hk => ?_
  refine (Costs.loop (k := 3) (I := HasLen 4) hk fun i _ t ht => ?_).le (by omega)
  refine Costs.step 1 .idx (by omega) fun x _ => ?_
  refine Costs.step 1 .idx (by omega) fun x _ => ?_
  exact Costs.setIdx.mono (by omega) fun c hc => Eq.trans hc ht

theorem keyExpansion_costs {key : List U8} {n r : Nat} {alg : Variant} :
    Costs (4110 + 3 * key.length) Free (keyExpansion key n r alg) := by
  unfold keyExpansion
  have hi : alg.iters ≤ 52 := by cases alg <;> decide
  refine Costs.step (2 + 3 * key.length) updateStart_costs (by omega) fun a _ => ?_
  refine (Costs.loop (k := 78) (I := Free) trivial fun i _ t _ => ?_).le (by omega)
  unfold expansionStep
  refine Costs.step 15 arrFromSub_costs (by omega) fun v _ => ?_
  refine Costs.step 15 arrFromSub_costs (by omega) fun w hw => ?_
  refine Costs.step 34 (expansionWord_costs hw) (by omega) fun x hx => ?_
  rw [HasLen] at hx
  exact update_costs.mono (by omega) fun _ _ => trivial

theorem encryptBlock_costs {key b : List U8} {alg : Variant} :
    Costs (8777 + 3 * key.length) (HasLen b.length) (encryptBlock key b (nk alg) (nr alg) alg) := by
  unfold encryptBlock
  refine Costs.step (4110 + 3 * key.length) keyExpansion_costs (by omega) fun a _ => ?_
  exact blockCipher_costs.le (by omega)

theorem ctrKeyblock_costs {key n : List U8} {c : U32} {alg : Variant} :
    Costs (8806 + 3 * key.length + 3 * n.length) (HasLen 16) (ctrKeyblock key n c (nk alg) (nr alg) alg) := by
  unfold ctrKeyblock
  refine Costs.step (2 + 3 * n.length) update_costs (by omega) fun a ha => ?_
  rw [HasLen, Hacspec.Seq.new, List.length_replicate] at ha
  refine Costs.step 13 wordToBeBytes_costs (by omega) fun b hb => ?_
  rw [HasLen] at hb
  refine Costs.step 14 update_costs (by omega) fun d hd => ?_
  exact encryptBlock_costs.mono (by omega) fun e he => Eq.trans he (Eq.trans hd ha)

theorem ctrStep_costs {key n m : List U8} {alg : Variant} {i : Nat} {st : U32 × List U8} (hs : st.2.length = m.length) :
    Costs (9076 + 3 * key.length + 3 * n.length) (fun t => t.2.length = m.length)
      (ctrStep key n m (nk alg) (nr alg) alg i st) := by
  unfold ctrStep ctrBranch
  refine Costs.step 52 getChunk_costs (by omega) fun c hc => ?_
  refine Costs.step (8806 + 3 * key.length + 3 * n.length) ctrKeyblock_costs (by omega) fun k _ => ?_
  refine (Costs.cases (k := 217) (fun h => ?_) fun h => ?_).le (by omega)
  · refine Costs.step 49 arrFromSeq_costs (by omega) fun b _ => ?_
    refine Costs.step 64 xorBlock_costs (by omega) fun x _ => ?_
    refine Costs.step 53 setChunk_costs (by omega) fun o ho => ?_
    exact Costs.done (Eq.trans ho hs)
  · refine Costs.step 50 updateStart_costs (by omega) fun b _ => ?_
    refine Costs.step 64 xorBlock_costs (by omega) fun x _ => ?_
    refine Costs.step 50 subr_costs (by omega) fun y _ => ?_
    refine Costs.step 53 setChunk_costs (by omega) fun o ho => ?_
    exact Costs.done (Eq.trans ho hs)

theorem encrypt_costs {key n m : List U8} {c : U32} {alg : Variant} :
    Costs (3 + (9077 + 3 * key.length + 3 * n.length) * ((m.length + 15) / 16)) (HasLen m.length) (encrypt key n c m alg) := by
  unfold encrypt counterMode
  refine Costs.step 3 numChunks_costs (by omega) fun k hk => ?_
  subst hk
  refine Costs.step ((9077 + 3 * key.length + 3 * n.length) * ((m.length + 15) / 16)) (Costs.loop
    (I := fun t => t.2.length = m.length) (by simp [Hacspec.Seq.new]) fun i _ t ht => ctrStep_costs ht)
    ⟨?_, by omega⟩ fun t ht => ?_
  · have h : ∀ n k, n + n * k = (1 + k) * n := fun n k => by rw [Nat.add_mul, Nat.one_mul, Nat.mul_comm]
    rw [h]
    exact Nat.mul_le_mul (by omega) (Nat.le_refl _)
  · exact Costs.done ht

theorem encryptKey_costs {key n m : List U8} {c : U32} {alg : Variant} :
    Costs (3 + 3 * key.length + (9077 + 3 * key.length + 3 * n.length) * ((m.length + 15) / 16)) (HasLen m.length)
      (encryptKey key n c m alg) := by
  unfold encryptKey
  refine Costs.step (3 * key.length) fromSeq_costs (by omega) fun k hk => ?_
  rw [HasLen] at hk
  rw [← hk]
  exact encrypt_costs.le (by omega)

end Aes

namespace Gf128

theorem fmul_costs {x y : U128} : Costs 384 Free (fmul x y) := by
  unfold fmul
  refine Costs.step 384 (Costs.loop (k := 2) (I := Free) trivial fun i _ t _ => ?_) (by omega) fun t _ =>
    Costs.done trivial
  unfold fmulStep
  refine Costs.step 0 .lift (by omega) fun b _ => ?_
  refine Costs.step 1 (Costs.cases (fun _ => Costs.ok (P := Free) trivial) fun _ => Costs.ok trivial) (by omega) fun r _ => ?_
  refine Costs.step 0 .lift (by omega) fun s _ => ?_
  refine Costs.step 1 (Costs.cases (fun _ => Costs.ok (P := Free) trivial) fun _ => Costs.ok trivial) (by omega) fun r _ => ?_
  exact Costs.done trivial

theorem encode_costs {b : List U8} : Costs 52 Free (encode b) := by
  unfold encode
  refine Costs.step 49 arrFromSeq_costs (by omega) fun c hc => ?_
  exact Costs.ofTrace (d := wordFromBeBytes 128 (List.replicate 16 0)) (wordFromBeBytes_same (by simpa [Len] using hc)) (by decide +kernel)

theorem decode_costs {x : U128} : Costs 98 (HasLen 16) (decode x) := by
  unfold decode
  refine Costs.step 49 wordToBeBytes_costs (by omega) fun c _ => ?_
  exact arrFromSeq_costs.le (by omega)

theorem update_costs {r : U128} {b : List U8} {a : U128} : Costs 436 Free (update r b a) := by
  unfold update
  refine Costs.step 52 encode_costs (by omega) fun e _ => ?_
  exact fmul_costs.le (by omega)

theorem poly_costs {m : List U8} {r : U128} : Costs (487 + 538 * (m.length / 16)) Free (poly m r) := by
  unfold poly
  refine Costs.step (538 * (m.length / 16)) (Costs.loop (k := 537) (I := Free) trivial fun i _ t _ => ?_) (by omega) fun t _ => ?_
  · unfold polyStep
    refine Costs.step 51 subr_costs (by omega) fun s hs => ?_
    rw [HasLen] at hs
    refine Costs.step 50 updateStart_costs (by omega) fun b _ => ?_
    exact update_costs.le (by omega)
  · unfold polyLast
    refine (Costs.cases (k := 486) (fun _ => ?_) fun _ => (Costs.ok trivial).le (Nat.zero_le _)).le (by omega)
    refine Costs.step 50 updateSub_costs (by omega) fun b _ => ?_
    exact update_costs.le (by omega)

theorem gmac_costs {m k : List U8} : Costs (787 + 538 * (m.length / 16)) (HasLen 16) (gmac m k) := by
  unfold gmac
  refine Costs.step 49 arrFromSeq_costs (by omega) fun b _ => ?_
  refine Costs.step 52 encode_costs (by omega) fun r _ => ?_
  refine Costs.step (487 + 538 * (m.length / 16)) poly_costs (by omega) fun a _ => ?_
  refine Costs.step 52 encode_costs (by omega) fun e _ => ?_
  refine Costs.step 98 decode_costs (by omega) fun d _ => ?_
  exact arrFromSeq_costs.le (by omega)

end Gf128

namespace AesGcm

open Hacspec.Aes (nk nr)

theorem padLen_costs {l : Nat} : Costs 1 (fun r => r ≤ l + 15) (padLen l) := by
  unfold padLen
  refine (Costs.cases (k := 0) (fun _ => Costs.ok ?_) fun _ => Costs.ok ?_).le (by omega)
  · omega
  · omega

theorem padAadMsg_costs {a m : List U8} :
    Costs (110 + 3 * a.length + 3 * m.length) (fun r => r.length ≤ a.length + m.length + 46) (padAadMsg a m) := by
  unfold padAadMsg
  refine Costs.step 1 padLen_costs (by omega) fun x hx => ?_
  refine Costs.step 1 padLen_costs (by omega) fun y hy => ?_
  refine Costs.step (2 + 3 * a.length) update_costs (by omega) fun p hp => ?_
  rw [HasLen, Hacspec.Seq.new, List.length_replicate] at hp
  refine Costs.step (2 + 3 * m.length) update_costs (by omega) fun q hq => ?_
  refine Costs.step 25 wordToBeBytes_costs (by omega) fun b hb => ?_
  rw [HasLen] at hb
  refine Costs.step 26 update_costs (by omega) fun s hs => ?_
  refine Costs.step 25 wordToBeBytes_costs (by omega) fun c hc => ?_
  rw [HasLen] at hc
  refine update_costs.mono (by omega) fun t ht => ?_
  rw [Eq.trans ht (Eq.trans hs (Eq.trans hq hp))]
  omega

/-- The bound of `encrypt` and `decrypt`. -/
theorem encrypt_costs {key iv aad m : List U8} {alg : Hacspec.Aes.Variant} :
    Costs (20441 + 6 * key.length + 3 * iv.length + (9077 + 3 * key.length + 3 * iv.length) * ((m.length + 15) / 16) +
      37 * aad.length + 37 * m.length) Free (encrypt key iv aad m alg) := by
  unfold encrypt
  have hi : (Hacspec.Seq.new 12 : List U8).length = 12 := rfl
  refine Costs.step (8842 + 3 * key.length) (Aes.ctrKeyblock_costs) (by omega) fun a _ => ?_
  refine Costs.step (8806 + 3 * key.length + 3 * iv.length) (Aes.ctrKeyblock_costs) (by omega) fun b _ => ?_
  refine Costs.step (3 + (9077 + 3 * key.length + 3 * iv.length) * ((m.length + 15) / 16)) Aes.encrypt_costs (by omega) fun c hc => ?_
  rw [HasLen] at hc
  refine Costs.step (110 + 3 * aad.length + 3 * m.length) padAadMsg_costs (by omega) fun p hp => ?_
  refine Costs.step 49 arrFromSeq_costs (by omega) fun k _ => ?_
  refine Costs.step (787 + 538 * ((aad.length + m.length + 46) / 16)) Gf128.gmac_costs (by omega) fun t _ => ?_
  refine Costs.step 49 arrFromSeq_costs (by omega) fun t' _ => ?_
  refine Costs.step 64 Aes.xorBlock_costs (by omega) fun x _ => ?_
  refine Costs.step 49 arrFromSeq_costs (by omega) fun y _ => ?_
  exact Costs.done trivial

theorem decrypt_costs {key iv aad m tag : List U8} {alg : Hacspec.Aes.Variant} :
    Costs (20441 + 6 * key.length + 3 * iv.length + (9077 + 3 * key.length + 3 * iv.length) * ((m.length + 15) / 16) +
      37 * aad.length + 37 * m.length) Free (decrypt key iv aad m tag alg) := by
  unfold decrypt
  have hi : (Hacspec.Seq.new 12 : List U8).length = 12 := rfl
  refine Costs.step (8842 + 3 * key.length) (Aes.ctrKeyblock_costs) (by omega) fun a _ => ?_
  refine Costs.step (8806 + 3 * key.length + 3 * iv.length) (Aes.ctrKeyblock_costs) (by omega) fun b _ => ?_
  refine Costs.step (110 + 3 * aad.length + 3 * m.length) padAadMsg_costs (by omega) fun p hp => ?_
  refine Costs.step 49 arrFromSeq_costs (by omega) fun k _ => ?_
  refine Costs.step (787 + 538 * ((aad.length + m.length + 46) / 16)) Gf128.gmac_costs (by omega) fun t _ => ?_
  refine Costs.step 49 arrFromSeq_costs (by omega) fun t' _ => ?_
  refine Costs.step 64 Aes.xorBlock_costs (by omega) fun x _ => ?_
  refine Costs.step 49 arrFromSeq_costs (by omega) fun y _ => ?_
  refine (Costs.cases (k := 3 + (9077 + 3 * key.length + 3 * iv.length) * ((m.length + 15) / 16)) (fun _ => ?_)
    fun _ => (Costs.ok trivial).le (Nat.zero_le _)).le (by omega)
  refine Costs.step (3 + (9077 + 3 * key.length + 3 * iv.length) * ((m.length + 15) / 16)) Aes.encrypt_costs (by omega) fun c hc => ?_
  exact Costs.done trivial

theorem encryptKey_costs {key iv aad m : List U8} {alg : Hacspec.Aes.Variant} :
    Costs (20441 + 9 * key.length + 3 * iv.length + (9077 + 3 * key.length + 3 * iv.length) * ((m.length + 15) / 16) +
      37 * aad.length + 37 * m.length) Free (encryptKey key iv aad m alg) := by
  unfold encryptKey
  refine Costs.step (3 * key.length) fromSeq_costs (by omega) fun k hk => ?_
  rw [HasLen] at hk
  rw [← hk]
  exact encrypt_costs.le (by omega)

theorem decryptKey_costs {key iv aad m tag : List U8} {alg : Hacspec.Aes.Variant} :
    Costs (20441 + 9 * key.length + 3 * iv.length + (9077 + 3 * key.length + 3 * iv.length) * ((m.length + 15) / 16) +
      37 * aad.length + 37 * m.length) Free (decryptKey key iv aad m tag alg) := by
  unfold decryptKey
  refine Costs.step (3 * key.length) fromSeq_costs (by omega) fun k hk => ?_
  rw [HasLen] at hk
  rw [← hk]
  exact decrypt_costs.le (by omega)

end AesGcm

/-! ## Poly1305 and ChaCha20-Poly1305 -/

namespace Poly1305

theorem wordFromLeBytes_costs {b : List U8} (hb : b.length = 16) : Costs 3 Free (wordFromLeBytes 128 b) :=
  Costs.ofTrace (d := wordFromLeBytes 128 (List.replicate 16 0)) (wordFromLeBytes_same (by simpa [Len] using hb)) (by decide +kernel)

theorem keyGen_costs {key iv : List U8} (hk : key.length = 32) (hi : iv.length = 12) : Costs 3311 (HasLen 32) (keyGen key iv) := by
  unfold keyGen
  refine Costs.step 3211 (ChaCha.block_costs hk hi) (by omega) fun b _ => ?_
  exact arrFromSubRange_costs.le (by omega)

theorem encodeR_costs {r : List U8} : Costs 53 Free (encodeR r) := by
  unfold encodeR
  refine Costs.step 50 updateSub_costs (by omega) fun b hb => ?_
  rw [HasLen, Hacspec.Seq.new, List.length_replicate] at hb
  refine Costs.step 3 (wordFromLeBytes_costs hb) (by omega) fun u _ => ?_
  exact Costs.lift.mono (by omega) fun _ _ => trivial

theorem encode_costs {m : List U8} : Costs 53 Free (encode m) := by
  unfold encode
  refine Costs.step 50 updateSub_costs (by omega) fun b hb => ?_
  rw [HasLen, Hacspec.Seq.new, List.length_replicate] at hb
  refine Costs.step 3 (wordFromLeBytes_costs hb) (by omega) fun u _ => ?_
  refine Costs.step 0 .lift (by omega) fun u _ => ?_
  refine Costs.step 0 .lift (by omega) fun u _ => ?_
  refine Costs.step 0 .lift (by omega) fun u _ => ?_
  exact Costs.lift.mono (by omega) fun _ _ => trivial

theorem polyInner_costs {m : List U8} {r : AbstractInt.Canvas} : Costs (104 * ((m.length + 15) / 16)) Free (polyInner m r) := by
  unfold polyInner
  refine Costs.step 0 .lift (by omega) fun u _ => ?_
  refine (Costs.loop (k := 103) (I := Free) trivial fun i _ t _ => ?_).le (by omega)
  unfold polyStep
  refine Costs.step 50 updateSub_costs (by omega) fun b _ => ?_
  refine Costs.step 53 encode_costs (by omega) fun e _ => ?_
  refine Costs.step 0 .lift (by omega) fun u _ => ?_
  exact Costs.lift.mono (by omega) fun _ _ => trivial

theorem poly_costs {m key : List U8} : Costs (207 + 104 * ((m.length + 15) / 16)) (HasLen 16) (poly m key) := by
  unfold poly
  refine Costs.step 51 arrFromSub_costs (by omega) fun b hb => ?_
  refine Costs.step 3 (wordFromLeBytes_costs hb) (by omega) fun u _ => ?_
  refine Costs.step 0 .lift (by omega) fun u _ => ?_
  refine Costs.step 52 arrFromSubRange_costs (by omega) fun r _ => ?_
  refine Costs.step 53 encodeR_costs (by omega) fun r _ => ?_
  refine Costs.step (104 * ((m.length + 15) / 16)) polyInner_costs (by omega) fun a _ => ?_
  refine Costs.step 0 .lift (by omega) fun u _ => ?_
  refine (Costs.loop (k := 2) (I := HasLen 16) (by simp [HasLen, Hacspec.Seq.new]) fun i _ t ht => ?_).le (by omega)
  refine Costs.step 1 .idx (by omega) fun x _ => ?_
  exact Costs.setIdx.mono (by omega) fun c hc => Eq.trans hc ht

theorem polyMac_costs {m key iv : List U8} (hk : key.length = 32) (hi : iv.length = 12) :
    Costs (3518 + 104 * ((m.length + 15) / 16)) (HasLen 16) (polyMac m key iv) := by
  unfold polyMac
  refine Costs.step 3311 (keyGen_costs hk hi) (by omega) fun k _ => ?_
  exact poly_costs.le (by omega)

end Poly1305

namespace ChaChaPoly

theorem padLen_costs {l : Nat} : Costs 1 (fun r => r ≤ l + 16) (padLen l) := by
  unfold padLen
  refine (Costs.cases (k := 0) (fun _ => Costs.ok ?_) fun _ => Costs.ok ?_).le (by omega)
  · omega
  · rw [Nat.shiftRight_eq_div_pow]; omega

theorem padAadMsg_costs {a m : List U8} :
    Costs (110 + 3 * a.length + 3 * m.length) (fun r => r.length ≤ a.length + m.length + 48) (padAadMsg a m) := by
  unfold padAadMsg
  refine Costs.step 1 padLen_costs (by omega) fun x hx => ?_
  refine Costs.step 1 padLen_costs (by omega) fun y hy => ?_
  refine Costs.step (2 + 3 * a.length) update_costs (by omega) fun p hp => ?_
  rw [HasLen, Hacspec.Seq.new, List.length_replicate] at hp
  refine Costs.step (2 + 3 * m.length) update_costs (by omega) fun q hq => ?_
  refine Costs.step 25 wordToLeBytes_costs (by omega) fun b hb => ?_
  rw [HasLen] at hb
  refine Costs.step 26 update_costs (by omega) fun s hs => ?_
  refine Costs.step 25 wordToLeBytes_costs (by omega) fun c hc => ?_
  rw [HasLen] at hc
  refine update_costs.mono (by omega) fun t ht => ?_
  rw [Eq.trans ht (Eq.trans hs (Eq.trans hq hp))]
  omega

theorem encrypt_costs {key iv aad m : List U8} (hk : key.length = 32) (hi : iv.length = 12) :
    Costs (4050 + 4250 * ((m.length + 63) / 64) + 10 * aad.length + 10 * m.length) Free
    (encrypt key iv aad m) := by
  unfold encrypt
  refine Costs.step 3211 (ChaCha.block_costs hk hi) (by omega) fun b _ => ?_
  refine Costs.step 100 arrFromSubRange_costs (by omega) fun k _ => ?_
  refine Costs.step (3 + 4250 * ((m.length + 63) / 64)) (ChaCha.chacha_costs hk hi) (by omega) fun c hc => ?_
  rw [HasLen] at hc
  refine Costs.step (110 + 3 * aad.length + 3 * m.length) padAadMsg_costs (by omega) fun p hp => ?_
  refine Costs.step (207 + 104 * ((aad.length + m.length + 63) / 16)) Poly1305.poly_costs (by omega) fun t _ => ?_
  exact Costs.done trivial

theorem decrypt_costs {key iv aad m tag : List U8} (hk : key.length = 32) (hi : iv.length = 12) :
    Costs (4050 + 4250 * ((m.length + 63) / 64) + 10 * aad.length + 10 * m.length) Free (decrypt key iv aad m tag) := by
  unfold decrypt
  refine Costs.step 3211 (ChaCha.block_costs hk hi) (by omega) fun b _ => ?_
  refine Costs.step 100 arrFromSubRange_costs (by omega) fun k _ => ?_
  refine Costs.step (110 + 3 * aad.length + 3 * m.length) padAadMsg_costs (by omega) fun p hp => ?_
  refine Costs.step (207 + 104 * ((aad.length + m.length + 63) / 16)) Poly1305.poly_costs (by omega) fun t _ => ?_
  refine (Costs.cases (k := 3 + 4250 * ((m.length + 63) / 64)) (fun _ => ?_)
    fun _ => (Costs.ok trivial).le (Nat.zero_le _)).le (by omega)
  refine Costs.step (3 + 4250 * ((m.length + 63) / 64)) (ChaCha.chacha_costs hk hi) (by omega) fun c hc => ?_
  exact Costs.done trivial

end ChaChaPoly

/-! ## The scalar multiplications -/

namespace Curve25519

theorem scalarmult_costs {s p : List U8} : Costs 618 (HasLen 32) (scalarmult s p) := by
  unfold scalarmult
  refine Costs.step 6 (P := Free) ?_ ⟨Nat.le_refl _, by omega⟩ fun k _ => ?_
  · unfold decodeScalar maskScalar
    refine Costs.step 6 (P := Free) ?_ ⟨Nat.le_refl _, by omega⟩ fun k _ => Costs.lift.mono (by omega) fun _ _ => trivial
    refine Costs.step 1 .idx (by omega) fun x _ => ?_
    refine Costs.step 1 .setIdx (by omega) fun x _ => ?_
    refine Costs.step 1 .idx (by omega) fun x _ => ?_
    refine Costs.step 1 .setIdx (by omega) fun x _ => ?_
    refine Costs.step 1 .idx (by omega) fun x _ => ?_
    exact Costs.setIdx.mono (by omega) fun _ _ => trivial
  refine Costs.step 2 (P := Free) ?_ ⟨Nat.le_refl _, by omega⟩ fun p _ => ?_
  · unfold decodePoint
    refine Costs.step 1 .idx (by omega) fun x _ => ?_
    refine Costs.step 1 .setIdx (by omega) fun x _ => ?_
    refine Costs.step 0 .lift (by omega) fun x _ => ?_
    refine Costs.step 0 .lift (by omega) fun x _ => ?_
    exact Costs.done trivial
  refine Costs.step 512 (P := Free) ?_ ⟨Nat.le_refl _, by omega⟩ fun r _ => ?_
  · unfold montgomeryLadder
    refine Costs.step 0 .lift (by omega) fun x _ => ?_
    refine Costs.step 0 .lift (by omega) fun x _ => ?_
    refine Costs.step 512 (Costs.loop (k := 1) (I := Free) trivial fun i _ t _ => ?_) (by omega) fun t _ => Costs.done trivial
    unfold ladderStep
    refine Costs.step 0 .lift (by omega) fun x _ => ?_
    refine (Costs.cases (k := 0) (fun _ => ?_) fun _ => Costs.lift.mono (by omega) fun _ _ => trivial).le (by omega)
    refine Costs.step 0 .lift (by omega) fun x _ => ?_
    exact Costs.done trivial
  · unfold encodePoint
    refine Costs.step 0 .lift (by omega) fun x _ => ?_
    refine Costs.step 0 .lift (by omega) fun x _ => ?_
    exact updateStart_costs'.mono (by simp [Hacspec.Seq.new]) fun a ha => by simpa [HasLen, Hacspec.Seq.new] using ha

end Curve25519

namespace P256

theorem pointAdd_costs {p q : Hacspec.P256.Jacobian} : Costs 4 Free (pointAdd p q) := by
  have hi : ∀ p, Costs 0 Free (isPointAtInfinity p) := fun p => by
    unfold isPointAtInfinity
    exact Costs.step 0 .lift (by omega) fun _ _ => Costs.done trivial
  unfold pointAdd
  refine Costs.step 0 (hi p) (by omega) fun x _ => ?_
  refine (Costs.cases (k := 3) (fun _ => (Costs.ok trivial).le (Nat.zero_le _)) fun _ => ?_).le (by omega)
  refine Costs.step 0 (hi q) (by omega) fun x _ => ?_
  refine (Costs.cases (k := 2) (fun _ => (Costs.ok trivial).le (Nat.zero_le _)) fun _ => ?_).le (by omega)
  unfold addFinite
  refine Costs.step 0 .lift (by omega) fun x _ => ?_
  refine Costs.step 0 .lift (by omega) fun x _ => ?_
  refine Costs.step 0 .lift (by omega) fun x _ => ?_
  refine Costs.step 0 .lift (by omega) fun x _ => ?_
  refine Costs.step 0 .lift (by omega) fun x _ => ?_
  refine Costs.step 0 .lift (by omega) fun x _ => ?_
  refine Costs.step 0 .lift (by omega) fun x _ => ?_
  refine Costs.step 0 .lift (by omega) fun x _ => ?_
  refine (Costs.cases (k := 1) (fun _ => ?_) fun _ => Costs.lift.mono (by omega) fun _ _ => trivial).le (by omega)
  unfold addSameX
  refine Costs.step 1 .require (by omega) fun x _ => ?_
  refine Costs.step 0 .lift (by omega) fun x _ => ?_
  refine Costs.step 0 .lift (by omega) fun x _ => ?_
  refine Costs.step 0 .lift (by omega) fun x _ => ?_
  exact Costs.done trivial

theorem pointMul_costs {k : AbstractInt.Canvas} : Costs 1792 Free (pointMul k) := by
  unfold pointMul
  refine Costs.step 0 .lift (by omega) fun x _ => ?_
  refine Costs.step 0 .lift (by omega) fun x _ => ?_
  refine Costs.step 0 .lift (by omega) fun x _ => ?_
  refine Costs.step 1792 (P := Free) ?_ ⟨Nat.le_refl _, by omega⟩ fun r _ => Costs.lift.mono (by omega) fun _ _ => trivial
  unfold montgomeryLadder
  refine Costs.step 0 .lift (by omega) fun x _ => ?_
  refine Costs.step 0 .lift (by omega) fun x _ => ?_
  refine Costs.step 0 .lift (by omega) fun x _ => ?_
  refine Costs.step 1792 (Costs.loop (k := 6) (I := Free) trivial fun i _ t _ => ?_) (by omega) fun t _ => Costs.done trivial
  unfold ladderStep
  refine Costs.step 0 .lift (by omega) fun x _ => ?_
  refine Costs.step 1 (Costs.cases (fun _ => Costs.ok (P := Free) trivial) fun _ => Costs.ok trivial) (by omega) fun w _ => ?_
  refine Costs.step 0 .lift (by omega) fun x _ => ?_
  refine Costs.step 4 pointAdd_costs (by omega) fun x _ => ?_
  refine Costs.step 0 .lift (by omega) fun x _ => ?_
  exact (Costs.cases (k := 0) (fun _ => Costs.ok trivial) fun _ => Costs.ok trivial).le (by omega)

end P256

end Hacspec.Leak
