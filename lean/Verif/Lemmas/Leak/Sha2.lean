import Verif.Lemmas.Leak.Seq
import Verif.Model.Leak.Sha2

/-! # SHA-256, HMAC and HKDF: the events depend on lengths only -/

namespace Hacspec.Leak.Sha2

open Leak.Seq

theorem shrU_same {w : Nat} {x y : BitVec w} {n : Nat} :
    Same Any (lift (SecretInt.shrU x n)) (lift (SecretInt.shrU y n)) := by
  refine Same.lift ?_
  unfold SecretInt.shrU
  by_cases h : n < w <;> simp [h, ResRel, Any, Hacspec.panic]

theorem sigmaTmp_same {x x' : U32} {t : U8} {op : Nat} :
    Same Any (sigmaTmp x t op) (sigmaTmp x' t op) := by
  unfold sigmaTmp
  exact Same.branch Iff.rfl (fun _ => shrU_same) fun _ => Same.ok True.intro

@[simp] theorem res_sigmaTmp (x : U32) (t : U8) (op : Nat) :
    (sigmaTmp x t op).res = Hacspec.Sha2.sigmaTmp x t op := by
  simp [sigmaTmp, Hacspec.Sha2.sigmaTmp]

macro_rules | `(tactic| ct_leaf) => `(tactic| with_reducible refine sigmaTmp_same)

theorem sigma_same {x x' : U32} {i : Nat} {op : Nat} :
    Same Any (sigma x i op) (sigma x' i op) := by
  unfold sigma
  refine Same.bind (R := Eq) Same.refl ?_
  rintro t _ rfl
  refine Same.bind (R := Eq) Same.refl ?_
  rintro u _ rfl
  refine Same.bind (R := Any) sigmaTmp_same ?_
  ct

@[simp] theorem res_sigma (x : U32) (i : Nat) (op : Nat) :
    (sigma x i op).res = Hacspec.Sha2.sigma x i op := by
  simp [sigma, Hacspec.Sha2.sigma]

macro_rules | `(tactic| ct_leaf) => `(tactic| with_reducible refine sigma_same)

theorem scheduleStep_same {b b' : List U32} {i : Nat} {s s' : List U32} (hb : Len b b') (hs : Len s s') :
    Same Len (scheduleStep b i s) (scheduleStep b' i s') := by
  unfold scheduleStep
  ct

@[simp] theorem res_scheduleStep (b : List U32) (i : Nat) (s : List U32) :
    (scheduleStep b i s).res = Hacspec.Sha2.scheduleStep b i s := by
  simp [scheduleStep, Hacspec.Sha2.scheduleStep]

macro_rules | `(tactic| ct_leaf) => `(tactic| with_reducible refine scheduleStep_same ?_ ?_)

theorem schedule_same {b b' : List U8} (hb : Len b b') :
    Same Len (schedule b) (schedule b') := by
  unfold schedule
  ct

@[simp] theorem res_schedule (b : List U8) :
    (schedule b).res = Hacspec.Sha2.schedule b := by
  simp [schedule, Hacspec.Sha2.schedule]

macro_rules | `(tactic| ct_leaf) => `(tactic| with_reducible refine schedule_same ?_)

theorem shuffleStep_same {k k' : List U32} {ws ws' : List U32} {i : Nat} {h h' : List U32} (hk : Len k k') (hws : Len ws ws') (hh : Len h h') :
    Same Len (shuffleStep k ws i h) (shuffleStep k' ws' i h') := by
  unfold shuffleStep
  ct

@[simp] theorem res_shuffleStep (k : List U32) (ws : List U32) (i : Nat) (h : List U32) :
    (shuffleStep k ws i h).res = Hacspec.Sha2.shuffleStep k ws i h := by
  simp [shuffleStep, Hacspec.Sha2.shuffleStep]

macro_rules | `(tactic| ct_leaf) => `(tactic| with_reducible refine shuffleStep_same ?_ ?_ ?_)

theorem shuffle_same {ws ws' : List U32} {h h' : List U32} (hws : Len ws ws') (hh : Len h h') :
    Same Len (shuffle ws h) (shuffle ws' h') := by
  unfold shuffle
  ct

@[simp] theorem res_shuffle (ws : List U32) (h : List U32) :
    (shuffle ws h).res = Hacspec.Sha2.shuffle ws h := by
  simp [shuffle, Hacspec.Sha2.shuffle]

macro_rules | `(tactic| ct_leaf) => `(tactic| with_reducible refine shuffle_same ?_ ?_)

theorem compress_same {b b' : List U8} {h h' : List U32} (hb : Len b b') (hh : Len h h') :
    Same Len (compress b h) (compress b' h') := by
  unfold compress
  ct

@[simp] theorem res_compress (b : List U8) (h : List U32) :
    (compress b h).res = Hacspec.Sha2.compress b h := by
  simp [compress, Hacspec.Sha2.compress]

macro_rules | `(tactic| ct_leaf) => `(tactic| with_reducible refine compress_same ?_ ?_)

theorem lastBlock_same {m : Nat} {n : Nat} {b b' : List U8} {h h' : List U32} (hb : Len b b') (hh : Len h h') :
    Same Len (lastBlock m n b h) (lastBlock m n b' h') := by
  unfold lastBlock
  ct

@[simp] theorem res_lastBlock (m : Nat) (n : Nat) (b : List U8) (h : List U32) :
    (lastBlock m n b h).res = Hacspec.Sha2.lastBlock m n b h := by
  simp [lastBlock, Hacspec.Sha2.lastBlock]

macro_rules | `(tactic| ct_leaf) => `(tactic| with_reducible refine lastBlock_same ?_ ?_)

theorem hashStep_same {m m' : List U8} {i : Nat} {h h' : List U32} (hm : Len m m') (hh : Len h h') :
    Same Len (hashStep m i h) (hashStep m' i h') := by
  unfold hashStep
  refine Same.bind (R := Both Eq Len) (getChunk_same hm rfl rfl) ?_
  rintro ⟨a, x⟩ ⟨b, y⟩ ⟨h1, h2⟩
  have hl : m.length = m'.length := hm
  simp only at h1 h2 ⊢
  subst h1
  rw [hl]
  ct

@[simp] theorem res_hashStep (m : List U8) (i : Nat) (h : List U32) :
    (hashStep m i h).res = Hacspec.Sha2.hashStep m i h := by
  simp [hashStep, Hacspec.Sha2.hashStep]

macro_rules | `(tactic| ct_leaf) => `(tactic| with_reducible refine hashStep_same ?_ ?_)

theorem hash_same {m m' : List U8} (hm : Len m m') :
    Same Len (hash m) (hash m') := by
  unfold hash
  ct

@[simp] theorem res_hash (m : List U8) :
    (hash m).res = Hacspec.Sha2.hash m := by
  simp [hash, Hacspec.Sha2.hash]

macro_rules | `(tactic| ct_leaf) => `(tactic| with_reducible refine hash_same ?_)

end Hacspec.Leak.Sha2

namespace Hacspec.Leak.Hmac

open Leak.Seq Leak.VecInt Leak.Sha2

theorem keyBlock_same {k k' : List U8} (hk : Len k k') :
    Same Len (keyBlock k) (keyBlock k') := by
  unfold keyBlock
  ct

@[simp] theorem res_keyBlock (k : List U8) :
    (keyBlock k).res = Hacspec.Hmac.keyBlock k := by
  simp [keyBlock, Hacspec.Hmac.keyBlock]

macro_rules | `(tactic| ct_leaf) => `(tactic| with_reducible refine keyBlock_same ?_)

theorem blockThen_same {b b' : List U8} {t t' : List U8} (hb : Len b b') (ht : Len t t') :
    Same Len (blockThen b t) (blockThen b' t') := by
  unfold blockThen
  ct

@[simp] theorem res_blockThen (b : List U8) (t : List U8) :
    (blockThen b t).res = Hacspec.Hmac.blockThen b t := by
  simp [blockThen, Hacspec.Hmac.blockThen]

macro_rules | `(tactic| ct_leaf) => `(tactic| with_reducible refine blockThen_same ?_ ?_)

theorem hmac_same {k k' : List U8} {t t' : List U8} (hk : Len k k') (ht : Len t t') :
    Same Len (hmac k t) (hmac k' t') := by
  unfold hmac
  ct

@[simp] theorem res_hmac (k : List U8) (t : List U8) :
    (hmac k t).res = Hacspec.Hmac.hmac k t := by
  simp [hmac, Hacspec.Hmac.hmac]

macro_rules | `(tactic| ct_leaf) => `(tactic| with_reducible refine hmac_same ?_ ?_)

end Hacspec.Leak.Hmac

namespace Hacspec.Leak.Hkdf

open Leak.Seq Leak.Hmac

theorem saltOrZero_same {s s' : List U8} (hs : Len s s') :
    Same Len (saltOrZero s) (saltOrZero s') := by
  unfold saltOrZero
  ct

@[simp] theorem res_saltOrZero (s : List U8) :
    (saltOrZero s).res = Hacspec.Hkdf.saltOrZero s := by
  simp [saltOrZero, Hacspec.Hkdf.saltOrZero]

macro_rules | `(tactic| ct_leaf) => `(tactic| with_reducible refine saltOrZero_same ?_)

theorem extract_same {s s' : List U8} {k k' : List U8} (hs : Len s s') (hk : Len k k') :
    Same Len (extract s k) (extract s' k') := by
  unfold extract
  ct

@[simp] theorem res_extract (s : List U8) (k : List U8) :
    (extract s k).res = Hacspec.Hkdf.extract s k := by
  simp [extract, Hacspec.Hkdf.extract]

macro_rules | `(tactic| ct_leaf) => `(tactic| with_reducible refine extract_same ?_ ?_)

theorem buildHmacTxt_same {t t' : List U8} {info info' : List U8} {i i' : U8} (ht : Len t t') (hinfo : Len info info') :
    Same Len (buildHmacTxt t info i) (buildHmacTxt t' info' i') := by
  unfold buildHmacTxt
  ct

@[simp] theorem res_buildHmacTxt (t : List U8) (info : List U8) (i : U8) :
    (buildHmacTxt t info i).res = Hacspec.Hkdf.buildHmacTxt t info i := by
  simp [buildHmacTxt, Hacspec.Hkdf.buildHmacTxt]

macro_rules | `(tactic| ct_leaf) => `(tactic| with_reducible refine buildHmacTxt_same ?_ ?_)

theorem hmacTxtIn_same {info info' : List U8} {t t' : List U8} {i : Nat} (hinfo : Len info info') (ht : Len t t') :
    Same Len (hmacTxtIn info t i) (hmacTxtIn info' t' i) := by
  unfold hmacTxtIn
  ct

@[simp] theorem res_hmacTxtIn (info : List U8) (t : List U8) (i : Nat) :
    (hmacTxtIn info t i).res = Hacspec.Hkdf.hmacTxtIn info t i := by
  simp [hmacTxtIn, Hacspec.Hkdf.hmacTxtIn]

macro_rules | `(tactic| ct_leaf) => `(tactic| with_reducible refine hmacTxtIn_same ?_ ?_)

theorem expandStep_same {prk prk' : List U8} {info info' : List U8} {i : Nat} {s s' : List U8 × List U8} (hprk : Len prk prk') (hinfo : Len info info') (hs : Both Len Len s s') :
    Same (Both Len Len) (expandStep prk info i s) (expandStep prk' info' i s') := by
  obtain ⟨s1, s2⟩ := s
  obtain ⟨t1, t2⟩ := s'
  obtain ⟨h1, h2⟩ := hs
  simp only at h1 h2
  unfold expandStep
  refine Same.bind (R := Len) (hmacTxtIn_same hinfo h1) ?_
  intro a b hab
  refine Same.bind (R := Len) (hmac_same hprk hab) ?_
  intro c d hcd
  have hl : c.length = d.length := hcd
  refine Same.bind (R := Len) (update_same h2 hcd (by rw [hl])) ?_
  intro e f hef
  exact Same.ok ⟨hcd, hef⟩

@[simp] theorem res_expandStep (prk : List U8) (info : List U8) (i : Nat) (s : List U8 × List U8) :
    (expandStep prk info i s).res = Hacspec.Hkdf.expandStep prk info i s := by
  simp [expandStep, Hacspec.Hkdf.expandStep]

macro_rules | `(tactic| ct_leaf) => `(tactic| with_reducible refine expandStep_same ?_ ?_ ?_)

theorem expand_same {prk prk' : List U8} {info info' : List U8} {l : Nat} (hprk : Len prk prk') (hinfo : Len info info') :
    Same Len (expand prk info l) (expand prk' info' l) := by
  unfold expand
  refine Same.bind (R := fun _ _ => True) (Same.require Iff.rfl) ?_
  intro _ _ _
  refine Same.bind (R := Both Len Len) (Same.loop rfl ⟨rfl, rfl⟩ ?_) ?_
  · intro i _ t t' h
    exact expandStep_same hprk hinfo h
  · rintro ⟨a, b⟩ ⟨c, d⟩ ⟨_, h⟩
    exact sub_same h rfl rfl

@[simp] theorem res_expand (prk : List U8) (info : List U8) (l : Nat) :
    (expand prk info l).res = Hacspec.Hkdf.expand prk info l := by
  simp [expand, Hacspec.Hkdf.expand]

macro_rules | `(tactic| ct_leaf) => `(tactic| with_reducible refine expand_same ?_ ?_)

end Hacspec.Leak.Hkdf
