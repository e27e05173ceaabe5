import Verif.Lemmas.Leak.Blake2
import Verif.Model.Leak.Fips202

/-! # SHA-3 and SHAKE: the events depend on the lengths only -/

namespace Hacspec.Leak.Fips202

open Leak.Seq
open Leak.Blake2 (shrU_rel shl_rel)

/-- Sponges with buffers and states of equal lengths and the same number of bytes in the last block. -/
def SpongeRel (a b : Fips202.Sponge) : Prop := Len a.buf b.buf ∧ a.lastBlockLen = b.lastBlockLen ∧ Len a.s b.s

theorem thetaRow_same {s s' : List U64} {i : Nat} {b b' : List U64} (hs : Len s s') (hb : Len b b') :
    Same Len (thetaRow s i b) (thetaRow s' i b') := by
  unfold thetaRow
  ct

@[simp] theorem res_thetaRow (s : List U64) (i : Nat) (b : List U64) :
    (thetaRow s i b).res = Hacspec.Fips202.thetaRow s i b := by
  simp [thetaRow, Hacspec.Fips202.thetaRow]

macro_rules | `(tactic| ct_leaf) => `(tactic| with_reducible refine thetaRow_same ?_ ?_)

theorem xorAt_same {s s' : List U64} {k : Nat} {t t' : U64} (hs : Len s s') :
    Same Len (xorAt s k t) (xorAt s' k t') := by
  unfold xorAt
  ct

@[simp] theorem res_xorAt (s : List U64) (k : Nat) (t : U64) :
    (xorAt s k t).res = Hacspec.Fips202.xorAt s k t := by
  simp [xorAt, Hacspec.Fips202.xorAt]

macro_rules | `(tactic| ct_leaf) => `(tactic| with_reducible refine xorAt_same ?_)

theorem thetaColumn_same {b b' : List U64} {i : Nat} {s s' : List U64} (hb : Len b b') (hs : Len s s') :
    Same Len (thetaColumn b i s) (thetaColumn b' i s') := by
  unfold thetaColumn
  ct

@[simp] theorem res_thetaColumn (b : List U64) (i : Nat) (s : List U64) :
    (thetaColumn b i s).res = Hacspec.Fips202.thetaColumn b i s := by
  simp [thetaColumn, Hacspec.Fips202.thetaColumn]

macro_rules | `(tactic| ct_leaf) => `(tactic| with_reducible refine thetaColumn_same ?_ ?_)

theorem theta_same {s s' : List U64} (hs : Len s s') :
    Same Len (theta s) (theta s') := by
  unfold theta
  ct

@[simp] theorem res_theta (s : List U64) :
    (theta s).res = Hacspec.Fips202.theta s := by
  simp [theta, Hacspec.Fips202.theta]

macro_rules | `(tactic| ct_leaf) => `(tactic| with_reducible refine theta_same ?_)

theorem rho_same {s s' : List U64} (hs : Len s s') :
    Same Len (rho s) (rho s') := by
  unfold rho
  refine Same.loop rfl hs fun i _ t t' ht => ?_
  refine Same.bind (R := Any) (Same.idx ht rfl) ?_
  intro _ _ _
  refine Same.bind (R := Eq) Same.refl ?_
  rintro r _ rfl
  exact Same.setIdx ht rfl

@[simp] theorem res_rho (s : List U64) :
    (rho s).res = Hacspec.Fips202.rho s := by
  simp [rho, Hacspec.Fips202.rho]

macro_rules | `(tactic| ct_leaf) => `(tactic| with_reducible refine rho_same ?_)

theorem pi_same {s s' : List U64} (hs : Len s s') :
    Same Len (pi s) (pi s') := by
  unfold pi
  refine Same.loop rfl rfl fun i _ t t' ht => ?_
  refine Same.bind (R := Eq) Same.refl ?_
  rintro r _ rfl
  refine Same.bind (R := Any) (Same.idx hs rfl) ?_
  intro _ _ _
  exact Same.setIdx ht rfl

@[simp] theorem res_pi (s : List U64) :
    (pi s).res = Hacspec.Fips202.pi s := by
  simp [pi, Hacspec.Fips202.pi]

macro_rules | `(tactic| ct_leaf) => `(tactic| with_reducible refine pi_same ?_)

theorem chiCopy_same {s s' : List U64} {i : Nat} {b b' : List U64} (hs : Len s s') (hb : Len b b') :
    Same Len (chiCopy s i b) (chiCopy s' i b') := by
  unfold chiCopy
  ct

@[simp] theorem res_chiCopy (s : List U64) (i : Nat) (b : List U64) :
    (chiCopy s i b).res = Hacspec.Fips202.chiCopy s i b := by
  simp [chiCopy, Hacspec.Fips202.chiCopy]

macro_rules | `(tactic| ct_leaf) => `(tactic| with_reducible refine chiCopy_same ?_ ?_)

theorem chiRow_same {b b' : List U64} {i : Nat} {s s' : List U64} (hb : Len b b') (hs : Len s s') :
    Same Len (chiRow b i s) (chiRow b' i s') := by
  unfold chiRow
  ct

@[simp] theorem res_chiRow (b : List U64) (i : Nat) (s : List U64) :
    (chiRow b i s).res = Hacspec.Fips202.chiRow b i s := by
  simp [chiRow, Hacspec.Fips202.chiRow]

macro_rules | `(tactic| ct_leaf) => `(tactic| with_reducible refine chiRow_same ?_ ?_)

theorem chi_same {s s' : List U64} (hs : Len s s') :
    Same Len (chi s) (chi s') := by
  unfold chi
  refine Same.bind (R := Both Len Len) (Same.loop rfl ⟨hs, rfl⟩ ?_) ?_
  · rintro i _ ⟨a, b⟩ ⟨c, d⟩ ⟨h1, h2⟩
    simp only at h1 h2
    refine Same.bind (R := Len) (chiCopy_same h1 h2) ?_
    intro e f h
    refine Same.bind (R := Len) (chiRow_same h h1) ?_
    intro g k h'
    exact Same.ok ⟨h', h⟩
  · rintro ⟨a, b⟩ ⟨c, d⟩ ⟨h, _⟩
    exact Same.ok h

@[simp] theorem res_chi (s : List U64) :
    (chi s).res = Hacspec.Fips202.chi s := by
  simp [chi, Hacspec.Fips202.chi]

macro_rules | `(tactic| ct_leaf) => `(tactic| with_reducible refine chi_same ?_)

theorem iota_same {s s' : List U64} {c c' : U64} (hs : Len s s') :
    Same Len (iota s c) (iota s' c') := by
  unfold iota
  ct

@[simp] theorem res_iota (s : List U64) (c : U64) :
    (iota s c).res = Hacspec.Fips202.iota s c := by
  simp [iota, Hacspec.Fips202.iota]

macro_rules | `(tactic| ct_leaf) => `(tactic| with_reducible refine iota_same ?_)

theorem roundStep_same {i : Nat} {s s' : List U64} (hs : Len s s') :
    Same Len (roundStep i s) (roundStep i s') := by
  unfold roundStep
  ct

@[simp] theorem res_roundStep (i : Nat) (s : List U64) :
    (roundStep i s).res = Hacspec.Fips202.roundStep i s := by
  simp [roundStep, Hacspec.Fips202.roundStep]

macro_rules | `(tactic| ct_leaf) => `(tactic| with_reducible refine roundStep_same ?_)

theorem keccakf1600_same {s s' : List U64} (hs : Len s s') :
    Same Len (keccakf1600 s) (keccakf1600 s') := by
  unfold keccakf1600
  ct

@[simp] theorem res_keccakf1600 (s : List U64) :
    (keccakf1600 s).res = Hacspec.Fips202.keccakf1600 s := by
  simp [keccakf1600, Hacspec.Fips202.keccakf1600]

macro_rules | `(tactic| ct_leaf) => `(tactic| with_reducible refine keccakf1600_same ?_)

theorem absorbByte_same {b b' : List U8} {i : Nat} {s s' : List U64} (hb : Len b b') (hs : Len s s') :
    Same Len (absorbByte b i s) (absorbByte b' i s') := by
  unfold absorbByte
  refine Same.bind (R := Any) (Same.idx hb rfl) ?_
  intro _ _ _
  refine Same.bind (R := Any) (Same.lift shl_rel) ?_
  intro _ _ _
  exact xorAt_same hs

@[simp] theorem res_absorbByte (b : List U8) (i : Nat) (s : List U64) :
    (absorbByte b i s).res = Hacspec.Fips202.absorbByte b i s := by
  simp [absorbByte, Hacspec.Fips202.absorbByte]

macro_rules | `(tactic| ct_leaf) => `(tactic| with_reducible refine absorbByte_same ?_ ?_)

theorem absorbBlock_same {s s' : List U64} {b b' : List U8} (hs : Len s s') (hb : Len b b') :
    Same Len (absorbBlock s b) (absorbBlock s' b') := by
  unfold absorbBlock
  ct

@[simp] theorem res_absorbBlock (s : List U64) (b : List U8) :
    (absorbBlock s b).res = Hacspec.Fips202.absorbBlock s b := by
  simp [absorbBlock, Hacspec.Fips202.absorbBlock]

macro_rules | `(tactic| ct_leaf) => `(tactic| with_reducible refine absorbBlock_same ?_ ?_)

theorem squeezeNext_same {i : Nat} {r : Nat} {s s' : List U64} (hs : Len s s') :
    Same Len (squeezeNext i r s) (squeezeNext i r s') := by
  unfold squeezeNext
  ct

@[simp] theorem res_squeezeNext (i : Nat) (r : Nat) (s : List U64) :
    (squeezeNext i r s).res = Hacspec.Fips202.squeezeNext i r s := by
  simp [squeezeNext, Hacspec.Fips202.squeezeNext]

macro_rules | `(tactic| ct_leaf) => `(tactic| with_reducible refine squeezeNext_same ?_)

theorem squeezeStep_same {r : Nat} {i : Nat} {st st' : List U64 × List U8} (hst : Both Len Len st st') :
    Same (Both Len Len) (squeezeStep r i st) (squeezeStep r i st') := by
  obtain ⟨s1, s2⟩ := st
  obtain ⟨t1, t2⟩ := st'
  obtain ⟨h1, h2⟩ := hst
  simp only at h1 h2
  unfold squeezeStep
  refine Same.bind (R := Any) (Same.idx h1 rfl) ?_
  intro _ _ _
  refine Same.bind (R := Any) (Same.lift shrU_rel) ?_
  intro _ _ _
  refine Same.bind (R := Len) (Same.setIdx h2 rfl) ?_
  intro a b hab
  refine Same.bind (R := Len) (squeezeNext_same h1) ?_
  intro c d hcd
  exact Same.ok ⟨hcd, hab⟩

@[simp] theorem res_squeezeStep (r : Nat) (i : Nat) (st : List U64 × List U8) :
    (squeezeStep r i st).res = Hacspec.Fips202.squeezeStep r i st := by
  simp [squeezeStep, Hacspec.Fips202.squeezeStep]

macro_rules | `(tactic| ct_leaf) => `(tactic| with_reducible refine squeezeStep_same ?_)

theorem squeeze_same {s s' : List U64} {n : Nat} {r : Nat} (hs : Len s s') :
    Same Len (squeeze s n r) (squeeze s' n r) := by
  unfold squeeze
  refine Same.bind (R := Both Len Len) (Same.loop rfl ⟨hs, rfl⟩ fun i _ t t' h => squeezeStep_same h) ?_
  rintro ⟨a, b⟩ ⟨c, d⟩ ⟨_, h⟩
  exact Same.ok h

@[simp] theorem res_squeeze (s : List U64) (n : Nat) (r : Nat) :
    (squeeze s n r).res = Hacspec.Fips202.squeeze s n r := by
  simp [squeeze, Hacspec.Fips202.squeeze]

macro_rules | `(tactic| ct_leaf) => `(tactic| with_reducible refine squeeze_same ?_)

theorem absorbBranch_same {r : Nat} {n : Nat} {b b' : List U8} {st st' : Fips202.Sponge} (hb : Len b b') (hst : SpongeRel st st') :
    Same SpongeRel (absorbBranch r n b st) (absorbBranch r n b' st') := by
  obtain ⟨h1, h2, h3⟩ := hst
  unfold absorbBranch
  refine Same.branch Iff.rfl (fun _ => ?_) fun _ => ?_
  · refine Same.bind (R := Len) (absorbBlock_same h3 hb) ?_
    intro c d hcd
    exact Same.ok ⟨h1, h2, hcd⟩
  · refine Same.bind (R := Len) (updateStart_same h1 hb) ?_
    intro c d hcd
    exact Same.ok ⟨hcd, rfl, h3⟩

@[simp] theorem res_absorbBranch (r : Nat) (n : Nat) (b : List U8) (st : Fips202.Sponge) :
    (absorbBranch r n b st).res = Hacspec.Fips202.absorbBranch r n b st := by
  simp [absorbBranch, Hacspec.Fips202.absorbBranch]

macro_rules | `(tactic| ct_leaf) => `(tactic| with_reducible refine absorbBranch_same ?_ ?_)

theorem absorbStep_same {r : Nat} {d d' : List U8} {i : Nat} {st st' : Fips202.Sponge} (hd : Len d d') (hst : SpongeRel st st') :
    Same SpongeRel (absorbStep r d i st) (absorbStep r d' i st') := by
  unfold absorbStep
  refine Same.bind (R := Both Eq Len) (getChunk_same hd rfl rfl) ?_
  rintro ⟨a, x⟩ ⟨b, y⟩ ⟨h1, h2⟩
  simp only at h1 h2 ⊢
  subst h1
  exact absorbBranch_same h2 hst

@[simp] theorem res_absorbStep (r : Nat) (d : List U8) (i : Nat) (st : Fips202.Sponge) :
    (absorbStep r d i st).res = Hacspec.Fips202.absorbStep r d i st := by
  simp [absorbStep, Hacspec.Fips202.absorbStep]

macro_rules | `(tactic| ct_leaf) => `(tactic| with_reducible refine absorbStep_same ?_ ?_)

theorem padBuf_same {r : Nat} {p p' : U8} {n : Nat} {b b' : List U8} (hb : Len b b') :
    Same Len (padBuf r p n b) (padBuf r p' n b') := by
  unfold padBuf
  ct

@[simp] theorem res_padBuf (r : Nat) (p : U8) (n : Nat) (b : List U8) :
    (padBuf r p n b).res = Hacspec.Fips202.padBuf r p n b := by
  simp [padBuf, Hacspec.Fips202.padBuf]

macro_rules | `(tactic| ct_leaf) => `(tactic| with_reducible refine padBuf_same ?_)

theorem keccak_same {r : Nat} {d d' : List U8} {p p' : U8} {n : Nat} (hd : Len d d') :
    Same Len (keccak r d p n) (keccak r d' p' n) := by
  unfold keccak
  refine Same.bind (R := Eq) (numChunks_same hd rfl) ?_
  rintro k _ rfl
  refine Same.bind (R := SpongeRel) (Same.loop rfl ⟨rfl, rfl, rfl⟩ fun i _ t t' h => absorbStep_same hd h) ?_
  rintro ⟨b, m, s⟩ ⟨b', m', s'⟩ ⟨h1, h2, h3⟩
  simp only at h1 h2 h3 ⊢
  subst h2
  refine Same.bind (R := Len) (padBuf_same h1) ?_
  intro c d hcd
  refine Same.bind (R := Len) (absorbBlock_same h3 hcd) ?_
  intro e f hef
  exact squeeze_same hef

@[simp] theorem res_keccak (r : Nat) (d : List U8) (p : U8) (n : Nat) :
    (keccak r d p n).res = Hacspec.Fips202.keccak r d p n := by
  simp [keccak, Hacspec.Fips202.keccak]

macro_rules | `(tactic| ct_leaf) => `(tactic| with_reducible refine keccak_same ?_)

theorem sha3224_same {d d' : List U8} (hd : Len d d') :
    Same Len (sha3224 d) (sha3224 d') := by
  unfold sha3224
  ct

@[simp] theorem res_sha3224 (d : List U8) :
    (sha3224 d).res = Hacspec.Fips202.sha3224 d := by
  simp [sha3224, Hacspec.Fips202.sha3224]

macro_rules | `(tactic| ct_leaf) => `(tactic| with_reducible refine sha3224_same ?_)

theorem sha3256_same {d d' : List U8} (hd : Len d d') :
    Same Len (sha3256 d) (sha3256 d') := by
  unfold sha3256
  ct

@[simp] theorem res_sha3256 (d : List U8) :
    (sha3256 d).res = Hacspec.Fips202.sha3256 d := by
  simp [sha3256, Hacspec.Fips202.sha3256]

macro_rules | `(tactic| ct_leaf) => `(tactic| with_reducible refine sha3256_same ?_)

theorem sha3384_same {d d' : List U8} (hd : Len d d') :
    Same Len (sha3384 d) (sha3384 d') := by
  unfold sha3384
  ct

@[simp] theorem res_sha3384 (d : List U8) :
    (sha3384 d).res = Hacspec.Fips202.sha3384 d := by
  simp [sha3384, Hacspec.Fips202.sha3384]

macro_rules | `(tactic| ct_leaf) => `(tactic| with_reducible refine sha3384_same ?_)

theorem sha3512_same {d d' : List U8} (hd : Len d d') :
    Same Len (sha3512 d) (sha3512 d') := by
  unfold sha3512
  ct

@[simp] theorem res_sha3512 (d : List U8) :
    (sha3512 d).res = Hacspec.Fips202.sha3512 d := by
  simp [sha3512, Hacspec.Fips202.sha3512]

macro_rules | `(tactic| ct_leaf) => `(tactic| with_reducible refine sha3512_same ?_)

theorem shake128_same {d d' : List U8} {n : Nat} (hd : Len d d') :
    Same Len (shake128 d n) (shake128 d' n) := by
  unfold shake128
  ct

@[simp] theorem res_shake128 (d : List U8) (n : Nat) :
    (shake128 d n).res = Hacspec.Fips202.shake128 d n := by
  simp [shake128, Hacspec.Fips202.shake128]

macro_rules | `(tactic| ct_leaf) => `(tactic| with_reducible refine shake128_same ?_)

theorem shake256_same {d d' : List U8} {n : Nat} (hd : Len d d') :
    Same Len (shake256 d n) (shake256 d' n) := by
  unfold shake256
  ct

@[simp] theorem res_shake256 (d : List U8) (n : Nat) :
    (shake256 d n).res = Hacspec.Fips202.shake256 d n := by
  simp [shake256, Hacspec.Fips202.shake256]

macro_rules | `(tactic| ct_leaf) => `(tactic| with_reducible refine shake256_same ?_)

end Hacspec.Leak.Fips202
