import Verif.Lemmas.ChaCha
import Verif.Model.Fips202
import Verif.Spec.Fips202
import Mathlib.Data.Fintype.Basic
import Mathlib.Tactic.FinCases

/-! # Keccak-f[1600]: the model refines the bit-level step mappings of FIPS 202 -/

namespace Hacspec.Fips202

open SecretInt Hacspec.Seq
open Hacspec.ChaCha (getD_set ext_getD)
open Spec.Fips202 (StateArray)

/-- The state array held by 25 lanes. -/
def arr (s : List U64) : StateArray := fun x y z => (s.getD (5 * y.val + x.val) 0).getLsbD z.val

theorem arr_inj {s t : List U64} (hs : s.length = 25) (ht : t.length = 25) (h : arr s = arr t) : s = t := by
  refine ext_getD 0 (by rw [hs, ht]) fun j hj => BitVec.eq_of_getLsbD_eq fun i hi => ?_
  have := congrFun (congrFun (congrFun h ⟨j % 5, by omega⟩) ⟨j / 5, by omega⟩) ⟨i, hi⟩
  simp only [arr, Nat.div_add_mod] at this
  exact this

theorem xorAt_ok {s : List U64} {k : Nat} (t : U64) (h : k < s.length) :
    xorAt s k t = .ok (s.set k (s.getD k 0 ^^^ t)) := by
  rw [xorAt, idx_getD 0 h, bind_ok, setIdx_ok h]

/-! ## Words -/

/-- Parity of column `i`. -/
def parW (s : List U64) (i : Nat) : U64 :=
  s.getD i 0 ^^^ s.getD (i + 5) 0 ^^^ s.getD (i + 10) 0 ^^^ s.getD (i + 15) 0 ^^^ s.getD (i + 20) 0

theorem thetaRows_ok {s : List U64} (hs : s.length = 25) :
    loop 5 (thetaRow s) (new 5) = .ok ((List.range 5).map (parW s)) := by
  rw [fill_loop (o := 0) (parW s) _ (by simp [length_new])]
  · rfl
  · intro i hi t ht
    rw [thetaRow, idx_getD 0 (by omega), bind_ok, idx_getD 0 (by omega), bind_ok, idx_getD 0 (by omega), bind_ok,
      idx_getD 0 (by omega), bind_ok, idx_getD 0 (by omega), bind_ok, Nat.zero_add]
    exact setIdx_ok (by simpa using ht)

theorem map_range_getD {α : Type} {n i : Nat} (f : Nat → α) (d : α) (h : i < n) :
    ((List.range n).map f).getD i d = f i := by
  simp [List.getD_eq_getElem?_getD, List.getElem?_range h]

theorem thetaColumn_ok {s b : List U64} (hs : s.length = 25) (hb : b.length = 5) {i : Nat} (hi : i < 5) :
    ∃ t, thetaColumn b i s = .ok t ∧ t.length = 25 ∧ ∀ k, k < 25 → t.getD k 0 =
      if k % 5 = i then s.getD k 0 ^^^ (b.getD ((i + 4) % 5) 0 ^^^ (b.getD ((i + 1) % 5) 0).rotateLeft 1)
      else s.getD k 0 := by
  rw [thetaColumn, idx_getD 0 (by omega), bind_ok, idx_getD 0 (by omega), bind_ok]
  rw [show (b.getD ((i + 1) % 5) 0).rotateLeft 1 = rotl (b.getD ((i + 1) % 5) 0) 1 from rfl]
  generalize b.getD ((i + 4) % 5) 0 ^^^ rotl (b.getD ((i + 1) % 5) 0) 1 = T
  obtain ⟨t, h1, h2, h3⟩ := loop_inv (n := 5) (body := fun j s => xorAt s (5 * j + i) T) (s := s)
    (fun j t => t.length = 25 ∧ ∀ k, k < 25 → t.getD k 0 =
      if k % 5 = i ∧ k / 5 < j then s.getD k 0 ^^^ T else s.getD k 0)
    ⟨hs, fun k _ => by rw [if_neg (by omega)]⟩
    (fun j hj t ⟨h2, h3⟩ => by
      refine ⟨_, xorAt_ok T (by omega), by rw [List.length_set, h2], fun k hk => ?_⟩
      rw [getD_set]
      by_cases h : 5 * j + i = k
      · rw [if_pos ⟨h, by omega⟩, h3 _ (by omega), if_neg (by omega), if_pos (by omega), h]
      · rw [if_neg (by omega), h3 k hk]
        by_cases h' : k % 5 = i ∧ k / 5 < j
        · rw [if_pos h', if_pos (by omega)]
        · rw [if_neg h', if_neg (by omega)])
  refine ⟨t, h1, h2, fun k hk => ?_⟩
  rw [h3 k hk]
  simp only [show k / 5 < 5 by omega, and_true]

theorem theta_words {s : List U64} (hs : s.length = 25) :
    ∃ t, theta s = .ok t ∧ t.length = 25 ∧ ∀ k, k < 25 → t.getD k 0 =
      s.getD k 0 ^^^ (parW s ((k % 5 + 4) % 5) ^^^ (parW s ((k % 5 + 1) % 5)).rotateLeft 1) := by
  rw [theta, thetaRows_ok hs, bind_ok]
  obtain ⟨t, h1, h2, h3⟩ := loop_inv (n := 5) (body := thetaColumn ((List.range 5).map (parW s))) (s := s)
    (fun i t => t.length = 25 ∧ ∀ k, k < 25 → t.getD k 0 =
      if k % 5 < i then s.getD k 0 ^^^ (parW s ((k % 5 + 4) % 5) ^^^ (parW s ((k % 5 + 1) % 5)).rotateLeft 1)
      else s.getD k 0)
    ⟨hs, fun k _ => by rw [if_neg (by omega)]⟩
    (fun i hi t ⟨h2, h3⟩ => by
      obtain ⟨u, h4, h5, h6⟩ := thetaColumn_ok h2 (b := (List.range 5).map (parW s)) (by simp) hi
      refine ⟨u, h4, h5, fun k hk => ?_⟩
      rw [h6 k hk, map_range_getD _ _ (by omega), map_range_getD _ _ (by omega), h3 k hk]
      by_cases h : k % 5 = i
      · rw [if_pos h, if_neg (by omega), if_pos (by omega), h]
      · rw [if_neg h]
        by_cases h' : k % 5 < i
        · rw [if_pos h', if_pos (by omega)]
        · rw [if_neg h', if_neg (by omega)])
  refine ⟨t, h1, h2, fun k hk => ?_⟩
  rw [h3 k hk, if_pos (by omega)]

theorem rho_words {s : List U64} (hs : s.length = 25) :
    ∃ t, rho s = .ok t ∧ t.length = 25 ∧ ∀ k, k < 25 → t.getD k 0 = (s.getD k 0).rotateLeft (rotc.getD k 0) := by
  obtain ⟨t, h1, h2, h3⟩ := loop_inv (n := 25) (s := s)
    (body := fun i s => do
      let u ← idx s i
      let r ← idx rotc i
      setIdx s i (rotl u r))
    (fun i t => t.length = 25 ∧ ∀ k, k < 25 → t.getD k 0 =
      if k < i then (s.getD k 0).rotateLeft (rotc.getD k 0) else s.getD k 0)
    ⟨hs, fun k _ => by rw [if_neg (by omega)]⟩
    (fun i hi t ⟨h2, h3⟩ => by
      refine ⟨t.set i (rotl (t.getD i 0) (rotc.getD i 0)), ?_, by rw [List.length_set, h2], fun k hk => ?_⟩
      · rw [idx_getD 0 (by omega), bind_ok, idx_getD 0 (by simpa [rotc] using hi), bind_ok, setIdx_ok (by omega)]
      · rw [getD_set]
        by_cases h : i = k
        · rw [if_pos ⟨h, by omega⟩, h3 i hi, if_neg (by omega), if_pos (by omega), h]; rfl
        · rw [if_neg (by omega), h3 k hk]
          by_cases h' : k < i
          · rw [if_pos h', if_pos (by omega)]
          · rw [if_neg h', if_neg (by omega)])
  refine ⟨t, h1, h2, fun k hk => ?_⟩
  rw [h3 k hk, if_pos hk]

theorem piTable_lt : ∀ i, i < 25 → piTable.getD i 0 < 25 := by decide

theorem pi_words {s : List U64} (hs : s.length = 25) :
    pi s = .ok ((List.range 25).map fun i => s.getD (piTable.getD i 0) 0) := by
  rw [pi, fill_loop (o := 0) (fun i => s.getD (piTable.getD i 0) 0) _ (by simp [length_new])]
  · rfl
  · intro i hi t ht
    rw [idx_getD 0 (by simpa [piTable] using hi), bind_ok, idx_getD 0 (by rw [hs]; exact piTable_lt i hi), bind_ok,
      Nat.zero_add]
    exact setIdx_ok (by simpa using ht)

/-- What `chi` computes for lane `k`. -/
def chiW (s : List U64) (k : Nat) : U64 :=
  s.getD k 0 ^^^ (~~~ s.getD (5 * (k / 5) + (k % 5 + 1) % 5) 0 &&& s.getD (5 * (k / 5) + (k % 5 + 2) % 5) 0)

theorem chiCopy_ok {s b : List U64} (hs : s.length = 25) (hb : b.length = 5) {i : Nat} (hi : i < 5) :
    chiCopy s i b = .ok ((List.range 5).map fun j => s.getD (5 * i + j) 0) := by
  rw [chiCopy, fill_loop (o := 0) (fun j => s.getD (5 * i + j) 0) _ (by omega)]
  · rw [List.take_zero, List.nil_append, List.drop_of_length_le (by omega), List.append_nil]
  · intro j hj t ht
    rw [idx_getD 0 (by omega), bind_ok, Nat.zero_add]
    exact setIdx_ok (by simpa using ht)

theorem chiRow_ok {s b : List U64} (hs : s.length = 25) (hb : b.length = 5) {i : Nat} (hi : i < 5) :
    ∃ t, chiRow b i s = .ok t ∧ t.length = 25 ∧ ∀ k, k < 25 → t.getD k 0 =
      if k / 5 = i then s.getD k 0 ^^^ (~~~ b.getD ((k % 5 + 1) % 5) 0 &&& b.getD ((k % 5 + 2) % 5) 0)
      else s.getD k 0 := by
  obtain ⟨t, h1, h2, h3⟩ := loop_inv (n := 5) (s := s)
    (body := fun j s => do
      let u ← idx b ((j + 1) % 5)
      let v ← idx b ((j + 2) % 5)
      xorAt s (5 * i + j) (~~~ u &&& v))
    (fun j t => t.length = 25 ∧ ∀ k, k < 25 → t.getD k 0 =
      if k / 5 = i ∧ k % 5 < j then
        s.getD k 0 ^^^ (~~~ b.getD ((k % 5 + 1) % 5) 0 &&& b.getD ((k % 5 + 2) % 5) 0)
      else s.getD k 0)
    ⟨hs, fun k _ => by rw [if_neg (by omega)]⟩
    (fun j hj t ⟨h2, h3⟩ => by
      refine ⟨t.set (5 * i + j) (t.getD (5 * i + j) 0 ^^^ (~~~ b.getD ((j + 1) % 5) 0 &&& b.getD ((j + 2) % 5) 0)), ?_,
        by rw [List.length_set, h2], fun k hk => ?_⟩
      · rw [idx_getD 0 (by omega), bind_ok, idx_getD 0 (by omega), bind_ok, xorAt_ok _ (by omega)]
      rw [getD_set]
      by_cases h : 5 * i + j = k
      · rw [if_pos ⟨h, by omega⟩, h3 _ (by omega), if_neg (by omega), if_pos (by omega), h, show k % 5 = j by omega]
      · rw [if_neg (by omega), h3 k hk]
        by_cases h' : k / 5 = i ∧ k % 5 < j
        · rw [if_pos h', if_pos (by omega)]
        · rw [if_neg h', if_neg (by omega)])
  refine ⟨t, h1, h2, fun k hk => ?_⟩
  rw [h3 k hk]
  simp only [show k % 5 < 5 by omega, and_true]

theorem chi_words {s : List U64} (hs : s.length = 25) :
    ∃ t, chi s = .ok t ∧ t.length = 25 ∧ ∀ k, k < 25 → t.getD k 0 = chiW s k := by
  obtain ⟨t, h1, h2, h3, h4⟩ := loop_inv (n := 5) (s := (s, (new 5 : List U64)))
    (body := fun i (st : List U64 × List U64) => do
      let b ← chiCopy st.1 i st.2
      let s ← chiRow b i st.1
      .ok (s, b))
    (fun i st => st.1.length = 25 ∧ st.2.length = 5 ∧ ∀ k, k < 25 → st.1.getD k 0 =
      if k / 5 < i then chiW s k else s.getD k 0)
    ⟨hs, by simp [length_new], fun k _ => by rw [if_neg (by omega)]⟩
    (fun i hi st ⟨h2, h3, h4⟩ => by
      obtain ⟨u, h5, h6, h7⟩ := chiRow_ok (b := (List.range 5).map fun j => st.1.getD (5 * i + j) 0) h2 (by simp) hi
      refine ⟨(u, _), by rw [chiCopy_ok h2 h3 hi, bind_ok, h5, bind_ok], h6, by simp, fun k hk => ?_⟩
      simp only [h7 k hk]
      rw [map_range_getD _ _ (by omega), map_range_getD _ _ (by omega)]
      by_cases h : k / 5 = i
      · rw [if_pos h, h4 k hk, if_neg (by omega), if_pos (by omega), h4 _ (by omega), if_neg (by omega), h4 _ (by omega),
          if_neg (by omega), chiW, h]
      · rw [if_neg h, h4 k hk]
        by_cases h' : k / 5 < i
        · rw [if_pos h', if_pos (by omega)]
        · rw [if_neg h', if_neg (by omega)])
  refine ⟨t.1, by rw [chi, h1, bind_ok], h2, fun k hk => ?_⟩
  rw [h4 k hk, if_pos (by omega)]

/-! ## Bits -/

/-- `f` computes `F` on state arrays. -/
def Refines (f : List U64 → M (List U64)) (F : StateArray → StateArray) : Prop :=
  ∀ s, s.length = 25 → ∃ t, f s = .ok t ∧ t.length = 25 ∧ arr t = F (arr s)

theorem Refines.bind {f g : List U64 → M (List U64)} {F G : StateArray → StateArray} (hf : Refines f F)
    (hg : Refines g G) : Refines (fun s => f s >>= g) (fun A => G (F A)) := by
  intro s hs
  obtain ⟨t, h1, h2, h3⟩ := hf s hs
  obtain ⟨u, h4, h5, h6⟩ := hg t h2
  exact ⟨u, by simp only [h1, bind_ok, h4], h5, by rw [h6, h3]⟩

theorem rot_bit (u : U64) {r : Nat} (hr : r < 64) (z : Fin 64) :
    (u.rotateLeft r).getLsbD z.val = u.getLsbD (z - Fin.ofNat 64 r).val := by
  rw [BitVec.getLsbD_rotateLeft, Fin.sub_def]
  simp only [Fin.val_ofNat, Nat.mod_eq_of_lt hr]
  by_cases h : z.val < r
  · rw [decide_eq_true h, cond_true]; congr 1; omega
  · rw [decide_eq_false h, cond_false, decide_eq_true z.isLt, Bool.true_and]; congr 1; omega

theorem theta_refines : Refines theta Spec.Fips202.theta := by
  intro s hs
  obtain ⟨t, h1, h2, h3⟩ := theta_words hs
  refine ⟨t, h1, h2, ?_⟩
  funext x y z
  simp only [arr]
  rw [h3 _ (by omega), show (5 * y.val + x.val) % 5 = x.val by omega]
  rw [BitVec.getLsbD_xor, BitVec.getLsbD_xor, rot_bit _ (by decide)]
  have e1 : (x - 1).val = (x.val + 4) % 5 := by revert x; decide
  have e2 : (x + 1).val = (x.val + 1) % 5 := by revert x; decide
  simp only [Spec.Fips202.theta, parW, BitVec.getLsbD_xor, e1, e2, arr]
  have e (n m : Nat) : 5 * m + n = n + m * 5 := by omega
  simp only [e]
  rfl

theorem spec_rho (A : StateArray) (x y : Fin 5) (z : Fin 64) :
    Spec.Fips202.rho A x y z = A x y (z - Fin.ofNat 64 (rotc.getD (5 * y.val + x.val) 0)) := by
  fin_cases x <;> fin_cases y <;> first | rfl | (show A 0 0 z = A 0 0 (z - 0); rw [show z - 0 = z by revert z; decide])

theorem rotc_lt : ∀ k, k < 25 → rotc.getD k 0 < 64 := by decide

theorem rho_refines : Refines rho Spec.Fips202.rho := by
  intro s hs
  obtain ⟨t, h1, h2, h3⟩ := rho_words hs
  refine ⟨t, h1, h2, ?_⟩
  funext x y z
  rw [spec_rho]
  simp only [arr]
  rw [h3 _ (by omega), rot_bit _ (rotc_lt _ (by omega))]

theorem piTable_val : ∀ x y : Fin 5, piTable.getD (5 * y.val + x.val) 0 = 5 * x.val + (x + 3 * y).val := by decide

theorem pi_refines : Refines pi Spec.Fips202.pi := by
  intro s hs
  refine ⟨_, pi_words hs, by simp, ?_⟩
  funext x y z
  simp only [arr, Spec.Fips202.pi]
  rw [map_range_getD _ _ (by omega), piTable_val]

theorem chi_refines : Refines chi Spec.Fips202.chi := by
  intro s hs
  obtain ⟨t, h1, h2, h3⟩ := chi_words hs
  refine ⟨t, h1, h2, ?_⟩
  funext x y z
  have e1 : (x + 1).val = (x.val + 1) % 5 := by revert x; decide
  have e2 : (x + 2).val = (x.val + 2) % 5 := by revert x; decide
  simp only [arr, Spec.Fips202.chi]
  rw [h3 _ (by omega), chiW, show (5 * y.val + x.val) % 5 = x.val by omega, show (5 * y.val + x.val) / 5 = y.val by omega,
    BitVec.getLsbD_xor, BitVec.getLsbD_and, BitVec.getLsbD_not, e1, e2]
  simp [z.isLt]

theorem rc_table : ∀ i, i < 24 → Spec.Fips202.RC i = (List.range 64).map (roundConstants.getD i 0).getLsbD := by
  decide +kernel

theorem iota_refines {i : Nat} (hi : i < 24) :
    Refines (fun s => iota s (roundConstants.getD i 0)) (Spec.Fips202.iota i) := by
  intro s hs
  refine ⟨_, xorAt_ok _ (by omega), by rw [List.length_set, hs], ?_⟩
  funext x y z
  simp only [arr, Spec.Fips202.iota]
  rw [getD_set, rc_table i hi, map_range_getD _ _ z.isLt]
  by_cases h : x = 0 ∧ y = 0
  · obtain ⟨rfl, rfl⟩ := h
    rw [if_pos ⟨rfl, by omega⟩, if_pos ⟨rfl, rfl⟩, BitVec.getLsbD_xor]; rfl
  · rw [if_neg (by rintro ⟨h', _⟩; exact h ⟨by omega, by omega⟩), if_neg h]

theorem round_refines {i : Nat} (hi : i < 24) : Refines (roundStep i) (fun A => Spec.Fips202.Rnd A i) := by
  have := (((theta_refines.bind rho_refines).bind pi_refines).bind chi_refines).bind (iota_refines hi)
  intro s hs
  obtain ⟨t, h1, h2, h3⟩ := this s hs
  refine ⟨t, ?_, h2, h3⟩
  rw [← h1, roundStep]
  simp only [bind_assoc', idx_getD (0 : U64) (l := roundConstants) (by simpa [roundConstants] using hi), bind_ok]

/-- The rounds on state arrays. -/
def roundsA (A : StateArray) : StateArray := (List.range 24).foldl Spec.Fips202.Rnd A

theorem keccakf_refines : Refines keccakf1600 roundsA := by
  intro s hs
  obtain ⟨t, h1, h2, h3⟩ := loop_inv (n := 24) (body := roundStep) (s := s)
    (fun i t => t.length = 25 ∧ arr t = (List.range i).foldl Spec.Fips202.Rnd (arr s)) ⟨hs, rfl⟩
    (fun i hi t ⟨h2, h3⟩ => by
      obtain ⟨u, h4, h5, h6⟩ := round_refines hi t h2
      refine ⟨u, h4, h5, ?_⟩
      rw [h6, h3, List.range_succ, List.foldl_append]; rfl)
  exact ⟨t, h1, h2, h3⟩

end Hacspec.Fips202
