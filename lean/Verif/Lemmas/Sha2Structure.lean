import Verif.Lemmas.Sha2
import Verif.Lemmas.HashStructure

/-! # SHA-256: the rounds are permutations, the schedule is a shift register -/

namespace Hacspec.Sha2

open Spec SecretInt HashStructure
open Spec.Sha256 (Vars)

theorem exists_enc {s : List U32} (h : s.length = 8) : ∃ v, s = enc v := by
  match s, h with
  | [a, b, c, d, e, f, g, i], _ => exact ⟨⟨a, b, c, d, e, f, g, i⟩, rfl⟩

theorem enc_inj {v w : Vars} (h : enc v = enc w) : v = w := by
  cases v; cases w
  simp only [enc, List.cons.injEq, and_true] at h
  obtain ⟨rfl, rfl, rfl, rfl, rfl, rfl, rfl, rfl⟩ := h
  rfl

/-- Undoes one round. -/
def unround (k w : U32) (s : Vars) : Vars :=
  let t2 := Spec.Sha256.Sigma0 s.b + Spec.Sha256.Maj s.b s.c s.d
  let t1 := s.a - t2
  { a := s.b, b := s.c, c := s.d, d := s.e - t1, e := s.f, f := s.g, g := s.h,
    h := t1 - w - k - Spec.Sha256.Ch s.f s.g s.h - Spec.Sha256.Sigma1 s.f }

theorem unround_round (k w : U32) (s : Vars) : unround k w (Spec.Sha256.round k w s) = s := by
  simp only [unround, Spec.Sha256.round, BitVec.add_sub_cancel]

theorem round_unround (k w : U32) (s : Vars) : Spec.Sha256.round k w (unround k w s) = s := by
  simp only [unround, Spec.Sha256.round, BitVec.sub_add_cancel]

theorem permutes_shuffleStep {w : List U32} (hw : w.length = 64) {i : Nat} (hi : i < 64) :
    Permutes 8 (shuffleStep kTable w i) := by
  constructor
  · intro s hs
    obtain ⟨v, rfl⟩ := exists_enc hs
    exact ⟨_, shuffleStep_ok hw hi v, rfl⟩
  · intro t ht
    obtain ⟨u, rfl⟩ := exists_enc ht
    refine ⟨enc (unround _ _ u), rfl, (shuffleStep_ok hw hi _).trans (by rw [round_unround]), fun s' hs' h => ?_⟩
    obtain ⟨v, rfl⟩ := exists_enc hs'
    rw [shuffleStep_ok hw hi, Except.ok.injEq] at h
    rw [← enc_inj h, unround_round]

theorem permutes_shuffle {w : List U32} (hw : w.length = 64) : Permutes 8 (shuffle w) := by
  have : shuffle w = loop 64 (shuffleStep kTable w) := by
    funext s
    rw [shuffle, arrFromPublicSlice_ok (by rfl), bind_ok]
  rw [this]
  exact permutes_loop 64 fun i hi => permutes_shuffleStep hw hi

/-! ## Feed-forward -/

/-- Word by word addition of states of eight words. -/
def addState (a b : List U32) : List U32 := List.zipWith (· + ·) a b

theorem compress_shuffle {b : List U8} (hb : b.length = 64) {h : List U32} (hh : h.length = 8) :
    ∃ ws r, schedule b = .ok ws ∧ ws.length = 64 ∧ shuffle ws h = .ok r ∧ r.length = 8 ∧
      compress b h = .ok (addState r h) := by
  have hw : (Spec.Sha256.schedule (words32be b)).length = 64 := by
    rw [Spec.Sha256.schedule, length_extendW, length_words32be, hb]
  obtain ⟨r, hr, lr⟩ := (permutes_shuffle hw).1 h hh
  refine ⟨_, r, schedule_ok hb, hw, hr, lr, ?_⟩
  rw [compress, schedule_ok hb, bind_ok, hr, bind_ok]
  obtain ⟨v, rfl⟩ := exists_enc hh
  obtain ⟨u, rfl⟩ := exists_enc lr
  rfl

theorem addState_eq_right {r h : List U32} (hr : r.length = 8) (hh : h.length = 8) :
    addState r h = h ↔ r = List.replicate 8 0#32 := by
  obtain ⟨v, rfl⟩ := exists_enc hh
  obtain ⟨u, rfl⟩ := exists_enc hr
  have key : ∀ x y : U32, x + y = y ↔ x = 0#32 := by
    intro x y
    constructor
    · intro h
      have := congrArg (· - y) h
      simpa only [BitVec.add_sub_cancel, BitVec.sub_self] using this
    · rintro rfl
      simp
  simp [addState, enc, List.replicate_succ, key]

/-! ## Schedule -/

/-- One step of the shift register of sixteen words. -/
def shift (m : List U32) : List U32 := m.drop 1 ++ [Spec.Sha256.nextW m]

/-- Its inverse. -/
def unshift (m : List U32) : List U32 :=
  (m.getD 15 0 - Spec.Sha256.sigma0 (m.getD 0 0) - m.getD 8 0 - Spec.Sha256.sigma1 (m.getD 13 0)) :: m.take 15

theorem length_shift {m : List U32} (h : m.length = 16) : (shift m).length = 16 := by simp [shift, h]
theorem length_unshift {m : List U32} (h : m.length = 16) : (unshift m).length = 16 := by simp [unshift, h]

theorem sub_undo (p q r s : U32) : p + q + r + s - r - q - p = s := by
  rw [BitVec.add_comm (p + q + r) s, ← BitVec.add_assoc, ← BitVec.add_assoc, BitVec.add_sub_cancel, BitVec.add_sub_cancel,
    BitVec.add_sub_cancel]

theorem add_undo (p q r s : U32) : p + q + r + (s - r - q - p) = s := by
  rw [BitVec.add_comm (p + q + r), ← BitVec.add_assoc, ← BitVec.add_assoc, BitVec.sub_add_cancel, BitVec.sub_add_cancel,
    BitVec.sub_add_cancel]

theorem exists16' {s : List U32} (h : s.length = 16) : ∃ a0 a1 a2 a3 a4 a5 a6 a7 a8 a9 a10 a11 a12 a13 a14 a15,
    s = [a0, a1, a2, a3, a4, a5, a6, a7, a8, a9, a10, a11, a12, a13, a14, a15] := by
  match s, h with
  | [a0, a1, a2, a3, a4, a5, a6, a7, a8, a9, a10, a11, a12, a13, a14, a15], _ =>
    exact ⟨a0, a1, a2, a3, a4, a5, a6, a7, a8, a9, a10, a11, a12, a13, a14, a15, rfl⟩

theorem unshift_shift {m : List U32} (h : m.length = 16) : unshift (shift m) = m := by
  obtain ⟨a0, a1, a2, a3, a4, a5, a6, a7, a8, a9, a10, a11, a12, a13, a14, a15, rfl⟩ := exists16' h
  simp only [unshift, shift, Spec.Sha256.nextW]
  show (Spec.Sha256.sigma1 a14 + a9 + Spec.Sha256.sigma0 a1 + a0 - Spec.Sha256.sigma0 a1 - a9 - Spec.Sha256.sigma1 a14) :: _ = _
  rw [sub_undo]
  rfl

theorem shift_unshift {m : List U32} (h : m.length = 16) : shift (unshift m) = m := by
  obtain ⟨a0, a1, a2, a3, a4, a5, a6, a7, a8, a9, a10, a11, a12, a13, a14, a15, rfl⟩ := exists16' h
  show [a0, a1, a2, a3, a4, a5, a6, a7, a8, a9, a10, a11, a12, a13, a14] ++
    [Spec.Sha256.sigma1 a13 + a8 + Spec.Sha256.sigma0 a0 + (a15 - Spec.Sha256.sigma0 a0 - a8 - Spec.Sha256.sigma1 a13)] = _
  rw [add_undo]
  rfl

/-- `n` steps. -/
def shifts : Nat → List U32 → List U32
  | 0, m => m
  | n + 1, m => shift (shifts n m)

/-- `n` steps back. -/
def unshifts : Nat → List U32 → List U32
  | 0, m => m
  | n + 1, m => unshifts n (unshift m)

theorem length_shifts {m : List U32} (h : m.length = 16) (n : Nat) : (shifts n m).length = 16 := by
  induction n with
  | zero => exact h
  | succ n ih => exact length_shift ih

theorem length_unshifts {m : List U32} (h : m.length = 16) (n : Nat) : (unshifts n m).length = 16 := by
  induction n generalizing m with
  | zero => exact h
  | succ n ih => exact ih (length_unshift h)

theorem unshifts_shifts {m : List U32} (h : m.length = 16) (n : Nat) : unshifts n (shifts n m) = m := by
  induction n with
  | zero => rfl
  | succ n ih => rw [shifts, unshifts, unshift_shift (length_shifts h n), ih]

theorem shifts_unshifts {m : List U32} (h : m.length = 16) (n : Nat) : shifts n (unshifts n m) = m := by
  induction n generalizing m with
  | zero => rfl
  | succ n ih => rw [unshifts, shifts, ih (length_unshift h), shift_unshift h]

theorem drop_extendW {m : List U32} (h : m.length = 16) (n : Nat) : (Spec.Sha256.extendW n m).drop n = shifts n m := by
  induction n with
  | zero => rfl
  | succ n ih =>
    have l : (Spec.Sha256.extendW n m).length = 16 + n := by rw [length_extendW, h]
    rw [extendW_succ, List.drop_append_of_le_length (by omega), shifts, ← ih, shift, List.drop_drop]
    congr 2
    simp only [Spec.Sha256.nextW, List.length_drop, l, List.getD_eq_getElem?_getD, List.getElem?_drop]
    rw [show 16 + n - n = 16 by omega, show n + (16 - 2) = 16 + n - 2 by omega, show n + (16 - 7) = 16 + n - 7 by omega,
      show n + (16 - 15) = 16 + n - 15 by omega, show n + (16 - 16) = 16 + n - 16 by omega]

theorem window_extendW {m : List U32} (h : m.length = 16) {i n : Nat} (hi : i ≤ n) :
    ((Spec.Sha256.extendW n m).drop i).take 16 = shifts i m := by
  have step : ∀ k, ((Spec.Sha256.extendW (i + k) m).drop i).take 16 = shifts i m := by
    intro k
    induction k with
    | zero => rw [Nat.add_zero, drop_extendW h, List.take_of_length_le (by rw [length_shifts h])]
    | succ k ih =>
      rw [← Nat.add_assoc, extendW_succ, List.drop_append_of_le_length (by rw [length_extendW]; omega),
        List.take_append_of_le_length (by rw [List.length_drop, length_extendW]; omega), ih]
  have := step (n - i)
  rwa [show i + (n - i) = n by omega] at this

/-! ## Words of a block -/

theorem bytesBe32_be32 (a b c d : U8) : bytesBe32 (be32 a b c d) = [a, b, c, d] := by
  rw [← wordOfBe32, ← beOfWord32, beOfWord_wordOfBe (by decide) _ rfl]

theorem be32_inj {a b c d a' b' c' d' : U8} (h : be32 a b c d = be32 a' b' c' d') : a = a' ∧ b = b' ∧ c = c' ∧ d = d' := by
  have e := congrArg bytesBe32 h
  rw [bytesBe32_be32, bytesBe32_be32] at e
  simpa using e

theorem words32be_inj : ∀ {b b' : List U8}, b.length = b'.length → b.length % 4 = 0 → words32be b = words32be b' → b = b'
  | [], [], _, _, _ => rfl
  | a :: b :: c :: d :: l, a' :: b' :: c' :: d' :: l', hl, hm, h => by
    simp only [words32be, List.cons.injEq] at h
    obtain ⟨rfl, rfl, rfl, rfl⟩ := be32_inj h.1
    rw [words32be_inj (b := l) (b' := l') (by simpa using hl) (by simp at hm; omega) h.2]
  | [_], _, _, hm, _ | [_, _], _, _, hm, _ | [_, _, _], _, _, hm, _ => by simp at hm
  | _ :: _ :: _ :: _ :: _, [], hl, _, _ | _ :: _ :: _ :: _ :: _, [_], hl, _, _ | _ :: _ :: _ :: _ :: _, [_, _], hl, _, _
  | _ :: _ :: _ :: _ :: _, [_, _, _], hl, _, _ | [], _ :: _, hl, _, _ => by simp at hl

theorem words32be_surj : ∀ w : List U32, ∃ b : List U8, b.length = 4 * w.length ∧ words32be b = w
  | [] => ⟨[], rfl, rfl⟩
  | x :: w => by
    obtain ⟨b, l, e⟩ := words32be_surj w
    exact ⟨bytesBe32 x ++ b, by simp [bytesBe32, l]; omega, by simp only [bytesBe32, List.cons_append, List.nil_append, words32be,
      be32_bytes, e]⟩

end Hacspec.Sha2
