import Verif.Props.Releases
import Verif.Props.Ints

/-! # C112: arrays in a release build

The operators and word views of arrays have debug assertions about lengths.  The types already say most of what they
check: the statements here say that the two builds cannot be told apart by these functions, panics included, and where
they can (negation of a signed integer). -/

namespace Hacspec.Props

open SecretInt Spec
open Hacspec.Seq (new)

/-- **C112.**  The element-wise operators of arrays in a release build: operands of one array type have one length, so
that the missing assertion does not matter, and the result is the element-wise one. -/
theorem C112_operators {w : Nat} (l : Nat) (a b : List (BitVec w)) (ha : a.length = l) (hb : b.length = l) :
    Release.VecInt.arrAdd l a b = .ok (List.zipWith (· + ·) a b) ∧
    Release.VecInt.arrSub l a b = .ok (List.zipWith (· - ·) a b) ∧
    Release.VecInt.arrMulSecret l a b = .ok (List.zipWith (· * ·) a b) ∧
    Release.VecInt.arrXorPublic l a b = .ok (List.zipWith (· ^^^ ·) a b) := by
  have hab : a.length = b.length := by omega
  have hn : (new l : List (BitVec w)).length = a.length := by rw [Seq.length_new, ha]
  exact ⟨VecInt.zipLoop_ok hab hn (fun _ _ _ => rfl), VecInt.zipLoop_ok hab hn (fun _ _ _ => rfl),
    VecInt.zipLoop_ok hab hn (fun _ _ _ => rfl), VecInt.zipLoop_ok hab hn (fun _ _ _ => rfl)⟩

/-- **C112.**  `/` on public arrays: a zero divisor panics in both builds. -/
theorem C112_div {w : Nat} (l : Nat) (a b : List (BitVec w)) (ha : a.length = l) (hb : b.length = l) :
    (0#w ∉ b → Release.VecInt.arrDiv l a b = .ok (List.zipWith (· / ·) a b)) ∧
    (0#w ∈ b → Release.VecInt.arrDiv l a b = panic) := by
  have e : Release.VecInt.arrDiv l a b = VecInt.arrDiv l a b := by
    rw [VecInt.arrDiv, require_true (by omega), bind_ok]; rfl
  rw [e]
  exact C19_array_div l a b ha hb

example : Release.VecInt.arrSub 2 [3#8, 0#8] [1#8, 1#8] = .ok [2#8, 255#8] ∧
    Release.VecInt.arrDiv 2 [3#8, 9#8] [1#8, 0#8] = panic :=
  ⟨(C112_operators 2 _ _ rfl rfl).2.1, (C112_div 2 _ _ rfl rfl).2 (by decide)⟩

/-- The word view of bytes that are not whole words: the last, short block is filled up, but there is no place for the
word. -/
theorem release_arrToWords_panic {w l : Nat} (hk : 0 < w / 8) {self : List U8} (hl : self.length = l)
    (hd : l % (w / 8) ≠ 0) {de : List U8 → M (List (BitVec w))} (g : List U8 → BitVec w)
    (hde : ∀ c, c.length = w / 8 → de c = .ok [g c]) :
    Release.Seq.arrToWords l de self = panic := by
  have hq : (chunks (w / 8) self).length = l / (w / 8) + 1 := by
    rw [length_chunks, hl]
    have e := Nat.div_add_mod l (w / 8)
    have hr : l % (w / 8) < w / 8 := Nat.mod_lt _ hk
    generalize l / (w / 8) = q at *
    generalize l % (w / 8) = r at *
    have : l + w / 8 - 1 = (r - 1) + (w / 8) * (q + 1) := by rw [Nat.mul_succ]; omega
    rw [this, Nat.add_mul_div_left _ _ hk, Nat.div_eq_of_lt (by omega)]; omega
  have hb : ∀ i, i < (chunks (w / 8) self).length → ∀ t : List (BitVec w), ∃ x,
      (do let block ← idx (chunks (w / 8) self) i
          let s ← Release.Seq.arrFromSlice (w / 8) block
          let ws ← de s
          let x ← idx ws 0
          setIdx t i x) = setIdx t i x := by
    intro i hi t
    have hc : ((chunks (w / 8) self)[i]).length ≤ w / 8 := by
      rw [getElem_chunks, List.length_take]; omega
    refine ⟨g ((chunks (w / 8) self)[i] ++ List.replicate (w / 8 - ((chunks (w / 8) self)[i]).length) default), ?_⟩
    rw [idx_ok hi, bind_ok, (C101_arr_from_vec _ _).2.2.1, (C101_arr_from_vec _ _).1, if_pos hc, bind_ok,
      hde _ (by rw [List.length_append, List.length_replicate]; omega), bind_ok, idx_ok (by simp), bind_ok]
    rfl
  rw [Release.Seq.arrToWords]
  rw [hq]
  obtain ⟨t, ht, hlen⟩ := loop_inv (n := l / (w / 8)) (s := (new (l / (w / 8)) : List (BitVec w)))
    (body := fun i out => do
      let block ← idx (chunks (w / 8) self) i
      let s ← Release.Seq.arrFromSlice (w / 8) block
      let ws ← de s
      let x ← idx ws 0
      setIdx out i x) (fun _ t => t.length = l / (w / 8)) (Seq.length_new _) (by
    intro i hi t ht
    obtain ⟨x, hx⟩ := hb i (by omega) t
    refine ⟨t.set i x, ?_, by rw [List.length_set]; exact ht⟩
    rw [hx, setIdx_ok (by omega)])
  refine loop_panic (k := l / (w / 8)) (by omega) ht ?_
  obtain ⟨x, hx⟩ := hb (l / (w / 8)) (by omega) t
  rw [hx, setIdx_panic (by omega)]

/-- **C112.**  The word views of byte arrays of any length: in a release build the words of the bytes if these are whole
words, and a panic otherwise, although the assertion is gone. -/
theorem C112_words {w : Nat} (hw : 8 ≤ w) (self : List U8) (l : Nat) (hl : self.length = l) :
    (l % (w / 8) = 0 →
      Release.Seq.arrToBeWords w l self = .ok ((chunks (w / 8) self).map (wordOfBe w)) ∧
      Release.Seq.arrToLeWords w l self = .ok ((chunks (w / 8) self).map (wordOfLe w)) ∧
      Release.Seq.arrToPubWords l (wordOfBe w) self = .ok ((chunks (w / 8) self).map (wordOfBe w))) ∧
    (l % (w / 8) ≠ 0 →
      Release.Seq.arrToBeWords w l self = panic ∧ Release.Seq.arrToLeWords w l self = panic) := by
  have hk : 0 < w / 8 := by omega
  refine ⟨fun hd => ⟨?_, ?_, ?_⟩, fun hd => ⟨?_, ?_⟩⟩
  · exact Release.Seq.arrToBeWords_keeps _ (Seq.arrToBeWords_ok hk hl hd)
  · exact Release.Seq.arrToLeWords_keeps _ (Seq.arrToLeWords_ok hk hl hd)
  · exact Seq.arrToPubWords_ok hk hl hd _
  · exact release_arrToWords_panic hk hl hd _ (fun c hc => Seq.fromBeBytes_one hk c hc)
  · exact release_arrToWords_panic hk hl hd _ (fun c hc => Seq.fromLeBytes_one hk c hc)

example : Release.Seq.arrToLeWords 32 8 [1, 2, 3, 4, 5, 6, 7, 8] = .ok [0x04030201#32, 0x08070605#32] ∧
    Release.Seq.arrToLeWords 32 6 [1, 2, 3, 4, 5, 6] = panic :=
  ⟨by decide, ((C112_words (w := 32) (by decide) [1, 2, 3, 4, 5, 6] 6 rfl).2 (by decide)).2⟩

/-- **C112.**  The conversions between a secret array type and its public counterpart, which have one length, copy the
array. -/
theorem C112_convert {w : Nat} (l : Nat) (a : List (BitVec w)) (ha : a.length = l) :
    Release.Seq.arrFromOther l a = .ok a := by
  rw [Release.Seq.arrFromOther, show a.map classify = a from List.map_id' a,
    (C101_arr_from_vec l a).1, if_pos (by omega), ha]
  simp

example : Release.Seq.arrFromOther 2 [3#16, 4#16] = .ok [3#16, 4#16] := C112_convert 2 _ rfl

/-- **C112.**  Negation of a secret signed integer: the smallest number, on which a debug build panics, is its own
negative in a release build; the others are negated in both. -/
theorem C112_negate {w : Nat} (hw : 0 < w) (x : BitVec w) :
    (x.toInt ≠ -(2 ^ (w - 1) : Int) → ∃ y, Release.negS x = .ok y ∧ y.toInt = -x.toInt) ∧
    (x.toInt = -(2 ^ (w - 1) : Int) → Release.negS x = .ok x ∧ SecretInt.negS x = panic) := by
  refine ⟨fun h => ?_, fun h => ⟨?_, (C02_neg_signed hw x).2 h⟩⟩
  · obtain ⟨y, hy, hv⟩ := (C02_neg_signed hw x).1 h
    exact ⟨y, Release.negS_keeps _ hy, hv⟩
  · rw [Release.negS]
    congr 1
    apply BitVec.eq_of_toInt_eq
    rw [BitVec.toInt_neg, h, Int.neg_neg]
    have e : (2 : Int) ^ w = 2 * 2 ^ (w - 1) := by
      conv_lhs => rw [show w = (w - 1) + 1 from by omega]
      rw [Int.pow_succ]; omega
    have e' : ((2 ^ w : Nat) : Int) = 2 * 2 ^ (w - 1) := by rw [← e]; norm_cast
    have hp : (0 : Int) < 2 ^ (w - 1) := by positivity
    have : (2 : Int) ^ (w - 1) = -(2 ^ (w - 1)) + (2 ^ w : Nat) * 1 := by rw [e']; omega
    have e2 := BitVec.toInt_bmod_cancel x
    rw [h] at e2
    rw [← Int.add_mul_bmod_self_left _ _ 1, ← this] at e2
    exact e2

example : Release.negS (0x80#8) = .ok 0x80#8 := ((C112_negate (by decide) (0x80#8)).2 (by decide)).1

end Hacspec.Props
