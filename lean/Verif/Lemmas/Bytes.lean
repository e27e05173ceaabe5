import Verif.Lemmas.Seq
import Verif.Lemmas.Chunk
import Verif.Spec.Bytes

/-! # The words of the model and of the specification -/

namespace Hacspec

open SecretInt Spec

/-- Refinement rule: a loop whose body implements a pure step on encoded states. -/
theorem loop_foldl {σ τ : Type} (enc : τ → σ) (g : Nat → τ → τ) {n : Nat} {body : Nat → σ → M σ} (t : τ)
    (h : ∀ i, i < n → ∀ t, body i (enc t) = .ok (enc (g i t))) :
    loop n body (enc t) = .ok (enc ((List.range n).foldl (fun t i => g i t) t)) := by
  induction n with
  | zero => rfl
  | succ n ih =>
    rw [loop_succ, ih (fun i hi => h i (by omega)), bind_ok, h n (by omega), List.range_succ, List.foldl_append]
    rfl

theorem foldl_range_congr {τ : Type} {n : Nat} {f g : τ → Nat → τ} (t : τ)
    (h : ∀ t i, i < n → f t i = g t i) : (List.range n).foldl f t = (List.range n).foldl g t := by
  induction n with
  | zero => rfl
  | succ n ih =>
    rw [List.range_succ, List.foldl_append, List.foldl_append, ih (fun t i hi => h t i (by omega))]
    exact h _ n (by omega)

theorem set_append_ge {α : Type} {s t : List α} {i : Nat} {x : α} (h : s.length ≤ i) :
    (s ++ t).set i x = s ++ t.set (i - s.length) x := List.set_append_right i x h

theorem getD_append_lt {α : Type} {s t : List α} {i : Nat} {d : α} (h : i < s.length) :
    (s ++ t).getD i d = s.getD i d := by
  rw [List.getD_eq_getElem?_getD, List.getD_eq_getElem?_getD, List.getElem?_append_left h]

theorem idx_getD {α : Type} {l : List α} {i : Nat} (d : α) (h : i < l.length) :
    idx l i = .ok (l.getD i d) := by
  rw [idx_ok h, List.getD_eq_getElem?_getD, List.getElem?_eq_getElem h]; rfl

theorem toNat_append8 {m : Nat} (x : BitVec m) (y : BitVec 8) : (x ++ y).toNat = x.toNat * 256 + y.toNat := by
  rw [BitVec.toNat_append, ← Nat.shiftLeft_add_eq_or_of_lt y.isLt, Nat.shiftLeft_eq]

theorem wordOfBe32 (a b c d : U8) : wordOfBe 32 [a, b, c, d] = be32 a b c d := by
  apply BitVec.eq_of_toNat_eq
  have := a.isLt; have := b.isLt; have := c.isLt; have := d.isLt
  simp only [wordOfBe, be32, toNat_append8, List.reverse_cons, List.reverse_nil, List.nil_append, List.cons_append,
    leNat, BitVec.toNat_ofNat]
  omega

theorem wordOfLe32 (a b c d : U8) : wordOfLe 32 [a, b, c, d] = le32 a b c d := by
  apply BitVec.eq_of_toNat_eq
  have := a.isLt; have := b.isLt; have := c.isLt; have := d.isLt
  simp only [wordOfLe, le32, toNat_append8, leNat, BitVec.toNat_ofNat]
  omega

theorem wordOfLe64 (a b c d e f g h : U8) : wordOfLe 64 [a, b, c, d, e, f, g, h] = le64 a b c d e f g h := by
  apply BitVec.eq_of_toNat_eq
  have := a.isLt; have := b.isLt; have := c.isLt; have := d.isLt
  have := e.isLt; have := f.isLt; have := g.isLt; have := h.isLt
  simp only [wordOfLe, le64, toNat_append8, leNat, BitVec.toNat_ofNat]
  omega

theorem beOfWord32 (x : U32) : beOfWord x = bytesBe32 x := rfl
theorem leOfWord32 (x : U32) : leOfWord x = bytesLe32 x := rfl
theorem beOfWord64 (x : U64) : beOfWord x = bytesBe64 x := rfl
theorem leOfWord64 (x : U64) : leOfWord x = bytesLe64 x := rfl

theorem chunks_cons {α : Type} {n : Nat} (hn : 0 < n) {l : List α} (h : n ≤ l.length) :
    chunks n l = l.take n :: chunks n (l.drop n) := by
  have := chunks_append hn (l.take n) (l.drop n) (by simp; omega)
  rwa [List.take_append_drop] at this

theorem words32be_chunks (l : List U8) (h : l.length % 4 = 0) :
    (chunks 4 l).map (wordOfBe 32) = words32be l := by
  induction l using words32be.induct with
  | case1 a b c d l ih =>
    rw [chunks_cons (by omega) (by simp), words32be, List.map_cons]
    simp only [List.take_succ_cons, List.take_zero, List.drop_succ_cons, List.drop_zero]
    rw [wordOfBe32, ih (by simp at h; omega)]
  | case2 l hl =>
    have : l = [] := by
      match l, h, hl with
      | [], _, _ => rfl
      | [_], h, _ => simp at h
      | [_, _], h, _ => simp at h
      | [_, _, _], h, _ => simp at h
      | a :: b :: c :: d :: l, _, hl => exact absurd rfl (hl a b c d l)
    subst this; rw [chunks_nil (by omega)]; rfl

theorem words32le_chunks (l : List U8) (h : l.length % 4 = 0) :
    (chunks 4 l).map (wordOfLe 32) = words32le l := by
  induction l using words32le.induct with
  | case1 a b c d l ih =>
    rw [chunks_cons (by omega) (by simp), words32le, List.map_cons]
    simp only [List.take_succ_cons, List.take_zero, List.drop_succ_cons, List.drop_zero]
    rw [wordOfLe32, ih (by simp at h; omega)]
  | case2 l hl =>
    have : l = [] := by
      match l, h, hl with
      | [], _, _ => rfl
      | [_], h, _ => simp at h
      | [_, _], h, _ => simp at h
      | [_, _, _], h, _ => simp at h
      | a :: b :: c :: d :: l, _, hl => exact absurd rfl (hl a b c d l)
    subst this; rw [chunks_nil (by omega)]; rfl

theorem words64le_chunks (l : List U8) (h : l.length % 8 = 0) :
    (chunks 8 l).map (wordOfLe 64) = words64le l := by
  induction l using words64le.induct with
  | case1 a b c d e f g i l ih =>
    rw [chunks_cons (by omega) (by simp), words64le, List.map_cons]
    simp only [List.take_succ_cons, List.take_zero, List.drop_succ_cons, List.drop_zero]
    rw [wordOfLe64, ih (by simp at h; omega)]
  | case2 l hl =>
    have : l = [] := by
      match l, h, hl with
      | [], _, _ => rfl
      | [_], h, _ => simp at h
      | [_, _], h, _ => simp at h
      | [_, _, _], h, _ => simp at h
      | [_, _, _, _], h, _ => simp at h
      | [_, _, _, _, _], h, _ => simp at h
      | [_, _, _, _, _, _], h, _ => simp at h
      | [_, _, _, _, _, _, _], h, _ => simp at h
      | a :: b :: c :: d :: e :: f :: g :: i :: l, _, hl => exact absurd rfl (hl a b c d e f g i l)
    subst this; rw [chunks_nil (by omega)]; rfl

theorem length_words32be (l : List U8) : (words32be l).length = l.length / 4 := by
  induction l using words32be.induct with
  | case1 a b c d l ih => simp only [words32be, List.length_cons, ih]; omega
  | case2 l hl =>
    have : l.length < 4 := by
      match l, hl with
      | [], _ => simp
      | [_], _ => simp
      | [_, _], _ => simp
      | [_, _, _], _ => simp
      | a :: b :: c :: d :: l, hl => exact absurd rfl (hl a b c d l)
    rw [words32be]
    · simp; omega
    · exact hl

theorem length_words32le (l : List U8) : (words32le l).length = l.length / 4 := by
  induction l using words32le.induct with
  | case1 a b c d l ih => simp only [words32le, List.length_cons, ih]; omega
  | case2 l hl =>
    have : l.length < 4 := by
      match l, hl with
      | [], _ => simp
      | [_], _ => simp
      | [_, _], _ => simp
      | [_, _, _], _ => simp
      | a :: b :: c :: d :: l, hl => exact absurd rfl (hl a b c d l)
    rw [words32le]
    · simp; omega
    · exact hl

theorem arrToBeWords32 {l : Nat} {b : List U8} (hl : b.length = l) (h : l % 4 = 0) :
    Seq.arrToBeWords 32 l b = .ok (words32be b) := by
  rw [Seq.arrToBeWords_ok (by decide) hl (by simpa using h)]
  congr 1
  exact words32be_chunks b (by rw [hl]; exact h)

theorem arrToLeWords32 {l : Nat} {b : List U8} (hl : b.length = l) (h : l % 4 = 0) :
    Seq.arrToLeWords 32 l b = .ok (words32le b) := by
  rw [Seq.arrToLeWords_ok (by decide) hl (by simpa using h)]
  congr 1
  exact words32le_chunks b (by rw [hl]; exact h)

theorem arrToLeWords64 {l : Nat} {b : List U8} (hl : b.length = l) (h : l % 8 = 0) :
    Seq.arrToLeWords 64 l b = .ok (words64le b) := by
  rw [Seq.arrToLeWords_ok (by decide) hl (by simpa using h)]
  congr 1
  exact words64le_chunks b (by rw [hl]; exact h)

theorem arrFromPublicSlice_ok {w l : Nat} {v : List (BitVec w)} (h : v.length = l) :
    Seq.arrFromPublicSlice l v = .ok v := by
  rw [Seq.arrFromPublicSlice, require_true h, bind_ok, Seq.arrFromVec_ok (by simpa using h)]
  exact congrArg _ (List.map_id v)

theorem updateStart_new {α : Type} [Inhabited α] {l : Nat} {v : List α} (h : v.length ≤ l) :
    Seq.updateStart (Seq.new l) v = .ok (v ++ List.replicate (l - v.length) default) := by
  rw [Seq.updateStart, Seq.updateSub_ok (by rw [Seq.length_new]; omega) (by omega)]
  simp [Seq.new]

theorem update_ok {α : Type} [Inhabited α] {s v : List α} {i : Nat} (h : i + v.length ≤ s.length) :
    Seq.update s i v = .ok (s.take i ++ v ++ s.drop (i + v.length)) := by
  rw [Seq.update, Seq.updateSub_ok h (by omega)]
  simp

theorem update_panic {α : Type} [Inhabited α] {s v : List α} {i : Nat} (h : s.length < i + v.length) :
    Seq.update s i v = panic := by
  rw [Seq.update, Seq.updateSub_panic (by omega)]

theorem updateStart_ok {α : Type} [Inhabited α] {s v : List α} (h : v.length ≤ s.length) :
    Seq.updateStart s v = .ok (v ++ s.drop v.length) := by
  rw [Seq.updateStart, Seq.updateSub_ok (by omega) (by omega)]
  simp

end Hacspec
