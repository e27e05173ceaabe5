import Verif.Lemmas.Seq
import Verif.Model.VecInt

/-! # Element-wise loops -/

namespace Hacspec.VecInt

open SecretInt Hacspec.Seq

variable {w : Nat}

theorem zipLoop_ok {op : BitVec w → BitVec w → M (BitVec w)} {f : BitVec w → BitVec w → BitVec w}
    {a b out : List (BitVec w)} (hl : a.length = b.length) (ho : out.length = a.length)
    (h : ∀ i (h1 : i < a.length) (h2 : i < b.length), op a[i] b[i] = .ok (f a[i] b[i])) :
    zipLoop op a b out = .ok (List.zipWith f a b) := by
  rw [zipLoop, fill_loop (o := 0) (fun i => f (a.getD i 0#w) (b.getD i 0#w))]
  · rw [List.take_zero, List.nil_append, Nat.zero_add, List.drop_of_length_le (by omega), List.append_nil]
    congr 1
    apply List.ext_getElem
    · simp [hl]
    · intro i h1 h2
      simp at h1 h2
      simp [List.getD_eq_getElem?_getD, List.getElem?_eq_getElem h1,
        List.getElem?_eq_getElem (show i < b.length by omega)]
  · intro i hi t ht
    have hb : i < b.length := by omega
    rw [idx_ok hi, bind_ok, idx_ok hb, bind_ok, h i hi hb, bind_ok, Nat.zero_add, setIdx_ok (by omega)]
    simp [List.getD_eq_getElem?_getD, List.getElem?_eq_getElem hi, List.getElem?_eq_getElem hb]
  · omega

theorem arrXorSecret_ok {l : Nat} {a b : List (BitVec w)} (ha : a.length = l) (hb : b.length = l) :
    arrXorSecret l a b = .ok (List.zipWith (· ^^^ ·) a b) := by
  rw [arrXorSecret]; exact zipLoop_ok (by omega) (by rw [length_new, ha]) (fun _ _ _ => rfl)

end Hacspec.VecInt
