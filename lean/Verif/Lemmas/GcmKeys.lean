import Verif.Lemmas.Universal
import Verif.Lemmas.HashStructure

/-! # GHASH under two keys -/

namespace Hacspec.Universal

open Polynomial Spec Gf128 Spec.Gcm

theorem char_two_el (x : AdjoinRoot P) : x + x = 0 := by
  obtain ⟨p, rfl⟩ := AdjoinRoot.mk_surjective x
  change φ p + φ p = 0
  rw [← map_add, add_self, map_zero]

theorem φ_word (p : (ZMod 2)[X]) : ∃ w : U128, φ (toPoly w) = φ p := by
  induction p using Polynomial.induction_on with
  | C a =>
    have : a = 0 ∨ a = 1 := by
      match a with
      | 0 => exact .inl rfl
      | 1 => exact .inr rfl
    rcases this with rfl | rfl
    · exact ⟨0#128, by rw [toPoly_zero, C_0]⟩
    · exact ⟨1#128 <<< 127, by rw [toPoly_one, C_1]⟩
  | add p q hp hq =>
    obtain ⟨x, hx⟩ := hp
    obtain ⟨y, hy⟩ := hq
    exact ⟨x ^^^ y, by rw [toPoly_xor, map_add, map_add, hx, hy]⟩
  | monomial n a h =>
    obtain ⟨x, hx⟩ := h
    exact ⟨mulF x elX, by rw [φ_mulF, hx, toPoly_X, ← map_mul, mul_assoc, ← pow_succ]⟩

theorem el_surjective (x : AdjoinRoot P) : ∃ b : List U8, b.length = 16 ∧ el b = x := by
  obtain ⟨p, rfl⟩ := AdjoinRoot.mk_surjective x
  obtain ⟨w, hw⟩ := φ_word p
  exact ⟨SecretInt.beOfWord w, length_be w, by rw [el, blockPoly_be]; exact hw⟩

theorem eval_hpoly_two {F : Type} [Field F] (B B' : Nat → F) {n : Nat} (h : ∀ i, i < n → B i = B' i) (x : F) :
    (hpoly B (n + 1 + 1)).eval x = (hpoly B' n).eval x * x ^ 2 + B n * x ^ 2 + B (n + 1) * x := by
  rw [eval_hpoly, eval_hpoly, Finset.sum_range_succ, Finset.sum_range_succ, Finset.sum_mul,
    show n + 1 + 1 - n = 2 by omega, show n + 1 + 1 - (n + 1) = 1 by omega, pow_one]
  refine congrArg (fun y => y + B n * x ^ 2 + B (n + 1) * x) (Finset.sum_congr rfl fun i hi => ?_)
  rw [Finset.mem_range] at hi
  rw [mul_assoc, ← pow_add, show n + 1 + 1 - i = n - i + 2 by omega, h i hi]

/-- The value of GHASH on data whose last two blocks are `b` and `l`. -/
theorem el_ghash_two {k p b l : List U8} (hk : k.length = 16) (hp : p.length % 16 = 0) (hb : b.length = 16)
    (hl : l.length = 16) :
    el (ghash k (p ++ b ++ l)) = el (ghash k p) * el k ^ 2 + el b * el k ^ 2 + el l * el k := by
  obtain ⟨n, hn⟩ : ∃ n, p.length = 16 * n := ⟨p.length / 16, by omega⟩
  have hnb : nb (p ++ b ++ l) = n + 1 + 1 := by
    rw [nb, List.length_append, List.length_append]; omega
  have hnp : nb p = n := by rw [nb]; omega
  have e1 : block 16 (p ++ b ++ l) n = b := by
    rw [block, List.append_assoc, ← hn, List.drop_left, List.take_left' hb]
  have e2 : block 16 (p ++ b ++ l) (n + 1) = l := by
    rw [block, List.drop_left' (by rw [List.length_append]; omega), List.take_of_length_le hl.le]
  rw [el_ghash hk, el_ghash hk, hnb, hnp, eval_hpoly_two _ (fun i => el (block 16 p i)), e1, e2]
  intro i hi
  rw [List.append_assoc, HashStructure.block_append_left (by omega)]

/-- For two different keys there is exactly one block that makes the two masked values equal. -/
theorem two_keys {h h' p p' l e e' : List U8} (hh : h.length = 16) (hh' : h'.length = 16) (hp : p.length % 16 = 0)
    (hp' : p'.length % 16 = 0) (hl : l.length = 16) (he : e.length = 16) (he' : e'.length = 16) (hne : h ≠ h') :
    ∃ b : List U8, b.length = 16 ∧ ∀ b' : List U8, b'.length = 16 →
      (xor (ghash h (p ++ b' ++ l)) e = xor (ghash h' (p' ++ b' ++ l)) e' ↔ b' = b) := by
  have hd : (el h + el h') ^ 2 ≠ 0 := by
    intro h0
    apply hne
    apply el_inj (by omega) (by omega)
    have h1 : el h + el h' = 0 := pow_eq_zero_iff (by decide) |>.mp h0
    linear_combination h1 - char_two_el (el h')
  obtain ⟨b, hb, hx⟩ := el_surjective ((el (ghash h p) * el h ^ 2 + el (ghash h' p') * el h' ^ 2 + el l * (el h + el h') +
    el e + el e') / (el h + el h') ^ 2)
  rw [eq_div_iff hd] at hx
  refine ⟨b, hb, fun b' hb' => ?_⟩
  have hxl : ∀ a c : List U8, a.length = 16 → c.length = 16 → (xor a c).length = 16 := by
    intro a c ha hc
    rw [Spec.xor, List.length_zipWith]; omega
  have key : el (xor (ghash h (p ++ b' ++ l)) e) + el (xor (ghash h' (p' ++ b' ++ l)) e') =
      (el b' + el b) * (el h + el h') ^ 2 := by
    rw [el_xor (by rw [length_ghash, he]), el_xor (by rw [length_ghash, he']), el_ghash_two hh hp hb' hl,
      el_ghash_two hh' hp' hb' hl, add_mul, hx]
    have c := char_two_el (el h * el h' * el b')
    linear_combination -c
  have hz : ∀ x y : AdjoinRoot P, x + y = 0 ↔ x = y := by
    intro x y
    constructor
    · intro h; linear_combination h - char_two_el y
    · rintro rfl; exact char_two_el x
  constructor
  · intro h1
    rw [h1, char_two_el] at key
    rcases mul_eq_zero.mp key.symm with h2 | h2
    · exact el_inj (by omega) (by omega) ((hz _ _).mp h2)
    · exact absurd h2 hd
  · rintro rfl
    rw [char_two_el, zero_mul] at key
    refine el_inj ?_ ?_ ((hz _ _).mp key)
    · rw [hxl _ _ (length_ghash _) he, hxl _ _ (length_ghash _) he']
    · rw [hxl _ _ (length_ghash _) he]

end Hacspec.Universal
