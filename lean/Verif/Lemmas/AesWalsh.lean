import Mathlib.Algebra.BigOperators.Field
import Mathlib.Algebra.BigOperators.Fin
import Mathlib.Data.Fintype.BigOperators
import Verif.Lemmas.AesTrails
import Verif.Spec.Masks

/-! # The correlations of the S-box of AES -/

namespace Hacspec.Aes

open Hacspec.Spec Hacspec.Spec.Aes Hacspec.Ideal Finset

/-! ## The transform of Walsh and Hadamard, of numbers packed in one -/

def sg (b : Bool) : Int := if b then -1 else 1

theorem sg_xor (a b : Bool) : sg (a ^^ b) = sg a * sg b := by cases a <;> cases b <;> rfl

/-- The sum of the bits of `x` selected by `u`, of the lowest `n`. -/
def nd : Nat → Nat → Nat → Bool
  | 0, _, _ => false
  | n + 1, u, x => nd n u x ^^ (u.testBit n && x.testBit n)

theorem nd_congr : ∀ {n u u' x x' : Nat}, (∀ i < n, u.testBit i = u'.testBit i) → (∀ i < n, x.testBit i = x'.testBit i) →
    nd n u x = nd n u' x'
  | 0, _, _, _, _, _, _ => rfl
  | n + 1, _, _, _, _, h, h' => by
    rw [nd, nd, nd_congr (fun i hi => h i (by omega)) (fun i hi => h' i (by omega)), h n (by omega), h' n (by omega)]

theorem testBit_low {n x i : Nat} (h : i < n) : (2 ^ n + x).testBit i = x.testBit i := by
  rw [Nat.testBit_two_pow_add_gt h]

/-- `n` numbers in digits of 16 bits. -/
def ones : Nat → Nat
  | 0 => 0
  | n + 1 => ones n + 65536 ^ n

/-- The transform of the `2 ^ n` numbers in `P`, each increased by `o`; the test `good` is for the index and the result, increased
by `2 ^ n * o`. -/
def node (good : Nat → Nat → Nat → Bool) : Nat → Nat → Nat → Nat → Bool
  | 0, u, o, P => good u o P
  | n + 1, u, o, P =>
    let lo := P % 65536 ^ 2 ^ n
    let hi := P / 65536 ^ 2 ^ n
    node good n u (2 * o) (lo + hi) && node good n (u + 2 ^ n) (2 * o) (lo + 2 * o * ones (2 ^ n) - hi)

/-- The digits of `P`. -/
def Packs (m o P : Nat) (f : Nat → Int) : Prop :=
  (∀ x < m, -(o : Int) ≤ f x ∧ f x ≤ o) ∧ (P : Int) = ∑ x ∈ range m, (f x + o) * 65536 ^ x

theorem ones_eq (m : Nat) : (ones m : Int) = ∑ x ∈ range m, 65536 ^ x := by
  induction m with
  | zero => rfl
  | succ m ih => rw [Finset.sum_range_succ, ← ih, ones]; push_cast; rfl

theorem digits_lt {m o : Nat} (ho : 2 * o < 65536) {f : Nat → Int} (h : ∀ x < m, -(o : Int) ≤ f x ∧ f x ≤ o) :
    0 ≤ ∑ x ∈ range m, (f x + o) * 65536 ^ x ∧ ∑ x ∈ range m, (f x + o) * 65536 ^ x < 65536 ^ m := by
  induction m with
  | zero => simp
  | succ m ih =>
    obtain ⟨h1, h2⟩ := ih fun x hx => h x (by omega)
    obtain ⟨h3, h4⟩ := h m (by omega)
    have hp : (0 : Int) < 65536 ^ m := by positivity
    rw [Finset.sum_range_succ, pow_succ]
    constructor
    · have := mul_nonneg (show (0 : Int) ≤ f m + o by omega) hp.le
      omega
    · have : (f m + o) * 65536 ^ m ≤ 65535 * (65536 : Int) ^ m := mul_le_mul_of_nonneg_right (by omega) hp.le
      linarith

theorem packs_split {m o P : Nat} (ho : 2 * o < 65536) {f : Nat → Int} (h : Packs (m + m) o P f) :
    Packs m o (P % 65536 ^ m) f ∧ Packs m o (P / 65536 ^ m) fun x => f (m + x) := by
  obtain ⟨h1, h2⟩ := h
  have b1 : ∀ x < m, -(o : Int) ≤ f x ∧ f x ≤ o := fun x hx => h1 x (by omega)
  have b2 : ∀ x < m, -(o : Int) ≤ f (m + x) ∧ f (m + x) ≤ o := fun x hx => h1 _ (by omega)
  obtain ⟨l1, l2⟩ := digits_lt ho b1
  obtain ⟨l3, l4⟩ := digits_lt ho b2
  rw [Finset.sum_range_add] at h2
  have e : ∑ x ∈ range m, (f (m + x) + o) * (65536 : Int) ^ (m + x) = 65536 ^ m * ∑ x ∈ range m, (f (m + x) + o) * 65536 ^ x := by
    rw [Finset.mul_sum]
    refine Finset.sum_congr rfl fun x _ => ?_
    rw [pow_add]
    ring
  rw [e] at h2
  refine ⟨⟨b1, ?_⟩, b2, ?_⟩
  · push_cast
    rw [h2, Int.add_mul_emod_self_left, Int.emod_eq_of_lt l1 l2]
  · push_cast
    rw [h2, Int.add_mul_ediv_left _ _ (by positivity), Int.ediv_eq_zero_of_lt l1 l2, zero_add]

theorem packs_add {m o P Q : Nat} {f g : Nat → Int} (h : Packs m o P f) (h' : Packs m o Q g) :
    Packs m (2 * o) (P + Q) fun x => f x + g x := by
  refine ⟨fun x hx => ?_, ?_⟩
  · have := h.1 x hx
    have := h'.1 x hx
    push_cast
    omega
  · push_cast
    rw [h.2, h'.2, ← Finset.sum_add_distrib]
    refine Finset.sum_congr rfl fun x _ => ?_
    ring

theorem packs_sub {m o P Q : Nat} {f g : Nat → Int} (h : Packs m o P f) (h' : Packs m o Q g) :
    Packs m (2 * o) (P + 2 * o * ones m - Q) fun x => f x - g x := by
  have hle : (Q : Int) ≤ 2 * o * ones m := by
    rw [h'.2, ones_eq, Finset.mul_sum]
    refine Finset.sum_le_sum fun x hx => ?_
    have := h'.1 x (Finset.mem_range.mp hx)
    exact mul_le_mul_of_nonneg_right (by omega) (by positivity)
  have hle' : Q ≤ 2 * o * ones m := by exact_mod_cast hle
  refine ⟨fun x hx => ?_, ?_⟩
  · have := h.1 x hx
    have := h'.1 x hx
    push_cast
    omega
  · rw [Nat.cast_sub (by omega)]
    push_cast
    rw [h.2, h'.2, ones_eq, Finset.mul_sum, ← Finset.sum_add_distrib, ← Finset.sum_sub_distrib]
    refine Finset.sum_congr rfl fun x _ => ?_
    ring

theorem node_sound {good : Nat → Nat → Nat → Bool} : ∀ {n u o P : Nat} {f : Nat → Int}, 2 ^ n * o < 32768 → node good n u o P = true →
    Packs (2 ^ n) o P f → ∀ w < 2 ^ n, ∃ R : Nat, good (u + w) (2 ^ n * o) R = true ∧
      (R : Int) = ∑ x ∈ range (2 ^ n), sg (nd n w x) * f x + (2 ^ n * o : Nat)
  | 0, u, o, P, f, _, h, hp, w, hw => by
    have : w = 0 := by omega
    subst this
    refine ⟨P, by simpa [node] using h, ?_⟩
    have := hp.2
    simp [nd, sg] at this ⊢
    exact this
  | n + 1, u, o, P, f, ho, h, hp, w, hw => by
    have e : 2 ^ (n + 1) = 2 ^ n + 2 ^ n := by rw [pow_succ]; omega
    have e' : 2 ^ (n + 1) * o = 2 ^ n * (2 * o) := by rw [pow_succ]; ring
    have ho' : 2 * o < 65536 := by
      have : 1 * (2 * o) ≤ 2 ^ n * (2 * o) := Nat.mul_le_mul_right _ Nat.one_le_two_pow
      omega
    rw [node, Bool.and_eq_true] at h
    rw [e] at hp
    obtain ⟨p1, p2⟩ := packs_split ho' hp
    rw [e'] at ho ⊢
    have low : ∀ x < 2 ^ n, x.testBit n = false := fun x hx => Nat.testBit_lt_two_pow hx
    have high : ∀ x < 2 ^ n, (2 ^ n + x).testBit n = true := fun x hx => by
      rw [Nat.testBit_two_pow_add_eq, low x hx]; rfl
    by_cases hw' : w < 2 ^ n
    · obtain ⟨R, g, hR⟩ := node_sound ho h.1 (packs_add p1 p2) w hw'
      refine ⟨R, g, ?_⟩
      rw [hR, e, Finset.sum_range_add, ← Finset.sum_add_distrib]
      congr 1
      refine Finset.sum_congr rfl fun x hx => ?_
      have hx := Finset.mem_range.mp hx
      rw [nd, nd, low w hw', Bool.false_and, Bool.false_and, Bool.xor_false, Bool.xor_false,
        nd_congr (x := 2 ^ n + x) (x' := x) (fun _ _ => rfl) fun i hi => testBit_low hi, mul_add]
    · obtain ⟨v, rfl⟩ : ∃ v, w = 2 ^ n + v := ⟨w - 2 ^ n, by omega⟩
      have hv : v < 2 ^ n := by omega
      obtain ⟨R, g, hR⟩ := node_sound ho h.2 (packs_sub p1 p2) v hv
      refine ⟨R, by rw [← Nat.add_assoc]; exact g, ?_⟩
      rw [hR, e, Finset.sum_range_add, ← Finset.sum_add_distrib]
      congr 1
      refine Finset.sum_congr rfl fun x hx => ?_
      have hx := Finset.mem_range.mp hx
      rw [nd, nd, high v hv, low x hx, high x hx,
        nd_congr (u := 2 ^ n + v) (u' := v) (fun i hi => testBit_low hi) (fun _ _ => rfl),
        nd_congr (u := 2 ^ n + v) (u' := v) (x := 2 ^ n + x) (x' := x) (fun i hi => testBit_low hi) (fun i hi => testBit_low hi),
        sg_xor, sg_xor, show sg (true && false) = 1 from rfl, show sg (true && true) = -1 from rfl]
      ring

/-! ## The S-box -/

/-- The bit `y` says whether `y` has an odd number of bits. -/
def odds : Nat := 0x6996966996696996966969966996966996696996699696696996966996696996

/-- The signs of the bits of the S-box selected by `v`, each increased by 1. -/
def rowOf (v : Nat) : Nat → Nat
  | 0 => 0
  | x + 1 => rowOf v x + (2 - 2 * (odds >>> (v &&& tab x) % 2)) * 65536 ^ x

/-- At most 32, and 0 where one of the masks is 0 and the other is not. -/
def goodFor (v u o R : Nat) : Bool :=
  if v = 0 then u = 0 || R = o else if u = 0 then R = o else R ≤ o + 32 && o ≤ R + 32

def tableOk : Nat → Bool
  | 0 => true
  | v + 1 => node (goodFor v) 8 0 1 (rowOf v 256) && tableOk v

theorem linear_table : tableOk 256 = true := by decide +kernel

end Hacspec.Aes
