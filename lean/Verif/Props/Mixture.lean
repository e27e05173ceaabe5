import Verif.Props.Impossible
import Verif.Lemmas.AesIntegral

/-! # C146: pairs of blocks with parts exchanged, through four rounds of AES -/

namespace Hacspec.Props

open Hacspec.Aes

/-- The first block with some of its diagonals replaced by those of the second; byte `i` is in row `i % 4` and column `i / 4`, and the
diagonal of a byte is its column minus its row. -/
def exchange (m : Nat → Bool) (a b : List U8) : List U8 :=
  (List.range 16).map fun i => if m ((i / 4 + 4 - i % 4) % 4) = true then b.getD i 0 else a.getD i 0

theorem length_exchange (m : Nat → Bool) (a b : List U8) : (exchange m a b).length = 16 := by
  rw [exchange, List.length_map, List.length_range]

theorem exchange_getD (m : Nat → Bool) (a b : List U8) {i : Nat} (hi : i < 16) :
    (exchange m a b).getD i 0 = if m ((i / 4 + 4 - i % 4) % 4) = true then b.getD i 0 else a.getD i 0 := by
  rw [exchange, List.getD_eq_getElem?_getD, List.getElem?_map, List.getElem?_range hi]
  rfl

theorem outByte_congr {b b' : Nat → U8} {k : U8} {p : Nat} (h : ∀ i < 4, b (source p i) = b' (source p i)) : outByte b k p = outByte b' k p := by
  rw [outByte, outByte, h 0 (by decide), h 1 (by decide), h 2 (by decide), h 3 (by decide)]

/-- A round maps the diagonals to the columns. -/
theorem exchange_round {m : Nat → Bool} {a b k a1 b1 q1 : List U8} (ha : a.length = 16) (hb : b.length = 16) (hk : k.length = 16)
    (ea : aesEnc a k = .ok a1) (eb : aesEnc b k = .ok b1) (eq : aesEnc (exchange m a b) k = .ok q1) {p : Nat} (hp : p < 16) :
    q1.getD p 0 = if m (p / 4) = true then b1.getD p 0 else a1.getD p 0 := by
  rw [aesEnc_byte (length_exchange m a b) hk eq hp, aesEnc_byte ha hk ea hp, aesEnc_byte hb hk eb hp]
  have hd : ∀ p < 16, ∀ i < 4, source p i < 16 ∧ (source p i / 4 + 4 - source p i % 4) % 4 = p / 4 := by decide +kernel
  have hx : ∀ i < 4, (exchange m a b).getD (source p i) 0 =
      if m (p / 4) = true then b.getD (source p i) 0 else a.getD (source p i) 0 := fun i hi => by
    rw [exchange_getD m a b (hd p hp i hi).1, (hd p hp i hi).2]
  split
  · rename_i h
    simp only [if_pos h] at hx
    exact outByte_congr hx
  · rename_i h
    simp only [if_neg h] at hx
    exact outByte_congr hx

/-- The next round keeps the difference of the blocks, whichever bytes are exchanged. -/
theorem outByte_diff {x x' y y' : Nat → U8} {k : U8} {p : Nat}
    (h : ∀ i < 4, (x (source p i) = y (source p i) ∧ x' (source p i) = y' (source p i)) ∨
      (x (source p i) = y' (source p i) ∧ x' (source p i) = y (source p i))) :
    outByte x k p ^^^ outByte x' k p = outByte y k p ^^^ outByte y' k p := by
  have g (i : Nat) (hi : i < 4) : Spec.Aes.gmul (coeff p i) (Spec.Aes.sub (x (source p i))) ^^^ Spec.Aes.gmul (coeff p i) (Spec.Aes.sub (x' (source p i))) =
      Spec.Aes.gmul (coeff p i) (Spec.Aes.sub (y (source p i))) ^^^ Spec.Aes.gmul (coeff p i) (Spec.Aes.sub (y' (source p i))) := by
    rcases h i hi with ⟨e, e'⟩ | ⟨e, e'⟩
    · rw [e, e']
    · rw [e, e', BitVec.xor_comm]
  rw [outByte, outByte, outByte, outByte, xor4, xor4, g 0 (by decide), g 1 (by decide), g 2 (by decide), g 3 (by decide)]

/-- **C146**  Two rounds give the same difference for the pair and for the pair with diagonals exchanged. -/
theorem C146_two_rounds {m : Nat → Bool} {a b k1 k2 a1 b1 a2 b2 q1 r1 q2 r2 : List U8} (ha : a.length = 16) (hb : b.length = 16)
    (h1 : k1.length = 16) (h2 : k2.length = 16) (ea1 : aesEnc a k1 = .ok a1) (eb1 : aesEnc b k1 = .ok b1)
    (eq1 : aesEnc (exchange m a b) k1 = .ok q1) (er1 : aesEnc (exchange m b a) k1 = .ok r1) (ea2 : aesEnc a1 k2 = .ok a2)
    (eb2 : aesEnc b1 k2 = .ok b2) (eq2 : aesEnc q1 k2 = .ok q2) (er2 : aesEnc r1 k2 = .ok r2) {p : Nat} (hp : p < 16) :
    q2.getD p 0 ^^^ r2.getD p 0 = a2.getD p 0 ^^^ b2.getD p 0 := by
  have la := length_aesEnc ha h1 ea1
  have lb := length_aesEnc hb h1 eb1
  have lq := length_aesEnc (length_exchange m a b) h1 eq1
  have lr := length_aesEnc (length_exchange m b a) h1 er1
  rw [aesEnc_byte la h2 ea2 hp, aesEnc_byte lb h2 eb2 hp, aesEnc_byte lq h2 eq2 hp, aesEnc_byte lr h2 er2 hp]
  refine outByte_diff fun i hi => ?_
  have hs : source p i < 16 := Nat.mod_lt _ (by decide)
  have e1 := exchange_round ha hb h1 ea1 eb1 eq1 hs
  have e2 := exchange_round hb ha h1 eb1 ea1 er1 hs
  rw [e1, e2]
  by_cases h : m (source p i / 4) = true
  · rw [if_pos h, if_pos h]
    exact .inr ⟨rfl, rfl⟩
  · rw [if_neg h, if_neg h]
    exact .inl ⟨rfl, rfl⟩

theorem act_zero_iff (s t : List U8) (i : Nat) : act s t i = 0 ↔ s.getD i 0 = t.getD i 0 := by
  rw [act, nz_xor_eq]
  by_cases h : s.getD i 0 = t.getD i 0
  · simp
  · simp

/-- After one more round and the last one, four bytes are equal exactly if the bytes from which they come are. -/
theorem four_equal {s t s1 t1 s2 t2 k k' : List U8} (hs : s.length = 16) (ht : t.length = 16) (hk : k.length = 16) (hk' : k'.length = 16)
    (es : aesEnc s k = .ok s1) (et : aesEnc t k = .ok t1) (es' : aesEncLast s1 k' = .ok s2) (et' : aesEncLast t1 k' = .ok t2) {c : Nat}
    (hc : c < 4) : (∀ r < 4, s2.getD ((4 * c + 13 * r) % 16) 0 = t2.getD ((4 * c + 13 * r) % 16) 0) ↔
      ∀ r < 4, act s t ((4 * c + 5 * r) % 16) = 0 := by
  have ls := length_aesEnc hs hk es
  have lt := length_aesEnc ht hk et
  have e : (∀ r < 4, s2.getD ((4 * c + 13 * r) % 16) 0 = t2.getD ((4 * c + 13 * r) % 16) 0) ↔ ∀ r < 4, act s1 t1 (4 * c + r) = 0 :=
    forall_congr' fun r => imp_congr_right fun hr => by rw [← act_zero_iff, last_act ls lt hk' es' et' hc hr]
  have four (f : Nat → Nat) : (∀ r < 4, f r = 0) ↔ f 0 + f 1 + f 2 + f 3 = 0 := by
    constructor
    · intro h
      rw [h 0 (by decide), h 1 (by decide), h 2 (by decide), h 3 (by decide)]
    · intro h r hr
      obtain rfl | rfl | rfl | rfl : r = 0 ∨ r = 1 ∨ r = 2 ∨ r = 3 := by omega
      all_goals omega
  rw [e, four, four]
  obtain ⟨l0, l1, l2, l3⟩ := round_link hs ht hk es et
  have x := act_le s t
  have y := act_le s1 t1
  have hlink {i0 i1 i2 i3 o0 o1 o2 o3 : Nat} (h : Link i0 i1 i2 i3 o0 o1 o2 o3) (a0 : i0 ≤ 1) (a1 : i1 ≤ 1) (a2 : i2 ≤ 1) (a3 : i3 ≤ 1)
      (b0 : o0 ≤ 1) (b1 : o1 ≤ 1) (b2 : o2 ≤ 1) (b3 : o3 ≤ 1) : o0 + o1 + o2 + o3 = 0 ↔ i0 + i1 + i2 + i3 = 0 := by
    unfold Link at h
    omega
  obtain rfl | rfl | rfl | rfl : c = 0 ∨ c = 1 ∨ c = 2 ∨ c = 3 := by omega
  · exact hlink l0 (x _) (x _) (x _) (x _) (y _) (y _) (y _) (y _)
  · exact hlink l1 (x _) (x _) (x _) (x _) (y _) (y _) (y _) (y _)
  · exact hlink l2 (x _) (x _) (x _) (x _) (y _) (y _) (y _) (y _)
  · exact hlink l3 (x _) (x _) (x _) (x _) (y _) (y _) (y _) (y _)

theorem exchange_xor {s t k : List U8} (hs : s.length = 16) (ht : t.length = 16) (hk : k.length = 16) (m : Nat → Bool) :
    Spec.xor (exchange m s t) k = exchange m (Spec.xor s k) (Spec.xor t k) := by
  have g {s k : List U8} (hs : s.length = 16) (hk : k.length = 16) {i : Nat} (hi : i < 16) :
      (Spec.xor s k).getD i 0 = s.getD i 0 ^^^ k.getD i 0 := by
    rw [Spec.xor, List.getD_eq_getElem?_getD, List.getD_eq_getElem?_getD, List.getD_eq_getElem?_getD, List.getElem?_zipWith,
      List.getElem?_eq_getElem (by omega), List.getElem?_eq_getElem (by omega)]
    rfl
  apply List.ext_getElem
  · rw [length_xor16 (length_exchange m s t) hk, length_exchange]
  · intro i h1 h2
    have hi : i < 16 := by rwa [length_exchange] at h2
    have e := g (length_exchange m s t) hk hi
    rw [exchange_getD m s t hi] at e
    have e' := exchange_getD m (Spec.xor s k) (Spec.xor t k) hi
    rw [g hs hk hi, g ht hk hi] at e'
    rw [List.getD_eq_getElem?_getD, List.getElem?_eq_getElem h1, Option.getD_some] at e
    rw [List.getD_eq_getElem?_getD, List.getElem?_eq_getElem h2, Option.getD_some] at e'
    rw [e, e']
    split <;> rfl

/-- **C146**  The block function with the parameter `nr = 4` and any round keys: the ciphertexts of two blocks agree in one of the four sets
of four bytes exactly if those of the two blocks with some diagonals exchanged do. -/
theorem C146_block_cipher {s t key a b a' b' : List U8} (m : Nat → Bool) (hs : s.length = 16) (ht : t.length = 16) (hk : key.length = 80)
    (ea : blockCipher s key 4 = .ok a) (eb : blockCipher t key 4 = .ok b) (ea' : blockCipher (exchange m s t) key 4 = .ok a')
    (eb' : blockCipher (exchange m t s) key 4 = .ok b') (c : Nat) (hc : c < 4) :
    (∀ r < 4, a.getD ((4 * c + 13 * r) % 16) 0 = b.getD ((4 * c + 13 * r) % 16) 0) ↔
      ∀ r < 4, a'.getD ((4 * c + 13 * r) % 16) 0 = b'.getD ((4 * c + 13 * r) % 16) 0 := by
  have hk' : key.length = 4 * 20 := hk
  have hu := uniform_blocks hk'
  have hl : ((List.range 20).map (Spec.block 4 key)).length = 4 * (4 + 1) := by rw [List.length_map, List.length_range]
  have hb (s : List U8) (hs : s.length = 16) := blockCipher_ok hu hl (by decide) (by decide) hs
  rw [flatten_blocks hk'] at hb
  have hq := length_exchange m s t
  have hq' := length_exchange m t s
  rw [hb s hs, Except.ok.injEq] at ea
  rw [hb t ht, Except.ok.injEq] at eb
  rw [hb _ hq, Except.ok.injEq] at ea'
  rw [hb _ hq', Except.ok.injEq] at eb'
  generalize (List.range 20).map (Spec.block 4 key) = ws at hu hl ea eb ea' eb'
  have hr (r : Nat) (hr : r ≤ 4) := length_roundKey hu hl hr
  have hn (n : Nat) (h : n ≤ 4) (s : List U8) (hs : s.length = 16) := length_rounds hu hl h hs
  have step (n : Nat) (h : n < 4) (s : List U8) (hs : s.length = 16) :
      aesEnc (Spec.Aes.rounds ws n s) (Spec.Aes.roundKey ws (n + 1)) = .ok (Spec.Aes.rounds ws (n + 1) s) :=
    aesEnc_ok (hn n (by omega) s hs) (hr (n + 1) h)
  have last (s a : List U8) (hs : s.length = 16)
      (ea : Spec.xor (Spec.Aes.shiftRows (Spec.Aes.subBytes (Spec.Aes.rounds ws (4 - 1) s))) (Spec.Aes.roundKey ws 4) = a) :
      aesEncLast (Spec.Aes.rounds ws 3 s) (Spec.Aes.roundKey ws 4) = .ok a :=
    (aesEncLast_ok (hn 3 (by decide) s hs) (hr 4 (by decide))).trans (congrArg Except.ok ea)
  rw [four_equal (hn 2 (by decide) s hs) (hn 2 (by decide) t ht) (hr 3 (by decide)) (hr 4 (by decide)) (step 2 (by decide) s hs)
      (step 2 (by decide) t ht) (last s a hs ea) (last t b ht eb) hc,
    four_equal (hn 2 (by decide) _ hq) (hn 2 (by decide) _ hq') (hr 3 (by decide)) (hr 4 (by decide)) (step 2 (by decide) _ hq)
      (step 2 (by decide) _ hq') (last _ a' hq ea') (last _ b' hq' eb') hc]
  refine forall_congr' fun r => imp_congr_right fun _ => ?_
  have e0 : Spec.Aes.rounds ws 0 (exchange m s t) = exchange m (Spec.Aes.rounds ws 0 s) (Spec.Aes.rounds ws 0 t) :=
    exchange_xor hs ht (hr 0 (by decide)) m
  have e0' : Spec.Aes.rounds ws 0 (exchange m t s) = exchange m (Spec.Aes.rounds ws 0 t) (Spec.Aes.rounds ws 0 s) :=
    exchange_xor ht hs (hr 0 (by decide)) m
  have h := C146_two_rounds (m := m) (p := (4 * c + 5 * r) % 16) (hn 0 (by decide) s hs) (hn 0 (by decide) t ht) (hr 1 (by decide))
    (hr 2 (by decide)) (step 0 (by decide) s hs) (step 0 (by decide) t ht) (by rw [← e0]; exact step 0 (by decide) _ hq)
    (by rw [← e0']; exact step 0 (by decide) _ hq') (step 1 (by decide) s hs) (step 1 (by decide) t ht) (step 1 (by decide) _ hq)
    (step 1 (by decide) _ hq') (Nat.mod_lt _ (by decide))
  rw [act, act, h]

/-! ## Cases -/

/-- Blocks with three bytes that are not 0, in three diagonals. -/
def threeBytes (x y z : U8) : List U8 := [x, 0, 0, 0, y, 0, 0, 0, z, 0, 0, 0, 0, 0, 0, 0]

/-- The first diagonal. -/
def firstDiagonal (c : Nat) : Bool := c == 0

/-- The four bytes that belong to a column are equal after `nr` rounds with the keys `0, 1, ...`. -/
def agreeAfter (nr c : Nat) (s t : List U8) : Option Bool :=
  match blockCipher s ((List.range (16 * (nr + 1))).map (BitVec.ofNat 8)) nr, blockCipher t ((List.range (16 * (nr + 1))).map (BitVec.ofNat 8)) nr with
  | .ok a, .ok b => some ((List.range 4).all fun r => a.getD ((4 * c + 13 * r) % 16) 0 == b.getD ((4 * c + 13 * r) % 16) 0)
  | _, _ => none

example : exchange firstDiagonal (threeBytes 108 97 2) (threeBytes 255 234 2) = threeBytes 255 97 2 ∧
    exchange firstDiagonal (threeBytes 255 234 2) (threeBytes 108 97 2) = threeBytes 108 234 2 := by decide +kernel

/-- Two pairs of which one comes from the other, and four rounds after which both agree. -/
example : agreeAfter 4 2 (threeBytes 108 97 2) (threeBytes 255 234 2) = some true ∧
    agreeAfter 4 2 (threeBytes 255 97 2) (threeBytes 108 234 2) = some true := by decide +kernel

/-- **C146**  With five rounds one pair can agree and the other not. -/
theorem C146_five_refuted : ∃ m s t, agreeAfter 5 0 s t = some true ∧ agreeAfter 5 0 (exchange m s t) (exchange m t s) = some false :=
  ⟨firstDiagonal, threeBytes 242 18 3, threeBytes 64 27 3, by decide +kernel, by decide +kernel⟩

end Hacspec.Props
