import Verif.Model.WordHex
import Verif.Props.Seqs

/-! # C78: `from_hex` of arrays of words -/

namespace Hacspec.Props

open SecretInt Hacspec.Seq Hex

/-- **C78.**  Exactly what `from_hex` accepts and returns: one element for every two digits, whatever the size of the
elements. -/
theorem C78_exact (w l : Nat) (s : List U8) (o : List (BitVec w)) :
    wordsFromHex w l s = .ok o ↔ s.length % (w / 8) = 0 ∧
      ∃ b, seqFromHex s = .ok b ∧ b.length = l ∧ o = b.map fun x => BitVec.ofNat w x.toNat := by
  have hs : ∀ b, hexStringToBytes s = .ok b → seqFromHex s = .ok b := by
    intro b hb
    rw [seqFromHex, hb, bind_ok, fromVec, map_id_of_forall (f := classify) (fun _ _ => rfl)]
  have hs' : ∀ b, seqFromHex s = .ok b → hexStringToBytes s = .ok b := by
    intro b hb
    rw [seqFromHex] at hb
    obtain ⟨v, hv, h2⟩ := bind_eq_ok.mp hb
    rw [hv]; rw [fromVec, map_id_of_forall (f := classify) (fun _ _ => rfl)] at h2; exact h2
  have hz : ∀ b : List U8, (b.map fun x => x.setWidth w) = b.map fun x => BitVec.ofNat w x.toNat := by
    intro b
    apply List.map_congr_left
    intro x _
    apply BitVec.eq_of_toNat_eq
    rw [BitVec.toNat_setWidth, BitVec.toNat_ofNat]
  constructor
  · intro h
    rw [wordsFromHex, hexStringToVec] at h
    by_cases hm : s.length % (w / 8) = 0
    · rw [require_true hm, bind_ok] at h
      obtain ⟨v, hv, h⟩ := bind_eq_ok.mp h
      obtain ⟨b, hb, hv⟩ := bind_eq_ok.mp hv
      injection hv with hv
      subst hv
      by_cases hl : (b.map fun x => x.setWidth w).length = l
      · subst hl
        rw [require_true rfl, bind_ok, copy_loop _ _ (by rw [length_new]), List.drop_of_length_le (by rw [length_new]),
          List.append_nil] at h
        injection h with h
        exact ⟨hm, b, hs b hb, by simp, by rw [← h, hz]⟩
      · rw [require_false hl, bind_panic] at h; cases h
    · rw [require_false hm, bind_panic, bind_panic] at h; cases h
  · rintro ⟨hm, b, hb, rfl, rfl⟩
    rw [wordsFromHex, hexStringToVec, require_true hm, bind_ok, hs' b hb, bind_ok, bind_ok, require_true (by simp), bind_ok]
    have := copy_loop (b.map fun x => x.setWidth w) (new b.length) (by simp [length_new])
    rw [List.length_map] at this
    rw [this, List.drop_of_length_le (by rw [length_new]), List.append_nil, hz]

/-- `array!(X, 2, U32)`, `X::from_hex("deadbeef")` panics, `X::from_hex("beef")` is `[0xbe, 0xef]`. -/
example : wordsFromHex 32 2 ("deadbeef".toList.map fun c => BitVec.ofNat 8 c.toNat) = panic ∧
    wordsFromHex 32 2 ("beef".toList.map fun c => BitVec.ofNat 8 c.toNat) = .ok [0xbe, 0xef] := by decide +kernel

/-- **C78, refuted**: an array with an element of more than eight bits is not the value of any string. -/
theorem C78_large_refuted (w l : Nat) (x : List (BitVec w)) (h : ∃ e ∈ x, 256 ≤ e.toNat) (s : List U8) :
    wordsFromHex w l s ≠ .ok x := by
  intro hs
  obtain ⟨_, b, _, _, rfl⟩ := (C78_exact w l s x).mp hs
  obtain ⟨e, he, h⟩ := h
  obtain ⟨y, _, rfl⟩ := List.mem_map.mp he
  rw [BitVec.toNat_ofNat] at h
  have := y.isLt
  have := Nat.mod_le y.toNat (2 ^ w)
  omega

example := C78_large_refuted 32 2 [1, 0x12345678] ⟨0x12345678, by simp, by decide⟩

theorem length_toBeBytes8 {w : Nat} (x : List (BitVec w)) : (toBeBytes x).length = w / 8 * x.length := by
  induction x with
  | nil => rfl
  | cons a x ih =>
    have ha : (beOfWord a).length = w / 8 := by simp [beOfWord, leOfWord]
    rw [toBeBytes, List.flatMap_cons, List.length_append, ha, ← toBeBytes, ih, List.length_cons, Nat.mul_succ]
    omega

/-- **C78, refuted**: the hexadecimal form of the big-endian bytes of a non-empty array of words larger than a byte is
always rejected. -/
theorem C78_bytes_refuted (w : Nat) (x : List (BitVec w)) (hw : 2 ≤ w / 8) (hx : x ≠ []) :
    wordsFromHex w x.length (toHex (toBeBytes x)) = panic := by
  have hl : 0 < x.length := List.length_pos_iff.mpr hx
  rw [wordsFromHex, hexStringToVec]
  by_cases hm : (toHex (toBeBytes x)).length % (w / 8) = 0
  · rw [require_true hm, bind_ok, fromHex_toHex, bind_ok, bind_ok, require_false, bind_panic]
    rw [List.length_map, length_toBeBytes8]
    have := Nat.mul_le_mul_right x.length hw
    omega
  · rw [require_false hm, bind_panic, bind_panic]

example : wordsFromHex 64 2 (toHex (toBeBytes [1#64, 2#64])) = panic := C78_bytes_refuted 64 [1#64, 2#64] (by decide) (by simp)

/-- **C78, refuted**: for some array types, such as one element of 32 bits or three of 64 bits, every string is rejected. -/
theorem C78_never_refuted (w l : Nat) (h : 2 * l % (w / 8) ≠ 0) (s : List U8) : wordsFromHex w l s = panic := by
  rw [wordsFromHex, hexStringToVec]
  by_cases hm : s.length % (w / 8) = 0
  · rw [require_true hm, bind_ok]
    cases hb : hexStringToBytes s with
    | error e =>
      have : e = .panic := by
        clear hm h
        induction s using hexStringToBytes.induct with
        | case1 => simp [hexStringToBytes] at hb
        | case2 a => rw [hexStringToBytes] at hb; injection hb with hb; exact hb.symm
        | case3 c0 c1 rest hp =>
          rw [hexStringToBytes, hp] at hb; injection hb with hb; exact hb.symm
        | case4 c0 c1 rest b hp ih =>
          rw [hexStringToBytes, hp] at hb
          cases hr : hexStringToBytes rest with
          | error e' =>
            simp only [hr] at hb
            injection hb with hb
            exact ih (by rw [hr, hb])
          | ok v => simp only [hr] at hb; cases hb
      rw [this]; rfl
    | ok b =>
      rw [bind_ok, bind_ok, require_false, bind_panic]
      rw [List.length_map]
      intro hl
      have := (C17_accepts_only_partial s b (by
        rw [seqFromHex, hb, bind_ok, fromVec, map_id_of_forall (f := classify) (fun _ _ => rfl)])).1
      rw [this, hl] at hm
      exact h hm
  · rw [require_false hm, bind_panic, bind_panic]

example := C78_never_refuted 32 1 (by decide)
example := C78_never_refuted 64 3 (by decide)

/-- **C78 (partial).**  Arrays whose elements fit in a byte do have a representation, for the lengths not excluded by
`C78_never_refuted`.  Full statement: every array has one, the hexadecimal digits of its bytes. -/
theorem C78_bytes_partial (w : Nat) (b : List U8) (h : 2 * b.length % (w / 8) = 0) :
    wordsFromHex w b.length (toHex b) = .ok (b.map fun x => BitVec.ofNat w x.toNat) :=
  (C78_exact w _ _ _).mpr ⟨by rw [(C17_to_hex b b).1]; exact h, b, (C17_roundtrip b).1, rfl, rfl⟩

example := C78_bytes_partial 32 [0xde, 0xad] (by decide)

end Hacspec.Props
