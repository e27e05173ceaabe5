import Verif.Spec.AesParams
import Verif.Lemmas.AesCipher
import Mathlib.Tactic.Tauto
import Mathlib.Tactic.ByContra

/-! # AES: the parameters of the block functions -/

namespace Hacspec.Aes

open SecretInt Hacspec.Seq

theorem nextWordAs_eq (w p : Nat) (ws : List (List U8)) :
    Spec.Aes.nextWordAs w p ws =
      Spec.xor (ws.getD (ws.length - w) []) (temp p ws.length (ws.getD (ws.length - 1) [])) := rfl

theorem expandAs_self (w n : Nat) (ws : List (List U8)) : Spec.Aes.expandAs w w n ws = Spec.Aes.expand w n ws := by
  induction n with
  | zero => rfl
  | succ n ih => rw [Spec.Aes.expandAs, ih]; rfl

theorem cipherAs_self (w nr' : Nat) (key s : List U8) : Spec.Aes.cipherAs w w nr' key s = Spec.Aes.cipher w nr' key s := by
  rw [Spec.Aes.cipherAs, Spec.Aes.scheduleAs, expandAs_self]; rfl

theorem length_expandAs (w p n : Nat) (ws : List (List U8)) : (Spec.Aes.expandAs w p n ws).length = ws.length + n := by
  induction n with
  | zero => rfl
  | succ n ih => rw [Spec.Aes.expandAs, List.length_append, ih]; rfl

theorem uniform_expandAs {w : Nat} (p : Nat) (hn : 0 < w) {ws : List (List U8)} (h : Uniform 4 ws) (hl : ws.length = w) (n : Nat) :
    Uniform 4 (Spec.Aes.expandAs w p n ws) := by
  induction n with
  | zero => exact h
  | succ n ih =>
    intro x hx
    rw [Spec.Aes.expandAs, List.mem_append] at hx
    rcases hx with hx | hx
    · exact ih x hx
    · simp at hx
      have hg : ∀ k, k < w + n → ((Spec.Aes.expandAs w p n ws).getD k []).length = 4 := by
        intro k hk
        rw [List.getD_eq_getElem?_getD, List.getElem?_eq_getElem (by rw [length_expandAs]; omega)]
        exact ih _ (List.getElem_mem _)
      rw [hx, nextWordAs_eq, length_xor, length_expandAs, length_temp _ _ (hg _ (by omega)), hg _ (by omega)]
      rfl

/-- The index of the table of constants is in range. -/
def Indexed (p i : Nat) : Prop := p ≠ 0 ∧ (i % p = 0 → i / p < 15)

instance indexed_dec (p i : Nat) : Decidable (Indexed p i) := inferInstanceAs (Decidable (_ ∧ _))

theorem expansionCore_as {p i : Nat} {w : List U8} (h : w.length = 4) (hi : 0 < i) :
    expansionCore w i p = if Indexed p i then .ok (temp p i w) else panic := by
  rw [expansionCore]
  by_cases hp : p = 0
  · rw [require_false (by omega), bind_panic, if_neg (fun h => h.1 hp)]
  · rw [require_true hp, bind_ok, temp]
    by_cases h1 : i % p = 0
    · rw [if_pos h1, if_pos h1]
      have hpos : 1 ≤ i / p := by
        rw [Nat.one_le_div_iff (by omega)]
        exact Nat.le_of_dvd hi (Nat.dvd_of_mod_eq_zero h1)
      by_cases hr : i / p < 15
      · rw [rcon_ok _ hr hpos, bind_ok, keygenAssist_ok h, if_pos ⟨hp, fun _ => hr⟩]; rfl
      · rw [idx_panic (show rcon.length ≤ i / p by simp only [rcon, List.length_cons, List.length_nil]; omega), bind_panic,
          if_neg (fun h => hr (h.2 h1))]
    · have hx : Indexed p i := ⟨hp, fun h => absurd h h1⟩
      rw [if_neg h1, if_neg h1, if_pos hx]
      by_cases h2 : p > 6 ∧ i % p = 4
      · rw [if_pos h2, if_pos h2, subWord_ok h]
      · rw [if_neg h2, if_neg h2]

theorem expansionWord_as {p nr' i : Nat} {w0 w1 : List U8} (h0 : w0.length = 4) (h1 : w1.length = 4) (hi : 0 < i) :
    expansionWord w0 w1 i p nr' = if i < 4 * (nr' + 1) ∧ Indexed p i then .ok (Spec.xor w0 (temp p i w1)) else panic := by
  have ht := length_temp p i h1
  rw [expansionWord]
  by_cases hb : i < 4 * (nr' + 1)
  · rw [require_true hb, bind_ok, expansionCore_as h1 hi]
    by_cases hx : Indexed p i
    · rw [if_pos hx, bind_ok, if_pos ⟨hb, hx⟩, xor_loop (by omega) (by omega),
        List.take_of_length_le (by omega), List.take_of_length_le (by omega), List.drop_of_length_le (by omega),
        List.append_nil, xor_comm']
    · rw [if_neg hx, bind_panic, if_neg (fun h => hx h.2)]
  · rw [require_false hb, bind_panic, if_neg (fun h => hb h.1)]

/-- The key schedule that is written out after `j` steps. -/
def partialAs (alg : Variant) (p : Nat) (ws : List (List U8)) (j : Nat) : List U8 :=
  (Spec.Aes.expandAs alg.words p j ws).flatten ++ List.replicate (alg.size - 4 * (alg.words + j)) 0

theorem window_partialAs {alg : Variant} {p : Nat} {ws : List (List U8)} (h : Uniform 4 ws) (hl : ws.length = alg.words) (j k : Nat)
    (hk : k < alg.words + j) (hn : 0 < alg.words) :
    ((partialAs alg p ws j).drop (4 * k)).take 4 = (Spec.Aes.expandAs alg.words p j ws).getD k [] := by
  have hu := uniform_expandAs p hn h hl j
  have hf := length_flatten_uniform hu
  rw [length_expandAs, hl] at hf
  rw [partialAs, List.drop_append_of_le_length (by omega), List.take_append_of_le_length (by rw [List.length_drop]; omega),
    window_flatten hu (by rw [length_expandAs]; omega)]

theorem expansionStep_as {alg : Variant} {p nr' : Nat} {ws : List (List U8)} (h : Uniform 4 ws) (hl : ws.length = alg.words)
    {j : Nat} (hj : j < alg.iters) (hs : alg.size = 4 * (alg.words + alg.iters)) (hn : 0 < alg.words) :
    expansionStep p nr' alg j (partialAs alg p ws j) =
      if j + alg.words < 4 * (nr' + 1) ∧ Indexed p (j + alg.words) then .ok (partialAs alg p ws (j + 1)) else panic := by
  have hu := uniform_expandAs p hn h hl j
  have hf := length_flatten_uniform hu
  rw [length_expandAs, hl] at hf
  have hlen : (partialAs alg p ws j).length = alg.size := by
    rw [partialAs, List.length_append, List.length_replicate, hf]; omega
  have hg : ∀ k, k < alg.words + j → ((Spec.Aes.expandAs alg.words p j ws).getD k []).length = 4 := by
    intro k hk
    rw [List.getD_eq_getElem?_getD, List.getElem?_eq_getElem (by rw [length_expandAs]; omega)]
    exact hu _ (List.getElem_mem _)
  rw [expansionStep]
  rw [arrFromSub4 (by omega), bind_ok, arrFromSub4 (by omega), bind_ok, window_partialAs h hl j _ (by omega) hn,
    show 4 * (j + alg.words) - 4 = 4 * (j + alg.words - 1) by omega, window_partialAs h hl j _ (by omega) hn,
    expansionWord_as (hg _ (by omega)) (hg _ (by omega)) (by omega)]
  split
  · rw [bind_ok]
    have he : Spec.xor ((Spec.Aes.expandAs alg.words p j ws).getD (j + alg.words - alg.words) [])
        (temp p (j + alg.words) ((Spec.Aes.expandAs alg.words p j ws).getD (j + alg.words - 1) [])) =
        Spec.Aes.nextWordAs alg.words p (Spec.Aes.expandAs alg.words p j ws) := by
      rw [nextWordAs_eq, length_expandAs, hl, Nat.add_comm alg.words j]
    rw [he]
    have hw : (Spec.Aes.nextWordAs alg.words p (Spec.Aes.expandAs alg.words p j ws)).length = 4 := by
      rw [← he, length_xor, length_temp _ _ (hg _ (by omega)), hg _ (by omega)]; rfl
    rw [partialAs, ChaChaPoly.update_append (by rw [hf, Nat.add_comm]) (by rw [List.length_replicate, hw]; omega), hw, partialAs,
      Spec.Aes.expandAs, List.flatten_append, List.drop_replicate]
    simp only [List.flatten_cons, List.flatten_nil, List.append_nil]
    congr 3
  · rfl

theorem loop_guarded {σ : Type} (f : Nat → σ) (Q : Nat → Prop) [DecidablePred Q] {n : Nat} {body : Nat → σ → M σ}
    (h : ∀ j, j < n → body j (f j) = if Q j then .ok (f (j + 1)) else panic) :
    ((∀ j, j < n → Q j) → loop n body (f 0) = .ok (f n)) ∧ (¬ (∀ j, j < n → Q j) → loop n body (f 0) = panic) := by
  induction n with
  | zero => exact ⟨fun _ => rfl, fun h => absurd (fun j hj => absurd hj (Nat.not_lt_zero j)) h⟩
  | succ n ih =>
    obtain ⟨i1, i2⟩ := ih (fun j hj => h j (by omega))
    by_cases hq : ∀ j, j < n → Q j
    · rw [loop_succ, i1 hq, bind_ok, h n (by omega)]
      refine ⟨fun h => if_pos (h n (by omega)), fun h => if_neg (fun hn => h (fun j hj => ?_))⟩
      rcases Nat.lt_or_ge j n with h' | h'
      · exact hq j h'
      · rwa [show j = n by omega]
    · rw [loop_succ, i2 hq]
      exact ⟨fun h => absurd (fun j hj => h j (by omega)) hq, fun _ => rfl⟩

/-- The smallest period for which the table of constants is long enough. -/
def least : Variant → Nat
  | .aes128 => 3
  | .aes256 => 4

theorem guard_iff (alg : Variant) (p nr' : Nat) :
    (∀ j, j < alg.iters → j + alg.words < 4 * (nr' + 1) ∧ Indexed p (j + alg.words)) ↔ nr alg ≤ nr' ∧ least alg ≤ p := by
  constructor
  · intro h
    constructor
    · cases alg
      · have := (h 39 (by decide)).1; simp only [Variant.words, nr] at this ⊢; omega
      · have := (h 51 (by decide)).1; simp only [Variant.words, nr] at this ⊢; omega
    · by_contra hp
      cases alg
      · have hp : p < 3 := by simpa [least] using hp
        have h1 := (h 11 (by decide)).2
        have h2 := (h 26 (by decide)).2
        rcases (show p = 0 ∨ p = 1 ∨ p = 2 by omega) with rfl | rfl | rfl
        · exact h1.1 rfl
        · exact absurd h1 (by decide)
        · exact absurd h2 (by decide)
      · have hp : p < 4 := by simpa [least] using hp
        have h1 := (h 7 (by decide)).2
        have h2 := (h 22 (by decide)).2
        have h3 := (h 37 (by decide)).2
        rcases (show p = 0 ∨ p = 1 ∨ p = 2 ∨ p = 3 by omega) with rfl | rfl | rfl | rfl
        · exact h1.1 rfl
        · exact absurd h1 (by decide)
        · exact absurd h2 (by decide)
        · exact absurd h3 (by decide)
  · rintro ⟨h1, h2⟩ j hj
    refine ⟨?_, ?_, fun _ => Nat.div_lt_of_lt_mul ?_⟩ <;> cases alg <;>
      simp only [Variant.words, Variant.iters, nr, least] at * <;> omega

theorem keyExpansion_as {alg : Variant} {key : List U8} (p nr' : Nat) (hk : key.length = 4 * nk alg) :
    keyExpansion key p nr' alg =
      if nr alg ≤ nr' ∧ least alg ≤ p then .ok (Spec.Aes.scheduleAs (nk alg) p (nr alg) key).flatten else panic := by
  have hu := uniform_blocks hk
  have hw : nk alg = alg.words := by cases alg <;> rfl
  have hl : ((List.range (nk alg)).map (Spec.block 4 key)).length = alg.words := by rw [List.length_map, List.length_range, hw]
  obtain ⟨g1, g2⟩ := loop_guarded (partialAs alg p ((List.range (nk alg)).map (Spec.block 4 key)))
      (fun j => j + alg.words < 4 * (nr' + 1) ∧ Indexed p (j + alg.words))
      (fun j hj => expansionStep_as hu hl hj (by cases alg <;> rfl) (by cases alg <;> decide))
  rw [keyExpansion, updateStart_new (by rw [hk]; cases alg <;> decide), bind_ok,
    show key ++ List.replicate (alg.size - key.length) default =
      partialAs alg p ((List.range (nk alg)).map (Spec.block 4 key)) 0 by
    rw [partialAs, Spec.Aes.expandAs, flatten_blocks hk, hk, hw, Nat.add_zero]; rfl]
  by_cases hc : nr alg ≤ nr' ∧ least alg ≤ p
  · rw [g1 ((guard_iff alg p nr').mpr hc), if_pos hc, partialAs,
      show alg.size - 4 * (alg.words + alg.iters) = 0 by cases alg <;> rfl, List.replicate_zero, List.append_nil,
      Spec.Aes.scheduleAs, ← hw, show 4 * (nr alg + 1) - nk alg = alg.iters by cases alg <;> rfl]
  · rw [g2 (fun h => hc ((guard_iff alg p nr').mp h)), if_neg hc]

theorem uniform_scheduleAs {alg : Variant} {key : List U8} (p : Nat) (hk : key.length = 4 * nk alg) :
    Uniform 4 (Spec.Aes.scheduleAs (nk alg) p (nr alg) key) :=
  uniform_expandAs p (by cases alg <;> decide) (uniform_blocks hk) (by simp) _

theorem length_scheduleAs {alg : Variant} (p : Nat) (key : List U8) :
    (Spec.Aes.scheduleAs (nk alg) p (nr alg) key).length = 4 * (nr alg + 1) := by
  rw [Spec.Aes.scheduleAs, length_expandAs, List.length_map, List.length_range]; cases alg <;> rfl

theorem blockCipher_long {k : List U8} {nr' : Nat} (h : k.length < (nr' + 1) * 16) (h16 : 16 ≤ k.length) (s : List U8) :
    blockCipher s k nr' = panic := by
  rw [blockCipher, ChaCha.arrFromSubRange_ok (by omega) (by omega) (by omega), bind_ok, fromSubRange]
  by_cases hn : 16 ≤ nr' * 16
  · rw [require_true hn, bind_ok]
    by_cases hl : nr' * 16 ≤ k.length
    · rw [fromSub_ok (by omega), bind_ok, arrFromSub, require_true rfl, bind_ok, updateSub_panic (by omega), bind_panic]
    · rw [fromSub_panic (by omega), bind_panic]
  · rw [require_false hn, bind_panic, bind_panic]

theorem encryptBlock_as {alg : Variant} {key s : List U8} (p nr' : Nat) (hk : key.length = 4 * nk alg) (hs : s.length = 16) :
    encryptBlock key s p nr' alg =
      if nr' = nr alg ∧ least alg ≤ p then .ok (Spec.Aes.cipherAs (nk alg) p (nr alg) key s) else panic := by
  have hu := uniform_scheduleAs p hk
  have hl := length_scheduleAs (alg := alg) p key
  have hf := length_flatten_uniform hu
  rw [hl] at hf
  rw [encryptBlock, keyExpansion_as p nr' hk]
  by_cases hp : least alg ≤ p
  · rcases Nat.lt_trichotomy nr' (nr alg) with h | h | h
    · rw [if_neg (by omega), bind_panic, if_neg (by omega)]
    · subst h
      rw [if_pos ⟨Nat.le_refl _, hp⟩, bind_ok, if_pos ⟨rfl, hp⟩,
        blockCipher_ok hu hl (by cases alg <;> decide) (by cases alg <;> decide) hs]
      rfl
    · rw [if_pos ⟨by omega, hp⟩, bind_ok, if_neg (by omega), blockCipher_long (by omega) (by omega)]
  · rw [if_neg (by tauto), bind_panic, if_neg (by tauto)]

/-- The inverse of the cipher with a schedule of `nr' + 1` round keys. -/
theorem cipherWith_perm {ws : List (List U8)} (h : Uniform 4 ws) {nr' : Nat} (hl : ws.length = 4 * (nr' + 1)) {t : List U8}
    (ht : t.length = 16) : ∃ s : List U8, s.length = 16 ∧
      Spec.xor (Spec.Aes.shiftRows (Spec.Aes.subBytes (Spec.Aes.rounds ws (nr' - 1) s))) (Spec.Aes.roundKey ws nr') = t ∧
      ∀ s' : List U8, s'.length = 16 →
        Spec.xor (Spec.Aes.shiftRows (Spec.Aes.subBytes (Spec.Aes.rounds ws (nr' - 1) s'))) (Spec.Aes.roundKey ws nr') = t → s' = s := by
  have hr := length_roundKey h hl (Nat.le_refl nr')
  have hx := length_xor16 ht hr
  have hi : (Spec.Aes.invSubBytes (Spec.Aes.invShiftRows (Spec.xor t (Spec.Aes.roundKey ws nr')))).length = 16 := by
    rw [length_invSubBytes, length_invShiftRows]
  refine ⟨Spec.Aes.invRounds ws (nr' - 1) (Spec.Aes.invSubBytes (Spec.Aes.invShiftRows (Spec.xor t (Spec.Aes.roundKey ws nr')))),
    length_invRounds h hl (Nat.sub_le _ 1) hi, ?_, ?_⟩
  · rw [rounds_invRounds h hl (Nat.sub_le _ 1) hi, subBytes_invSub, shift_invShift hx, xor_xor (by rw [ht, hr])]
  · intro s' hs' e
    have hq := length_rounds h hl (Nat.sub_le nr' 1) hs'
    rw [← e, xor_xor (by rw [length_shiftRows, hr]), invShift_shift (by rw [length_subBytes, hq]), invSub_subBytes,
      invRounds_rounds h hl (Nat.sub_le _ 1) hs']

/-- Beyond the number of words the period does not matter. -/
theorem temp_large {p q i : Nat} (h0 : 0 < i) (hp : i < p) (hq : i < q) (h : 6 < p) (h' : 6 < q) (w : List U8) :
    temp p i w = temp q i w := by
  rw [temp, temp, Nat.mod_eq_of_lt hp, Nat.mod_eq_of_lt hq, if_neg (show ¬ i = 0 by omega), if_neg (show ¬ i = 0 by omega)]
  simp only [h, h', true_and]

theorem expandAs_large {w p q n : Nat} (h0 : 0 < w) (hp : w + n ≤ p) (hq : w + n ≤ q) (h : 6 < p) (h' : 6 < q) {ws : List (List U8)}
    (hl : ws.length = w) : Spec.Aes.expandAs w p n ws = Spec.Aes.expandAs w q n ws := by
  induction n with
  | zero => rfl
  | succ n ih =>
    rw [Spec.Aes.expandAs, Spec.Aes.expandAs, ih (by omega) (by omega), nextWordAs_eq, nextWordAs_eq, length_expandAs, hl,
      temp_large (by omega) (by omega) (by omega) h h']

end Hacspec.Aes
