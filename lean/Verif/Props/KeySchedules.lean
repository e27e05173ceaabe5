import Verif.Props.Aess

/-! # C86: the key schedule of AES is reversible -/

namespace Hacspec.Props

open SecretInt Spec Hacspec.Seq
open Hacspec.Aes (Variant Uniform temp)
open Spec.Aes (expand)

/-! ## Words -/

theorem getD_expand_le (nk : Nat) (ws : List (List U8)) {n m k : Nat} (hnm : n ≤ m) (hk : k < ws.length + n) :
    (expand nk m ws).getD k [] = (expand nk n ws).getD k [] := by
  induction m with
  | zero => rw [Nat.le_zero.mp hnm]
  | succ m ih =>
    rcases Nat.lt_or_ge n (m + 1) with h | h
    · rw [expand, getD_append_lt (by rw [Hacspec.Aes.length_expand]; omega), ih (by omega)]
    · rw [Nat.le_antisymm hnm h]

theorem getD_expand {nk N : Nat} {ws : List (List U8)} (hl : ws.length = nk) {j : Nat} (hj : j < N) (hn : 0 < nk) :
    (expand nk N ws).getD (j + nk) [] =
      Spec.xor ((expand nk N ws).getD j []) (temp nk (j + nk) ((expand nk N ws).getD (j + nk - 1) [])) := by
  rw [getD_expand_le nk ws (n := j + 1) (by omega) (by omega), getD_expand_le nk ws (n := j) (m := N) (k := j) (by omega) (by omega),
    getD_expand_le nk ws (n := j) (m := N) (k := j + nk - 1) (by omega) (by omega), expand]
  have e : (expand nk j ws).length = j + nk := by rw [Hacspec.Aes.length_expand, hl, Nat.add_comm]
  rw [List.getD_eq_getElem?_getD, List.getElem?_append_right (by omega), e, Nat.sub_self, Hacspec.Aes.nextWord_eq, e,
    Nat.add_sub_cancel]
  rfl

theorem length_getD_expand {nk N : Nat} (hn : 0 < nk) {ws : List (List U8)} (h : Uniform 4 ws) (hl : ws.length = nk) {k : Nat}
    (hk : k < nk + N) : ((expand nk N ws).getD k []).length = 4 := by
  rw [List.getD_eq_getElem?_getD, List.getElem?_eq_getElem (by rw [Hacspec.Aes.length_expand]; omega)]
  exact Hacspec.Aes.uniform_expand hn h hl N _ (List.getElem_mem _)

theorem window_unique {nk N : Nat} (hn : 2 ≤ nk) {ws ws' : List (List U8)} (hu : Uniform 4 ws) (hu' : Uniform 4 ws')
    (hl : ws.length = nk) (hl' : ws'.length = nk) (i : Nat) (hi : i ≤ N)
    (h : ∀ t, t < nk → (expand nk N ws).getD (i + t) [] = (expand nk N ws').getD (i + t) []) : ws = ws' := by
  induction i with
  | zero =>
    refine ChaCha.ext_getD [] (by omega) fun t ht => ?_
    have := h t (by omega)
    rwa [Nat.zero_add, getD_expand_le nk ws (n := 0) (by omega) (by omega),
      getD_expand_le nk ws' (n := 0) (by omega) (by omega)] at this
  | succ i ih =>
    refine ih (by omega) fun t ht => ?_
    rcases Nat.eq_zero_or_pos t with rfl | ht0
    · have h1 := h (nk - 1) (by omega)
      have h2 := h (nk - 2) (by omega)
      rw [show i + 1 + (nk - 1) = i + nk by omega, getD_expand hl (by omega) (by omega), getD_expand hl' (by omega) (by omega),
        show i + nk - 1 = i + 1 + (nk - 2) by omega, h2] at h1
      have l1 := length_getD_expand (by omega) hu hl (k := i) (N := N) (by omega)
      have l2 := length_getD_expand (by omega) hu' hl' (k := i) (N := N) (by omega)
      have l3 := Hacspec.Aes.length_temp nk (i + nk)
        (length_getD_expand (by omega) hu' hl' (k := i + 1 + (nk - 2)) (N := N) (by omega))
      have := congrArg (fun x => Spec.xor x (temp nk (i + nk) ((expand nk N ws').getD (i + 1 + (nk - 2)) []))) h1
      rwa [Hacspec.Aes.xor_xor (by omega), Hacspec.Aes.xor_xor (by omega)] at this
    · have := h (t - 1) (by omega)
      rwa [show i + 1 + (t - 1) = i + t by omega] at this

theorem window_exists {nk N : Nat} (hn : 2 ≤ nk) (i : Nat) (hi : i ≤ N) (v : Nat → List U8) (hv : ∀ t, t < nk → (v t).length = 4) :
    ∃ ws, Uniform 4 ws ∧ ws.length = nk ∧ ∀ t, t < nk → (expand nk N ws).getD (i + t) [] = v t := by
  induction i generalizing v with
  | zero =>
    refine ⟨(List.range nk).map v, fun w hw => ?_, by simp, fun t ht => ?_⟩
    · obtain ⟨t, ht, rfl⟩ := List.mem_map.mp hw
      exact hv t (List.mem_range.mp ht)
    · rw [Nat.zero_add, getD_expand_le nk _ (n := 0) (by omega) (by simp; omega), expand, List.getD_eq_getElem?_getD,
        List.getElem?_map, List.getElem?_range ht]; rfl
  | succ i ih =>
    have lt := Hacspec.Aes.length_temp nk (i + nk) (hv (nk - 2) (by omega))
    obtain ⟨ws, h1, h2, h3⟩ := ih (by omega)
      (fun t => if t = 0 then Spec.xor (v (nk - 1)) (temp nk (i + nk) (v (nk - 2))) else v (t - 1)) (by
        intro t ht
        split
        · rw [Hacspec.Aes.length_xor, lt, hv _ (by omega)]; rfl
        · exact hv _ (by omega))
    refine ⟨ws, h1, h2, fun t ht => ?_⟩
    rcases Nat.lt_or_ge t (nk - 1) with h | h
    · have := h3 (t + 1) (by omega)
      rwa [if_neg (by omega), Nat.add_sub_cancel, show i + (t + 1) = i + 1 + t by omega] at this
    · obtain rfl : t = nk - 1 := by omega
      have e0 := h3 0 (by omega)
      have e1 := h3 (nk - 1) (by omega)
      rw [if_pos rfl, Nat.add_zero] at e0
      rw [if_neg (by omega), show nk - 1 - 1 = nk - 2 by omega] at e1
      rw [show i + 1 + (nk - 1) = i + nk by omega, getD_expand h2 (by omega) (by omega), e0,
        show i + nk - 1 = i + (nk - 1) by omega, e1, Hacspec.Aes.xor_xor (by rw [hv _ (by omega), lt])]

/-! ## Keys -/

theorem take_drop_getD (W : List (List U8)) (i n : Nat) (h : i + n ≤ W.length) :
    (W.drop i).take n = (List.range n).map fun t => W.getD (i + t) [] := by
  refine ChaCha.ext_getD [] (by simp; omega) fun t ht => ?_
  rw [List.length_take, List.length_drop] at ht
  simp only [List.getD_eq_getElem?_getD, List.getElem?_take, List.getElem?_drop, List.getElem?_map,
    List.getElem?_range (show t < n by omega), if_pos (show t < n by omega), Option.map_some, Option.getD_some]

theorem flatten_inj {l l' : List (List U8)} (h : Uniform 4 l) (h' : Uniform 4 l') (e : l.flatten = l'.flatten) : l = l' := by
  induction l generalizing l' with
  | nil =>
    cases l' with
    | nil => rfl
    | cons x l' =>
      have hx := h' x (List.mem_cons_self ..)
      rw [List.flatten_nil, List.flatten_cons] at e
      have := congrArg List.length e
      rw [List.length_append, hx, List.length_nil] at this
      omega
  | cons x l ih =>
    have hx := h x (List.mem_cons_self ..)
    cases l' with
    | nil =>
      rw [List.flatten_nil, List.flatten_cons] at e
      have := congrArg List.length e
      rw [List.length_append, hx, List.length_nil] at this
      omega
    | cons y l' =>
      have hy := h' y (List.mem_cons_self ..)
      rw [List.flatten_cons, List.flatten_cons] at e
      obtain ⟨e1, e2⟩ := List.append_inj e (by rw [hx, hy])
      rw [e1, ih (fun w hw => h w (List.mem_cons_of_mem _ hw)) (fun w hw => h' w (List.mem_cons_of_mem _ hw)) e2]

/-- The expanded key. -/
def Expanded (alg : Variant) (key e : List U8) : Prop :=
  Hacspec.Aes.keyExpansion key (Hacspec.Aes.nk alg) (Hacspec.Aes.nr alg) alg = .ok e

theorem window_schedule {alg : Variant} {key : List U8} (hk : key.length = 4 * Hacspec.Aes.nk alg) {i : Nat}
    (hi : 4 * i + 4 * Hacspec.Aes.nk alg ≤ alg.size) {e : List U8} (he : Expanded alg key e) :
    (e.drop (4 * i)).take (4 * Hacspec.Aes.nk alg) =
      ((List.range (Hacspec.Aes.nk alg)).map fun t => (expand (Hacspec.Aes.nk alg) (4 * (Hacspec.Aes.nr alg + 1) - Hacspec.Aes.nk alg)
        ((List.range (Hacspec.Aes.nk alg)).map (Spec.block 4 key))).getD (i + t) []).flatten := by
  have hs : alg.size = 16 * (Hacspec.Aes.nr alg + 1) := by cases alg <;> rfl
  have hu := Hacspec.Aes.uniform_schedule (alg := alg) hk
  have hl := Hacspec.Aes.length_schedule (alg := alg) key
  rw [Expanded, C42_key_expansion alg key hk] at he
  injection he with he
  rw [← he, Hacspec.Aes.drop_flatten_uniform hu, Hacspec.Aes.take_flatten_uniform (Hacspec.Aes.uniform_drop hu),
    take_drop_getD _ _ _ (by rw [hl]; omega)]
  rfl

/-- **C86.**  At every position of the expanded key, a window of as many bytes as the key takes every value for exactly one
key. -/
theorem C86_window (alg : Variant) (i : Nat) (hi : 4 * i + 4 * Hacspec.Aes.nk alg ≤ alg.size) (v : List U8)
    (hv : v.length = 4 * Hacspec.Aes.nk alg) :
    ∃ key e, key.length = 4 * Hacspec.Aes.nk alg ∧ Expanded alg key e ∧
      (e.drop (4 * i)).take (4 * Hacspec.Aes.nk alg) = v ∧
      ∀ key' e', key'.length = 4 * Hacspec.Aes.nk alg → Expanded alg key' e' →
        (e'.drop (4 * i)).take (4 * Hacspec.Aes.nk alg) = v → key' = key := by
  have hs : alg.size = 16 * (Hacspec.Aes.nr alg + 1) := by cases alg <;> rfl
  have hn : 2 ≤ Hacspec.Aes.nk alg := by cases alg <;> decide
  have hub := Hacspec.Aes.uniform_blocks hv
  obtain ⟨ws, h1, h2, h3⟩ := window_exists (N := 4 * (Hacspec.Aes.nr alg + 1) - Hacspec.Aes.nk alg) hn i (by omega)
    (fun t => Spec.block 4 v t) (fun t ht => hub _ (List.mem_map_of_mem (List.mem_range.mpr ht)))
  have hk : ws.flatten.length = 4 * Hacspec.Aes.nk alg := by rw [Hacspec.Aes.length_flatten_uniform h1, h2]
  have blk : (List.range (Hacspec.Aes.nk alg)).map (Spec.block 4 ws.flatten) = ws :=
    flatten_inj (Hacspec.Aes.uniform_blocks hk) h1 (Hacspec.Aes.flatten_blocks hk)
  have win : ∀ key' e', key'.length = 4 * Hacspec.Aes.nk alg → Expanded alg key' e' →
      (e'.drop (4 * i)).take (4 * Hacspec.Aes.nk alg) = v → ∀ t, t < Hacspec.Aes.nk alg →
        (expand (Hacspec.Aes.nk alg) (4 * (Hacspec.Aes.nr alg + 1) - Hacspec.Aes.nk alg)
          ((List.range (Hacspec.Aes.nk alg)).map (Spec.block 4 key'))).getD (i + t) [] = Spec.block 4 v t := by
    intro key' e' hk' he' hw t ht
    rw [window_schedule hk' hi he'] at hw
    have hw := flatten_inj ?_ hub (hw.trans (Hacspec.Aes.flatten_blocks hv).symm)
    · have := congrArg (fun l => l.getD t []) hw
      simpa only [List.getD_eq_getElem?_getD, List.getElem?_map, List.getElem?_range ht, Option.map_some, Option.getD_some]
        using this
    · intro w hw
      obtain ⟨t, ht, rfl⟩ := List.mem_map.mp hw
      exact length_getD_expand (by omega) (Hacspec.Aes.uniform_blocks hk') (by simp) (by have := List.mem_range.mp ht; omega)
  refine ⟨ws.flatten, _, hk, C42_key_expansion alg _ hk, ?_, fun key' e' hk' he' hw => ?_⟩
  · rw [window_schedule hk hi (C42_key_expansion alg _ hk), blk]
    conv_rhs => rw [← Hacspec.Aes.flatten_blocks hv]
    congr 1
    apply List.map_congr_left
    intro t ht
    exact h3 t (List.mem_range.mp ht)
  · have := window_unique hn (Hacspec.Aes.uniform_blocks hk') h1 (by simp) h2 i
      (N := 4 * (Hacspec.Aes.nr alg + 1) - Hacspec.Aes.nk alg) (by omega) fun t ht => by
      rw [win key' e' hk' he' hw t ht, h3 t ht]
    rw [← this, Hacspec.Aes.flatten_blocks hk']

/-- **C86.**  AES-128: every round key takes every value for exactly one key. -/
theorem C86_round_key128 (r : Nat) (hr : r ≤ 10) (v : List U8) (hv : v.length = 16) :
    ∃ key e, key.length = 16 ∧ Expanded .aes128 key e ∧ (e.drop (16 * r)).take 16 = v ∧
      ∀ key' e', key'.length = 16 → Expanded .aes128 key' e' → (e'.drop (16 * r)).take 16 = v → key' = key := by
  have := C86_window .aes128 (4 * r) (by show 4 * (4 * r) + 16 ≤ 176; omega) v hv
  rwa [show 4 * (4 * r) = 16 * r by omega] at this

/-- **C86.**  AES-256: every two successive round keys together. -/
theorem C86_round_keys256 (r : Nat) (hr : r < 14) (v : List U8) (hv : v.length = 32) :
    ∃ key e, key.length = 32 ∧ Expanded .aes256 key e ∧ (e.drop (16 * r)).take 32 = v ∧
      ∀ key' e', key'.length = 32 → Expanded .aes256 key' e' → (e'.drop (16 * r)).take 32 = v → key' = key := by
  have := C86_window .aes256 (4 * r) (by show 4 * (4 * r) + 32 ≤ 240; omega) v hv
  rwa [show 4 * (4 * r) = 16 * r by omega] at this

/-- **C86.**  A single round key of AES-256 does not determine the key: each is shared by different keys, whatever its value. -/
theorem C86_round_key256_shared (r : Nat) (hr : r ≤ 14) (v : List U8) (hv : v.length = 16) :
    ∃ key key' e e', key ≠ key' ∧ key.length = 32 ∧ key'.length = 32 ∧ Expanded .aes256 key e ∧ Expanded .aes256 key' e' ∧
      (e.drop (16 * r)).take 16 = v ∧ (e'.drop (16 * r)).take 16 = v := by
  rcases Nat.lt_or_ge r 14 with h | h
  · obtain ⟨key, e, h1, h2, h3, -⟩ := C86_round_keys256 r h (v ++ List.replicate 16 0) (by simp [hv])
    obtain ⟨key', e', h1', h2', h3', -⟩ := C86_round_keys256 r h (v ++ List.replicate 16 1) (by simp [hv])
    refine ⟨key, key', e, e', ?_, h1, h1', h2, h2', ?_, ?_⟩
    · rintro rfl
      rw [Expanded] at h2 h2'
      rw [h2] at h2'
      injection h2' with h2'
      rw [h2', h3', List.append_cancel_left_eq] at h3
      exact absurd h3 (by decide)
    · have := congrArg (List.take 16) h3
      rwa [List.take_take, List.take_left' hv] at this
    · have := congrArg (List.take 16) h3'
      rwa [List.take_take, List.take_left' hv] at this
  · obtain rfl : r = 14 := by omega
    have tail : ∀ e w : List U8, w.length = 16 → (e.drop (16 * 13)).take 32 = w ++ v → (e.drop (16 * 14)).take 16 = v := by
      intro e w hw h
      have := congrArg (List.drop 16) h
      rw [List.drop_left' hw, List.drop_take, List.drop_drop] at this
      exact this
    obtain ⟨key, e, h1, h2, h3, -⟩ := C86_round_keys256 13 (by decide) (List.replicate 16 0 ++ v) (by simp [hv])
    obtain ⟨key', e', h1', h2', h3', -⟩ := C86_round_keys256 13 (by decide) (List.replicate 16 1 ++ v) (by simp [hv])
    refine ⟨key, key', e, e', ?_, h1, h1', h2, h2', tail e _ (by simp) h3, tail e' _ (by simp) h3'⟩
    rintro rfl
    rw [Expanded] at h2 h2'
    rw [h2] at h2'
    injection h2' with h2'
    rw [h2', h3', List.append_cancel_right_eq] at h3
    exact absurd h3 (by decide)

/-- The last round key of the zero key. -/
example : ∃ e, Expanded .aes128 (List.replicate 16 0) e ∧ (e.drop 160).take 4 = [0xb4, 0xef, 0x5b, 0xcb] :=
  ⟨_, C42_key_expansion .aes128 _ (by simp [Hacspec.Aes.nk]), by decide +kernel⟩

end Hacspec.Props
