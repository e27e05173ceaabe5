import Verif.Lemmas.Ideal.Hmac

/-! # HKDF with a block cipher inside SHA-256 -/

namespace Hacspec.Hkdf

open SecretInt Hacspec.Seq VecInt Spec Hmac

variable {hash : List U8 → M (List U8)} {H : List U8 → List U8}

theorem expandStepWith_ok (hH : ∀ x, x.length < 2 ^ 61 → hash x = .ok (H x)) (hL : ∀ x, (H x).length = 32) {prk info : List U8}
    (hk : prk.length ≤ 64) (hm : 97 + info.length < 2 ^ 61) {i : Nat} {t z : List U8} (h0 : i ≠ 0 → t = hkdfT H prk info i)
    (hz : i * 32 + 32 ≤ z.length) :
    expandStepWith hash prk info i (t, z) =
      .ok (hkdfT H prk info (i + 1), z.take (i * 32) ++ hkdfT H prk info (i + 1) ++ z.drop (i * 32 + 32)) := by
  have htxt : hmacTxtIn info t i = .ok (hkdfT H prk info i ++ info ++ [BitVec.ofNat 8 (i + 1)]) := by
    rw [hmacTxtIn]
    by_cases h : i = 0
    · subst h; rw [if_pos rfl, buildHmacTxt_ok]; rfl
    · rw [if_neg h, fromSeq_ok, bind_ok, buildHmacTxt_ok, h0 h]
  have hl : (hkdfT H prk info i).length ≤ 32 := by
    cases i with
    | zero => simp [hkdfT]
    | succ i => exact Nat.le_of_eq (hL _)
  have h32 : (hkdfT H prk info (i + 1)).length = 32 := hL _
  rw [expandStepWith, htxt, bind_ok, hmacWith_ok hH hL hk (by simp; omega), bind_ok]
  show (do let t ← update z (i * (hkdfT H prk info (i + 1)).length) (hkdfT H prk info (i + 1)); _) = _
  rw [h32, update_ok (by omega), bind_ok, h32]
  rfl

theorem length_flatten_blocks (hL : ∀ x, (H x).length = 32) (prk info : List U8) (n : Nat) :
    (((List.range n).map fun i => hkdfT H prk info (i + 1)).flatten).length = n * 32 := by
  induction n with
  | zero => rfl
  | succ n ih =>
    have h32 : (hkdfT H prk info (n + 1)).length = 32 := hL _
    rw [List.range_succ, List.map_append, List.flatten_append, List.length_append, ih]
    simp [h32]; omega

theorem expandWith_loop (hH : ∀ x, x.length < 2 ^ 61 → hash x = .ok (H x)) (hL : ∀ x, (H x).length = 32) {prk info : List U8}
    (hk : prk.length ≤ 64) (hm : 97 + info.length < 2 ^ 61) (n : Nat) :
    ∃ t, loop n (expandStepWith hash prk info) (new 32, new (n * 32)) =
      .ok (t, ((List.range n).map fun i => hkdfT H prk info (i + 1)).flatten) := by
  have key : ∀ i, i ≤ n → ∃ t, loop i (expandStepWith hash prk info) (new 32, new (n * 32)) =
      .ok (t, ((List.range i).map fun i => hkdfT H prk info (i + 1)).flatten ++ List.replicate ((n - i) * 32) default) ∧
      (i ≠ 0 → t = hkdfT H prk info i) := by
    intro i hi
    induction i with
    | zero => exact ⟨new 32, by simp [loop, new], fun h => absurd rfl h⟩
    | succ i ih =>
      obtain ⟨t, h1, h2⟩ := ih (by omega)
      have hf := length_flatten_blocks hL prk info i
      refine ⟨hkdfT H prk info (i + 1), ?_, fun _ => rfl⟩
      rw [loop_succ, h1, bind_ok, expandStepWith_ok hH hL hk hm h2 (by simp [hf]; omega)]
      rw [List.take_append_of_le_length (by omega), List.take_of_length_le (by omega), List.drop_append,
        List.drop_of_length_le (by omega), hf, List.nil_append, List.drop_replicate, List.range_succ, List.map_append,
        List.flatten_append]
      rw [show (n - i) * 32 - (i * 32 + 32 - i * 32) = (n - (i + 1)) * 32 by omega]
      simp
  obtain ⟨t, h, -⟩ := key n (Nat.le_refl n)
  exact ⟨t, by simpa using h⟩

theorem expandWith_ok (hH : ∀ x, x.length < 2 ^ 61 → hash x = .ok (H x)) (hL : ∀ x, (H x).length = 32) {prk info : List U8}
    (hk : prk.length ≤ 64) (hm : 97 + info.length < 2 ^ 61) {l : Nat} (hl : l ≤ 8128) :
    expandWith hash prk info l = .ok (hkdfExpand H prk info l) := by
  rw [expandWith]
  rw [require_true (divCeil32_lt.mpr hl), bind_ok, divCeil32_eq (by omega), hkdfExpand]
  generalize hn : (l + 31) / 32 = n
  obtain ⟨t, h⟩ := expandWith_loop hH hL hk hm n
  rw [h, bind_ok, sub_ok (by rw [length_flatten_blocks hL]; omega)]
  rfl

theorem expandWith_hash : expandWith Sha2.hash = expand := by
  funext prk info l
  rfl

end Hacspec.Hkdf

namespace Hacspec.Ideal

open Spec Finset

variable {ℓ N : Nat}

/-- The input of HMAC for block `i`. -/
def kdfText (info : Infos ℓ) (i : Nat) (prev : Option (Bytes 32)) : Texts false ℓ :=
  ⟨(match prev with | none => [] | some t => t.1) ++ info.1 ++ [BitVec.ofNat 8 (i + 1)], by
    have h1 := info.2.1
    have h2 := info.2.2
    cases prev with
    | none =>
      simp only [List.length_append, List.length_cons, List.length_nil, Bool.false_eq_true, iff_false]
      omega
    | some t =>
      have := t.2
      simp only [List.length_append, List.length_cons, List.length_nil, Bool.false_eq_true, iff_false]
      omega⟩

/-- The blocks so far. -/
noncomputable def kdfPrev (h : Texts false ℓ → Words 32 8) (info : Infos ℓ) : Nat → Option (Bytes 32)
  | 0 => none
  | i + 1 => some (digestOf (h (kdfText info i (kdfPrev h info i))))

/-- Block `i`. -/
noncomputable def kdfBlock (h : Texts false ℓ → Words 32 8) (info : Infos ℓ) (i : Nat) : Bytes 32 :=
  digestOf (h (kdfText info i (kdfPrev h info i)))

/-- Questions to HMAC. -/
noncomputable def askBlocks {D O : Type} (info : Infos ℓ) (c : List (Bytes 32) → Prog (D ⊕ Texts false ℓ) (Words 32 8) O) :
    Nat → Nat → Option (Bytes 32) → List (Bytes 32) → Prog (D ⊕ Texts false ℓ) (Words 32 8) O
  | 0, _, _, out => c out
  | n + 1, i, prev, out => .ask (.inr (kdfText info i prev)) fun s => askBlocks info c n (i + 1) (some (digestOf s)) (out ++ [digestOf s])

theorem range_shift {α : Type} (f : Nat → α) (n i : Nat) :
    (List.range (n + 1)).map (fun j => f (i + j)) = f i :: (List.range n).map fun j => f (i + 1 + j) := by
  rw [List.range_succ_eq_map, List.map_cons, List.map_map]
  refine congrArg (_ :: ·) (List.map_congr_left fun j _ => congrArg f ?_)
  omega

theorem run_askBlocks {D O : Type} (info : Infos ℓ) (c : List (Bytes 32) → Prog (D ⊕ Texts false ℓ) (Words 32 8) O)
    (ev : D ⊕ Texts false ℓ → Words 32 8) (n i : Nat) (out : List (Bytes 32)) :
    (askBlocks info c n i (kdfPrev (fun z => ev (.inr z)) info i) out).run ev =
      (c (out ++ (List.range n).map fun j => kdfBlock (fun z => ev (.inr z)) info (i + j))).run ev := by
  induction n generalizing i out with
  | zero => simp [askBlocks]
  | succ n ih =>
    rw [askBlocks, Prog.run]
    have h := ih (i + 1) (out ++ [kdfBlock (fun z => ev (.inr z)) info i])
    rw [kdfPrev] at h
    rw [List.append_assoc] at h
    rw [range_shift (kdfBlock (fun z => ev (.inr z)) info) n i]
    exact h

theorem askBlocks_counts {D O : Type} (info : Infos ℓ) (c : List (Bytes 32) → Prog (D ⊕ Texts false ℓ) (Words 32 8) O) {q a : Nat}
    (hc : ∀ out, (c out).Counts q a) (n i : Nat) (prev : Option (Bytes 32)) (out : List (Bytes 32)) :
    (askBlocks info c n i prev out).Counts q (a + n) := by
  induction n generalizing i prev out with
  | zero => exact hc out
  | succ n ih => exact ⟨a + n, rfl, fun s => ih _ _ _⟩

/-- The answer, from the blocks. -/
def kdfAnswer (x : Wanted ℓ N) (out : List (Bytes 32)) : Words 32 8 ⊕ M (List U8) :=
  .inr (.ok ((out.map Subtype.val).flatten.take x.2.1))

/-- The questions to HMAC that compute the keys. -/
noncomputable def kdfCompile {D O : Type} : Prog (D ⊕ Wanted ℓ N) (Words 32 8 ⊕ M (List U8)) O → Prog (D ⊕ Texts false ℓ) (Words 32 8) O
  | .ret o => .ret o
  | .ask (.inl d) k => .ask (.inl d) fun s => kdfCompile (k (.inl s))
  | .ask (.inr x) k => askBlocks x.1 (fun out => kdfCompile (k (kdfAnswer x out))) N 0 none []

/-- The answers as they are computed. -/
noncomputable def kdfEv {D : Type} (ev : D ⊕ Texts false ℓ → Words 32 8) : D ⊕ Wanted ℓ N → Words 32 8 ⊕ M (List U8)
  | .inl d => .inl (ev (.inl d))
  | .inr x => kdfAnswer x ((List.range N).map (kdfBlock (fun z => ev (.inr z)) x.1))

theorem run_kdfCompile {D O : Type} (ev : D ⊕ Texts false ℓ → Words 32 8) (p : Prog (D ⊕ Wanted ℓ N) (Words 32 8 ⊕ M (List U8)) O) :
    (kdfCompile p).run ev = p.run (kdfEv ev) := by
  induction p with
  | ret o => rfl
  | ask x k ih =>
    cases x with
    | inl d => rw [kdfCompile, Prog.run, ih]; rfl
    | inr x =>
      have h := run_askBlocks x.1 (fun out => kdfCompile (k (kdfAnswer x out))) ev N 0 []
      rw [kdfPrev] at h
      rw [kdfCompile, h, ih, Prog.run, kdfEv, List.nil_append]
      simp only [Nat.zero_add]

theorem kdfCompile_counts {D O : Type} {p : Prog (D ⊕ Wanted ℓ N) (Words 32 8 ⊕ M (List U8)) O} {q a : Nat} (hp : p.Counts q a) :
    (kdfCompile p).Counts q (a * N) := by
  induction p generalizing q a with
  | ret o => trivial
  | ask x k ih =>
    cases x with
    | inl d =>
      obtain ⟨q, rfl, h⟩ := hp
      exact ⟨q, rfl, fun s => ih _ (h _)⟩
    | inr x =>
      obtain ⟨a, rfl, h⟩ := hp
      rw [Nat.succ_mul]
      exact askBlocks_counts x.1 _ (fun out => ih _ (h _)) N 0 none []

/-! ## A random function gives random blocks -/

/-- The input of HMAC for each block, from the blocks before. -/
noncomputable def kdfSpot (G : Infos ℓ × Fin N → Words 32 8) (x : Infos ℓ × Fin N) : Texts false ℓ :=
  kdfText x.1 x.2.1 (if h : x.2.1 = 0 then none else some (digestOf (G (x.1, ⟨x.2.1 - 1, by omega⟩))))

theorem kdfText_inj {info info' : Infos ℓ} {i : Nat} {prev prev' : Option (Bytes 32)} (h : prev.isSome = prev'.isSome)
    (e : kdfText info i prev = kdfText info' i prev') : info = info' := by
  have e := congrArg Subtype.val e
  cases prev with
  | none =>
    cases prev' with
    | none => exact Subtype.ext (List.append_cancel_right e)
    | some t => cases h
  | some t =>
    cases prev' with
    | none => cases h
    | some t' => exact Subtype.ext (List.append_inj_right (List.append_cancel_right e) (by rw [t.2, t'.2]))

theorem kdfText_index {info info' : Infos ℓ} {i i' : Nat} {prev prev' : Option (Bytes 32)} (hi : i < 255) (hi' : i' < 255)
    (e : kdfText info i prev = kdfText info' i' prev') : i = i' := by
  have e := congrArg (fun z : Texts false ℓ => z.1.getLast?) e
  simp only [kdfText, List.getLast?_append, List.getLast?_singleton, Option.some_or, Option.some_inj] at e
  have := congrArg BitVec.toNat e
  rw [BitVec.toNat_ofNat, BitVec.toNat_ofNat] at this
  omega

theorem kdfSpot_inj (hN : N ≤ 255) (G : Infos ℓ × Fin N → Words 32 8) : Function.Injective (kdfSpot G) := by
  rintro ⟨info, i⟩ ⟨info', i'⟩ e
  have hi : i = i' := Fin.ext (kdfText_index (by have := i.2; omega) (by have := i'.2; omega) e)
  subst hi
  have : info = info' := by
    refine kdfText_inj ?_ e
    by_cases h : i.1 = 0
    · simp [h]
    · simp [h]
  rw [this]

open Classical in
/-- A function with given blocks. -/
noncomputable def kdfPlant (R : Texts false ℓ → Words 32 8) (G : Infos ℓ × Fin N → Words 32 8) (z : Texts false ℓ) : Words 32 8 :=
  if h : ∃ x, kdfSpot G x = z then G h.choose else R z

theorem kdfPlant_spot (hN : N ≤ 255) (R : Texts false ℓ → Words 32 8) (G : Infos ℓ × Fin N → Words 32 8) (x : Infos ℓ × Fin N) :
    kdfPlant R G (kdfSpot G x) = G x := by
  have h : ∃ x', kdfSpot G x' = kdfSpot G x := ⟨x, rfl⟩
  rw [kdfPlant, dif_pos h, kdfSpot_inj hN G h.choose_spec]

theorem kdfPlant_prev (hN : N ≤ 255) (R : Texts false ℓ → Words 32 8) (G : Infos ℓ × Fin N → Words 32 8) (info : Infos ℓ) (i : Fin N) :
    kdfText info i.1 (kdfPrev (kdfPlant R G) info i.1) = kdfSpot G (info, i) := by
  obtain ⟨i, hi⟩ := i
  induction i with
  | zero => rfl
  | succ i ih =>
    have h := ih (by omega)
    rw [kdfSpot, kdfPrev]
    simp only at h ⊢
    rw [h, kdfPlant_spot hN, dif_neg (Nat.succ_ne_zero i)]
    rfl

theorem kdfPlant_block (hN : N ≤ 255) (R : Texts false ℓ → Words 32 8) (G : Infos ℓ × Fin N → Words 32 8) (info : Infos ℓ) (i : Fin N) :
    kdfBlock (kdfPlant R G) info i.1 = digestOf (G (info, i)) := by
  rw [kdfBlock, kdfPlant_prev hN, kdfPlant_spot hN]

theorem share_kdfPlant (hN : N ≤ 255) [Nonempty (Words 32 8)] (P : (Texts false ℓ → Words 32 8) → Prop) :
    share (fun ω : (Texts false ℓ → Words 32 8) × (Infos ℓ × Fin N → Words 32 8) => P (kdfPlant ω.1 ω.2)) = share P := by
  refine share_regular (C := Infos ℓ × Fin N → Words 32 8)
    (fun ω : (Texts false ℓ → Words 32 8) × (Infos ℓ × Fin N → Words 32 8) => kdfPlant ω.1 ω.2) (fun ω x => ω.1 (kdfSpot ω.2 x)) ?_ ?_ P
  · rintro ⟨R, G⟩ ⟨R', G'⟩ h
    simp only [Prod.mk.injEq] at h
    obtain ⟨h1, h2⟩ := h
    have e : G = G' := by
      funext x
      obtain ⟨info, i⟩ := x
      apply digestOf_inj
      rw [← kdfPlant_block hN R G, h1, kdfPlant_block hN]
    subst e
    have e : R = R' := by
      funext z
      by_cases hz : ∃ x, kdfSpot G x = z
      · obtain ⟨x, rfl⟩ := hz
        exact congrFun h2 x
      · have := congrFun h1 z
        rwa [kdfPlant, kdfPlant, dif_neg hz, dif_neg hz] at this
    rw [e]
  · rw [Fintype.card_prod]

end Hacspec.Ideal
