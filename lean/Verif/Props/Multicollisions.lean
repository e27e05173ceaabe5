import Verif.Lemmas.Ideal.ChaCha
import Verif.Props.HashCollisions
import Verif.Spec.Multicollisions

/-! # C133: few collisions give many messages with one digest -/

namespace Hacspec.Props

open Spec Hacspec.Ideal Finset

theorem length_choices {α : Type} (ps : List (List α × List α)) : (choices ps).length = 2 ^ ps.length := by
  induction ps with
  | nil => rfl
  | cons p ps ih => rw [choices, List.length_append, List.length_map, List.length_map, ih, List.length_cons]; omega

theorem length_pairsFrom {α : Type} (find : List α → List α × List α) (t : Nat) (m : List α) : (pairsFrom find t m).length = t := by
  induction t generalizing m with
  | zero => rfl
  | succ t ih => rw [pairsFrom, List.length_cons, ih]

section Generic

variable {D : Type} {h : List U8 → D} {n N : Nat} {find : List U8 → List U8 × List U8}

/-- The messages have `t` blocks, all are different, and all have the digest of the first one. -/
theorem choices_ok (hf : Finds h n N find)
    (hp : ∀ m m' x : List U8, m.length % n = 0 → m.length = m'.length → (m ++ x).length < N → h m = h m' → h (m ++ x) = h (m' ++ x))
    (t : Nat) (m : List U8) (hm : m.length % n = 0) (hN : m.length + n * t < N) :
    (∀ x ∈ choices (pairsFrom find t m), x.length = n * t) ∧ (choices (pairsFrom find t m)).Nodup ∧
      ∀ x ∈ choices (pairsFrom find t m), h (m ++ x) = h (m ++ ((pairsFrom find t m).map Prod.fst).flatten) := by
  induction t generalizing m with
  | zero =>
    refine ⟨fun x hx => ?_, List.nodup_singleton _, fun x hx => ?_⟩
    · rw [List.mem_singleton.mp hx]; rfl
    · rw [List.mem_singleton.mp hx]; rfl
  | succ t ih =>
    rw [Nat.mul_succ] at hN
    have hnt : 0 ≤ n * t := Nat.zero_le _
    by_cases hn : m.length + n < N
    · obtain ⟨l1, l2, hne, he⟩ := hf m hm hn
      have hl : (m ++ (find m).1).length = m.length + n := by rw [List.length_append, l1]
      obtain ⟨i1, i2, i3⟩ := ih (m ++ (find m).1) (by rw [hl, Nat.add_mod_right]; exact hm) (by rw [hl]; omega)
      rw [pairsFrom, choices]
      refine ⟨fun x hx => ?_, ?_, fun x hx => ?_⟩
      · rcases List.mem_append.mp hx with hx | hx <;> obtain ⟨y, hy, rfl⟩ := List.mem_map.mp hx
        · rw [List.length_append, l1, i1 y hy, Nat.mul_succ, Nat.add_comm]
        · rw [List.length_append, l2, i1 y hy, Nat.mul_succ, Nat.add_comm]
      · refine List.Nodup.append (i2.map fun _ _ e => List.append_cancel_left e) (i2.map fun _ _ e => List.append_cancel_left e) ?_
        intro x hx hx'
        obtain ⟨y, -, rfl⟩ := List.mem_map.mp hx
        obtain ⟨z, -, e⟩ := List.mem_map.mp hx'
        exact hne (List.append_inj e (l2.trans l1.symm)).1.symm
      · rw [List.map_cons, List.flatten_cons, ← List.append_assoc]
        rcases List.mem_append.mp hx with hx | hx <;> obtain ⟨y, hy, rfl⟩ := List.mem_map.mp hx
        · rw [← i3 y hy, List.append_assoc]
        · rw [← i3 y hy, ← List.append_assoc]
          refine (hp (m ++ (find m).1) (m ++ (find m).2) y ?_ ?_ ?_ he).symm
          · rw [hl, Nat.add_mod_right]; exact hm
          · rw [hl, List.length_append, l2]
          · rw [List.length_append, hl, i1 y hy]; omega
    · omega

/-- There are always two blocks with one digest if blocks are longer than digests. -/
theorem exists_finds {h : List U8 → M (List U8)} {k : Nat} (hk : k < n) (hh : ∀ m : List U8, m.length < N → ∃ d : List U8, d.length = k ∧ h m = .ok d) :
    ∃ find, Finds h n N find := by
  classical
  have key : ∀ m : List U8, ∃ p : List U8 × List U8, m.length + n < N →
      p.1.length = n ∧ p.2.length = n ∧ p.1 ≠ p.2 ∧ h (m ++ p.1) = h (m ++ p.2) := by
    intro m
    by_cases hm : m.length + n < N
    · have hd : ∀ b : Bytes n, ∃ d : Bytes k, h (m ++ b.1) = .ok d.1 := fun b => by
        obtain ⟨d, hl, hd⟩ := hh (m ++ b.1) (by rw [List.length_append, b.2]; exact hm)
        exact ⟨⟨d, hl⟩, hd⟩
      choose f hf using hd
      obtain ⟨a, b, hab, e⟩ := Fintype.exists_ne_map_eq_of_card_lt f (by
        rw [card_bytes, card_bytes]
        exact Nat.pow_lt_pow_right (by omega) hk)
      exact ⟨(a.1, b.1), fun _ => ⟨a.2, b.2, fun c => hab (Subtype.ext c), by show h (m ++ a.1) = h (m ++ b.1); rw [hf, hf, e]⟩⟩
    · exact ⟨([], []), fun h => absurd h hm⟩
  choose find hfind using key
  exact ⟨find, fun m _ hm => hfind m hm⟩

theorem choices_same (hf : Finds h n N find)
    (hp : ∀ m m' x : List U8, m.length % n = 0 → m.length = m'.length → (m ++ x).length < N → h m = h m' → h (m ++ x) = h (m' ++ x))
    (t : Nat) (hN : n * t < N) : (choices (pairsFrom find t [])).length = 2 ^ t ∧ (choices (pairsFrom find t [])).Nodup ∧
      ∀ m ∈ choices (pairsFrom find t []), m.length = n * t ∧ ∀ m' ∈ choices (pairsFrom find t []), ∀ x : List U8,
        (m ++ x).length < N → h (m ++ x) = h (m' ++ x) := by
  obtain ⟨h1, h2, h3⟩ := choices_ok hf hp t [] (Nat.zero_mod n) (by rw [List.length_nil]; omega)
  refine ⟨by rw [length_choices, length_pairsFrom], h2, fun m hm => ⟨h1 m hm, fun m' hm' x hx => ?_⟩⟩
  exact hp m m' x (by rw [h1 m hm, Nat.mul_mod_right]) (by rw [h1 m hm, h1 m' hm']) hx ((h3 m hm).trans (h3 m' hm').symm)

end Generic

/-! ## SHA-256 -/

/-- **C133.**  Whoever finds two blocks with one digest after any beginning, finds `2^t` different messages of `t` blocks that all have
one digest, and keep one after any common ending, with `t` searches. -/
theorem C133_sha256 (find : List U8 → List U8 × List U8) (hf : Finds Sha2.hash 64 (2 ^ 61) find) (t : Nat) (ht : t < 2 ^ 55) :
    (choices (pairsFrom find t [])).length = 2 ^ t ∧ (choices (pairsFrom find t [])).Nodup ∧
      ∀ m ∈ choices (pairsFrom find t []), m.length = 64 * t ∧ ∀ m' ∈ choices (pairsFrom find t []), ∀ x : List U8,
        (m ++ x).length < 2 ^ 61 → Sha2.hash (m ++ x) = Sha2.hash (m' ++ x) :=
  choices_same hf C74_sha256_collision t (by omega)

theorem sha_total (m : List U8) (hm : m.length < 2 ^ 61) : ∃ d : List U8, d.length = 32 ∧ Sha2.hash m = .ok d := by
  by_cases h : m.length % 64 = 0
  · exact ⟨_, rfl, C31_whole_blocks m h (by omega)⟩
  · exact ⟨_, rfl, C31_sha256_partial m h hm⟩

/-- **C133.**  There is something to be found. -/
theorem C133_sha256_exists : ∃ find, Finds Sha2.hash 64 (2 ^ 61) find := exists_finds (k := 32) (by omega) sha_total

example : ∃ l : List (List U8), l.length = 2 ^ 20 ∧ l.Nodup ∧ ∀ m ∈ l, ∀ m' ∈ l, Sha2.hash (m ++ [1]) = Sha2.hash (m' ++ [1]) := by
  obtain ⟨find, hf⟩ := C133_sha256_exists
  obtain ⟨h1, h2, h3⟩ := C133_sha256 find hf 20 (by omega)
  exact ⟨_, h1, h2, fun m hm m' hm' => (h3 m hm).2 m' hm' [1] (by rw [List.length_append, (h3 m hm).1]; decide)⟩

/-- **C133.**  Whole blocks are hashed without their number: a message with the digest of any beginning of another message replaces this
beginning, however long it is. -/
theorem C133_sha256_beginning (p x s : List U8) (hp : p.length % 64 = 0) (hx : x.length % 64 = 0) (hs : s.length % 64 = 0)
    (hps : (p ++ s).length < 2 ^ 63) (hxs : (x ++ s).length < 2 ^ 63) (h : Sha2.hash x = Sha2.hash p) :
    Sha2.hash (x ++ s) = Sha2.hash (p ++ s) := by
  rw [List.length_append] at hps hxs
  rw [C31_whole_blocks x hx (by omega), C31_whole_blocks p hp (by omega)] at h
  injection h with h
  have := congrArg Hacspec.HashStructure.varsOf h
  rw [Hacspec.HashStructure.varsOf_digest, Hacspec.HashStructure.varsOf_digest] at this
  rw [C31_whole_blocks (x ++ s) (by rw [List.length_append]; omega) (by rw [List.length_append]; omega),
    C31_whole_blocks (p ++ s) (by rw [List.length_append]; omega) (by rw [List.length_append]; omega),
    Sha2.iterate_append _ hx, Sha2.iterate_append _ hp, this]

/-! ## BLAKE2b -/

/-- **C133.**  The same for `blake2b`. -/
theorem C133_blake2b (find : List U8 → List U8 × List U8) (hf : Finds Hacspec.Blake2.blake2b 128 (2 ^ 63) find) (t : Nat) (ht : t < 2 ^ 56) :
    (choices (pairsFrom find t [])).length = 2 ^ t ∧ (choices (pairsFrom find t [])).Nodup ∧
      ∀ m ∈ choices (pairsFrom find t []), m.length = 128 * t ∧ ∀ m' ∈ choices (pairsFrom find t []), ∀ x : List U8,
        (m ++ x).length < 2 ^ 63 → Hacspec.Blake2.blake2b (m ++ x) = Hacspec.Blake2.blake2b (m' ++ x) :=
  choices_same hf C74_blake2b_collision t (by omega)

theorem blake_total (m : List U8) (hm : m.length < 2 ^ 63) : ∃ d : List U8, d.length = 64 ∧ Hacspec.Blake2.blake2b m = .ok d := by
  have hl : ((Hacspec.Blake2.final 12 m).flatMap bytesLe64).length = 64 := by
    have := Hacspec.Blake2.length_final 12 m
    match Hacspec.Blake2.final 12 m, this with
    | [_, _, _, _, _, _, _, _], _ => rfl
  exact ⟨_, hl, Hacspec.Blake2.blake2b_ok hm⟩

/-- **C133.**  There is something to be found. -/
theorem C133_blake2b_exists : ∃ find, Finds Hacspec.Blake2.blake2b 128 (2 ^ 63) find := exists_finds (k := 64) (by omega) blake_total

/-! ## Both together -/

/-- **C133.**  The two digests together are no better than one: 513 searches for collisions of SHA-256 give two messages whose digests
of both kinds agree. -/
theorem C133_both (find : List U8 → List U8 × List U8) (hf : Finds Sha2.hash 64 (2 ^ 61) find) :
    ∃ m ∈ choices (pairsFrom find 513 []), ∃ m' ∈ choices (pairsFrom find 513 []), m ≠ m' ∧ Sha2.hash m = Sha2.hash m' ∧
      Hacspec.Blake2.blake2b m = Hacspec.Blake2.blake2b m' := by
  classical
  obtain ⟨h1, h2, h3⟩ := C133_sha256 find hf 513 (by omega)
  choose f hf using fun m : {m : List U8 // m.length < 2 ^ 63} => blake_total m.1 m.2
  let g : List U8 → Bytes 64 := fun m => if h : m.length < 2 ^ 63 then ⟨f ⟨m, h⟩, (hf ⟨m, h⟩).1⟩ else ⟨List.replicate 64 0, List.length_replicate⟩
  have hg : ∀ m : List U8, m.length < 2 ^ 63 → Hacspec.Blake2.blake2b m = .ok (g m).1 := fun m h => by
    simp only [g, dif_pos h]
    exact (hf ⟨m, h⟩).2
  have hl : ∀ m ∈ choices (pairsFrom find 513 []), m.length < 2 ^ 61 := fun m hm => by rw [(h3 m hm).1]; omega
  obtain ⟨m, hm, m', hm', hne, e⟩ := Finset.exists_ne_map_eq_of_card_lt_of_maps_to (s := (choices (pairsFrom find 513 [])).toFinset)
    (t := Finset.univ) (f := g) (by
      rw [List.toFinset_card_of_nodup h2, h1, Finset.card_univ, card_bytes, show 256 = 2 ^ 8 by rfl, ← pow_mul]
      exact Nat.pow_lt_pow_right (by omega) (by omega)) (fun _ _ => Finset.mem_coe.mpr (Finset.mem_univ _))
  rw [List.mem_toFinset] at hm hm'
  have h := (h3 m hm).2 m' hm' [] (by rw [List.append_nil]; exact hl m hm)
  rw [List.append_nil, List.append_nil] at h
  have h63 := fun m hm => lt_trans (hl m hm) (by norm_num : 2 ^ 61 < 2 ^ 63)
  exact ⟨m, hm, m', hm', hne, h, by rw [hg m (h63 m hm), hg m' (h63 m' hm'), e]⟩

example := C133_both _ C133_sha256_exists.choose_spec

end Hacspec.Props
