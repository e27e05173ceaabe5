import Verif.Model.Examples
import Verif.Lemmas.ChaCha
import Verif.Lemmas.Chunk

namespace Hacspec.ChaChaExample

open SecretInt Hacspec.Seq

theorem copyInto_ok {α : Type} {dst src : List α} {a b : Nat} (hab : a ≤ b) (hb : b ≤ dst.length)
    (hs : src.length = b - a) : copyInto dst a b src = .ok (dst.take a ++ src ++ dst.drop b) := by
  rw [copyInto, require_true ⟨hab, hb, hs⟩, bind_ok]

theorem copyInto_panic {α : Type} {dst src : List α} {a b : Nat} (hs : src.length ≠ b - a) :
    copyInto dst a b src = panic := by
  rw [copyInto, require_false (fun h => hs h.2.2), bind_panic]

theorem doubleRound_eq (m : List U32) : doubleRound m = ChaCha.doubleRound m := rfl

theorem fromLe_ok {k : List U8} (h : k.length % 4 = 0) : fromLeBytes 32 k = .ok (Spec.words32le k) := by
  rw [fromLeBytes, require_true (by simpa using h), bind_ok]
  congr 1
  exact words32le_chunks k h

theorem fromLe_panic {k : List U8} (h : k.length % 4 ≠ 0) : fromLeBytes 32 k = panic := by
  rw [fromLeBytes, require_false (by simpa using h), bind_panic]

theorem init_ok {key iv : List U8} (ctr : U32) (hk : key.length = 32) (hi : iv.length = 12) :
    init key ctr iv = .ok (Spec.ChaCha.init key ctr iv) := by
  have hkl : (Spec.words32le key).length = 8 := by rw [length_words32le, hk]
  have hil : (Spec.words32le iv).length = 3 := by rw [length_words32le, hi]
  have hc : Spec.words32le Spec.ChaCha.constants = [0x61707865, 0x3320646e, 0x79622d32, 0x6b206574] := by
    decide +kernel
  rw [init, copyInto_ok (by omega) (by simp) rfl, bind_ok, fromLe_ok (by omega), bind_ok,
    copyInto_ok (by omega) (by simp) (by rw [hkl]), bind_ok, setIdx_ok (by simp [hkl]), bind_ok, fromLe_ok (by omega),
    bind_ok, copyInto_ok (by omega) (by simp [hkl]) (by rw [hil]), Spec.ChaCha.init, hc]
  generalize Spec.words32le key = kw at hkl
  generalize Spec.words32le iv = nw at hil
  match kw, hkl with
  | [a, b, c, d, e, f, g, h], _ =>
    match nw, hil with
    | [x, y, z], _ => rfl

theorem init_panic {key iv : List U8} (ctr : U32) (h : ¬ (key.length = 32 ∧ iv.length = 12)) :
    init key ctr iv = panic := by
  rw [init, copyInto_ok (by omega) (by simp) rfl, bind_ok]
  by_cases h4 : key.length % 4 = 0
  · rw [fromLe_ok h4, bind_ok]
    by_cases hk : key.length = 32
    · have hkl : (Spec.words32le key).length = 8 := by rw [length_words32le, hk]
      rw [copyInto_ok (by omega) (by simp) (by rw [hkl]), bind_ok, setIdx_ok (by simp [hkl]), bind_ok]
      by_cases h4' : iv.length % 4 = 0
      · rw [fromLe_ok h4', bind_ok, copyInto_panic]
        rw [length_words32le]
        have : iv.length ≠ 12 := fun hi => h ⟨hk, hi⟩
        omega
      · rw [fromLe_panic h4', bind_panic]
    · rw [copyInto_panic, bind_panic]
      rw [length_words32le]
      omega
  · rw [fromLe_panic h4, bind_panic]

theorem core_ok {st : List U32} (h : st.length = 16) :
    core st = .ok (List.zipWith (· + ·) (Spec.ChaCha.rounds 10 st) st) := by
  have hr : loop 10 (fun _ s => doubleRound s) st = .ok (Spec.ChaCha.rounds 10 st) := ChaCha.rounds_ok h
  rw [core, hr, bind_ok, ChaCha.addLoop_ok h (by rw [ChaCha.length_rounds, h])]
  rw [List.zipWith_comm]
  have : (fun (b a : U32) => a + b) = fun (a b : U32) => a + b := by
    funext a b
    exact BitVec.add_comm _ _
  rw [this]

theorem block_ok {key iv : List U8} (ctr : U32) (hk : key.length = 32) (hi : iv.length = 12) :
    block key ctr iv = .ok (Spec.ChaCha.blockFn key ctr iv) := by
  have hl := ChaCha.length_init ctr hk hi
  have hb := ChaCha.length_blockFn ctr hk hi
  have he : toLeBytes (List.zipWith (· + ·) (Spec.ChaCha.rounds 10 (Spec.ChaCha.init key ctr iv))
      (Spec.ChaCha.init key ctr iv)) = Spec.ChaCha.blockFn key ctr iv := by
    have hf : (leOfWord : U32 → List U8) = Spec.bytesLe32 := by funext x; rfl
    rw [toLeBytes, hf, Spec.ChaCha.blockFn]
  rw [block, init_ok ctr hk hi, bind_ok, core_ok hl, bind_ok, he, copyInto_ok (by omega) (by simp) (by rw [hb]),
    List.take_zero, List.nil_append, List.drop_of_length_le (by simp), List.append_nil]

theorem block_panic {key iv : List U8} (ctr : U32) (h : ¬ (key.length = 32 ∧ iv.length = 12)) :
    block key ctr iv = panic := by
  rw [block, init_panic ctr h, bind_panic]

theorem xorBlock_ok {a b : List U8} (ha : a.length = 64) (hb : b.length = 64) : xorBlock a b = .ok (Spec.xor a b) := by
  have hz : (Spec.xor a b).length = 64 := by simp [Spec.xor, ha, hb]
  have := loop_eq (n := 64) (body := fun i out => do
      let x ← idx a i
      let y ← idx b i
      setIdx out i (x ^^^ y)) (fun i => (Spec.xor a b).take i ++ List.replicate (64 - i) (0 : U8)) (by
    intro i hi
    have hl : ((Spec.xor a b).take i).length = i := by rw [List.length_take, hz]; omega
    show (do
      let x ← idx a i
      let y ← idx b i
      setIdx ((Spec.xor a b).take i ++ List.replicate (64 - i) 0) i (x ^^^ y)) = _
    rw [idx_ok (by omega), bind_ok, idx_ok (by omega), bind_ok, setIdx_ok (by simp; omega)]
    congr 1
    rw [set_append_ge (by omega), hl, Nat.sub_self, show 64 - i = (64 - (i + 1)) + 1 by omega, List.replicate_succ,
      List.set_cons_zero, List.take_succ_eq_append_getElem (show i < (Spec.xor a b).length by omega)]
    simp [Spec.xor])
  simp only [List.take_zero, List.nil_append] at this
  rw [xorBlock]
  have h2 : loop 64 (fun i out => do
      let x ← idx a i
      let y ← idx b i
      setIdx out i (x ^^^ y)) (List.replicate 64 0) = .ok (Spec.xor a b) := by
    rw [this, List.take_of_length_le (by omega)]; simp
  rw [h2, bind_ok, copyInto_ok (by omega) (by simp) (by rw [hz])]
  simp

theorem mapM_ok {α β : Type} {f : α → M β} {g : α → β} {l : List α} (h : ∀ x ∈ l, f x = .ok (g x)) :
    l.mapM f = .ok (l.map g) := by
  induction l with
  | nil => rfl
  | cons a l ih =>
    rw [List.mapM_cons, h a (by simp), bind_ok, ih (fun x hx => h x (by simp [hx])), bind_ok]
    rfl

/-- A chunk filled up with zeros to 64 bytes. -/
def padded (b : List U8) : List U8 := b ++ List.replicate (64 - b.length) 0

theorem blocks_ok (msg : List U8) : blocks msg = .ok ((chunks 64 msg).map padded) := by
  rw [blocks]
  apply mapM_ok
  intro b hb
  have hl : b.length ≤ 64 := by
    simp only [chunks, List.mem_map, List.mem_range] at hb
    obtain ⟨i, _, rfl⟩ := hb
    simp only [List.length_take]; omega
  rw [copyInto_ok (by omega) (by simpa using hl) (by omega), padded, List.take_zero, List.nil_append,
    List.drop_replicate]

/-- The blocks with the first `n` encrypted. -/
def mixed (key iv msg : List U8) (ctr : U32) (n : Nat) : List (List U8) :=
  (List.range ((msg.length + 63) / 64)).map fun i =>
    if i < n then Spec.xor (padded (Spec.block 64 msg i)) (Spec.ChaCha.blockFn key (ctr + BitVec.ofNat 32 i) iv)
    else padded (Spec.block 64 msg i)

theorem length_padded_block (msg : List U8) (i : Nat) : (padded (Spec.block 64 msg i)).length = 64 := by
  have : (Spec.block 64 msg i).length ≤ 64 := by simp only [Spec.block, List.length_take]; omega
  rw [padded, List.length_append, List.length_replicate]; omega

theorem length_mixed (key iv msg : List U8) (ctr : U32) (n : Nat) :
    (mixed key iv msg ctr n).length = (msg.length + 63) / 64 := by simp [mixed]

theorem mixed_zero (key iv msg : List U8) (ctr : U32) :
    mixed key iv msg ctr 0 = (chunks 64 msg).map padded := by
  simp [mixed, chunks, Spec.block]

theorem mixed_succ {key iv msg : List U8} {ctr : U32} {n : Nat} :
    (mixed key iv msg ctr n).set n
      (Spec.xor (padded (Spec.block 64 msg n)) (Spec.ChaCha.blockFn key (ctr + BitVec.ofNat 32 n) iv)) =
      mixed key iv msg ctr (n + 1) := by
  apply List.ext_getElem
  · simp [length_mixed]
  · intro i h1 h2
    rw [List.getElem_set]
    simp only [mixed, List.getElem_map, List.getElem_range]
    by_cases h : n = i
    · subst h; simp
    · rw [if_neg h]
      by_cases h' : i < n
      · rw [if_pos h', if_pos (by omega)]
      · rw [if_neg h', if_neg (by omega)]

theorem encryptBlock_ok {key iv msg : List U8} {ctr : U32} (hk : key.length = 32) (hi : iv.length = 12) {n : Nat}
    (hn : n < (msg.length + 63) / 64) :
    idx (mixed key iv msg ctr n) n = .ok (padded (Spec.block 64 msg n)) ∧
    block key (ctr + BitVec.ofNat 32 n) iv = .ok (Spec.ChaCha.blockFn key (ctr + BitVec.ofNat 32 n) iv) ∧
    xorBlock (padded (Spec.block 64 msg n)) (Spec.ChaCha.blockFn key (ctr + BitVec.ofNat 32 n) iv) = .ok
      (Spec.xor (padded (Spec.block 64 msg n)) (Spec.ChaCha.blockFn key (ctr + BitVec.ofNat 32 n) iv)) ∧
    setIdx (mixed key iv msg ctr n) n
      (Spec.xor (padded (Spec.block 64 msg n)) (Spec.ChaCha.blockFn key (ctr + BitVec.ofNat 32 n) iv)) =
      .ok (mixed key iv msg ctr (n + 1)) := by
  refine ⟨?_, block_ok _ hk hi, xorBlock_ok (length_padded_block _ _) (ChaCha.length_blockFn _ hk hi), ?_⟩
  · rw [idx_ok (by rw [length_mixed]; exact hn)]
    simp [mixed]
  · rw [setIdx_ok (by rw [length_mixed]; exact hn), mixed_succ]

theorem take_flatten_mixed {key iv msg : List U8} {ctr : U32} (hk : key.length = 32) (hi : iv.length = 12) :
    (mixed key iv msg ctr ((msg.length + 63) / 64)).flatten.take msg.length = Spec.ChaCha.encrypt key ctr iv msg := by
  have hm : mixed key iv msg ctr ((msg.length + 63) / 64) = (List.range ((msg.length + 63) / 64)).map fun i =>
      Spec.xor (padded (Spec.block 64 msg i)) (Spec.ChaCha.blockFn key (ctr + BitVec.ofNat 32 i) iv) := by
    unfold mixed
    apply List.map_congr_left
    intro i hi
    rw [if_pos (List.mem_range.mp hi)]
  rw [hm, ← List.flatMap_def, Spec.ChaCha.encrypt]
  have hb : ∀ i, (Spec.block 64 msg i).length = min 64 (msg.length - 64 * i) := fun i => by
    simp [Spec.block]
  -- the padded blocks have 64 bytes each
  have hX : ∀ i, i < (msg.length + 63) / 64 →
      (Spec.xor (padded (Spec.block 64 msg i)) (Spec.ChaCha.blockFn key (ctr + BitVec.ofNat 32 i) iv)).length =
        min 64 (64 * ((msg.length + 63) / 64) - 64 * i) := fun i hi' => by
    rw [Spec.xor, List.length_zipWith, length_padded_block, ChaCha.length_blockFn _ hk hi]; omega
  have hY : ∀ i, i < (msg.length + 63) / 64 →
      (Spec.xor (Spec.block 64 msg i) (Spec.ChaCha.blockFn key (ctr + BitVec.ofNat 32 i) iv)).length =
        min 64 (msg.length - 64 * i) := fun i _ => by
    rw [Spec.xor, List.length_zipWith, hb, ChaCha.length_blockFn _ hk hi]; omega
  apply List.ext_getElem?
  intro j
  rw [List.getElem?_take]
  by_cases hj : j < msg.length
  · rw [if_pos hj, flatMap_getElem? (cs := 64) (len := 64 * ((msg.length + 63) / 64)) hX (by intros; omega) (by omega),
      flatMap_getElem? (cs := 64) (len := msg.length) hY (by intros; omega) (by omega)]
    simp only [Spec.xor, List.getElem?_zipWith]
    congr 1
    rw [padded, List.getElem?_append_left]
    rw [hb]; omega
  · rw [if_neg hj, List.getElem?_eq_none]
    rw [length_flatMap_chunks (cs := 64) (len := msg.length) hY (by intros; omega)]
    omega

theorem counterMode_ok {key iv msg : List U8} {ctr : U32} (hk : key.length = 32) (hi : iv.length = 12) (hm : msg ≠ []) :
    counterMode key ctr iv msg = .ok (Spec.ChaCha.encrypt key ctr iv msg) := by
  have hpos : 0 < msg.length := List.length_pos_iff.mpr hm
  have hn : ((chunks 64 msg).map padded).length = (msg.length + 63) / 64 := by simp [length_chunks]
  have hloop : loop ((msg.length + 63) / 64 - 1) (step key iv) (ctr, mixed key iv msg ctr 0) =
      .ok (ctr + BitVec.ofNat 32 ((msg.length + 63) / 64 - 1), mixed key iv msg ctr ((msg.length + 63) / 64 - 1)) := by
    have := loop_eq (n := (msg.length + 63) / 64 - 1) (body := step key iv)
      (fun i => (ctr + BitVec.ofNat 32 i, mixed key iv msg ctr i)) (by
        intro i hi'
        obtain ⟨h1, h2, h3, h4⟩ := encryptBlock_ok (msg := msg) (ctr := ctr) hk hi (n := i) (by omega)
        rw [step, h2, bind_ok, h1, bind_ok, h3, bind_ok, h4, bind_ok]
        congr 2
        rw [SecretInt.add, one, BitVec.add_assoc, BitVec.ofNat_add])
    simpa using this
  obtain ⟨h1, h2, h3, h4⟩ := encryptBlock_ok (msg := msg) (ctr := ctr) hk hi (n := (msg.length + 63) / 64 - 1) (by omega)
  rw [counterMode, blocks_ok, bind_ok]
  dsimp only
  rw [hn, require_true (by omega), bind_ok, ← mixed_zero key iv msg ctr, hloop, bind_ok]
  dsimp only
  rw [h1, bind_ok, h2, bind_ok, h3, bind_ok, h4, bind_ok, show (msg.length + 63) / 64 - 1 + 1 = (msg.length + 63) / 64 by omega,
    take_flatten_mixed hk hi]

theorem counterMode_panic {key iv msg : List U8} {ctr : U32}
    (h : ¬ (key.length = 32 ∧ iv.length = 12 ∧ msg ≠ [])) : counterMode key ctr iv msg = panic := by
  have hn : ((chunks 64 msg).map padded).length = (msg.length + 63) / 64 := by simp [length_chunks]
  rw [counterMode, blocks_ok, bind_ok]
  dsimp only
  rw [hn]
  by_cases hm : msg = []
  · subst hm
    rw [require_false (by simp), bind_panic]
  · have hpos : 0 < msg.length := List.length_pos_iff.mpr hm
    have hb : ¬ (key.length = 32 ∧ iv.length = 12) := fun h' => h ⟨h'.1, h'.2, hm⟩
    rw [require_true (by omega), bind_ok]
    by_cases h1 : (msg.length + 63) / 64 - 1 = 0
    · rw [h1, loop_zero, bind_ok, idx_ok (by simp [length_chunks]; omega), bind_ok, block_panic _ hb, bind_panic]
    · obtain ⟨k, hk⟩ : ∃ k, (msg.length + 63) / 64 - 1 = k + 1 := ⟨(msg.length + 63) / 64 - 1 - 1, by omega⟩
      rw [hk]
      have : loop (k + 1) (step key iv) (ctr, (chunks 64 msg).map padded) = panic := by
        have h0 : step key iv 0 (ctr, (chunks 64 msg).map padded) = panic := by
          rw [step, block_panic _ hb, bind_panic]
        have e := loop_add 1 k (step key iv) (ctr, (chunks 64 msg).map padded)
        rw [Nat.add_comm, e, loop_succ, loop_zero, bind_ok, h0, bind_panic]
      rw [this, bind_panic]

end Hacspec.ChaChaExample
