import Verif.Spec.Symmetry
import Verif.Props.KeySchedules
import Verif.Lemmas.ChaCha
import Verif.Lemmas.Keccak

/-! # Lemmas: symmetries of the states of the ciphers (C98) -/

namespace Hacspec.Symmetry

open SecretInt Spec Hacspec.Seq

/-! ## Matrices -/

theorem length_turnRows {w : Nat} (k : Nat) (s : List (BitVec w)) : (turnRows k s).length = 16 := by simp [turnRows]
theorem length_turnColumns {w : Nat} (k : Nat) (s : List (BitVec w)) : (turnColumns k s).length = 16 := by simp [turnColumns]

theorem turnRows_add {w : Nat} (j k : Nat) (s : List (BitVec w)) : turnRows j (turnRows k s) = turnRows (j + k) s := by
  rw [turnRows, turnRows, turnRows]
  refine List.map_congr_left fun i hi => ?_
  have hi := List.mem_range.mp hi
  rw [Hacspec.Fips202.map_range_getD _ _ (by omega)]
  congr 1
  omega

theorem turnColumns_add {w : Nat} (j k : Nat) (s : List (BitVec w)) : turnColumns j (turnColumns k s) = turnColumns (j + k) s := by
  rw [turnColumns, turnColumns, turnColumns]
  refine List.map_congr_left fun i hi => ?_
  have hi := List.mem_range.mp hi
  rw [Hacspec.Fips202.map_range_getD _ _ (by omega)]
  congr 1
  omega

theorem turnRows_zero {w : Nat} {s : List (BitVec w)} (hs : s.length = 16) : turnRows 0 s = s := by
  obtain ⟨a0, a1, a2, a3, a4, a5, a6, a7, a8, a9, a10, a11, a12, a13, a14, a15, rfl⟩ := Hacspec.Aes.exists16 hs
  rfl

theorem turnColumns_zero {w : Nat} {s : List (BitVec w)} (hs : s.length = 16) : turnColumns 0 s = s := by
  obtain ⟨a0, a1, a2, a3, a4, a5, a6, a7, a8, a9, a10, a11, a12, a13, a14, a15, rfl⟩ := Hacspec.Aes.exists16 hs
  rfl

/-- One place suffices. -/
theorem equivariant_rows {f : List U32 → M (List U32)} (h : Equivariant 16 f (turnRows 1)) (k : Nat) :
    Equivariant 16 f (turnRows k) := by
  induction k with
  | zero =>
    intro s hs
    obtain ⟨t, h1, h2, -⟩ := h s hs
    exact ⟨t, h1, h2, by rw [turnRows_zero hs, turnRows_zero h2, h1]⟩
  | succ k ih =>
    intro s hs
    obtain ⟨t, h1, h2, h3⟩ := ih s hs
    obtain ⟨u, h4, h5, h6⟩ := h (turnRows k s) (length_turnRows ..)
    rw [h3, Except.ok.injEq] at h4
    subst h4
    rw [turnRows_add, turnRows_add, Nat.add_comm] at h6
    exact ⟨t, h1, h2, h6⟩

theorem equivariant_columns {f : List U8 → M (List U8)} (h : Equivariant 16 f (turnColumns 1)) (k : Nat) :
    Equivariant 16 f (turnColumns k) := by
  induction k with
  | zero =>
    intro s hs
    obtain ⟨t, h1, h2, -⟩ := h s hs
    exact ⟨t, h1, h2, by rw [turnColumns_zero hs, turnColumns_zero h2, h1]⟩
  | succ k ih =>
    intro s hs
    obtain ⟨t, h1, h2, h3⟩ := ih s hs
    obtain ⟨u, h4, h5, h6⟩ := h (turnColumns k s) (length_turnColumns ..)
    rw [h3, Except.ok.injEq] at h4
    subst h4
    rw [turnColumns_add, turnColumns_add, Nat.add_comm] at h6
    exact ⟨t, h1, h2, h6⟩

/-! ## ChaCha20 -/

/-- The quarter round on given words with an arbitrary function in place of `qr`. -/
def QRg (q : U32 → U32 → U32 → U32 → U32 × U32 × U32 × U32) (x y z w : Nat) (s : List U32) : List U32 :=
  let r := q (s.getD x 0) (s.getD y 0) (s.getD z 0) (s.getD w 0)
  (((s.set x r.1).set y r.2.1).set z r.2.2.1).set w r.2.2.2

def columnsG (q : U32 → U32 → U32 → U32 → U32 × U32 × U32 × U32) (s : List U32) : List U32 :=
  QRg q 3 7 11 15 (QRg q 2 6 10 14 (QRg q 1 5 9 13 (QRg q 0 4 8 12 s)))

def diagonalsG (q : U32 → U32 → U32 → U32 → U32 × U32 × U32 × U32) (s : List U32) : List U32 :=
  QRg q 3 4 9 14 (QRg q 2 7 8 13 (QRg q 1 6 11 12 (QRg q 0 5 10 15 s)))

theorem turnRows_eval (a0 a1 a2 a3 a4 a5 a6 a7 a8 a9 a10 a11 a12 a13 a14 a15 : U32) :
    turnRows 1 [a0, a1, a2, a3, a4, a5, a6, a7, a8, a9, a10, a11, a12, a13, a14, a15] =
      [a1, a2, a3, a0, a5, a6, a7, a4, a9, a10, a11, a8, a13, a14, a15, a12] := rfl

theorem columns_eval (q : U32 → U32 → U32 → U32 → U32 × U32 × U32 × U32) (a0 a1 a2 a3 a4 a5 a6 a7 a8 a9 a10 a11 a12 a13 a14 a15 : U32) :
    columnsG q [a0, a1, a2, a3, a4, a5, a6, a7, a8, a9, a10, a11, a12, a13, a14, a15] =
      [(q a0 a4 a8 a12).1, (q a1 a5 a9 a13).1, (q a2 a6 a10 a14).1, (q a3 a7 a11 a15).1, (q a0 a4 a8 a12).2.1, (q a1 a5
      a9 a13).2.1, (q a2 a6 a10 a14).2.1, (q a3 a7 a11 a15).2.1, (q a0 a4 a8 a12).2.2.1, (q a1 a5 a9 a13).2.2.1, (q a2 a6
      a10 a14).2.2.1, (q a3 a7 a11 a15).2.2.1, (q a0 a4 a8 a12).2.2.2, (q a1 a5 a9 a13).2.2.2, (q a2 a6 a10 a14).2.2.2,
      (q a3 a7 a11 a15).2.2.2] := by
  simp only [columnsG, QRg, List.set_cons_zero, List.set_cons_succ, List.getD_cons_zero, List.getD_cons_succ]

theorem diagonals_eval (q : U32 → U32 → U32 → U32 → U32 × U32 × U32 × U32) (a0 a1 a2 a3 a4 a5 a6 a7 a8 a9 a10 a11 a12 a13 a14 a15 : U32) :
    diagonalsG q [a0, a1, a2, a3, a4, a5, a6, a7, a8, a9, a10, a11, a12, a13, a14, a15] =
      [(q a0 a5 a10 a15).1, (q a1 a6 a11 a12).1, (q a2 a7 a8 a13).1, (q a3 a4 a9 a14).1, (q a3 a4 a9 a14).2.1, (q a0 a5
      a10 a15).2.1, (q a1 a6 a11 a12).2.1, (q a2 a7 a8 a13).2.1, (q a2 a7 a8 a13).2.2.1, (q a3 a4 a9 a14).2.2.1, (q a0 a5
      a10 a15).2.2.1, (q a1 a6 a11 a12).2.2.1, (q a1 a6 a11 a12).2.2.2, (q a2 a7 a8 a13).2.2.2, (q a3 a4 a9 a14).2.2.2,
      (q a0 a5 a10 a15).2.2.2] := by
  simp only [diagonalsG, QRg, List.set_cons_zero, List.set_cons_succ, List.getD_cons_zero, List.getD_cons_succ]

theorem columns_turn (q : U32 → U32 → U32 → U32 → U32 × U32 × U32 × U32) {s : List U32} (hs : s.length = 16) :
    columnsG q (turnRows 1 s) = turnRows 1 (columnsG q s) := by
  obtain ⟨a0, a1, a2, a3, a4, a5, a6, a7, a8, a9, a10, a11, a12, a13, a14, a15, rfl⟩ := Hacspec.Aes.exists16 hs
  rw [columns_eval, turnRows_eval, turnRows_eval, columns_eval]

theorem diagonals_turn (q : U32 → U32 → U32 → U32 → U32 × U32 × U32 × U32) {s : List U32} (hs : s.length = 16) :
    diagonalsG q (turnRows 1 s) = turnRows 1 (diagonalsG q s) := by
  obtain ⟨a0, a1, a2, a3, a4, a5, a6, a7, a8, a9, a10, a11, a12, a13, a14, a15, rfl⟩ := Hacspec.Aes.exists16 hs
  rw [diagonals_eval, turnRows_eval, turnRows_eval, diagonals_eval]

theorem doubleRound_eq : Spec.ChaCha.doubleRound = fun s => diagonalsG Spec.ChaCha.qr (columnsG Spec.ChaCha.qr s) := by
  have h : Spec.ChaCha.QR = QRg Spec.ChaCha.qr := rfl
  funext s
  simp only [Spec.ChaCha.doubleRound, h, diagonalsG, columnsG]

theorem doubleRound_turn {s : List U32} (hs : s.length = 16) :
    Spec.ChaCha.doubleRound (turnRows 1 s) = turnRows 1 (Spec.ChaCha.doubleRound s) := by
  rw [doubleRound_eq]
  simp only
  rw [columns_turn _ hs, diagonals_turn _ (by simp [columnsG, QRg, hs])]

theorem equivariant_doubleRound : Equivariant 16 Hacspec.ChaCha.doubleRound (turnRows 1) := by
  intro s hs
  have hl : (Spec.ChaCha.doubleRound s).length = 16 := by rw [Hacspec.ChaCha.length_doubleRound, hs]
  exact ⟨_, Hacspec.ChaCha.doubleRound_ok hs, hl,
    by rw [Hacspec.ChaCha.doubleRound_ok (length_turnRows ..), doubleRound_turn hs]⟩

theorem equivariant_loop {α : Type} {m : Nat} {f : List α → M (List α)} {g : List α → List α} (h : Equivariant m f g) (n : Nat) :
    Equivariant m (loop n fun _ s => f s) g := by
  intro s hs
  induction n with
  | zero => exact ⟨s, rfl, hs, rfl⟩
  | succ n ih =>
    obtain ⟨t, h1, h2, h3⟩ := ih
    obtain ⟨u, h4, h5, h6⟩ := h t h2
    exact ⟨u, by rw [loop, h1, bind_ok, h4], h5, by rw [loop, h3, bind_ok, h6]⟩

/-! ## Keccak -/

theorem rotate_xor (x y : U64) (k : Nat) : (x ^^^ y).rotateLeft k = x.rotateLeft k ^^^ y.rotateLeft k := by
  apply BitVec.eq_of_getLsbD_eq
  intro i hi
  simp only [BitVec.getLsbD_rotateLeft, BitVec.getLsbD_xor]
  by_cases h : i < k % 64 <;> simp [h, hi]

theorem rotate_and (x y : U64) (k : Nat) : (x &&& y).rotateLeft k = x.rotateLeft k &&& y.rotateLeft k := by
  apply BitVec.eq_of_getLsbD_eq
  intro i hi
  simp only [BitVec.getLsbD_rotateLeft, BitVec.getLsbD_and]
  by_cases h : i < k % 64 <;> simp [h, hi]

theorem rotate_not (x : U64) (k : Nat) : (~~~ x).rotateLeft k = ~~~ x.rotateLeft k := by
  apply BitVec.eq_of_getLsbD_eq
  intro i hi
  simp only [BitVec.getLsbD_rotateLeft, BitVec.getLsbD_not]
  by_cases h : i < k % 64
  · simp [h, hi, show 64 - k % 64 + i < 64 by omega]
  · simp [h, hi, show i - k % 64 < 64 by omega]

theorem rotate_bit (x : U64) (k : Nat) {i : Nat} (hi : i < 64) :
    (x.rotateLeft k).getLsbD i = x.getLsbD ((i + (64 - k % 64)) % 64) := by
  have hk := Nat.mod_lt k (show 0 < 64 by decide)
  rw [BitVec.getLsbD_rotateLeft]
  by_cases h : i < k % 64
  · rw [decide_eq_true h, cond_true]; congr 1; omega
  · rw [decide_eq_false h, cond_false, decide_eq_true hi, Bool.true_and]; congr 1; omega

theorem rotate_rotate (x : U64) (j k : Nat) : (x.rotateLeft j).rotateLeft k = (x.rotateLeft k).rotateLeft j := by
  apply BitVec.eq_of_getLsbD_eq
  intro i hi
  rw [rotate_bit _ _ hi, rotate_bit _ _ (by omega), rotate_bit _ _ hi, rotate_bit _ _ (by omega)]
  congr 1
  omega

theorem getD_turnWords (k : Nat) (s : List U64) (i : Nat) : (turnWords k s).getD i 0 = (s.getD i 0).rotateLeft k := by
  rw [turnWords, List.getD_eq_getElem?_getD, List.getElem?_map, List.getD_eq_getElem?_getD]
  cases s[i]? with
  | some x => rfl
  | none =>
    apply BitVec.eq_of_getLsbD_eq
    intro j hj
    simp only [Option.map_none, Option.getD_none]
    rw [rotate_bit _ _ hj]
    simp

theorem length_turnWords (k : Nat) (s : List U64) : (turnWords k s).length = s.length := by simp [turnWords]

/-- A step given by a formula for every word. -/
theorem equivariant_words {f : List U64 → M (List U64)} {F : List U64 → Nat → U64} {k : Nat}
    (h : ∀ s : List U64, s.length = 25 → ∃ t, f s = .ok t ∧ t.length = 25 ∧ ∀ i, i < 25 → t.getD i 0 = F s i)
    (hF : ∀ s i, i < 25 → F (turnWords k s) i = (F s i).rotateLeft k) : Equivariant 25 f (turnWords k) := by
  intro s hs
  obtain ⟨t, h1, h2, h3⟩ := h s hs
  obtain ⟨u, h4, h5, h6⟩ := h (turnWords k s) (by rw [length_turnWords, hs])
  refine ⟨t, h1, h2, ?_⟩
  rw [h4]
  congr 1
  refine Hacspec.ChaCha.ext_getD 0 (by rw [h5, length_turnWords, h2]) fun i hi => ?_
  rw [h6 i (by omega), hF s i (by omega), getD_turnWords, h3 i (by omega)]

theorem parW_turn (k : Nat) (s : List U64) (i : Nat) : Hacspec.Fips202.parW (turnWords k s) i = (Hacspec.Fips202.parW s i).rotateLeft k := by
  simp only [Hacspec.Fips202.parW, getD_turnWords, rotate_xor]

theorem equivariant_theta (k : Nat) : Equivariant 25 Hacspec.Fips202.theta (turnWords k) :=
  equivariant_words (fun _ hs => Hacspec.Fips202.theta_words hs) fun s i _ => by
    simp only [parW_turn, getD_turnWords, rotate_xor, rotate_rotate _ 1 k]

theorem equivariant_rho (k : Nat) : Equivariant 25 Hacspec.Fips202.rho (turnWords k) :=
  equivariant_words (fun _ hs => Hacspec.Fips202.rho_words hs) fun s i _ => by
    simp only [getD_turnWords, rotate_rotate _ _ k]

theorem equivariant_pi (k : Nat) : Equivariant 25 Hacspec.Fips202.pi (turnWords k) :=
  equivariant_words (F := fun s i => s.getD (Hacspec.Fips202.piTable.getD i 0) 0)
    (fun _ hs => ⟨_, Hacspec.Fips202.pi_words hs, by simp, fun i hi => by rw [Hacspec.Fips202.map_range_getD _ _ hi]⟩)
    fun s i _ => by simp only [getD_turnWords]

theorem equivariant_chi (k : Nat) : Equivariant 25 Hacspec.Fips202.chi (turnWords k) :=
  equivariant_words (fun _ hs => Hacspec.Fips202.chi_words hs) fun s i _ => by
    simp only [Hacspec.Fips202.chiW, getD_turnWords, rotate_xor, rotate_and, rotate_not]

theorem constants_asymmetric : ∀ i, i < 24 → ∀ k, k < 64 → k ≠ 0 →
    (Hacspec.Fips202.roundConstants.getD i 0).rotateLeft k ≠ Hacspec.Fips202.roundConstants.getD i 0 := by
  decide +kernel

/-! ## AES -/

theorem turnColumns_eval (a0 a1 a2 a3 a4 a5 a6 a7 a8 a9 a10 a11 a12 a13 a14 a15 : U8) :
    turnColumns 1 [a0, a1, a2, a3, a4, a5, a6, a7, a8, a9, a10, a11, a12, a13, a14, a15] =
      [a4, a5, a6, a7, a8, a9, a10, a11, a12, a13, a14, a15, a0, a1, a2, a3] := rfl

theorem equivariant_subBytes : Equivariant 16 Hacspec.Aes.subBytes (turnColumns 1) := by
  intro s hs
  refine ⟨_, Hacspec.Aes.subBytes_ok hs, by rw [Spec.Aes.subBytes, List.length_map, hs], ?_⟩
  rw [Hacspec.Aes.subBytes_ok (length_turnColumns ..)]
  obtain ⟨a0, a1, a2, a3, a4, a5, a6, a7, a8, a9, a10, a11, a12, a13, a14, a15, rfl⟩ := Hacspec.Aes.exists16 hs
  simp only [turnColumns_eval, Spec.Aes.subBytes, List.map_cons, List.map_nil]

theorem shiftRows_eval (a0 a1 a2 a3 a4 a5 a6 a7 a8 a9 a10 a11 a12 a13 a14 a15 : U8) :
    Spec.Aes.shiftRows [a0, a1, a2, a3, a4, a5, a6, a7, a8, a9, a10, a11, a12, a13, a14, a15] =
      [a0, a5, a10, a15, a4, a9, a14, a3, a8, a13, a2, a7, a12, a1, a6, a11] := rfl

theorem equivariant_shiftRows : Equivariant 16 Hacspec.Aes.shiftRows (turnColumns 1) := by
  intro s hs
  refine ⟨_, Hacspec.Aes.shiftRows_ok hs, by simp [Spec.Aes.shiftRows], ?_⟩
  rw [Hacspec.Aes.shiftRows_ok (length_turnColumns ..)]
  obtain ⟨a0, a1, a2, a3, a4, a5, a6, a7, a8, a9, a10, a11, a12, a13, a14, a15, rfl⟩ := Hacspec.Aes.exists16 hs
  simp only [turnColumns_eval, shiftRows_eval]

theorem equivariant_mixColumns : Equivariant 16 Hacspec.Aes.mixColumns (turnColumns 1) := by
  intro s hs
  obtain ⟨a0, a1, a2, a3, a4, a5, a6, a7, a8, a9, a10, a11, a12, a13, a14, a15, rfl⟩ := Hacspec.Aes.exists16 hs
  refine ⟨_, Hacspec.Aes.mixColumns_eval Hacspec.Aes.xtime_ok .., rfl, ?_⟩
  rw [turnColumns_eval, Hacspec.Aes.mixColumns_eval Hacspec.Aes.xtime_ok]
  simp only [Hacspec.Aes.mixF, List.cons_append, List.nil_append, turnColumns_eval]

theorem xor_turn {s k : List U8} (hs : s.length = 16) (hk : k.length = 16) :
    Spec.xor (turnColumns 1 s) (turnColumns 1 k) = turnColumns 1 (Spec.xor s k) := by
  obtain ⟨a0, a1, a2, a3, a4, a5, a6, a7, a8, a9, a10, a11, a12, a13, a14, a15, rfl⟩ := Hacspec.Aes.exists16 hs
  obtain ⟨b0, b1, b2, b3, b4, b5, b6, b7, b8, b9, b10, b11, b12, b13, b14, b15, rfl⟩ := Hacspec.Aes.exists16 hk
  simp only [turnColumns_eval, Spec.xor, List.zipWith_cons_cons, List.zipWith_nil_right]

theorem xor_turnColumns {s k : List U8} (hs : s.length = 16) (hk : k.length = 16) (j : Nat) :
    Spec.xor (turnColumns j s) (turnColumns j k) = turnColumns j (Spec.xor s k) := by
  induction j with
  | zero => rw [turnColumns_zero hs, turnColumns_zero hk, turnColumns_zero (Hacspec.Aes.length_xor16 hs hk)]
  | succ j ih =>
    have e : ∀ x : List U8, turnColumns (j + 1) x = turnColumns 1 (turnColumns j x) := fun x => by
      rw [turnColumns_add, Nat.add_comm]
    rw [e, e, e, xor_turn (length_turnColumns ..) (length_turnColumns ..), ih]

theorem turnColumns_mod {w : Nat} (k : Nat) (s : List (BitVec w)) : turnColumns k s = turnColumns (k % 4) s := by
  rw [turnColumns, turnColumns]
  refine List.map_congr_left fun i _ => ?_
  congr 1
  omega

theorem invariant_two {s : List U8} {k : Nat} (hk : k % 4 ≠ 0) (h : turnColumns k s = s) : turnColumns 2 s = s := by
  have h2 : turnColumns (k + k) s = s := by rw [← turnColumns_add, h, h]
  rcases (by omega : k % 4 = 2 ∨ (k + k) % 4 = 2) with e | e
  · rw [turnColumns_mod, e] at h; exact h
  · rw [turnColumns_mod, e] at h2; exact h2

/-- Four words that are invariant under two places. -/
theorem words_two {a b c d : List U8} (ha : a.length = 4) (hb : b.length = 4) (hc : c.length = 4) (hd : d.length = 4)
    (h : turnColumns 2 (a ++ (b ++ (c ++ d))) = a ++ (b ++ (c ++ d))) : a = c ∧ b = d := by
  obtain ⟨a0, a1, a2, a3, rfl⟩ := Hacspec.Aes.exists4 ha
  obtain ⟨b0, b1, b2, b3, rfl⟩ := Hacspec.Aes.exists4 hb
  obtain ⟨c0, c1, c2, c3, rfl⟩ := Hacspec.Aes.exists4 hc
  obtain ⟨d0, d1, d2, d3, rfl⟩ := Hacspec.Aes.exists4 hd
  simp only [List.cons_append, List.nil_append] at h
  rw [show (2 : Nat) = 1 + 1 from rfl, ← turnColumns_add, turnColumns_eval, turnColumns_eval] at h
  simp only [List.cons.injEq, and_true] at h
  obtain ⟨h0, h1, h2, h3, h4, h5, h6, h7, -⟩ := h
  exact ⟨by rw [h0, h1, h2, h3], by rw [h4, h5, h6, h7]⟩

theorem xor_eq_right {a c : U8} (h : c = a ^^^ c) : a = 0 := by
  have := congrArg (· ^^^ c) h
  simp only [BitVec.xor_self, BitVec.xor_assoc, BitVec.xor_zero] at this
  exact this.symm

/-- The core of the argument about the key schedule: the words `w (4 r), …` with the recursion of the schedule. -/
theorem schedule_asymmetric {n r : Nat} (hn : 0 < n) (w : Nat → Nat → U8)
    (per : ∀ j, j ≤ 3 * n → ∀ b, b < 4 → w (4 * (r + j) + 2) b = w (4 * (r + j)) b ∧ w (4 * (r + j) + 3) b = w (4 * (r + j) + 1) b)
    (step : ∀ j, j ≤ 2 * n → ∀ t, t < 2 → ∀ b, b < 4 →
      w (4 * (r + j + n) + t + 1) b = w (4 * (r + j) + t + 1) b ^^^ w (4 * (r + j + n) + t) b)
    (first : (∀ b, b < 4 → w (4 * r) b = 0) → (∀ b, b < 4 → w (4 * (r + (n - 1)) + 3) b = 0) → ∃ b, b < 4 ∧ w (4 * (r + n)) b ≠ 0) :
    False := by
  have eq : ∀ j, j ≤ 2 * n → ∀ b, b < 4 → w (4 * (r + j) + 1) b = w (4 * (r + j)) b := by
    intro j hj b hb
    have h0 := (per j (by omega) b hb).1
    have h1 := (per (j + n) (by omega) b hb).1
    have h2 := step j hj 0 (by omega) b hb
    have h3 := step j hj 1 (by omega) b hb
    simp only [Nat.add_zero, Nat.zero_add, Nat.add_assoc, Nat.reduceAdd] at h0 h1 h2 h3 ⊢
    rw [h1, h0, h2, ← BitVec.xor_assoc] at h3
    have := xor_eq_right h3
    have := congrArg (· ^^^ w (4 * (r + j) + 1) b) this
    simp only [BitVec.xor_assoc, BitVec.xor_self] at this
    rw [show (0 : U8) = 0#8 from rfl, BitVec.xor_zero, BitVec.zero_xor] at this
    exact this.symm
  have zero : ∀ j, j ≤ n → ∀ b, b < 4 → w (4 * (r + j)) b = 0 := by
    intro j hj b hb
    have h0 := eq j (by omega) b hb
    have h1 := eq (j + n) (by omega) b hb
    have h2 := step j (by omega) 0 (by omega) b hb
    simp only [Nat.add_zero, Nat.add_assoc] at h0 h1 h2 ⊢
    rw [h1, h0] at h2
    exact xor_eq_right h2
  obtain ⟨b, hb, h⟩ := first (fun b hb => zero 0 (by omega) b hb) fun b hb => by
    rw [(per (n - 1) (by omega) b hb).2, eq (n - 1) (by omega) b hb, zero (n - 1) (by omega) b hb]
  exact h (zero n (le_refl _) b hb)

end Hacspec.Symmetry
