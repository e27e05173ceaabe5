import Verif.Model.Words
import Verif.Lemmas.Poly1305
import Verif.Props.NatMods
import Verif.Props.Seqs

/-! # Property theorems C62–C65: byte conversions, indexing, order on arrays, wrapping methods -/

namespace Hacspec.Props

open SecretInt Hacspec.Seq Hacspec.Words AbstractInt

/-! ## C62 conversions between integers and byte sequences -/

section conversions
variable {k : Nat}

theorem leNat_eq_leVal' (l : List U8) : leNat l = Spec.leVal l := by
  induction l with
  | nil => rfl
  | cons b l ih => simp [leNat, Spec.leVal, ih]

/-- `bs` is the little-endian encoding of `x` in `k` bytes. -/
def LittleEndian (k x : Nat) (bs : List U8) : Prop := bs.length = k ∧ Spec.leVal bs = x

/-- C62: `to_le_bytes`/`to_be_bytes` of the secret and the public integer types of `8k` bits return the `k` bytes of the
value, least significant first and most significant first. -/
theorem C62_to_bytes (x : BitVec (8 * k)) :
    ∃ bs, LittleEndian k x.toNat bs ∧ toLe x = .ok bs ∧ toBe x = .ok bs.reverse ∧
      pubToLe x = .ok bs ∧ pubToBe x = .ok bs.reverse := by
  have hw : 8 * k % 8 = 0 := by omega
  refine ⟨leOfWord x, ⟨by rw [length_leOfWord]; omega, ?_⟩, ?_, ?_, ?_, ?_⟩
  · rw [← leNat_eq_leVal', leNat_leOfWord hw]
  · rw [toLe, wordToLeBytes_ok, bind_ok, fromSeq_ok]
  · rw [toBe, wordToBeBytes_ok, bind_ok, fromSeq_ok]; rfl
  · rw [pubToLe, pubWordToLe, fromSeq_ok]
  · rw [pubToBe, pubWordToBe, fromSeq_ok]; rfl

/-- C62: `from_le_bytes`/`from_be_bytes` of these types accept exactly the sequences of `k` bytes and return the value
they denote; every other length panics. -/
theorem C62_from_bytes (hk : 0 < k) (bs : List U8) :
    (bs.length = k → ∃ x y : BitVec (8 * k), x.toNat = Spec.leVal bs ∧ y.toNat = Spec.leVal bs.reverse ∧
      fromLe (8 * k) bs = .ok x ∧ fromBe (8 * k) bs = .ok y ∧ pubFromLe (8 * k) bs = .ok x ∧ pubFromBe (8 * k) bs = .ok y) ∧
    (bs.length ≠ k → fromLe (8 * k) bs = panic ∧ fromBe (8 * k) bs = panic ∧ pubFromLe (8 * k) bs = panic ∧
      pubFromBe (8 * k) bs = panic) := by
  have hw : 8 * k / 8 = k := by omega
  have hk' : 0 < 8 * k / 8 := by omega
  constructor
  · intro h
    have hp : (256 : Nat) ^ k = 2 ^ (8 * k) := by rw [Nat.pow_mul]
    have l1 := leNat_lt bs
    have l2 := leNat_lt bs.reverse
    rw [List.length_reverse] at l2
    rw [h, hp] at l1 l2
    have h' : bs.length = 8 * k / 8 := by omega
    refine ⟨wordOfLe _ bs, wordOfBe _ bs, ?_, ?_, ?_, ?_, ?_, ?_⟩
    · rw [wordOfLe, BitVec.toNat_ofNat, Nat.mod_eq_of_lt l1, leNat_eq_leVal']
    · rw [wordOfBe, BitVec.toNat_ofNat, Nat.mod_eq_of_lt l2, leNat_eq_leVal']
    · rw [fromLe, arrFromSeq_ok h', bind_ok, wordFromLeBytes_ok hk' h']
    · rw [fromBe, arrFromSeq_ok h', bind_ok, wordFromBeBytes_ok hk' h']
    · rw [pubFromLe, arrFromSeq_ok h', bind_ok, pubWordFromLe]
    · rw [pubFromBe, arrFromSeq_ok h', bind_ok, pubWordFromBe]
  · intro h
    have h' : bs.length ≠ 8 * k / 8 := by omega
    rw [fromLe, fromBe, pubFromLe, pubFromBe, arrFromSeq_panic h']
    exact ⟨rfl, rfl, rfl, rfl⟩

/-- C62: the one-byte types. -/
theorem C62_byte (x : U8) (bs : List U8) :
    u8ToBytes x = .ok [x] ∧ (u8FromBytes bs = .ok x ↔ bs = [x]) ∧ (bs.length ≠ 1 → u8FromBytes bs = panic) := by
  refine ⟨rfl, ?_, ?_⟩
  · match bs with
    | [] => simp [u8FromBytes]
    | [b] => simp [u8FromBytes, idx]
    | _ :: _ :: _ => simp [u8FromBytes]
  · intro h; simp [u8FromBytes, h]

example : toBe (0x01020304#32) = .ok [1, 2, 3, 4] ∧ toLe (0x01020304#32) = .ok [4, 3, 2, 1] := by decide
example : fromBe 16 [1, 2, 3] = panic := ((C62_from_bytes (k := 2) (by omega) _).2 (by decide)).2.1

end conversions

/-! ## C63 indexing by `u8`, `u32`, `i32` and ranges -/

/-- C63: indexing by an `i32` is indexing by its value, and a negative index always panics (a sequence has fewer than
`2^63` elements). -/
theorem C63_i32 {α : Type} (l : List α) (hl : l.length < 2 ^ 63) (i : BitVec 32) (x : α) :
    (0 ≤ i.toInt → idxI32 l i = idx l i.toInt.toNat ∧ setIdxI32 l i x = setIdx l i.toInt.toNat x) ∧
    (i.toInt < 0 → idxI32 l i = panic ∧ setIdxI32 l i x = panic) := by
  have hc := BitVec.toInt_eq_toNat_cond i
  have hlt := i.isLt
  have he : (i.signExtend 64).toInt = i.toInt := BitVec.toInt_signExtend_of_le (by omega)
  have hc' := BitVec.toInt_eq_toNat_cond (i.signExtend 64)
  have hlt' := (i.signExtend 64).isLt
  rw [he] at hc'
  constructor
  · intro h
    have : usizeOfI32 i = i.toInt.toNat := by unfold usizeOfI32; split at hc' <;> omega
    rw [idxI32, setIdxI32, this]; exact ⟨rfl, rfl⟩
  · intro h
    have : l.length ≤ usizeOfI32 i := by unfold usizeOfI32; split at hc' <;> omega
    rw [idxI32, setIdxI32, setIdx, idx, List.getElem?_eq_none this, if_neg (by omega)]
    exact ⟨rfl, rfl⟩

/-- C63: indexing by a `u8` or `u32` is indexing by its value. -/
theorem C63_unsigned {α : Type} {w : Nat} (hw : w ≤ 64) (l : List α) (i : BitVec w) (x : α) :
    idxU l i = idx l i.toNat ∧ setIdxU l i x = setIdx l i.toNat x := by
  rw [idxU, setIdxU, BitVec.toNat_setWidth, Nat.mod_eq_of_lt (lt_of_lt_of_le i.isLt (Nat.pow_le_pow_right (by omega) hw))]
  exact ⟨rfl, rfl⟩

/-- C63: reading back what was written, at every kind of index; other positions keep their value. -/
theorem C63_read_write {α : Type} {w : Nat} (hw : w ≤ 64) (l l' : List α) (i : BitVec w) (x : α)
    (h : setIdxU l i x = .ok l') :
    idxU l' i = .ok x ∧ l'.length = l.length ∧ ∀ j : BitVec w, j ≠ i → idxU l' j = idxU l j := by
  rw [(C63_unsigned hw l i x).2, setIdx] at h
  split at h
  · rename_i hi
    cases h
    refine ⟨?_, by simp, fun j hj => ?_⟩
    · rw [(C63_unsigned hw _ i x).1, idx, List.getElem?_set_self hi]
    · rw [(C63_unsigned hw _ j x).1, (C63_unsigned hw _ j x).1, idx, idx,
        List.getElem?_set_ne (fun e => hj (BitVec.eq_of_toNat_eq e.symm))]
  · simp at h

/-- C63: `[a..b]` is the window from `a` to `b`, and panics exactly when the window does not lie in the sequence; it is
what `subr` returns. -/
theorem C63_range {α : Type} [Inhabited α] (l : List α) (a b : Nat) :
    (a ≤ b ∧ b ≤ l.length → ∃ s, idxRange l a b = .ok s ∧ s.length = b - a ∧ ∀ i, i < b - a → s[i]? = l[a + i]?) ∧
    (¬ (a ≤ b ∧ b ≤ l.length) → idxRange l a b = panic) ∧ Hacspec.Seq.subr l a b = idxRange l a b := by
  refine ⟨fun h => ⟨(l.drop a).take (b - a), ?_, ?_, ?_⟩, fun h => ?_, ?_⟩
  · rw [idxRange, require_true h.1, bind_ok, require_true h.2, bind_ok]
  · simp; omega
  · intro i hi; rw [List.getElem?_take_of_lt hi, List.getElem?_drop]
  · rw [idxRange]
    by_cases h1 : a ≤ b
    · rw [require_true h1, bind_ok, require_false (fun h2 => h ⟨h1, h2⟩), bind_panic]
    · rw [require_false h1, bind_panic]
  · rw [Hacspec.Seq.subr, idxRange]
    by_cases h1 : a ≤ b
    · rw [require_true h1, bind_ok, bind_ok]
      by_cases h2 : b ≤ l.length
      · rw [require_true h2, bind_ok, sub_ok (by omega)]
      · rw [require_false h2, bind_panic, sub_panic (by omega)]
    · rw [require_false h1, bind_panic, bind_panic]

example : idxI32 [10, 20, 30] (-1#32) = (panic : M Nat) :=
  ((C63_i32 [10, 20, 30] (by decide) (-1#32) 0).2 (by decide)).1

/-! ## C64 the order on public arrays -/

/-- The number whose digits in base `2^w` are the elements, most significant first. -/
def digitsVal {w : Nat} (l : List (BitVec w)) : Nat := l.foldl (fun acc x => acc * 2 ^ w + x.toNat) 0

/-- The same for signed elements, with digits shifted to be nonnegative. -/
def digitsValS {w : Nat} (l : List (BitVec w)) : Int := l.foldl (fun acc x => acc * 2 ^ w + (x.toInt + 2 ^ (w - 1))) 0

theorem cmp_lex {α : Type} (f : α → Int) (B : Int) (hB : 0 < B) (x y : List α) (hxy : x.length = y.length)
    (hx : ∀ a ∈ x, 0 ≤ f a ∧ f a < B) (hy : ∀ a ∈ y, 0 ≤ f a ∧ f a < B) (u v : Int) :
    (u = v → cmpSlice (fun a b => compare (f a) (f b)) x y =
      compare (x.foldl (fun acc x => acc * B + f x) u) (y.foldl (fun acc x => acc * B + f x) v)) ∧
    (u < v → x.foldl (fun acc x => acc * B + f x) u < y.foldl (fun acc x => acc * B + f x) v) ∧
    (v < u → y.foldl (fun acc x => acc * B + f x) v < x.foldl (fun acc x => acc * B + f x) u) := by
  induction x generalizing y u v with
  | nil =>
    cases y with
    | nil =>
      refine ⟨?_, id, id⟩
      rintro rfl; simp [cmpSlice]
    | cons b y => simp at hxy
  | cons a x ih =>
    cases y with
    | nil => simp at hxy
    | cons b y =>
      have ha := hx a (by simp)
      have hb := hy b (by simp)
      have := ih y (by simpa using hxy) (fun a h => hx a (by simp [h])) (fun a h => hy a (by simp [h]))
        (u * B + f a) (v * B + f b)
      obtain ⟨i1, i2, i3⟩ := this
      simp only [List.foldl_cons]
      refine ⟨?_, ?_, ?_⟩
      · rintro rfl
        rw [cmpSlice]
        rcases lt_trichotomy (f a) (f b) with h | h | h
        · rw [compare_lt_iff_lt.mpr h, compare_lt_iff_lt.mpr (i2 (by omega))]
        · rw [compare_eq_iff_eq.mpr h]; exact i1 (by rw [h])
        · rw [compare_gt_iff_gt.mpr h, compare_gt_iff_gt.mpr (i3 (by omega))]
      · intro h; apply i2; nlinarith
      · intro h; apply i3; nlinarith

/-- C64: `cmp` on unsigned public arrays orders them as the numbers they denote in base `2^w`, most significant element
first. -/
theorem C64_unsigned {w : Nat} (x y : List (BitVec w)) (h : x.length = y.length) :
    arrCmpU x y = compare (digitsVal x) (digitsVal y) := by
  have key := (cmp_lex (fun a : BitVec w => (a.toNat : Int)) (2 ^ w) (by positivity) x y h
    (fun a _ => ⟨by omega, by exact_mod_cast a.isLt⟩) (fun a _ => ⟨by omega, by exact_mod_cast a.isLt⟩) 0 0).1 rfl
  have cast : ∀ (l : List (BitVec w)) (u : Nat),
      l.foldl (fun acc x => acc * 2 ^ w + (x.toNat : Int)) (u : Int) =
        ((l.foldl (fun acc x => acc * 2 ^ w + x.toNat) u : Nat) : Int) := by
    intro l
    induction l with
    | nil => intro u; rfl
    | cons a l ih => intro u; simp only [List.foldl_cons]; rw [← ih]; push_cast; rfl
  have hc : ∀ m n : Nat, compare (m : Int) (n : Int) = compare m n := by
    intro m n
    rcases lt_trichotomy m n with h | h | h
    · rw [compare_lt_iff_lt.mpr h, compare_lt_iff_lt.mpr (by exact_mod_cast h)]
    · rw [compare_eq_iff_eq.mpr h, compare_eq_iff_eq.mpr (by exact_mod_cast h)]
    · rw [compare_gt_iff_gt.mpr h, compare_gt_iff_gt.mpr (by exact_mod_cast h)]
  have hf : (fun a b : BitVec w => compare (a.toNat : Int) (b.toNat : Int)) = fun a b => compare a.toNat b.toNat := by
    funext a b; exact hc _ _
  have c0 := cast x 0
  have c1 := cast y 0
  simp only [Nat.cast_zero] at c0 c1
  rw [hf, c0, c1, hc] at key
  exact key

theorem cmpSlice_congr {α : Type} {c d : α → α → Ordering} (h : ∀ a b, c a b = d a b) (x y : List α) :
    cmpSlice c x y = cmpSlice d x y := by
  have : c = d := by funext a b; exact h a b
  rw [this]

/-- C64: the same for signed public arrays, element-wise by signed value. -/
theorem C64_signed {w : Nat} (hw : 0 < w) (x y : List (BitVec w)) (h : x.length = y.length) :
    arrCmpS x y = compare (digitsValS x) (digitsValS y) := by
  have hp : (2 : Int) ^ w = 2 * 2 ^ (w - 1) := by
    obtain ⟨n, rfl⟩ : ∃ n, w = n + 1 := ⟨w - 1, by omega⟩
    rw [Nat.add_sub_cancel, pow_succ]; ring
  have hr : ∀ a : BitVec w, 0 ≤ a.toInt + 2 ^ (w - 1) ∧ a.toInt + 2 ^ (w - 1) < 2 ^ w := by
    intro a
    have h1 := BitVec.le_two_mul_toInt (x := a)
    have h2 := BitVec.two_mul_toInt_lt (x := a)
    rw [hp] at h1 h2 ⊢
    omega
  have key := (cmp_lex (fun a : BitVec w => a.toInt + 2 ^ (w - 1)) (2 ^ w) (by positivity) x y h
    (fun a _ => hr a) (fun a _ => hr a) 0 0).1 rfl
  rw [arrCmpS, digitsValS, digitsValS, ← key]
  refine cmpSlice_congr (fun a b => ?_) x y
  rcases lt_trichotomy a.toInt b.toInt with h | h | h
  · rw [compare_lt_iff_lt.mpr h, compare_lt_iff_lt.mpr (by omega)]
  · rw [compare_eq_iff_eq.mpr h, compare_eq_iff_eq.mpr (by omega)]
  · rw [compare_gt_iff_gt.mpr h, compare_gt_iff_gt.mpr (by omega)]

theorem cmpSlice_eq_iff {α : Type} {c : α → α → Ordering} (hc : ∀ a b, c a b = .eq ↔ a = b) (x y : List α) :
    cmpSlice c x y = .eq ↔ x = y := by
  induction x generalizing y with
  | nil => cases y <;> simp [cmpSlice]
  | cons a x ih =>
    cases y with
    | nil => simp [cmpSlice]
    | cons b y =>
      rw [cmpSlice]
      by_cases h : a = b
      · rw [(hc a b).mpr h]; simp [ih, h]
      · have : c a b ≠ .eq := fun e => h ((hc a b).mp e)
        cases hcab : c a b with
        | eq => exact absurd hcab this
        | lt => simp [h]
        | gt => simp [h]

/-- C64: the orders agree with `==`: `Equal` exactly for equal arrays. -/
theorem C64_eq {w : Nat} (x y : List (BitVec w)) :
    (arrCmpU x y = .eq ↔ arrEq x y = true) ∧ (arrCmpS x y = .eq ↔ arrEq x y = true) := by
  have e : (arrEq x y = true) = (x = y) := by simp [arrEq]
  rw [e]
  constructor
  · exact cmpSlice_eq_iff (fun a b => by rw [compare_eq_iff_eq]; exact ⟨BitVec.eq_of_toNat_eq, fun h => by rw [h]⟩) x y
  · exact cmpSlice_eq_iff (fun a b => by rw [compare_eq_iff_eq]; exact ⟨BitVec.eq_of_toInt_eq, fun h => by rw [h]⟩) x y

theorem cmpSlice_append {α : Type} {c : α → α → Ordering} (hc : ∀ a, c a a = .eq) (p x y : List α) :
    cmpSlice c (p ++ x) (p ++ y) = cmpSlice c x y := by
  induction p with
  | nil => rfl
  | cons a p ih => rw [List.cons_append, List.cons_append, cmpSlice, hc]; exact ih

/-- C64: sequences of any lengths are ordered by the first element in which they differ; a proper prefix comes first. -/
theorem C64_lex {w : Nat} (p s t : List (BitVec w)) (a b : BitVec w) :
    (a.toNat < b.toNat → arrCmpU (p ++ a :: s) (p ++ b :: t) = .lt ∧ arrCmpU (p ++ b :: t) (p ++ a :: s) = .gt) ∧
    (a.toInt < b.toInt → arrCmpS (p ++ a :: s) (p ++ b :: t) = .lt ∧ arrCmpS (p ++ b :: t) (p ++ a :: s) = .gt) ∧
    arrCmpU p (p ++ a :: s) = .lt ∧ arrCmpU (p ++ a :: s) p = .gt ∧
    arrCmpS p (p ++ a :: s) = .lt ∧ arrCmpS (p ++ a :: s) p = .gt := by
  have hu : ∀ a : BitVec w, compare a.toNat a.toNat = .eq := fun a => compare_eq_iff_eq.mpr rfl
  have hs : ∀ a : BitVec w, compare a.toInt a.toInt = .eq := fun a => compare_eq_iff_eq.mpr rfl
  refine ⟨fun h => ⟨?_, ?_⟩, fun h => ⟨?_, ?_⟩, ?_, ?_, ?_, ?_⟩
  · rw [arrCmpU, cmpSlice_append hu, cmpSlice, compare_lt_iff_lt.mpr h]
  · rw [arrCmpU, cmpSlice_append hu, cmpSlice, compare_gt_iff_gt.mpr h]
  · rw [arrCmpS, cmpSlice_append hs, cmpSlice, compare_lt_iff_lt.mpr h]
  · rw [arrCmpS, cmpSlice_append hs, cmpSlice, compare_gt_iff_gt.mpr h]
  · have := cmpSlice_append (c := fun a b : BitVec w => compare a.toNat b.toNat) hu p [] (a :: s)
    rw [List.append_nil] at this
    rw [arrCmpU, this, cmpSlice]
  · have := cmpSlice_append (c := fun a b : BitVec w => compare a.toNat b.toNat) hu p (a :: s) []
    rw [List.append_nil] at this
    rw [arrCmpU, this, cmpSlice]
  · have := cmpSlice_append (c := fun a b : BitVec w => compare a.toInt b.toInt) hs p [] (a :: s)
    rw [List.append_nil] at this
    rw [arrCmpS, this, cmpSlice]
  · have := cmpSlice_append (c := fun a b : BitVec w => compare a.toInt b.toInt) hs p (a :: s) []
    rw [List.append_nil] at this
    rw [arrCmpS, this, cmpSlice]

example : arrCmpU [1#8, 2#8] [1#8, 2#8, 0#8] = .lt := (C64_lex [1#8, 2#8] [] [] 0#8 0#8).2.2.1

/-- C64: antisymmetry and transitivity for arrays of one type (equal lengths). -/
theorem C64_total {w : Nat} (hw : 0 < w) (x y z : List (BitVec w)) (hxy : x.length = y.length) (hyz : y.length = z.length) :
    arrCmpU y x = (arrCmpU x y).swap ∧ (arrCmpU x y = .lt → arrCmpU y z = .lt → arrCmpU x z = .lt) ∧
    arrCmpS y x = (arrCmpS x y).swap ∧ (arrCmpS x y = .lt → arrCmpS y z = .lt → arrCmpS x z = .lt) := by
  rw [C64_unsigned x y hxy, C64_unsigned y x hxy.symm, C64_unsigned y z hyz, C64_unsigned x z (hxy.trans hyz),
    C64_signed hw x y hxy, C64_signed hw y x hxy.symm, C64_signed hw y z hyz, C64_signed hw x z (hxy.trans hyz)]
  simp only [compare_lt_iff_lt]
  refine ⟨?_, fun a b => a.trans b, ?_, fun a b => a.trans b⟩
  · exact Std.OrientedCmp.eq_swap
  · exact Std.OrientedCmp.eq_swap

/-- C64 refuted for signed secret arrays: comparing two of them panics. -/
theorem C64_secret_signed_refuted {w : Nat} (x y : List (BitVec w)) : arrCmpSecretS x y = panic := rfl

example : arrCmpU [1#8, 200#8] [2#8, 0#8] = .lt ∧ arrCmpS [255#8, 3#8] [1#8, 0#8] = .lt := by decide

/-! ## C65 the `wrap_*` methods -/

/-- What a wrapping operation on `bits`-bit unsigned integers must return for the mathematical result `v`. -/
def Wraps (bits : Nat) (r : M Canvas) (v : Int) : Prop := ∃ c, r = .ok c ∧ toBig c = v % 2 ^ bits

/-- C65 refuted for bounded integers: `wrap_add` and `wrap_mul` of the largest 8-bit values panic, as does `wrap_sub` below
zero.  They do so for every unsigned type: whenever the mathematical result is not representable. -/
theorem C65_bounded_refuted (bits : Nat) (x y : Canvas) :
    (toBig x + toBig y ≥ 2 ^ bits → wrapAdd bits false x y = panic) ∧
    (toBig x - toBig y < 0 → wrapSub bits false x y = panic) ∧
    (toBig x * toBig y ≥ 2 ^ bits → wrapMul bits false x y = panic) := by
  obtain ⟨h1, h2, h3⟩ := C21_ring bits false x y
  refine ⟨fun h => h1.2 ?_, fun h => h2.2 ?_, fun h => h3.2 ?_⟩ <;> intro hr <;> rw [← inRange_iff] at hr
  · have := hr.1; omega
  · rcases hr.2 with h' | h'
    · omega
    · simp at h'
  · have := hr.1; omega

/-- C65 for bounded integers, the part that holds: representable results are exact. -/
theorem C65_bounded_partial (bits : Nat) (x y : Canvas) :
    (0 ≤ toBig x + toBig y → toBig x + toBig y < 2 ^ bits - 1 → Wraps bits (wrapAdd bits false x y) (toBig x + toBig y)) ∧
    (0 ≤ toBig x - toBig y → toBig x - toBig y < 2 ^ bits - 1 → Wraps bits (wrapSub bits false x y) (toBig x - toBig y)) ∧
    (0 ≤ toBig x * toBig y → toBig x * toBig y < 2 ^ bits - 1 → Wraps bits (wrapMul bits false x y) (toBig x * toBig y)) := by
  obtain ⟨h1, h2, h3⟩ := C21_ring bits false x y
  have key : ∀ (r : M Canvas) (v : Int), Exactly bits false r v → 0 ≤ v → v < 2 ^ bits - 1 → Wraps bits r v := by
    intro r v hr h0 hv
    obtain ⟨c, hc, hv'⟩ := hr.1 ((inRange_iff _ _ _).mp ⟨hv, Or.inl h0⟩)
    exact ⟨c, hc, by rw [hv', Int.emod_eq_of_lt h0 (by omega)]⟩
  exact ⟨key _ _ h1, key _ _ h2, key _ _ h3⟩

example : wrapAdd 8 false (enc 8 200) (enc 8 100) = panic :=
  (C65_bounded_refuted 8 _ _).1 (by rw [toBig_enc, toBig_enc]; decide)

/-- C65: the `wrap_*` methods of modular integers compute in Z/n. -/
theorem C65_modular {T : NatMod.NatTy} (hT : T.WF) {x y : Canvas} (hy : Operand T y) :
    (∃ r, modWrapAdd T x y = .ok r ∧ val r < T.n ∧ (val r : ZMod T.n) = (val x : ZMod T.n) + val y) ∧
    (∃ r, modWrapSub T x y = .ok r ∧ val r < T.n ∧ (val r : ZMod T.n) = (val x : ZMod T.n) - val y) ∧
    (∃ r, modWrapMul T x y = .ok r ∧ val r < T.n ∧ (val r : ZMod T.n) = (val x : ZMod T.n) * val y) := C25_ring hT hy

/-- `r` succeeds with the list whose elements are the residues modulo `2^w` of `op` on the elements of `a` and `b`. -/
def WrapsEach {w : Nat} (op : Int → Int → Int) (a b : List (BitVec w)) (r : M (List (BitVec w))) : Prop :=
  ∃ c, r = .ok c ∧ c.length = a.length ∧ ∀ (i : Nat) (x y : BitVec w), a[i]? = some x → b[i]? = some y →
    ∃ z, c[i]? = some z ∧ (z.toNat : Int) = op x.toNat y.toNat % 2 ^ w

theorem wrapsEach_zip {w : Nat} {op : Int → Int → Int} {f : BitVec w → BitVec w → BitVec w} {a b : List (BitVec w)}
    (h : a.length = b.length) (hf : ∀ x y, ((f x y).toNat : Int) = op x.toNat y.toNat % 2 ^ w) :
    WrapsEach op a b (.ok (List.zipWith f a b)) := by
  refine ⟨_, rfl, by simp; omega, fun i x y hx hy => ⟨f x y, ?_, hf x y⟩⟩
  rw [List.getElem?_zipWith, hx, hy]

theorem wraps_add {w : Nat} (x y : BitVec w) : ((x + y).toNat : Int) = ((x.toNat : Int) + y.toNat) % 2 ^ w := by
  rw [BitVec.toNat_add]; push_cast; rfl

theorem wraps_mul {w : Nat} (x y : BitVec w) : ((x * y).toNat : Int) = ((x.toNat : Int) * y.toNat) % 2 ^ w := by
  rw [BitVec.toNat_mul]; push_cast; rfl

theorem wraps_sub {w : Nat} (x y : BitVec w) : ((x - y).toNat : Int) = ((x.toNat : Int) - y.toNat) % 2 ^ w := by
  have hy := y.isLt
  rw [BitVec.toNat_sub]; push_cast [Nat.cast_sub hy.le]
  rw [show (2 : Int) ^ w - y.toNat + x.toNat = (x.toNat - y.toNat) + 2 ^ w by ring, Int.add_emod_right]

/-- C65: the `wrap_*` methods of unsigned arrays and of `PublicSeq` wrap in every position; operands of unequal length (only
possible for `PublicSeq`) panic. -/
theorem C65_arrays {w : Nat} (l : Nat) (a b : List (BitVec w)) (ha : a.length = l) (hb : b.length = l) :
    WrapsEach (· + ·) a b (arrWrapAdd l a b) ∧ WrapsEach (· - ·) a b (arrWrapSub l a b) ∧
    WrapsEach (· * ·) a b (arrWrapMulPublic a b) ∧ WrapsEach (· * ·) a b (arrWrapMulSecret l a b) ∧
    WrapsEach (· + ·) a b (seqWrapAdd a b) ∧ WrapsEach (· - ·) a b (seqWrapSub a b) ∧
    WrapsEach (· * ·) a b (seqWrapMul a b) := by
  have h : a.length = b.length := by omega
  obtain ⟨h1, h2, h3, h4, -, -⟩ := C19_arrays l a b ha hb
  obtain ⟨h5, h6, h7⟩ := (C19_public_seq a b).1 h
  rw [arrWrapAdd, arrWrapSub, arrWrapMulPublic, arrWrapMulSecret, seqWrapAdd, seqWrapSub, seqWrapMul, h1, h2, h3, h4, h5, h6,
    h7]
  exact ⟨wrapsEach_zip h wraps_add, wrapsEach_zip h wraps_sub, wrapsEach_zip h wraps_mul, wrapsEach_zip h wraps_mul,
    wrapsEach_zip h wraps_add, wrapsEach_zip h wraps_sub, wrapsEach_zip h wraps_mul⟩

/-- C65 refuted for signed arrays: `wrap_add`, `wrap_sub` and `wrap_mul` always panic. -/
theorem C65_signed_arrays_refuted {w : Nat} (x y : List (BitVec w)) : arrWrapSigned x y = panic := rfl

example : arrWrapSub 2 [1#8, 5#8] [2#8, 3#8] = .ok [255#8, 2#8] := by decide

end Hacspec.Props
