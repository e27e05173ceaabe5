import Verif.Model.Format
import Verif.Spec.Numeral
import Verif.Props.AbstractInts

/-! # C84: printing -/

namespace Hacspec.Props

open SecretInt Spec AbstractInt
open Hacspec.Format (digits decNat decInt fmtU fmtI fmtHex fmtCanvas fmtItems fmtArrU fmtArrI fmtSeqU fmtPolyU)

/-! ## Numerals -/

theorem positional_append (b : Nat) (ds : List Nat) (d : Nat) : positional b (ds ++ [d]) = b * positional b ds + d := by
  rw [positional, List.foldl_append]; rfl

theorem digits_spec {b : Nat} (hb : 2 ≤ b) (n : Nat) :
    (∀ d ∈ digits b n, d < b) ∧ positional b (digits b n) = n ∧ ∃ d es, digits b n = d :: es ∧ (d = 0 → n = 0) ∧ (n < b → es = []) := by
  induction n using Nat.strongRecOn with
  | _ n ih =>
    by_cases h : n < b
    · rw [digits, dif_pos (.inl h)]
      exact ⟨fun d hd => by rw [List.mem_singleton] at hd; omega, by simp [positional], n, [], rfl, id, fun _ => rfl⟩
    · obtain ⟨h1, h2, d, es, h3, h4, -⟩ := ih (n / b) (Nat.div_lt_self (by omega) (by omega))
      rw [digits, dif_neg (by omega)]
      refine ⟨fun d hd => ?_, ?_, d, es ++ [n % b], by rw [h3]; rfl, fun e => ?_, fun c => absurd c h⟩
      · rcases List.mem_append.mp hd with hd | hd
        · exact h1 d hd
        · rw [List.mem_singleton] at hd
          exact hd ▸ Nat.mod_lt _ (by omega)
      · rw [positional_append, h2, Nat.div_add_mod]
      · have := h4 e
        rw [Nat.div_eq_zero_iff] at this
        omega

theorem hexChar_eq : ∀ d, d < 16 → Hex.hexChar d = digitChar d := by decide

theorem map_hexChar {b n : Nat} (hb : 2 ≤ b) (hb2 : b ≤ 16) : (digits b n).map Hex.hexChar = (digits b n).map digitChar := by
  apply List.map_congr_left
  intro d hd
  exact hexChar_eq d (Nat.lt_of_lt_of_le ((digits_spec hb n).1 d hd) hb2)

theorem denotes_digits {b : Nat} (hb : 2 ≤ b) (hb2 : b ≤ 16) (n : Nat) : Denotes b ((digits b n).map Hex.hexChar) n := by
  obtain ⟨h1, h2, d, es, h3, h4, h5⟩ := digits_spec hb n
  refine ⟨digits b n, map_hexChar hb hb2, h1, h2, d, es, h3, fun e => h5 ?_⟩
  rw [h4 e]; omega

theorem denotes_decInt (x : Int) : DenotesInt (decInt x) x := by
  rw [decInt]
  split
  · exact .inr ⟨_, x.natAbs, rfl, denotes_digits (by decide) (by decide) _, by omega, by omega⟩
  · exact .inl ⟨x.natAbs, denotes_digits (by decide) (by decide) _, by omega⟩

/-- **C84.**  A number has one numeral, and a numeral denotes one number. -/
theorem C84_numerals (b : Nat) (hb : 2 ≤ b) (hb2 : b ≤ 16) (s t : List U8) (n k : Nat) (h : Denotes b s n) (h' : Denotes b t k) :
    s = t ↔ n = k := by
  have inj : ∀ x, x < 16 → ∀ y, y < 16 → digitChar x = digitChar y → x = y := by decide
  have minj : ∀ l l' : List Nat, (∀ d ∈ l, d < b) → (∀ d ∈ l', d < b) → l.map digitChar = l'.map digitChar → l = l' := by
    intro l
    induction l with
    | nil => intro l' _ _ h; cases l' with
      | nil => rfl
      | cons y l' => cases h
    | cons x l ih =>
      intro l' h1 h2 h
      cases l' with
      | nil => cases h
      | cons y l' =>
        injection h with e1 e2
        rw [inj x (Nat.lt_of_lt_of_le (h1 x (List.mem_cons_self ..)) hb2) y (Nat.lt_of_lt_of_le (h2 y (List.mem_cons_self ..)) hb2) e1,
          ih l' (fun d hd => h1 d (List.mem_cons_of_mem _ hd)) (fun d hd => h2 d (List.mem_cons_of_mem _ hd)) e2]
  -- the digits are determined by the number
  have key : ∀ (n : Nat) (ds : List Nat), (∀ d ∈ ds, d < b) → positional b ds = n → (∃ d es, ds = d :: es ∧ (d = 0 → es = [])) →
      ds = digits b n := by
    intro n
    induction n using Nat.strongRecOn with
    | _ n ih =>
      intro ds h1 h2 h3
      obtain ⟨d, es, rfl, h4⟩ := h3
      rcases List.eq_nil_or_concat es with rfl | ⟨fs, e, rfl⟩
      · have e : n = d := by rw [← h2]; simp [positional]
        have := h1 d (List.mem_cons_self ..)
        rw [digits, dif_pos (.inl (by omega)), e]
      · rw [List.concat_eq_append] at *
        have he : e < b := h1 e (by simp)
        rw [← List.cons_append, positional_append] at h2
        have hd : d ≠ 0 := fun c => by simpa using h4 c
        have hpos : ∀ (l : List Nat) (a : Nat), 0 < a → 0 < l.foldl (fun a d => b * a + d) a := by
          intro l
          induction l with
          | nil => intro a h; exact h
          | cons x l ih => intro a h; exact ih _ (Nat.add_pos_left (Nat.mul_pos (by omega) h) _)
        have hp : 0 < positional b (d :: fs) := by
          rw [positional, List.foldl_cons]
          exact hpos fs _ (by omega)
        have hq : n / b = positional b (d :: fs) := by
          rw [← h2, Nat.mul_add_div (by omega), Nat.div_eq_of_lt he, Nat.add_zero]
        have hm : n % b = e := by rw [← h2, Nat.mul_add_mod, Nat.mod_eq_of_lt he]
        have hge : ¬ n < b := by
          intro c
          rw [Nat.div_eq_of_lt c] at hq
          omega
        rw [digits, dif_neg (by omega), ← List.cons_append]
        congr 1
        · refine ih (n / b) (Nat.div_lt_self (by omega) (by omega)) (d :: fs) (fun x hx => h1 x ?_) hq.symm
            ⟨d, fs, rfl, fun c => absurd c hd⟩
          rw [← List.cons_append]
          exact List.mem_append_left _ hx
        · rw [hm]
  obtain ⟨ds, rfl, h1, h2, h3⟩ := h
  obtain ⟨es, rfl, h1', h2', h3'⟩ := h'
  constructor
  · intro e
    rw [← h2, ← h2', minj ds es h1 h1' e]
  · intro e
    rw [key n ds h1 h2 h3, key k es h1' h2' h3', e]

theorem not_minus {n : Nat} {s : List U8} (h : Denotes 10 s n) : ∀ c ∈ s, 48#8 ≤ c ∧ c ≤ 57#8 := by
  obtain ⟨ds, rfl, h1, -⟩ := h
  have : ∀ d, d < 10 → 48#8 ≤ digitChar d ∧ digitChar d ≤ 57#8 := by decide
  intro c hc
  obtain ⟨d, hd, rfl⟩ := List.mem_map.mp hc
  exact this d (h1 d hd)

/-- **C84.**  The same for integers. -/
theorem C84_int_numerals (s t : List U8) (x y : Int) (h : DenotesInt s x) (h' : DenotesInt t y) : s = t ↔ x = y := by
  have nm : ∀ (u t : List U8) (n : Nat), Denotes 10 u n → u ≠ 0x2d#8 :: t := by
    rintro u t n h rfl
    have := not_minus h 0x2d#8 (List.mem_cons_self ..)
    exact absurd this.1 (by decide)
  rcases h with ⟨n, h1, rfl⟩ | ⟨u, n, rfl, h1, hn, rfl⟩ <;> rcases h' with ⟨k, h2, rfl⟩ | ⟨v, k, rfl, h2, hk, rfl⟩
  · rw [C84_numerals 10 (by decide) (by decide) s t n k h1 h2]; omega
  · exact ⟨fun e => absurd e (nm _ _ _ h1), fun e => by omega⟩
  · exact ⟨fun e => absurd e.symm (nm _ _ _ h2), fun e => by omega⟩
  · rw [List.cons.injEq, C84_numerals 10 (by decide) (by decide) u v n k h1 h2]; simp

/-! ## Integers -/

/-- **C84.**  `{}` and `{:?}` print unsigned and signed integers in decimal, `{:x}` prints the bits in hexadecimal; bounded and
modular integers are printed in decimal. -/
theorem C84_unsigned {w : Nat} (x : BitVec w) : Denotes 10 (fmtU x) x.toNat := denotes_digits (by decide) (by decide) _
theorem C84_signed {w : Nat} (x : BitVec w) : DenotesInt (fmtI x) x.toInt := denotes_decInt _
theorem C84_hex {w : Nat} (x : BitVec w) : Denotes 16 (fmtHex x) x.toNat := denotes_digits (by decide) (by decide) _
theorem C84_bounded (c : Canvas) : DenotesInt (fmtCanvas c) (toBig c) := denotes_decInt _

/-- **C84, refuted**: that secrets are observable by `declassify` only.  The text of a secret integer is that of its value:
different secrets have different texts, in all formats. -/
theorem C84_secret_refuted {w : Nat} (x y : BitVec w) :
    (fmtU x = fmtU y ↔ x = y) ∧ (fmtI x = fmtI y ↔ x = y) ∧ (fmtHex x = fmtHex y ↔ x = y) := by
  refine ⟨?_, ?_, ?_⟩
  · rw [C84_numerals 10 (by decide) (by decide) _ _ _ _ (C84_unsigned x) (C84_unsigned y), BitVec.toNat_inj]
  · rw [C84_int_numerals _ _ _ _ (C84_signed x) (C84_signed y), BitVec.toInt_inj]
  · rw [C84_numerals 16 (by decide) (by decide) _ _ _ _ (C84_hex x) (C84_hex y), BitVec.toNat_inj]

/-- `-128` and `ff`. -/
example : fmtI (0x80#8) = [0x2d, 0x31, 0x32, 0x38] ∧ fmtHex (0xff#8) = [0x66, 0x66] := by
  constructor
  · have : (declassify 0x80#8).toInt = -128 := by decide
    rw [fmtI, this, decInt, if_pos (by decide), decNat, show (-128 : Int).natAbs = 128 from rfl]
    simp [digits, Hex.hexChar]
  · rw [fmtHex, show (declassify 0xff#8).toNat = 255 from rfl]
    simp [digits, Hex.hexChar]

/-- **C84.**  Two bounded integers have the same text exactly if they have the same value. -/
theorem C84_bounded_eq (c d : Canvas) : fmtCanvas c = fmtCanvas d ↔ toBig c = toBig d :=
  C84_int_numerals _ _ _ _ (C84_bounded c) (C84_bounded d)

/-! ## Arrays and sequences -/

/-- The text of an element: not empty, digits or a minus sign. -/
def Plain (s : List U8) : Prop := s ≠ [] ∧ ∀ c ∈ s, c ≠ 44#8 ∧ c ≠ 93#8

theorem plain_denotes {s : List U8} {n : Nat} (h : Denotes 10 s n) : Plain s := by
  have : ∀ c : U8, 48#8 ≤ c ∧ c ≤ 57#8 → c ≠ 44#8 ∧ c ≠ 93#8 := by decide +kernel
  refine ⟨?_, fun c hc => this c (not_minus h c hc)⟩
  obtain ⟨ds, rfl, -, -, d, es, rfl, -⟩ := h
  simp

theorem plain_int {s : List U8} {x : Int} (h : DenotesInt s x) : Plain s := by
  rcases h with ⟨n, h, -⟩ | ⟨t, n, rfl, h, -⟩
  · exact plain_denotes h
  · refine ⟨by simp, fun c hc => ?_⟩
    rcases List.mem_cons.mp hc with rfl | hc
    · decide
    · exact (plain_denotes h).2 c hc

theorem split_stop {a b x y : List U8} (ha : ∀ c ∈ a, c ≠ 44#8 ∧ c ≠ 93#8) (hb : ∀ c ∈ b, c ≠ 44#8 ∧ c ≠ 93#8)
    (hx : ∃ z, x = 44#8 :: z ∨ x = 93#8 :: z) (hy : ∃ z, y = 44#8 :: z ∨ y = 93#8 :: z) (h : a ++ x = b ++ y) : a = b ∧ x = y := by
  induction a generalizing b with
  | nil =>
    cases b with
    | nil => exact ⟨rfl, h⟩
    | cons c b =>
      have := hb c (List.mem_cons_self ..)
      obtain ⟨z, rfl | rfl⟩ := hx <;> rw [List.nil_append, List.cons_append] at h <;> injection h with h1 h2
      · exact absurd h1.symm this.1
      · exact absurd h1.symm this.2
  | cons c a ih =>
    have := ha c (List.mem_cons_self ..)
    cases b with
    | nil =>
      obtain ⟨z, rfl | rfl⟩ := hy <;> rw [List.nil_append, List.cons_append] at h <;> injection h with h1 h2
      · exact absurd h1 this.1
      · exact absurd h1 this.2
    | cons c' b =>
      rw [List.cons_append, List.cons_append] at h
      injection h with h1 h2
      obtain ⟨e1, e2⟩ := ih (fun c h => ha c (List.mem_cons_of_mem _ h)) (fun c h => hb c (List.mem_cons_of_mem _ h)) h2
      exact ⟨by rw [h1, e1], e2⟩

theorem rest_start (xs : List (List U8)) (x : List U8) :
    ∃ z, (xs.flatMap fun y => 44#8 :: 32#8 :: y) ++ 93#8 :: x = 44#8 :: z ∨
      (xs.flatMap fun y => 44#8 :: 32#8 :: y) ++ 93#8 :: x = 93#8 :: z := by
  cases xs with
  | nil => exact ⟨x, .inr rfl⟩
  | cons y ys => exact ⟨_, .inl rfl⟩

theorem rest_inj {xs ys : List (List U8)} (hx : ∀ a ∈ xs, Plain a) (hy : ∀ a ∈ ys, Plain a) {x y : List U8}
    (h : (xs.flatMap fun y => 44#8 :: 32#8 :: y) ++ 93#8 :: x = (ys.flatMap fun y => 44#8 :: 32#8 :: y) ++ 93#8 :: y) :
    xs = ys ∧ x = y := by
  induction xs generalizing ys with
  | nil =>
    cases ys with
    | nil => injection h with h1 h2; exact ⟨rfl, h2⟩
    | cons b ys =>
      injection h with h1 h2
      exact absurd h1 (by decide)
  | cons a xs ih =>
    cases ys with
    | nil =>
      injection h with h1 h2
      exact absurd h1 (by decide)
    | cons b ys =>
      rw [List.flatMap_cons, List.flatMap_cons, List.append_assoc, List.append_assoc] at h
      injection h with h1 h2
      injection h2 with h1 h2
      obtain ⟨e1, e2⟩ := split_stop (hx a (List.mem_cons_self ..)).2 (hy b (List.mem_cons_self ..)).2 (rest_start _ _)
        (rest_start _ _) h2
      obtain ⟨e3, e4⟩ := ih (fun a h => hx a (List.mem_cons_of_mem _ h)) (fun a h => hy a (List.mem_cons_of_mem _ h)) e2
      exact ⟨by rw [e1, e3], e4⟩

theorem fmtItems_cons (a : List U8) (xs : List (List U8)) (x : List U8) :
    fmtItems (a :: xs) ++ x = 91#8 :: (a ++ ((xs.flatMap fun y => 44#8 :: 32#8 :: y) ++ 93#8 :: x)) := by
  simp [fmtItems]

theorem fmtItems_inj {xs ys : List (List U8)} (hx : ∀ a ∈ xs, Plain a) (hy : ∀ a ∈ ys, Plain a) {x y : List U8}
    (h : fmtItems xs ++ x = fmtItems ys ++ y) : xs = ys ∧ x = y := by
  have hd : ∀ (a : List U8) (z : List U8), Plain a → ∃ c t, a ++ z = c :: t ∧ c ≠ 93#8 := by
    intro a z ha
    cases a with
    | nil => exact absurd rfl ha.1
    | cons c t => exact ⟨c, t ++ z, rfl, (ha.2 c (List.mem_cons_self ..)).2⟩
  cases xs with
  | nil =>
    cases ys with
    | nil => injection h with h1 h2; injection h2 with h1 h2; exact ⟨rfl, h2⟩
    | cons b ys =>
      rw [fmtItems_cons] at h
      injection h with h1 h2
      obtain ⟨c, t, e, hc⟩ := hd b _ (hy b (List.mem_cons_self ..))
      rw [e] at h2
      injection h2 with h1 h2
      exact absurd h1.symm hc
  | cons a xs =>
    cases ys with
    | nil =>
      rw [fmtItems_cons] at h
      injection h with h1 h2
      obtain ⟨c, t, e, hc⟩ := hd a _ (hx a (List.mem_cons_self ..))
      rw [e] at h2
      injection h2 with h1 h2
      exact absurd h1 hc
    | cons b ys =>
      rw [fmtItems_cons, fmtItems_cons] at h
      injection h with h1 h2
      obtain ⟨e1, e2⟩ := split_stop (hx a (List.mem_cons_self ..)).2 (hy b (List.mem_cons_self ..)).2 (rest_start _ _)
        (rest_start _ _) h2
      obtain ⟨e3, e4⟩ := rest_inj (fun a h => hx a (List.mem_cons_of_mem _ h)) (fun a h => hy a (List.mem_cons_of_mem _ h)) e2
      exact ⟨by rw [e1, e3], e4⟩

theorem map_fmtU_inj {w : Nat} {a b : List (BitVec w)} (h : a.map fmtU = b.map fmtU) : a = b :=
  List.map_injective_iff.mpr (fun x y e => (C84_secret_refuted x y).1.mp e) h

theorem map_fmtI_inj {w : Nat} {a b : List (BitVec w)} (h : a.map fmtI = b.map fmtI) : a = b :=
  List.map_injective_iff.mpr (fun x y e => (C84_secret_refuted x y).2.1.mp e) h

theorem plain_map_fmtU {w : Nat} (a : List (BitVec w)) : ∀ s ∈ a.map fmtU, Plain s := by
  intro s hs
  obtain ⟨x, -, rfl⟩ := List.mem_map.mp hs
  exact plain_denotes (C84_unsigned x)

theorem plain_map_fmtI {w : Nat} (a : List (BitVec w)) : ∀ s ∈ a.map fmtI, Plain s := by
  intro s hs
  obtain ⟨x, -, rfl⟩ := List.mem_map.mp hs
  exact plain_int (C84_signed x)

/-- **C84.**  The `Debug` text of an array is `[`, the decimal numerals of the elements separated by `, `, and `]`. -/
theorem C84_array {w : Nat} (x : BitVec w) (a : List (BitVec w)) :
    fmtArrU (x :: a) = 0x5b#8 :: (fmtU x ++ (a.flatMap fun y => 0x2c#8 :: 0x20#8 :: fmtU y) ++ [0x5d#8]) ∧
    fmtArrI (x :: a) = 0x5b#8 :: (fmtI x ++ (a.flatMap fun y => 0x2c#8 :: 0x20#8 :: fmtI y) ++ [0x5d#8]) ∧
    fmtArrU ([] : List (BitVec w)) = [0x5b#8, 0x5d#8] ∧ fmtArrI ([] : List (BitVec w)) = [0x5b#8, 0x5d#8] := by
  refine ⟨?_, ?_, rfl, rfl⟩
  · simp only [fmtArrU, List.map_cons, fmtItems, List.flatMap_map, declassify]
  · simp only [fmtArrI, List.map_cons, fmtItems, List.flatMap_map, declassify]

/-- **C84.**  It determines the array, of whatever length, also for secret elements. -/
theorem C84_array_eq {w : Nat} (a b : List (BitVec w)) :
    (fmtArrU a = fmtArrU b ↔ a = b) ∧ (fmtArrI a = fmtArrI b ↔ a = b) ∧ ∀ name, fmtSeqU name a = fmtSeqU name b ↔ a = b := by
  have id : ∀ a : List (BitVec w), a.map declassify = a := fun a => List.map_id a
  refine ⟨⟨fun h => ?_, fun h => by rw [h]⟩, ⟨fun h => ?_, fun h => by rw [h]⟩, fun name => ⟨fun h => ?_, fun h => by rw [h]⟩⟩
  · rw [fmtArrU, fmtArrU, id, id, ← List.append_nil (fmtItems _), ← List.append_nil (fmtItems (b.map fmtU))] at h
    exact map_fmtU_inj (fmtItems_inj (plain_map_fmtU a) (plain_map_fmtU b) h).1
  · rw [fmtArrI, fmtArrI, id, id, ← List.append_nil (fmtItems _), ← List.append_nil (fmtItems (b.map fmtI))] at h
    exact map_fmtI_inj (fmtItems_inj (plain_map_fmtI a) (plain_map_fmtI b) h).1
  · rw [fmtSeqU, fmtSeqU, List.append_cancel_left_eq, List.append_cancel_left_eq] at h
    exact map_fmtU_inj (fmtItems_inj (plain_map_fmtU a) (plain_map_fmtU b) h).1

/-- **C84.**  The text of a `poly!` value determines the coefficients, the polynomial of the type and the modulus. -/
theorem C84_poly_eq {w : Nat} (p q f g : List (BitVec w)) (n k : BitVec w) :
    fmtPolyU p f n = fmtPolyU q g k ↔ p = q ∧ f = g ∧ n = k := by
  constructor
  · intro h
    rw [fmtPolyU, fmtPolyU, List.append_cancel_left_eq] at h
    obtain ⟨h1, h2⟩ := fmtItems_inj (plain_map_fmtU p) (plain_map_fmtU q) h
    rw [List.append_cancel_left_eq] at h2
    obtain ⟨h3, h4⟩ := fmtItems_inj (plain_map_fmtU f) (plain_map_fmtU g) h2
    rw [List.append_cancel_left_eq] at h4
    exact ⟨map_fmtU_inj h1, map_fmtU_inj h3, (C84_secret_refuted n k).1.mp h4⟩
  · rintro ⟨rfl, rfl, rfl⟩; rfl

/-- The bytes of a string of ASCII characters. -/
def ascii (s : String) : List U8 := s.toList.map fun c => BitVec.ofNat 8 c.toNat

/-- **C84.**  The fixed parts of the texts of `Seq` and of `poly!` values; the captions of the latter are in quotes. -/
theorem C84_fixed_text {w : Nat} (name : List U8) (a p f : List (BitVec w)) (n : BitVec w) :
    fmtSeqU name a = name ++ ascii " { b: " ++ fmtArrU a ++ ascii " }" ∧
    fmtPolyU p f n = ascii "\"poly: \"" ++ fmtArrU p ++ ascii "\", irr: \"" ++ fmtArrU f ++ ascii "\", n: \"" ++ fmtU n := by
  have id : ∀ a : List (BitVec w), a.map declassify = a := fun a => List.map_id a
  have h1 : ascii " { b: " = [32#8, 123#8, 32#8, 98#8, 58#8, 32#8] := by decide
  have h2 : ascii " }" = [32#8, 125#8] := by decide
  have h3 : ascii "\"poly: \"" = Format.quoted Format.txtPoly := by decide
  have h4 : ascii "\", irr: \"" = Format.quoted Format.txtIrr := by decide
  have h5 : ascii "\", n: \"" = Format.quoted Format.txtN := by decide
  rw [h1, h2, h3, h4, h5]
  simp only [fmtSeqU, fmtPolyU, fmtArrU, id, List.append_assoc, true_and, and_self]

/-- `[1, 23]` and `[12, 3]`. -/
example : fmtArrU [1#8, 23#8] = [0x5b, 0x31, 0x2c, 0x20, 0x32, 0x33, 0x5d] ∧ fmtArrU [1#8, 23#8] ≠ fmtArrU [12#8, 3#8] := by
  refine ⟨?_, fun h => absurd ((C84_array_eq [1#8, 23#8] [12#8, 3#8]).1.mp h) (by decide)⟩
  simp [fmtArrU, fmtItems, fmtU, decNat, digits, Hex.hexChar, declassify]

end Hacspec.Props
