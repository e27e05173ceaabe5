import Verif.Lemmas.AbstractInt
import Mathlib.NumberTheory.LucasPrimality
import Mathlib.Tactic.NormNum.Prime

/-!
# Primality of the three field moduli

Pratt certificates: each prime `p` comes with a generator of `(Z/p)ˣ` and the prime factorisation of
`p - 1`; the powers are evaluated by the kernel.  (Generated from factorisations of `p - 1`.)
-/

namespace Hacspec.Primes

open AbstractInt

/-- Lucas' primality criterion in computable form. -/
theorem pratt (p a : Nat) (fs : List Nat) (hprime : ∀ q ∈ fs, q.Prime) (hprod : fs.prod + 1 = p)
    (h1 : powMod a (p - 1) p = 1) (h2 : (fs.all fun q => powMod a ((p - 1) / q) p != 1) = true) : p.Prime := by
  have hp1 : 1 < p := by
    have : 0 < fs.prod := Nat.pos_of_ne_zero (by
      intro h
      rw [List.prod_eq_zero_iff] at h
      exact Nat.not_prime_zero (hprime 0 h))
    omega
  have hcast : ∀ e, ((a : ZMod p) ^ e = 1 ↔ powMod a e p = 1) := by
    intro e
    rw [powMod_eq, ← Nat.cast_pow, show (1 : ZMod p) = ((1 : Nat) : ZMod p) by simp,
      ZMod.natCast_eq_natCast_iff', Nat.mod_eq_of_lt hp1]
  refine lucas_primality p (a : ZMod p) ((hcast _).mpr h1) ?_
  intro q hq hd h
  have hmem : q ∈ fs := by
    have hd' : q ∣ fs.prod := by rw [show fs.prod = p - 1 by omega]; exact hd
    obtain ⟨r, hr, hqr⟩ := (Prime.dvd_prod_iff hq.prime).mp hd'
    rw [(Nat.prime_dvd_prime_iff_eq hq (hprime r hr)).mp hqr]
    exact hr
  have := List.all_eq_true.mp h2 q hmem
  rw [(hcast _).mp h] at this
  simp at this

theorem p2 : Nat.Prime 2 := by norm_num
theorem p3 : Nat.Prime 3 := by norm_num
theorem p5 : Nat.Prime 5 := by norm_num
theorem p7 : Nat.Prime 7 := by norm_num
theorem p11 : Nat.Prime 11 := by norm_num
theorem p13 : Nat.Prime 13 := by norm_num
theorem p17 : Nat.Prime 17 := by norm_num
theorem p19 : Nat.Prime 19 := by norm_num
theorem p23 : Nat.Prime 23 := by norm_num
theorem p29 : Nat.Prime 29 := by norm_num
theorem p31 : Nat.Prime 31 := by norm_num
theorem p41 : Nat.Prime 41 := by norm_num
theorem p43 : Nat.Prime 43 := by norm_num
theorem p47 : Nat.Prime 47 := by norm_num
theorem p53 : Nat.Prime 53 := by norm_num
theorem p59 : Nat.Prime 59 := by norm_num
theorem p67 : Nat.Prime 67 := by norm_num
theorem p73 : Nat.Prime 73 := by norm_num
theorem p83 : Nat.Prime 83 := by norm_num
theorem p89 : Nat.Prime 89 := by norm_num
theorem p97 : Nat.Prime 97 := by norm_num
theorem p103 : Nat.Prime 103 := by norm_num
theorem p107 : Nat.Prime 107 := by norm_num
theorem p109 : Nat.Prime 109 := by norm_num
theorem p127 : Nat.Prime 127 := by norm_num
theorem p131 : Nat.Prime 131 := by norm_num
theorem p157 : Nat.Prime 157 := by norm_num
theorem p173 : Nat.Prime 173 := by norm_num
theorem p181 : Nat.Prime 181 := by norm_num
theorem p197 : Nat.Prime 197 := by norm_num
theorem p223 : Nat.Prime 223 := by norm_num
theorem p241 : Nat.Prime 241 := by norm_num
theorem p257 : Nat.Prime 257 := by norm_num
theorem p313 : Nat.Prime 313 := by norm_num
theorem p353 : Nat.Prime 353 := by norm_num
theorem p419 : Nat.Prime 419 := by norm_num
theorem p461 : Nat.Prime 461 := by norm_num
theorem p479 : Nat.Prime 479 := by norm_num
theorem p487 : Nat.Prime 487 := by norm_num
theorem p641 : Nat.Prime 641 := by norm_num
theorem p661 : Nat.Prime 661 := by norm_num
theorem p727 : Nat.Prime 727 := by norm_num
theorem p757 : Nat.Prime 757 := by norm_num
theorem p881 : Nat.Prime 881 := by norm_num
theorem p919 : Nat.Prime 919 := by norm_num
theorem p991 : Nat.Prime 991 := by norm_num

theorem p19403 : Nat.Prime 19403 :=
  pratt 19403 2 [2, 89, 109]
    (List.forall_mem_cons.2 ⟨p2, List.forall_mem_cons.2 ⟨p89, List.forall_mem_cons.2 ⟨p109, List.forall_mem_nil _⟩⟩⟩)
    (by decide +kernel) (by decide +kernel) (by decide +kernel)

theorem p32985101 : Nat.Prime 32985101 :=
  pratt 32985101 2 [2, 2, 5, 5, 17, 19403]
    (List.forall_mem_cons.2 ⟨p2, List.forall_mem_cons.2 ⟨p2, List.forall_mem_cons.2 ⟨p5, List.forall_mem_cons.2 ⟨p5, List.forall_mem_cons.2 ⟨p17, List.forall_mem_cons.2 ⟨p19403, List.forall_mem_nil _⟩⟩⟩⟩⟩⟩)
    (by decide +kernel) (by decide +kernel) (by decide +kernel)

theorem p3134801 : Nat.Prime 3134801 :=
  pratt 3134801 3 [2, 2, 2, 2, 5, 5, 17, 461]
    (List.forall_mem_cons.2 ⟨p2, List.forall_mem_cons.2 ⟨p2, List.forall_mem_cons.2 ⟨p2, List.forall_mem_cons.2 ⟨p2, List.forall_mem_cons.2 ⟨p5, List.forall_mem_cons.2 ⟨p5, List.forall_mem_cons.2 ⟨p17, List.forall_mem_cons.2 ⟨p461, List.forall_mem_nil _⟩⟩⟩⟩⟩⟩⟩⟩)
    (by decide +kernel) (by decide +kernel) (by decide +kernel)

theorem p4889 : Nat.Prime 4889 :=
  pratt 4889 3 [2, 2, 2, 13, 47]
    (List.forall_mem_cons.2 ⟨p2, List.forall_mem_cons.2 ⟨p2, List.forall_mem_cons.2 ⟨p2, List.forall_mem_cons.2 ⟨p13, List.forall_mem_cons.2 ⟨p47, List.forall_mem_nil _⟩⟩⟩⟩⟩)
    (by decide +kernel) (by decide +kernel) (by decide +kernel)

theorem p37003 : Nat.Prime 37003 :=
  pratt 37003 2 [2, 3, 7, 881]
    (List.forall_mem_cons.2 ⟨p2, List.forall_mem_cons.2 ⟨p3, List.forall_mem_cons.2 ⟨p7, List.forall_mem_cons.2 ⟨p881, List.forall_mem_nil _⟩⟩⟩⟩)
    (by decide +kernel) (by decide +kernel) (by decide +kernel)

theorem p221101 : Nat.Prime 221101 :=
  pratt 221101 22 [2, 2, 3, 5, 5, 11, 67]
    (List.forall_mem_cons.2 ⟨p2, List.forall_mem_cons.2 ⟨p2, List.forall_mem_cons.2 ⟨p3, List.forall_mem_cons.2 ⟨p5, List.forall_mem_cons.2 ⟨p5, List.forall_mem_cons.2 ⟨p11, List.forall_mem_cons.2 ⟨p67, List.forall_mem_nil _⟩⟩⟩⟩⟩⟩⟩)
    (by decide +kernel) (by decide +kernel) (by decide +kernel)

theorem p4024685905107147541 : Nat.Prime 4024685905107147541 :=
  pratt 4024685905107147541 2 [2, 2, 3, 3, 5, 13, 43, 4889, 37003, 221101]
    (List.forall_mem_cons.2 ⟨p2, List.forall_mem_cons.2 ⟨p2, List.forall_mem_cons.2 ⟨p3, List.forall_mem_cons.2 ⟨p3, List.forall_mem_cons.2 ⟨p5, List.forall_mem_cons.2 ⟨p13, List.forall_mem_cons.2 ⟨p43, List.forall_mem_cons.2 ⟨p4889, List.forall_mem_cons.2 ⟨p37003, List.forall_mem_cons.2 ⟨p221101, List.forall_mem_nil _⟩⟩⟩⟩⟩⟩⟩⟩⟩⟩)
    (by decide +kernel) (by decide +kernel) (by decide +kernel)

theorem p897064739519922787230182993783 : Nat.Prime 897064739519922787230182993783 :=
  pratt 897064739519922787230182993783 5 [2, 73, 487, 3134801, 4024685905107147541]
    (List.forall_mem_cons.2 ⟨p2, List.forall_mem_cons.2 ⟨p73, List.forall_mem_cons.2 ⟨p487, List.forall_mem_cons.2 ⟨p3134801, List.forall_mem_cons.2 ⟨p4024685905107147541, List.forall_mem_nil _⟩⟩⟩⟩⟩)
    (by decide +kernel) (by decide +kernel) (by decide +kernel)

theorem p1361129467683753853853498429727072845819 : Nat.Prime 1361129467683753853853498429727072845819 :=
  pratt 1361129467683753853853498429727072845819 2 [2, 23, 32985101, 897064739519922787230182993783]
    (List.forall_mem_cons.2 ⟨p2, List.forall_mem_cons.2 ⟨p23, List.forall_mem_cons.2 ⟨p32985101, List.forall_mem_cons.2 ⟨p897064739519922787230182993783, List.forall_mem_nil _⟩⟩⟩⟩)
    (by decide +kernel) (by decide +kernel) (by decide +kernel)

theorem p32573 : Nat.Prime 32573 :=
  pratt 32573 2 [2, 2, 17, 479]
    (List.forall_mem_cons.2 ⟨p2, List.forall_mem_cons.2 ⟨p2, List.forall_mem_cons.2 ⟨p17, List.forall_mem_cons.2 ⟨p479, List.forall_mem_nil _⟩⟩⟩⟩)
    (by decide +kernel) (by decide +kernel) (by decide +kernel)

theorem p65147 : Nat.Prime 65147 :=
  pratt 65147 2 [2, 32573]
    (List.forall_mem_cons.2 ⟨p2, List.forall_mem_cons.2 ⟨p32573, List.forall_mem_nil _⟩⟩)
    (by decide +kernel) (by decide +kernel) (by decide +kernel)

theorem p57467 : Nat.Prime 57467 :=
  pratt 57467 2 [2, 59, 487]
    (List.forall_mem_cons.2 ⟨p2, List.forall_mem_cons.2 ⟨p59, List.forall_mem_cons.2 ⟨p487, List.forall_mem_nil _⟩⟩⟩)
    (by decide +kernel) (by decide +kernel) (by decide +kernel)

theorem p132049 : Nat.Prime 132049 :=
  pratt 132049 26 [2, 2, 2, 2, 3, 3, 7, 131]
    (List.forall_mem_cons.2 ⟨p2, List.forall_mem_cons.2 ⟨p2, List.forall_mem_cons.2 ⟨p2, List.forall_mem_cons.2 ⟨p2, List.forall_mem_cons.2 ⟨p3, List.forall_mem_cons.2 ⟨p3, List.forall_mem_cons.2 ⟨p7, List.forall_mem_cons.2 ⟨p131, List.forall_mem_nil _⟩⟩⟩⟩⟩⟩⟩⟩)
    (by decide +kernel) (by decide +kernel) (by decide +kernel)

theorem p3727 : Nat.Prime 3727 :=
  pratt 3727 3 [2, 3, 3, 3, 3, 23]
    (List.forall_mem_cons.2 ⟨p2, List.forall_mem_cons.2 ⟨p3, List.forall_mem_cons.2 ⟨p3, List.forall_mem_cons.2 ⟨p3, List.forall_mem_cons.2 ⟨p3, List.forall_mem_cons.2 ⟨p23, List.forall_mem_nil _⟩⟩⟩⟩⟩⟩)
    (by decide +kernel) (by decide +kernel) (by decide +kernel)

theorem p1923133 : Nat.Prime 1923133 :=
  pratt 1923133 2 [2, 2, 3, 43, 3727]
    (List.forall_mem_cons.2 ⟨p2, List.forall_mem_cons.2 ⟨p2, List.forall_mem_cons.2 ⟨p3, List.forall_mem_cons.2 ⟨p43, List.forall_mem_cons.2 ⟨p3727, List.forall_mem_nil _⟩⟩⟩⟩⟩)
    (by decide +kernel) (by decide +kernel) (by decide +kernel)

theorem p4153 : Nat.Prime 4153 :=
  pratt 4153 5 [2, 2, 2, 3, 173]
    (List.forall_mem_cons.2 ⟨p2, List.forall_mem_cons.2 ⟨p2, List.forall_mem_cons.2 ⟨p2, List.forall_mem_cons.2 ⟨p3, List.forall_mem_cons.2 ⟨p173, List.forall_mem_nil _⟩⟩⟩⟩⟩)
    (by decide +kernel) (by decide +kernel) (by decide +kernel)

theorem p1723 : Nat.Prime 1723 :=
  pratt 1723 3 [2, 3, 7, 41]
    (List.forall_mem_cons.2 ⟨p2, List.forall_mem_cons.2 ⟨p3, List.forall_mem_cons.2 ⟨p7, List.forall_mem_cons.2 ⟨p41, List.forall_mem_nil _⟩⟩⟩⟩)
    (by decide +kernel) (by decide +kernel) (by decide +kernel)

theorem p430751 : Nat.Prime 430751 :=
  pratt 430751 17 [2, 5, 5, 5, 1723]
    (List.forall_mem_cons.2 ⟨p2, List.forall_mem_cons.2 ⟨p5, List.forall_mem_cons.2 ⟨p5, List.forall_mem_cons.2 ⟨p5, List.forall_mem_cons.2 ⟨p1723, List.forall_mem_nil _⟩⟩⟩⟩⟩)
    (by decide +kernel) (by decide +kernel) (by decide +kernel)

theorem p31757755568855353 : Nat.Prime 31757755568855353 :=
  pratt 31757755568855353 10 [2, 2, 2, 3, 31, 107, 223, 4153, 430751]
    (List.forall_mem_cons.2 ⟨p2, List.forall_mem_cons.2 ⟨p2, List.forall_mem_cons.2 ⟨p2, List.forall_mem_cons.2 ⟨p3, List.forall_mem_cons.2 ⟨p31, List.forall_mem_cons.2 ⟨p107, List.forall_mem_cons.2 ⟨p223, List.forall_mem_cons.2 ⟨p4153, List.forall_mem_cons.2 ⟨p430751, List.forall_mem_nil _⟩⟩⟩⟩⟩⟩⟩⟩⟩)
    (by decide +kernel) (by decide +kernel) (by decide +kernel)

theorem p9463 : Nat.Prime 9463 :=
  pratt 9463 3 [2, 3, 19, 83]
    (List.forall_mem_cons.2 ⟨p2, List.forall_mem_cons.2 ⟨p3, List.forall_mem_cons.2 ⟨p19, List.forall_mem_cons.2 ⟨p83, List.forall_mem_nil _⟩⟩⟩⟩)
    (by decide +kernel) (by decide +kernel) (by decide +kernel)

theorem p37853 : Nat.Prime 37853 :=
  pratt 37853 2 [2, 2, 9463]
    (List.forall_mem_cons.2 ⟨p2, List.forall_mem_cons.2 ⟨p2, List.forall_mem_cons.2 ⟨p9463, List.forall_mem_nil _⟩⟩⟩)
    (by decide +kernel) (by decide +kernel) (by decide +kernel)

theorem p75707 : Nat.Prime 75707 :=
  pratt 75707 2 [2, 37853]
    (List.forall_mem_cons.2 ⟨p2, List.forall_mem_cons.2 ⟨p37853, List.forall_mem_nil _⟩⟩)
    (by decide +kernel) (by decide +kernel) (by decide +kernel)

theorem p2437 : Nat.Prime 2437 :=
  pratt 2437 2 [2, 2, 3, 7, 29]
    (List.forall_mem_cons.2 ⟨p2, List.forall_mem_cons.2 ⟨p2, List.forall_mem_cons.2 ⟨p3, List.forall_mem_cons.2 ⟨p7, List.forall_mem_cons.2 ⟨p29, List.forall_mem_nil _⟩⟩⟩⟩⟩)
    (by decide +kernel) (by decide +kernel) (by decide +kernel)

theorem p569003 : Nat.Prime 569003 :=
  pratt 569003 2 [2, 7, 97, 419]
    (List.forall_mem_cons.2 ⟨p2, List.forall_mem_cons.2 ⟨p7, List.forall_mem_cons.2 ⟨p97, List.forall_mem_cons.2 ⟨p419, List.forall_mem_nil _⟩⟩⟩⟩)
    (by decide +kernel) (by decide +kernel) (by decide +kernel)

theorem p2773320623 : Nat.Prime 2773320623 :=
  pratt 2773320623 5 [2, 2437, 569003]
    (List.forall_mem_cons.2 ⟨p2, List.forall_mem_cons.2 ⟨p2437, List.forall_mem_cons.2 ⟨p569003, List.forall_mem_nil _⟩⟩⟩)
    (by decide +kernel) (by decide +kernel) (by decide +kernel)

theorem p72106336199 : Nat.Prime 72106336199 :=
  pratt 72106336199 7 [2, 13, 2773320623]
    (List.forall_mem_cons.2 ⟨p2, List.forall_mem_cons.2 ⟨p13, List.forall_mem_cons.2 ⟨p2773320623, List.forall_mem_nil _⟩⟩⟩)
    (by decide +kernel) (by decide +kernel) (by decide +kernel)

theorem p8574133 : Nat.Prime 8574133 :=
  pratt 8574133 2 [2, 2, 3, 7, 103, 991]
    (List.forall_mem_cons.2 ⟨p2, List.forall_mem_cons.2 ⟨p2, List.forall_mem_cons.2 ⟨p3, List.forall_mem_cons.2 ⟨p7, List.forall_mem_cons.2 ⟨p103, List.forall_mem_cons.2 ⟨p991, List.forall_mem_nil _⟩⟩⟩⟩⟩⟩)
    (by decide +kernel) (by decide +kernel) (by decide +kernel)

theorem p1919519569386763 : Nat.Prime 1919519569386763 :=
  pratt 1919519569386763 2 [2, 3, 7, 19, 47, 47, 127, 8574133]
    (List.forall_mem_cons.2 ⟨p2, List.forall_mem_cons.2 ⟨p3, List.forall_mem_cons.2 ⟨p7, List.forall_mem_cons.2 ⟨p19, List.forall_mem_cons.2 ⟨p47, List.forall_mem_cons.2 ⟨p47, List.forall_mem_cons.2 ⟨p127, List.forall_mem_cons.2 ⟨p8574133, List.forall_mem_nil _⟩⟩⟩⟩⟩⟩⟩⟩)
    (by decide +kernel) (by decide +kernel) (by decide +kernel)

theorem p75445702479781427272750846543864801 : Nat.Prime 75445702479781427272750846543864801 :=
  pratt 75445702479781427272750846543864801 7 [2, 2, 2, 2, 2, 3, 3, 5, 5, 75707, 72106336199, 1919519569386763]
    (List.forall_mem_cons.2 ⟨p2, List.forall_mem_cons.2 ⟨p2, List.forall_mem_cons.2 ⟨p2, List.forall_mem_cons.2 ⟨p2, List.forall_mem_cons.2 ⟨p2, List.forall_mem_cons.2 ⟨p3, List.forall_mem_cons.2 ⟨p3, List.forall_mem_cons.2 ⟨p5, List.forall_mem_cons.2 ⟨p5, List.forall_mem_cons.2 ⟨p75707, List.forall_mem_cons.2 ⟨p72106336199, List.forall_mem_cons.2 ⟨p1919519569386763, List.forall_mem_nil _⟩⟩⟩⟩⟩⟩⟩⟩⟩⟩⟩⟩)
    (by decide +kernel) (by decide +kernel) (by decide +kernel)

theorem p74058212732561358302231226437062788676166966415465897661863160754340907 : Nat.Prime 74058212732561358302231226437062788676166966415465897661863160754340907 :=
  pratt 74058212732561358302231226437062788676166966415465897661863160754340907 2 [2, 3, 353, 57467, 132049, 1923133, 31757755568855353, 75445702479781427272750846543864801]
    (List.forall_mem_cons.2 ⟨p2, List.forall_mem_cons.2 ⟨p3, List.forall_mem_cons.2 ⟨p353, List.forall_mem_cons.2 ⟨p57467, List.forall_mem_cons.2 ⟨p132049, List.forall_mem_cons.2 ⟨p1923133, List.forall_mem_cons.2 ⟨p31757755568855353, List.forall_mem_cons.2 ⟨p75445702479781427272750846543864801, List.forall_mem_nil _⟩⟩⟩⟩⟩⟩⟩⟩)
    (by decide +kernel) (by decide +kernel) (by decide +kernel)

theorem p57896044618658097711785492504343953926634992332820282019728792003956564819949 : Nat.Prime 57896044618658097711785492504343953926634992332820282019728792003956564819949 :=
  pratt 57896044618658097711785492504343953926634992332820282019728792003956564819949 2 [2, 2, 3, 65147, 74058212732561358302231226437062788676166966415465897661863160754340907]
    (List.forall_mem_cons.2 ⟨p2, List.forall_mem_cons.2 ⟨p2, List.forall_mem_cons.2 ⟨p3, List.forall_mem_cons.2 ⟨p65147, List.forall_mem_cons.2 ⟨p74058212732561358302231226437062788676166966415465897661863160754340907, List.forall_mem_nil _⟩⟩⟩⟩⟩)
    (by decide +kernel) (by decide +kernel) (by decide +kernel)

theorem p1531 : Nat.Prime 1531 :=
  pratt 1531 2 [2, 3, 3, 5, 17]
    (List.forall_mem_cons.2 ⟨p2, List.forall_mem_cons.2 ⟨p3, List.forall_mem_cons.2 ⟨p3, List.forall_mem_cons.2 ⟨p5, List.forall_mem_cons.2 ⟨p17, List.forall_mem_nil _⟩⟩⟩⟩⟩)
    (by decide +kernel) (by decide +kernel) (by decide +kernel)

theorem p65537 : Nat.Prime 65537 :=
  pratt 65537 3 [2, 2, 2, 2, 2, 2, 2, 2, 2, 2, 2, 2, 2, 2, 2, 2]
    (List.forall_mem_cons.2 ⟨p2, List.forall_mem_cons.2 ⟨p2, List.forall_mem_cons.2 ⟨p2, List.forall_mem_cons.2 ⟨p2, List.forall_mem_cons.2 ⟨p2, List.forall_mem_cons.2 ⟨p2, List.forall_mem_cons.2 ⟨p2, List.forall_mem_cons.2 ⟨p2, List.forall_mem_cons.2 ⟨p2, List.forall_mem_cons.2 ⟨p2, List.forall_mem_cons.2 ⟨p2, List.forall_mem_cons.2 ⟨p2, List.forall_mem_cons.2 ⟨p2, List.forall_mem_cons.2 ⟨p2, List.forall_mem_cons.2 ⟨p2, List.forall_mem_cons.2 ⟨p2, List.forall_mem_nil _⟩⟩⟩⟩⟩⟩⟩⟩⟩⟩⟩⟩⟩⟩⟩⟩)
    (by decide +kernel) (by decide +kernel) (by decide +kernel)

theorem p490463 : Nat.Prime 490463 :=
  pratt 490463 14 [2, 7, 53, 661]
    (List.forall_mem_cons.2 ⟨p2, List.forall_mem_cons.2 ⟨p7, List.forall_mem_cons.2 ⟨p53, List.forall_mem_cons.2 ⟨p661, List.forall_mem_nil _⟩⟩⟩⟩)
    (by decide +kernel) (by decide +kernel) (by decide +kernel)

theorem p17449 : Nat.Prime 17449 :=
  pratt 17449 14 [2, 2, 2, 3, 727]
    (List.forall_mem_cons.2 ⟨p2, List.forall_mem_cons.2 ⟨p2, List.forall_mem_cons.2 ⟨p2, List.forall_mem_cons.2 ⟨p3, List.forall_mem_cons.2 ⟨p727, List.forall_mem_nil _⟩⟩⟩⟩⟩)
    (by decide +kernel) (by decide +kernel) (by decide +kernel)

theorem p6700417 : Nat.Prime 6700417 :=
  pratt 6700417 5 [2, 2, 2, 2, 2, 2, 2, 3, 17449]
    (List.forall_mem_cons.2 ⟨p2, List.forall_mem_cons.2 ⟨p2, List.forall_mem_cons.2 ⟨p2, List.forall_mem_cons.2 ⟨p2, List.forall_mem_cons.2 ⟨p2, List.forall_mem_cons.2 ⟨p2, List.forall_mem_cons.2 ⟨p2, List.forall_mem_cons.2 ⟨p3, List.forall_mem_cons.2 ⟨p17449, List.forall_mem_nil _⟩⟩⟩⟩⟩⟩⟩⟩⟩)
    (by decide +kernel) (by decide +kernel) (by decide +kernel)

theorem p2411 : Nat.Prime 2411 :=
  pratt 2411 6 [2, 5, 241]
    (List.forall_mem_cons.2 ⟨p2, List.forall_mem_cons.2 ⟨p5, List.forall_mem_cons.2 ⟨p241, List.forall_mem_nil _⟩⟩⟩)
    (by decide +kernel) (by decide +kernel) (by decide +kernel)

theorem p3769 : Nat.Prime 3769 :=
  pratt 3769 7 [2, 2, 2, 3, 157]
    (List.forall_mem_cons.2 ⟨p2, List.forall_mem_cons.2 ⟨p2, List.forall_mem_cons.2 ⟨p2, List.forall_mem_cons.2 ⟨p3, List.forall_mem_cons.2 ⟨p157, List.forall_mem_nil _⟩⟩⟩⟩⟩)
    (by decide +kernel) (by decide +kernel) (by decide +kernel)

theorem p204061199 : Nat.Prime 204061199 :=
  pratt 204061199 11 [2, 11, 23, 107, 3769]
    (List.forall_mem_cons.2 ⟨p2, List.forall_mem_cons.2 ⟨p11, List.forall_mem_cons.2 ⟨p23, List.forall_mem_cons.2 ⟨p107, List.forall_mem_cons.2 ⟨p3769, List.forall_mem_nil _⟩⟩⟩⟩⟩)
    (by decide +kernel) (by decide +kernel) (by decide +kernel)

theorem p34282281433 : Nat.Prime 34282281433 :=
  pratt 34282281433 17 [2, 2, 2, 3, 7, 204061199]
    (List.forall_mem_cons.2 ⟨p2, List.forall_mem_cons.2 ⟨p2, List.forall_mem_cons.2 ⟨p2, List.forall_mem_cons.2 ⟨p3, List.forall_mem_cons.2 ⟨p7, List.forall_mem_cons.2 ⟨p204061199, List.forall_mem_nil _⟩⟩⟩⟩⟩⟩)
    (by decide +kernel) (by decide +kernel) (by decide +kernel)

theorem p3677 : Nat.Prime 3677 :=
  pratt 3677 2 [2, 2, 919]
    (List.forall_mem_cons.2 ⟨p2, List.forall_mem_cons.2 ⟨p2, List.forall_mem_cons.2 ⟨p919, List.forall_mem_nil _⟩⟩⟩)
    (by decide +kernel) (by decide +kernel) (by decide +kernel)

theorem p66417393611 : Nat.Prime 66417393611 :=
  pratt 66417393611 6 [2, 5, 53, 173, 197, 3677]
    (List.forall_mem_cons.2 ⟨p2, List.forall_mem_cons.2 ⟨p5, List.forall_mem_cons.2 ⟨p53, List.forall_mem_cons.2 ⟨p173, List.forall_mem_cons.2 ⟨p197, List.forall_mem_cons.2 ⟨p3677, List.forall_mem_nil _⟩⟩⟩⟩⟩⟩)
    (by decide +kernel) (by decide +kernel) (by decide +kernel)

theorem p11290956913871 : Nat.Prime 11290956913871 :=
  pratt 11290956913871 13 [2, 5, 17, 66417393611]
    (List.forall_mem_cons.2 ⟨p2, List.forall_mem_cons.2 ⟨p5, List.forall_mem_cons.2 ⟨p17, List.forall_mem_cons.2 ⟨p66417393611, List.forall_mem_nil _⟩⟩⟩⟩)
    (by decide +kernel) (by decide +kernel) (by decide +kernel)

theorem p18169 : Nat.Prime 18169 :=
  pratt 18169 11 [2, 2, 2, 3, 757]
    (List.forall_mem_cons.2 ⟨p2, List.forall_mem_cons.2 ⟨p2, List.forall_mem_cons.2 ⟨p2, List.forall_mem_cons.2 ⟨p3, List.forall_mem_cons.2 ⟨p757, List.forall_mem_nil _⟩⟩⟩⟩⟩)
    (by decide +kernel) (by decide +kernel) (by decide +kernel)

theorem p1087 : Nat.Prime 1087 :=
  pratt 1087 3 [2, 3, 181]
    (List.forall_mem_cons.2 ⟨p2, List.forall_mem_cons.2 ⟨p3, List.forall_mem_cons.2 ⟨p181, List.forall_mem_nil _⟩⟩⟩)
    (by decide +kernel) (by decide +kernel) (by decide +kernel)

theorem p4349 : Nat.Prime 4349 :=
  pratt 4349 2 [2, 2, 1087]
    (List.forall_mem_cons.2 ⟨p2, List.forall_mem_cons.2 ⟨p2, List.forall_mem_cons.2 ⟨p1087, List.forall_mem_nil _⟩⟩⟩)
    (by decide +kernel) (by decide +kernel) (by decide +kernel)

theorem p78283 : Nat.Prime 78283 :=
  pratt 78283 3 [2, 3, 3, 4349]
    (List.forall_mem_cons.2 ⟨p2, List.forall_mem_cons.2 ⟨p3, List.forall_mem_cons.2 ⟨p3, List.forall_mem_cons.2 ⟨p4349, List.forall_mem_nil _⟩⟩⟩⟩)
    (by decide +kernel) (by decide +kernel) (by decide +kernel)

theorem p704251 : Nat.Prime 704251 :=
  pratt 704251 2 [2, 3, 3, 5, 5, 5, 313]
    (List.forall_mem_cons.2 ⟨p2, List.forall_mem_cons.2 ⟨p3, List.forall_mem_cons.2 ⟨p3, List.forall_mem_cons.2 ⟨p5, List.forall_mem_cons.2 ⟨p5, List.forall_mem_cons.2 ⟨p5, List.forall_mem_cons.2 ⟨p313, List.forall_mem_nil _⟩⟩⟩⟩⟩⟩⟩)
    (by decide +kernel) (by decide +kernel) (by decide +kernel)

theorem p46076956964474543 : Nat.Prime 46076956964474543 :=
  pratt 46076956964474543 5 [2, 23, 18169, 78283, 704251]
    (List.forall_mem_cons.2 ⟨p2, List.forall_mem_cons.2 ⟨p23, List.forall_mem_cons.2 ⟨p18169, List.forall_mem_cons.2 ⟨p78283, List.forall_mem_cons.2 ⟨p704251, List.forall_mem_nil _⟩⟩⟩⟩⟩)
    (by decide +kernel) (by decide +kernel) (by decide +kernel)

theorem p774023187263532362759620327192479577272145303 : Nat.Prime 774023187263532362759620327192479577272145303 :=
  pratt 774023187263532362759620327192479577272145303 3 [2, 3, 3, 2411, 34282281433, 11290956913871, 46076956964474543]
    (List.forall_mem_cons.2 ⟨p2, List.forall_mem_cons.2 ⟨p3, List.forall_mem_cons.2 ⟨p3, List.forall_mem_cons.2 ⟨p2411, List.forall_mem_cons.2 ⟨p34282281433, List.forall_mem_cons.2 ⟨p11290956913871, List.forall_mem_cons.2 ⟨p46076956964474543, List.forall_mem_nil _⟩⟩⟩⟩⟩⟩⟩)
    (by decide +kernel) (by decide +kernel) (by decide +kernel)

theorem p835945042244614951780389953367877943453916927241 : Nat.Prime 835945042244614951780389953367877943453916927241 :=
  pratt 835945042244614951780389953367877943453916927241 11 [2, 2, 2, 3, 3, 3, 5, 774023187263532362759620327192479577272145303]
    (List.forall_mem_cons.2 ⟨p2, List.forall_mem_cons.2 ⟨p2, List.forall_mem_cons.2 ⟨p2, List.forall_mem_cons.2 ⟨p3, List.forall_mem_cons.2 ⟨p3, List.forall_mem_cons.2 ⟨p3, List.forall_mem_cons.2 ⟨p5, List.forall_mem_cons.2 ⟨p774023187263532362759620327192479577272145303, List.forall_mem_nil _⟩⟩⟩⟩⟩⟩⟩⟩)
    (by decide +kernel) (by decide +kernel) (by decide +kernel)

theorem p115792089210356248762697446949407573530086143415290314195533631308867097853951 : Nat.Prime 115792089210356248762697446949407573530086143415290314195533631308867097853951 :=
  pratt 115792089210356248762697446949407573530086143415290314195533631308867097853951 6 [2, 3, 5, 5, 17, 257, 641, 1531, 65537, 490463, 6700417, 835945042244614951780389953367877943453916927241]
    (List.forall_mem_cons.2 ⟨p2, List.forall_mem_cons.2 ⟨p3, List.forall_mem_cons.2 ⟨p5, List.forall_mem_cons.2 ⟨p5, List.forall_mem_cons.2 ⟨p17, List.forall_mem_cons.2 ⟨p257, List.forall_mem_cons.2 ⟨p641, List.forall_mem_cons.2 ⟨p1531, List.forall_mem_cons.2 ⟨p65537, List.forall_mem_cons.2 ⟨p490463, List.forall_mem_cons.2 ⟨p6700417, List.forall_mem_cons.2 ⟨p835945042244614951780389953367877943453916927241, List.forall_mem_nil _⟩⟩⟩⟩⟩⟩⟩⟩⟩⟩⟩⟩)
    (by decide +kernel) (by decide +kernel) (by decide +kernel)

/-- The field of Poly1305. -/
theorem prime_1305 : Nat.Prime (2 ^ 130 - 5) := p1361129467683753853853498429727072845819

/-- The field of Curve25519. -/
theorem prime_25519 : Nat.Prime (2 ^ 255 - 19) :=
  p57896044618658097711785492504343953926634992332820282019728792003956564819949

/-- The field of P-256. -/
theorem prime_p256 : Nat.Prime (2 ^ 256 - 2 ^ 224 + 2 ^ 192 + 2 ^ 96 - 1) :=
  p115792089210356248762697446949407573530086143415290314195533631308867097853951

end Hacspec.Primes
