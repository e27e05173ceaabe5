import Verif.Lemmas.Primes

/-!
# Primality of the orders of the P-256 and Curve25519 base points

Pratt certificates, generated by `tools/pratt.py`.
-/

namespace Hacspec.Primes

theorem p71 : Nat.Prime 71 := by norm_num

theorem p373 : Nat.Prime 373 := by norm_num

theorem p3407 : Nat.Prime 3407 :=
  pratt 3407 5 [2, 13, 131]
    (List.forall_mem_cons.2 ⟨p2, List.forall_mem_cons.2 ⟨p13, List.forall_mem_cons.2 ⟨p131, List.forall_mem_nil _⟩⟩⟩)
    (by decide +kernel) (by decide +kernel) (by decide +kernel)

theorem p37 : Nat.Prime 37 := by norm_num

theorem p9547 : Nat.Prime 9547 :=
  pratt 9547 2 [2, 3, 37, 43]
    (List.forall_mem_cons.2 ⟨p2, List.forall_mem_cons.2 ⟨p3, List.forall_mem_cons.2 ⟨p37, List.forall_mem_cons.2 ⟨p43, List.forall_mem_nil _⟩⟩⟩⟩)
    (by decide +kernel) (by decide +kernel) (by decide +kernel)

theorem p38189 : Nat.Prime 38189 :=
  pratt 38189 2 [2, 2, 9547]
    (List.forall_mem_cons.2 ⟨p2, List.forall_mem_cons.2 ⟨p2, List.forall_mem_cons.2 ⟨p9547, List.forall_mem_nil _⟩⟩⟩)
    (by decide +kernel) (by decide +kernel) (by decide +kernel)

theorem p229 : Nat.Prime 229 := by norm_num

theorem p1201 : Nat.Prime 1201 :=
  pratt 1201 11 [2, 2, 2, 2, 3, 5, 5]
    (List.forall_mem_cons.2 ⟨p2, List.forall_mem_cons.2 ⟨p2, List.forall_mem_cons.2 ⟨p2, List.forall_mem_cons.2 ⟨p2, List.forall_mem_cons.2 ⟨p3, List.forall_mem_cons.2 ⟨p5, List.forall_mem_cons.2 ⟨p5, List.forall_mem_nil _⟩⟩⟩⟩⟩⟩⟩)
    (by decide +kernel) (by decide +kernel) (by decide +kernel)

theorem p9350987 : Nat.Prime 9350987 :=
  pratt 9350987 2 [2, 17, 229, 1201]
    (List.forall_mem_cons.2 ⟨p2, List.forall_mem_cons.2 ⟨p17, List.forall_mem_cons.2 ⟨p229, List.forall_mem_cons.2 ⟨p1201, List.forall_mem_nil _⟩⟩⟩⟩)
    (by decide +kernel) (by decide +kernel) (by decide +kernel)

theorem p187019741 : Nat.Prime 187019741 :=
  pratt 187019741 2 [2, 2, 5, 9350987]
    (List.forall_mem_cons.2 ⟨p2, List.forall_mem_cons.2 ⟨p2, List.forall_mem_cons.2 ⟨p5, List.forall_mem_cons.2 ⟨p9350987, List.forall_mem_nil _⟩⟩⟩⟩)
    (by decide +kernel) (by decide +kernel) (by decide +kernel)

theorem p311 : Nat.Prime 311 := by norm_num

theorem p311245691 : Nat.Prime 311245691 :=
  pratt 311245691 2 [2, 5, 7, 17, 29, 29, 311]
    (List.forall_mem_cons.2 ⟨p2, List.forall_mem_cons.2 ⟨p5, List.forall_mem_cons.2 ⟨p7, List.forall_mem_cons.2 ⟨p17, List.forall_mem_cons.2 ⟨p29, List.forall_mem_cons.2 ⟨p29, List.forall_mem_cons.2 ⟨p311, List.forall_mem_nil _⟩⟩⟩⟩⟩⟩⟩)
    (by decide +kernel) (by decide +kernel) (by decide +kernel)

theorem p622491383 : Nat.Prime 622491383 :=
  pratt 622491383 5 [2, 311245691]
    (List.forall_mem_cons.2 ⟨p2, List.forall_mem_cons.2 ⟨p311245691, List.forall_mem_nil _⟩⟩)
    (by decide +kernel) (by decide +kernel) (by decide +kernel)

theorem p263 : Nat.Prime 263 := by norm_num

theorem p126241 : Nat.Prime 126241 :=
  pratt 126241 7 [2, 2, 2, 2, 2, 3, 5, 263]
    (List.forall_mem_cons.2 ⟨p2, List.forall_mem_cons.2 ⟨p2, List.forall_mem_cons.2 ⟨p2, List.forall_mem_cons.2 ⟨p2, List.forall_mem_cons.2 ⟨p2, List.forall_mem_cons.2 ⟨p3, List.forall_mem_cons.2 ⟨p5, List.forall_mem_cons.2 ⟨p263, List.forall_mem_nil _⟩⟩⟩⟩⟩⟩⟩⟩)
    (by decide +kernel) (by decide +kernel) (by decide +kernel)

theorem p337 : Nat.Prime 337 := by norm_num

theorem p104471 : Nat.Prime 104471 :=
  pratt 104471 11 [2, 5, 31, 337]
    (List.forall_mem_cons.2 ⟨p2, List.forall_mem_cons.2 ⟨p5, List.forall_mem_cons.2 ⟨p31, List.forall_mem_cons.2 ⟨p337, List.forall_mem_nil _⟩⟩⟩⟩)
    (by decide +kernel) (by decide +kernel) (by decide +kernel)

theorem p3969899 : Nat.Prime 3969899 :=
  pratt 3969899 2 [2, 19, 104471]
    (List.forall_mem_cons.2 ⟨p2, List.forall_mem_cons.2 ⟨p19, List.forall_mem_cons.2 ⟨p104471, List.forall_mem_nil _⟩⟩⟩)
    (by decide +kernel) (by decide +kernel) (by decide +kernel)

theorem p1002328039319 : Nat.Prime 1002328039319 :=
  pratt 1002328039319 19 [2, 126241, 3969899]
    (List.forall_mem_cons.2 ⟨p2, List.forall_mem_cons.2 ⟨p126241, List.forall_mem_cons.2 ⟨p3969899, List.forall_mem_nil _⟩⟩⟩)
    (by decide +kernel) (by decide +kernel) (by decide +kernel)

theorem p1297 : Nat.Prime 1297 :=
  pratt 1297 10 [2, 2, 2, 2, 3, 3, 3, 3]
    (List.forall_mem_cons.2 ⟨p2, List.forall_mem_cons.2 ⟨p2, List.forall_mem_cons.2 ⟨p2, List.forall_mem_cons.2 ⟨p2, List.forall_mem_cons.2 ⟨p3, List.forall_mem_cons.2 ⟨p3, List.forall_mem_cons.2 ⟨p3, List.forall_mem_cons.2 ⟨p3, List.forall_mem_nil _⟩⟩⟩⟩⟩⟩⟩⟩)
    (by decide +kernel) (by decide +kernel) (by decide +kernel)

theorem p16879 : Nat.Prime 16879 :=
  pratt 16879 3 [2, 3, 29, 97]
    (List.forall_mem_cons.2 ⟨p2, List.forall_mem_cons.2 ⟨p3, List.forall_mem_cons.2 ⟨p29, List.forall_mem_cons.2 ⟨p97, List.forall_mem_nil _⟩⟩⟩⟩)
    (by decide +kernel) (by decide +kernel) (by decide +kernel)

theorem p151 : Nat.Prime 151 := by norm_num

theorem p1511 : Nat.Prime 1511 :=
  pratt 1511 11 [2, 5, 151]
    (List.forall_mem_cons.2 ⟨p2, List.forall_mem_cons.2 ⟨p5, List.forall_mem_cons.2 ⟨p151, List.forall_mem_nil _⟩⟩⟩)
    (by decide +kernel) (by decide +kernel) (by decide +kernel)

theorem p3023 : Nat.Prime 3023 :=
  pratt 3023 5 [2, 1511]
    (List.forall_mem_cons.2 ⟨p2, List.forall_mem_cons.2 ⟨p1511, List.forall_mem_nil _⟩⟩)
    (by decide +kernel) (by decide +kernel) (by decide +kernel)

theorem p155317 : Nat.Prime 155317 :=
  pratt 155317 5 [2, 2, 3, 7, 43, 43]
    (List.forall_mem_cons.2 ⟨p2, List.forall_mem_cons.2 ⟨p2, List.forall_mem_cons.2 ⟨p3, List.forall_mem_cons.2 ⟨p7, List.forall_mem_cons.2 ⟨p43, List.forall_mem_cons.2 ⟨p43, List.forall_mem_nil _⟩⟩⟩⟩⟩⟩)
    (by decide +kernel) (by decide +kernel) (by decide +kernel)

theorem p191039911 : Nat.Prime 191039911 :=
  pratt 191039911 3 [2, 3, 5, 41, 155317]
    (List.forall_mem_cons.2 ⟨p2, List.forall_mem_cons.2 ⟨p3, List.forall_mem_cons.2 ⟨p5, List.forall_mem_cons.2 ⟨p41, List.forall_mem_cons.2 ⟨p155317, List.forall_mem_nil _⟩⟩⟩⟩⟩)
    (by decide +kernel) (by decide +kernel) (by decide +kernel)

theorem p208150935158385979 : Nat.Prime 208150935158385979 :=
  pratt 208150935158385979 2 [2, 3, 11, 43, 127, 3023, 191039911]
    (List.forall_mem_cons.2 ⟨p2, List.forall_mem_cons.2 ⟨p3, List.forall_mem_cons.2 ⟨p11, List.forall_mem_cons.2 ⟨p43, List.forall_mem_cons.2 ⟨p127, List.forall_mem_cons.2 ⟨p3023, List.forall_mem_cons.2 ⟨p191039911, List.forall_mem_nil _⟩⟩⟩⟩⟩⟩⟩)
    (by decide +kernel) (by decide +kernel) (by decide +kernel)

theorem p2624747550333869278416773953 : Nat.Prime 2624747550333869278416773953 :=
  pratt 2624747550333869278416773953 7 [2, 2, 2, 2, 2, 2, 3, 3, 1297, 16879, 208150935158385979]
    (List.forall_mem_cons.2 ⟨p2, List.forall_mem_cons.2 ⟨p2, List.forall_mem_cons.2 ⟨p2, List.forall_mem_cons.2 ⟨p2, List.forall_mem_cons.2 ⟨p2, List.forall_mem_cons.2 ⟨p2, List.forall_mem_cons.2 ⟨p3, List.forall_mem_cons.2 ⟨p3, List.forall_mem_cons.2 ⟨p1297, List.forall_mem_cons.2 ⟨p16879, List.forall_mem_cons.2 ⟨p208150935158385979, List.forall_mem_nil _⟩⟩⟩⟩⟩⟩⟩⟩⟩⟩⟩)
    (by decide +kernel) (by decide +kernel) (by decide +kernel)

theorem p115792089210356248762697446949407573529996955224135760342422259061068512044369 : Nat.Prime 115792089210356248762697446949407573529996955224135760342422259061068512044369 :=
  pratt 115792089210356248762697446949407573529996955224135760342422259061068512044369 7 [2, 2, 2, 2, 3, 71, 131, 373, 3407, 17449, 38189, 187019741, 622491383, 1002328039319, 2624747550333869278416773953]
    (List.forall_mem_cons.2 ⟨p2, List.forall_mem_cons.2 ⟨p2, List.forall_mem_cons.2 ⟨p2, List.forall_mem_cons.2 ⟨p2, List.forall_mem_cons.2 ⟨p3, List.forall_mem_cons.2 ⟨p71, List.forall_mem_cons.2 ⟨p131, List.forall_mem_cons.2 ⟨p373, List.forall_mem_cons.2 ⟨p3407, List.forall_mem_cons.2 ⟨p17449, List.forall_mem_cons.2 ⟨p38189, List.forall_mem_cons.2 ⟨p187019741, List.forall_mem_cons.2 ⟨p622491383, List.forall_mem_cons.2 ⟨p1002328039319, List.forall_mem_cons.2 ⟨p2624747550333869278416773953, List.forall_mem_nil _⟩⟩⟩⟩⟩⟩⟩⟩⟩⟩⟩⟩⟩⟩⟩)
    (by decide +kernel) (by decide +kernel) (by decide +kernel)

theorem p34123 : Nat.Prime 34123 :=
  pratt 34123 2 [2, 3, 11, 11, 47]
    (List.forall_mem_cons.2 ⟨p2, List.forall_mem_cons.2 ⟨p3, List.forall_mem_cons.2 ⟨p11, List.forall_mem_cons.2 ⟨p11, List.forall_mem_cons.2 ⟨p47, List.forall_mem_nil _⟩⟩⟩⟩⟩)
    (by decide +kernel) (by decide +kernel) (by decide +kernel)

theorem p409477 : Nat.Prime 409477 :=
  pratt 409477 2 [2, 2, 3, 34123]
    (List.forall_mem_cons.2 ⟨p2, List.forall_mem_cons.2 ⟨p2, List.forall_mem_cons.2 ⟨p3, List.forall_mem_cons.2 ⟨p34123, List.forall_mem_nil _⟩⟩⟩⟩)
    (by decide +kernel) (by decide +kernel) (by decide +kernel)

theorem p14741173 : Nat.Prime 14741173 :=
  pratt 14741173 2 [2, 2, 3, 3, 409477]
    (List.forall_mem_cons.2 ⟨p2, List.forall_mem_cons.2 ⟨p2, List.forall_mem_cons.2 ⟨p3, List.forall_mem_cons.2 ⟨p3, List.forall_mem_cons.2 ⟨p409477, List.forall_mem_nil _⟩⟩⟩⟩⟩)
    (by decide +kernel) (by decide +kernel) (by decide +kernel)

theorem p58964693 : Nat.Prime 58964693 :=
  pratt 58964693 2 [2, 2, 14741173]
    (List.forall_mem_cons.2 ⟨p2, List.forall_mem_cons.2 ⟨p2, List.forall_mem_cons.2 ⟨p14741173, List.forall_mem_nil _⟩⟩⟩)
    (by decide +kernel) (by decide +kernel) (by decide +kernel)

theorem p30703 : Nat.Prime 30703 :=
  pratt 30703 3 [2, 3, 7, 17, 43]
    (List.forall_mem_cons.2 ⟨p2, List.forall_mem_cons.2 ⟨p3, List.forall_mem_cons.2 ⟨p7, List.forall_mem_cons.2 ⟨p17, List.forall_mem_cons.2 ⟨p43, List.forall_mem_nil _⟩⟩⟩⟩⟩)
    (by decide +kernel) (by decide +kernel) (by decide +kernel)

theorem p79 : Nat.Prime 79 := by norm_num

theorem p41081 : Nat.Prime 41081 :=
  pratt 41081 3 [2, 2, 2, 5, 13, 79]
    (List.forall_mem_cons.2 ⟨p2, List.forall_mem_cons.2 ⟨p2, List.forall_mem_cons.2 ⟨p2, List.forall_mem_cons.2 ⟨p5, List.forall_mem_cons.2 ⟨p13, List.forall_mem_cons.2 ⟨p79, List.forall_mem_nil _⟩⟩⟩⟩⟩⟩)
    (by decide +kernel) (by decide +kernel) (by decide +kernel)

theorem p82163 : Nat.Prime 82163 :=
  pratt 82163 2 [2, 41081]
    (List.forall_mem_cons.2 ⟨p2, List.forall_mem_cons.2 ⟨p41081, List.forall_mem_nil _⟩⟩)
    (by decide +kernel) (by decide +kernel) (by decide +kernel)

theorem p22111 : Nat.Prime 22111 :=
  pratt 22111 6 [2, 3, 5, 11, 67]
    (List.forall_mem_cons.2 ⟨p2, List.forall_mem_cons.2 ⟨p3, List.forall_mem_cons.2 ⟨p5, List.forall_mem_cons.2 ⟨p11, List.forall_mem_cons.2 ⟨p67, List.forall_mem_nil _⟩⟩⟩⟩⟩)
    (by decide +kernel) (by decide +kernel) (by decide +kernel)

theorem p132667 : Nat.Prime 132667 :=
  pratt 132667 5 [2, 3, 22111]
    (List.forall_mem_cons.2 ⟨p2, List.forall_mem_cons.2 ⟨p3, List.forall_mem_cons.2 ⟨p22111, List.forall_mem_nil _⟩⟩⟩)
    (by decide +kernel) (by decide +kernel) (by decide +kernel)

theorem p17231 : Nat.Prime 17231 :=
  pratt 17231 13 [2, 5, 1723]
    (List.forall_mem_cons.2 ⟨p2, List.forall_mem_cons.2 ⟨p5, List.forall_mem_cons.2 ⟨p1723, List.forall_mem_nil _⟩⟩⟩)
    (by decide +kernel) (by decide +kernel) (by decide +kernel)

theorem p137849 : Nat.Prime 137849 :=
  pratt 137849 3 [2, 2, 2, 17231]
    (List.forall_mem_cons.2 ⟨p2, List.forall_mem_cons.2 ⟨p2, List.forall_mem_cons.2 ⟨p2, List.forall_mem_cons.2 ⟨p17231, List.forall_mem_nil _⟩⟩⟩⟩)
    (by decide +kernel) (by decide +kernel) (by decide +kernel)

theorem p3044861653679985063343 : Nat.Prime 3044861653679985063343 :=
  pratt 3044861653679985063343 5 [2, 3, 11, 30703, 82163, 132667, 137849]
    (List.forall_mem_cons.2 ⟨p2, List.forall_mem_cons.2 ⟨p3, List.forall_mem_cons.2 ⟨p11, List.forall_mem_cons.2 ⟨p30703, List.forall_mem_cons.2 ⟨p82163, List.forall_mem_cons.2 ⟨p132667, List.forall_mem_cons.2 ⟨p137849, List.forall_mem_nil _⟩⟩⟩⟩⟩⟩⟩)
    (by decide +kernel) (by decide +kernel) (by decide +kernel)

theorem p198211423230930754013084525763697 : Nat.Prime 198211423230930754013084525763697 :=
  pratt 198211423230930754013084525763697 5 [2, 2, 2, 2, 3, 23, 58964693, 3044861653679985063343]
    (List.forall_mem_cons.2 ⟨p2, List.forall_mem_cons.2 ⟨p2, List.forall_mem_cons.2 ⟨p2, List.forall_mem_cons.2 ⟨p2, List.forall_mem_cons.2 ⟨p3, List.forall_mem_cons.2 ⟨p23, List.forall_mem_cons.2 ⟨p58964693, List.forall_mem_cons.2 ⟨p3044861653679985063343, List.forall_mem_nil _⟩⟩⟩⟩⟩⟩⟩⟩)
    (by decide +kernel) (by decide +kernel) (by decide +kernel)

theorem p269 : Nat.Prime 269 := by norm_num

theorem p307 : Nat.Prime 307 := by norm_num

theorem p113 : Nat.Prime 113 := by norm_num

theorem p2939 : Nat.Prime 2939 :=
  pratt 2939 2 [2, 13, 113]
    (List.forall_mem_cons.2 ⟨p2, List.forall_mem_cons.2 ⟨p13, List.forall_mem_cons.2 ⟨p113, List.forall_mem_nil _⟩⟩⟩)
    (by decide +kernel) (by decide +kernel) (by decide +kernel)

theorem p5879 : Nat.Prime 5879 :=
  pratt 5879 11 [2, 2939]
    (List.forall_mem_cons.2 ⟨p2, List.forall_mem_cons.2 ⟨p2939, List.forall_mem_nil _⟩⟩)
    (by decide +kernel) (by decide +kernel) (by decide +kernel)

theorem p292386187 : Nat.Prime 292386187 :=
  pratt 292386187 2 [2, 3, 3, 3, 3, 307, 5879]
    (List.forall_mem_cons.2 ⟨p2, List.forall_mem_cons.2 ⟨p3, List.forall_mem_cons.2 ⟨p3, List.forall_mem_cons.2 ⟨p3, List.forall_mem_cons.2 ⟨p3, List.forall_mem_cons.2 ⟨p307, List.forall_mem_cons.2 ⟨p5879, List.forall_mem_nil _⟩⟩⟩⟩⟩⟩⟩)
    (by decide +kernel) (by decide +kernel) (by decide +kernel)

theorem p213441916511 : Nat.Prime 213441916511 :=
  pratt 213441916511 13 [2, 5, 73, 292386187]
    (List.forall_mem_cons.2 ⟨p2, List.forall_mem_cons.2 ⟨p5, List.forall_mem_cons.2 ⟨p73, List.forall_mem_cons.2 ⟨p292386187, List.forall_mem_nil _⟩⟩⟩⟩)
    (by decide +kernel) (by decide +kernel) (by decide +kernel)

theorem p1361 : Nat.Prime 1361 :=
  pratt 1361 3 [2, 2, 2, 2, 5, 17]
    (List.forall_mem_cons.2 ⟨p2, List.forall_mem_cons.2 ⟨p2, List.forall_mem_cons.2 ⟨p2, List.forall_mem_cons.2 ⟨p2, List.forall_mem_cons.2 ⟨p5, List.forall_mem_cons.2 ⟨p17, List.forall_mem_nil _⟩⟩⟩⟩⟩⟩)
    (by decide +kernel) (by decide +kernel) (by decide +kernel)

theorem p2851 : Nat.Prime 2851 :=
  pratt 2851 2 [2, 3, 5, 5, 19]
    (List.forall_mem_cons.2 ⟨p2, List.forall_mem_cons.2 ⟨p3, List.forall_mem_cons.2 ⟨p5, List.forall_mem_cons.2 ⟨p5, List.forall_mem_cons.2 ⟨p19, List.forall_mem_nil _⟩⟩⟩⟩⟩)
    (by decide +kernel) (by decide +kernel) (by decide +kernel)

theorem p3797 : Nat.Prime 3797 :=
  pratt 3797 2 [2, 2, 13, 73]
    (List.forall_mem_cons.2 ⟨p2, List.forall_mem_cons.2 ⟨p2, List.forall_mem_cons.2 ⟨p13, List.forall_mem_cons.2 ⟨p73, List.forall_mem_nil _⟩⟩⟩⟩)
    (by decide +kernel) (by decide +kernel) (by decide +kernel)

theorem p531581 : Nat.Prime 531581 :=
  pratt 531581 2 [2, 2, 5, 7, 3797]
    (List.forall_mem_cons.2 ⟨p2, List.forall_mem_cons.2 ⟨p2, List.forall_mem_cons.2 ⟨p5, List.forall_mem_cons.2 ⟨p7, List.forall_mem_cons.2 ⟨p3797, List.forall_mem_nil _⟩⟩⟩⟩⟩)
    (by decide +kernel) (by decide +kernel) (by decide +kernel)

theorem p2551 : Nat.Prime 2551 :=
  pratt 2551 6 [2, 3, 5, 5, 17]
    (List.forall_mem_cons.2 ⟨p2, List.forall_mem_cons.2 ⟨p3, List.forall_mem_cons.2 ⟨p5, List.forall_mem_cons.2 ⟨p5, List.forall_mem_cons.2 ⟨p17, List.forall_mem_nil _⟩⟩⟩⟩⟩)
    (by decide +kernel) (by decide +kernel) (by decide +kernel)

theorem p1224481 : Nat.Prime 1224481 :=
  pratt 1224481 13 [2, 2, 2, 2, 2, 3, 5, 2551]
    (List.forall_mem_cons.2 ⟨p2, List.forall_mem_cons.2 ⟨p2, List.forall_mem_cons.2 ⟨p2, List.forall_mem_cons.2 ⟨p2, List.forall_mem_cons.2 ⟨p2, List.forall_mem_cons.2 ⟨p3, List.forall_mem_cons.2 ⟨p5, List.forall_mem_cons.2 ⟨p2551, List.forall_mem_nil _⟩⟩⟩⟩⟩⟩⟩⟩)
    (by decide +kernel) (by decide +kernel) (by decide +kernel)

theorem p1257559732178653 : Nat.Prime 1257559732178653 :=
  pratt 1257559732178653 2 [2, 2, 3, 7, 23, 531581, 1224481]
    (List.forall_mem_cons.2 ⟨p2, List.forall_mem_cons.2 ⟨p2, List.forall_mem_cons.2 ⟨p3, List.forall_mem_cons.2 ⟨p7, List.forall_mem_cons.2 ⟨p23, List.forall_mem_cons.2 ⟨p531581, List.forall_mem_cons.2 ⟨p1224481, List.forall_mem_nil _⟩⟩⟩⟩⟩⟩⟩)
    (by decide +kernel) (by decide +kernel) (by decide +kernel)

theorem p4434155615661930479 : Nat.Prime 4434155615661930479 :=
  pratt 4434155615661930479 17 [2, 41, 43, 1257559732178653]
    (List.forall_mem_cons.2 ⟨p2, List.forall_mem_cons.2 ⟨p41, List.forall_mem_cons.2 ⟨p43, List.forall_mem_cons.2 ⟨p1257559732178653, List.forall_mem_nil _⟩⟩⟩⟩)
    (by decide +kernel) (by decide +kernel) (by decide +kernel)

theorem p172054593956031949258510691 : Nat.Prime 172054593956031949258510691 :=
  pratt 172054593956031949258510691 2 [2, 5, 1361, 2851, 4434155615661930479]
    (List.forall_mem_cons.2 ⟨p2, List.forall_mem_cons.2 ⟨p5, List.forall_mem_cons.2 ⟨p1361, List.forall_mem_cons.2 ⟨p2851, List.forall_mem_cons.2 ⟨p4434155615661930479, List.forall_mem_nil _⟩⟩⟩⟩⟩)
    (by decide +kernel) (by decide +kernel) (by decide +kernel)

theorem p19757330305831588566944191468367130476339 : Nat.Prime 19757330305831588566944191468367130476339 :=
  pratt 19757330305831588566944191468367130476339 2 [2, 269, 213441916511, 172054593956031949258510691]
    (List.forall_mem_cons.2 ⟨p2, List.forall_mem_cons.2 ⟨p269, List.forall_mem_cons.2 ⟨p213441916511, List.forall_mem_cons.2 ⟨p172054593956031949258510691, List.forall_mem_nil _⟩⟩⟩⟩)
    (by decide +kernel) (by decide +kernel) (by decide +kernel)

theorem p276602624281642239937218680557139826668747 : Nat.Prime 276602624281642239937218680557139826668747 :=
  pratt 276602624281642239937218680557139826668747 2 [2, 7, 19757330305831588566944191468367130476339]
    (List.forall_mem_cons.2 ⟨p2, List.forall_mem_cons.2 ⟨p7, List.forall_mem_cons.2 ⟨p19757330305831588566944191468367130476339, List.forall_mem_nil _⟩⟩⟩)
    (by decide +kernel) (by decide +kernel) (by decide +kernel)

theorem p7237005577332262213973186563042994240857116359379907606001950938285454250989 : Nat.Prime 7237005577332262213973186563042994240857116359379907606001950938285454250989 :=
  pratt 7237005577332262213973186563042994240857116359379907606001950938285454250989 2 [2, 2, 3, 11, 198211423230930754013084525763697, 276602624281642239937218680557139826668747]
    (List.forall_mem_cons.2 ⟨p2, List.forall_mem_cons.2 ⟨p2, List.forall_mem_cons.2 ⟨p3, List.forall_mem_cons.2 ⟨p11, List.forall_mem_cons.2 ⟨p198211423230930754013084525763697, List.forall_mem_cons.2 ⟨p276602624281642239937218680557139826668747, List.forall_mem_nil _⟩⟩⟩⟩⟩⟩)
    (by decide +kernel) (by decide +kernel) (by decide +kernel)

theorem p2791 : Nat.Prime 2791 :=
  pratt 2791 6 [2, 3, 3, 5, 31]
    (List.forall_mem_cons.2 ⟨p2, List.forall_mem_cons.2 ⟨p3, List.forall_mem_cons.2 ⟨p3, List.forall_mem_cons.2 ⟨p5, List.forall_mem_cons.2 ⟨p31, List.forall_mem_nil _⟩⟩⟩⟩⟩)
    (by decide +kernel) (by decide +kernel) (by decide +kernel)

theorem p117223 : Nat.Prime 117223 :=
  pratt 117223 3 [2, 3, 7, 2791]
    (List.forall_mem_cons.2 ⟨p2, List.forall_mem_cons.2 ⟨p3, List.forall_mem_cons.2 ⟨p7, List.forall_mem_cons.2 ⟨p2791, List.forall_mem_nil _⟩⟩⟩⟩)
    (by decide +kernel) (by decide +kernel) (by decide +kernel)

theorem p84457 : Nat.Prime 84457 :=
  pratt 84457 5 [2, 2, 2, 3, 3, 3, 17, 23]
    (List.forall_mem_cons.2 ⟨p2, List.forall_mem_cons.2 ⟨p2, List.forall_mem_cons.2 ⟨p2, List.forall_mem_cons.2 ⟨p3, List.forall_mem_cons.2 ⟨p3, List.forall_mem_cons.2 ⟨p3, List.forall_mem_cons.2 ⟨p17, List.forall_mem_cons.2 ⟨p23, List.forall_mem_nil _⟩⟩⟩⟩⟩⟩⟩⟩)
    (by decide +kernel) (by decide +kernel) (by decide +kernel)

theorem p6418733 : Nat.Prime 6418733 :=
  pratt 6418733 2 [2, 2, 19, 84457]
    (List.forall_mem_cons.2 ⟨p2, List.forall_mem_cons.2 ⟨p2, List.forall_mem_cons.2 ⟨p19, List.forall_mem_cons.2 ⟨p84457, List.forall_mem_nil _⟩⟩⟩⟩)
    (by decide +kernel) (by decide +kernel) (by decide +kernel)

theorem p101 : Nat.Prime 101 := by norm_num

theorem p6263 : Nat.Prime 6263 :=
  pratt 6263 5 [2, 31, 101]
    (List.forall_mem_cons.2 ⟨p2, List.forall_mem_cons.2 ⟨p31, List.forall_mem_cons.2 ⟨p101, List.forall_mem_nil _⟩⟩⟩)
    (by decide +kernel) (by decide +kernel) (by decide +kernel)

theorem p12527 : Nat.Prime 12527 :=
  pratt 12527 5 [2, 6263]
    (List.forall_mem_cons.2 ⟨p2, List.forall_mem_cons.2 ⟨p6263, List.forall_mem_nil _⟩⟩)
    (by decide +kernel) (by decide +kernel) (by decide +kernel)

theorem p1110318119 : Nat.Prime 1110318119 :=
  pratt 1110318119 7 [2, 7, 13, 487, 12527]
    (List.forall_mem_cons.2 ⟨p2, List.forall_mem_cons.2 ⟨p7, List.forall_mem_cons.2 ⟨p13, List.forall_mem_cons.2 ⟨p487, List.forall_mem_cons.2 ⟨p12527, List.forall_mem_nil _⟩⟩⟩⟩⟩)
    (by decide +kernel) (by decide +kernel) (by decide +kernel)

theorem p2220636239 : Nat.Prime 2220636239 :=
  pratt 2220636239 23 [2, 1110318119]
    (List.forall_mem_cons.2 ⟨p2, List.forall_mem_cons.2 ⟨p1110318119, List.forall_mem_nil _⟩⟩)
    (by decide +kernel) (by decide +kernel) (by decide +kernel)

theorem p4363 : Nat.Prime 4363 :=
  pratt 4363 2 [2, 3, 727]
    (List.forall_mem_cons.2 ⟨p2, List.forall_mem_cons.2 ⟨p3, List.forall_mem_cons.2 ⟨p727, List.forall_mem_nil _⟩⟩⟩)
    (by decide +kernel) (by decide +kernel) (by decide +kernel)

theorem p467 : Nat.Prime 467 := by norm_num

theorem p3637 : Nat.Prime 3637 :=
  pratt 3637 2 [2, 2, 3, 3, 101]
    (List.forall_mem_cons.2 ⟨p2, List.forall_mem_cons.2 ⟨p2, List.forall_mem_cons.2 ⟨p3, List.forall_mem_cons.2 ⟨p3, List.forall_mem_cons.2 ⟨p101, List.forall_mem_nil _⟩⟩⟩⟩⟩)
    (by decide +kernel) (by decide +kernel) (by decide +kernel)

theorem p227 : Nat.Prime 227 := by norm_num

theorem p11351 : Nat.Prime 11351 :=
  pratt 11351 7 [2, 5, 5, 227]
    (List.forall_mem_cons.2 ⟨p2, List.forall_mem_cons.2 ⟨p5, List.forall_mem_cons.2 ⟨p5, List.forall_mem_cons.2 ⟨p227, List.forall_mem_nil _⟩⟩⟩⟩)
    (by decide +kernel) (by decide +kernel) (by decide +kernel)

theorem p743104567 : Nat.Prime 743104567 :=
  pratt 743104567 6 [2, 3, 3, 3637, 11351]
    (List.forall_mem_cons.2 ⟨p2, List.forall_mem_cons.2 ⟨p3, List.forall_mem_cons.2 ⟨p3, List.forall_mem_cons.2 ⟨p3637, List.forall_mem_cons.2 ⟨p11351, List.forall_mem_nil _⟩⟩⟩⟩⟩)
    (by decide +kernel) (by decide +kernel) (by decide +kernel)

theorem p383 : Nat.Prime 383 := by norm_num

theorem p3911 : Nat.Prime 3911 :=
  pratt 3911 13 [2, 5, 17, 23]
    (List.forall_mem_cons.2 ⟨p2, List.forall_mem_cons.2 ⟨p5, List.forall_mem_cons.2 ⟨p17, List.forall_mem_cons.2 ⟨p23, List.forall_mem_nil _⟩⟩⟩⟩)
    (by decide +kernel) (by decide +kernel) (by decide +kernel)

theorem p61 : Nat.Prime 61 := by norm_num

theorem p8053 : Nat.Prime 8053 :=
  pratt 8053 2 [2, 2, 3, 11, 61]
    (List.forall_mem_cons.2 ⟨p2, List.forall_mem_cons.2 ⟨p2, List.forall_mem_cons.2 ⟨p3, List.forall_mem_cons.2 ⟨p11, List.forall_mem_cons.2 ⟨p61, List.forall_mem_nil _⟩⟩⟩⟩⟩)
    (by decide +kernel) (by decide +kernel) (by decide +kernel)

theorem p1013266244677 : Nat.Prime 1013266244677 :=
  pratt 1013266244677 2 [2, 2, 3, 7, 383, 3911, 8053]
    (List.forall_mem_cons.2 ⟨p2, List.forall_mem_cons.2 ⟨p2, List.forall_mem_cons.2 ⟨p3, List.forall_mem_cons.2 ⟨p7, List.forall_mem_cons.2 ⟨p383, List.forall_mem_cons.2 ⟨p3911, List.forall_mem_cons.2 ⟨p8053, List.forall_mem_nil _⟩⟩⟩⟩⟩⟩⟩)
    (by decide +kernel) (by decide +kernel) (by decide +kernel)

theorem p727169 : Nat.Prime 727169 :=
  pratt 727169 3 [2, 2, 2, 2, 2, 2, 2, 13, 19, 23]
    (List.forall_mem_cons.2 ⟨p2, List.forall_mem_cons.2 ⟨p2, List.forall_mem_cons.2 ⟨p2, List.forall_mem_cons.2 ⟨p2, List.forall_mem_cons.2 ⟨p2, List.forall_mem_cons.2 ⟨p2, List.forall_mem_cons.2 ⟨p2, List.forall_mem_cons.2 ⟨p13, List.forall_mem_cons.2 ⟨p19, List.forall_mem_cons.2 ⟨p23, List.forall_mem_nil _⟩⟩⟩⟩⟩⟩⟩⟩⟩⟩)
    (by decide +kernel) (by decide +kernel) (by decide +kernel)

theorem p2281 : Nat.Prime 2281 :=
  pratt 2281 7 [2, 2, 2, 3, 5, 19]
    (List.forall_mem_cons.2 ⟨p2, List.forall_mem_cons.2 ⟨p2, List.forall_mem_cons.2 ⟨p2, List.forall_mem_cons.2 ⟨p3, List.forall_mem_cons.2 ⟨p5, List.forall_mem_cons.2 ⟨p19, List.forall_mem_nil _⟩⟩⟩⟩⟩⟩)
    (by decide +kernel) (by decide +kernel) (by decide +kernel)

theorem p28859 : Nat.Prime 28859 :=
  pratt 28859 2 [2, 47, 307]
    (List.forall_mem_cons.2 ⟨p2, List.forall_mem_cons.2 ⟨p47, List.forall_mem_cons.2 ⟨p307, List.forall_mem_nil _⟩⟩⟩)
    (by decide +kernel) (by decide +kernel) (by decide +kernel)

theorem p5171003929967 : Nat.Prime 5171003929967 :=
  pratt 5171003929967 5 [2, 7, 31, 181, 2281, 28859]
    (List.forall_mem_cons.2 ⟨p2, List.forall_mem_cons.2 ⟨p7, List.forall_mem_cons.2 ⟨p31, List.forall_mem_cons.2 ⟨p181, List.forall_mem_cons.2 ⟨p2281, List.forall_mem_cons.2 ⟨p28859, List.forall_mem_nil _⟩⟩⟩⟩⟩⟩)
    (by decide +kernel) (by decide +kernel) (by decide +kernel)

theorem p22561162540501040539 : Nat.Prime 22561162540501040539 :=
  pratt 22561162540501040539 3 [2, 3, 727169, 5171003929967]
    (List.forall_mem_cons.2 ⟨p2, List.forall_mem_cons.2 ⟨p3, List.forall_mem_cons.2 ⟨p727169, List.forall_mem_cons.2 ⟨p5171003929967, List.forall_mem_nil _⟩⟩⟩⟩)
    (by decide +kernel) (by decide +kernel) (by decide +kernel)

theorem p203852586375664218368381551393371968928013 : Nat.Prime 203852586375664218368381551393371968928013 :=
  pratt 203852586375664218368381551393371968928013 2 [2, 2, 3, 743104567, 1013266244677, 22561162540501040539]
    (List.forall_mem_cons.2 ⟨p2, List.forall_mem_cons.2 ⟨p2, List.forall_mem_cons.2 ⟨p3, List.forall_mem_cons.2 ⟨p743104567, List.forall_mem_cons.2 ⟨p1013266244677, List.forall_mem_cons.2 ⟨p22561162540501040539, List.forall_mem_nil _⟩⟩⟩⟩⟩⟩)
    (by decide +kernel) (by decide +kernel) (by decide +kernel)

theorem p104719073621178708975837602950775180438320278101 : Nat.Prime 104719073621178708975837602950775180438320278101 :=
  pratt 104719073621178708975837602950775180438320278101 2 [2, 2, 5, 5, 11, 467, 203852586375664218368381551393371968928013]
    (List.forall_mem_cons.2 ⟨p2, List.forall_mem_cons.2 ⟨p2, List.forall_mem_cons.2 ⟨p5, List.forall_mem_cons.2 ⟨p5, List.forall_mem_cons.2 ⟨p11, List.forall_mem_cons.2 ⟨p467, List.forall_mem_cons.2 ⟨p203852586375664218368381551393371968928013, List.forall_mem_nil _⟩⟩⟩⟩⟩⟩⟩)
    (by decide +kernel) (by decide +kernel) (by decide +kernel)

theorem p27413359092552162435694767700453926735143482401279781 : Nat.Prime 27413359092552162435694767700453926735143482401279781 :=
  pratt 27413359092552162435694767700453926735143482401279781 2 [2, 2, 3, 5, 4363, 104719073621178708975837602950775180438320278101]
    (List.forall_mem_cons.2 ⟨p2, List.forall_mem_cons.2 ⟨p2, List.forall_mem_cons.2 ⟨p3, List.forall_mem_cons.2 ⟨p5, List.forall_mem_cons.2 ⟨p4363, List.forall_mem_cons.2 ⟨p104719073621178708975837602950775180438320278101, List.forall_mem_nil _⟩⟩⟩⟩⟩⟩)
    (by decide +kernel) (by decide +kernel) (by decide +kernel)

theorem p14474011154664524427946373126085988481603263447650325797860494125407373907997 : Nat.Prime 14474011154664524427946373126085988481603263447650325797860494125407373907997 :=
  pratt 14474011154664524427946373126085988481603263447650325797860494125407373907997 2 [2, 2, 79, 117223, 6418733, 2220636239, 27413359092552162435694767700453926735143482401279781]
    (List.forall_mem_cons.2 ⟨p2, List.forall_mem_cons.2 ⟨p2, List.forall_mem_cons.2 ⟨p79, List.forall_mem_cons.2 ⟨p117223, List.forall_mem_cons.2 ⟨p6418733, List.forall_mem_cons.2 ⟨p2220636239, List.forall_mem_cons.2 ⟨p27413359092552162435694767700453926735143482401279781, List.forall_mem_nil _⟩⟩⟩⟩⟩⟩⟩)
    (by decide +kernel) (by decide +kernel) (by decide +kernel)

/-- The order of the P-256 base point. -/
theorem prime_p256_order :
    Nat.Prime 0xffffffff00000000ffffffffffffffffbce6faada7179e84f3b9cac2fc632551 := p115792089210356248762697446949407573529996955224135760342422259061068512044369

/-- The order of the Curve25519 base point. -/
theorem prime_25519_order : Nat.Prime (2 ^ 252 + 27742317777372353535851937790883648493) :=
  p7237005577332262213973186563042994240857116359379907606001950938285454250989

/-- The order of a point of the twist of Curve25519. -/
theorem prime_25519_twist : Nat.Prime (2 ^ 253 - 55484635554744707071703875581767296995) :=
  p14474011154664524427946373126085988481603263447650325797860494125407373907997

end Hacspec.Primes
