import Verif.Model.Poly
import Verif.Model.NatMod
import Verif.Model.P256
import Verif.Model.Hex
import Verif.Model.Seq
import Verif.Validation.Text

/-!
# The tests of `hacspec/tests, abstract-integers/tests, secret-integers/tests` as tests of the model

Written by `tools/repo_tests.py`.  Tests of the fidelity of the model, not proofs of properties.
-/

namespace Hacspec.Validation

open SecretInt MachineInt

/-- `test_poly.rs:145` `RqKyberFixedLength`. -/
def kyber : Poly.PolyTy 128 := { l := 256, n := 3329, m := [(0, 1), (256, 1)] }

/-- `test_poly.rs:154`. -/
def kyberB : List (BitVec 128) := [0x72a, 0x50b, 0x6db, 0x26e, 0x536, 0x253, 0x292, 0x42f, 0x2da, 0x92b, 0x9b4, 0xbfc, 0x263, 0x636, 0x78b, 0x82e, 0x54a, 0x8cf, 0xc3, 0xa30, 0x99e, 0x2f4, 0x696, 0x2be, 0x2a6, 0x159, 0x147, 0x4b, 0xa44, 0x255, 0x9c5, 0x1a7, 0xa61, 0x640, 0xca3, 0xb51, 0x761, 0xbf2, 0x210, 0x25e, 0xa90, 0x25b, 0x1ab, 0x5e5, 0x7a2, 0x235, 0x9d0, 0x373, 0x55, 0xc46, 0x1c3, 0x90a, 0x21b, 0xa0d, 0x73e, 0x6ce, 0x4b4, 0x355, 0x681, 0x667, 0x8a0, 0x3e, 0xb79, 0x190, 0xbab, 0x137, 0xb43, 0x493, 0x399, 0x8e8, 0x731, 0x24b, 0x43f, 0x9ef, 0x206, 0x5d4, 0x252, 0x9da, 0x449, 0xa34, 0xc13, 0x5c2, 0x6f, 0x1d1, 0x397, 0x6f7, 0xc9c, 0x736, 0x95a, 0x6ef, 0x724, 0x25b, 0xcec, 0x784, 0xab5, 0xbc2, 0x12f, 0x5ff, 0x834, 0x34e, 0x282, 0x47d, 0x874, 0x46e, 0xced, 0x682, 0x329, 0x5ab, 0x7ca, 0x3df, 0xcd6, 0x412, 0x444, 0xa7e, 0xc61, 0x9b1, 0xa59, 0x612, 0x2bc, 0x391, 0xd, 0xa48, 0x46c, 0xa9a, 0xc7b, 0x4a4, 0x873, 0xc48, 0x114, 0x8a6, 0x666, 0xad9, 0x5ce, 0x13f, 0x88d, 0x4c3, 0xae6, 0x9fe, 0x548, 0x8f8, 0x422, 0x653, 0x67a, 0x39a, 0x57e, 0xa95, 0x33, 0x76d, 0x101, 0xc89, 0xbd, 0x8b0, 0x146, 0x916, 0x5d, 0x577, 0x278, 0x16a, 0x6e, 0x558, 0xc59, 0xce4, 0x7f0, 0xbe5, 0x6c7, 0x84b, 0xac4, 0x8c1, 0x5b5, 0xd7, 0x993, 0x207, 0xb74, 0xf1, 0x926, 0x75c, 0x8c3, 0x1c4, 0x86d, 0x9ee, 0x380, 0x32a, 0x8dd, 0x56, 0x747, 0x20c, 0x737, 0x596, 0x292, 0x811, 0x4a8, 0x4f2, 0xb45, 0x158, 0x226, 0xc72, 0x99a, 0x1cd, 0x520, 0x6b1, 0x250, 0xbbb, 0x140, 0x476, 0x5e8, 0x45, 0x3a, 0x708, 0x3f1, 0x32a, 0xa6a, 0x694, 0x2f4, 0x39e, 0x5ad, 0xb2b, 0x7e1, 0xb5c, 0xe1, 0xc64, 0x1f3, 0x90b, 0x67a, 0x66c, 0x478, 0x647, 0x227, 0x26, 0x912, 0x581, 0x666, 0x884, 0x879, 0x30c, 0x142, 0x8c5, 0x72d, 0x3da, 0x48a, 0x15b, 0xca0, 0x284, 0x4e7, 0x6cc, 0x7ad, 0x29b, 0x3be, 0x63f, 0x655, 0x22a, 0x12f, 0x32b, 0x898, 0xaa1, 0xc3, 0x9fc]

/-- `test_poly.rs:156`. -/
def kyberC : List (BitVec 128) := [766, 3113, 2145, 433, 3310, 2147, 553, 246, 2197, 1441, 928, 2499, 339, 3140, 2150, 1155, 1259, 3175, 981, 701, 145, 2410, 2688, 2028, 323, 3043, 130, 2446, 2933, 334, 1742, 87, 2719, 3217, 2068, 1681, 3068, 972, 493, 1051, 1584, 3173, 387, 3052, 2851, 1915, 1137, 3201, 1839, 1443, 1366, 2251, 678, 123, 2157, 257, 2144, 958, 1928, 631, 2073, 1646, 601, 861, 2285, 3229, 819, 1595, 2681, 472, 739, 2039, 2358, 2312, 962, 2195, 1456, 1595, 145, 621, 1865, 1815, 2279, 1916, 5, 1916, 131, 557, 2524, 971, 2511, 2860, 2868, 526, 1554, 1033, 1378, 267, 1168, 2776, 2863, 1338, 2522, 392, 2471, 688, 946, 1982, 3207, 460, 2093, 685, 1129, 1816, 1038, 1809, 1337, 1384, 2885, 1357, 2491, 2505, 2963, 645, 2227, 2371, 749, 1033, 1398, 1219, 622, 239, 2508, 470, 2506, 3152, 919, 2998, 3220, 1237, 788, 3146, 835, 450, 2070, 1074, 17, 3279, 3324, 1184, 2571, 2163, 2103, 2969, 760, 249, 1471, 2334, 3074, 162, 812, 1292, 1563, 1, 1094, 1051, 3101, 2616, 88, 3174, 2994, 3208, 396, 1350, 3232, 2167, 1686, 990, 276, 1373, 981, 1871, 2346, 1843, 562, 2114, 1840, 1092, 394, 2487, 858, 3275, 534, 2829, 2328, 1712, 1292, 943, 1081, 1420, 307, 1867, 2020, 3122, 3063, 3326, 1446, 1160, 2581, 428, 2421, 1143, 18, 111, 1105, 2859, 868, 1514, 617, 727, 1501, 3223, 2113, 318, 3289, 741, 3259, 1289, 104, 1228, 3273, 647, 3228, 3157, 2499, 2666, 378, 3076, 547, 1673, 1892, 2158, 359, 1829, 412, 1927, 2901, 2578, 1366, 3205, 51, 2009, 2293, 1575, 3036, 1567]

/-! `test_poly.rs test_poly_add` -/

set_option maxRecDepth 8000 in
example : (do let a ← Poly.newSparse (w := 128) { l := 256, n := 0, m := [(0, 0)] } [(78, 1), (222, 1)]; let b ← Poly.newSparse { l := 256, n := 0, m := [(0, 0)] } [(0, 1), (222, 2)]; Poly.pAdd Poly.numPubU { l := 256, n := 0, m := [(0, 0)] } a b) = Poly.newSparse { l := 256, n := 0, m := [(0, 0)] } [(0, 1), (78, 1), (222, 3)] := by decide +kernel
set_option maxRecDepth 8000 in
example : (do let a ← Poly.newSparse (w := 128) { l := 256, n := 0, m := [(0, 0)] } [(0, -1), (78, 1)]; let b ← Poly.newSparse { l := 256, n := 0, m := [(0, 0)] } [(0, 1), (78, 0), (222, -5)]; Poly.pAdd Poly.numPubS { l := 256, n := 0, m := [(0, 0)] } a b) = Poly.newSparse { l := 256, n := 0, m := [(0, 0)] } [(78, 1), (222, -5)] := by decide +kernel
set_option maxRecDepth 8000 in
example : (do let a ← Poly.newSparse (w := 128) { l := 256, n := 3, m := [(0, 0)] } [(78, 1), (222, 1)]; let b ← Poly.newSparse { l := 256, n := 3, m := [(0, 0)] } [(0, 1), (222, 2)]; Poly.pAdd Poly.numPubU { l := 256, n := 3, m := [(0, 0)] } a b) = Poly.newSparse { l := 256, n := 3, m := [(0, 0)] } [(0, 1), (78, 1)] := by decide +kernel
set_option maxRecDepth 8000 in
example : (do let a ← Poly.newSparse (w := 128) { l := 256, n := 3, m := [(0, 0)] } [(0, -1), (78, 1)]; let b ← Poly.newSparse { l := 256, n := 3, m := [(0, 0)] } [(0, 1), (222, -5)]; Poly.pAdd Poly.numPubS { l := 256, n := 3, m := [(0, 0)] } a b) = Poly.newSparse { l := 256, n := 3, m := [(0, 0)] } [(78, 1), (222, 1)] := by decide +kernel

/-! `test_poly.rs test_poly_div` -/

set_option maxRecDepth 8000 in
example : (do let a ← Poly.newSparse (w := 128) { l := 3, n := 3, m := [(0, 2), (1, 2), (3, 1)] } [(0, 1), (2, 2)]; let b ← Poly.newSparse { l := 3, n := 3, m := [(0, 2), (1, 2), (3, 1)] } [(1, 1), (2, 1)]; Poly.pDiv Poly.numPubU { l := 3, n := 3, m := [(0, 2), (1, 2), (3, 1)] } a b) = (do let q ← Poly.newSparse { l := 3, n := 3, m := [(0, 2), (1, 2), (3, 1)] } [(0, 2)]; let r ← Poly.newSparse { l := 3, n := 3, m := [(0, 2), (1, 2), (3, 1)] } [(0, 1), (1, 1)]; .ok (q, r)) := by decide +kernel
set_option maxRecDepth 8000 in
example : (do let a ← Poly.newSparse (w := 128) { l := 3, n := 3, m := [(0, 2), (1, 2), (3, 1)] } [(0, 1), (2, 2)]; let b ← Poly.newSparse { l := 3, n := 3, m := [(0, 2), (1, 2), (3, 1)] } [(1, 1), (2, 1)]; Poly.pDiv Poly.numPubS { l := 3, n := 3, m := [(0, 2), (1, 2), (3, 1)] } a b) = (do let q ← Poly.newSparse { l := 3, n := 3, m := [(0, 2), (1, 2), (3, 1)] } [(0, 2)]; let r ← Poly.newSparse { l := 3, n := 3, m := [(0, 2), (1, 2), (3, 1)] } [(0, 1), (1, 1)]; .ok (q, r)) := by decide +kernel

/-! `test_poly.rs test_poly_mul` -/

set_option maxRecDepth 8000 in
example : (do let a ← Poly.newSparse (w := 128) { l := 3, n := 11, m := [(0, 2), (1, 2), (3, 1)] } [(0, 1), (2, 2)]; let b ← Poly.newSparse { l := 3, n := 11, m := [(0, 2), (1, 2), (3, 1)] } [(1, 1), (2, 1)]; Poly.pMul Poly.numPubU { l := 3, n := 11, m := [(0, 2), (1, 2), (3, 1)] } a b) = Poly.newSparse { l := 3, n := 11, m := [(0, 2), (1, 2), (3, 1)] } [(0, 7), (1, 4), (2, 8)] := by decide +kernel
set_option maxRecDepth 8000 in
example : (do let a ← Poly.newSparse (w := 128) { l := 3, n := 11, m := [(0, 2), (1, 2), (3, 1)] } [(0, 1), (2, 2)]; let b ← Poly.newSparse { l := 3, n := 11, m := [(0, 2), (1, 2), (3, 1)] } [(1, 1), (2, 1)]; Poly.pMul Poly.numPubS { l := 3, n := 11, m := [(0, 2), (1, 2), (3, 1)] } a b) = Poly.newSparse { l := 3, n := 11, m := [(0, 2), (1, 2), (3, 1)] } [(0, 7), (1, 4), (2, 8)] := by decide +kernel
set_option maxRecDepth 8000 in
example : (do let a ← Poly.newSparse (w := 128) { l := 3, n := 11, m := [(0, 2), (1, 2), (3, 1)] } [(0, -3), (1, 5), (2, -1)]; let b ← Poly.newSparse { l := 3, n := 11, m := [(0, 2), (1, 2), (3, 1)] } [(0, 1), (1, -2), (2, -7)]; Poly.pMul Poly.numPubS { l := 3, n := 11, m := [(0, 2), (1, 2), (3, 1)] } a b) = Poly.newSparse { l := 3, n := 11, m := [(0, 2), (1, 2), (3, 1)] } [(0, 8), (1, 8), (2, 7)] := by decide +kernel

/-! `test_poly.rs test_poly_inversion` -/

set_option maxRecDepth 8000 in
example : (do let a ← Poly.newSparse (w := 128) { l := 3, n := 3, m := [(0, 2), (1, 2), (3, 1)] } [(0, 2), (1, 2)]; let i ← Poly.pInv Poly.numPubU { l := 3, n := 3, m := [(0, 2), (1, 2), (3, 1)] } a; Poly.pMul Poly.numPubU { l := 3, n := 3, m := [(0, 2), (1, 2), (3, 1)] } a i) = Poly.newSparse { l := 3, n := 3, m := [(0, 2), (1, 2), (3, 1)] } [(0, 1)] := by decide +kernel
set_option maxRecDepth 8000 in
example : (do let a ← Poly.newSparse (w := 128) { l := 3, n := 3, m := [(0, 2), (1, 2), (3, 1)] } [(0, 1), (1, 2), (2, 2)]; let i ← Poly.pInv Poly.numPubU { l := 3, n := 3, m := [(0, 2), (1, 2), (3, 1)] } a; Poly.pMul Poly.numPubU { l := 3, n := 3, m := [(0, 2), (1, 2), (3, 1)] } a i) = Poly.newSparse { l := 3, n := 3, m := [(0, 2), (1, 2), (3, 1)] } [(0, 1)] := by decide +kernel
set_option maxRecDepth 8000 in
example : (do let a ← Poly.newSparse (w := 128) { l := 3, n := 3, m := [(0, 2), (1, 2), (3, 1)] } [(2, 1)]; let i ← Poly.pInv Poly.numPubU { l := 3, n := 3, m := [(0, 2), (1, 2), (3, 1)] } a; Poly.pMul Poly.numPubU { l := 3, n := 3, m := [(0, 2), (1, 2), (3, 1)] } a i) = Poly.newSparse { l := 3, n := 3, m := [(0, 2), (1, 2), (3, 1)] } [(0, 1)] := by decide +kernel

/-! `test_poly.rs test_poly_inversion_panic` -/

set_option maxRecDepth 8000 in
example : Poly.pInv (w := 128) Poly.numPubU { l := 11, n := 3, m := [(0, 2), (1, 2), (2, 1), (3, 2), (4, 2), (5, 1), (6, 2), (8, 2), (10, 2), (11, 2)] } [0, 1, 2, 0, 2, 2, 0, 0, 2, 0, 0] = panic := by decide +kernel

/-! `test_poly.rs test_fixed_length` -/

#guard (do let a ← Poly.newSparse (w := 128) kyber [(0, 1), (5, 55), (77, 123)]; Poly.pMul Poly.numPubU kyber a kyberB) = .ok kyberC

/-! `test_math_util.rs test_cswap` -/

set_option maxRecDepth 8000 in
example : cswap (123#8) 234#8 0 = (123#8, 234#8) := by decide +kernel
set_option maxRecDepth 8000 in
example : cswap (123#8) 234#8 0xff = (234#8, 123#8) := by decide +kernel
set_option maxRecDepth 8000 in
example : cswapBit (123#8) 234#8 0 = (123#8, 234#8) := by decide +kernel
set_option maxRecDepth 8000 in
example : cswapBit (123#8) 234#8 1 = (234#8, 123#8) := by decide +kernel

/-! `test_math_util.rs test_csub` -/

set_option maxRecDepth 8000 in
example : csub (13#8) 234#8 0#8 = 13#8 ∧ csub (13#8) 234#8 maxU = 13#8 - 234#8 := by decide +kernel
set_option maxRecDepth 8000 in
example : csub (827629#64) 16#64 0#64 = 827629#64 ∧ csub (827629#64) 16#64 maxU = 827629#64 - 16#64 := by decide +kernel

/-! `test_math_util.rs test_cadd` -/

set_option maxRecDepth 8000 in
example : cadd (13#8) 234#8 0#8 = 13#8 ∧ cadd (13#8) 234#8 maxU = 13#8 + 234#8 := by decide +kernel
set_option maxRecDepth 8000 in
example : cadd (827629#64) 16#64 0#64 = 827629#64 ∧ cadd (827629#64) 16#64 maxU = 827629#64 + 16#64 := by decide +kernel

/-! `test_math_util.rs test_cmul` -/

set_option maxRecDepth 8000 in
example : cmul (13#8) 234#8 0#8 = 13#8 ∧ cmul (13#8) 234#8 maxU = 13#8 * 234#8 := by decide +kernel
set_option maxRecDepth 8000 in
example : cmul (827629#64) 16#64 0#64 = 827629#64 ∧ cmul (827629#64) 16#64 maxU = 827629#64 * 16#64 := by decide +kernel

/-! `test_math_util.rs test_div` -/

set_option maxRecDepth 8000 in
example : ctDiv pubU (13#8) 234#8 = (do let q ← pubU.div (13#8) 234#8; let r ← moduloU (13#8) 234#8; .ok (q, r)) := by decide +kernel
set_option maxRecDepth 8000 in
example : ctDiv secU (13#8) 234#8 = (do let q ← secU.div (13#8) 234#8; let r ← moduloU (13#8) 234#8; .ok (q, r)) := by decide +kernel
set_option maxRecDepth 8000 in
example : ctDiv pubU (13#16) 234#16 = (do let q ← pubU.div (13#16) 234#16; let r ← moduloU (13#16) 234#16; .ok (q, r)) := by decide +kernel
set_option maxRecDepth 8000 in
example : ctDiv secU (13#16) 234#16 = (do let q ← secU.div (13#16) 234#16; let r ← moduloU (13#16) 234#16; .ok (q, r)) := by decide +kernel
set_option maxRecDepth 8000 in
example : ctDiv pubU (827629#32) 12#32 = (do let q ← pubU.div (827629#32) 12#32; let r ← moduloU (827629#32) 12#32; .ok (q, r)) := by decide +kernel
set_option maxRecDepth 8000 in
example : ctDiv secU (827629#32) 12#32 = (do let q ← secU.div (827629#32) 12#32; let r ← moduloU (827629#32) 12#32; .ok (q, r)) := by decide +kernel
set_option maxRecDepth 8000 in
example : ctDiv pubU (827629#64) 12#64 = (do let q ← pubU.div (827629#64) 12#64; let r ← moduloU (827629#64) 12#64; .ok (q, r)) := by decide +kernel
set_option maxRecDepth 8000 in
example : ctDiv secU (827629#64) 12#64 = (do let q ← secU.div (827629#64) 12#64; let r ← moduloU (827629#64) 12#64; .ok (q, r)) := by decide +kernel
set_option maxRecDepth 8000 in
example : ctDiv pubU (16#64) 827629#64 = (do let q ← pubU.div (16#64) 827629#64; let r ← moduloU (16#64) 827629#64; .ok (q, r)) := by decide +kernel
set_option maxRecDepth 8000 in
example : ctDiv secU (16#64) 827629#64 = (do let q ← secU.div (16#64) 827629#64; let r ← moduloU (16#64) 827629#64; .ok (q, r)) := by decide +kernel

/-! `test_math_util.rs test_zn_inv` -/

set_option maxRecDepth 8000 in
example : euclidInvert pubU (37543865#128) 65537#128 = .ok 37686#128 := by decide +kernel

/-! `test_machine_integers.rs test_unsigned_secret` -/

set_option maxRecDepth 8000 in
example : secPow (3#8) 5 = .ok 243#8 := by decide +kernel
set_option maxRecDepth 8000 in
example : secPow (3#16) 5 = .ok 243#16 := by decide +kernel
set_option maxRecDepth 8000 in
example : secPow (3#32) 5 = .ok 243#32 := by decide +kernel
set_option maxRecDepth 8000 in
example : secPow (3#64) 5 = .ok 243#64 := by decide +kernel
set_option maxRecDepth 8000 in
example : secPow (3#128) 5 = .ok 243#128 := by decide +kernel

/-! `test_machine_integers.rs test_signed_secret` -/

set_option maxRecDepth 8000 in
example : secPow (2#8) 5 = .ok 32#8 := by decide +kernel
set_option maxRecDepth 8000 in
example : secPow (2#16) 5 = .ok 32#16 := by decide +kernel
set_option maxRecDepth 8000 in
example : secPow (2#32) 5 = .ok 32#32 := by decide +kernel
set_option maxRecDepth 8000 in
example : secPow (2#64) 5 = .ok 32#64 := by decide +kernel
set_option maxRecDepth 8000 in
example : secPow (2#128) 5 = .ok 32#128 := by decide +kernel

/-! `test_math_integers.rs test_unsigned_public_integers` -/

set_option maxRecDepth 8000 in
example : (do let a ← AbstractInt.fromLiteral 233 false 1; let b ← AbstractInt.fromLiteral 233 false 2; let c ← AbstractInt.add 233 false a b; let e ← AbstractInt.fromLiteral 233 false 3; .ok (AbstractInt.eq c e)) = .ok true := by decide +kernel

/-! `test_math_integers.rs test_signed_public_integers` -/

set_option maxRecDepth 8000 in
example : (do let a ← AbstractInt.fromLiteral 233 true 1; let b ← AbstractInt.fromLiteral 233 true 2; let c ← AbstractInt.add 233 true a b; let e ← AbstractInt.fromLiteral 233 true 3; .ok (AbstractInt.eq c e)) = .ok true := by decide +kernel

/-! `test_int.rs, test_pint.rs bounded` -/

set_option maxRecDepth 8000 in
example : (do let p ← AbstractInt.pow2 256 true 255; let o ← AbstractInt.fromLiteral 256 true 1; let d ← AbstractInt.sub 256 true p o; let t ← AbstractInt.fromLiteral 256 true 2; let y1 ← AbstractInt.mul 256 true d t; let y2 ← AbstractInt.fromLiteral 256 true 4; AbstractInt.add 256 true y1 y2) = panic := by decide +kernel

/-! `test_uint.rs, test_puint.rs bounded` -/

set_option maxRecDepth 8000 in
example : (do let p ← AbstractInt.pow2 256 false 255; let o ← AbstractInt.fromLiteral 256 false 1; let d ← AbstractInt.sub 256 false p o; let t ← AbstractInt.fromLiteral 256 false 2; let y1 ← AbstractInt.mul 256 false d t; let y2 ← AbstractInt.fromLiteral 256 false 4; AbstractInt.add 256 false y1 y2) = panic := by decide +kernel

/-! `test_pnatmod.rs arith` -/

set_option maxRecDepth 8000 in
example : (do let a ← NatMod.fromLiteral { bits := 256, n := 2 ^ 255 - 19 } 24875808327634644; let b ← NatMod.fromLiteral { bits := 256, n := 2 ^ 255 - 19 } 91987276365379830; let c ← NatMod.add { bits := 256, n := 2 ^ 255 - 19 } a b; let e ← NatMod.fromLiteral { bits := 256, n := 2 ^ 255 - 19 } 116863084693014474; .ok (NatMod.eq c e)) = .ok true := by decide +kernel

/-! `test_pnatmod.rs wrapping` -/

set_option maxRecDepth 8000 in
example : (do let x1 ← NatMod.fromLiteral { bits := 256, n := 255 } 254; let x2 ← NatMod.fromLiteral { bits := 256, n := 255 } 3; let x3 ← NatMod.add { bits := 256, n := 255 } x1 x2; let e3 ← NatMod.fromLiteral { bits := 256, n := 255 } 2; let x4 ← NatMod.fromLiteral { bits := 256, n := 255 } 5; let x5 ← NatMod.sub { bits := 256, n := 255 } x3 x4; let e5 ← NatMod.fromLiteral { bits := 256, n := 255 } 252; let x ← NatMod.fromLiteral { bits := 256, n := 255 } 4; let x6 ← NatMod.div { bits := 256, n := 255 } x5 x; let e6 ← NatMod.fromLiteral { bits := 256, n := 255 } 63; .ok (NatMod.eq x3 e3, NatMod.eq x5 e5, NatMod.eq x6 e6)) = .ok (true, true, true) := by decide +kernel

/-! `test_pnatmod.rs conversion` -/

set_option maxRecDepth 8000 in
example : (do let x ← NatMod.fromHex P256.F (s "6B17D1F2E12C4247F8BCE6E563A440F277037D812DEB33A0F4A13945D898C296"); let y ← NatMod.fromHex P256.F (s "4FE342E2FE1A7F9B8EE7EB4A7C0F9E162BCE33576B315ECECBB6406837BF51F5"); let z ← NatMod.mul P256.F x y; .ok (decide (AbstractInt.toBig z = 0x6B17D1F2E12C4247F8BCE6E563A440F277037D812DEB33A0F4A13945D898C296 * 0x4FE342E2FE1A7F9B8EE7EB4A7C0F9E162BCE33576B315ECECBB6406837BF51F5 % 0xffffffff00000001000000000000000000000000ffffffffffffffffffffffff))) = .ok true := by decide +kernel

/-! `test_ct.rs test_eq` -/

set_option maxRecDepth 8000 in
example : compEq (123456#32) 123456#32 = maxU ∧ compEq (123456#32) 123457#32 = 0 := by decide +kernel

/-! `test_ct.rs` -/

set_option maxRecDepth 8000 in
example : compEq (3#8) 3#8 = ~~~0#8 ∧ compEq (3#8) 42#8 = 0#8 ∧ compNe (3#8) 42#8 = ~~~0#8 ∧ compNe (3#8) 3#8 = 0#8 ∧ compGte (42#8) 3#8 = ~~~0#8 ∧ compGte (3#8) 42#8 = 0#8 ∧ compGte (0#8) 3#8 = 0#8 := by decide +kernel
set_option maxRecDepth 8000 in
example : compEq (3#32) 3#32 = ~~~0#32 ∧ compEq (3#32) 42#32 = 0#32 ∧ compNe (3#32) 42#32 = ~~~0#32 ∧ compNe (3#32) 3#32 = 0#32 ∧ compGte (42#32) 3#32 = ~~~0#32 ∧ compGte (3#32) 42#32 = 0#32 ∧ compGte (0#32) 3#32 = 0#32 := by decide +kernel
set_option maxRecDepth 8000 in
example : compEq (3#64) 3#64 = ~~~0#64 ∧ compEq (3#64) 42#64 = 0#64 ∧ compNe (3#64) 42#64 = ~~~0#64 ∧ compNe (3#64) 3#64 = 0#64 ∧ compGte (42#64) 3#64 = ~~~0#64 ∧ compGte (3#64) 42#64 = 0#64 ∧ compGte (0#64) 3#64 = 0#64 := by decide +kernel
set_option maxRecDepth 8000 in
example : compEq (3#128) 3#128 = ~~~0#128 ∧ compEq (3#128) 42#128 = 0#128 ∧ compNe (3#128) 42#128 = ~~~0#128 ∧ compNe (3#128) 3#128 = 0#128 ∧ compGte (42#128) 3#128 = ~~~0#128 ∧ compGte (3#128) 42#128 = 0#128 ∧ compGte (0#128) 3#128 = 0#128 := by decide +kernel

/-! `test_public_seq.rs test_byte_sequences` -/

set_option maxRecDepth 8000 in
example : (do let m ← Hex.seqFromHex (s "0388dace60b6a392f328c2b971b2fe78"); Seq.numChunks m 4) = .ok 4 := by decide +kernel
set_option maxRecDepth 8000 in
example : (do let m ← Hex.seqFromHex (s "0388dace60b6a392f328c2b971b2fe78"); Seq.getChunk m 4 0) = .ok (4, [0x03, 0x88, 0xda, 0xce]) := by decide +kernel
set_option maxRecDepth 8000 in
example : (do let m ← Hex.seqFromHex (s "0388dace60b6a392f328c2b971b2fe78"); Seq.getChunk m 4 1) = .ok (4, [0x60, 0xb6, 0xa3, 0x92]) := by decide +kernel
set_option maxRecDepth 8000 in
example : (do let m ← Hex.seqFromHex (s "0388dace60b6a392f328c2b971b2fe78"); Seq.getChunk m 4 2) = .ok (4, [0xf3, 0x28, 0xc2, 0xb9]) := by decide +kernel
set_option maxRecDepth 8000 in
example : (do let m ← Hex.seqFromHex (s "0388dace60b6a392f328c2b971b2fe78"); Seq.getChunk m 4 3) = .ok (4, [0x71, 0xb2, 0xfe, 0x78]) := by decide +kernel

/-! `test_public_seq.rs test_seq_poly` -/

set_option maxRecDepth 8000 in
example : (do let z ← Poly.polyAdd Poly.numPubU [5#128, 2, 7, 8, 9] [2#128, 1, 0, 2, 4] 0; Poly.polySub Poly.numPubU z [5#128, 2, 7, 8, 9] 0) = .ok [2, 1, 0, 2, 4] := by decide +kernel

end Hacspec.Validation
