import Verif.Model.Curve25519
import Verif.Model.P256
import Verif.Model.Hex
import Verif.Validation.Text

/-!
# The tests of `spec-examples/tests` as tests of the model

Written by `tools/repo_tests.py`.  Tests of the fidelity of the model, not proofs of properties.
-/

namespace Hacspec.Validation

open SecretInt

/-! `test_curve25519.rs` -/

#guard Curve25519.scalarmult (b "a546e36bf0527c9d3b16154b82465edd62144c0ac1fc5a18506a2244ba449ac4") (b "e6db6867583030db3594c1a424b15f7c726624ec26b3353b10a903a6d0ab1c4c") = .ok (b "c3da55379de9c6908e94ea4df28d084f32eccf03491c71f754b4075577a28552")
#guard Curve25519.scalarmult (b "77076d0a7318a57d3c16c17251b26645df4c2f87ebc0992ab177fba51db92c2a") (b "de9edb7d7b7dc1b4d35b61c2ece435373f8343c85b78674dadfc7e146f882b4f") = .ok (b "4a5d9d5ba4ce2de1728e3bf480350f25e07e21c947d19e3376f09b3c1e161742")
#guard Curve25519.scalarmult (b "5dab087e624a8a4b79e17f8b83800ee66f3bb1292618b6fd1c2f8b27ff88e0eb") (b "8520f0098930a754748b7ddcb43ef75a0dbf3a0d26381af4eba4a98eaa9b4e6a") = .ok (b "4a5d9d5ba4ce2de1728e3bf480350f25e07e21c947d19e3376f09b3c1e161742")
#guard Curve25519.scalarmult (b "0100000000000000000000000000000000000000000000000000000000000000") (b "2500000000000000000000000000000000000000000000000000000000000000") = .ok (b "3c7777caf997b264416077665b4e229d0b9548dc0cd81998ddcdc5c8533c797f")
#guard Curve25519.scalarmult (b "0100000000000000000000000000000000000000000000000000000000000000") (b "ffffffffffffffffffffffffffffffffffffffffffffffffffffffffffffffff") = .ok (b "b32d1362c248d62fe62619cff04dd43db73ffc1b6308ede30b78d87380f1e834")
#guard Curve25519.scalarmult (b "a546e36bf0527c9d3b16154b82465edd62144c0ac1fc5a18506a2244ba449ac4") (b "e6db6867583030db3594c1a424b15f7c726624ec26b3353b10a903a6d0ab1c4c") = .ok (b "c3da55379de9c6908e94ea4df28d084f32eccf03491c71f754b4075577a28552")

/-! `test_p256.rs` -/

#guard (do let k ← AbstractInt.fromHex 256 (s "14"); let p ← P256.pointMul k; let x ← NatMod.fromHex P256.F (s "83A01A9378395BAB9BCD6A0AD03CC56D56E6B19250465A94A234DC4C6B28DA9A"); let y ← NatMod.fromHex P256.F (s "76E49B6DE2F73234AE6A5EB9D612B75C9F2202BB6923F54FF8240AAA86F640B8"); .ok (NatMod.eq p.1 x && NatMod.eq p.2 y)) = .ok true
#guard (do let k ← AbstractInt.fromHex 256 (s "018ebbb95eed0e13"); let p ← P256.pointMul k; let x ← NatMod.fromHex P256.F (s "339150844EC15234807FE862A86BE77977DBFB3AE3D96F4C22795513AEAAB82F"); let y ← NatMod.fromHex P256.F (s "B1C14DDFDC8EC1B2583F51E85A5EB3A155840F2034730E9B5ADA38B674336A21"); .ok (NatMod.eq p.1 x && NatMod.eq p.2 y)) = .ok true
#guard (do let k ← AbstractInt.fromHex 256 (s "ffffffff00000000ffffffffffffffffbce6faada7179e84f3b9cac2fc632550"); let p ← P256.pointMul k; let x ← NatMod.fromHex P256.F (s "6B17D1F2E12C4247F8BCE6E563A440F277037D812DEB33A0F4A13945D898C296"); let y ← NatMod.fromHex P256.F (s "B01CBD1C01E58065711814B583F061E9D431CCA994CEA1313449BF97C840AE0A"); .ok (NatMod.eq p.1 x && NatMod.eq p.2 y)) = .ok true

end Hacspec.Validation
