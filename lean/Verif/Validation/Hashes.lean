import Verif.Model.Hmac
import Verif.Model.Blake2
import Verif.Model.Hex
import Verif.Validation.Text

/-!
# The tests of `spec-examples/tests` as tests of the model

Written by `tools/repo_tests.py`.  Tests of the fidelity of the model, not proofs of properties.
-/

namespace Hacspec.Validation

open SecretInt

/-! `test_sha2.rs test_sha256_kat` -/

#guard (do let m ← Hex.seqFromHex (s "686163737065632072756c6573"); let d ← Sha2.hash m; .ok (Hex.toHex d)) = .ok (s "b37db5ed72c97da3b2579537afbc3261ed3d5a56f57b3d8e5c1019ae35929964")
#guard (do let m ← Hex.seqFromHex (s "6861637370656320697320612070726f706f73616c20666f722061206e65772073706563696669636174696f6e206c616e677561676520666f722063727970746f207072696d69746976657320746861742069732073756363696e63742c2074686174206973206561737920746f207265616420616e6420696d706c656d656e742c20616e642074686174206c656e647320697473656c6620746f20666f726d616c20766572696669636174696f6e2e"); let d ← Sha2.hash m; .ok (Hex.toHex d)) = .ok (s "348ef044446d56e05210361af5a258588ad31765f446bf4cb3b67125a187a64a")

/-! `test_hmac.rs test_hmac_kat` -/

#guard (do let k ← Hex.seqFromHex (s "0b0b0b0b0b0b0b0b0b0b0b0b0b0b0b0b0b0b0b0b"); let m ← Hex.seqFromHex (s "4869205468657265"); let d ← Hmac.hmac k m; .ok (Hex.toHex d)) = .ok (s "b0344c61d8db38535ca8afceaf0bf12b881dc200c9833da726e9376c2e32cff7")
#guard (do let k ← Hex.seqFromHex (s "4a656665"); let m ← Hex.seqFromHex (s "7768617420646f2079612077616e7420666f72206e6f7468696e673f"); let d ← Hmac.hmac k m; .ok (Hex.toHex d)) = .ok (s "5bdcc146bf60754e6a042426089575c75a003f089d2739839dec58b964ec3843")
#guard (do let k ← Hex.seqFromHex (s "aaaaaaaaaaaaaaaaaaaaaaaaaaaaaaaaaaaaaaaa"); let m ← Hex.seqFromHex (s "dddddddddddddddddddddddddddddddddddddddddddddddddddddddddddddddddddddddddddddddddddddddddddddddddddd"); let d ← Hmac.hmac k m; .ok (Hex.toHex d)) = .ok (s "773ea91e36800e46854db8ebd09181a72959098b3ef8c122d9635514ced565fe")
#guard (do let k ← Hex.seqFromHex (s "0102030405060708090a0b0c0d0e0f10111213141516171819"); let m ← Hex.seqFromHex (s "cdcdcdcdcdcdcdcdcdcdcdcdcdcdcdcdcdcdcdcdcdcdcdcdcdcdcdcdcdcdcdcdcdcdcdcdcdcdcdcdcdcdcdcdcdcdcdcdcdcd"); let d ← Hmac.hmac k m; .ok (Hex.toHex d)) = .ok (s "82558a389a443c0ea4cc819899f2083a85f0faa3e578f8077a2e3ff46729665b")
#guard (do let k ← Hex.seqFromHex (s "aaaaaaaaaaaaaaaaaaaaaaaaaaaaaaaaaaaaaaaaaaaaaaaaaaaaaaaaaaaaaaaaaaaaaaaaaaaaaaaaaaaaaaaaaaaaaaaaaaaaaaaaaaaaaaaaaaaaaaaaaaaaaaaaaaaaaaaaaaaaaaaaaaaaaaaaaaaaaaaaaaaaaaaaaaaaaaaaaaaaaaaaaaaaaaaaaaaaaaaaaaaaaaaaaaaaaaaaaaaaaaaaaaaaaaaaaaaaaaaaaaaaaaaaaaaaaaaaaaaaaa"); let m ← Hex.seqFromHex (s "54657374205573696e67204c6172676572205468616e20426c6f636b2d53697a65204b6579202d2048617368204b6579204669727374"); let d ← Hmac.hmac k m; .ok (Hex.toHex d)) = .ok (s "60e431591ee0b67f0d8a26aacbf5b77f8e0bc6213728c5140546040f0ee37f54")

/-! `test_hkdf.rs test_kat` -/

#guard (do let salt ← Hex.seqFromHex (s "000102030405060708090a0b0c"); let ikm ← Hex.seqFromHex (s "0b0b0b0b0b0b0b0b0b0b0b0b0b0b0b0b0b0b0b0b0b0b"); let prk ← Hkdf.extract salt ikm; .ok (Hex.toHex prk)) = .ok (s "077709362c2e32df0ddc3f0dc47bba6390b6c73bb50f9c3122ec844ad7c2b3e5")
#guard (do let prk ← Hex.seqFromHex (s "077709362c2e32df0ddc3f0dc47bba6390b6c73bb50f9c3122ec844ad7c2b3e5"); let info ← Hex.seqFromHex (s "f0f1f2f3f4f5f6f7f8f9"); let okm ← Hkdf.expand prk info 42; .ok (Hex.toHex okm)) = .ok (s "3cb25f25faacd57a90434f64d0362f2a2d2d0a90cf1a5a4c5db02d56ecc4c5bf34007208d5b887185865")
#guard (do let salt ← Hex.seqFromHex (s "606162636465666768696a6b6c6d6e6f707172737475767778797a7b7c7d7e7f808182838485868788898a8b8c8d8e8f909192939495969798999a9b9c9d9e9fa0a1a2a3a4a5a6a7a8a9aaabacadaeaf"); let ikm ← Hex.seqFromHex (s "000102030405060708090a0b0c0d0e0f101112131415161718191a1b1c1d1e1f202122232425262728292a2b2c2d2e2f303132333435363738393a3b3c3d3e3f404142434445464748494a4b4c4d4e4f"); let prk ← Hkdf.extract salt ikm; .ok (Hex.toHex prk)) = .ok (s "06a6b88c5853361a06104c9ceb35b45cef760014904671014a193f40c15fc244")
#guard (do let prk ← Hex.seqFromHex (s "06a6b88c5853361a06104c9ceb35b45cef760014904671014a193f40c15fc244"); let info ← Hex.seqFromHex (s "b0b1b2b3b4b5b6b7b8b9babbbcbdbebfc0c1c2c3c4c5c6c7c8c9cacbcccdcecfd0d1d2d3d4d5d6d7d8d9dadbdcdddedfe0e1e2e3e4e5e6e7e8e9eaebecedeeeff0f1f2f3f4f5f6f7f8f9fafbfcfdfeff"); let okm ← Hkdf.expand prk info 82; .ok (Hex.toHex okm)) = .ok (s "b11e398dc80327a1c8e7f78c596a49344f012eda2d4efad8a050cc4c19afa97c59045a99cac7827271cb41c65e590e09da3275600c2f09b8367793a9aca3db71cc30c58179ec3e87c14c01d5c1f3434f1d87")
#guard (do let salt ← Hex.seqFromHex (s ""); let ikm ← Hex.seqFromHex (s "0b0b0b0b0b0b0b0b0b0b0b0b0b0b0b0b0b0b0b0b0b0b"); let prk ← Hkdf.extract salt ikm; .ok (Hex.toHex prk)) = .ok (s "19ef24a32c717b167f33a91d6f648bdf96596776afdb6377ac434c1c293ccb04")
#guard (do let prk ← Hex.seqFromHex (s "19ef24a32c717b167f33a91d6f648bdf96596776afdb6377ac434c1c293ccb04"); let info ← Hex.seqFromHex (s ""); let okm ← Hkdf.expand prk info 42; .ok (Hex.toHex okm)) = .ok (s "8da4e775a563c18f715f802a063c5a31b8a11f5c5ee1879ec3454e5f3c738d2d9d201395faa4b61a96c8")

/-! `test_blake2b.rs` -/

#guard Blake2.blake2b (s "abc") = Hex.seqFromHex (s "ba80a53f981c4d0d6a2797b69f12f6e94c212f14685ac4b74b12bb6fdbffa2d17d87c5392aab792dc252d5de4533cc9518d38aa8dbf1925ab92386edd4009923")
#guard Blake2.blake2b (s "qwertzuiopasdfghjklyxcvbnm123456789qwertzuiopasdfghjklyxcvbnm123456789qwertzuiopasdfghjklyxcvbnm123456789qwertzuiopasdfghjklyxcvbnm123456789") = Hex.seqFromHex (s "5cc97c7f9ff2008b40126f373f4333fa348d9f5006b87357a6d86112a1a043954da2e28f01b2f955a932fb8a8d0a1787d0c6d962779cbc58bfdf89481c874696")
#guard Blake2.blake2b (s "qwertzuiopasdfghjklyxcvbnm123456789qwertzuiopasdfghjklyxcvbnm123456789qwertzuiopasdfghjklyxcvbnm123456789qwertzuiopasdfghjklyxcvbnm123456789qwertzuiopasdfghjklyxcvbnm123456789qwertzuiopasdfghjklyxcvbnm123456789qwertzuiopasdfghjklyxcvbnm123456789qwertzuiopasdfghjklyxcvbnm123456789") = Hex.seqFromHex (s "1f9ee65aa03605fc410e2f5596fdb59d85955e2437e70de4a0224ae1591f97035754f0ca92752f9e86eb824f9cf402177f76562646f407fd1f78db7b0d2443f0")

end Hacspec.Validation
