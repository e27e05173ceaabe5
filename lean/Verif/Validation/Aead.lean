import Verif.Model.Aes
import Verif.Model.ChaCha
import Verif.Model.Hex
import Verif.Validation.Text

/-!
# The tests of `spec-examples/tests` as tests of the model

Written by `tools/repo_tests.py`.  Tests of the fidelity of the model, not proofs of properties.
-/

namespace Hacspec.Validation

open SecretInt

/-! `test_gf128.rs test_gmac` -/

#guard (do let m ← Hex.seqFromHex (s "feedfacedeadbeeffeedfacedeadbeefabaddad20000000000000000000000005a8def2f0c9e53f1f75d7853659e2a20eeb2b22aafde6419a058ab4f6f746bf40fc0c3b780f244452da3ebf1c5d82cdea2418997200ef82e44ae7e3f"); let k ← Hex.arrFromHex 16 (s "acbef20579b4b8ebce889bac8732dad7"); Gf128.gmac m k) = Hex.arrFromHex 16 (s "cc9ae9175729a649936e890bd971a8bf")

/-! `test_poly1305.rs basic_test` -/

#guard (do let m ← Hex.seqFromHex (s "43727970746f6772617068696320466f72756d2052657365617263682047726f7570"); let k ← Hex.arrFromHex 32 (s "85d6be7857556d337f4452fe42d506a80103808afb0db2fd4abff6af4149f51b"); Poly1305.poly m k) = Hex.arrFromHex 16 (s "a8061dc1305136c6c22b8baf0c0127a9")

/-! `test_chacha20poly1305.rs kat` -/

#guard ChaChaPoly.encrypt (b "808182838485868788898a8b8c8d8e8f909192939495969798999a9b9c9d9e9f") (b "070000004041424344454647") (b "50515253c0c1c2c3c4c5c6c7") (b "4c616469657320616e642047656e746c656d656e206f662074686520636c617373206f66202739393a204966204920636f756c64206f6666657220796f75206f6e6c79206f6e652074697020666f7220746865206675747572652c2073756e73637265656e20776f756c642062652069742e") = .ok (b "d31a8d34648e60db7b86afbc53ef7ec2a4aded51296e08fea9e2b5a736ee62d63dbea45e8ca9671282fafb69da92728b1a71de0a9e060b2905d6a5b67ecd3b3692ddbd7f2d778b8c9803aee328091b58fab324e4fad675945585808b4831d7bc3ff4def08e4b7a9de576d26586cec64b6116", b "1ae10b594f09e26a7e902ecbd0600691")
#guard ChaChaPoly.decrypt (b "808182838485868788898a8b8c8d8e8f909192939495969798999a9b9c9d9e9f") (b "070000004041424344454647") (b "50515253c0c1c2c3c4c5c6c7") (b "d31a8d34648e60db7b86afbc53ef7ec2a4aded51296e08fea9e2b5a736ee62d63dbea45e8ca9671282fafb69da92728b1a71de0a9e060b2905d6a5b67ecd3b3692ddbd7f2d778b8c9803aee328091b58fab324e4fad675945585808b4831d7bc3ff4def08e4b7a9de576d26586cec64b6116") (b "1ae10b594f09e26a7e902ecbd0600691") = .ok (some (b "4c616469657320616e642047656e746c656d656e206f662074686520636c617373206f66202739393a204966204920636f756c64206f6666657220796f75206f6e6c79206f6e652074697020666f7220746865206675747572652c2073756e73637265656e20776f756c642062652069742e"))

/-! `test_chacha20.rs test_quarter_round` -/

#guard ChaCha.quarterRound 2 7 8 13 [0x879531e0, 0xc5ecf37d, 0x516461b1, 0xc9a62f8a, 0x44c20ef3, 0x3390af7f, 0xd9fc690b, 0x2a5f714c, 0x53372767, 0xb00a5631, 0x974c541a, 0x359e9963, 0x5c971061, 0x3d631689, 0x2098d9d6, 0x91dbd320] = .ok [0x879531e0, 0xc5ecf37d, 0xbdb886dc, 0xc9a62f8a, 0x44c20ef3, 0x3390af7f, 0xd9fc690b, 0xcfacafd2, 0xe46bea80, 0xb00a5631, 0x974c541a, 0x359e9963, 0x5c971061, 0xccc07c79, 0x2098d9d6, 0x91dbd320]

/-! `test_chacha20.rs test_block` -/

#guard ChaCha.blockInit (b "000102030405060708090a0b0c0d0e0f101112131415161718191a1b1c1d1e1f") 1 (b "000000090000004a00000000") = .ok [0x61707865, 0x3320646e, 0x79622d32, 0x6b206574, 0x03020100, 0x07060504, 0x0b0a0908, 0x0f0e0d0c, 0x13121110, 0x17161514, 0x1b1a1918, 0x1f1e1d1c, 0x00000001, 0x09000000, 0x4a000000, 0x00000000]
#guard ChaCha.blockInner (b "000102030405060708090a0b0c0d0e0f101112131415161718191a1b1c1d1e1f") 1 (b "000000090000004a00000000") = .ok [0xe4e7f110, 0x15593bd1, 0x1fdd0f50, 0xc47120a3, 0xc7f4d1c7, 0x0368c033, 0x9aaa2204, 0x4e6cd4c3, 0x466482d2, 0x09aa9f07, 0x05d7c214, 0xa2028bd9, 0xd19c12b5, 0xb94e16de, 0xe883d0cb, 0x4e3c50a2]
#guard ChaCha.stateToBytes [0xe4e7f110, 0x15593bd1, 0x1fdd0f50, 0xc47120a3, 0xc7f4d1c7, 0x0368c033, 0x9aaa2204, 0x4e6cd4c3, 0x466482d2, 0x09aa9f07, 0x05d7c214, 0xa2028bd9, 0xd19c12b5, 0xb94e16de, 0xe883d0cb, 0x4e3c50a2] = .ok (b "10f1e7e4d13b5915500fdd1fa32071c4c7d1f4c733c068030422aa9ac3d46c4ed2826446079faa0914c2d705d98b02a2b5129cd1de164eb9cbd083e8a2503c4e")

/-! `test_chacha20.rs test_kat` -/

#guard ChaCha.chacha (b "808182838485868788898a8b8c8d8e8f909192939495969798999a9b9c9d9e9f") (b "070000004041424344454647") (b "4c616469657320616e642047656e746c656d656e206f662074686520636c617373206f66202739393a204966204920636f756c64206f6666657220796f75206f6e6c79206f6e652074697020666f7220746865206675747572652c2073756e73637265656e20776f756c642062652069742e") = .ok (b "d31a8d34648e60db7b86afbc53ef7ec2a4aded51296e08fea9e2b5a736ee62d63dbea45e8ca9671282fafb69da92728b1a71de0a9e060b2905d6a5b67ecd3b3692ddbd7f2d778b8c9803aee328091b58fab324e4fad675945585808b4831d7bc3ff4def08e4b7a9de576d26586cec64b6116")
#guard ChaCha.chacha (b "808182838485868788898a8b8c8d8e8f909192939495969798999a9b9c9d9e9f") (b "070000004041424344454647") (b "d31a8d34648e60db7b86afbc53ef7ec2a4aded51296e08fea9e2b5a736ee62d63dbea45e8ca9671282fafb69da92728b1a71de0a9e060b2905d6a5b67ecd3b3692ddbd7f2d778b8c9803aee328091b58fab324e4fad675945585808b4831d7bc3ff4def08e4b7a9de576d26586cec64b6116") = .ok (b "4c616469657320616e642047656e746c656d656e206f662074686520636c617373206f66202739393a204966204920636f756c64206f6666657220796f75206f6e6c79206f6e652074697020666f7220746865206675747572652c2073756e73637265656e20776f756c642062652069742e")

/-! `test_aes.rs` -/

#guard Aes.encryptKey (b "2b7e151628aed2a6abf7158809cf4f3c") (b "f0f1f2f3f4f5f6f7f8f9fafb") 0xfcfdfeff (b "6bc1bee22e409f96e93d7e117393172a") .aes128 = .ok (b "874d6191b620e3261bef6864990db6ce")
#guard Aes.encryptKey (b "2b7e151628aed2a6abf7158809cf4f3c") (b "f0f1f2f3f4f5f6f7f8f9fafb") 0xfcfdfeff (b "874d6191b620e3261bef6864990db6ce") .aes128 = .ok (b "6bc1bee22e409f96e93d7e117393172a")
#guard Aes.encryptKey (b "7E24067817FAE0D743D6CE1F32539163") (b "006CB6DBC0543B59DA48D90B") 1 (b "000102030405060708090A0B0C0D0E0F101112131415161718191A1B1C1D1E1F") .aes128 = .ok (b "5104A106168A72D9790D41EE8EDAD388EB2E1EFC46DA57C8FCE630DF9141BE28")
#guard Aes.encryptKey (b "7E24067817FAE0D743D6CE1F32539163") (b "006CB6DBC0543B59DA48D90B") 1 (b "5104A106168A72D9790D41EE8EDAD388EB2E1EFC46DA57C8FCE630DF9141BE28") .aes128 = .ok (b "000102030405060708090A0B0C0D0E0F101112131415161718191A1B1C1D1E1F")
#guard Aes.encryptKey (b "603deb1015ca71be2b73aef0857d77811f352c073b6108d72d9810a30914dff4") (b "f0f1f2f3f4f5f6f7f8f9fafb") 0xfcfdfeff (b "6bc1bee22e409f96e93d7e117393172a") .aes256 = .ok (b "601ec313775789a5b7a7f504bbf3d228")
#guard Aes.encryptKey (b "603deb1015ca71be2b73aef0857d77811f352c073b6108d72d9810a30914dff4") (b "f0f1f2f3f4f5f6f7f8f9fafb") 0xfcfdfeff (b "601ec313775789a5b7a7f504bbf3d228") .aes256 = .ok (b "6bc1bee22e409f96e93d7e117393172a")

/-! `test_aesgcm.rs kat_test` -/

#guard AesGcm.encryptKey (b "00000000000000000000000000000000") (b "000000000000000000000000") (b "") (b "") .aes128 = .ok (b "", b "58e2fccefa7e3061367f1d57a4e7455a")
#guard AesGcm.decryptKey (b "00000000000000000000000000000000") (b "000000000000000000000000") (b "") (b "") (b "58e2fccefa7e3061367f1d57a4e7455a") .aes128 = .ok (some (b ""))
#guard AesGcm.encryptKey (b "00000000000000000000000000000000") (b "000000000000000000000000") (b "") (b "00000000000000000000000000000000") .aes128 = .ok (b "0388dace60b6a392f328c2b971b2fe78", b "ab6e47d42cec13bdf53a67b21257bddf")
#guard AesGcm.decryptKey (b "00000000000000000000000000000000") (b "000000000000000000000000") (b "") (b "0388dace60b6a392f328c2b971b2fe78") (b "ab6e47d42cec13bdf53a67b21257bddf") .aes128 = .ok (some (b "00000000000000000000000000000000"))
#guard AesGcm.encryptKey (b "feffe9928665731c6d6a8f9467308308") (b "cafebabefacedbaddecaf888") (b "") (b "d9313225f88406e5a55909c5aff5269a86a7a9531534f7da2e4c303d8a318a721c3c0c95956809532fcf0e2449a6b525b16aedf5aa0de657ba637b391aafd255") .aes128 = .ok (b "42831ec2217774244b7221b784d0d49ce3aa212f2c02a4e035c17e2329aca12e21d514b25466931c7d8f6a5aac84aa051ba30b396a0aac973d58e091473f5985", b "4d5c2af327cd64a62cf35abd2ba6fab4")
#guard AesGcm.decryptKey (b "feffe9928665731c6d6a8f9467308308") (b "cafebabefacedbaddecaf888") (b "") (b "42831ec2217774244b7221b784d0d49ce3aa212f2c02a4e035c17e2329aca12e21d514b25466931c7d8f6a5aac84aa051ba30b396a0aac973d58e091473f5985") (b "4d5c2af327cd64a62cf35abd2ba6fab4") .aes128 = .ok (some (b "d9313225f88406e5a55909c5aff5269a86a7a9531534f7da2e4c303d8a318a721c3c0c95956809532fcf0e2449a6b525b16aedf5aa0de657ba637b391aafd255"))
#guard AesGcm.encryptKey (b "feffe9928665731c6d6a8f9467308308") (b "cafebabefacedbaddecaf888") (b "feedfacedeadbeeffeedfacedeadbeefabaddad2") (b "d9313225f88406e5a55909c5aff5269a86a7a9531534f7da2e4c303d8a318a721c3c0c95956809532fcf0e2449a6b525b16aedf5aa0de657ba637b39") .aes128 = .ok (b "42831ec2217774244b7221b784d0d49ce3aa212f2c02a4e035c17e2329aca12e21d514b25466931c7d8f6a5aac84aa051ba30b396a0aac973d58e091", b "5bc94fbc3221a5db94fae95ae7121a47")
#guard AesGcm.decryptKey (b "feffe9928665731c6d6a8f9467308308") (b "cafebabefacedbaddecaf888") (b "feedfacedeadbeeffeedfacedeadbeefabaddad2") (b "42831ec2217774244b7221b784d0d49ce3aa212f2c02a4e035c17e2329aca12e21d514b25466931c7d8f6a5aac84aa051ba30b396a0aac973d58e091") (b "5bc94fbc3221a5db94fae95ae7121a47") .aes128 = .ok (some (b "d9313225f88406e5a55909c5aff5269a86a7a9531534f7da2e4c303d8a318a721c3c0c95956809532fcf0e2449a6b525b16aedf5aa0de657ba637b39"))
#guard AesGcm.encryptKey (b "E3C08A8F06C6E3AD95A70557B23F75483CE33021A9C72B7025666204C69C0B72") (b "12153524C0895E81B2C28465") (b "D609B1F056637A0D46DF998D88E5222AB2C2846512153524C0895E8108000F101112131415161718191A1B1C1D1E1F202122232425262728292A2B2C2D2E2F30313233340001") (b "") .aes256 = .ok (b "", b "2F0BC5AF409E06D609EA8B7D0FA5EA50")
#guard AesGcm.decryptKey (b "E3C08A8F06C6E3AD95A70557B23F75483CE33021A9C72B7025666204C69C0B72") (b "12153524C0895E81B2C28465") (b "D609B1F056637A0D46DF998D88E5222AB2C2846512153524C0895E8108000F101112131415161718191A1B1C1D1E1F202122232425262728292A2B2C2D2E2F30313233340001") (b "") (b "2F0BC5AF409E06D609EA8B7D0FA5EA50") .aes256 = .ok (some (b ""))
#guard AesGcm.encryptKey (b "E3C08A8F06C6E3AD95A70557B23F75483CE33021A9C72B7025666204C69C0B72") (b "12153524C0895E81B2C28465") (b "D609B1F056637A0D46DF998D88E52E00B2C2846512153524C0895E81") (b "08000F101112131415161718191A1B1C1D1E1F202122232425262728292A2B2C2D2E2F303132333435363738393A0002") .aes256 = .ok (b "E2006EB42F5277022D9B19925BC419D7A592666C925FE2EF718EB4E308EFEAA7C5273B394118860A5BE2A97F56AB7836", b "5CA597CDBB3EDB8D1A1151EA0AF7B436")
#guard AesGcm.decryptKey (b "E3C08A8F06C6E3AD95A70557B23F75483CE33021A9C72B7025666204C69C0B72") (b "12153524C0895E81B2C28465") (b "D609B1F056637A0D46DF998D88E52E00B2C2846512153524C0895E81") (b "E2006EB42F5277022D9B19925BC419D7A592666C925FE2EF718EB4E308EFEAA7C5273B394118860A5BE2A97F56AB7836") (b "5CA597CDBB3EDB8D1A1151EA0AF7B436") .aes256 = .ok (some (b "08000F101112131415161718191A1B1C1D1E1F202122232425262728292A2B2C2D2E2F303132333435363738393A0002"))

end Hacspec.Validation
