import Verif.Model.Fips202
import Verif.Model.Hex
import Verif.Validation.Text

/-!
# The tests of `spec-examples/tests` as tests of the model

Written by `tools/repo_tests.py`.  Tests of the fidelity of the model, not proofs of properties.
-/

namespace Hacspec.Validation

open SecretInt

/-! `test_fips202.rs test_sha3224` -/

#guard Fips202.sha3224 (s "qwertzuiopasdfghjklyxcvbnm123456789qwertzuiopasdfghjklyxcvbnm123456789qwertzuiopasdfghjklyxcvbnm123456789qwertzuiopasdfghjklyxcvbnm123456789") = Hex.seqFromHex (s "fbbffbcb8a3e5b13b42f51699d0f64e84e271be3fcad11d6d71966cf")
#guard Fips202.sha3224 (s "qwertzuiopasdfghjklyxcvbnm123456789qwertzuiopasdfghjklyxcvbnm123456789qwertzuiopasdfghjklyxcvbnm123456789qwertzuiopasdfghjklyxcvbnm123456789qwertzuiopasdfghjklyxcvbnm123456789qwertzuiopasdfghjklyxcvbnm123456789qwertzuiopasdfghjklyxcvbnm123456789qwertzuiopasdfghjklyxcvbnm123456789") = Hex.seqFromHex (s "f2744ee238af95d37d893f6953fa258e72d3136111772824f9436076")

/-! `test_fips202.rs test_sha3256` -/

#guard Fips202.sha3256 (s "qwertzuiopasdfghjklyxcvbnm123456789qwertzuiopasdfghjklyxcvbnm123456789qwertzuiopasdfghjklyxcvbnm123456789qwertzuiopasdfghjklyxcvbnm123456789") = Hex.seqFromHex (s "2e62a5f15b882f43141abdcc81f50a7abce78c5784d92edc22aface93d7ad96d")
#guard Fips202.sha3256 (s "qwertzuiopasdfghjklyxcvbnm123456789qwertzuiopasdfghjklyxcvbnm123456789qwertzuiopasdfghjklyxcvbnm123456789qwertzuiopasdfghjklyxcvbnm123456789qwertzuiopasdfghjklyxcvbnm123456789qwertzuiopasdfghjklyxcvbnm123456789qwertzuiopasdfghjklyxcvbnm123456789qwertzuiopasdfghjklyxcvbnm123456789") = Hex.seqFromHex (s "78a0a98bf524f6dbeacddafd302e529abe4b41bf287b1547fb8df68a13e2253f")

/-! `test_fips202.rs test_sha3384` -/

#guard Fips202.sha3384 (s "qwertzuiopasdfghjklyxcvbnm123456789qwertzuiopasdfghjklyxcvbnm123456789qwertzuiopasdfghjklyxcvbnm123456789qwertzuiopasdfghjklyxcvbnm123456789") = Hex.seqFromHex (s "390007fcd0e4001dd0a17dfc21ccbbcd8c4715a8c282ae1085515da6eaa5d2331ffef90368b52b9364dc5dd75b5b3381")
#guard Fips202.sha3384 (s "qwertzuiopasdfghjklyxcvbnm123456789qwertzuiopasdfghjklyxcvbnm123456789qwertzuiopasdfghjklyxcvbnm123456789qwertzuiopasdfghjklyxcvbnm123456789qwertzuiopasdfghjklyxcvbnm123456789qwertzuiopasdfghjklyxcvbnm123456789qwertzuiopasdfghjklyxcvbnm123456789qwertzuiopasdfghjklyxcvbnm123456789") = Hex.seqFromHex (s "3b8dd350bf8d2b2fd59c8410d8dd43a7e5aee0f9910bd5cc3ccc82dd304347090265074f794aa53161d74034255ed930")

/-! `test_fips202.rs test_sha3512` -/

#guard Fips202.sha3512 (s "qwertzuiopasdfghjklyxcvbnm123456789qwertzuiopasdfghjklyxcvbnm123456789qwertzuiopasdfghjklyxcvbnm123456789qwertzuiopasdfghjklyxcvbnm123456789") = Hex.seqFromHex (s "1b1241e1cb22ea623f8ee4838788c13a3dc65c3698d37585f3dfe2973b3829f340aeb3880ee80f1407ec8ee5b9358d76a3bd0da3e29368a81edac6415e428a4d")
#guard Fips202.sha3512 (s "qwertzuiopasdfghjklyxcvbnm123456789qwertzuiopasdfghjklyxcvbnm123456789qwertzuiopasdfghjklyxcvbnm123456789qwertzuiopasdfghjklyxcvbnm123456789qwertzuiopasdfghjklyxcvbnm123456789qwertzuiopasdfghjklyxcvbnm123456789qwertzuiopasdfghjklyxcvbnm123456789qwertzuiopasdfghjklyxcvbnm123456789") = Hex.seqFromHex (s "6fce241a0015fc0bcb7628235d412c456c79158ed06679fd5ee1b487eb7df7e9515084b68028f33bed4a0e1f35eaabd0f738a81bef8e51b36070632bf47b08b8")

/-! `test_fips202.rs test_shake128` -/

#guard Fips202.shake128 (s "qwertzuiopasdfghjklyxcvbnm123456789qwertzuiopasdfghjklyxcvbnm123456789qwertzuiopasdfghjklyxcvbnm123456789qwertzuiopasdfghjklyxcvbnm123456789") 168 = Hex.seqFromHex (s "98761aab5c788e67a59a3c2eb9252d14037faea0ffc7f8e4b1abc690442d96288ec52849b217c32eafd6e563d13550bb2f4ac652cc88d155a6bceefc89656172a9166936b608a55f1811a5f4b4d5a1285d5913144cc453d1a79f2312a6405aff05acdeb9d17d60dc8959914edb0ec9b09ddf5c8739415721f997d6ec12dd15e77a0f854a97bc16b313eea381a632f8fa9224d4ad70a5a0b029472a56fac43c9bf379954a4a0ffbe1")
#guard Fips202.shake128 (s "qwertzuiopasdfghjklyxcvbnm123456789qwertzuiopasdfghjklyxcvbnm123456789qwertzuiopasdfghjklyxcvbnm123456789qwertzuiopasdfghjklyxcvbnm123456789") 400 = Hex.seqFromHex (s "98761aab5c788e67a59a3c2eb9252d14037faea0ffc7f8e4b1abc690442d96288ec52849b217c32eafd6e563d13550bb2f4ac652cc88d155a6bceefc89656172a9166936b608a55f1811a5f4b4d5a1285d5913144cc453d1a79f2312a6405aff05acdeb9d17d60dc8959914edb0ec9b09ddf5c8739415721f997d6ec12dd15e77a0f854a97bc16b313eea381a632f8fa9224d4ad70a5a0b029472a56fac43c9bf379954a4a0ffbe14590d49fbe55473b0af334e4d9b3a7701f53b0cd884ba11da2b3fec13e97bee919c7944b05e5244d6fc1547130b3f19b47342ce6606d3fcf5ded1cc8f6081d9ad3553d63ddf84e75a081f59ec2cee02c3f6e3e9a44cff88f94e923e635e13e2900dcc1817dc7f65a8d29d11058266833dd10db6844049ac36bbe89e381b2f977f178dbdbf28f97fbb9f97090b6374f92150aa5c962faf0e5b0008e2ba714f2e291d137cfbc78826e717f49d79f513f2e49eb2b4887f8ff861af2a9c95e52d35518d7d9723463297f3a44e185358b8daf16b59d6afd67804e7efc1fe580234ed0dd945565b6bf4e32")
#guard Fips202.shake128 (s "qwertzuiopasdfghjklyxcvbnm123456789qwertzuiopasdfghjklyxcvbnm123456789qwertzuiopasdfghjklyxcvbnm123456789qwertzuiopasdfghjklyxcvbnm123456789qwertzuiopasdfghjklyxcvbnm123456789qwertzuiopasdfghjklyxcvbnm123456789qwertzuiopasdfghjklyxcvbnm123456789qwertzuiopasdfghjklyxcvbnm123456789") 168 = Hex.seqFromHex (s "20d141bbfcb3ce24786c398fd4e3065e81059456c8d4d650c346e411152f4c02a8ff4a5dc84ab39705d954df669a67f708f716a5b17f5bddd0975c69c34c97f1fb77ac13dd755031bb7368717e3b7593fb30da166a7d80fedb0e27950506908d5542911d1111516a574083a4e9e1aad97d823f2886585ee8bc71ae2557a9c5f15b13d6790bc7ee6fbbe3d8742acb726aaae242f91c307b2ca17e1a271c9c6aa1d09b5956aafbd6af")
#guard Fips202.shake128 (s "qwertzuiopasdfghjklyxcvbnm123456789qwertzuiopasdfghjklyxcvbnm123456789qwertzuiopasdfghjklyxcvbnm123456789qwertzuiopasdfghjklyxcvbnm123456789qwertzuiopasdfghjklyxcvbnm123456789qwertzuiopasdfghjklyxcvbnm123456789qwertzuiopasdfghjklyxcvbnm123456789qwertzuiopasdfghjklyxcvbnm123456789") 400 = Hex.seqFromHex (s "20d141bbfcb3ce24786c398fd4e3065e81059456c8d4d650c346e411152f4c02a8ff4a5dc84ab39705d954df669a67f708f716a5b17f5bddd0975c69c34c97f1fb77ac13dd755031bb7368717e3b7593fb30da166a7d80fedb0e27950506908d5542911d1111516a574083a4e9e1aad97d823f2886585ee8bc71ae2557a9c5f15b13d6790bc7ee6fbbe3d8742acb726aaae242f91c307b2ca17e1a271c9c6aa1d09b5956aafbd6af962e1ae05a3fcf5b98404cba18337d446029246507c21ac912140fdfc190f6edc4781df79f00a76ac7d74c89d93e7aafca55033188482eae89d70566cc0a409f199b60b71aa3a5158c330678386ecc11d5d190d5fe588b9298ec25619911520971ad0f6776999e61d3cca252db7865f2a7f11ef0f7edbf763c4781024d30dd37c42bd002f53fae63d3af66419b3b9bb9ae79dc2558260fb05110c056b9e7f3aabb73bb348275c87d50d1b3a6b3c196ea7cb366710355b8ec5d99e83fa179f0c869177464da60e90c0df30b608daeab17aacacaf04e2e1e87f68ab9b7d311c1643a92cbc859f97abc")

/-! `test_fips202.rs test_shake256` -/

#guard Fips202.shake256 (s "qwertzuiopasdfghjklyxcvbnm123456789qwertzuiopasdfghjklyxcvbnm123456789qwertzuiopasdfghjklyxcvbnm123456789qwertzuiopasdfghjklyxcvbnm123456789") 136 = Hex.seqFromHex (s "db3d93d7a4e80cc3ba50d2585b54b82541cfc345be68b0964a657ce8b3fd68e01c2b24c624fbd9df88929b50b5ecc217c36afd29dfa345ba83bd6a0749f0520f349cd6c20953cc7a4f27348dfc688a1ccbfc5a6fc1b78f74b1024e8932420a363d8b4795d707362a2c31b4b68f691f624f328542b172b1289b26f8b6240c0c18584ec772588cc68a")
#guard Fips202.shake256 (s "qwertzuiopasdfghjklyxcvbnm123456789qwertzuiopasdfghjklyxcvbnm123456789qwertzuiopasdfghjklyxcvbnm123456789qwertzuiopasdfghjklyxcvbnm123456789") 400 = Hex.seqFromHex (s "db3d93d7a4e80cc3ba50d2585b54b82541cfc345be68b0964a657ce8b3fd68e01c2b24c624fbd9df88929b50b5ecc217c36afd29dfa345ba83bd6a0749f0520f349cd6c20953cc7a4f27348dfc688a1ccbfc5a6fc1b78f74b1024e8932420a363d8b4795d707362a2c31b4b68f691f624f328542b172b1289b26f8b6240c0c18584ec772588cc68ad7a96dd8729c6aa02955d83e7bc02c79495925186c289801a6665d6151e1ad618c7c76d16d886f1e47ad460f6234dd7c551dc79a415bad9959d2d4883541e667be6a83cb919a71cb48d88978d7c0b4b7e7e1f0d703b277f50a62eeb58f6756ce800ff988edf8de8cb7e2cc28452113e70c3655607f9d6594c1ac890e6cf0c7d3b9bcf889e88ad5ad3cdef15621e30143b73d9bb6355a13b91a8403b61c185de9c5655ae077dcf34da0ef5f239216bba79ac85ae969745386ea6c86fc3516153be4f2ee01e46cce0964953216ff7c59bf8060ad544c566bfaa90d619df5325d130c59fa416ce8a3580d988969eb0fbd046f91cb710ac80a86e4e33c50faeaef25cc3d10cfdb684634")
#guard Fips202.shake256 (s "qwertzuiopasdfghjklyxcvbnm123456789qwertzuiopasdfghjklyxcvbnm123456789qwertzuiopasdfghjklyxcvbnm123456789qwertzuiopasdfghjklyxcvbnm123456789qwertzuiopasdfghjklyxcvbnm123456789qwertzuiopasdfghjklyxcvbnm123456789qwertzuiopasdfghjklyxcvbnm123456789qwertzuiopasdfghjklyxcvbnm123456789") 136 = Hex.seqFromHex (s "3818a3345d865c9b72005b87454f9c71ac2625447ccaed978dda8512dc35a06d9d1acceb1e9aa3dd5aeed42ea2959cde186fa18de4664a2c606fa7b6169aa55ce3aaced73878a72a1dcc7abfdc4e46d068993a23f15c234c610c068ca2e04ab6a5ac2852074fea3cea5a302f20e156cd29f75968d80ce9248242d681fbe0acb26b81412a90b4f366")
#guard Fips202.shake256 (s "qwertzuiopasdfghjklyxcvbnm123456789qwertzuiopasdfghjklyxcvbnm123456789qwertzuiopasdfghjklyxcvbnm123456789qwertzuiopasdfghjklyxcvbnm123456789qwertzuiopasdfghjklyxcvbnm123456789qwertzuiopasdfghjklyxcvbnm123456789qwertzuiopasdfghjklyxcvbnm123456789qwertzuiopasdfghjklyxcvbnm123456789") 400 = Hex.seqFromHex (s "3818a3345d865c9b72005b87454f9c71ac2625447ccaed978dda8512dc35a06d9d1acceb1e9aa3dd5aeed42ea2959cde186fa18de4664a2c606fa7b6169aa55ce3aaced73878a72a1dcc7abfdc4e46d068993a23f15c234c610c068ca2e04ab6a5ac2852074fea3cea5a302f20e156cd29f75968d80ce9248242d681fbe0acb26b81412a90b4f3662f58d3dc1aa1a539da2ac6d1fb4511d9cd48fe62b4f0792ebc6b4a008c56ef1cf62f495b35b146cb8a811b8e19fa17d2af2f084b6dfd319f01e230e1b233e0f63f97ad9b5aca82c8a2882bd54d08566cacba8f59aa4ca34792e891c37b72a67e2dbb74171b8f7853f84bc4315238506fd3db538c46582530d854cea5c3c9be5311a4554e3a5c345de7e3001826a09914ada2188dd83ceab960a529bf8d846753f4b267f3a16e005b43c40f7b71e75caf9c00dd18d3338551a0b231ed06702c19fc68c1e7f8e10d00c35a22291afc0a0434db078e47967695e1c901115da285fbbaf8949937ed4ef365fc7dba678f4f6ec76577156698e2c90b594dc760537a6f22bd1eefed7b73be")

end Hacspec.Validation
