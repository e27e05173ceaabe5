{
 "C09": {
  "status": "partial",
  "note": "Holds for unsigned types; refuted for every signed type and relation (mask is 0x7F..F)."
 },
 "C11": {
  "status": "partial",
  "note": "Proved for all moduli n > 1 whose square fits the type (public/secret, signed/unsigned) and x > 0; for public integers results are right for every modulus (inverse or panic). Refuted beyond: overflow panic, silently wrong secret result, divergence, and x = 0 returning 0."
 },
 "C04": {
  "note": "Trait rotations proved for unsigned types of every power-of-two width; refuted for signed types."
 },
 "C08": {
  "note": "Proved for all unsigned widths 2..128 bits; signed counterexample recorded."
 },
 "C17": {
  "status": "partial",
  "note": "Round trip, injectivity, decoding of digit pairs, odd-length panic proved for all strings; 'rejects every non-hex character' refuted by \"+f\"; exact set of accepted strings proved."
 },
 "C19": {
  "status": "partial",
  "note": "The implemented array operators and PublicSeq + - * proved element-wise; refuted for the unimplemented array operators (always panic), for PublicSeq ^ (always empty) and for the documented polynomial meaning of PublicSeq *."
 },
 "C20": {
  "status": "partial",
  "note": "Conversion exact/faithful on the accepted range for every width, invariant over all API histories; refuted at the top: max() = 2^bits-1 is always rejected."
 },
 "C22": {
  "note": "All codecs proved for every width; the signed from_hex with the accepted sign \"\" reads every string as 0 (refutation recorded)."
 },
 "C23": {
  "status": "partial",
  "note": "Non-negative literals proved; every negative literal refuted (panics or becomes x+2^128)."
 },
 "C24": {
  "status": "partial",
  "note": "Invariant < n over all API histories that do not use the modulus itself as literal; <= n in general; refuted for from_literal(n)."
 },
 "C27": {
  "status": "partial",
  "note": "Floor division proved; field division refuted for every odd modulus > 2."
 },
 "C28": {
  "note": "add/sub/mul over Z_n for all four integer families and every width 2..128; poly_mul with n = 0 panics (refutation recorded); plain multiplication over Z proved under an explicit size bound."
 },
 "C29": {
  "status": "partial",
  "note": "Quotient/remainder and uniqueness proved for reduced operands, invertible leading coefficient and n^2 representable, if the products formed by the code fit (always for a monic divisor, or when n^3 is representable); refuted without that condition (panic at 8 bits, n = 13). Panics for zero divisor and non-invertible leading coefficient proved; refuted for n = 0."
 },
 "C59": {
  "status": "partial",
  "note": "+, - proved; * proved for every monic modulus with n^2 representable; general *, / under the condition of C29; from_vec proved below degree l and refuted at degree l."
 },
 "C31": {
  "status": "partial",
  "note": "Equal to FIPS 180-4 SHA-256 for all lengths below 2^61 that are not multiples of 64; for multiples of 64 the unpadded iteration is proved and the claim refuted (empty message, one block)."
 },
 "C32": {
  "status": "partial",
  "note": "Refuted: every message not a whole number of blocks collides with its padded form. Injectivity of the FIPS padding itself proved."
 },
 "C33": {
  "status": "proved",
  "note": "RFC 2104 over the hash used for all keys/messages; equals HMAC-SHA-256 when no hashed string is a multiple of 64 bytes; refuted otherwise; key-independent collisions shown."
 },
 "C34": {
  "status": "partial",
  "note": "extract for all inputs, expand for all l <= 8128 (length, prefix); lengths 8129..8160 refuted (panic)."
 },
 "C38": {
  "status": "partial",
  "note": "The code's exact result is proved for all inputs; it equals the RFC 8439 tag iff accumulator + s < 2^130-5 (proved as an iff). The unrestricted claim is false: C38_refuted."
 },
 "C39": {
  "status": "proved",
  "note": "Round trip, rejection of every other tag, lengths and panic freedom for all inputs below 2^63 bytes; the tag is the code's Poly1305 (see C38)."
 },
 "C40": {
  "status": "proved",
  "note": "Both AEADs, lengths below 2^61."
 },
 "C42": {
  "note": "Both key sizes; refinement of key expansion and cipher, and bijectivity by the FIPS-197 inverse cipher."
 },
 "C43": {
  "note": "All messages below 2^63 bytes."
 },
 "C44": {
  "note": "fmul/fadd against polynomials over ZMod 2 modulo P; ring laws; gmac = GHASH for all texts."
 },
 "C45": {
  "note": "All messages below 2^63 bytes (a Rust Vec cannot be longer); tag argument of 16 bytes (its type)."
 },
 "C46": {
  "status": "partial",
  "note": "Equal to RFC 7693 BLAKE2b-512 for all lengths that are not multiples of 128 (below 2^63); for multiples of 128 the exact value computed (last block not marked final) is proved and the claim refuted on the empty message and one block."
 },
 "C47": {
  "status": "partial",
  "note": "The claim is false: the generic code at 32-bit words panics for every input and every variant. Proved as a refutation for all inputs."
 },
 "C49": {
  "note": "All messages below 2^63 bytes (a Rust Vec cannot be longer); bit-level specification of FIPS 202."
 },
 "C48": {
  "note": "Bit-level specification; the permutation property is proved by inverting theta on column parities (L^192 = id) and injectivity of the other steps."
 },
 "C53": {
  "status": "partial",
  "note": "The claim is false: secret_to_public panics for every scalar (base point literal of one byte). Proved as a refutation for all inputs."
 },
 "C64": {
  "status": "partial",
  "note": "Holds for unsigned and signed public arrays; refuted for signed secret arrays, whose cmp is unimplemented!()."
 },
 "C65": {
  "status": "partial",
  "note": "Holds for modular integers, unsigned arrays and PublicSeq; refuted for bounded integers (they panic whenever the result is not representable) and for signed arrays (unimplemented!())."
 },
 "C74": {
  "status": "partial",
  "note": "The claim is false for blake2b and sha256::hash on messages of full blocks (missing final flag, missing padding): an explicit extension function is proved correct for all messages. What remains proved is the persistence of collisions."
 },
 "C77": {
  "status": "partial",
  "note": "The claim is false: no call rejects a long message and the 32-bit counter wraps. Refuted for both AEADs with the consequences (repeated key stream, exposed tag mask, forgeries); proved for AES-GCM within the limit of the standard."
 },
 "C78": {
  "status": "partial",
  "note": "The claim is false: every word receives one byte of the string. The exact behaviour is proved, and refutations for words above 255 and for the hexadecimal form of the bytes."
 },
 "C79": {
  "status": "partial",
  "note": "Proved for prime moduli, and soundness of results for all moduli; refuted for composite moduli, where an inverse may exist although an error is returned or the call panics."
 },
 "C80": {
  "status": "partial",
  "note": "Proved for SHA-256 messages of one length or whose last block is not full, for HMAC on the same terms, and for BLAKE2b of non-empty messages. Refuted in general (padding pairs of SHA-256); all collisions of SHA-256 and those of BLAKE2b with the empty message are classified."
 },
 "C81": {
  "status": "partial",
  "note": "The claim is false: refuted for AES-GCM for all pairs of keys with different hash subkeys and for ChaCha20-Poly1305 with a witness."
 },
 "C82": {
  "status": "partial",
  "note": "The first part is proved for both AEADs. The second part is false: all tags of a third ciphertext are among a computable list whose length is bounded by the number of blocks, for every key."
 },
 "C84": {
  "status": "partial",
  "note": "The texts are proved to be the numerals of the values, for all types, and to determine them. Therefore the last part is false: printing reveals secrets."
 },
 "C90": {
  "status": "partial",
  "note": "The claim is false; refuted for AES, AES-CTR, AES-GCM, fmul, gmac, X25519, P-256, Poly1305 and ChaCha20-Poly1305. The _partial theorems say exactly what the events of AES-CTR under one key, of Poly1305 and of the AEAD depend on. Not visible in the model: the duration of arithmetic (including num-bigint) and of the comparison of tags."
 },
 "C91": {
  "status": "partial",
  "note": "Proved for ct_div, poly_add, poly_mul_plain and poly_mul_op_scanning; refuted for sub_mod, inv, leading_coefficient and poly_mul (C91_*_refuted), with exact descriptions of the events."
 },
 "C92": {
  "status": "partial",
  "note": "The claim is false for sub_mod, inv, signed_mod and pow (C92_*_refuted, exact numbers of iterations). The _partial theorems give the bounds that hold: reduced operands, positive modulus, main loop of inv."
 },
 "C93": {
  "status": "partial",
  "note": "The claim holds for machine integers (C93_machine*: the generic functions are those of C30-C34) and is false for all other implementations (C93_*_refuted). The _partial theorems prove it for poly_mul_plain over modular integers and arrays of unsigned integers."
 },
 "C97": {
  "status": "partial",
  "note": "The bounds on forgeries (C97_forgery, C97_aead_forgery, C97_gcm_forgery) and the uniformity of GMAC tags hold. Uniformity of Poly1305 tags is false (C97_tag_uniform_refuted); C97_tag_count_partial bounds every tag by twice the average."
 },
 "C101": {
  "status": "partial",
  "note": "False: the release build returns values where the debug build panics (C101_num_chunks_refuted, C101_get_chunk_refuted, C101_arr_from_vec, C101_set_chunk, C101_arr_from_hex). The theorems give the exact result of every function for all arguments; C101_update_sub_builds characterises agreement of update_sub."
 },
 "C104": {
  "status": "partial",
  "note": "False: the release build returns wrong residues or does not return (C104_mod_refuted, C104_inverse_refuted, C104_signed_negative_refuted). The theorems give the exact result for all arguments, characterise when add_mod and mul_mod are right, and prove the claim for powers of two and for signed types up to 64 bits."
 },
 "C105": {
  "status": "partial",
  "note": "False: the release build returns values for these arguments (C105_get_bit, C105_set_bit_outside, C105_extended_euclid_refuted, C105_pub_seq). The theorems give the exact result for all arguments."
 },
 "C138": {
  "status": "partial",
  "note": "Hiding is proved. Binding is proved for keys of one length and messages that are all whole blocks, or none of which is; for messages of both kinds it is refuted (C138_mixed_refuted), because the hash function does not pad whole blocks."
 }
}