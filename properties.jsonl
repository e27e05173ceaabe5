{"id": "C01", "title": "Secret comparisons return the right mask", "statement": "For unsigned secret integers of any width, comp_eq, comp_ne, comp_gt, comp_gte, comp_lt and comp_lte return the all-ones word when the stated relation holds between the two values and the zero word otherwise; they never panic.", "quantifier": "all pairs of values of every unsigned width (8, 16, 32, 64, 128 and in fact every positive width)", "why_tests_cant": "The 64-bit and 128-bit comparisons have 2^128 and 2^256 input pairs; the constant-time formula depends on carry patterns that sampling misses.", "anchors": ["secret-integers/src/lib.rs: comp_eq, comp_ne, comp_gte, comp_gt, comp_lte, comp_lt"]}
{"id": "C02", "title": "Secret arithmetic is exact modular arithmetic", "statement": "+, -, * on secret integers compute the ring operations of Z/2^bits (and, on signed types, the two's complement representative of the exact integer result), negation is the additive inverse, and the checked additions, subtractions and multiplications return the exact integer result or panic exactly when that result does not fit.", "quantifier": "all operand pairs of every width, signed and unsigned", "why_tests_cant": "Exhausting pairs is infeasible beyond 16 bits; wrap boundaries differ for each operation.", "anchors": ["secret-integers/src/lib.rs: Add, Sub, Mul, Neg, add/sub/mul checked_*"]}
{"id": "C03", "title": "Byte serialisation of integer slices round-trips and is positional", "statement": "to_le_bytes/to_be_bytes followed by from_le_bytes/from_be_bytes gives back the same integers, and from_* followed by to_* gives back the same bytes whenever the byte count is a multiple of the word size; from_* panics exactly when it is not. Each little-endian word is the base-256 positional value of its bytes and big-endian words are byte-reversed.", "quantifier": "all integer sequences, all byte sequences, every word size", "why_tests_cant": "The length and the contents are unbounded.", "anchors": ["secret-integers/src/lib.rs: to_le_bytes, to_be_bytes, from_le_bytes, from_be_bytes", "hacspec/src/transmute.rs"]}
{"id": "C04", "title": "Rotations permute bits and invert each other", "statement": "rotate_left(n) moves bit i to bit (i+n) mod bits, rotate_right(n) undoes it, and the portable trait versions on unsigned types agree with the native ones for every n < bits and panic for n >= bits.", "quantifier": "all words, all rotation counts, every power-of-two width", "why_tests_cant": "A rotation by 0 or by bits-1 is the classical corner case; the pair (word, amount) space is not enumerable for 64/128 bits.", "anchors": ["secret-integers/src/lib.rs: rotate_left, rotate_right", "hacspec/src/traits.rs: rotate_left, rotate_right"]}
{"id": "C05", "title": "Integer casts preserve value or truncate", "statement": "Widening a secret integer preserves its (signed or unsigned) value, narrowing reduces it modulo 2^bits of the target, and signed/unsigned casts of the same width are mutually inverse bijections; classify/declassify never change a value.", "quantifier": "all values, all pairs of widths", "why_tests_cant": "Values of the wide types cannot be enumerated.", "anchors": ["secret-integers/src/lib.rs: casts", "secret-integers/src/lib.rs: classify, declassify"]}
{"id": "C06", "title": "Single-bit access has exact frame behaviour", "statement": "get_bit(i) returns bit i; set_bit(b,i) changes bit i to b and no other bit; set(pos,y,yi) copies bit yi of y into bit pos and changes nothing else. They panic exactly when the index is not smaller than the width or b is not 0/1.", "quantifier": "all words, all indices, all bit values", "why_tests_cant": "Frame conditions (every other bit unchanged) quantify over all positions and all words.", "anchors": ["hacspec/src/traits.rs: get_bit, set_bit, set"]}
{"id": "C07", "title": "Constant-time selection helpers", "statement": "cswap swaps its arguments exactly when the condition word is all ones and is the identity when it is zero; cswap_bit, cset_bit, cadd, csub, cmul likewise select between the two documented outcomes for every operand value.", "quantifier": "all operand pairs and both condition values, every width", "why_tests_cant": "Operand space of the 64/128 bit types cannot be enumerated.", "anchors": ["hacspec/src/math_util.rs: cswap_bit, cswap, cset_bit, cadd, csub, cmul"]}
{"id": "C08", "title": "Constant-time division is Euclidean division", "statement": "ct_div(a,d) on unsigned integers terminates without panicking and returns q,r with a = q*d + r and r < d for every d > 0; for d = 0 it returns (all ones, a).", "quantifier": "all dividends and divisors of every width", "why_tests_cant": "The bit-serial loop has an invariant over all prefixes of a; overflow of the internal shifted remainder has to be excluded for all inputs.", "anchors": ["hacspec/src/math_util.rs: ct_div", "hacspec/src/machine_integers.rs: greater_than_or_equal_bm"]}
{"id": "C09", "title": "Public comparison masks are 0x0..0 or 0xF..F", "statement": "The *_bm comparisons on public integers return the mask 0xF..F when the relation holds and 0x0..0 otherwise, as documented. (True for unsigned types; refuted for signed types, whose 'true' mask has a clear sign bit.)", "quantifier": "all operand pairs of unsigned types; a witness for signed types", "why_tests_cant": "Universal over operands, and the signed failure is invisible to tests that only compare masks with themselves.", "anchors": ["hacspec/src/machine_integers.rs: equal_bm, greater_than_bm, ...", "Arithmetic.md", "hacspec/src/traits.rs: Numeric"]}
{"id": "C10", "title": "Public modular machine arithmetic", "statement": "add_mod, sub_mod and mul_mod on public unsigned integers return the canonical residue of the exact integer result modulo n whenever they return, and panic exactly when n = 0 (sub_mod with lhs < rhs diverges instead) or an intermediate value leaves the type; signed variants return the canonical residue whenever the i128 intermediate does not overflow.", "quantifier": "all operands and moduli of every width", "why_tests_cant": "Overflow panics occur on input regions that samples rarely hit; the loop in sub_mod has unbounded iterations.", "anchors": ["hacspec/src/machine_integers.rs: sub_mod, add_mod, mul_mod, modulo", "hacspec/src/math_util.rs: signed_mod"]}
{"id": "C11", "title": "Modular inverse by extended Euclid", "statement": "inv(x, n) returns the unique y in [0,n) with x*y = 1 mod n when x is invertible modulo n and panics when it is not. (Proved for all x > 0 and all n > 1 whose square fits the type, for public and secret, signed and unsigned integers. Refuted beyond: public types panic on overflow, secret types silently return a wrong value or loop forever; and x = 0 returns 0 instead of panicking.)", "quantifier": "all operands and moduli of every width, unbounded iteration count", "why_tests_cant": "Termination, coprimality and coefficient bounds are inductive facts over the run of the Euclidean loop; the wrong results need moduli above the square root of the type's range.", "anchors": ["hacspec/src/math_util.rs: extended_euclid_invert", "hacspec/src/machine_integers.rs: inv"]}
{"id": "C12", "title": "Secret exponentiation is power modulo 2^bits", "statement": "pow(e) on unsigned secret integers returns x^e modulo 2^bits for every x and every e.", "quantifier": "all bases and exponents", "why_tests_cant": "Exponent is unbounded in the relevant sense (2^32 loop iterations).", "anchors": ["hacspec/src/machine_integers.rs: pow"]}
{"id": "C13", "title": "update_sub copies exactly the requested window", "statement": "update_sub(start_out, v, start_in, len) returns a sequence of the same length whose window [start_out, start_out+len) equals v[start_in .. start_in+len) and that is unchanged elsewhere; it panics exactly when one of the windows does not fit. update and update_start are the corresponding special cases.", "quantifier": "all sequences, all offsets and lengths", "why_tests_cant": "Unbounded sequences; frame condition over all indices.", "anchors": ["hacspec/src/traits.rs: update_sub, update, update_start"]}
{"id": "C14", "title": "Chunks partition a sequence", "statement": "For chunk size > 0, num_chunks is the ceiling of len/size, the chunks 0..num_chunks-1 concatenate to the original sequence, all but the last have exactly the chunk size, the last has between 1 and size elements, reported lengths equal actual lengths; get_chunk panics exactly when the chunk would start beyond the end, and num_chunks(0) panics.", "quantifier": "all sequences, all chunk sizes and chunk numbers", "why_tests_cant": "Unbounded lengths; the interesting cases are the boundaries of every length modulo every chunk size.", "anchors": ["hacspec/src/seq.rs: num_chunks, get_chunk", "hacspec/src/array.rs: num_chunks, get_chunk_len, get_chunk"]}
{"id": "C15", "title": "set_chunk/get_chunk obey the lens laws", "statement": "After set_chunk(size,i,input), get_chunk(size,i) returns input, every other chunk is unchanged and so is the length; setting a chunk to its current value is the identity; set_chunk panics exactly when input's length differs from the chunk length or the chunk is out of range; filling all chunks produces the concatenation of the inputs.", "quantifier": "all sequences, chunk sizes, chunk numbers, inputs", "why_tests_cant": "Non-interference between different chunks quantifies over all pairs of indices.", "anchors": ["hacspec/src/seq.rs: set_chunk", "hacspec/src/array.rs: set_chunk"]}
{"id": "C16", "title": "Sub-sequence and conversion constructors are exact", "statement": "sub/subr/from_sub/from_sub_range return exactly the requested window (panic iff out of range); arrays built with from_seq/from_vec/from_array/from_sub/create are equal to their source and panic iff the length differs from the declared one; from_slice copies the slice and zero-pads to the declared length, panicking iff it is longer; Seq::from_seq and from_slice are the identity on contents.", "quantifier": "all sources, offsets, lengths and declared array lengths", "why_tests_cant": "Unbounded lengths and contents.", "anchors": ["hacspec/src/seq.rs: sub, subr, from_sub, from_seq", "hacspec/src/array.rs: new, from_slice, from_sub, from_vec, from_seq, create"]}
{"id": "C17", "title": "Hex conversion round-trips and rejects bad input", "statement": "from_hex(to_hex(b)) = b for every byte string; to_hex output is lower-case, of length 2*len and injective; from_hex accepts a string of hex digit pairs and returns the bytes they denote and panics on odd length. (Claim 'panics on every string containing a character that is not a hex digit' is refuted: \"+f\" parses as 0x0f.)", "quantifier": "all byte strings and all character strings", "why_tests_cant": "Unbounded strings; the '+' acceptance is outside of what a tester would think of.", "anchors": ["hacspec/src/util.rs: hex_string_to_bytes", "hacspec/src/seq.rs: from_hex, to_hex", "hacspec/src/array.rs: from_hex, hex_string_to_vec, to_hex"]}
{"id": "C18", "title": "Word views of byte arrays", "statement": "to_be_U32s/to_le_U32s (and U64s, U128s) of a byte array split it into consecutive words with the stated endianness, and to_be_bytes/to_le_bytes of the word array gives the bytes back, whenever the length is a multiple of the word size.", "quantifier": "all byte arrays with lengths a multiple of the word size", "why_tests_cant": "Contents are unbounded; mix-ups of word order and byte order cancel on symmetric samples.", "anchors": ["hacspec/src/array.rs: to_be_U32s, to_le_U32s, ..., to_be_bytes, to_le_bytes", "hacspec/src/transmute.rs"]}
{"id": "C19", "title": "Element-wise vector arithmetic", "statement": "+, -, *, ^ on arrays, / on public arrays and +, -, * on public sequences act independently on every position with the element operation, keep the length, and panic exactly on a length mismatch (or, for /, on a zero divisor). (Refuted for PublicSeq: ^ always returns an empty sequence, and * documented as polynomial multiplication is point-wise.)", "quantifier": "all operand sequences of any length", "why_tests_cant": "Unbounded lengths; the PublicSeq operators are not exercised by any test.", "anchors": ["hacspec/src/vec_integers.rs: Add, Sub, Mul, BitXor impls, PublicSeq impls"]}
{"id": "C20", "title": "Bounded big integers: constructed values are in range and faithful", "statement": "Every value of an abstract integer type that can be obtained through its API decodes to an integer inside the representable range, and converting an integer into the type and back is the identity; conversion panics exactly when the integer is outside of the range. (Refuted at the top: 2^bits - 1, which max() reports, is always rejected.)", "quantifier": "all integers and every bit width, all API histories", "why_tests_cant": "Range and width are unbounded.", "anchors": ["abstract-integers/src/abstract_int.rs: From<BigInt>, Into, max, from_literal, pow2"]}
{"id": "C21", "title": "Bounded big integer arithmetic is exact or panics", "statement": "+, -, *, /, % and pow on abstract integers return the exact mathematical result when it is representable and panic otherwise (never wrap); comparison operators agree with the order of the integers.", "quantifier": "all operand pairs of every width", "why_tests_cant": "Big integers of arbitrary width; over/underflow boundaries.", "anchors": ["abstract-integers/src/abstract_int.rs: Add, Sub, Mul, Div, Rem, pow, Eq, Ord"]}
{"id": "C22", "title": "Big integer bit, hex and byte codecs", "statement": "bit(i) is bit i of the value and panics iff i is out of range; from_le_bytes is the base-256 value; from_le_bytes(to_le_bytes(x)) = x; to_le_bytes has minimal length at most bytes(bits); from_hex(h) is the base-16 value.", "quantifier": "all values and all byte strings, all bit widths", "why_tests_cant": "Values and lengths are unbounded.", "anchors": ["abstract-integers/src/abstract_int.rs: bit, from_hex, from_le_bytes, to_le_bytes", "hacspec/src/math_integers.rs: from_byte_seq_le, to_byte_seq_le"]}
{"id": "C23", "title": "from_signed_literal represents its argument", "statement": "from_signed_literal(x) yields the value x or panics. (Refuted: for signed types wider than 128 bits a negative literal becomes x + 2^128.)", "quantifier": "all i128 literals and all widths", "why_tests_cant": "Needs negative literals on wide signed types, which no test uses.", "anchors": ["abstract-integers/src/abstract_int.rs: from_signed_literal"]}
{"id": "C24", "title": "Modular integers stay reduced", "statement": "Every value of a nat_mod type reachable through conversions and arithmetic is strictly smaller than the modulus, so equality of values is equality of residues. (Refuted for from_literal(n) with n the modulus, which yields an unreduced n that differs from zero.)", "quantifier": "all API histories, all moduli that fit the canvas", "why_tests_cant": "Invariant over unbounded operation sequences.", "anchors": ["abstract-integers/src/nat_mod.rs: From, from_literal, Add, Sub, Mul, Rem", "hacspec/src/math_integers.rs: nat_mod"]}
{"id": "C25", "title": "Modular integers implement the ring Z/n", "statement": "+, -, *, pow, pow_felem of nat_mod values compute the ring operations of Z/n, without a panic, for every modulus whose square fits the canvas bounds used internally.", "quantifier": "all operand pairs and all moduli", "why_tests_cant": "Large moduli; subtraction has a borrow path.", "anchors": ["abstract-integers/src/nat_mod.rs: Add, Sub, Mul, pow, pow_felem"]}
{"id": "C26", "title": "Field inversion", "statement": "For a prime modulus, x * x.inv() = 1 for every non-zero x and inv(0) = 0; in particular for the fields of Curve25519, Poly1305 and P-256 used by the examples, whose moduli are prime.", "quantifier": "all field elements of every prime field; the three concrete fields", "why_tests_cant": "Needs Fermat's little theorem and primality of 255-bit numbers.", "anchors": ["abstract-integers/src/nat_mod.rs: inv", "abstract-integers/src/abstract_int.rs: inv", "spec-examples/src/curve25519/curve25519.rs", "spec-examples/src/chacha20_poly1305/poly1305.rs", "spec-examples/src/p256/p256.rs"]}
{"id": "C27", "title": "Division of modular integers", "statement": "The / operator of nat_mod types satisfies (a / b) * b = a for invertible b. (Refuted: it is integer division of representatives; the weaker statement that it is floor division is proved.)", "quantifier": "all operand pairs, all moduli", "why_tests_cant": "Universal over operands.", "anchors": ["abstract-integers/src/nat_mod.rs: Div"]}
{"id": "C28", "title": "Polynomial addition, subtraction and multiplication over Z_n", "statement": "poly_add, poly_sub and poly_mul on coefficient sequences return coefficients in [0,n) representing the sum, difference and product in Z_n[x], for all operands that do not overflow the machine type; the sparse and plain multiplication agree.", "quantifier": "all coefficient sequences of any length, all moduli", "why_tests_cant": "Degree is unbounded.", "anchors": ["hacspec/src/poly.rs: poly_add, poly_sub, poly_mul, poly_mul_plain, poly_mul_op_scanning"]}
{"id": "C29", "title": "Polynomial division with remainder", "statement": "poly_div(x, y, n) returns (q, r) with x = q*y + r in Z_n[x] and degree of r below that of y (the unique such pair) whenever the leading coefficient of y is invertible and no overflow occurs, and panics when y is zero and x is not, or when the leading coefficient is not invertible. (Refuted for n = 0, documented as Z[x]: it panics whenever deg y <= deg x.)", "quantifier": "all operand polynomials, all moduli", "why_tests_cant": "Degree and iteration count are unbounded.", "anchors": ["hacspec/src/poly.rs: poly_div, leading_coefficient, normalize"]}
{"id": "C30", "title": "Polynomial helper functions", "statement": "normalize and make_fixed_length (for a sufficient length) preserve the represented polynomial and return the stated lengths, monomial(c, d) is c*x^d, leading_coefficient returns degree and leading coefficient, is_zero decides equality with zero and poly_divx divides by x dropping the constant coefficient.", "quantifier": "all coefficient sequences", "why_tests_cant": "Unbounded lengths, trailing zero patterns.", "anchors": ["hacspec/src/poly.rs: pad, make_fixed_length, monomial, normalize, leading_coefficient"]}
{"id": "C31", "title": "SHA-256 agrees with FIPS 180-4", "statement": "hash(m) equals SHA-256 of m as defined by FIPS 180-4 for every message m. (Proved for all messages whose length is not a multiple of 64 bytes; refuted for the others, where no padding is added.)", "quantifier": "all byte strings", "why_tests_cant": "Unbounded messages; a padding bug shows only at particular lengths.", "anchors": ["spec-examples/src/sha2/sha2.rs: hash, compress, schedule, shuffle"]}
{"id": "C32", "title": "SHA-256 padding collisions", "statement": "Two different messages do not hash to the same value by construction: the padded message is an injective function of the message. (Refuted: for every message m with length not a multiple of 64, m and the distinct message pad(m) have equal digests.)", "quantifier": "all byte strings", "why_tests_cant": "A structural collision for every message is a universal statement.", "anchors": ["spec-examples/src/sha2/sha2.rs: hash"]}
{"id": "C33", "title": "HMAC follows RFC 2104 over the hash used", "statement": "hmac(k,m) = H((K' xor opad) || H((K' xor ipad) || m)) with K' the zero-padded key or hashed long key, for all keys and messages; it equals HMAC-SHA-256 whenever no hashed string has a length that is a multiple of 64.", "quantifier": "all keys and messages", "why_tests_cant": "Key-length branches and unbounded messages.", "anchors": ["spec-examples/src/hmac/hmac.rs: hmac"]}
{"id": "C34", "title": "HKDF follows RFC 5869", "statement": "extract and expand compute the RFC 5869 functions over the HMAC used; expand returns exactly l bytes, shorter outputs are prefixes of longer ones. (Refuted for 8128 < l <= 8160, where it panics although the RFC and the documentation allow these lengths.)", "quantifier": "all salts, key materials, infos and output lengths", "why_tests_cant": "Iterated construction with a counter; the length limit is only visible at the boundary.", "anchors": ["spec-examples/src/hkdf/hkdf.rs: extract, expand"]}
{"id": "C35", "title": "ChaCha20 agrees with RFC 8439", "statement": "chacha(key, nonce, m) xors m with the RFC 8439 key stream starting with block counter 1, for every message (counter modulo 2^32); the block function equals the RFC block function for every key, counter, nonce.", "quantifier": "all keys, nonces, counters and messages", "why_tests_cant": "Unbounded messages, 2^384 block inputs.", "anchors": ["spec-examples/src/chacha20_poly1305/chacha20.rs: block, chacha, quarter_round"]}
{"id": "C36", "title": "ChaCha20 encryption is an involution", "statement": "Applying chacha twice with the same key and nonce returns the message; the output has the message's length; encryption of a prefix is the prefix of the encryption.", "quantifier": "all keys, nonces, messages", "why_tests_cant": "Unbounded messages.", "anchors": ["spec-examples/src/chacha20_poly1305/chacha20.rs: chacha"]}
{"id": "C37", "title": "ChaCha20 rounds are a permutation", "statement": "line, quarter_round (for distinct indices), double_round and the 20-round inner function are bijections on the 16-word state and never panic for indices below 16.", "quantifier": "all states", "why_tests_cant": "2^512 states.", "anchors": ["spec-examples/src/chacha20_poly1305/chacha20.rs: line, quarter_round, double_round, block_inner"]}
{"id": "C38", "title": "Poly1305 agrees with RFC 8439", "statement": "poly(m, key) is ((sum of blocks times powers of clamped r) mod 2^130-5 + s) mod 2^128 for every message and key. (Proved when accumulator + s < 2^130-5; refuted in general since s is added modulo 2^130-5.)", "quantifier": "all messages and keys", "why_tests_cant": "The wrong tag occurs for about one key in eight but only if the accumulator is large; not with the RFC's vectors.", "anchors": ["spec-examples/src/chacha20_poly1305/poly1305.rs: poly, poly_inner, encode, encode_r"]}
{"id": "C39", "title": "AEAD ChaCha20-Poly1305 round trip and authentication", "statement": "decrypt(encrypt(m)) returns Ok(m) for every key, iv, aad, m; decrypt returns an error exactly when the supplied tag differs from the tag recomputed over aad and ciphertext; the ciphertext has the length of the message; no call panics.", "quantifier": "all keys, nonces, associated data, messages, ciphertexts, tags", "why_tests_cant": "Unbounded inputs; rejection quantifies over all tags.", "anchors": ["spec-examples/src/chacha20_poly1305/chacha20poly1305.rs: encrypt, decrypt"]}
{"id": "C40", "title": "AEAD MAC input is unambiguous", "statement": "The byte string that is authenticated by the AEADs (ChaCha20-Poly1305 and AES-GCM) determines aad and ciphertext: different (aad, ciphertext) pairs give different MAC inputs, for lengths below 2^61 bytes.", "quantifier": "all pairs of (aad, ciphertext)", "why_tests_cant": "Injectivity is a statement over pairs of unbounded inputs.", "anchors": ["spec-examples/src/chacha20_poly1305/chacha20poly1305.rs: pad_aad_msg", "spec-examples/src/aes_gcm/aesgcm.rs: pad_aad_msg"]}
{"id": "C41", "title": "AES round functions agree with FIPS 197", "statement": "sub_bytes, shift_rows, mix_columns, add_round_key implement the FIPS-197 transformations: the S-box is the affine map of the GF(2^8) inverse, mix_columns multiplies each column by {03}x^3+{01}x^2+{01}x+{02} modulo x^4+1, shift_rows rotates row r by r.", "quantifier": "all states", "why_tests_cant": "2^128 states.", "anchors": ["spec-examples/src/aes_gcm/aes.rs: SBOX, sub_bytes, shift_rows, mix_columns, add_round_key, xtime"]}
{"id": "C42", "title": "AES block encryption is FIPS-197 Cipher and a permutation", "statement": "aes128/aes256 block encryption equals the FIPS-197 Cipher with the FIPS-197 key expansion for every key and block and, for a fixed key, is a bijection on blocks.", "quantifier": "all keys and blocks", "why_tests_cant": "2^128 blocks, 2^256 keys.", "anchors": ["spec-examples/src/aes_gcm/aes.rs: aes_encrypt_block, key_expansion_aes, block_cipher_aes, rounds_aes"]}
{"id": "C43", "title": "AES counter mode", "statement": "aes128/256_decrypt(aes128/256_encrypt(m)) = m; the output length equals the message length; byte j of the output is byte j of the message xor byte j mod 16 of E(nonce || ctr + j/16).", "quantifier": "all keys, nonces, counters, messages", "why_tests_cant": "Unbounded messages and counter wrap-around.", "anchors": ["spec-examples/src/aes_gcm/aes.rs: aes_counter_mode, aes128_encrypt, aes256_encrypt"]}
{"id": "C44", "title": "GHASH field multiplication", "statement": "gf128 fmul is multiplication in GF(2)[x]/(x^128+x^7+x^2+x+1) under the GCM bit order; so fadd and fmul satisfy the commutative ring laws, and gmac is the polynomial evaluation defined by SP 800-38D.", "quantifier": "all pairs of elements and all messages", "why_tests_cant": "2^256 pairs; algebraic laws.", "anchors": ["spec-examples/src/aes_gcm/gf128.rs: fadd, fmul, poly, update, gmac"]}
{"id": "C45", "title": "AES-GCM round trip and authentication", "statement": "For AES-128 and AES-256, decrypt(encrypt(m)) returns Ok(m), and decrypt returns an error exactly when the tag differs from the GCM tag of (aad, ciphertext); no call panics.", "quantifier": "all keys, ivs, aads, messages, ciphertexts, tags", "why_tests_cant": "Unbounded inputs.", "anchors": ["spec-examples/src/aes_gcm/aesgcm.rs: encrypt_aes, decrypt_aes"]}
{"id": "C46", "title": "BLAKE2b agrees with RFC 7693", "statement": "blake2b(m) equals unkeyed BLAKE2b-512 of RFC 7693 for every message. (Proved for lengths not a multiple of 128; refuted for the others, where the final block is not marked.)", "quantifier": "all byte strings", "why_tests_cant": "Unbounded messages; bug only at block multiples and for the empty string.", "anchors": ["spec-examples/src/blake2/blake2b.rs: blake2, compress, mix"]}
{"id": "C47", "title": "BLAKE2s availability", "statement": "The generic blake2 code instantiated for 32-bit words (Blake2s) returns a digest. (Refuted: it panics for every input.)", "quantifier": "all byte strings", "why_tests_cant": "Universal over inputs.", "anchors": ["spec-examples/src/blake2/blake2b.rs: Blake2S, make_array, blake2"]}
{"id": "C48", "title": "Keccak-f[1600] agrees with FIPS 202 and is a permutation", "statement": "theta, rho, pi, chi, iota and keccakf1600 equal the FIPS 202 step mappings on the 5x5x64 state for every state, and keccakf1600 is a bijection.", "quantifier": "all 2^1600 states", "why_tests_cant": "State space.", "anchors": ["spec-examples/src/fips202/fips202.rs: theta, rho, pi, chi, iota, keccakf1600"]}
{"id": "C49", "title": "SHA-3 and SHAKE agree with FIPS 202", "statement": "sha3_224/256/384/512 and shake128/256 compute the FIPS 202 sponge with pad10*1, the right rate and domain suffix, for every message and output length; outputs have the stated length; no call panics.", "quantifier": "all messages and output lengths", "why_tests_cant": "Unbounded messages and outputs; padding corner cases at every residue of the rate.", "anchors": ["spec-examples/src/fips202/fips202.rs: keccak, absorb_block, squeeze, sha3_*, shake*"]}
{"id": "C50", "title": "SHAKE outputs are prefixes of one stream", "statement": "shake(m, l) is the prefix of length l of shake(m, l') whenever l <= l'.", "quantifier": "all messages and pairs of output lengths", "why_tests_cant": "Pairs of unbounded lengths.", "anchors": ["spec-examples/src/fips202/fips202.rs: shake128, shake256, keccak"]}
{"id": "C51", "title": "X25519 scalar and point decoding", "statement": "decode_scalar clears bits 0,1,2,255 and sets bit 254 of the little-endian scalar and nothing else; decode_point ignores the top bit and reduces modulo p; encode_point followed by decode_point is the identity on affine field elements.", "quantifier": "all 32-byte strings", "why_tests_cant": "2^256 inputs.", "anchors": ["spec-examples/src/curve25519/curve25519.rs: mask_scalar, decode_scalar, decode_point, encode_point"]}
{"id": "C52", "title": "X25519 ladder computes scalar multiplication", "statement": "scalarmult(s, P) never panics and returns the encoding of the u-coordinate of k*P on the Montgomery curve (0 for the point at infinity), where k is the decoded scalar.", "quantifier": "all scalars and all u-coordinates", "why_tests_cant": "Group law; 2^510 inputs.", "anchors": ["spec-examples/src/curve25519/curve25519.rs: scalarmult, montgomery_ladder, point_add_and_double"]}
{"id": "C53", "title": "secret_to_public derives a public key", "statement": "secret_to_public(s) returns scalarmult(s, 9). (Refuted: it panics for every s since the base point literal has the wrong length.)", "quantifier": "all scalars", "why_tests_cant": "Universal.", "anchors": ["spec-examples/src/curve25519/curve25519.rs: secret_to_public"]}
{"id": "C54", "title": "P-256 point addition and doubling follow the group law", "statement": "For points on the curve in Jacobian coordinates, point_double and point_add return a Jacobian representation of the sum, including doubling, opposite points and infinity; point_add panics exactly when both arguments are finite and represent the same point.", "quantifier": "all pairs of curve points and all their representations", "why_tests_cant": "2^512 pairs of points; exceptional cases.", "anchors": ["spec-examples/src/p256/p256.rs: point_add, point_double, jacobian_to_affine"]}
{"id": "C55", "title": "P-256 scalar multiplication", "statement": "The ladder never panics and returns a representation of k*P for every scalar k and every representation of every curve point P; point_mul(k) never panics and returns the affine coordinates of k*G ((0,0) for infinity), with the base point G of FIPS 186-4.", "quantifier": "all scalars and curve points", "why_tests_cant": "Needs the group order and the group law.", "anchors": ["spec-examples/src/p256/p256.rs: point_mul, montgomery_ladder"]}
{"id": "C56", "title": "Radix-51 field multiplication of the secret-integers example", "statement": "For limbs below 2^54 the five-limb product equals the product of the represented integers modulo 2^255-19, no intermediate 64/128-bit operation wraps, and the output limbs are below 2^52 so that they are valid inputs again.", "quantifier": "all pairs of limb vectors within the bound", "why_tests_cant": "2^540 inputs; carry bounds.", "anchors": ["secret-integers/examples/dalek.rs: FieldElement64::mul"]}
{"id": "C57", "title": "ChaCha20 of the secret-integers example", "statement": "The chacha20 example's encryption equals the hacspec ChaCha20 specification for non-empty messages, and panics for the empty message.", "quantifier": "all keys, nonces and messages", "why_tests_cant": "Unbounded messages.", "anchors": ["secret-integers/examples/chacha20.rs"]}
{"id": "C58", "title": "Panic freedom of the symmetric examples", "statement": "hash, hmac, chacha, poly1305, AEADs, AES, GCM, SHA-3 and BLAKE2b never index out of bounds, overflow or fail an assertion, for any input of representable length.", "quantifier": "all inputs", "why_tests_cant": "Universal over unbounded inputs.", "anchors": ["spec-examples/src/"]}
{"id": "C59", "title": "The poly! macro implements the ring Z_n[x]/(f)", "statement": "For a type declared with poly!, +, - and * return reduced values of the declared length representing the sum, the difference and the product modulo f (when f has an invertible leading coefficient and n^3 is representable), / returns quotient and remainder, and from_vec keeps every polynomial that fits and panics on the others. (Refuted: from_vec accepts degree exactly l and drops the leading coefficient.)", "quantifier": "all types declared with the macro, all reduced operands", "why_tests_cant": "Unbounded families of rings and operands.", "anchors": ["hacspec/src/poly.rs: poly! (from_vec, Add, Sub, Mul, Div)"]}
{"id": "C60", "title": "X25519 Diffie-Hellman agreement", "statement": "scalarmult(a, scalarmult(b, u)) and scalarmult(b, scalarmult(a, u)) both succeed and return the same 32 bytes.", "quantifier": "all pairs of 32-byte secrets and all 32-byte u-coordinates (on the curve, on the twist, non-canonical)", "why_tests_cant": "2^768 inputs; needs the group law over an extension field.", "anchors": ["spec-examples/src/curve25519/curve25519.rs: scalarmult"]}
{"id": "C61", "title": "X25519 on points of small order", "statement": "If the decoded u-coordinate belongs to a point whose order divides 8, the result is 32 zero bytes for every secret.", "quantifier": "all secrets and all points of small order, over every field of characteristic p", "why_tests_cant": "Needs the clamping of the scalar and the group law.", "anchors": ["spec-examples/src/curve25519/curve25519.rs: scalarmult, mask_scalar"]}
{"id": "C62", "title": "Integer byte conversions of the traits", "statement": "to_le_bytes/to_be_bytes of U8..U128 and u8..u128 return the w/8 bytes of the value in the stated order; from_le_bytes/from_be_bytes accept exactly the sequences of w/8 bytes, return the value they denote and panic on every other length.", "quantifier": "all integers, all byte sequences, all widths", "why_tests_cant": "2^128 values; every possible wrong length.", "anchors": ["hacspec/src/traits.rs: UnsignedSecretInteger, UnsignedPublicInteger", "hacspec/src/transmute.rs"]}
{"id": "C63", "title": "Indexing by other integer types", "statement": "Indexing arrays and sequences by u8, u32 or i32 reads and writes the position with that value, a negative i32 index always panics, a write changes only its position, and s[a..b] is the window a..b and panics exactly when it does not fit.", "quantifier": "all sequences below 2^63 elements, all indices", "why_tests_cant": "Unbounded sequences, 2^32 indices.", "anchors": ["hacspec/src/array.rs: Index, IndexMut", "hacspec/src/seq.rs: Index, IndexMut"]}
{"id": "C64", "title": "Order on public arrays", "statement": "cmp on public arrays is a total order that agrees with ==: it orders unsigned arrays as the numbers they denote with the most significant element first, and signed arrays lexicographically by signed value. (Refuted for signed secret arrays, where comparing panics.)", "quantifier": "all arrays of any length and element width", "why_tests_cant": "Unbounded arrays; transitivity over triples.", "anchors": ["hacspec/src/vec_integers.rs: PartialOrd, Ord", "hacspec/src/array.rs: PartialEq"]}
{"id": "C65", "title": "wrap_add, wrap_sub and wrap_mul wrap", "statement": "The wrap_* methods of the NumericBase trait return the mathematical result modulo the size of the type (2^bits, or n for modular integers, element by element for arrays) and do not panic. (Refuted for bounded integers and for signed arrays.)", "quantifier": "all operands of all types implementing the trait", "why_tests_cant": "Unbounded widths and arrays; overflow conditions.", "anchors": ["hacspec/src/math_integers.rs: NumericBase", "hacspec/src/vec_integers.rs: NumericBase"]}
{"id": "C66", "title": "point_mul hits every P-256 point exactly once per residue", "statement": "The group of P-256 has the prime order n and is generated by the base point of the code; point_mul(k) returns (0,0) exactly for multiples of n, point_mul(k) = point_mul(l) exactly if k = l mod n, their x-coordinates agree exactly if k = l or k = -l mod n, and every point of the curve is point_mul(k) for exactly one k below n.", "quantifier": "all 256-bit scalars, all points of the curve", "why_tests_cant": "Needs the order of the group; no test can visit 2^256 scalars.", "anchors": ["spec-examples/src/p256/p256.rs: point_mul, montgomery_ladder, jacobian_to_affine"]}
{"id": "C67", "title": "P-256 Diffie-Hellman agrees and is contributory", "statement": "Running the ladder with a then b, or b then a, from any Jacobian representation of any point gives the same affine coordinates; starting from a finite point the shared point is infinite exactly if n divides a or b.", "quantifier": "all pairs of 256-bit scalars, all points, all Jacobian representations", "why_tests_cant": "Pairs of scalars, unbounded representations; needs commutativity of the group and its order.", "anchors": ["spec-examples/src/p256/p256.rs: montgomery_ladder, jacobian_to_affine"]}
{"id": "C68", "title": "The inputs with an all-zero X25519 result", "statement": "scalarmult returns 32 zero bytes exactly if the decoded u-coordinate is, modulo p, one of the five coordinates of points of order dividing 8 (0, 1, p-1 and the two of order 8), for every secret; every other string, whether on the curve or on its twist, gives a non-zero result.", "quantifier": "all secrets and all 32-byte strings", "why_tests_cant": "2^512 inputs; the converse direction needs the orders of the curve and of its twist.", "anchors": ["spec-examples/src/curve25519/curve25519.rs: scalarmult, mask_scalar, decode_point"]}
{"id": "C69", "title": "Collisions of X25519 secrets", "statement": "For a coordinate outside the five of small order, two secrets give the same result exactly if their clamped scalars are equal or add up to 8r, where r is the prime order of the subgroup of the curve if u^3+486662u^2+u is a square modulo p and that of the twist otherwise.", "quantifier": "all pairs of secrets and all 32-byte strings not of small order", "why_tests_cant": "Needs primality of both orders; collisions are not found by sampling.", "anchors": ["spec-examples/src/curve25519/curve25519.rs: scalarmult"]}
{"id": "C70", "title": "Curve25519 public keys", "statement": "The curve has 8 times a prime many points, the points with u = 9 have that prime as their order, and two secrets have the same public key (scalarmult by 9) exactly if their clamped scalars are equal or add up to 8 times the prime.", "quantifier": "all pairs of secrets", "why_tests_cant": "Needs the group order.", "anchors": ["spec-examples/src/curve25519/curve25519.rs: scalarmult"]}
{"id": "C71", "title": "The elements of gf128 form a field", "statement": "The reduction polynomial is irreducible: fmul(x, y) = 0 only if x or y is 0, and for x other than 0 every equation fmul(x, y) = z has exactly one solution.", "quantifier": "all 128-bit elements", "why_tests_cant": "2^256 pairs of elements.", "anchors": ["spec-examples/src/aes_gcm/gf128.rs: fmul"]}
{"id": "C72", "title": "GHASH is almost universal", "statement": "For two different texts of equal length, or two different pairs of associated data and ciphertext of any lengths, and any difference d, the number of hash keys for which the two values of gmac differ by d is at most the number of blocks of the longer padded text.", "quantifier": "all texts, all differences, all sets of keys", "why_tests_cant": "A statement about the number of 128-bit keys with a property.", "anchors": ["spec-examples/src/aes_gcm/gf128.rs: gmac, poly, update", "spec-examples/src/aes_gcm/aesgcm.rs: pad_aad_msg"]}
{"id": "C73", "title": "Poly1305 is almost delta-universal", "statement": "For two different messages and any difference d modulo 2^128, at most 8 times the number of blocks of the longer message many values of the clamped key half r give tags that differ by d, whatever the other halves are.", "quantifier": "all messages, all differences, all sets of keys", "why_tests_cant": "A statement about the number of keys with a property; the deviation from the RFC in the last reduction has to be taken into account.", "anchors": ["spec-examples/src/chacha20_poly1305/poly1305.rs: poly", "spec-examples/src/chacha20_poly1305/chacha20poly1305.rs: pad_aad_msg"]}
{"id": "C74", "title": "A digest does not give digests of extensions", "statement": "From the digest and the length of a message, without the message, one cannot compute the digest of the message followed by a chosen string. (Claimed of BLAKE2b by its finalization flag and, up to the inserted padding, violated by SHA-256 by design; here stated for messages of full blocks.)", "quantifier": "all messages of full blocks and all extensions", "why_tests_cant": "The computation works for every message; it contradicts the flag and the padding that separate messages.", "anchors": ["spec-examples/src/blake2/blake2b.rs: blake2b, compress", "spec-examples/src/sha2/sha2.rs: hash"]}
{"id": "C75", "title": "BLAKE2 rounds are permutations", "statement": "For every message block, each round of compress, and all rounds of both variants together, permute the work vectors of 16 words; there are exactly twelve rows of the schedule.", "quantifier": "all work vectors and message blocks", "why_tests_cant": "2^1024 work vectors.", "anchors": ["spec-examples/src/blake2/blake2b.rs: mix, compress"]}
{"id": "C76", "title": "Equivalent HMAC keys and HKDF salts", "statement": "HMAC keys of at most 64 bytes are equivalent exactly if they differ by zeros at the end, longer keys are equivalent to their digests, and HKDF-extract without salt is HKDF-extract with any salt of at most 64 zeros.", "quantifier": "all keys, messages and salts", "why_tests_cant": "All keys of all lengths.", "anchors": ["spec-examples/src/hmac/hmac.rs: hmac", "spec-examples/src/hkdf/hkdf.rs: extract"]}
{"id": "C77", "title": "Limits of the message length of the AEADs", "statement": "No key stream block is used twice within one call of AES-GCM or ChaCha20-Poly1305 encryption, nor both for a message block and for the tag: messages beyond the limit of the standard are rejected. Encryption in counter mode is compatible with concatenation at block boundaries.", "quantifier": "all keys, nonces, associated data and messages below 2^63 bytes", "why_tests_cant": "Messages of 64 and 256 gigabytes.", "anchors": ["spec-examples/src/aes_gcm/aesgcm.rs: encrypt", "spec-examples/src/aes_gcm/aes.rs: aes_counter_mode", "spec-examples/src/chacha20_poly1305/chacha20poly1305.rs: encrypt"]}
{"id": "C78", "title": "Hexadecimal strings and arrays of words", "statement": "from_hex of an array of words larger than bytes reads the words from the hexadecimal form of their big-endian bytes.", "quantifier": "all word types, lengths and strings", "why_tests_cant": "All strings of all lengths.", "anchors": ["hacspec/src/array.rs: hex_string_to_vec, from_hex"]}
{"id": "C79", "title": "Inversion of polynomials", "statement": "extended_euclid(x, y, n) returns the inverse of x modulo y over the integers modulo n if there is one, with reduced coefficients and as many of them as the degree of y, and an error otherwise. For a poly! type whose modulus is irreducible over a prime field, inv is defined for every value but zero.", "quantifier": "all coefficient types, moduli n whose square is representable, polynomials y that are not constant and x of smaller degree", "why_tests_cant": "Completeness of the division steps (2 d - 1 of them always suffice) is a statement about all polynomials of all degrees.", "anchors": ["hacspec/src/poly.rs: extended_euclid, divstepsx", "hacspec/src/poly.rs: poly! inv"]}
{"id": "C80", "title": "Collisions of the hash functions", "statement": "Two different messages with the same digest (sha256::hash, blake2b) or the same tag under one key (hmac) exhibit a collision of the compression function: among the inputs at which the two computations call compress there are two different ones with the same result.", "quantifier": "all pairs of messages up to the length limit", "why_tests_cant": "No collision of the compression functions is known; the statement is about all pairs of messages.", "anchors": ["spec-examples/src/sha2/sha2.rs: hash, compress", "spec-examples/src/hmac/hmac.rs: hmac", "spec-examples/src/blake2/blake2b.rs: blake2b, compress"]}
{"id": "C81", "title": "A ciphertext determines the key", "statement": "A ciphertext with its tag is accepted by decrypt of AES-GCM or ChaCha20-Poly1305 under one key only.", "quantifier": "all pairs of keys, all ciphertexts and tags", "why_tests_cant": "A second key is not found by sampling; it is by solving a linear equation.", "anchors": ["spec-examples/src/aes_gcm/aesgcm.rs: decrypt", "spec-examples/src/chacha20_poly1305/chacha20poly1305.rs: decrypt"]}
{"id": "C82", "title": "Reuse of a nonce", "statement": "Two encryptions under one key and nonce reveal the difference of the messages but give no means of forging a tag for another ciphertext under that nonce.", "quantifier": "all keys, nonces, associated data and messages", "why_tests_cant": "The second part is a statement about everything computable from ciphertexts and tags; it fails for every key.", "anchors": ["spec-examples/src/aes_gcm/aesgcm.rs: encrypt, decrypt", "spec-examples/src/chacha20_poly1305/chacha20poly1305.rs: encrypt, decrypt"]}
{"id": "C83", "title": "The sponge of SHA-3 and SHAKE", "statement": "The blocks absorbed for a message determine the message and the function: no two messages, and no message of SHA-3 and message of SHAKE at one rate, are absorbed alike. Two inputs with the same state before squeezing exhibit an inner collision (two different states with the same bits outside the rate) or a return to the zero state; conversely an inner collision gives pairs of inputs with equal outputs. Absorbing fixed blocks is reversible.", "quantifier": "all rates up to 200 bytes, messages, suffix bytes and output lengths", "why_tests_cant": "No inner collision is known; the statements are about all pairs of messages.", "anchors": ["spec-examples/src/fips202/fips202.rs: keccak, absorb_block, squeeze"]}
{"id": "C84", "title": "Printing", "statement": "Integers are printed in decimal or hexadecimal as the numeral of their value, arrays as the list of their elements; the text determines the value. Secret values are observable by declassify only, not by printing.", "quantifier": "all values of all integer, array, sequence and poly! types", "why_tests_cant": "All values of all widths.", "anchors": ["secret-integers/src/lib.rs: fmt", "abstract-integers/src/abstract_int.rs: fmt", "abstract-integers/src/nat_mod.rs: fmt", "hacspec/src/array.rs: fmt", "hacspec/src/poly.rs: fmt", "hacspec/src/seq.rs: derived Debug"]}
{"id": "C85", "title": "Random arrays and sequences", "statement": "random takes exactly one value of the generator for every element, in order; every array is the result of exactly one choice of these values, and successive calls take disjoint values.", "quantifier": "all lengths, element types and generators", "why_tests_cant": "A statement about the distribution of the results.", "anchors": ["hacspec/src/array.rs: random, get_random_vec", "hacspec/src/seq.rs: random, get_random_vec"]}
{"id": "C86", "title": "The AES key schedule is reversible", "statement": "At every position of the expanded key, a window as long as the key takes every value for exactly one key. Every round key of AES-128 determines the key, two successive round keys of AES-256 do; a single round key of AES-256 never does.", "quantifier": "both variants, all positions, all keys", "why_tests_cant": "A statement about all keys; no two keys with a common round key are found by trying.", "anchors": ["spec-examples/src/aes_gcm/aes.rs: key_expansion_word, key_expansion_aes"]}
{"id": "C87", "title": "Weak keys of the MACs and texts for many keys", "statement": "GHASH with the key 0 gives every text the hash 0; under any other key different blocks have different hashes, and two blocks at distance t may be exchanged exactly if the t-th power of the key is 1. For any n keys with 0 among them a text of n blocks has the hash of the zero text. For any n keys of AES-GCM with different nonzero hash keys, any associated data and any tag, exactly one ciphertext of n blocks is accepted under all. Poly1305 gives all messages the same tag exactly if the clamped half of the key is 0.", "quantifier": "all keys, texts, numbers of keys", "why_tests_cant": "The keys and texts are found algebraically, not by trying.", "anchors": ["spec-examples/src/aes_gcm/gf128.rs: gmac, fmul", "spec-examples/src/aes_gcm/aesgcm.rs: decrypt_aes", "spec-examples/src/chacha20_poly1305/poly1305.rs: poly"]}
{"id": "C88", "title": "Points that are not on P-256", "statement": "point_double, point_add and montgomery_ladder compute in the group of the curve y^2 = x^3 - 3x + c on which the given point lies, whatever c is; the ladder returns infinity exactly if the order of the point on that curve divides the scalar, and never panics for any three field elements. Points with Y = 0 show the lowest bit of the scalar, (1/3, 4/3) shows whether it is a multiple of 3.", "quantifier": "all field elements, all scalars, all c", "why_tests_cant": "The number of curves and points.", "anchors": ["spec-examples/src/p256/p256.rs: point_double, point_add, montgomery_ladder"]}
{"id": "C89", "title": "Hash functions, HMAC, HKDF and ChaCha20: control flow and addresses depend on lengths only", "statement": "The branches taken, the numbers of iterations and the indices of all accesses to sequences and arrays during chacha, hash (SHA-256), hmac, extract, expand, blake2b, sha3* and shake* are the same for all inputs of the same lengths, also when the call panics.", "quantifier": "all keys, nonces, messages and lengths", "why_tests_cant": "A test observes results, not events; and the claim relates all pairs of inputs.", "anchors": ["spec-examples/src/chacha20_poly1305/chacha20.rs", "spec-examples/src/sha2/sha2.rs", "spec-examples/src/hmac/hmac.rs", "spec-examples/src/hkdf/hkdf.rs", "spec-examples/src/blake2/blake2b.rs", "spec-examples/src/fips202/fips202.rs"]}
{"id": "C90", "title": "AES, AES-GCM, X25519, P-256 and Poly1305 keep secrets out of control flow and addresses", "statement": "The branches, numbers of iterations and indices of the block cipher, counter mode, GCM, X25519, point_mul and Poly1305 are the same for all secrets of the same lengths.", "quantifier": "all keys, scalars and messages", "why_tests_cant": "A test observes results, not events; what the events determine is a statement about all pairs of inputs.", "anchors": ["spec-examples/src/aes_gcm/aes.rs: sub_bytes, key_expansion", "spec-examples/src/aes_gcm/gf128.rs: fmul", "spec-examples/src/curve25519/curve25519.rs: montgomery_ladder", "spec-examples/src/p256/p256.rs: montgomery_ladder", "spec-examples/src/chacha20_poly1305/poly1305.rs: poly"]}
{"id": "C91", "title": "Library functions keep secret integers and coefficients out of control flow and addresses", "statement": "The branches, numbers of iterations and indices of ct_div, sub_mod, inv, leading_coefficient, poly_add, poly_mul_plain, poly_mul_op_scanning and poly_mul depend on widths and lengths only, not on the values of the (secret) integers.", "quantifier": "all operands, moduli and polynomials", "why_tests_cant": "A test observes results, not events; and the claim relates all pairs of inputs.", "anchors": ["hacspec/src/math_util.rs: ct_div, extended_euclid_invert", "hacspec/src/machine_integers.rs: sub_mod", "hacspec/src/poly.rs"]}
{"id": "C92", "title": "Loops of the integer library run for a number of iterations bounded by the width", "statement": "sub_mod, inv, signed_mod and pow of machine integers take a number of loop iterations that is at most polynomial in the width of the type.", "quantifier": "all operands and moduli of all widths", "why_tests_cant": "A test with small operands returns at once; the operands that take 2^63 iterations cannot be run.", "anchors": ["hacspec/src/math_util.rs: extended_euclid_invert, signed_mod", "hacspec/src/machine_integers.rs: sub_mod, pow"]}
{"id": "C93", "title": "Generic polynomial functions work for every type that implements Numeric", "statement": "leading_coefficient, poly_add, poly_sub, poly_mul*, poly_div and vec_poly_*, which accept any T: Numeric, compute polynomial arithmetic for all implementations in the crate: machine integers, bounded integers, modular integers and arrays of integers.", "quantifier": "all implementations of Numeric in the crate, all moduli, bounds, widths and lengths, all polynomials", "why_tests_cant": "The tests instantiate the functions with machine integers only; the type checker accepts the other types.", "anchors": ["hacspec/src/poly.rs", "hacspec/src/traits.rs: NumericBase, ModNumeric, Numeric", "hacspec/src/math_integers.rs: equal, add_mod, sub_mod, mul_mod", "hacspec/src/vec_integers.rs: equal, vec_poly_mul"]}
{"id": "C94", "title": "The cryptographic functions take linearly many steps", "statement": "Every call of a cipher, hash, MAC, key derivation, AEAD or scalar multiplication makes a number of memory accesses, branches and loop iterations that is at most linear in the lengths of its arguments (constant for the curves), with explicit constants, whether it succeeds or panics.", "quantifier": "all keys, nonces, messages and additional data of all lengths, all output lengths", "why_tests_cant": "A quadratic copy inside a loop over blocks is invisible for the short messages of the tests.", "anchors": ["spec-examples/src: encrypt, decrypt, hash, hmac, extract, expand, keccak, blake2b, poly, scalarmult, point_mul", "hacspec/src/seq.rs: get_chunk, set_chunk, update"]}
{"id": "C95", "title": "AES spreads every difference", "statement": "Two different 16-byte states that go through the AES round function with the same round keys differ in at least 5 bytes before and after one round together, in at least 25 of the bytes that enter the S-box over any four consecutive rounds (25 m over 4 m rounds), and a difference in one byte becomes one in all sixteen bytes after two rounds; the S-box maps pairs with a given difference to pairs with another given difference for at most 4 of the 256 bytes; these bounds are attained.", "quantifier": "all pairs of different states, all round keys, all numbers of rounds, all differences", "why_tests_cant": "The claim is about all pairs of the 2^128 states; a wrong coefficient or row shift still scrambles every tested block.", "anchors": ["spec-examples/src/aes_gcm/aes.rs: sub_bytes, shift_rows, mix_columns, aes_enc, SBOX"]}
{"id": "C96", "title": "The compression function of SHA-256 is a permutation with feed-forward", "statement": "For a fixed schedule shuffle permutes the states of eight words; any sixteen consecutive words of the schedule take every value for exactly one block; compress adds its input state to the shuffled one; hence every block has exactly one state that compress leaves unchanged.", "quantifier": "all blocks of 64 bytes, all states of eight words, all schedules of 64 words, all windows", "why_tests_cant": "Injectivity over 2^256 states or 2^512 blocks cannot be sampled; a round that loses one bit of the state still gives plausible digests.", "anchors": ["spec-examples/src/sha2/sha2.rs: schedule, shuffle, compress"]}
{"id": "C97", "title": "With a uniform key used once a tag is uniform and a forgery succeeds for few keys", "statement": "Counted over all keys: the tag that poly gives a message takes every value equally often, and so does the tag of gmac over all masks; whoever sees the tag of one message and answers with another message and a tag succeeds for at most 2^154 L of the 2^256 keys of Poly1305, and for at most 2^128 L of the 2^256 pairs of hash key and mask of GMAC, where L bounds the number of blocks; the same for associated data and ciphertext of the AEAD.", "quantifier": "all messages, all answering strategies, all block bounds, all tags", "why_tests_cant": "The sets counted have 2^256 elements and the strategies are arbitrary functions.", "anchors": ["spec-examples/src/chacha20_poly1305/poly1305.rs: poly", "spec-examples/src/aes_gcm/gf128.rs: gmac", "spec-examples/src/chacha20_poly1305/chacha20poly1305.rs: pad_aad_msg"]}
{"id": "C98", "title": "Constants break the symmetries of the ciphers", "statement": "The rounds of ChaCha20, the steps of AES without key and the steps of Keccak other than iota commute with a symmetry of the state (a cyclic permutation of the columns, a rotation of all lanes). The constants break it: no two initial states of ChaCha20 are moved into each other, no round of Keccak commutes with a rotation on any state, a round of AES commutes only if the round key is symmetric, and no key gives four (AES-256: seven) successive symmetric round keys.", "quantifier": "all states, keys, counters, nonces, rounds, amounts of rotation, numbers of double rounds", "why_tests_cant": "Wrong constants give a function that looks just as random; the symmetry shows on pairs of related inputs only.", "anchors": ["spec-examples/src/chacha20_poly1305/chacha20.rs: double_round, block_init", "spec-examples/src/fips202/fips202.rs: theta, rho, pi, chi, iota, ROUNDCONSTANTS", "spec-examples/src/aes_gcm/aes.rs: sub_bytes, shift_rows, mix_columns, aes_enc, key_expansion_aes, RCON"]}
{"id": "C99", "title": "Sequence and array functions do not look at the contents", "statement": "The branches taken (also those of assertions), the numbers of iterations, the indices of all accesses and whether the call succeeds are the same for all contents of the same lengths, for update*, sub*, chunk functions, conversions between sequences, slices and arrays, conversions between bytes and words, and element-wise arithmetic on arrays.", "quantifier": "all element types, contents, lengths, positions, word widths", "why_tests_cant": "A test observes results, not events; and the claim relates all pairs of contents.", "anchors": ["hacspec/src/traits.rs: update_sub, update, update_start", "hacspec/src/seq.rs: from_sub, sub, subr, num_chunks, get_chunk, set_chunk, from_seq", "hacspec/src/array.rs: from_slice, from_sub, from_vec, from_seq, to_be_bytes, to_le_bytes, to_be_U32s, to_le_U32s", "hacspec/src/transmute.rs", "hacspec/src/vec_integers.rs: add, sub, mul, bitxor"]}
{"id": "C100", "title": "The release build of the primitives computes what the debug build computes", "statement": "A release build drops debug_assert!, wraps overflowing arithmetic and masks shift amounts. For every function of the examples and all arguments of any length, a value returned by the debug build is also returned by the release build; on arguments of the Rust types both builds return the same value, hence the release build meets the same RFC/FIPS specifications. secret_to_public panics in both.", "quantifier": "all arguments; equality for all keys, nonces, messages, tags within the length limits", "why_tests_cant": "Tests run one build profile, on a few inputs.", "anchors": ["spec-examples/src/sha2/sha2.rs: hash", "spec-examples/src/hmac/hmac.rs: hmac", "spec-examples/src/hkdf/hkdf.rs: extract, expand", "spec-examples/src/chacha20_poly1305/chacha20.rs: chacha", "spec-examples/src/chacha20_poly1305/poly1305.rs: poly, poly_mac", "spec-examples/src/aes_gcm/aes.rs", "spec-examples/src/aes_gcm/aesgcm.rs: encrypt, decrypt", "spec-examples/src/blake2/blake2b.rs", "spec-examples/src/fips202/fips202.rs", "spec-examples/src/curve25519/curve25519.rs: scalarmult, secret_to_public", "hacspec/src/seq.rs", "hacspec/src/array.rs"]}
{"id": "C101", "title": "In a release build sequence and array functions return the window asked for or panic", "statement": "With the debug assertions gone and usize arithmetic wrapping, update_sub, sub, subr, num_chunks, get_chunk, set_chunk, from_sub, from_vec, from_seq and from_hex either return exactly the result of the debug build or panic.", "quantifier": "all element types, contents, lengths below 2^63, positions and chunk sizes below 2^64", "why_tests_cant": "Tests run in the debug profile; the wrapping needs positions near 2^64.", "anchors": ["hacspec/src/traits.rs: update_sub", "hacspec/src/seq.rs: sub, subr, num_chunks, get_chunk, set_chunk", "hacspec/src/array.rs: from_slice, from_sub, from_vec, from_seq, from_hex"]}
{"id": "C102", "title": "Arguments that only the release build accepts are treated as the standards say", "statement": "Where the debug build stops at an assertion or an overflow, the release build of HKDF-Expand returns the output of RFC 5869 for all lengths up to 255*32 and panics for larger ones; SHA-256 of messages of 2^61 bytes and more that are not whole blocks uses the bit length modulo 2^64.", "quantifier": "all keys, infos, output lengths; all messages shorter than 2^63 bytes that are not whole blocks", "why_tests_cant": "Messages of 2^61 bytes cannot be tested, and tests run in the debug profile.", "anchors": ["spec-examples/src/hkdf/hkdf.rs: expand", "spec-examples/src/sha2/sha2.rs: hash"]}
{"id": "C103", "title": "Machine integers and polynomials: the release build returns whatever the debug build returns", "statement": "For public and secret, signed and unsigned integers: a value returned in the debug build by get_bit, set_bit, set, rotate_left/right, add_mod, sub_mod, mul_mod, modulo, inv, cset_bit, ct_div, by the polynomial functions (poly_add, poly_sub, poly_mul, poly_div, extended_euclid, the operators of a poly! type) and by vec_poly_add/sub/mul is also returned in the release build. ct_div of unsigned integers is the same function in both.", "quantifier": "all widths, operands, moduli, indices, polynomials of any length, the four coefficient kinds", "why_tests_cant": "Tests run one build profile, on a few inputs.", "anchors": ["hacspec/src/traits.rs: get_bit, set_bit, set, rotate_left, rotate_right", "hacspec/src/machine_integers.rs: add_mod, sub_mod, mul_mod, modulo, inv", "hacspec/src/math_util.rs: signed_mod, extended_euclid_invert, cset_bit, ct_div", "hacspec/src/poly.rs", "hacspec/src/vec_integers.rs: vec_poly_add, vec_poly_sub, vec_poly_mul"]}
{"id": "C104", "title": "Modular arithmetic in a release build returns the residue", "statement": "With overflow checks off, add_mod, sub_mod, mul_mod and inv return the canonical residue of the exact result for every non-zero modulus.", "quantifier": "all widths, operands and moduli", "why_tests_cant": "Tests run in the debug profile; wrong results need operands near the word size.", "anchors": ["hacspec/src/machine_integers.rs: add_mod, sub_mod, mul_mod, modulo, inv", "hacspec/src/math_util.rs: signed_mod, extended_euclid_invert"]}
{"id": "C105", "title": "Bit access, polynomial inversion and sequence arithmetic reject bad arguments in a release build too", "statement": "get_bit and set_bit with an index outside the word or a bit other than 0 and 1, extended_euclid with a polynomial that is not reduced, and element-wise arithmetic of sequences of different lengths panic in a release build as they do in the debug build.", "quantifier": "all words, indices, bits, polynomials, sequences", "why_tests_cant": "Tests run in the debug profile, in which the assertions are active.", "anchors": ["hacspec/src/traits.rs: get_bit, set_bit", "hacspec/src/poly.rs: extended_euclid", "hacspec/src/vec_integers.rs: vec_poly_add, vec_poly_sub, vec_poly_mul"]}
{"id": "C106", "title": "Forging a ciphertext needs luck: attacks with chosen messages and ciphertexts on the AEADs", "statement": "With a random function in place of the block function, an adaptive attack of q questions (encryptions with distinct nonces, decryptions of ciphertexts it was not given) on data of at most L blocks makes decrypt accept with at most q (1 + 2^25 L q) / 2^127 of all functions for ChaCha20-Poly1305, and with at most q (L + 1) / 2^128 for AES-GCM. The functions attacked are the code: with the ChaCha20 block function or AES under a key they are encrypt and decrypt.", "quantifier": "all adaptive attacks, numbers of questions, data of fewer than 2^32 blocks", "why_tests_cant": "The statement is about all attacks and all functions; a test sees one key and one forgery.", "anchors": ["spec-examples/src/chacha20_poly1305/chacha20poly1305.rs: encrypt, decrypt", "spec-examples/src/chacha20_poly1305/chacha20.rs: chacha", "spec-examples/src/chacha20_poly1305/poly1305.rs: poly", "spec-examples/src/aes_gcm/aesgcm.rs: encrypt_aes, decrypt_aes", "spec-examples/src/aes_gcm/aes.rs: aes_ctr_keyblock, aes_counter_mode", "spec-examples/src/aes_gcm/gf128.rs: gmac"]}
{"id": "C107", "title": "Ciphertexts tell nothing about messages but their length", "statement": "With a random function in place of the block function, an adaptive attack that encrypts with distinct nonces sees every history with exactly as many functions as when it asks for other messages of the same lengths. With decryptions as well, whatever is concluded from the answers differs by at most twice the forgery bound.", "quantifier": "all pairs of adaptive attacks whose questions differ only in the messages, numbers of questions, data of fewer than 2^32 blocks, conclusions", "why_tests_cant": "The statement is about the distribution over all functions.", "anchors": ["spec-examples/src/chacha20_poly1305/chacha20poly1305.rs: encrypt, decrypt", "spec-examples/src/chacha20_poly1305/chacha20.rs: chacha", "spec-examples/src/aes_gcm/aesgcm.rs: encrypt_aes, decrypt_aes", "spec-examples/src/aes_gcm/aes.rs: aes_ctr_keyblock, aes_counter_mode"]}
{"id": "C108", "title": "AES-GCM with a random permutation in place of AES", "statement": "AES under a key is a permutation of the blocks. For attacks as in C106 and C107 on AES-GCM in which at most s = q L + 1 blocks are enciphered: whatever is concluded from the answers is concluded with a proportion of all permutations at most 1 / (1 - s (s - 1) / 2^129) times that of all functions; the proportion of permutations with which a forgery is accepted is at most q (L + 1) / (2^128 - s (s - 1) / 2); two attacks that differ only in the messages are told apart with at most (s (s - 1) + 4 q (L + 1)) / (2^129 - s (s - 1)) of them.", "quantifier": "all adaptive attacks, numbers of questions, data of fewer than 2^32 blocks, conclusions", "why_tests_cant": "The statement is about all attacks and all permutations.", "anchors": ["spec-examples/src/aes_gcm/aesgcm.rs: encrypt_aes, decrypt_aes", "spec-examples/src/aes_gcm/aes.rs: aes_ctr_keyblock, aes_counter_mode, aes_encrypt_block", "spec-examples/src/aes_gcm/gf128.rs: gmac"]}
{"id": "C109", "title": "SHA-256 with a random block cipher: collisions, preimages, second preimages", "statement": "compress enciphers the state with the block as key and adds the state. Let the cipher be any family of permutations, and let an attack ask q adaptive questions in both directions. It finds two messages of at most l blocks with one hash value, apart from the pairs that exist because full blocks are not padded, with at most s (s + 1) / (2 (2^256 - s)) of all ciphers, s = q + 2 l; a message with a given hash value, apart from the empty message, with at most s / (2^256 - s), s = q + l; a second message with the hash value of a message of l0 blocks with at most s (l0 + 1) / (2^256 - s), s = l0 + q + l. The excluded pairs have one hash value with every cipher, and the empty message has a known value. The code's schedule and shuffle are one of these ciphers, with which the attacked function is hash.", "quantifier": "all adaptive attacks, numbers of questions, lengths, hash values, messages", "why_tests_cant": "The statement is about all attacks and all ciphers.", "anchors": ["spec-examples/src/sha2/sha2.rs: hash, compress, shuffle, schedule"]}
{"id": "C110", "title": "SHA-3 and SHAKE with a random permutation: collisions and preimages", "statement": "Let any permutation of the states stand for keccakf1600, and let an attack ask q adaptive questions in both directions. For every rate up to 200 bytes and output length n it finds two messages of at most l blocks with one output, also under different domain suffixes, with at most (s (s + 1) 2^(8 rate) + s (s - 1) / 2 * 2^(1600 - 8 min(n, rate))) / (2^1600 - s) of all permutations, s = q + 2 l; and a message with a given output with at most (s (s + 1) 2^(8 rate) + s 2^(1600 - 8 min(n, rate))) / (2^1600 - s), s = q + l. With rate 200 there are collisions of two blocks for every permutation. keccakf1600 is one of these permutations, with which the attacked function is keccak.", "quantifier": "all adaptive attacks, numbers of questions, rates, suffixes, output lengths, outputs", "why_tests_cant": "The statement is about all attacks and all permutations.", "anchors": ["spec-examples/src/fips202/fips202.rs: keccak, absorb_block, squeeze, keccakf1600"]}
{"id": "C111", "title": "BLAKE2b with a random block cipher: collisions, preimages, second preimages", "statement": "compress enciphers state, constants, counter and flag with the block as key and folds the result onto the state. Let any family of permutations of 16 words stand for the rounds, and let an attack ask q adaptive questions in both directions. It finds two different messages of at most l blocks with one hash value with at most s (s + 1) / 2 * 2^512 / (2^1024 - s) of all ciphers, s = q + 2 l; a message with a given hash value, apart from the empty message, with at most s 2^512 / (2^1024 - s), s = q + l; a second message with the hash value of a message of l0 blocks with at most s (l0 + 1) 2^512 / (2^1024 - s), s = l0 + q + l. The empty message has a known value with every cipher. The twelve rounds of the code are one of these ciphers, with which the attacked function is blake2b.", "quantifier": "all adaptive attacks, numbers of questions, lengths, hash values, messages", "why_tests_cant": "The statement is about all attacks and all ciphers.", "anchors": ["spec-examples/src/blake2/blake2b.rs: blake2b, blake2, compress"]}
{"id": "C112", "title": "Arrays do not need their length assertions", "statement": "In a release build, without the debug assertions, the element-wise operators of arrays of one type, their division, the conversions between secret and public arrays, and the word views of byte arrays of any length do what the debug build does: views of bytes that are not whole words panic in both builds. Negation of a secret signed integer agrees except on the smallest number, on which only the debug build panics and which the release build returns unchanged.", "quantifier": "all word sizes, array lengths and contents", "why_tests_cant": "Tests run in the debug profile and array types with other lengths do not occur in them.", "anchors": ["hacspec/src/array.rs: to_be_U32s, to_le_U32s, to_be_U64s, to_le_U64s, to_U128s_be, to_U128s_le, from_public, from_secret_declassify", "hacspec/src/vec_integers.rs: +, -, *, /, ^ of arrays", "secret-integers/src/lib.rs: Neg"]}
{"id": "C113", "title": "HMAC is a pseudorandom function in the ideal cipher model", "statement": "With a random block cipher in place of schedule and shuffle in SHA-256 (with the chaining, the addition and the padding of the code as they are) and a random key of n <= 64 bytes, whoever asks the cipher q times in both directions and for the tags of a messages of at most l blocks accepts the code and a random function of the messages equally often up to 2 (T + a) / 2^(8n) + 2 T / 2^256 + T (T + 1) / (2 (2^256 - T)), T = q + a l, if only messages of whole blocks or none of them are asked for. So the tag of a message that was not asked for is found with at most 1/2^256 more. With messages of both kinds this is false: each message that is not whole blocks has the tag of another one. schedule and shuffle are one of these ciphers, with which the attacked function is hmac.", "quantifier": "all adaptive attacks, numbers of questions, lengths of keys up to 64, lengths of messages", "why_tests_cant": "The statement is about all attacks, keys and ciphers.", "anchors": ["spec-examples/src/hmac/hmac.rs: hmac", "spec-examples/src/sha2/sha2.rs: hash, compress"]}
{"id": "C114", "title": "HKDF-Expand gives independent keys in the ideal cipher model", "statement": "With a random block cipher in place of schedule and shuffle in SHA-256 and a random pseudorandom key of n <= 64 bytes, whoever asks the cipher q times and expand for a outputs of at most 32 N <= 8128 bytes, for strings info whose length is not 31 more than a multiple of 32 and with inputs of HMAC of at most l blocks, accepts the code and independent random bytes for each string equally often up to 2 (T + a N) / 2^(8n) + 2 T / 2^256 + T (T + 1) / (2 (2^256 - T)), T = q + a N l. For other lengths this is false: since whole blocks are not padded there is a string of 31 bytes for which, with every key, bytes 224 to 255 of expand(prk, info, 256) are expand(prk, bytes 192 to 223, 32). schedule and shuffle are one of these ciphers, with which the attacked function is expand.", "quantifier": "all adaptive attacks, numbers of questions, lengths of keys up to 64, strings and output lengths", "why_tests_cant": "The statement is about all attacks, keys and ciphers.", "anchors": ["spec-examples/src/hkdf/hkdf.rs: expand, build_hmac_txt", "spec-examples/src/hmac/hmac.rs: hmac"]}
{"id": "C115", "title": "ChaCha20 blocks are pseudorandom in the random permutation model", "statement": "With a random permutation of states of 16 words in place of the 20 rounds of ChaCha20, which can be asked in both directions, and a random key: whoever asks the permutation q times and for a blocks, by nonce and counter and depending on the answers so far, accepts the code and a random function of nonce and counter equally often up to q (1 + a) / 2^256 + a (a - 1) / 2^513. The rounds are one of these permutations, with which the attacked function is block.", "quantifier": "all adaptive attacks, numbers of questions, nonces and counters", "why_tests_cant": "The statement is about all attacks, keys and permutations.", "anchors": ["spec-examples/src/chacha20_poly1305/chacha20.rs: block, block_inner, block_init, state_to_bytes"]}
{"id": "C116", "title": "ChaCha20-Poly1305 keeps messages secret and authentic in the random permutation model", "statement": "With a random permutation of states in place of the 20 rounds of ChaCha20, which can be asked in both directions, and a random key: whoever asks the permutation q times and n questions for encryption (each nonce once) or decryption (of anything but the answers), of at most L < 2^32 blocks of 16 bytes each, (1) has a ciphertext decrypted for at most n (1 + 2^25 L n) / 2^127 + q (1 + n L) / 2^256 + n L (n L - 1) / 2^513 of all permutations and keys; (2) given a choice of two messages of one length with each question, accepts equally often, whichever are encrypted, up to twice this. The rounds are one of these permutations, with which the attacked functions are encrypt and decrypt.", "quantifier": "all adaptive attacks, numbers of questions, messages, associated data and nonces", "why_tests_cant": "The statement is about all attacks, keys and permutations.", "anchors": ["spec-examples/src/chacha20_poly1305/chacha20poly1305.rs: encrypt, decrypt", "spec-examples/src/chacha20_poly1305/chacha20.rs: block, chacha", "spec-examples/src/chacha20_poly1305/poly1305.rs: poly"]}
{"id": "C117", "title": "AES-GCM keeps messages secret and authentic in the ideal cipher model", "statement": "With a random block cipher in place of AES, which can be asked in both directions and with any keys, and a random key of k bytes: whoever asks the block cipher q times and n questions for encryption (each nonce once) or decryption (of anything but the answers), of at most L < 2^32 blocks of 16 bytes each, with n L < 2^64, (1) has a ciphertext decrypted for at most n (L + 1) / 2^127 + q / 2^(8 k) of all block ciphers and keys; (2) given a choice of two messages of one length with each question, accepts equally often, whichever are encrypted, up to (n L (n L + 1) + 4 n (L + 1)) / 2^128 + 2 q / 2^(8 k). AES is one of these block ciphers, with which the attacked functions are encrypt_aes and decrypt_aes.", "quantifier": "all adaptive attacks, numbers of questions, lengths of keys, messages, associated data and nonces", "why_tests_cant": "The statement is about all attacks, keys and block ciphers.", "anchors": ["spec-examples/src/aes_gcm/aesgcm.rs: encrypt_aes, decrypt_aes", "spec-examples/src/aes_gcm/aes.rs: aes_encrypt_block, aes_encrypt", "spec-examples/src/aes_gcm/gf128.rs: gmac"]}
{"id": "C118", "title": "Overflow of usize in sequence functions is a window that does not fit", "statement": "For sequences of fewer than 2^63 elements and all usize arguments, update_sub, from_sub, sub, from_sub_range, subr, get_chunk_len, get_chunk and set_chunk, computed with the checked 64-bit sums, differences and products of a debug build, return or panic exactly as with unbounded arithmetic: an overflow occurs only when the window or chunk does not lie within the sequence. num_chunks panics on overflow.", "quantifier": "all sequences, arguments and element types", "why_tests_cant": "Arguments near 2^64 are not tried, and the equality is about all arguments.", "anchors": ["hacspec/src/traits.rs: update_sub", "hacspec/src/seq.rs: from_sub, sub, subr, num_chunks, get_chunk, set_chunk", "hacspec/src/array.rs: get_chunk_len, get_chunk, set_chunk"]}
{"id": "C119", "title": "Trails of differences through AES are improbable", "statement": "For rounds of AES (aes_enc) with independent uniform round keys, as block_cipher_aes accepts them, and a uniform block, a second block with a given difference follows a given sequence of differences with a chance of at most 2^-6 for each byte that differs at the beginning of a round; for 4 m rounds and a nonzero first difference the chance is at most 2^(-150 m).", "quantifier": "all sequences of differences and all numbers of rounds; exact shares of all keys and blocks", "why_tests_cant": "The chance is a count over 2^640 keys and blocks for four rounds.", "anchors": ["spec-examples/src/aes_gcm/aes.rs: aes_enc, sub_bytes, shift_rows, mix_columns, add_round_key, rounds_aes, block_cipher_aes"]}
{"id": "C120", "title": "Linear equations through AES are almost balanced", "statement": "For rounds of AES (aes_enc) with independent uniform round keys and a uniform block, the equation that sums bits of the first block, of the block after n rounds and of the round keys, selected by masks u_0, ..., u_n, holds with a chance that differs from 1/2 by at most 2^-(3 w + 1), where w is the number of nonzero bytes of u_0, ..., u_(n-1); for n = 4 m rounds and masks that are not all zero it differs by at most 2^-(75 m + 1). For the S-box and a nonzero mask before it, 112 to 144 of the 256 bytes agree, and both are attained.", "quantifier": "all masks and all numbers of rounds; exact shares of all keys and blocks", "why_tests_cant": "The chance is a count over 2^640 keys and blocks for four rounds, and the bias is too small to be seen.", "anchors": ["spec-examples/src/aes_gcm/aes.rs: aes_enc, sub_bytes, shift_rows, mix_columns, add_round_key, rounds_aes, block_cipher_aes"]}
{"id": "C121", "title": "Sums over sets of blocks through AES", "statement": "If one byte of a block takes all 256 values and the others are fixed, then the 256 blocks after three rounds of AES (aes_enc) have the exclusive or 0 in each byte; if the four bytes 4c, 4c+5, 4c+10, 4c+15 modulo 16 take all 2^32 values, then the 2^32 blocks after four rounds have the exclusive or 0 in each byte. Both hold for all round keys.", "quantifier": "all blocks, positions and round keys", "why_tests_cant": "A test can sum a few sets of 256 blocks, the sums for four rounds have 2^32 blocks each, and there are 2^640 keys and blocks.", "anchors": ["spec-examples/src/aes_gcm/aes.rs: aes_enc, sub_bytes, shift_rows, mix_columns, add_round_key"]}
{"id": "C122", "title": "Parameters nk and nr of the AES block functions", "statement": "aes128_encrypt_block returns exactly if nr = 10 and nk >= 3, aes256_encrypt_block exactly if nr = 14 and nk >= 4; otherwise they panic. What is returned is the cipher with a key schedule of period nk: AES for nk = 4 and nk = 8, a permutation of the blocks for each nk, the same for all nk from 44 (60) on; for other nk it is not AES, so nk is not checked.", "quantifier": "all keys, blocks, nk and nr", "why_tests_cant": "nk and nr are unbounded, and the tests of the repository only pass the parameters of AES.", "anchors": ["spec-examples/src/aes_gcm/aes.rs: aes128_encrypt_block, aes256_encrypt_block, aes_encrypt_block, key_expansion_aes, key_expansion_word, block_cipher_aes"]}
{"id": "C123", "title": "Sums of states through rounds of Keccak", "statement": "If states run through an affine space of dimension more than 2^n, then the states after n rounds of keccakf1600, from any round on, have the exclusive or 0; if the states after n rounds run through an affine space of dimension more than 3^n, then those before have the exclusive or 0. So for b + a rounds and each k > 2^a, k > 3^b, k <= 1600 there are 2^k different states that have the exclusive or 0 before and after the rounds, for example for 16 of the 24 rounds and k = 1025. For one round and dimension 2 the exclusive or need not be 0.", "quantifier": "all rounds, states and directions", "why_tests_cant": "The sums have up to 2^1025 states.", "anchors": ["spec-examples/src/fips202/fips202.rs: keccakf1600, theta, rho, pi, chi, iota"]}
{"id": "C124", "title": "SHA-3 and SHAKE with a random permutation: second preimages", "statement": "Let any permutation of the states stand for keccakf1600, and let an attack ask q adaptive questions in both directions. For every rate up to 200 bytes, output length n and message of l0 blocks it finds another message of at most l blocks, or another domain suffix, with the same output, with at most (s (s + 1) 2^(8 rate) + (l0 (l0 - 1) / 2 + q + l) 2^(1600 - 8 min(n, rate))) / (2^1600 - s) of all permutations, s = l0 + q + l: each question hits the output as rarely as one that is given, also if the message is long.", "quantifier": "all adaptive attacks, numbers of questions, messages, rates, suffixes, output lengths", "why_tests_cant": "The statement is about all attacks and all permutations.", "anchors": ["spec-examples/src/fips202/fips202.rs: keccak, absorb_block, squeeze, keccakf1600"]}
{"id": "C125", "title": "SHA-3 and SHAKE cannot be told from a random function", "statement": "With a random permutation in place of Keccak-f, keccak is indifferentiable from a random function: somebody who knows only the random function, and asks it at most once per question, answers questions about the permutation and its inverse such that whoever asks q questions about the permutation and r about outputs says yes with probabilities that differ by at most n (n + 1) / 2^(8 (200 - rate)), n = q + r (l + J - 1), for messages of at most l blocks under any suffixes and outputs of any length up to J blocks.", "quantifier": "all rates up to 200, all message and output lengths, all suffixes, all adaptive attacks", "why_tests_cant": "all permutations of 1600 bits, all functions and all attacks", "anchors": ["spec-examples/src/fips202/fips202.rs: keccak, absorb_block, squeeze, sha3_256, shake128"]}
{"id": "C126", "title": "Attacks that only add and compare points do not break P-256 or X25519", "statement": "Whoever has public keys computed by point_mul or scalarmult and any other points, and does nothing but add, negate and multiply points and compare pairs of them, finds a secret for at most the share (e + 1) / n of the secrets of P-256 and one with the same public key for at most (e + 2) / 2^251 of X25519, finds the common secret of two public keys, as montgomery_ladder and scalarmult compute it, for at most (e + 2) / n and (e + 4) / 2^251 of the pairs of secrets, and tells it from another public key with advantage at most 3 e / n and 3 e / 2^251, where e is the number of comparisons.", "quantifier": "all adaptive attacks by group operations, all numbers of comparisons, all other points, all secrets", "why_tests_cant": "all secrets and all attacks", "anchors": ["spec-examples/src/p256/p256.rs: point_mul, montgomery_ladder", "spec-examples/src/curve25519/curve25519.rs: scalarmult"]}
{"id": "C127", "title": "Keys that HKDF derives from an input that is hard to guess are like random strings", "statement": "With a random block cipher inside SHA-256 that can be asked in both directions, any salt of at most 64 bytes, and an input ikm of 1 to 55 bytes that is no string with more than the share eps, whoever asks the cipher q times and for a keys of at most 32 N bytes decides for extract followed by expand as often as for random bytes for each string info, up to the bound for expand and (T+1) eps + (T+3)/2^256 with T = q + a N (l+3). This covers n random bytes, and the common secrets of scalarmult for a random secret.", "quantifier": "all adaptive attacks, all salts of at most 64 bytes, all distributions of inputs of 1 to 55 bytes, all numbers of questions", "why_tests_cant": "all ciphers, inputs and attacks", "anchors": ["spec-examples/src/hkdf/hkdf.rs: extract, expand", "spec-examples/src/curve25519/curve25519.rs: scalarmult"]}
{"id": "C128", "title": "Several users of ChaCha20-Poly1305 are safe together", "statement": "With one random permutation in place of the rounds that can be asked in both directions, u users with independent random keys, and m_i questions to the user i by the rules for each user (nonces may be used again by other users, and ciphertexts of one user may be sent to another): no ciphertext is decrypted by a user who did not make it, and it cannot be told which of two messages are encrypted, except for the sum of the bounds for each user alone and q(u+a)/2^256 + a(a-1)/2^513 + u(u-1)/2^257 for q questions to the permutation and a blocks. The last part cannot be left out for two users: their keys are equal that often.", "quantifier": "all adaptive attacks, all numbers of users, all numbers of questions to each", "why_tests_cant": "all permutations, keys of all users and attacks", "anchors": ["spec-examples/src/chacha20_poly1305/chacha20poly1305.rs: encrypt, decrypt", "spec-examples/src/chacha20_poly1305/chacha20.rs: block"]}
{"id": "C129", "title": "Several users of AES-GCM are safe together, but less so the more they are", "statement": "With one random block cipher in place of AES that can be asked with any keys in both directions, u users with independent random keys of k bytes, and m_i questions to the user i by the rules for each user: no ciphertext is decrypted by a user who did not make it, and it cannot be told which of two messages are encrypted, except for the sum of the bounds for each user alone and (uq + u(u-1)/2)/2^(8k) for q questions to the block cipher. The factor u cannot be left out: one question to the block cipher and one to each user make a forgery for the share 1-(1-1/2^(8k))^u.", "quantifier": "all adaptive attacks, all numbers of users, all lengths of keys, all numbers of questions to each", "why_tests_cant": "all block ciphers, keys of all users and attacks", "anchors": ["spec-examples/src/aes_gcm/aesgcm.rs: encrypt_aes, decrypt_aes", "spec-examples/src/aes_gcm/aes.rs: aes_encrypt_block"]}
{"id": "C130", "title": "A key before the text makes tags with SHA-3, but not with SHA-256 and BLAKE2b", "statement": "With a random permutation in place of Keccak-f that can be asked in both directions, and a random key of n bytes, SHA-3 or SHAKE of the key followed by a text cannot be told from a random function of the text, and no tag of t bytes is found for a text that was not asked for, except with the probabilities (N(N+1)+q(q+1))/2^(8(200-rate)) + q/2^(8n), and 1/2^(8t) more, for q questions about the permutation and N applications in all. With sha256::hash every text has another one with the same tag for all keys of one length; with blake2b the tag of an extension of whole blocks follows from the tag.", "quantifier": "all adaptive attacks, all rates, suffixes, lengths of keys, texts and outputs; all keys and texts for the forgeries", "why_tests_cant": "all permutations, keys and attacks", "anchors": ["spec-examples/src/fips202/fips202.rs: keccak, sha3256, shake256", "spec-examples/src/sha2/sha2.rs: hash", "spec-examples/src/blake2/blake2b.rs: blake2b"]}
{"id": "C131", "title": "Encryption in counter mode without authentication gives strings like random ones", "statement": "With a random permutation in place of the rounds, or a random block cipher in place of AES, that can be asked in both directions, and a random key: the results of chacha, and of aes128_encrypt and aes256_encrypt with nonces and counters of the attacker's choice, cannot be told from random strings of the lengths of the messages, as long as no pair of nonce and counter is used for two blocks. The probabilities are at most q(1+s)/2^256 + s(s-1)/2^513 for ChaCha20 and q/2^(8k) + s(s-1)/2^129 for AES with keys of k bytes, for q questions about the permutation or the cipher and s blocks in all. If one block is used twice, the two are always told apart.", "quantifier": "all adaptive attacks, all messages, nonces and counters", "why_tests_cant": "all permutations, block ciphers, keys and attacks", "anchors": ["spec-examples/src/chacha20_poly1305/chacha20.rs: chacha", "spec-examples/src/aes_gcm/aes.rs: aes_counter_mode, aes_encrypt, aes128_encrypt, aes256_encrypt"]}
{"id": "C132", "title": "Authenticated encryption gives strings like random ones and decrypts nothing", "statement": "With a random permutation in place of the rounds, or a random block cipher in place of AES, that can be asked in both directions, and a random key: the ciphertexts and the tags of ChaCha20-Poly1305 and of AES-GCM together cannot be told from random strings of the lengths of the messages and of 16 bytes, and decryption cannot be told from a function that always answers that the tag is invalid, as long as no nonce is used twice for encryption, answers are not sent back, and the data have at most L blocks. For q questions about the permutation or the cipher and n about the encryption, the probabilities differ by at most q(1+nL)/2^256 + nL(nL-1)/2^513 + n(1+2^25 L n)/2^127 + 5n/2^128 for ChaCha20-Poly1305, and q/2^(8k) + (nL(nL+1) + 2n(L+1))/2^129 for AES-GCM with keys of k bytes. The 5n/2^128 is for the tags of Poly1305 as coded, whose addition is modulo 2^130-5.", "quantifier": "all adaptive attacks with encryption and decryption, all messages, data and nonces", "why_tests_cant": "all permutations, block ciphers, keys and attacks", "anchors": ["spec-examples/src/chacha20_poly1305/chacha20poly1305.rs: encrypt, decrypt", "spec-examples/src/aes_gcm/aesgcm.rs: encrypt_aes, decrypt_aes"]}
{"id": "C133", "title": "Few collisions give many messages with one digest", "statement": "Whoever finds two different blocks with one digest after any given beginning (SHA-256 or BLAKE2b), gets with t searches 2^t different messages of t blocks which all have one digest, and which keep one digest after any common ending; there are such blocks after any beginning. With 513 searches for SHA-256 there are two different messages on which SHA-256 and BLAKE2b agree both, so the two digests together do not resist collisions better than one. Because sha256 does not hash the length of whole blocks, a message of whole blocks with the digest of any beginning of another one replaces this beginning, also if their lengths differ.", "quantifier": "all search functions, all numbers of searches, all endings", "why_tests_cant": "all functions that find collisions, and 2^513 messages", "anchors": ["spec-examples/src/sha2/sha2.rs: hash", "spec-examples/src/blake2/blake2b.rs: blake2b"]}
{"id": "C134", "title": "Sessions with keys derived from one secret are safe", "statement": "A key is extracted with HKDF-Extract from a secret of at most 55 bytes that is hard to guess (no value has more than the share eps), with any salt of at most 64 bytes; from it HKDF-Expand derives a key for each of u sessions, with different strings; each session encrypts and decrypts with ChaCha20-Poly1305 or AES-GCM under its key. With a random block cipher inside SHA-256 and, independently, a random permutation inside ChaCha20 or a random block cipher for AES, all of which can be asked in both directions: no session decrypts a ciphertext that it did not make, and nobody can tell which of two messages of one length are encrypted, but for the sum of the bounds of C127 and C128 or C129.", "quantifier": "all adaptive attacks on all primitives and sessions, all secrets, salts and strings", "why_tests_cant": "all ciphers, permutations, secrets and attacks", "anchors": ["spec-examples/src/hkdf/hkdf.rs: extract, expand", "spec-examples/src/chacha20_poly1305/chacha20poly1305.rs: encrypt, decrypt", "spec-examples/src/aes_gcm/aesgcm.rs: encrypt_aes, decrypt_aes"]}
{"id": "C135", "title": "Random nonces suffice for few messages", "statement": "ChaCha20-Poly1305 or AES-GCM is used with a nonce drawn at random for each encryption, with a random permutation inside ChaCha20 or a random block cipher for AES that can be asked in both directions. With n questions altogether, no ciphertext is decrypted that was not made, nobody can tell which of two messages of one length are encrypted, and the ciphertexts are like random strings, but for the bounds of C116, C117 and C132 and n(n-1)/2^97. The last term is needed: for n = 2, an attack that asks nothing of the primitive has exactly this success.", "quantifier": "all adaptive attacks that choose messages and ciphertexts but not the nonces of encryptions", "why_tests_cant": "all permutations, ciphers, keys, nonces and attacks", "anchors": ["spec-examples/src/chacha20_poly1305/chacha20poly1305.rs: encrypt, decrypt", "spec-examples/src/aes_gcm/aesgcm.rs: encrypt_aes, decrypt_aes"]}
{"id": "C136", "title": "Sessions after an X25519 key exchange are safe", "statement": "Two random secrets give a common secret with scalarmult, extract and expand derive from it the keys of sessions with different info strings, and the sessions use ChaCha20-Poly1305 or AES-GCM, with random primitives inside SHA-256, ChaCha20 and AES that can be asked in both directions. Whoever has both public keys as points of the curve, adds, multiplies and compares points without looking at coordinates, and asks the primitives and the sessions by the rules, has no ciphertext decrypted that was not made and cannot tell which of two messages of one length are encrypted, but for the bounds of C134 and e/2^248 for e comparisons. The comparisons may depend on what the sessions answer, which depends on the common secret.", "quantifier": "all adaptive attacks, all secrets and all primitives", "why_tests_cant": "all pairs of secrets, ciphers, permutations and attacks", "anchors": ["spec-examples/src/curve25519/curve25519.rs: scalarmult", "spec-examples/src/hkdf/hkdf.rs: extract, expand", "spec-examples/src/chacha20_poly1305/chacha20poly1305.rs: encrypt, decrypt", "spec-examples/src/aes_gcm/aesgcm.rs: encrypt_aes, decrypt_aes"]}
{"id": "C137", "title": "Keys of a chain stay secret when a later key of the chain is known", "statement": "From a random key, expand derives with one info string a key for use and with another info string the next key of the chain, again and again. Whoever knows the last key of the chain and asks the block cipher inside SHA-256 cannot tell the keys before it from independent random keys, but for the bound of C114 for every step. Sessions of ChaCha20-Poly1305 or AES-GCM with these keys have no forged ciphertext decrypted and keep their messages secret although the last key of the chain is known. With one string for both, the last key of the chain is the last key for use.", "quantifier": "all adaptive attacks, all numbers of steps, all first keys and all primitives", "why_tests_cant": "all ciphers, keys, numbers of steps and attacks", "anchors": ["spec-examples/src/hkdf/hkdf.rs: expand", "spec-examples/src/chacha20_poly1305/chacha20poly1305.rs: encrypt, decrypt", "spec-examples/src/aes_gcm/aesgcm.rs: encrypt_aes, decrypt_aes"]}
{"id": "C138", "title": "HMAC with a random key commits to a message", "statement": "Whoever publishes hmac(k, m) for a random key k has committed to the message m. With a random block cipher inside SHA-256 that can be asked in both directions, nobody finds two different openings (keys of one length and any messages) of one commitment, but for few ciphers; and nobody finds out to which of two messages of their choice a commitment is, but for the bound of C113.", "quantifier": "all adaptive attacks, all messages, all keys and all ciphers", "why_tests_cant": "all ciphers, keys, messages and attacks", "anchors": ["spec-examples/src/hmac/hmac.rs: hmac", "spec-examples/src/sha2/sha2.rs: hash"]}
{"id": "C139", "title": "Encryption and then HMAC is safe", "statement": "A message is encrypted with chacha or aes_encrypt under one key, and nonce and ciphertext are authenticated with hmac under another; the tag is compared before decryption. With a random block cipher inside SHA-256 and a random permutation for the rounds (or a random block cipher for AES), all of which can be asked in both directions, and if nonce and ciphertext together are never whole blocks of 64 bytes: a ciphertext that was not received for its nonce is opened for at most 1/2^256 + the bound of C113 of the keys and primitives, even if nonces are repeated; and if no block of the key stream is used twice, the sealed messages are like random strings of the lengths of the messages with random tags, up to the sum of the bounds of C131 and C113. What is sealed is opened, and with no other tag. Without the restriction of the lengths a second ciphertext with the same tag is found without any key.", "quantifier": "all adaptive attacks, all messages, all keys, all permutations and ciphers", "why_tests_cant": "The statement is about all attacks, keys and primitives.", "anchors": ["spec-examples/src/hmac/hmac.rs: hmac", "spec-examples/src/chacha20_poly1305/chacha20.rs: chacha", "spec-examples/src/aes_gcm/aes.rs: aes_encrypt"]}
{"id": "C140", "title": "Sessions after a P-256 key exchange are safe", "statement": "Two random scalars between 1 and n-1 give public keys by point_mul and a common secret: the x coordinate that montgomery_ladder and jacobian_to_affine compute from one scalar and the other public key, written by to_le_bytes; it is the same on both sides. From it extract and expand derive keys for u sessions of ChaCha20-Poly1305 or AES-GCM. With a random block cipher inside SHA-256 and a random permutation (or block cipher) for the sessions, whoever has both public keys, computes with points without looking at coordinates, and compares e pairs of points, forges a ciphertext or distinguishes messages with at most the bounds of C134 for secrets of which each has share 2/2^255, and e/2^253 (twice that for messages). The length of the common secret depends on the scalars: it is one byte for some.", "quantifier": "all adaptive attacks, all pairs of scalars, all permutations and ciphers", "why_tests_cant": "The statement is about all attacks, scalars and primitives.", "anchors": ["spec-examples/src/p256/p256.rs: point_mul, montgomery_ladder, jacobian_to_affine", "spec-examples/src/hkdf/hkdf.rs: extract, expand", "spec-examples/src/chacha20_poly1305/chacha20poly1305.rs: encrypt, decrypt", "spec-examples/src/aes_gcm/aesgcm.rs: encrypt, decrypt"]}
{"id": "C141", "title": "Which public keys give the same common secrets", "statement": "Two strings, on the curve or its twist, that give the same result of scalarmult for one secret do so for all secrets; outside the five coordinates of small order this happens exactly if the coordinates agree modulo p after doubling three times. In particular a coordinate and its inverse modulo p give the same results, so that a result does not determine the public key; but it does among public keys made by scalarmult from 9. On P-256 the x coordinate of a multiple by a scalar that is not a multiple of n determines the point up to its sign, and both coordinates determine it.", "quantifier": "all pairs of strings of 32 bytes, all secrets, all pairs of points of P-256 and their representations", "why_tests_cant": "There are 2^512 pairs of strings and the equality is for all secrets.", "anchors": ["spec-examples/src/curve25519/curve25519.rs: scalarmult", "spec-examples/src/p256/p256.rs: montgomery_ladder, jacobian_to_affine"]}
{"id": "C142", "title": "How many public keys and common secrets there are", "statement": "A string for a coordinate outside those of small order gives, over all secrets, exactly 2^252 - (l+1)/2 different results of scalarmult if it belongs to a point of the curve, with l the prime order of its subgroup, and exactly (l'+1)/2 - 2^251 if it belongs to the twist, with the prime l'. In particular there are exactly 2^251 - 13871158888686176767925968895441824247 public keys scalarmult(s, 9). point_mul has exactly n different results over all scalars of 256 bits, one of them for infinity.", "quantifier": "all strings of 32 bytes, all secrets, all scalars", "why_tests_cant": "The numbers count the results of 2^256 secrets.", "anchors": ["spec-examples/src/curve25519/curve25519.rs: scalarmult", "spec-examples/src/p256/p256.rs: point_mul"]}
{"id": "C143", "title": "How many coordinates give the same common secrets", "statement": "For every secret of 32 bytes, the coordinates below p that give the same result of scalarmult as a given string are exactly 8 if the string belongs to a point of the curve outside those of small order, exactly 4 if it belongs to such a point of the twist, and exactly 5 if it has one of the coordinates of small order. A public key is thus one of eight that a protocol cannot tell apart by the common secret alone.", "quantifier": "all secrets, all strings of 32 bytes", "why_tests_cant": "The numbers are about all 2^255 coordinates at once.", "anchors": ["spec-examples/src/curve25519/curve25519.rs: scalarmult"]}
{"id": "C144", "title": "How many secrets give a result, and how well it can be guessed", "statement": "For a string outside the coordinates of small order, every result of scalarmult that occurs is that of exactly 64 of the 2^256 secrets if the opposite of the clamped scalar modulo the order of the group is a clamped scalar, and of exactly 32 otherwise. So q guesses of the common secret of a random secret are right for at most 64 q of the 2^256 secrets; for a coordinate of small order one guess is always right. A result of point_mul is that of one or two of the scalars that the type holds, two exactly if the residue modulo n can be increased by n.", "quantifier": "all secrets, all strings of 32 bytes, all finite sets of guesses, all scalars", "why_tests_cant": "The numbers count among 2^256 secrets.", "anchors": ["spec-examples/src/curve25519/curve25519.rs: scalarmult", "spec-examples/src/p256/p256.rs: point_mul"]}
{"id": "C145", "title": "Differences that four rounds of AES never produce", "statement": "Two blocks that differ in exactly one byte, encrypted by the block function with nr = 4 and the same arbitrary round keys, give ciphertexts that differ in at least one byte of each of the four sets {4c, 4c+13, 4c+26, 4c+39 modulo 16}, to which the last round moves the columns. With nr = 5 this is false for some keys and blocks.", "quantifier": "all pairs of blocks that differ in one byte, all round keys, all four sets", "why_tests_cant": "The claim excludes an event with probability 2^-32 for each of about 2^768 pairs of keys and blocks; a test does not meet such an event even if it can happen.", "anchors": ["spec-examples/src/aes_gcm/aes.rs: aes_enc", "spec-examples/src/aes_gcm/aes.rs: aes_enc_last", "spec-examples/src/aes_gcm/aes.rs: block_cipher_aes"]}
{"id": "C146", "title": "Pairs of blocks with parts exchanged, through four rounds of AES", "statement": "Let two blocks exchange any of their diagonals. After two rounds of AES with any round keys the difference of the two blocks is the same as without the exchange. With the block function and nr = 4, the ciphertexts of the two blocks agree in one of the four sets of bytes to which the last round moves the columns exactly if the ciphertexts after the exchange do. With nr = 5 this is false for some keys and blocks.", "quantifier": "all pairs of blocks, all sets of diagonals, all round keys", "why_tests_cant": "Ciphertexts agree in four given bytes with probability 2^-32, and the claim is about all pairs and keys.", "anchors": ["spec-examples/src/aes_gcm/aes.rs: aes_enc", "spec-examples/src/aes_gcm/aes.rs: aes_enc_last", "spec-examples/src/aes_gcm/aes.rs: block_cipher_aes"]}
{"id": "C147", "title": "Five rounds of AES give a multiple of eight collisions", "statement": "Let the four bytes of a diagonal of a block take all 2^32 values. For the block function with nr = 5 and any round keys, the number of ordered pairs of different blocks whose ciphertexts agree in one of the four sets of bytes to which the last round moves the columns is a multiple of 16, that is, the number of unordered pairs is a multiple of 8. For a random permutation such a number is arbitrary.", "quantifier": "all blocks, all diagonals, all round keys, all four sets", "why_tests_cant": "One instance needs 2^32 encryptions and a count over 2^64 pairs.", "anchors": ["spec-examples/src/aes_gcm/aes.rs: aes_enc", "spec-examples/src/aes_gcm/aes.rs: aes_enc_last", "spec-examples/src/aes_gcm/aes.rs: block_cipher_aes"]}
