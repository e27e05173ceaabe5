{
 "claims": [
  {
   "property": "C01",
   "status": "proved",
   "theorems": [
    "Hacspec.Props.C01_comp_eq",
    "Hacspec.Props.C01_comp_ne",
    "Hacspec.Props.C01_comp_gte",
    "Hacspec.Props.C01_comp_gt",
    "Hacspec.Props.C01_comp_lte",
    "Hacspec.Props.C01_comp_lt"
   ],
   "note": ""
  },
  {
   "property": "C02",
   "status": "proved",
   "theorems": [
    "Hacspec.Props.C02_unsigned_ring",
    "Hacspec.Props.C02_signed_ring",
    "Hacspec.Props.C02_neg_unsigned",
    "Hacspec.Props.C02_neg_signed",
    "Hacspec.Props.C02_checked_unsigned",
    "Hacspec.Props.C02_checked_signed",
    "Hacspec.Props.C02_constants"
   ],
   "note": ""
  },
  {
   "property": "C03",
   "status": "proved",
   "theorems": [
    "Hacspec.Props.C03_decode_encode",
    "Hacspec.Props.C03_encode_decode",
    "Hacspec.Props.C03_positional"
   ],
   "note": ""
  },
  {
   "property": "C04",
   "status": "proved",
   "theorems": [
    "Hacspec.Props.C04_rotl_bits",
    "Hacspec.Props.C04_rotr_bits",
    "Hacspec.Props.C04_inverse",
    "Hacspec.Props.C04_trait_rotate",
    "Hacspec.Props.C04_trait_rotate_signed_refuted"
   ],
   "note": "Trait rotations proved for unsigned types of every power-of-two width; refuted for signed types."
  },
  {
   "property": "C05",
   "status": "proved",
   "theorems": [
    "Hacspec.Props.C05_castU",
    "Hacspec.Props.C05_castS",
    "Hacspec.Props.C05_castSign"
   ],
   "note": ""
  },
  {
   "property": "C06",
   "status": "proved",
   "theorems": [
    "Hacspec.Props.C06_get_bit",
    "Hacspec.Props.C06_set_bit",
    "Hacspec.Props.C06_set"
   ],
   "note": ""
  },
  {
   "property": "C07",
   "status": "proved",
   "theorems": [
    "Hacspec.Props.C07_select",
    "Hacspec.Props.C07_cset_bit"
   ],
   "note": ""
  },
  {
   "property": "C08",
   "status": "proved",
   "theorems": [
    "Hacspec.Props.C08_ct_div",
    "Hacspec.Props.C08_ct_div_zero",
    "Hacspec.Props.C08_ct_div_signed_refuted",
    "Hacspec.Props.C08_ct_div_signed_partial",
    "Hacspec.Props.C08_ct_div_secret_signed"
   ],
   "note": "Proved for all unsigned widths 2..128 bits; signed counterexample recorded."
  },
  {
   "property": "C09",
   "status": "partial",
   "theorems": [
    "Hacspec.Props.C09_masks_unsigned_partial",
    "Hacspec.Props.C09_masks_signed_refuted",
    "Hacspec.Props.C09_masks_signed_value"
   ],
   "note": "Holds for unsigned types; refuted for every signed type and relation (mask is 0x7F..F)."
  },
  {
   "property": "C10",
   "status": "proved",
   "theorems": [
    "Hacspec.Props.C10_add_mul_mod_unsigned",
    "Hacspec.Props.C10_sub_mod_unsigned",
    "Hacspec.Props.C10_signed",
    "Hacspec.Props.C10_signed_fits",
    "Hacspec.Props.C10_signed_zero",
    "Hacspec.Props.C10_signed_negative_modulus"
   ],
   "note": ""
  },
  {
   "property": "C11",
   "status": "partial",
   "theorems": [
    "Hacspec.Props.C11_inv_partial",
    "Hacspec.Props.C11_inv_public",
    "Hacspec.Props.C11_inv_zero_refuted",
    "Hacspec.Props.C11_inv_overflow_refuted",
    "Hacspec.Props.C11_inv_wrong_refuted",
    "Hacspec.Props.C11_inv_diverges_refuted"
   ],
   "note": "Proved for all moduli n > 1 whose square fits the type (public/secret, signed/unsigned) and x > 0; for public integers results are right for every modulus (inverse or panic). Refuted beyond: overflow panic, silently wrong secret result, divergence, and x = 0 returning 0."
  },
  {
   "property": "C12",
   "status": "proved",
   "theorems": [
    "Hacspec.Props.C12_pow"
   ],
   "note": ""
  },
  {
   "property": "C13",
   "status": "proved",
   "theorems": [
    "Hacspec.Props.C13_update_sub",
    "Hacspec.Props.C13_update"
   ],
   "note": ""
  },
  {
   "property": "C14",
   "status": "proved",
   "theorems": [
    "Hacspec.Props.C14_chunks_partition",
    "Hacspec.Props.C14_num_chunks",
    "Hacspec.Props.C14_get_chunk_panics"
   ],
   "note": ""
  },
  {
   "property": "C15",
   "status": "proved",
   "theorems": [
    "Hacspec.Props.C15_set_get",
    "Hacspec.Props.C15_get_set",
    "Hacspec.Props.C15_fill_all"
   ],
   "note": ""
  },
  {
   "property": "C16",
   "status": "proved",
   "theorems": [
    "Hacspec.Props.C16_from_public_slice",
    "Hacspec.Props.C16_sub",
    "Hacspec.Props.C16_range",
    "Hacspec.Props.C16_array_exact",
    "Hacspec.Props.C16_from_slice",
    "Hacspec.Props.C16_public_secret"
   ],
   "note": ""
  },
  {
   "property": "C17",
   "status": "partial",
   "theorems": [
    "Hacspec.Props.C17_roundtrip",
    "Hacspec.Props.C17_to_hex",
    "Hacspec.Props.C17_from_hex",
    "Hacspec.Props.C17_odd_panics",
    "Hacspec.Props.C17_accepts_only_partial",
    "Hacspec.Props.C17_rejects_non_hex_refuted"
   ],
   "note": "Round trip, injectivity, decoding of digit pairs, odd-length panic proved for all strings; 'rejects every non-hex character' refuted by \"+f\"; exact set of accepted strings proved."
  },
  {
   "property": "C18",
   "status": "proved",
   "theorems": [
    "Hacspec.Props.C18_word_views",
    "Hacspec.Props.C18_words_of_bytes",
    "Hacspec.Props.C18_public_views",
    "Hacspec.Props.C18_free_functions"
   ],
   "note": ""
  },
  {
   "property": "C19",
   "status": "partial",
   "theorems": [
    "Hacspec.Props.C19_array_operators_refuted",
    "Hacspec.Props.C19_arrays",
    "Hacspec.Props.C19_array_div",
    "Hacspec.Props.C19_public_seq",
    "Hacspec.Props.C19_modular",
    "Hacspec.Props.C19_public_xor_refuted",
    "Hacspec.Props.C19_public_mul_poly_refuted"
   ],
   "note": "The implemented array operators and PublicSeq + - * proved element-wise; refuted for the unimplemented array operators (always panic), for PublicSeq ^ (always empty) and for the documented polynomial meaning of PublicSeq *."
  },
  {
   "property": "C20",
   "status": "partial",
   "theorems": [
    "Hacspec.Props.C20_convert",
    "Hacspec.Props.C20_from_literal",
    "Hacspec.Props.C20_api_values_in_range",
    "Hacspec.Props.C20_max_refuted"
   ],
   "note": "Conversion exact/faithful on the accepted range for every width, invariant over all API histories; refuted at the top: max() = 2^bits-1 is always rejected."
  },
  {
   "property": "C21",
   "status": "proved",
   "theorems": [
    "Hacspec.Props.C21_ring",
    "Hacspec.Props.C21_div_rem",
    "Hacspec.Props.C21_div_rem_unsigned",
    "Hacspec.Props.C21_pow_felem",
    "Hacspec.Props.C21_pow",
    "Hacspec.Props.C21_order"
   ],
   "note": ""
  },
  {
   "property": "C22",
   "status": "proved",
   "theorems": [
    "Hacspec.Props.C22_bit",
    "Hacspec.Props.C22_bit_nat",
    "Hacspec.Props.C22_from_le_bytes",
    "Hacspec.Props.C22_to_le_bytes",
    "Hacspec.Props.C22_from_hex",
    "Hacspec.Props.C22_from_hex_odd",
    "Hacspec.Props.C22_from_hex_signed",
    "Hacspec.Props.C22_from_hex_no_sign_refuted"
   ],
   "note": "All codecs proved for every width; the signed from_hex with the accepted sign \"\" reads every string as 0 (refutation recorded)."
  },
  {
   "property": "C23",
   "status": "partial",
   "theorems": [
    "Hacspec.Props.C23_nonneg_partial",
    "Hacspec.Props.C23_negative_refuted"
   ],
   "note": "Non-negative literals proved; every negative literal refuted (panics or becomes x+2^128)."
  },
  {
   "property": "C24",
   "status": "partial",
   "theorems": [
    "Hacspec.Props.C24_reduced_partial",
    "Hacspec.Props.C24_bounded",
    "Hacspec.Props.C24_literals",
    "Hacspec.Props.C24_literal_refuted"
   ],
   "note": "Invariant < n over all API histories that do not use the modulus itself as literal; <= n in general; refuted for from_literal(n)."
  },
  {
   "property": "C25",
   "status": "proved",
   "theorems": [
    "Hacspec.Props.C25_ring",
    "Hacspec.Props.C25_pow",
    "Hacspec.Props.C25_from_bytes",
    "Hacspec.Props.C25_from_secret_literal"
   ],
   "note": ""
  },
  {
   "property": "C26",
   "status": "proved",
   "theorems": [
    "Hacspec.Props.C26_inverse",
    "Hacspec.Props.C26_concrete_fields"
   ],
   "note": ""
  },
  {
   "property": "C27",
   "status": "partial",
   "theorems": [
    "Hacspec.Props.C27_div_is_floor_partial",
    "Hacspec.Props.C27_rem",
    "Hacspec.Props.C27_not_field_division_refuted"
   ],
   "note": "Floor division proved; field division refuted for every odd modulus > 2."
  },
  {
   "property": "C28",
   "status": "proved",
   "theorems": [
    "Hacspec.Props.C28_add",
    "Hacspec.Props.C28_add_int",
    "Hacspec.Props.C28_sub",
    "Hacspec.Props.C28_sub_int",
    "Hacspec.Props.C28_mul",
    "Hacspec.Props.C28_mul_plain",
    "Hacspec.Props.C28_mul_int_refuted"
   ],
   "note": "add/sub/mul over Z_n for all four integer families and every width 2..128; poly_mul with n = 0 panics (refutation recorded); plain multiplication over Z proved under an explicit size bound."
  },
  {
   "property": "C29",
   "status": "partial",
   "theorems": [
    "Hacspec.Props.C29_div_partial",
    "Hacspec.Props.C29_div_monic",
    "Hacspec.Props.C29_div_square_refuted",
    "Hacspec.Props.C29_div_by_zero",
    "Hacspec.Props.C29_div_not_invertible",
    "Hacspec.Props.C29_div_int_refuted"
   ],
   "note": "Quotient/remainder and uniqueness proved for reduced operands, invertible leading coefficient and n^2 representable, if the products formed by the code fit (always for a monic divisor, or when n^3 is representable); refuted without that condition (panic at 8 bits, n = 13). Panics for zero divisor and non-invertible leading coefficient proved; refuted for n = 0."
  },
  {
   "property": "C30",
   "status": "proved",
   "theorems": [
    "Hacspec.Props.C30_leading_coefficient",
    "Hacspec.Props.C30_normalize",
    "Hacspec.Props.C30_monomial",
    "Hacspec.Props.C30_make_fixed_length",
    "Hacspec.Props.C30_make_fixed_length_poly",
    "Hacspec.Props.C30_is_zero_divx",
    "Hacspec.Props.C30_z_inv"
   ],
   "note": ""
  },
  {
   "property": "C31",
   "status": "partial",
   "theorems": [
    "Hacspec.Props.C31_sha256_partial",
    "Hacspec.Props.C31_whole_blocks",
    "Hacspec.Props.C31_sha256_refuted",
    "Hacspec.Props.C31_empty",
    "Hacspec.Props.C31_too_long"
   ],
   "note": "Equal to FIPS 180-4 SHA-256 for all lengths below 2^61 that are not multiples of 64; for multiples of 64 the unpadded iteration is proved and the claim refuted (empty message, one block)."
  },
  {
   "property": "C32",
   "status": "partial",
   "theorems": [
    "Hacspec.Props.C32_collision_refuted",
    "Hacspec.Props.C32_pad_injective_partial"
   ],
   "note": "Refuted: every message not a whole number of blocks collides with its padded form. Injectivity of the FIPS padding itself proved."
  },
  {
   "property": "C33",
   "status": "proved",
   "theorems": [
    "Hacspec.Props.C33_hmac",
    "Hacspec.Props.C33_hmac_sha256",
    "Hacspec.Props.C33_hmac_sha256_refuted",
    "Hacspec.Props.C33_length",
    "Hacspec.Props.C33_collision"
   ],
   "note": "RFC 2104 over the hash used for all keys/messages; equals HMAC-SHA-256 when no hashed string is a multiple of 64 bytes; refuted otherwise; key-independent collisions shown."
  },
  {
   "property": "C34",
   "status": "partial",
   "theorems": [
    "Hacspec.Props.C34_extract",
    "Hacspec.Props.C34_expand_partial",
    "Hacspec.Props.C34_expand_limit_refuted",
    "Hacspec.Props.C34_expand_prefix"
   ],
   "note": "extract for all inputs, expand for all l <= 8128 (length, prefix); lengths 8129..8160 refuted (panic)."
  },
  {
   "property": "C35",
   "status": "proved",
   "theorems": [
    "Hacspec.Props.C35_block",
    "Hacspec.Props.C35_chacha"
   ],
   "note": ""
  },
  {
   "property": "C36",
   "status": "proved",
   "theorems": [
    "Hacspec.Props.C36_involution"
   ],
   "note": ""
  },
  {
   "property": "C37",
   "status": "proved",
   "theorems": [
    "Hacspec.Props.C37_line",
    "Hacspec.Props.C37_quarter_round",
    "Hacspec.Props.C37_no_panic",
    "Hacspec.Props.C37_double_round",
    "Hacspec.Props.C37_rounds"
   ],
   "note": ""
  },
  {
   "property": "C38",
   "status": "partial",
   "theorems": [
    "Hacspec.Props.C38_poly",
    "Hacspec.Props.C38_poly_rfc_partial",
    "Hacspec.Props.C38_refuted",
    "Hacspec.Props.C38_total",
    "Hacspec.Props.C38_key_gen",
    "Hacspec.Props.C38_poly_mac"
   ],
   "note": "The code's exact result is proved for all inputs; it equals the RFC 8439 tag iff accumulator + s < 2^130-5 (proved as an iff). The unrestricted claim is false: C38_refuted."
  },
  {
   "property": "C39",
   "status": "proved",
   "theorems": [
    "Hacspec.Props.C39_encrypt",
    "Hacspec.Props.C39_decrypt",
    "Hacspec.Props.C39_round_trip",
    "Hacspec.Props.C39_rfc"
   ],
   "note": "Round trip, rejection of every other tag, lengths and panic freedom for all inputs below 2^63 bytes; the tag is the code's Poly1305 (see C38)."
  },
  {
   "property": "C40",
   "status": "proved",
   "theorems": [
    "Hacspec.Props.C40_aes_gcm",
    "Hacspec.Props.C40_chacha"
   ],
   "note": "Both AEADs, lengths below 2^61."
  },
  {
   "property": "C41",
   "status": "proved",
   "theorems": [
    "Hacspec.Props.C41_sbox",
    "Hacspec.Props.C41_sub_bytes",
    "Hacspec.Props.C41_shift_rows",
    "Hacspec.Props.C41_mix_columns",
    "Hacspec.Props.C41_add_round_key",
    "Hacspec.Props.C41_xtime"
   ],
   "note": ""
  },
  {
   "property": "C42",
   "status": "proved",
   "theorems": [
    "Hacspec.Props.C42_cipher",
    "Hacspec.Props.C42_aes128",
    "Hacspec.Props.C42_aes256",
    "Hacspec.Props.C42_key_expansion",
    "Hacspec.Props.C42_inverse",
    "Hacspec.Props.C42_permutation"
   ],
   "note": "Both key sizes; refinement of key expansion and cipher, and bijectivity by the FIPS-197 inverse cipher."
  },
  {
   "property": "C43",
   "status": "proved",
   "theorems": [
    "Hacspec.Props.C43_ctr"
   ],
   "note": "All messages below 2^63 bytes."
  },
  {
   "property": "C44",
   "status": "proved",
   "theorems": [
    "Hacspec.Props.C44_fmul",
    "Hacspec.Props.C44_fadd",
    "Hacspec.Props.C44_mul_comm",
    "Hacspec.Props.C44_mul_assoc",
    "Hacspec.Props.C44_distrib",
    "Hacspec.Props.C44_one",
    "Hacspec.Props.C44_add",
    "Hacspec.Props.C44_gmac"
   ],
   "note": "fmul/fadd against polynomials over ZMod 2 modulo P; ring laws; gmac = GHASH for all texts."
  },
  {
   "property": "C45",
   "status": "proved",
   "theorems": [
    "Hacspec.Props.C45_encrypt",
    "Hacspec.Props.C45_decrypt",
    "Hacspec.Props.C45_round_trip"
   ],
   "note": "All messages below 2^63 bytes (a Rust Vec cannot be longer); tag argument of 16 bytes (its type)."
  },
  {
   "property": "C46",
   "status": "partial",
   "theorems": [
    "Hacspec.Props.C46_blake2b_partial",
    "Hacspec.Props.C46_whole_blocks",
    "Hacspec.Props.C46_blake2b_refuted",
    "Hacspec.Props.C46_total",
    "Hacspec.Props.C46_mix",
    "Hacspec.Props.C46_compress",
    "Hacspec.Props.C46_iv"
   ],
   "note": "Equal to RFC 7693 BLAKE2b-512 for all lengths that are not multiples of 128 (below 2^63); for multiples of 128 the exact value computed (last block not marked final) is proved and the claim refuted on the empty message and one block."
  },
  {
   "property": "C47",
   "status": "partial",
   "theorems": [
    "Hacspec.Props.C47_blake2s_refuted",
    "Hacspec.Props.C47_blake2s64_refuted"
   ],
   "note": "The claim is false: the generic code at 32-bit words panics for every input and every variant. Proved as a refutation for all inputs."
  },
  {
   "property": "C48",
   "status": "proved",
   "theorems": [
    "Hacspec.Props.C48_theta",
    "Hacspec.Props.C48_rho",
    "Hacspec.Props.C48_pi",
    "Hacspec.Props.C48_chi",
    "Hacspec.Props.C48_iota",
    "Hacspec.Props.C48_keccakf",
    "Hacspec.Props.C48_permutation",
    "Hacspec.Props.C48_steps_permutation"
   ],
   "note": "Bit-level specification; the permutation property is proved by inverting theta on column parities (L^192 = id) and injectivity of the other steps."
  },
  {
   "property": "C49",
   "status": "proved",
   "theorems": [
    "Hacspec.Props.C49_sha3_224",
    "Hacspec.Props.C49_sha3_256",
    "Hacspec.Props.C49_sha3_384",
    "Hacspec.Props.C49_sha3_512",
    "Hacspec.Props.C49_shake128",
    "Hacspec.Props.C49_shake256",
    "Hacspec.Props.C49_bits_injective"
   ],
   "note": "All messages below 2^63 bytes (a Rust Vec cannot be longer); bit-level specification of FIPS 202."
  },
  {
   "property": "C50",
   "status": "proved",
   "theorems": [
    "Hacspec.Props.C50_shake128",
    "Hacspec.Props.C50_shake256"
   ],
   "note": ""
  },
  {
   "property": "C51",
   "status": "proved",
   "theorems": [
    "Hacspec.Props.C51_decode_scalar",
    "Hacspec.Props.C51_decode_point",
    "Hacspec.Props.C51_round_trip",
    "Hacspec.Props.C51_canonical"
   ],
   "note": ""
  },
  {
   "property": "C52",
   "status": "proved",
   "theorems": [
    "Hacspec.Props.C52_point_exists",
    "Hacspec.Props.C52_scalarmult"
   ],
   "note": ""
  },
  {
   "property": "C53",
   "status": "partial",
   "theorems": [
    "Hacspec.Props.C53_secret_to_public_refuted"
   ],
   "note": "The claim is false: secret_to_public panics for every scalar (base point literal of one byte). Proved as a refutation for all inputs."
  },
  {
   "property": "C54",
   "status": "proved",
   "theorems": [
    "Hacspec.Props.C54_representable",
    "Hacspec.Props.C54_double",
    "Hacspec.Props.C54_add",
    "Hacspec.Props.C54_base_point"
   ],
   "note": ""
  },
  {
   "property": "C55",
   "status": "proved",
   "theorems": [
    "Hacspec.Props.C55_ladder",
    "Hacspec.Props.C55_to_affine",
    "Hacspec.Props.C55_point_mul"
   ],
   "note": ""
  },
  {
   "property": "C56",
   "status": "proved",
   "theorems": [
    "Hacspec.Props.C56_mul",
    "Hacspec.Props.C56_no_wrap",
    "Hacspec.Props.C56_panic",
    "Hacspec.Props.C56_closed"
   ],
   "note": ""
  },
  {
   "property": "C57",
   "status": "proved",
   "theorems": [
    "Hacspec.Props.C57_encrypt",
    "Hacspec.Props.C57_agrees",
    "Hacspec.Props.C57_decrypt"
   ],
   "note": ""
  },
  {
   "property": "C58",
   "status": "proved",
   "theorems": [
    "Hacspec.Props.C58_sha256",
    "Hacspec.Props.C58_hmac",
    "Hacspec.Props.C58_hkdf_expand",
    "Hacspec.Props.C58_chacha20_poly1305",
    "Hacspec.Props.C58_aes_gcm",
    "Hacspec.Props.C58_blake2b_sha3"
   ],
   "note": ""
  },
  {
   "property": "C59",
   "status": "partial",
   "theorems": [
    "Hacspec.Props.C59_add_sub",
    "Hacspec.Props.C59_mul_partial",
    "Hacspec.Props.C59_mul_monic",
    "Hacspec.Props.C59_div_partial",
    "Hacspec.Props.C59_from_vec",
    "Hacspec.Props.C59_from_vec_truncates_refuted",
    "Hacspec.Props.C59_from_vec_panic",
    "Hacspec.Props.C59_new",
    "Hacspec.Props.C59_irr"
   ],
   "note": "+, - proved; * proved for every monic modulus with n^2 representable; general *, / under the condition of C29; from_vec proved below degree l and refuted at degree l."
  },
  {
   "property": "C60",
   "status": "proved",
   "theorems": [
    "Hacspec.Props.C60_agreement"
   ],
   "note": ""
  },
  {
   "property": "C61",
   "status": "proved",
   "theorems": [
    "Hacspec.Props.C61_small_order"
   ],
   "note": ""
  },
  {
   "property": "C62",
   "status": "proved",
   "theorems": [
    "Hacspec.Props.C62_to_bytes",
    "Hacspec.Props.C62_from_bytes",
    "Hacspec.Props.C62_byte"
   ],
   "note": ""
  },
  {
   "property": "C63",
   "status": "proved",
   "theorems": [
    "Hacspec.Props.C63_i32",
    "Hacspec.Props.C63_unsigned",
    "Hacspec.Props.C63_read_write",
    "Hacspec.Props.C63_range"
   ],
   "note": ""
  },
  {
   "property": "C64",
   "status": "partial",
   "theorems": [
    "Hacspec.Props.C64_unsigned",
    "Hacspec.Props.C64_signed",
    "Hacspec.Props.C64_eq",
    "Hacspec.Props.C64_lex",
    "Hacspec.Props.C64_total",
    "Hacspec.Props.C64_secret_signed_refuted"
   ],
   "note": "Holds for unsigned and signed public arrays; refuted for signed secret arrays, whose cmp is unimplemented!()."
  },
  {
   "property": "C65",
   "status": "partial",
   "theorems": [
    "Hacspec.Props.C65_bounded_refuted",
    "Hacspec.Props.C65_bounded_partial",
    "Hacspec.Props.C65_modular",
    "Hacspec.Props.C65_arrays",
    "Hacspec.Props.C65_signed_arrays_refuted"
   ],
   "note": "Holds for modular integers, unsigned arrays and PublicSeq; refuted for bounded integers (they panic whenever the result is not representable) and for signed arrays (unimplemented!())."
  },
  {
   "property": "C66",
   "status": "proved",
   "theorems": [
    "Hacspec.Props.C66_order",
    "Hacspec.Props.C66_ladder_infinity",
    "Hacspec.Props.C66_point_mul_zero",
    "Hacspec.Props.C66_point_mul_eq",
    "Hacspec.Props.C66_point_mul_x",
    "Hacspec.Props.C66_point_mul_onto"
   ],
   "note": ""
  },
  {
   "property": "C67",
   "status": "proved",
   "theorems": [
    "Hacspec.Props.C67_exchange",
    "Hacspec.Props.C67_contributory"
   ],
   "note": ""
  },
  {
   "property": "C68",
   "status": "proved",
   "theorems": [
    "Hacspec.Props.C68_zero_output"
   ],
   "note": ""
  },
  {
   "property": "C69",
   "status": "proved",
   "theorems": [
    "Hacspec.Props.C69_same_result"
   ],
   "note": ""
  },
  {
   "property": "C70",
   "status": "proved",
   "theorems": [
    "Hacspec.Props.C70_order",
    "Hacspec.Props.C70_public_key"
   ],
   "note": ""
  },
  {
   "property": "C71",
   "status": "proved",
   "theorems": [
    "Hacspec.Props.C71_irreducible",
    "Hacspec.Props.C71_no_zero_divisors",
    "Hacspec.Props.C71_division"
   ],
   "note": ""
  },
  {
   "property": "C72",
   "status": "proved",
   "theorems": [
    "Hacspec.Props.C72_gmac_universal",
    "Hacspec.Props.C72_gcm_universal"
   ],
   "note": ""
  },
  {
   "property": "C73",
   "status": "proved",
   "theorems": [
    "Hacspec.Props.C73_poly1305_universal",
    "Hacspec.Props.C73_aead_universal"
   ],
   "note": ""
  },
  {
   "property": "C74",
   "status": "partial",
   "theorems": [
    "Hacspec.Props.C74_blake2b_extension_refuted",
    "Hacspec.Props.C74_sha256_extension_refuted",
    "Hacspec.Props.C74_blake2b_collision",
    "Hacspec.Props.C74_sha256_collision"
   ],
   "note": "The claim is false for blake2b and sha256::hash on messages of full blocks (missing final flag, missing padding): an explicit extension function is proved correct for all messages. What remains proved is the persistence of collisions."
  },
  {
   "property": "C75",
   "status": "proved",
   "theorems": [
    "Hacspec.Props.C75_mix",
    "Hacspec.Props.C75_round",
    "Hacspec.Props.C75_rounds",
    "Hacspec.Props.C75_rows"
   ],
   "note": ""
  },
  {
   "property": "C76",
   "status": "proved",
   "theorems": [
    "Hacspec.Props.C76_zeros",
    "Hacspec.Props.C76_long_key",
    "Hacspec.Props.C76_short_keys",
    "Hacspec.Props.C76_salt"
   ],
   "note": ""
  },
  {
   "property": "C77",
   "status": "partial",
   "theorems": [
    "Hacspec.Props.C77_gcm_repeats_refuted",
    "Hacspec.Props.C77_gcm_tag_mask_refuted",
    "Hacspec.Props.C77_gcm_distinct_partial",
    "Hacspec.Props.C77_chacha_repeats_refuted",
    "Hacspec.Props.C77_chacha_forgery_refuted",
    "Hacspec.Props.C77_ctr_append"
   ],
   "note": "The claim is false: no call rejects a long message and the 32-bit counter wraps. Refuted for both AEADs with the consequences (repeated key stream, exposed tag mask, forgeries); proved for AES-GCM within the limit of the standard."
  },
  {
   "property": "C78",
   "status": "partial",
   "theorems": [
    "Hacspec.Props.C78_exact",
    "Hacspec.Props.C78_large_refuted",
    "Hacspec.Props.C78_bytes_refuted",
    "Hacspec.Props.C78_never_refuted",
    "Hacspec.Props.C78_bytes_partial"
   ],
   "note": "The claim is false: every word receives one byte of the string. The exact behaviour is proved, and refutations for words above 255 and for the hexadecimal form of the bytes."
  },
  {
   "property": "C79",
   "status": "partial",
   "theorems": [
    "Hacspec.Props.C79_sound",
    "Hacspec.Props.C79_prime",
    "Hacspec.Props.C79_long",
    "Hacspec.Props.C79_inv",
    "Hacspec.Props.C79_field",
    "Hacspec.Props.C79_composite_refuted",
    "Hacspec.Props.C79_panic_refuted"
   ],
   "note": "Proved for prime moduli, and soundness of results for all moduli; refuted for composite moduli, where an inverse may exist although an error is returned or the call panics."
  },
  {
   "property": "C80",
   "status": "partial",
   "theorems": [
    "Hacspec.Props.C80_sha256_chain",
    "Hacspec.Props.C80_sha256",
    "Hacspec.Props.C80_sha256_padded",
    "Hacspec.Props.C80_sha256_same_length",
    "Hacspec.Props.C80_sha256_refuted",
    "Hacspec.Props.C80_hmac",
    "Hacspec.Props.C80_blake2b_chain",
    "Hacspec.Props.C80_blake2b",
    "Hacspec.Props.C80_blake2b_empty"
   ],
   "note": "Proved for SHA-256 messages of one length or whose last block is not full, for HMAC on the same terms, and for BLAKE2b of non-empty messages. Refuted in general (padding pairs of SHA-256); all collisions of SHA-256 and those of BLAKE2b with the empty message are classified."
  },
  {
   "property": "C81",
   "status": "partial",
   "theorems": [
    "Hacspec.Props.C81_gcm_refuted",
    "Hacspec.Props.C81_chacha_refuted"
   ],
   "note": "The claim is false: refuted for AES-GCM for all pairs of keys with different hash subkeys and for ChaCha20-Poly1305 with a witness."
  },
  {
   "property": "C82",
   "status": "partial",
   "theorems": [
    "Hacspec.Props.C82_gcm_messages",
    "Hacspec.Props.C82_chacha_messages",
    "Hacspec.Props.C82_gcm_forgery_refuted",
    "Hacspec.Props.C82_chacha_forgery_refuted"
   ],
   "note": "The first part is proved for both AEADs. The second part is false: all tags of a third ciphertext are among a computable list whose length is bounded by the number of blocks, for every key."
  },
  {
   "property": "C83",
   "status": "proved",
   "theorems": [
    "Hacspec.Props.C83_chain",
    "Hacspec.Props.C83_blocks_injective",
    "Hacspec.Props.C83_state_collision",
    "Hacspec.Props.C83_inner_collision_extends",
    "Hacspec.Props.C83_reversible"
   ],
   "note": ""
  },
  {
   "property": "C84",
   "status": "partial",
   "theorems": [
    "Hacspec.Props.C84_numerals",
    "Hacspec.Props.C84_int_numerals",
    "Hacspec.Props.C84_unsigned",
    "Hacspec.Props.C84_signed",
    "Hacspec.Props.C84_hex",
    "Hacspec.Props.C84_bounded",
    "Hacspec.Props.C84_secret_refuted",
    "Hacspec.Props.C84_bounded_eq",
    "Hacspec.Props.C84_array",
    "Hacspec.Props.C84_array_eq",
    "Hacspec.Props.C84_poly_eq",
    "Hacspec.Props.C84_fixed_text"
   ],
   "note": "The texts are proved to be the numerals of the values, for all types, and to determine them. Therefore the last part is false: printing reveals secrets."
  },
  {
   "property": "C85",
   "status": "proved",
   "theorems": [
    "Hacspec.Props.C85_array",
    "Hacspec.Props.C85_seq",
    "Hacspec.Props.C85_uniform",
    "Hacspec.Props.C85_independent"
   ],
   "note": ""
  },
  {
   "property": "C86",
   "status": "proved",
   "theorems": [
    "Hacspec.Props.C86_window",
    "Hacspec.Props.C86_round_key128",
    "Hacspec.Props.C86_round_keys256",
    "Hacspec.Props.C86_round_key256_shared"
   ],
   "note": ""
  },
  {
   "property": "C87",
   "status": "proved",
   "theorems": [
    "Hacspec.Props.C87_ghash_zero",
    "Hacspec.Props.C87_ghash_other",
    "Hacspec.Props.C87_ghash_exchange",
    "Hacspec.Props.C87_bound_attained",
    "Hacspec.Props.C87_gcm_many_keys",
    "Hacspec.Props.C87_poly1305_zero",
    "Hacspec.Props.C87_poly1305_other"
   ],
   "note": ""
  },
  {
   "property": "C88",
   "status": "proved",
   "theorems": [
    "Hacspec.Props.C88_double",
    "Hacspec.Props.C88_add",
    "Hacspec.Props.C88_ladder",
    "Hacspec.Props.C88_infinity",
    "Hacspec.Props.C88_every_triple",
    "Hacspec.Props.C88_order_two",
    "Hacspec.Props.C88_total",
    "Hacspec.Props.C88_order_three"
   ],
   "note": ""
  },
  {
   "property": "C89",
   "status": "proved",
   "theorems": [
    "Hacspec.Props.C89_same_functions_stream",
    "Hacspec.Props.C89_same_functions_hash",
    "Hacspec.Props.C89_chacha20",
    "Hacspec.Props.C89_sha256",
    "Hacspec.Props.C89_hmac",
    "Hacspec.Props.C89_hkdf",
    "Hacspec.Props.C89_blake2b",
    "Hacspec.Props.C89_sha3"
   ],
   "note": ""
  },
  {
   "property": "C90",
   "status": "partial",
   "theorems": [
    "Hacspec.Props.C90_same_functions",
    "Hacspec.Props.C90_aes_block_refuted",
    "Hacspec.Props.C90_aes_entry_refuted",
    "Hacspec.Props.C90_aes_ctr_refuted",
    "Hacspec.Props.C90_aes_ctr_partial",
    "Hacspec.Props.C90_gcm_encrypt_refuted",
    "Hacspec.Props.C90_gcm_decrypt_refuted",
    "Hacspec.Props.C90_fmul_refuted",
    "Hacspec.Props.C90_gmac_refuted",
    "Hacspec.Props.C90_x25519_refuted",
    "Hacspec.Props.C90_p256_refuted",
    "Hacspec.Props.C90_poly1305_partial",
    "Hacspec.Props.C90_poly1305_refuted",
    "Hacspec.Props.C90_aead_encrypt_partial",
    "Hacspec.Props.C90_aead_decrypt_partial",
    "Hacspec.Props.C90_aead_refuted"
   ],
   "note": "The claim is false; refuted for AES, AES-CTR, AES-GCM, fmul, gmac, X25519, P-256, Poly1305 and ChaCha20-Poly1305. The _partial theorems say exactly what the events of AES-CTR under one key, of Poly1305 and of the AEAD depend on. Not visible in the model: the duration of arithmetic (including num-bigint) and of the comparison of tags."
  },
  {
   "property": "C91",
   "status": "partial",
   "theorems": [
    "Hacspec.Props.C91_same_functions",
    "Hacspec.Props.C91_same_functions_poly",
    "Hacspec.Props.C91_ct_div",
    "Hacspec.Props.C91_poly_plain",
    "Hacspec.Props.C91_poly_modulus",
    "Hacspec.Props.C91_sub_mod_refuted",
    "Hacspec.Props.C91_sub_mod_reduced_refuted",
    "Hacspec.Props.C91_inv_zero_refuted",
    "Hacspec.Props.C91_inv_refuted",
    "Hacspec.Props.C91_leading_coefficient_refuted",
    "Hacspec.Props.C91_poly_mul_refuted"
   ],
   "note": "Proved for ct_div, poly_add, poly_mul_plain and poly_mul_op_scanning; refuted for sub_mod, inv, leading_coefficient and poly_mul (C91_*_refuted), with exact descriptions of the events."
  },
  {
   "property": "C92",
   "status": "partial",
   "theorems": [
    "Hacspec.Props.C92_sub_mod",
    "Hacspec.Props.C92_sub_mod_refuted",
    "Hacspec.Props.C92_sub_mod_reduced_partial",
    "Hacspec.Props.C92_inv_refuted",
    "Hacspec.Props.C92_inv_main_loop_partial",
    "Hacspec.Props.C92_signed_mod_refuted",
    "Hacspec.Props.C92_signed_mod_partial",
    "Hacspec.Props.C92_pow_refuted"
   ],
   "note": "The claim is false for sub_mod, inv, signed_mod and pow (C92_*_refuted, exact numbers of iterations). The _partial theorems give the bounds that hold: reduced operands, positive modulus, main loop of inv."
  },
  {
   "property": "C93",
   "status": "partial",
   "theorems": [
    "Hacspec.Props.C93_machine",
    "Hacspec.Props.C93_machine_vectors",
    "Hacspec.Props.C93_generic_refuted",
    "Hacspec.Props.C93_plain_modular_partial",
    "Hacspec.Props.C93_plain_arrays_partial",
    "Hacspec.Props.C93_plain_signed_arrays_refuted"
   ],
   "note": "The claim holds for machine integers (C93_machine*: the generic functions are those of C30-C34) and is false for all other implementations (C93_*_refuted). The _partial theorems prove it for poly_mul_plain over modular integers and arrays of unsigned integers."
  },
  {
   "property": "C94",
   "status": "proved",
   "theorems": [
    "Hacspec.Props.C94_chacha",
    "Hacspec.Props.C94_sha256",
    "Hacspec.Props.C94_hmac",
    "Hacspec.Props.C94_hkdf",
    "Hacspec.Props.C94_keccak",
    "Hacspec.Props.C94_sha3",
    "Hacspec.Props.C94_blake2b",
    "Hacspec.Props.C94_aes",
    "Hacspec.Props.C94_gcm",
    "Hacspec.Props.C94_poly1305",
    "Hacspec.Props.C94_aead",
    "Hacspec.Props.C94_curves"
   ],
   "note": ""
  },
  {
   "property": "C95",
   "status": "proved",
   "theorems": [
    "Hacspec.Props.C95_full_diffusion",
    "Hacspec.Props.C95_two_rounds",
    "Hacspec.Props.C95_round_injective",
    "Hacspec.Props.C95_four_rounds",
    "Hacspec.Props.C95_sbox",
    "Hacspec.Props.C95_many_rounds",
    "Hacspec.Props.C95_sharp"
   ],
   "note": ""
  },
  {
   "property": "C96",
   "status": "proved",
   "theorems": [
    "Hacspec.Props.C96_shuffle",
    "Hacspec.Props.C96_schedule_window",
    "Hacspec.Props.C96_schedule_onto",
    "Hacspec.Props.C96_feed_forward",
    "Hacspec.Props.C96_fixed_point"
   ],
   "note": ""
  },
  {
   "property": "C97",
   "status": "partial",
   "theorems": [
    "Hacspec.Props.C97_forgery",
    "Hacspec.Props.C97_aead_forgery",
    "Hacspec.Props.C97_tag_count_partial",
    "Hacspec.Props.C97_tag_uniform_refuted",
    "Hacspec.Props.C97_gcm_tag_uniform",
    "Hacspec.Props.C97_gcm_forgery"
   ],
   "note": "The bounds on forgeries (C97_forgery, C97_aead_forgery, C97_gcm_forgery) and the uniformity of GMAC tags hold. Uniformity of Poly1305 tags is false (C97_tag_uniform_refuted); C97_tag_count_partial bounds every tag by twice the average."
  },
  {
   "property": "C98",
   "status": "proved",
   "theorems": [
    "Hacspec.Props.C98_chacha_rounds",
    "Hacspec.Props.C98_chacha_equal_columns",
    "Hacspec.Props.C98_chacha_start",
    "Hacspec.Props.C98_keccak_steps",
    "Hacspec.Props.C98_keccak_round",
    "Hacspec.Props.C98_aes_steps",
    "Hacspec.Props.C98_aes_round",
    "Hacspec.Props.C98_aes_keys"
   ],
   "note": ""
  },
  {
   "property": "C99",
   "status": "proved",
   "theorems": [
    "Hacspec.Props.C99_same_functions",
    "Hacspec.Props.C99_same_functions_words",
    "Hacspec.Props.C99_updates",
    "Hacspec.Props.C99_pieces",
    "Hacspec.Props.C99_conversions",
    "Hacspec.Props.C99_words",
    "Hacspec.Props.C99_arithmetic"
   ],
   "note": ""
  },
  {
   "property": "C100",
   "status": "proved",
   "theorems": [
    "Hacspec.Props.C100_keeps_sha2",
    "Hacspec.Props.C100_keeps_chacha20_poly1305",
    "Hacspec.Props.C100_keeps_aes_gcm",
    "Hacspec.Props.C100_keeps_blake2b_sha3",
    "Hacspec.Props.C100_keeps_x25519",
    "Hacspec.Props.C100_sha2",
    "Hacspec.Props.C100_chacha20_poly1305",
    "Hacspec.Props.C100_aes_gcm",
    "Hacspec.Props.C100_blake2b_sha3",
    "Hacspec.Props.C100_x25519"
   ],
   "note": ""
  },
  {
   "property": "C101",
   "status": "partial",
   "theorems": [
    "Hacspec.Props.C101_update_sub",
    "Hacspec.Props.C101_update_sub_builds",
    "Hacspec.Props.C101_sub",
    "Hacspec.Props.C101_subr",
    "Hacspec.Props.C101_num_chunks",
    "Hacspec.Props.C101_num_chunks_refuted",
    "Hacspec.Props.C101_get_chunk",
    "Hacspec.Props.C101_get_chunk_refuted",
    "Hacspec.Props.C101_set_chunk",
    "Hacspec.Props.C101_arr_from_vec",
    "Hacspec.Props.C101_arr_from_sub",
    "Hacspec.Props.C101_arr_from_hex"
   ],
   "note": "False: the release build returns values where the debug build panics (C101_num_chunks_refuted, C101_get_chunk_refuted, C101_arr_from_vec, C101_set_chunk, C101_arr_from_hex). The theorems give the exact result of every function for all arguments; C101_update_sub_builds characterises agreement of update_sub."
  },
  {
   "property": "C102",
   "status": "proved",
   "theorems": [
    "Hacspec.Props.C102_hkdf_expand",
    "Hacspec.Props.C102_hkdf_expand_limit",
    "Hacspec.Props.C102_sha256_long"
   ],
   "note": ""
  },
  {
   "property": "C103",
   "status": "proved",
   "theorems": [
    "Hacspec.Props.C103_keeps_bits",
    "Hacspec.Props.C103_keeps_mod",
    "Hacspec.Props.C103_keeps_poly",
    "Hacspec.Props.C103_ct_div"
   ],
   "note": ""
  },
  {
   "property": "C104",
   "status": "partial",
   "theorems": [
    "Hacspec.Props.C104_add_mul_mod",
    "Hacspec.Props.C104_mod_zero",
    "Hacspec.Props.C104_sub_mod",
    "Hacspec.Props.C104_pow_two",
    "Hacspec.Props.C104_signed",
    "Hacspec.Props.C104_signed_small",
    "Hacspec.Props.C104_signed_negative_refuted",
    "Hacspec.Props.C104_mod_refuted",
    "Hacspec.Props.C104_inverse",
    "Hacspec.Props.C104_inverse_refuted"
   ],
   "note": "False: the release build returns wrong residues or does not return (C104_mod_refuted, C104_inverse_refuted, C104_signed_negative_refuted). The theorems give the exact result for all arguments, characterise when add_mod and mul_mod are right, and prove the claim for powers of two and for signed types up to 64 bits."
  },
  {
   "property": "C105",
   "status": "partial",
   "theorems": [
    "Hacspec.Props.C105_get_bit",
    "Hacspec.Props.C105_set_bit",
    "Hacspec.Props.C105_set_bit_outside",
    "Hacspec.Props.C105_extended_euclid",
    "Hacspec.Props.C105_extended_euclid_refuted",
    "Hacspec.Props.C105_pub_seq"
   ],
   "note": "False: the release build returns values for these arguments (C105_get_bit, C105_set_bit_outside, C105_extended_euclid_refuted, C105_pub_seq). The theorems give the exact result for all arguments."
  },
  {
   "property": "C106",
   "status": "proved",
   "theorems": [
    "Hacspec.Props.C106_chacha_code",
    "Hacspec.Props.C106_gcm_code",
    "Hacspec.Props.C106_chacha",
    "Hacspec.Props.C106_gcm"
   ],
   "note": ""
  },
  {
   "property": "C107",
   "status": "proved",
   "theorems": [
    "Hacspec.Props.C107_chacha",
    "Hacspec.Props.C107_gcm",
    "Hacspec.Props.C107_chacha_decryption",
    "Hacspec.Props.C107_gcm_decryption",
    "Hacspec.Props.C107_reuse"
   ],
   "note": ""
  },
  {
   "property": "C108",
   "status": "proved",
   "theorems": [
    "Hacspec.Props.C108_code",
    "Hacspec.Props.C108_switch",
    "Hacspec.Props.C108_forgery",
    "Hacspec.Props.C108_forgery_short",
    "Hacspec.Props.C108_hiding"
   ],
   "note": ""
  },
  {
   "property": "C109",
   "status": "proved",
   "theorems": [
    "Hacspec.Props.C109_code",
    "Hacspec.Props.C109_collision",
    "Hacspec.Props.C109_padded",
    "Hacspec.Props.C109_preimage",
    "Hacspec.Props.C109_empty",
    "Hacspec.Props.C109_second"
   ],
   "note": ""
  },
  {
   "property": "C110",
   "status": "proved",
   "theorems": [
    "Hacspec.Props.C110_code",
    "Hacspec.Props.C110_collision",
    "Hacspec.Props.C110_preimage",
    "Hacspec.Props.C110_no_capacity"
   ],
   "note": ""
  },
  {
   "property": "C111",
   "status": "proved",
   "theorems": [
    "Hacspec.Props.C111_code",
    "Hacspec.Props.C111_collision",
    "Hacspec.Props.C111_preimage",
    "Hacspec.Props.C111_empty",
    "Hacspec.Props.C111_second"
   ],
   "note": ""
  },
  {
   "property": "C112",
   "status": "proved",
   "theorems": [
    "Hacspec.Props.C112_operators",
    "Hacspec.Props.C112_div",
    "Hacspec.Props.C112_words",
    "Hacspec.Props.C112_convert",
    "Hacspec.Props.C112_negate"
   ],
   "note": ""
  },
  {
   "property": "C113",
   "status": "proved",
   "theorems": [
    "Hacspec.Props.C113_code",
    "Hacspec.Props.C113_prf",
    "Hacspec.Props.C113_forgery",
    "Hacspec.Props.C113_mixed_refuted"
   ],
   "note": ""
  },
  {
   "property": "C114",
   "status": "proved",
   "theorems": [
    "Hacspec.Props.C114_code",
    "Hacspec.Props.C114_prf",
    "Hacspec.Props.C114_related_refuted",
    "Hacspec.Props.C114_code_related_refuted"
   ],
   "note": ""
  },
  {
   "property": "C115",
   "status": "proved",
   "theorems": [
    "Hacspec.Props.C115_code",
    "Hacspec.Props.C115_prf"
   ],
   "note": ""
  },
  {
   "property": "C116",
   "status": "proved",
   "theorems": [
    "Hacspec.Props.C116_code",
    "Hacspec.Props.C116_forgery",
    "Hacspec.Props.C116_privacy"
   ],
   "note": ""
  },
  {
   "property": "C117",
   "status": "proved",
   "theorems": [
    "Hacspec.Props.C117_code",
    "Hacspec.Props.C117_forgery",
    "Hacspec.Props.C117_privacy"
   ],
   "note": ""
  },
  {
   "property": "C118",
   "status": "proved",
   "theorems": [
    "Hacspec.Props.C118_update_sub",
    "Hacspec.Props.C118_from_sub",
    "Hacspec.Props.C118_ranges",
    "Hacspec.Props.C118_num_chunks",
    "Hacspec.Props.C118_get_chunk_len",
    "Hacspec.Props.C118_chunks"
   ],
   "note": ""
  },
  {
   "property": "C119",
   "status": "proved",
   "theorems": [
    "Hacspec.Props.C119_weight",
    "Hacspec.Props.C119_trail",
    "Hacspec.Props.C119_followed"
   ],
   "note": ""
  },
  {
   "property": "C120",
   "status": "proved",
   "theorems": [
    "Hacspec.Props.C120_sbox",
    "Hacspec.Props.C120_weight",
    "Hacspec.Props.C120_masks",
    "Hacspec.Props.C120_sbox_sharp"
   ],
   "note": ""
  },
  {
   "property": "C121",
   "status": "proved",
   "theorems": [
    "Hacspec.Props.C121_three",
    "Hacspec.Props.C121_four"
   ],
   "note": ""
  },
  {
   "property": "C122",
   "status": "proved",
   "theorems": [
    "Hacspec.Props.C122_aes128",
    "Hacspec.Props.C122_aes256",
    "Hacspec.Props.C122_standard",
    "Hacspec.Props.C122_permutes",
    "Hacspec.Props.C122_large",
    "Hacspec.Props.C122_is_aes_refuted"
   ],
   "note": ""
  },
  {
   "property": "C123",
   "status": "proved",
   "theorems": [
    "Hacspec.Props.C123_forward",
    "Hacspec.Props.C123_backward",
    "Hacspec.Props.C123_zero_sums",
    "Hacspec.Props.C123_rounds",
    "Hacspec.Props.C123_sharp"
   ],
   "note": ""
  },
  {
   "property": "C124",
   "status": "proved",
   "theorems": [
    "Hacspec.Props.C124_second"
   ],
   "note": ""
  },
  {
   "property": "C125",
   "status": "proved",
   "theorems": [
    "Hacspec.Props.C125_indifferentiable"
   ],
   "note": ""
  },
  {
   "property": "C126",
   "status": "proved",
   "theorems": [
    "Hacspec.Props.C126_p256_log",
    "Hacspec.Props.C126_p256_secret",
    "Hacspec.Props.C126_p256_decide",
    "Hacspec.Props.C126_p256_log_sharp",
    "Hacspec.Props.C126_x25519_keys",
    "Hacspec.Props.C126_x25519_log",
    "Hacspec.Props.C126_x25519_secret",
    "Hacspec.Props.C126_x25519_decide"
   ],
   "note": ""
  },
  {
   "property": "C127",
   "status": "proved",
   "theorems": [
    "Hacspec.Props.C127_code",
    "Hacspec.Props.C127_prf",
    "Hacspec.Props.C127_random",
    "Hacspec.Props.C127_x25519"
   ],
   "note": ""
  },
  {
   "property": "C128",
   "status": "proved",
   "theorems": [
    "Hacspec.Props.C128_prf",
    "Hacspec.Props.C128_one",
    "Hacspec.Props.C128_forgery",
    "Hacspec.Props.C128_privacy",
    "Hacspec.Props.C128_sharp"
   ],
   "note": ""
  },
  {
   "property": "C129",
   "status": "proved",
   "theorems": [
    "Hacspec.Props.C129_forgery",
    "Hacspec.Props.C129_privacy",
    "Hacspec.Props.C129_one",
    "Hacspec.Props.C129_sharp"
   ],
   "note": ""
  },
  {
   "property": "C130",
   "status": "proved",
   "theorems": [
    "Hacspec.Props.C130_prf",
    "Hacspec.Props.C130_forgery",
    "Hacspec.Props.C130_sha256",
    "Hacspec.Props.C130_blake2b"
   ],
   "note": ""
  },
  {
   "property": "C131",
   "status": "proved",
   "theorems": [
    "Hacspec.Props.C131_code",
    "Hacspec.Props.C131_chacha",
    "Hacspec.Props.C131_aes",
    "Hacspec.Props.C131_chacha_twice",
    "Hacspec.Props.C131_aes_twice"
   ],
   "note": ""
  },
  {
   "property": "C132",
   "status": "proved",
   "theorems": [
    "Hacspec.Props.C132_chacha",
    "Hacspec.Props.C132_gcm",
    "Hacspec.Props.C132_code"
   ],
   "note": ""
  },
  {
   "property": "C133",
   "status": "proved",
   "theorems": [
    "Hacspec.Props.C133_sha256",
    "Hacspec.Props.C133_sha256_exists",
    "Hacspec.Props.C133_sha256_beginning",
    "Hacspec.Props.C133_blake2b",
    "Hacspec.Props.C133_blake2b_exists",
    "Hacspec.Props.C133_both"
   ],
   "note": ""
  },
  {
   "property": "C134",
   "status": "proved",
   "theorems": [
    "Hacspec.Props.C134_chacha_forgery",
    "Hacspec.Props.C134_chacha_privacy",
    "Hacspec.Props.C134_gcm_forgery",
    "Hacspec.Props.C134_gcm_privacy",
    "Hacspec.Props.C134_chacha_code",
    "Hacspec.Props.C134_gcm_code",
    "Hacspec.Props.C134_x25519"
   ],
   "note": ""
  },
  {
   "property": "C135",
   "status": "proved",
   "theorems": [
    "Hacspec.Props.C135_chacha_forgery",
    "Hacspec.Props.C135_chacha_privacy",
    "Hacspec.Props.C135_chacha_random",
    "Hacspec.Props.C135_gcm_forgery",
    "Hacspec.Props.C135_gcm_privacy",
    "Hacspec.Props.C135_gcm_random",
    "Hacspec.Props.C135_needed"
   ],
   "note": ""
  },
  {
   "property": "C136",
   "status": "proved",
   "theorems": [
    "Hacspec.Props.C136_chacha_forgery",
    "Hacspec.Props.C136_chacha_privacy",
    "Hacspec.Props.C136_gcm_forgery",
    "Hacspec.Props.C136_gcm_privacy",
    "Hacspec.Props.C136_agreed"
   ],
   "note": ""
  },
  {
   "property": "C137",
   "status": "proved",
   "theorems": [
    "Hacspec.Props.C137_keys",
    "Hacspec.Props.C137_chacha_forgery",
    "Hacspec.Props.C137_chacha_privacy",
    "Hacspec.Props.C137_gcm_forgery",
    "Hacspec.Props.C137_gcm_privacy",
    "Hacspec.Props.C137_chacha_code",
    "Hacspec.Props.C137_gcm_code",
    "Hacspec.Props.C137_bound",
    "Hacspec.Props.C137_same"
   ],
   "note": ""
  },
  {
   "property": "C138",
   "status": "partial",
   "theorems": [
    "Hacspec.Props.C138_binding_partial",
    "Hacspec.Props.C138_mixed_refuted",
    "Hacspec.Props.C138_keys_refuted",
    "Hacspec.Props.C138_hiding",
    "Hacspec.Props.C138_code"
   ],
   "note": "Hiding is proved. Binding is proved for keys of one length and messages that are all whole blocks, or none of which is; for messages of both kinds it is refuted (C138_mixed_refuted), because the hash function does not pad whole blocks."
  },
  {
   "property": "C139",
   "status": "proved",
   "theorems": [
    "Hacspec.Props.C139_chacha_forgery",
    "Hacspec.Props.C139_aes_forgery",
    "Hacspec.Props.C139_chacha_privacy",
    "Hacspec.Props.C139_aes_privacy",
    "Hacspec.Props.C139_code",
    "Hacspec.Props.C139_opens",
    "Hacspec.Props.C139_mixed_refuted"
   ],
   "note": ""
  },
  {
   "property": "C140",
   "status": "proved",
   "theorems": [
    "Hacspec.Props.C140_chacha_forgery",
    "Hacspec.Props.C140_chacha_privacy",
    "Hacspec.Props.C140_gcm_forgery",
    "Hacspec.Props.C140_gcm_privacy",
    "Hacspec.Props.C140_agreed",
    "Hacspec.Props.C140_same",
    "Hacspec.Props.C140_length_refuted"
   ],
   "note": ""
  },
  {
   "property": "C141",
   "status": "proved",
   "theorems": [
    "Hacspec.Props.C141_one_all",
    "Hacspec.Props.C141_same_results",
    "Hacspec.Props.C141_inverse",
    "Hacspec.Props.C141_honest",
    "Hacspec.Props.C141_p256",
    "Hacspec.Props.C141_key_refuted"
   ],
   "note": ""
  },
  {
   "property": "C142",
   "status": "proved",
   "theorems": [
    "Hacspec.Props.C142_curve_results",
    "Hacspec.Props.C142_twist_results",
    "Hacspec.Props.C142_public_keys",
    "Hacspec.Props.C142_p256_keys"
   ],
   "note": ""
  },
  {
   "property": "C143",
   "status": "proved",
   "theorems": [
    "Hacspec.Props.C143_curve",
    "Hacspec.Props.C143_twist",
    "Hacspec.Props.C143_small"
   ],
   "note": ""
  },
  {
   "property": "C144",
   "status": "proved",
   "theorems": [
    "Hacspec.Props.C144_secrets",
    "Hacspec.Props.C144_guess",
    "Hacspec.Props.C144_small_refuted",
    "Hacspec.Props.C144_p256",
    "Hacspec.Props.C144_public_keys"
   ],
   "note": ""
  },
  {
   "property": "C145",
   "status": "proved",
   "theorems": [
    "Hacspec.Props.C145_four_rounds",
    "Hacspec.Props.C145_block_cipher",
    "Hacspec.Props.C145_five_refuted"
   ],
   "note": ""
  },
  {
   "property": "C146",
   "status": "proved",
   "theorems": [
    "Hacspec.Props.C146_two_rounds",
    "Hacspec.Props.C146_block_cipher",
    "Hacspec.Props.C146_five_refuted"
   ],
   "note": ""
  },
  {
   "property": "C147",
   "status": "proved",
   "theorems": [
    "Hacspec.Props.C147_five_rounds",
    "Hacspec.Props.C147_case"
   ],
   "note": ""
  }
 ]
}