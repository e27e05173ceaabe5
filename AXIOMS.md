# Axioms of the property theorems (`#print axioms`, generated by tools/axioms.py)

## none

C19_array_operators_refuted, C64_secret_signed_refuted, C65_signed_arrays_refuted

## propext

C02_unsigned_ring, C105_extended_euclid, C105_extended_euclid_refuted, C118_num_chunks, C11_inv_overflow_refuted, C137_same, C19_public_mul_poly_refuted, C21_order, C46_iv, C79_panic_refuted

## propext, Classical.choice, Quot.sound

C01_comp_eq, C01_comp_gt, C01_comp_lt, C01_comp_lte, C01_comp_ne, C02_constants, C02_neg_signed, C02_neg_unsigned, C03_decode_encode, C04_inverse, C04_rotl_bits, C04_trait_rotate, C05_castS, C06_get_bit, C06_set, C06_set_bit, C07_cset_bit, C07_select, C08_ct_div, C08_ct_div_secret_signed, C08_ct_div_signed_partial, C08_ct_div_zero, C09_masks_signed_value, C09_masks_unsigned_partial, C100_aes_gcm, C100_blake2b_sha3, C100_chacha20_poly1305, C100_keeps_aes_gcm, C100_keeps_blake2b_sha3, C100_keeps_chacha20_poly1305, C100_keeps_sha2, C100_sha2, C100_x25519, C101_arr_from_hex, C101_arr_from_sub, C101_arr_from_vec, C101_get_chunk, C101_get_chunk_refuted, C101_set_chunk, C101_sub, C101_subr, C101_update_sub, C101_update_sub_builds, C102_hkdf_expand, C102_hkdf_expand_limit, C102_sha256_long, C103_ct_div, C104_mod_refuted, C104_mod_zero, C104_pow_two, C104_signed, C104_signed_negative_refuted, C104_signed_small, C104_sub_mod, C105_pub_seq, C105_set_bit, C105_set_bit_outside, C106_chacha, C106_chacha_code, C106_gcm, C106_gcm_code, C107_chacha, C107_chacha_decryption, C107_gcm, C107_gcm_decryption, C107_reuse, C108_code, C108_forgery, C108_forgery_short, C108_hiding, C108_switch, C109_code, C109_collision, C109_empty, C109_padded, C109_preimage, C109_second, C10_signed, C10_signed_fits, C10_signed_negative_modulus, C10_sub_mod_unsigned, C110_code, C110_collision, C110_no_capacity, C110_preimage, C111_code, C111_collision, C111_empty, C111_preimage, C111_second, C112_convert, C112_div, C112_negate, C112_words, C113_code, C113_forgery, C113_mixed_refuted, C113_prf, C114_code, C114_code_related_refuted, C114_prf, C114_related_refuted, C115_code, C115_prf, C116_code, C116_forgery, C116_privacy, C117_code, C117_forgery, C117_privacy, C118_chunks, C118_from_sub, C118_get_chunk_len, C118_ranges, C119_trail, C119_weight, C11_inv_partial, C11_inv_public, C11_inv_zero_refuted, C120_masks, C120_sbox, C120_sbox_sharp, C120_weight, C121_four, C121_three, C122_aes128, C122_aes256, C122_is_aes_refuted, C122_permutes, C123_backward, C123_forward, C123_sharp, C123_zero_sums, C124_second, C125_indifferentiable, C126_p256_decide, C126_p256_log, C126_p256_log_sharp, C126_p256_secret, C126_x25519_decide, C126_x25519_keys, C126_x25519_log, C126_x25519_secret, C127_code, C127_prf, C127_random, C127_x25519, C128_forgery, C128_one, C128_prf, C128_privacy, C128_sharp, C129_forgery, C129_one, C129_privacy, C129_sharp, C130_blake2b, C130_forgery, C130_prf, C130_sha256, C131_aes, C131_aes_twice, C131_chacha, C131_chacha_twice, C131_code, C132_chacha, C132_code, C132_gcm, C133_blake2b, C133_blake2b_exists, C133_both, C133_sha256, C133_sha256_beginning, C133_sha256_exists, C134_chacha_code, C134_chacha_forgery, C134_chacha_privacy, C134_gcm_code, C134_gcm_forgery, C134_gcm_privacy, C134_x25519, C135_chacha_forgery, C135_chacha_privacy, C135_chacha_random, C135_gcm_forgery, C135_gcm_privacy, C135_gcm_random, C135_needed, C136_agreed, C136_chacha_forgery, C136_chacha_privacy, C136_gcm_forgery, C136_gcm_privacy, C137_bound, C137_chacha_code, C137_chacha_forgery, C137_chacha_privacy, C137_gcm_code, C137_gcm_forgery, C137_gcm_privacy, C137_keys, C138_binding_partial, C138_code, C138_hiding, C138_keys_refuted, C138_mixed_refuted, C139_aes_forgery, C139_aes_privacy, C139_chacha_forgery, C139_chacha_privacy, C139_code, C139_mixed_refuted, C139_opens, C13_update, C13_update_sub, C140_agreed, C140_chacha_forgery, C140_chacha_privacy, C140_gcm_forgery, C140_gcm_privacy, C140_length_refuted, C140_same, C141_honest, C141_inverse, C141_key_refuted, C141_one_all, C141_p256, C141_same_results, C142_curve_results, C142_p256_keys, C142_public_keys, C142_twist_results, C143_curve, C143_small, C143_twist, C144_guess, C144_p256, C144_public_keys, C144_secrets, C144_small_refuted, C145_block_cipher, C145_four_rounds, C146_block_cipher, C146_two_rounds, C147_case, C147_five_rounds, C14_chunks_partition, C14_num_chunks, C15_fill_all, C16_array_exact, C16_sub, C17_accepts_only_partial, C17_from_hex, C17_rejects_non_hex_refuted, C18_free_functions, C18_words_of_bytes, C19_array_div, C20_api_values_in_range, C20_convert, C20_from_literal, C21_div_rem, C21_div_rem_unsigned, C21_pow, C21_pow_felem, C21_ring, C22_bit, C22_bit_nat, C22_from_hex, C22_from_hex_no_sign_refuted, C22_from_hex_signed, C22_from_le_bytes, C22_to_le_bytes, C23_negative_refuted, C23_nonneg_partial, C24_bounded, C24_literal_refuted, C24_literals, C24_reduced_partial, C25_from_bytes, C25_from_secret_literal, C25_pow, C25_ring, C26_concrete_fields, C26_inverse, C27_div_is_floor_partial, C27_not_field_division_refuted, C27_rem, C28_add, C28_add_int, C28_mul, C28_mul_int_refuted, C28_mul_plain, C28_sub, C28_sub_int, C29_div_by_zero, C29_div_int_refuted, C29_div_monic, C29_div_not_invertible, C29_div_partial, C29_div_square_refuted, C30_is_zero_divx, C30_leading_coefficient, C30_make_fixed_length_poly, C30_monomial, C30_normalize, C30_z_inv, C31_empty, C31_sha256_partial, C31_sha256_refuted, C31_too_long, C31_whole_blocks, C32_collision_refuted, C33_collision, C33_hmac, C33_hmac_sha256, C33_hmac_sha256_refuted, C33_length, C34_expand_limit_refuted, C34_expand_partial, C34_expand_prefix, C34_extract, C35_block, C35_chacha, C36_involution, C37_double_round, C37_line, C37_quarter_round, C37_rounds, C38_key_gen, C38_poly, C38_poly_mac, C38_poly_rfc_partial, C38_refuted, C38_total, C39_decrypt, C39_encrypt, C39_rfc, C39_round_trip, C42_aes128, C42_aes256, C42_cipher, C42_inverse, C42_key_expansion, C42_permutation, C43_ctr, C44_distrib, C44_fadd, C44_fmul, C44_gmac, C44_mul_assoc, C44_mul_comm, C44_one, C45_decrypt, C45_encrypt, C45_round_trip, C46_blake2b_partial, C46_blake2b_refuted, C46_compress, C46_mix, C46_total, C46_whole_blocks, C47_blake2s64_refuted, C47_blake2s_refuted, C48_chi, C48_iota, C48_keccakf, C48_permutation, C48_rho, C48_steps_permutation, C48_theta, C49_sha3_224, C49_sha3_256, C49_sha3_384, C49_sha3_512, C49_shake128, C49_shake256, C50_shake128, C50_shake256, C51_canonical, C51_decode_point, C51_decode_scalar, C51_round_trip, C52_point_exists, C52_scalarmult, C54_add, C54_base_point, C54_double, C54_representable, C55_ladder, C55_point_mul, C55_to_affine, C56_closed, C56_mul, C56_no_wrap, C56_panic, C57_agrees, C57_decrypt, C57_encrypt, C58_aes_gcm, C58_blake2b_sha3, C58_chacha20_poly1305, C58_hkdf_expand, C58_hmac, C58_sha256, C59_add_sub, C59_div_partial, C59_from_vec, C59_from_vec_panic, C59_from_vec_truncates_refuted, C59_irr, C59_mul_monic, C59_mul_partial, C59_new, C60_agreement, C61_small_order, C62_byte, C62_to_bytes, C63_i32, C63_range, C64_eq, C64_lex, C64_signed, C64_total, C64_unsigned, C65_bounded_partial, C65_bounded_refuted, C65_modular, C66_ladder_infinity, C66_order, C66_point_mul_eq, C66_point_mul_onto, C66_point_mul_x, C66_point_mul_zero, C67_contributory, C67_exchange, C68_zero_output, C69_same_result, C70_order, C70_public_key, C71_division, C71_irreducible, C71_no_zero_divisors, C72_gcm_universal, C72_gmac_universal, C73_aead_universal, C73_poly1305_universal, C74_blake2b_collision, C74_blake2b_extension_refuted, C74_sha256_collision, C74_sha256_extension_refuted, C75_mix, C75_round, C75_rounds, C76_long_key, C77_chacha_forgery_refuted, C77_chacha_repeats_refuted, C77_ctr_append, C77_gcm_distinct_partial, C77_gcm_repeats_refuted, C77_gcm_tag_mask_refuted, C78_never_refuted, C79_composite_refuted, C79_field, C79_inv, C79_long, C79_prime, C79_sound, C80_blake2b, C80_blake2b_chain, C80_blake2b_empty, C80_hmac, C80_sha256, C80_sha256_chain, C80_sha256_padded, C80_sha256_refuted, C80_sha256_same_length, C81_chacha_refuted, C81_gcm_refuted, C82_chacha_forgery_refuted, C82_chacha_messages, C82_gcm_forgery_refuted, C82_gcm_messages, C83_blocks_injective, C83_chain, C83_inner_collision_extends, C83_reversible, C83_state_collision, C84_array_eq, C84_bounded_eq, C84_fixed_text, C84_int_numerals, C84_poly_eq, C84_secret_refuted, C86_round_key128, C86_round_key256_shared, C86_round_keys256, C86_window, C87_bound_attained, C87_gcm_many_keys, C87_ghash_exchange, C87_ghash_other, C87_ghash_zero, C87_poly1305_other, C87_poly1305_zero, C88_add, C88_double, C88_every_triple, C88_infinity, C88_ladder, C88_order_three, C88_order_two, C88_total, C89_blake2b, C89_chacha20, C89_hkdf, C89_hmac, C89_sha256, C89_sha3, C90_aead_decrypt_partial, C90_aead_encrypt_partial, C90_aead_refuted, C90_aes_block_refuted, C90_aes_ctr_partial, C90_aes_ctr_refuted, C90_aes_entry_refuted, C90_fmul_refuted, C90_gcm_decrypt_refuted, C90_gcm_encrypt_refuted, C90_gmac_refuted, C90_p256_refuted, C90_poly1305_partial, C90_poly1305_refuted, C90_same_functions, C90_x25519_refuted, C91_ct_div, C91_inv_refuted, C91_poly_modulus, C91_poly_plain, C91_sub_mod_refuted, C92_inv_main_loop_partial, C92_inv_refuted, C92_signed_mod_partial, C92_signed_mod_refuted, C92_sub_mod_reduced_partial, C92_sub_mod_refuted, C93_generic_refuted, C93_machine, C93_machine_vectors, C93_plain_arrays_partial, C93_plain_modular_partial, C93_plain_signed_arrays_refuted, C94_aead, C94_aes, C94_blake2b, C94_chacha, C94_curves, C94_gcm, C94_hkdf, C94_hmac, C94_keccak, C94_poly1305, C94_sha256, C94_sha3, C95_four_rounds, C95_full_diffusion, C95_many_rounds, C95_round_injective, C95_sbox, C96_schedule_onto, C96_schedule_window, C97_aead_forgery, C97_forgery, C97_gcm_forgery, C97_gcm_tag_uniform, C97_tag_count_partial, C97_tag_uniform_refuted, C98_aes_keys, C98_chacha_equal_columns, C98_chacha_rounds, C98_chacha_start, C98_keccak_round, C98_keccak_steps, C99_arithmetic, C99_conversions, C99_pieces, C99_updates, C99_words

## propext, Quot.sound

C01_comp_gte, C02_checked_signed, C02_checked_unsigned, C02_signed_ring, C03_encode_decode, C03_positional, C04_rotr_bits, C04_trait_rotate_signed_refuted, C05_castSign, C05_castU, C08_ct_div_signed_refuted, C09_masks_signed_refuted, C100_keeps_x25519, C101_num_chunks, C101_num_chunks_refuted, C103_keeps_bits, C103_keeps_mod, C103_keeps_poly, C104_add_mul_mod, C104_inverse, C104_inverse_refuted, C105_get_bit, C10_add_mul_mod_unsigned, C10_signed_zero, C112_operators, C118_update_sub, C119_followed, C11_inv_diverges_refuted, C11_inv_wrong_refuted, C122_large, C122_standard, C123_rounds, C12_pow, C145_five_refuted, C146_five_refuted, C14_get_chunk_panics, C15_get_set, C15_set_get, C16_from_public_slice, C16_from_slice, C16_public_secret, C16_range, C17_odd_panics, C17_roundtrip, C17_to_hex, C18_public_views, C18_word_views, C19_arrays, C19_modular, C19_public_seq, C19_public_xor_refuted, C20_max_refuted, C22_from_hex_odd, C30_make_fixed_length, C32_pad_injective_partial, C37_no_panic, C40_aes_gcm, C40_chacha, C41_add_round_key, C41_mix_columns, C41_sbox, C41_shift_rows, C41_sub_bytes, C41_xtime, C44_add, C48_pi, C49_bits_injective, C53_secret_to_public_refuted, C62_from_bytes, C63_read_write, C63_unsigned, C65_arrays, C75_rows, C76_salt, C76_short_keys, C76_zeros, C78_bytes_partial, C78_bytes_refuted, C78_exact, C78_large_refuted, C84_array, C84_bounded, C84_hex, C84_numerals, C84_signed, C84_unsigned, C85_array, C85_independent, C85_seq, C85_uniform, C89_same_functions_hash, C89_same_functions_stream, C91_inv_zero_refuted, C91_leading_coefficient_refuted, C91_poly_mul_refuted, C91_same_functions, C91_same_functions_poly, C91_sub_mod_reduced_refuted, C92_pow_refuted, C92_sub_mod, C95_sharp, C95_two_rounds, C96_feed_forward, C96_fixed_point, C96_shuffle, C98_aes_round, C98_aes_steps, C99_same_functions, C99_same_functions_words
