# Design of the Lean model of hacspec

Source under verification: `/repo` (crates `abstract-integers`, `secret-integers`, `hacspec`,
`spec-examples`), read as text. Nothing is compiled or executed from `/repo`.

## 1. Trusted base

* The Lean 4.33.0 kernel (which includes GMP-accelerated `Nat` arithmetic) and the parts of Mathlib that
  are imported module by module. Allowed axioms: `propext`, `Classical.choice`, `Quot.sound`.
  No `sorry`, `admit`, own axioms, `native_decide`, `bv_decide`, `implemented_by`, `unsafe`.
  `decide`/`decide +kernel` is used only for complete finite tables (256-entry S-box, round-constant
  tables), for closed arithmetic facts that a general proof needs (Pratt certificates of the primes, `n·G = O` on
  the curves), for closed witnesses of refutations and for `example`s that show hypotheses are met.
* The transcription: every model definition carries the file and line range of `/repo` it transcribes.
  The transcription is by hand; that it is right is trusted (reviewable definition by definition).
* The independent specifications in `Verif/Spec/*` (transcribed from FIPS 180-4, FIPS 197, FIPS 202,
  RFC 2104/5869/7693/7748/8439, SP 800-38D and from textbook algebra).

## 2. Modelling conventions

| Rust | Lean |
|---|---|
| panic (failed assertion, index out of bounds, arithmetic overflow in a debug build, `unimplemented!`) | `Except.error Fail.panic` in the monad `M` |
| non-termination | `Except.error Fail.diverge` |
| `Result<_, &str>` | an explicit `Except`/`Option` value inside `M` |
| machine integers `u8..u128`, `i8..i128`, secret `U8..U128`, `I8..I128` | `BitVec n`; signed values are read with `toInt` |
| `usize` lengths and indices | `Nat`. A Rust `Vec` never holds more than `isize::MAX` elements, so index arithmetic on lengths does not overflow; where an argument could make it overflow, the model panics for the same inputs (argued beside the definition; proved for the windows and chunks of sequences, C118). Value-carrying `usize` computations (e.g. `len * 8` in SHA-256) are checked explicitly |
| `Seq<T>`, `PublicSeq<T>`, `[T; n]`-like `array!` types | `List T`; array constructors check the declared length |
| `BigInt`/`BigUint` | `Int`/`Nat` |
| `for i in 0..n` loops with mutable state | `loop n body s` (a fold in `M`) |

Build profile: *debug* (overflow checks and `debug_assert!` active), which is how the crates' own tests run.  The
*release* profile (no `debug_assert!`, wrapping arithmetic, masked shift amounts; no `Cargo.toml` overrides this) is
modelled separately in `Model/Release/`, for exactly those functions in which the profiles can differ, and compared with the
debug model in C100-C105.
C106 to C111, C113 to C117, C124, C125, C127 to C132, C134 to C140 are about all functions in place of the ChaCha20 block function or AES, all permutations in
place of AES, the ChaCha20 rounds or Keccak-f, or all block ciphers in place of the one inside SHA-256 or BLAKE2b; that ChaCha20 and
AES with a random key look like one is the usual assumption and is not proved (it cannot be).  C126 is about attacks that use the group
operations of the curves and nothing else.
Not modelled: formatting flags (width, `#`), the random generator behind `rand::random` (an arbitrary stream in
`Model/Random`), the duration of arithmetic (machine words, `num-bigint`, comparison of vectors) and the type-level secrecy discipline (branches, iterations and indices are modelled for the functions named in C89 and C90, see `Model/Leak`), memory safety, serde, the proc-macro crate `attributes`
(no run-time effect), `hacspec-dev` (test-vector reader).

`tools/coverage.py --missing` lists the functions of `/repo` (tests excluded) inside no cited line range. They are the
test-vector reader, the attribute macros and the commented-out `test_contract1`, `test_contract2`; all others are modelled.

## 3. File layout

* `Verif/Basic.lean` – monad `M`, loops and invariant rules.
* `Verif/Model/*.lean` – transcription of the code.
* `Verif/Spec/*.lean` – independent specifications (never refer to the model).
* `Verif/Lemmas/*.lean` – helper lemmas.
* `Verif/Props/*.lean` – the property theorems `Cxx_*` with `example`s next to them.
* `Verif/Validation/*.lean` – the known-answer tests of the repository (`spec-examples/tests`, `hacspec/tests`,
  `abstract-integers/tests`, `secret-integers/tests`) restated about the model, written by `tools/repo_tests.py`.  They are
  tests that the transcription computes the values which the authors of the code expect, not proofs; no theorem uses
  them.  The library tests are checked by the kernel, the slower ones by Lean's evaluator (`#guard`, which adds nothing to
  the environment).  Not restated: tests on random inputs without expected value and the JSON test vectors.

## 4. Properties, modelling and proof plan

Disagreements between code and claim are proved as negations (`*_refuted`), with a `_partial` theorem for
the largest domain on which the claim holds.

| id | model | proof |
|---|---|---|
| C01 | generic-width transcription of `comp_*` on `BitVec w`, `w > 0` | `comp_eq` by the classical "x∣−x has its top bit set iff x≠0"; `comp_gte` by a borrow-bit lemma on the top bit, both for all widths |
| C02 | wrapping and checked operations on `BitVec w` | `toNat`/`toInt` characterisation modulo 2^w |
| C03 | chunked byte (de)serialisation on lists | positional value lemma, induction over the chunks |
| C04 | native rotate (bit level spec) and the trait formula with shifts | bit extensionality |
| C05 | `setWidth`/`signExtend` | `toNat`/`toInt` lemmas |
| C06 | the trait's shift/mask formulas | bit extensionality |
| C07, C08 | `math_util.rs` selection helpers and `ct_div` | bitwise case split on the mask; loop invariant `a >> i = q*d + r`, `r < d` |
| C09 | public masks | case split; witness for the signed refutation |
| C10 | fuel-free recursive `sub_mod`, checked `+ * %` | well-founded induction, `Int.emod` facts |
| C11 | `extended_euclid_invert` on signed width-w integers with overflow checks | loop invariant: Bezout relation, gcd, sign alternation, coefficient bounds |
| C12 | `pow` loop | loop invariant |
| C13–C16 | `update_sub` etc. on lists with explicit panics | list lemmas |
| C17 | byte-level model of `from_str_radix` and `{:02x}` | table over 256 bytes, induction over lists |
| C18 | array word views | C03 |
| C19 | element-wise loops | loop = `zipWith`; witnesses for PublicSeq |
| C20–C23 | `Int` based model of the canvas with range checks, arbitrary width | arithmetic; base-256 digits; witnesses |
| C24–C27 | `nat_mod` on top of the canvas | invariant `< n`; ring homomorphism into `ZMod n`; Fermat; Pratt certificates evaluated by the kernel for the three primes |
| C28–C30 | `poly.rs` on lists of integers | homomorphism to coefficient functions / `Polynomial (ZMod n)` |
| C31, C32 | `sha2.rs` | refinement to FIPS 180-4 (byte-oriented); refutation and universal collision |
| C33, C34 | `hmac.rs`, `hkdf.rs` | refinement to RFC formulas over an abstract hash |
| C35–C37 | `chacha20.rs` | refinement to RFC 8439, explicit inverse |
| C38 | `poly1305.rs` | Horner invariant; refutation witness |
| C39, C40, C45 | AEADs | from length/involution lemmas, padding injectivity by lengths at the end |
| C41–C43 | `aes.rs` | finite tables + linear algebra over GF(2); refinement to FIPS-197, inverse cipher |
| C44 | `gf128.rs` | GF(2)[x] model, shift-and-add invariant |
| C46, C47 | `blake2b.rs` | refinement to RFC 7693; refutation; panic for Blake2s |
| C48–C50 | `fips202.rs` | refinement to lane-level FIPS 202; explicit inverse; sponge |
| C51–C53 | `curve25519.rs` | bit-level decoding; ladder invariant over Mathlib's `WeierstrassCurve` group law |
| C60, C61 | `scalarmult` | from C52 over the algebraic closure of the prime field |
| C54, C55 | `p256.rs` | Mathlib's `WeierstrassCurve.Affine.Point` group law; explicit Jacobian formulas |
| C56, C57 | `secret-integers/examples` | limb arithmetic with carry bounds, the code taken over wrapping and over checked operations; refinement to the same RFC 8439 spec, exact panic condition |
| C58 | all of the above | `= ok _` in every refinement theorem |
| C62–C65 | `Model/Words`: trait conversions, indexing, array order, `wrap_*` | exact results; order proved equal to the order of the denoted numbers; refutations where the methods panic |
| C66, C67 | `p256.rs` | group order: the base point is killed by the prime `n` (double-and-add evaluated by the kernel), the group has at most `2p + 1 < 3n` elements (at most two per `x`-coordinate) and an odd number of them because the cubic has no root, hence exactly `n`; then C55 |
| C68–C70 | `curve25519.rs` | points over the algebraic closure with Frobenius `±1` form two groups (curve and twist) with `2p + 2` elements in total; points of known order in each (ladder evaluated by the kernel) leave only `8ℓ` and `4ℓ'`; then C52 |
| C71–C73 | `gf128.rs`, `poly1305.rs` | Rabin's irreducibility test (squarings and one inverse evaluated by the kernel); the texts with a given difference of hashes are roots of one (GHASH) or one of eight (Poly1305) non-zero polynomials of bounded degree |
| C74–C76 | `blake2b.rs`, `sha2.rs`, `hmac.rs`, `hkdf.rs` | the chaining value of a message of full blocks is its digest; each step of `mix` has an explicit inverse; key blocks compared |
| C77 | `aesgcm.rs`, `chacha20poly1305.rs` | from C39, C45 with counters modulo `2^32`; injectivity of the block cipher for the positive part |
| C78 | `Model/WordHex` | exact result in terms of C17 |
| C79 | `extended_euclid`, `divstepsx`, `inv` of `poly!` (`Model/Poly`) | invariant of the division steps over any commutative ring (`Lemmas/DivSteps`: degrees, determinant, Bézout rows), tracked through the truncated coefficient lists (`Lemmas/PolyInv`) |
| C80 | `sha2.rs`, `hmac.rs`, `blake2b.rs` | the calls of `compress` are listed (`Spec/Calls`); induction from the last block backwards, injectivity of the padding (C32) |
| C81 | `aesgcm.rs`, `chacha20poly1305.rs` | the tags under two keys are affine in one ciphertext block with slope `H² + H'²` (`Lemmas/GcmKeys`), which is solved in the field of C71; concrete witness for ChaCha20-Poly1305 |
| C82 | `aesgcm.rs`, `chacha20poly1305.rs` | key streams cancel; the roots of the difference polynomial (C72, C73) list all candidates for the key, each giving one candidate tag |
| C59 | the `poly!` macro as functions of its parameters | from C28, C29; refutation of `from_vec` |
| C83 | `fips202.rs` | `keccak` as a chain of `absorb_block`s (`Spec/Calls`); the padding is read from its end; C48 (permutation) |
| C84 | `Model/Format`: all `fmt` functions, for `{}`, `{:?}`, `{:x}` without flags; the conversions of std and `num` as documented | numerals by strong induction; texts of lists are prefix-free |
| C85 | `Model/Random`: `random`, `get_random_vec`; the generator is a stream | induction over the length |
| C86 | `aes.rs` key expansion (`Model/Aes`) | the recurrence of the words solved backwards; C42 |
| C87 | `gf128.rs`, `aesgcm.rs`, `poly1305.rs` | GHASH as a polynomial (C72), Lagrange interpolation over the field of C71 |
| C88 | `p256.rs`, internal functions (only `point_mul` is public) | the formulas of C54 for a free constant coefficient; the ladder on `Y = 0` by its own invariant |
| C89 | the functions again, with events (`Model/Leak`); `Lemmas/Leak` proves that forgetting the events gives `Model` | a relation between two runs (same events, related results), rule by rule; loops by induction |
| C90 | the same | false: the events of AES and GCM determine the key, those of X25519 and P-256 the scalar; what the events of Poly1305 and the AEAD depend on is proved exactly |
| C91 | `Model/Leak/MachineInt.lean`: the functions with events; `C91_same_functions` proves that forgetting the events gives `Model` | exact lists of events by induction; `ct_div` and the dense products have events that depend on widths and lengths only; `sub_mod`, `inv`, `leading_coefficient`, `poly_mul` refuted, with an exact description of what the events of the last two depend on |
| C92 | the same; every iteration of a `while` loop is one `branch true` | exact numbers of iterations; false for `sub_mod`, `inv`, `signed_mod` and `pow`; partial: reduced operands, positive moduli, the main loop of `inv` (at most `2w + 1` iterations, potential: the number of digits of both remainders) |
| C93 | `Model/Numeric.lean`: the functions for an arbitrary implementation (a record of methods that may panic), and the six kinds of implementations | refinement: for machine integers equal to `Model/Poly.lean`; refuted for all others (`equal` and `*_mod` are `unimplemented!()`), with the exact set of inputs that panic; partial: `poly_mul_plain` is the product over `Z/n` and, in every position, over `Z/2^w` (loop invariant) |
| C94 | `Model/Leak/*`; `Spec/Steps.lean` counts events | a budget for every function (`Lemmas/Leak/Cost*.lean`), composed along the code with the lengths as loop invariants; the fixed-size cores by kernel evaluation of one input and the theorem that all inputs of that length have the same events. External code (`num-bigint`, comparison of tags) counts as no step |
| C95 | `Model/Aes.lean`; `Spec/Diffusion.lean` counts differing bytes | wide-trail argument: the column map has branch number 5 (one to four by the coefficients and those of the inverse, two to three by the 2×2 minors), ShiftRows moves the bytes of a column to four columns; the S-box by kernel evaluation of its complete difference table, packed into numbers by a proved histogram |
| C96 | `Model/Sha2.lean`; `Spec/Perm.lean` | explicit inverse of a round; the schedule as a shift register with explicit inverse step; a fixed point is a preimage of the zero state under `shuffle` |
| C97 | `Model/Poly1305.lean`, `Model/Gf128.lean`, `Model/ChaChaPoly.lean`; `Spec/Counting.lean` (the finite set of byte strings of a length) | counting: fibres over the clamped half of the key, over the tag seen, root bound of C40; uniformity of Poly1305 refuted, bound `2 * 2^128` instead |
| C98 | `Model/ChaCha.lean`, `Model/Fips202.lean`, `Model/Aes.lean`; `Spec/Symmetry.lean` | equivariance step by step for an arbitrary quarter round or word formula; the table of constants has no symmetric entry; recursion of the key schedule: symmetric round keys force equal, then zero words |
| C99 | `Model/Leak/Seq.lean` (events), tied to `Model/Seq.lean`, `Model/VecInt.lean` by `C99_same_functions*` | relational induction over loops: related states have equal lengths |
| C100 | `Model/Release/*.lean` (the functions that reach an assertion, a checked operation or a shift); `Spec/Builds.lean` (`Keeps`) | one simulation lemma per function, combined by `bind`, `ite`, `loop` rules; with C58 equality on typed arguments |
| C101 | `Model/Release/Seq.lean` | closed forms of the loops with wrapping indices; refuted for chunk functions and array conversions |
| C102 | `Model/Release/Sha2.lean` | the debug-build induction, carried over by C100, up to 255 blocks; the length field is the same modulo `2^61` |
| C103 | `Model/Release/MachineInt.lean` (release versions of the four operation tables, of the functions with assertions and of `extended_euclid`, `vec_poly_*`); the generic functions are those of `Model/MachineInt.lean` and `Poly.lean` applied to the release tables | simulation lemmas for `while`, `for`, checks; one lemma per function |
| C104 | `Model/Release/MachineInt.lean` | closed forms with the word size as an additional modulus; `sub_mod` by induction on the least number of wrapping additions; refuted by witnesses |
| C105 | `Model/Release/MachineInt.lean` | bit by bit; the truncation lemma of `make_fixed_length`; loops over the first operand; refuted |
| C106 | `Model/Ideal.lean` (the code of both AEADs with the block function as a parameter; with ChaCha20 or AES it is the code, by `rfl`), `Model/IdealAead.lean`; attacks in `Spec/Games.lean` | until the first forgery the attack is one whose decryptions are all refused; the key of Poly1305 or the two blocks of GCM are replaced one by one in all functions with the same history, and roots of polynomials are counted (C97) |
| C107 | as C106 | the functions with one history are mapped to those with the other by adding the difference of the messages to the key stream; decryptions by C106 |
| C108 | as C106, over `Equiv.Perm` of the blocks | the blocks enciphered in an attack are determined by their own values, so functions fall into classes of `N^(N-c)` functions and at most `(N-c)!` permutations; double counting; Bernoulli's inequality |
| C109 | `Model/IdealHash`: `hash` with the compression function as argument; `Model/IdealSha`: with a cipher `E` in place of `schedule` and `shuffle` | attacks are trees of questions; the attack is continued with the questions that hash its result; each answer hits a forbidden sum with few of the ciphers that are consistent with the answers so far (permutations with some values fixed are counted with `Equiv.Perm`); without a hit the chain of compressions is injective |
| C110 | `Model/IdealHash`: `keccak` with the permutation as argument | as C109; the inner parts reached from the start form a tree unless an answer hits an inner part seen before; each inner part is that of at most `2^(8 rate)` states, each output that of at most `2^(1600 - 8 n)` |
| C111 | `Model/IdealBlake`: `blake2b` with a cipher in place of the rounds | as C109, for compression functions whose output is the image of few cipher outputs |
| C112 | `Model/Release/Seq`: operators, word views, conversions of arrays without assertions | loop invariants; the last short block finds no place |
| C113 | `Model/IdealHmac`: `hmac` over SHA-256 with a block cipher inside; attacks as programs (`Spec/Macs`), shares of all keys and ciphers | the cipher is changed at one input per block so that the two games agree unless key or outer state is touched; no collision of the inner iteration; then the outer function is a random function of the message (`Lemmas/Ideal/Nested`, `Sampling`, `Hmac`, `Forging`) |
| C114 | `Model/IdealHmac`: `expand` over the same; ideal: independent random blocks for each string | attacks on `expand` are attacks on `hmac` (C113); a random function at the inputs of the blocks gives random blocks (`Lemmas/Ideal/Hkdf`) |
| C115 | `Model/IdealChaCha`: `block` with a permutation in place of the rounds; ideal: a random function of nonce and counter, independent of the permutation | for every key, each course of an attack in which the secret points and values do not meet the others is at least as likely with the code as with the random function (induction over the attack, counting permutations with given values, `Lemmas/Ideal/Feed`); meetings are rare because each determines the key or is a collision of random values |
| C116 | `Model/IdealChaCha`: `encrypt` and `decrypt` with a permutation in place of the rounds; `Spec/AeadAttacks`: attacks that also ask the permutation | an attack becomes one on blocks that asks for the at most `L` blocks of each question (`Lemmas/Ideal/Strategy`), so C115 replaces the blocks by a random function; with the permutation fixed, the attack is one on C106 and C107 |
| C117 | `Model/IdealAead`: `encrypt_aes` and `decrypt_aes` with a block cipher in place of AES; `Spec/AeadAttacks`: attacks that also ask the block cipher with keys of their choice | the cipher with the secret key is replaced by an independent permutation, which changes nothing unless a question has the key (`Lemmas/Ideal/Keyed`); with the block cipher fixed, the attack is one on C108 |
| C118 | `Model/Usize`: the functions of `Model/Seq` once more, with checked `usize` operations and the limit of allocations | case analysis on which sums and products fit; this proves the simplification of `usize` to `Nat` in `Model/Seq` |
| C119 | aes_enc of `Model/Aes`; `Spec/Trails` has the differences of two runs | the S-box bound of C95 for each byte; the blocks before the rounds are in bijection with the keys and the first block, so the rounds are independent; with the count of C95 for `4 m` rounds. The keys are independent, not those of the key expansion |
| C120 | aes_enc of `Model/Aes`; `Spec/Masks` has masks and the equation | the correlations of the S-box by a Walsh transform of numbers packed in one, evaluated in the kernel and proved to be the sum; the transpose of MixColumns through the bilinear form "lowest bit of the product", so that the branch number of C95 applies; the blocks before the rounds are independent, so correlations are multiplied. The keys are independent, not those of the key expansion |
| C121 | aes_enc of `Model/Aes`; `Spec/Integral` has the exclusive or over a finite set | a byte that takes all values keeps doing so through the S-box and through the multiplication by a nonzero constant of the field; after two rounds each byte takes all values, so the third MixColumns keeps the sum 0; four rounds by splitting the 2^32 blocks after the first round into sets in which one byte takes all values. That the sum after one round more is not 0 in general is not proved: the kernel runs out of memory |
| C122 | aes128_encrypt_block, aes256_encrypt_block of `Model/Aes` with all parameters; `Spec/AesParams` has the schedule with a period apart from the number of words of the key | each step of the key expansion either continues the schedule or panics, with the exact condition; the rounds are inverted for each schedule; that another nk is not AES by a witness |
| C123 | the rounds of keccakf1600 of `Model/Fips202`; `Spec/Cubes` has affine spaces of states and sums | degree by derivatives: derivatives of products, additive maps keep the degree, chi doubles it, the inverse of chi triples it; a sum over an affine space is a derivative; the states before are found with the inverse rounds |
| C124 | as C110 | as C110; the message is absorbed first; its last answer misses the outputs before it, later answers miss its output |
| C125 | `sponge` of C110 with any permutation; an arbitrary simulator (`Spec/Simulator`): a state, a random value per question and questions to the random function | `simulator_close`: the simulator keeps a table of answers with the blocks that lead to them (`Lemmas/Ideal/Tables`); as long as no inner part repeats, each run with the simulator has its share of permutations (`Claim`, by induction over the attack that also asks for all blocks of its messages at the end); repetitions are counted for each question (`share_bad`); all output blocks of `squeeze` (`squeezed_all`); a block of zeros continues a message like an output block (`blocksTo_inj`). The simulator's running time is not modelled, only the number of its questions |
| C126 | `point_mul`, `montgomery_ladder`, `scalarmult`; attacks in `Spec/Generic`: programs over a list of points, which append `c a + d b`, compare two points and end with a result | a run in the group agrees with the run on expressions in the secrets, except for accidental equalities, of which each comparison allows few (`generic_run`); such an expression is zero, or the common secret, for few secrets (`evalTwo_zero`, `evalTwo_product`), as the order is prime (C66, C70) and each residue comes from few secrets (`share_x25519`); the link to the code is C55 and C52. Attacks that look at coordinates are not covered |
| C127 | `extract`, `expand` with the cipher inside `hash` as a parameter (`Model/IdealHmac`), `scalarmult` | exchanging the value of the cipher that gives the result of `extract` with an independent one is an involution on ciphers, inputs and values (`exSwap_invol`), and changes no run that does not ask with this last key (`run_agree`); the key with the input is asked for few inputs, and otherwise the last key is any one of 2^256 (`share_mid_le`, `extract_near`); then C114. For `scalarmult` each value comes from few secrets (`share_secret`). Whoever sees the public key of the random secret is not covered |
| C128 | `encrypt`, `decrypt`, `block` with a permutation in place of the rounds, as in C115 and C116 | the proof of C115 needs only that each state is unlikely for random keys and that the states are different (`share_feed_any`); for several keys the shares are counted (`share_not_injective`, `share_at`). Then the other users' functions are fixed, and the program that asks one user only (`only`) attacks C106 or C107; for the messages users change one after the other (`users_choice`). `C128_sharp`: sending a ciphertext to the other user |
| C129 | `encrypt_aes`, `decrypt_aes` with a block cipher in place of AES, as in C117 | for different keys, exchanging the permutations of the users' keys with independent ones is a bijection (`exchange`), and changes no run that does not ask with one of these keys (`run_patch`, `share_keyed_each`); then one user after the other as in C128, from C108 (`users_forge`, `users_choose`). `C129_sharp`: the tag of the empty message for one key, sent to all users |
| C130 | `keccak` with a permutation as in C110 and C125; `sha256::hash` and `blake2b` themselves | three steps: the simulator of C125 for every key (`relabel`), another random function for the texts after the key, which is seen only if the simulator asks with the key (`share_prefixed`), and the simulator of C125 for an attack that answers the requests itself (`settle`). Forgeries: guessing a value of a random function (`share_guess`). SHA-256 from C32, BLAKE2b from C74 |
| C131 | `chacha` with a permutation as in C115, `aes_encrypt` with a block cipher as in C117 | an attack that asks for blocks and computes the ciphertexts itself (`viaBlocks`), then C115 for ChaCha20 (`feed_abs`) and, for AES, first another permutation (`share_keyed`) and then a function (`share_switch`). With fresh blocks of a random function the message makes no difference at all: an injection of the functions onto themselves, by induction on the attack (`exists_fresh`). One byte encrypted twice with one block shows that the rule is needed |
| C132 | ChaCha20-Poly1305 and AES-GCM as in C116 and C117; random strings for ciphertexts and tags, and no decryption | from the code to a random function as in C116 and C117 (for AES-GCM with C108); then decryption is switched off, which is seen only after a forgery (C106). Then the answers are replaced one after another (`share_hybrid`): the blocks of a new nonce are chosen anew, independently of all the rest. The tag of AES-GCM is a bijection of its mask; that of Poly1305 as coded is injective but for 5 of 2^128 second halves of the key |
| C133 | `hash` and `blake2b` whole; a search for collisions is any function of the beginning | induction on the number of searches: equal digests of whole blocks are kept by any ending (C74), so the choices at each step do not matter; different choices give different messages. Existence and the agreement of both digests by counting (pigeonhole, without listing anything). The last claim from C31: the digest of whole blocks is the chaining value |
| C134 | `extract`, `expand`, then `encrypt` or `decrypt`, with two independent primitives | for each permutation, an attack on the sessions is one on the derivation that first asks for all keys and computes the rest (C127); for each cipher inside SHA-256, what is left is an attack on users with random keys (C128, C129). The values of a random function at different strings are independent (`share_points`). A session is shown to be the code, step by step |
| C135 | `encrypt` and `decrypt` with nonces that are drawn | for each list of different nonces, the attack that stops at answers that do not fit keeps the rules (`careful_rules`), and it has the same answers (`answers_careful`), so that C116, C117 and C132 apply; nonces are equal for at most the share `n(n-1)/2⁹⁷`. The attack that sees equal nonces and compares ciphertexts has this share for two messages. That `chachaPolyOf` and `aesGcmOf` are the code is C116_code and C117_code |
| C136 | `scalarmult`, then sessions as in C134, for whoever sees the public keys as points of an abstract group | the attack is run with formal points, two unknowns over the integers modulo the order: without accidental equalities this is the same run (`play_formal`). The answers depend on the product of the unknowns only, and a line meets a hyperbola in at most two points (`card_line`), so that accidental equalities have at most the share `e/2²⁴⁸`; to what is left C134 applies. Not covered: attacks that look at coordinates, or send points of their own |
| C137 | `expand` in a chain: a key for use and the next key of the chain from each key, with any block cipher inside SHA-256; then `encrypt` and `decrypt` of ChaCha20-Poly1305 and AES-GCM | induction on the steps: by C114 the first two outputs are replaced by random ones, while the rest of the chain is computed by questions to the cipher that are added to those of the attack (`ratchetProg`); what is left is a shorter chain with a random first key. The sessions then have independent keys (C128, C129). `C137_chacha_code`, `C137_gcm_code`: the code is one of the cases |
| C138 | `hmac` of the key and the message as a commitment, with any block cipher inside SHA-256 | binding: from two openings two different inputs of the iteration with one last state are computed, the inner ones if they end in one state, otherwise the outer ones (`openings_collide`), and C109 bounds these; messages must be all whole blocks or none (`C138_mixed_refuted`), and keys of one length (`C138_keys_refuted`). Hiding: C113, and one value of a random function does not tell where it was taken (`share_one_question`) |
| C139 | `chacha` or `aes_encrypt`, then `hmac` of nonce and ciphertext, with any primitives; the composition itself is a specification (`Spec/Composed`), the code has none | forgeries: encryption keeps lengths, so each question becomes one for a tag of another message (`recast`), and a forged ciphertext is a forged tag of C113, for each fixed key stream; privacy: C131 for each fixed HMAC (`encPart`), then C113 for each fixed key stream (`two_steps`); `C139_mixed_refuted` shows that the restriction of the lengths is needed |
| C140 | `point_mul`, `montgomery_ladder` with third coordinate 1, `jacobian_to_affine`, `to_le_bytes` as modelled, then the sessions of C134; the key exchange itself is a composition (`AgreedP256`), the code has none; points as elements of a group that attacks do not look at, as in C136 | C55 and C66 give the common secret as the x coordinate of a multiple of the base point, at most two scalars have the same (`agreedP256_share`); `share_channel` of C136 for the group of P-256; then C134 |
| C141 | `scalarmult`, `montgomery_ladder`, `jacobian_to_affine` as modelled; doubling of a coordinate is a formula of its own (`doubleU`) | results are coordinates of multiples of a point over the algebraic closure (C52) whose order divides 8 times two primes above 2^252 (C68), so that multiples by clamped scalars agree exactly if the multiples by 8 do; honest keys and P-256 by the prime orders (C70, C66) |
| C142 | `scalarmult` and `point_mul` as modelled; results are counted as sets (`Set.ncard`) | secrets with the same result are those of C69, so that one half of the scalars that have a partner, together with the others, is an interval on which results are different (`ncard_image`); P-256 by C66 |
| C143 | `scalarmult` as modelled; coordinates are counted as sets of numbers below p (`Set.ncard`) | a group of c r points has exactly c points killed by 8 (Cauchy's theorem, `card_torsion`); equal results are points with the same multiple by 8 up to sign (C141), that is translates by these points, and their coordinates are different (`card_class`) |
| C144 | `scalarmult` and `point_mul` as modelled; secrets are counted as sets (`Set.ncard`) | a scalar comes from exactly 32 strings (`ncard_scalar`), and equal results are equal or opposite scalars (C69); the order is odd, so that these are different; P-256 by C66 |
| C145 | `aes_enc`, `aes_enc_last`, `block_cipher_aes` as modelled, with any round keys | after two rounds all 16 bytes differ (C95); four equal bytes after the last round are an equal column before it, thus four equal bytes before the third round (branch number of MixColumns); for five rounds a pair found by search |
| C146 | `aes_enc`, `aes_enc_last`, `block_cipher_aes` as modelled, with any round keys; the exchange is a small specification of its own (`exchange`) | a round maps an exchange of diagonals to one of columns (`exchange_round`); the next round is, up to the S-box on each byte, linear, so that the difference does not depend on the order in each byte (`outByte_diff`); two more rounds as in C145; for five rounds a pair found by search |
| C147 | `aes_enc`, `aes_enc_last`, `block_cipher_aes` as modelled, with any round keys | the first round maps the diagonal one-to-one to a column (`diagonal_to_column`); in each of its four bytes there is an involution without fixed points of the pairs — exchange, or change both if equal — that keeps the difference two rounds later (`mixed_two_rounds`), so that four independent factors of 2 divide the number (`sixteen_dvd`) |

This table is updated as the work proceeds; the authoritative status per property is `MANIFEST.json`.
The axioms of every property theorem are listed in `AXIOMS.md` (generated by `tools/axioms.py`).

## 5. Disagreements between code and claims (each with a `_refuted` theorem)

| id | disagreement |
|---|---|
| C04, C09, C08 | trait rotations, comparison masks and `ct_div` are wrong for signed types |
| C11 | `extended_euclid_invert` overflows or diverges when the modulus' square does not fit, and maps 0 to 0 |
| C17 | `from_hex` accepts `"+f"` |
| C19 | `^` on `PublicSeq` returns an empty sequence; `*` is element-wise, not polynomial; `%`, `!`, or, and, `<<`, `>>` of arrays are `unimplemented!()` and panic (`C19_array_operators_refuted`) |
| C20, C23, C24 | `max()` is rejected by the canvas; negative literals panic or become `x + 2^128`; `from_literal(n)` keeps `n` unreduced |
| C22 | signed `from_hex` with sign `""` reads every string as 0 |
| C27 | `/` on `nat_mod` types is integer division of the representatives |
| C28, C29, C59 | `poly_mul` with `n = 0` panics; division multiplies an unreduced digit, which overflows although `n²` is representable; `from_vec` accepts degree `l` and drops the leading coefficient |
| C31, C32, C33 | SHA-256 omits the padding block for lengths divisible by 64, which gives collisions and wrong HMACs |
| C34 | HKDF-expand panics for lengths 8129..8160 |
| C38 | Poly1305 adds `s` modulo `2^130 - 5` instead of modulo `2^128` |
| C46 | BLAKE2b does not set the final-block flag when the length is a multiple of 128 (including 0) |
| C47 | the 32-bit instance of `blake2` panics |
| C53 | `secret_to_public` panics for every secret: `SerializedPoint::from_hex("09")` is one byte instead of 32 |
| C64 | comparing signed secret arrays panics |
| C65 | `wrap_add`, `wrap_sub`, `wrap_mul` of bounded integers panic instead of wrapping; of signed arrays always panic |
| C74 | `blake2b` and `sha256::hash` of a message of full blocks are chaining values: digests of extensions are computable from digest and length |
| C77 | the AEADs accept messages beyond the limits of the standards; the counter wraps, which repeats key stream and exposes the tag mask or the one-time key |
| C78 | `from_hex` of an array of words stores one byte of the string per word |
| C79 | `extended_euclid` modulo a composite number may miss an inverse (`1 + 2X²` modulo `X³` over `ℤ₄`) or panic |
| C80 | a message and its padding have one SHA-256 digest by the same calls of `compress` (C32); BLAKE2b does not call `compress` for the empty message |
| C81 | neither AEAD commits to the key: for AES-GCM any two keys with different hash subkeys have a common ciphertext, one block of which is computed from the rest; explicit keys for ChaCha20-Poly1305 |
| C82 | two ciphertexts under one nonce restrict the tag of any third one to at most as many candidates as there are blocks (32 times as many for Poly1305) |
| C84 | secret integers and arrays are printed in clear (the arrays carry a warning, the integers do not) |
| C90 | `sub_bytes` indexes the S-box by secret bytes, `fmul` and both ladders branch on secret bits, and the tag and the result of X25519 are copied in a loop over the bytes without leading zeros. Equal events imply equal keys (AES, AES-GCM encryption and decryption), equal factors (`fmul`), equal scalars (X25519, P-256). For Poly1305 the events depend exactly on the size of the sum from which the tag is taken. |
| C91 | `sub_mod` loops `tmp = tmp + n` while `tmp < rhs`, also for secret integers: the number of iterations shows the difference. `extended_euclid_invert` branches on its operand. `poly_mul` and `leading_coefficient` skip zero coefficients: the events show exactly which coefficients are 0. |
| C92 | `sub_mod(0, 2^w - 1, 1)` takes `2^w - 1` iterations; inverting `n - 1` modulo `n` takes more than `n` (the inner loop adds `n` until it exceeds a product of size `n^2`); `signed_mod` with a negative modulus adds it until the type overflows, up to `2^127` times; secret `pow` multiplies `e - 1` times. |
| C93 | `equal`, `add_mod`, `sub_mod`, `mul_mod`, `div` and `inv` are `unimplemented!()` for bounded integers, modular integers and arrays: `poly_add` of two polynomials over the field of Curve25519 compiles and panics, and so do all generic functions but `poly_mul_plain`. |
| C97 | `poly` adds the second half of the key modulo `2^130 - 5` and not modulo `2^128`, so the tags of a message are not uniform over the keys: the tag `ff..ff` of a message of two blocks is given by fewer than the average `2^128` keys. |
| C101 | Release build: `num_chunks` of a vector with at least two elements and chunk size `2^64 - 1` is 0; `get_chunk(2^63, 2)` returns the first chunk; `set_chunk` cuts an input that is too long; array `from_vec`, `from_seq`, `from_sub`, `from_public_slice` fill an input that is too short with zeros, `from_hex` cuts one that is too long. The debug build panics in all these cases. |
| C104 | Release build: `200u8.add_mod(100, 7)` is 2 instead of 6; `249u8.sub_mod(250, 251)` is 5 instead of 250; `0u8.sub_mod(200, 128)` does not return; `inv` of public integers is as wrong as that of secret ones (C11); a negative modulus with a negative remainder returns an unrelated number. The debug build panics in all these cases (`C104_*`). |
| C105 | Release build: `get_bit(9)` of a `u8` reads bit 1; `set_bit(0, 9)` does nothing while `set_bit(1, 9)` sets bit 1; `extended_euclid` of `1 + X` modulo `1 + X` is "1"; `+`, `-`, `*` on `PublicSeq` cut a longer second operand. The debug build panics in all these cases (`C105_*`). |
| C114 | `expand` gives related outputs for different strings `info` when an input of HMAC is whole blocks, because `hash` does not pad them: `T(8)` for the 31 bytes `01 80 00…00 03` is `T(1)` for the string `T(7)`, for every key. |
| C122 | `nk` is a parameter of `aes128_encrypt_block` and `aes256_encrypt_block` but not checked: `nk = 5` returns a block that is not the AES encryption (`C122_is_aes_refuted`) |
| C138 | A commitment with `hmac` to a message that is not whole blocks opens to a second message with the same key, because `hash` does not pad whole blocks: `C138_mixed_refuted`, for all keys of at most 64 bytes. |
| C139 | If ciphertexts of all lengths are accepted, encryption and then `hmac` can be forged without any key: the padding of `hash` is appended to the ciphertext. `C139_mixed_refuted`. |
| C140 | The bytes of `to_le_bytes` are not of one length: the common secret of P-256 can have any length down to one byte (the usual encoding has 32 bytes). `C140_length_refuted`. |
| C141 | A common secret of `scalarmult` does not determine the public key that was used: `u` and `1/u` modulo `p` give the same result for every secret. `C141_key_refuted`. |

## 6. Mutation testing

`tools/mutate.py` applies one edit at a time to a copy of the model outside `/verif`, rebuilds, and replaces every
proof that breaks by `sorry` in that copy so that later modules are still examined. `seeded/LOG.jsonl` has one line per
attempt; `failed` lists the theorems whose proofs break (which includes theorems that fail only because a lemma they use
no longer holds), so a mutant counts as caught only if a theorem of the claim named in the record is in the list.
