# Formal model of jeaiii/ce: design

## Trusted base

* The Lean 4.33.0 kernel, and Mathlib as far as its theorems are used. Every theorem depends on at most the axioms
  `propext`, `Classical.choice`, `Quot.sound`. There are no added axioms, no `sorry`, no `native_decide`, no `bv_decide`.
  `decide +kernel` is used on closed finite tables (the 256 byte values, the CORDIC tables) and on concrete witnesses.
* The transcription of the C++ into the definitions of `Verif/Model/*.lean`. Each definition cites file and lines of
  `/repo`. The code was read, not run.
* The meaning of C++ that the transcription assumes: unsigned arithmetic is modulo 2^w, signed right shift is arithmetic,
  pointers are (array, index) pairs, `char` is 8 bits, `size_t` and `long` are 64 bits (32 bits on Windows for `long`,
  see C01). Objects may be accessed as the code does: `to_text_from_integer.h:85` stores two characters through a pointer
  to `struct pair`, which the standard's aliasing rules do not allow and the model takes as two bytes. Signed overflow, out-of-bounds access, use of a dead object, over-long shifts and failed assertions are
  undefined behaviour: where an operation can hit one, the model returns `none`, so `f x = some y` also states that
  nothing of the kind happens.
* Loops without an evident bound take a number of rounds (`k`); `none` also stands for "not finished in `k` rounds".
  Termination theorems say that some (often explicit) `k` suffices, non-termination theorems that none does.
* Where the C++ relies on something outside the repository, it is a parameter or given by its documentation: what the
  compiler prints in `__PRETTY_FUNCTION__` (C63), the platform locks (C62), compare-exchange instructions (C59), the
  x86-TSO memory model (C60, C61), IEEE-754 doubles with correctly rounded operations (C52, C53, C77), the tick counter
  (C40), `std::to_chars` (C105), `rsqrtss` (C107).

## Layout

* `Verif/Model/X.lean` : transcription of the code (definitions only).
* `Verif/Spec/X.lean`  : what is claimed: textbook definitions (numerals, polynomials, lists, multisets, winding numbers,
  circles, ...) and, where the subject is a history of calls, which histories are meant (these name the entry points of
  the model and nothing internal).
* `Verif/Proof/X.lean` : invariants and lemmas.
* `Verif/Props/X.lean` : the property theorems and a concrete non-trivial instance (`example`) beside each.
* `tools/` : scripts that write `properties.jsonl`, `MANIFEST.json`, the table below, and run mutations.
* `seeded/LOG.jsonl` : the mutations tried.  `detected: false` means that everything still built; `note` says why, or what
  was done.  For most of the work `tools/mutate.py` did not log a hand-written edit that survived.  Seven of these were
  logged only after a theorem had been tightened (their `note` says so), four were added late.  All hand-written lists
  have since been compared with the log: nothing that was built is missing, though a line may stand for the second run.  Edits
  that do not compile, and automatic edits whose build took over 400 seconds, are not logged.
  `detected: true` means that the build failed at the declarations in `failed`, often a lemma on the way to the property: a sign
  that the proof depends on the text edited, not a proof that the claim became false.  Automatic runs stop at the first failure.

`Verif/Props/Conform.lean` asks the model for what the project's own tests (test/*.cpp) and static assertions (ce.h:1534-1549)
expect: tables and values of the hashes, `inside`, `isqrt`, the polar angles, the double next to pi, the queue, dictionary, bulk
and sorting tests, `locate`, enumerator names, the text of the io example. It agrees in all of them. Evaluated outside the kernel the
model also gives the 2048 cosines of test/math.cpp to the last digit and passes the three tests of the random generators.

Names: the theorem for property Cnn begins with `Cnn_`. `_partial` marks a theorem that covers only part of its property;
`_false` marks a proof that the property, as a user would state it, does not hold of the code, with a concrete witness;
`_undefined` marks a precondition without which the code has undefined behaviour.

## What is modelled

| file | modelled | not modelled |
|------|----------|--------------|
| lib/to_text_from_integer.h, lib/to_text.cpp | all integer conversions, `float` and `double` (C105) | the inside of `std::to_chars`, taken by its contract |
| lib/h/ce/ce.h | type lists, sequence, crc, fnv, vec, random, base64, to_text, as_string, type transformations, check macros, names, log macros, span, bulk, heap, bitset, rotl32, `tuple`/`get`, the preprocessor macros, layout of `rgba` and `vec` | compiler detection macros and type traits that wrap compiler intrinsics |
| lib/h/ce/sort.h, pool.h, dictionary.h, lziii.h, clock.h, zorder.h, io.h, nameof.h | everything | |
| lib/h/ce/math.h | everything | the instructions behind `_mul128`, `_div128` |
| lib/h/ce/cdt.h | everything | |
| lib/h/ce/atomic_std.h, atomic_msvc_x86.h | load, store, exchange, compare-exchange, fetch operations, the choice of code by type, spin lock | how the compiler answers the traits, `memory_order` arguments |
| lib/mutex_std.cpp, lib/mutex_win32.cpp | the wrappers | the platform locks |
| lib/os.cpp | log, error | |
| lib/os_win32.cpp, lib/os_posix.cpp | `to_utf16`, paths, sleeping, timestamps, files, `debug_out` | the system calls themselves, `virtual_alloc` |
| test/, premake | | not part of the library |

## What was found

Properties a user would expect that the code does not have (each with a proved witness):

* `next_unbiased` never rejects a draw, so it is biased unless the range divides 2^32 (C19). `xoroshiro64ss` seeded with
  an empty seed, or one whose halves have CRC 0, is stuck at zero (C20). `read(pcg32_64_t)` shifts by 32 (C17).
* `intro_sort` recurses linearly deep on equal elements (C23) and compares quadratically often (C99), and `intro_sort<0>` reads outside (C22).
* `dequeue` on an empty queue is undefined (C25). Copying a `bulk` of a type without default constructor assigns to raw
  memory (C29). Growth of trivial types shows stale contents (C27).
* A `dictionary` never finds the name equal to `names[0]` (zero) and uses up an entry per `bind` (C32), and one of
  capacity 1 writes outside (C33). `pool` double free (C31).
* `lziii` reads outside its buffers on malformed input (C37).
* `names` takes non-ASCII letters for blanks (C38), `names_t` loses a name after a blank before a comma (C39).
* `in_range_rr_edge` reports points beyond the far end (C46). `a *= a.x` uses the changed component (C48). `intersect`
  returns `p1` for determinants below 65536 (C49). `in_polygon` overflows near the ends of the range (C50).
* `isqrt` is not the nearest integer above 2^50, `hypot` differs between processors and is off by one for some integer
  triangles (C53). `to_cartesian` of INT_MIN (C52) and `to_polar` of long vectors overflow (C77).
* `z_query` misses elements (C55), reports elements outside the rectangle (C56), overruns its stack (C57), and finds
  nothing when the far corner lies in the last cell (C100).
* Atomic loads of small structs on MSVC tear (C61).
* `nameof` keeps inner qualifiers, loses names that begin with a parenthesis, and shows `unsigned int` as `int` (C63).
  The io visitor gives no handler the capacity of a list (C64). Quotes in log records are not escaped (C65). The error
  hook's level is always 0 (C66). `to_utf16` reads past truncated text (C67).
* cdt: the products of `incircle` overflow 64 bits already at the first insertion (C74). `validate_face` asserts
  `e0 != e1`, which is false for the faces of the empty mesh (C72). `insert_edge` leaves unconstrained edges that are not
  locally Delaunay: after constraining an edge only one of the two adjacent edges on its far side is tried (C79, C111).
  With constraints `locate`, `insert_point` (C80) and `insert_edge` (C112) can loop for ever; `insert_edge` from a corner of
  the square can leave the mesh (C112). A point on the outline that is not a vertex is refused
  (C78). `locate` overflows its 32-bit differences for points far outside or scales above 2^15 (C75). `insert_edge` divides
  segments at truncated crossings, so it may return true with a bent line although nothing was constrained before, and
  fails for two segments that cross off the grid (C83).
* On Windows `sleep_ns` rounds down and never returns for 49.7 days or more; on POSIX a signal ends it (C87). On 32-bit
  Windows `map_span` shows the beginning of files above 4 GB, and an empty file is reported as missing (C88).
* With MSVC, atomics of small classes are loaded under the lock but stored without (C61, C89); `atomic_compare_exchange` has
  no return for odd sizes; `atomic_fetch_sub(a, INT_MIN)` overflows (C89). A fetch-add (C91) and a waiter at the spin lock (C92)
  can be overtaken for ever. An `operator+=` that uses atomics itself, run under the lock, can wait for ever (C131).
  `atomic_compare_exchange` compares bits: it fails for 0 against -0 and where only padding differs (C133).
* `open_file` with a path that ends inside a character passes an unterminated name, and a path with an overlong 0 opens
  another file (C93). `as_string` of a `vec` of C strings can overflow its array, and a `mat` is shown as addresses (C95).
* `rotl32` by a multiple of 32 shifts by 32 (C102). With structured bindings no use of `get<N>` compiles (C103).
* CE_ASSERT, CE_VERIFY and CE_REJECT report the text of the test after macro expansion, unlike CE_LOG, and a test with a
  comma outside parentheses such as `is_same_v<a, b>` is split at it (C104). A misspelt level name is silently level 7.
* Lines logged by several threads may be mixed, since a line is written in many pieces without a lock, and the rest of a
  short `write` is dropped (C106).
* `normal` gives the null vector for long vectors and infinities or NaN for short ones (C107); off x86 it names a `sqrt` that
  is not in scope unless a header declares one.
* With a NaN among floating point numbers the other numbers need not come out sorted, and `dequeue` may give one that is not
  the least; nothing is lost or read outside (C134).
* `hypot` of a sum may exceed the sum of the `hypot`s by one, and `isqrt` falls near the end of its range (C136).
* The result of `intersect` may share its object only with the first point; with the end of the first line no intersection
  is ever reported (C137).
* Seeds of `pcg32_64` that differ in the highest bit give numbers that differ by a rotation by 16 and one bit only (C148).
* mutex.h asserts that the size of a mutex is a multiple of that of a pointer, but not its alignment: a mutex type with more
  alignment than a pointer may be constructed where there can be none (C150).
* A reference count of w bits tells a drop it was the last while 2^w handles are in use after 2^w clones (C149).
* On the edges and vertices of a triangulation `in_polygon` and the test made of `inside` each name one triangle, but not the
  same one (C138).

## Properties

<!-- properties -->

### C01 Integer to text is exact decimal (proved)

* Modelled: `to_text_from_integer` for every size and sign, each digit store at its index, all products in exact 32/64-bit arithmetic (Model/ToText).
* Proof: fixed-point invariant `u*2^32 <= t*10^n < (u+1)*2^32` for each `JEAIII_` macro; the spec is the recursive decimal numeral.
* Note: All ten integer types through their size and signedness; to_text of a bool is in C03.
* Theorems: `C01_to_text_integer_exact`.

### C02 Integer text fits its declared measure (proved)

* Modelled: same.
* Proof: the text is placed as a list, so its length bounds the cells written; a value of maximal length for each type.
* Note: Every cell outside the text keeps its content; measure is also tight.
* Theorems: `C02_to_text_integer_in_measure`, `C02_measure_tight`.

### C03 as_string never overflows and is NUL terminated (proved)

* Modelled: `measure`, `to_text_m`, `to_text_s`, `to_text_p`, `as_string` (Model/AsString).
* Proof: induction over the argument list; each text is at most its measure.
* Note: Preconditions Arg.OkM; null char const* and unterminated short arrays are shown to be undefined. Floating point arguments are in C105, vectors in C95.
* Theorems: `C03_as_string_concat_in_bounds`, `C03_as_string_outside_untouched`, `C03_as_string_size_tight`, `C03_null_cstr_is_undefined`, `C03_unterminated_array_is_undefined`.

### C04 Integer text is injective (proved)

* Modelled: same as C01.
* Proof: left inverse: reading the numeral.
* Theorems: `C04_to_text_reads_back`, `C04_to_text_injective`.

### C05 Array and vec text format (proved)

* Modelled: `to_text_n`, `to_text(vec)`.
* Proof: induction over the elements.
* Note: Elements that are arrays or vectors themselves are shown as addresses (C05_nested_false).
* Theorems: `C05_nested_false`, `C05_to_text_array`.

### C06 Table CRC equals the bit-serial CRC (proved)

* Modelled: `detail::crc32`, `crc32_table`, the byte overload (Model/Crc).
* Proof: table entry = eight bit steps; induction over the data.
* Theorems: `C06_crc32_bytes_is_serial`, `C06_crc32c_is_castagnoli`.

### C07 Wide CRC overloads agree with the byte overload (proved)

* Modelled: the `uint32_t` and `uint64_t` overloads, slicing tables.
* Proof: xor-linearity of the eight-bit step; slicing lemma.
* Theorems: `C07_crc32_words_is_bytes`, `C07_crc32_longs_is_bytes`.

### C08 CRC can be computed in pieces (proved)

* Modelled: all overloads, `crc32c`.
* Proof: induction; composition of folds.
* Theorems: `C08_crc32_incremental`, `C08_crc32_mixed_incremental`, `C08_crc32c_literal`.

### C09 CRC detects every burst error up to 32 bits (proved)

* Modelled: same.
* Proof: bit step is injective; polynomials over GF(2) in Mathlib for the divisibility criterion.
* Note: Burst errors up to 32 bits, and the exact criterion (generator polynomial divides the difference) for all others.
* Theorems: `C09_burst_error_detected`, `C09_equal_crc_iff_divides`, `C09_initial_value_injective`, `C09_difference_depends_on_xor`.

### C10 FNV-1a is the standard byte fold, with multi-byte elements hashed little-endian (proved)

* Modelled: `hash::fnv1a` and its overloads (Model/Fnv).
* Proof: induction over elements and bytes.
* Theorems: `C10_fnv1a_is_byte_fold`, `C10_fnv1a_incremental`, `C10_fnv1a_text`.

### C11 FNV-1a never confuses strings differing in one byte (proved)

* Modelled: same.
* Proof: the prime is odd, so a step is a bijection.
* Theorems: `C11_single_byte_change_detected`, `C11_basis_injective`.

### C12 base64 decode inverts base64 encoding (proved)

* Modelled: `base64::size`, `decode`, `ascii::is_base64` (Model/Base64).
* Proof: encoder as spec; three-byte groups; induction.
* Note: Strings below 2^62 bytes.
* Theorems: `C12_decode_inverts_encode`, `C12_encode_injective`.

### C13 base64 decode stays in bounds (proved)

* Modelled: same.
* Proof: the reads are a list that must not run out; result independent of what follows.
* Theorems: `C13_size_exact`, `C13_decode_in_bounds`.

### C14 xoroshiro64ss walks one cycle of length 2^64-1 (proved)

* Modelled: `xoroshiro64ss` (Model/Random).
* Proof: the step is a matrix over GF(2); its order by kernel-checked powers for each prime factor of 2^64-1; irreducibility of the minimal polynomial for the single cycle.
* Theorems: `C14_is_xoroshiro64ss`, `C14_step_bijective`, `C14_zero_trap`, `C14_exact_period`, `C14_visits_every_state`.

### C15 xoroshiro128pp walks one cycle of length 2^128-1 (proved)

* Modelled: `xoroshiro128pp`.
* Proof: same with 2^128-1.
* Theorems: `C15_is_xoroshiro128pp`, `C15_step_bijective`, `C15_exact_period`, `C15_visits_every_state`.

### C16 pcg32_64 has full period 2^64 (proved)

* Modelled: `pcg32_64_t` step and seed.
* Proof: Hull-Dobell by induction on the exponent of two.
* Theorems: `C16_exact_period`, `C16_visits_every_state`, `C16_seed_injective`.

### C17 pcg32_64 output is a rotation whatever the target does with a 32-bit shift of a 32-bit value (proved)

* Modelled: `read(pcg32_64_t)`.
* Proof: bit extensionality; the result of the over-long shift is a parameter.
* Note: The over-long shift is a parameter of the model; both results the comment in the source names are covered.
* Theorems: `C17_read_is_rotation`, `C17_defined_unless_rotation_zero`, `C17_undefined_reachable`.

### C18 next_ranged stays below its bound (proved)

* Modelled: `next_ranged`.
* Proof: arithmetic on the 64-bit product.
* Theorems: `C18_next_ranged_exact`, `C18_next_ranged_monotone`, `C18_next_ranged_onto`.

### C19 next_unbiased is uniform (partial)

* Modelled: `next_unbiased`.
* Proof: the threshold expression is 0, so nothing is rejected; counting the draws per result.
* Note: The property is false of the code (threshold is 0 - n % n = 0, so nothing is rejected): proved uniform iff n divides 2^32, witness n = 3, and that the error is at most one draw in 2^32.
* Theorems: `C19_unbiased_never_rejects`, `C19_unbiased_uniform_iff`, `C19_next_unbiased_is_uniform_false`, `C19_next_unbiased_nearly_uniform_partial`.

### C20 Seeding never leaves a generator stuck (partial)

* Modelled: `seed` of the three generators.
* Proof: CRC injectivity for 128pp; witnesses for 64ss.
* Note: False for xoroshiro64ss (witnesses: the empty seed and an 8 byte seed; exact criterion proved). Holds for xoroshiro128pp; pcg has no stuck state (C16).
* Theorems: `C20_seed64ss_never_stuck_false`, `C20_seed64ss_nonempty_stuck_false`, `C20_seed64ss_stuck_iff_partial`, `C20_seed128pp_never_stuck`.

### C21 insertion_sort sorts, permutes and is stable (proved)

* Modelled: `insertion_sort` (Model/Sort), checked array access.
* Proof: loop invariants.
* Theorems: `C21_insertion_sort`.

### C22 intro_sort sorts and permutes (proved)

* Modelled: `intro_sort`, `partition`, `median`.
* Proof: partition invariant, induction on the range.
* Note: Cut-off at least 1; with cut-off 0 the partition reads outside (C22_cutoff_zero_undefined).
* Theorems: `C22_intro_sort`, `C22_cutoff_zero_undefined`.

### C23 intro_sort recursion depth is logarithmic (partial)

* Modelled: the recursion depth as fuel of the same model.
* Proof: family of constant arrays; induction for the linear bound.
* Note: The logarithmic bound is false of the code: equal elements (and others) recurse linearly deep. Proved: that negation, and the linear bound that does hold.
* Theorems: `C23_equal_elements_linear_depth`, `C23_depth_logarithmic_false`, `C23_depth_linear_partial`.

### C24 lower_bound / upper_bound find the partition points (proved)

* Modelled: `lower_bound`, `upper_bound`, `z_lower_bound`.
* Proof: interval invariant.
* Theorems: `C24_lower_bound_in_bounds`, `C24_lower_bound`, `C24_upper_bound`.

### C25 min_priority_queue dequeues a minimum (proved)

* Modelled: `heap_raise`, `heap_lower`, `min_priority_queue` (Model/Heap).
* Proof: heap order as an invariant over histories, refinement to multisets.
* Note: dequeue() on an empty queue is shown to be undefined (C25_dequeue_empty_undefined) and excluded.
* Theorems: `C25_history_refines`, `C25_head_is_minimal`, `C25_dequeue_empty_undefined`, `C25_sorts`.

### C26 bitset is an array of independent bits (proved)

* Modelled: `bitset` with its index assertions (Model/Bitset).
* Proof: bit extensionality, induction over histories.
* Theorems: `C26_step`, `C26_history`, `C26_index_undefined`.

### C27 bulk behaves like a bounded sequence (proved)

* Modelled: `bulk` with raw/live slots, element writes, iteration and assertions (Model/Bulk).
* Proof: refinement to lists over histories of several variables.
* Note: Growth of trivially constructible T shows the previous slot contents (C27_trivial_growth_is_stale); the refinement accounts for it.
* Theorems: `C27_history_refines`, `C27_trivial_growth_is_stale`.

### C28 bulk constructs and destroys each element exactly once (proved)

* Modelled: same.
* Proof: live slots are exactly those below the size, in every reachable state.
* Note: For default constructible T; the other case is C29.
* Theorems: `C28_lifetimes`.

### C29 Copying a bulk constructs before it assigns (partial)

* Modelled: `construct_copy`, `is_constructible_with`.
* Proof: `is_constructible_with<T, T>` is always false; witnesses, and the remaining cases.
* Note: False of the code for types without a default constructor: construct_copy assigns to raw memory (witnesses). Proved for default constructible types.
* Theorems: `C29_copy_constructs_first_false`, `C29_assign_constructs_first_false`, `C29_copy_partial`.

### C30 pool queues are independent FIFO queues (proved)

* Modelled: `pool` as arrays of next indices (Model/Pool).
* Proof: representation predicate: disjoint index lists, over histories.
* Note: Up to the first call that breaks a stated precondition (double free etc.).
* Theorems: `C30_history_refines`, `C30_pool_reset_breaks`.

### C31 pool allocation never hands out a node twice and only fails when full (proved)

* Modelled: same.
* Proof: same; counting.
* Theorems: `C31_used_is_count`, `C31_alloc_exact`, `C31_queue_reset_loses`, `C31_double_free_breaks`.

### C32 dictionary is a map (partial)

* Modelled: `dictionary` with its index assertions (Model/Dictionary).
* Proof: refinement to a finite map over histories.
* Note: False for the name held by names[0] (zero): never found, each bind takes a new entry. Proved for all other names, N >= 2; C32_history_exact says what happens with all names.
* Theorems: `C32_history_refines_partial`, `C32_absent_undefined`, `C32_name_zero_false`, `C32_history_exact`.

### C33 dictionary handles are stable and capacity is exactly N-1 (partial)

* Modelled: same.
* Proof: same.
* Note: Same exclusion as C32; N = 1 is shown to write outside the arrays.
* Theorems: `C33_capacity_one_undefined`, `C33_handles_stable_partial`.

### C34 dictionary heap search is correct (proved)

* Modelled: `find` with a heap part.
* Proof: search tree invariant along the descent.
* Note: For the orientation the scan uses; the usual orientation is shown to fail (C34_usual_layout_fails).
* Theorems: `C34_heap_scan`, `C34_usual_layout_fails`.

### C35 lziii decode expands every well-formed stream (proved)

* Modelled: `lziii::size`, `decode` (Model/Lziii).
* Proof: token semantics as spec; induction over tokens.
* Theorems: `C35_decode_expands`, `C35_encodable`, `C35_round_trip`.

### C36 lziii size is exact and decode is memory safe for well-formed streams (proved)

* Modelled: same.
* Proof: same.
* Theorems: `C36_size_exact`.

### C37 lziii is memory safe on arbitrary input (partial)

* Modelled: same.
* Proof: a run without bad access determines a token list.
* Note: False of the code: a bad offset or truncated stream reads outside the buffers (witnesses). Proved: size + decode is safe exactly on the well formed streams (length < 2^59).
* Theorems: `C37_bad_offset_false`, `C37_truncated_false`, `C37_safe_iff_well_formed_partial`.

### C38 Log key splitting (partial)

* Modelled: `names` (Model/Names).
* Proof: induction over the text with the bracket depth; buffer bounds.
* Note: False for bytes >= 0x80, which a signed char compares as blanks (C38_non_ascii_false). Proved for ASCII text, and memory safety for all text; C38_keys_exact gives the keys for all text.
* Theorems: `C38_keys_exact`, `C38_keys_partial`, `C38_in_bounds`, `C38_non_ascii_false`.

### C39 Reflected member names (partial)

* Modelled: `names_t`.
* Proof: same.
* Note: False when a blank precedes a comma, and for non-ASCII text (C39_blank_before_comma_false). Proved for lists without either; memory safety for all text; C39_exact gives the names for all text.
* Theorems: `C39_member_names_partial`, `C39_blank_before_comma_false`, `C39_exact`, `C39_in_bounds`.

### C40 clock never drifts (proved)

* Modelled: `clock::reset`, `elapsed`, `current` (Model/Clock).
* Proof: invariant: residual = elapsed * Fn mod (f * Fd).
* Theorems: `C40_no_drift`, `C40_current`.

### C41 clock arithmetic does not overflow in normal use (proved)

* Modelled: same with 64-bit wrap.
* Proof: bounds on the products.
* Note: frequency * Fd * (Fn + 1) <= 2^64 and a total tick count below 2^64; frequency 0 is shown to divide by zero.
* Theorems: `C41_no_overflow`, `C41_zero_frequency_undefined`, `C41_overflow_beyond_bound`.

### C42 ab_less_cd compares 128-bit products exactly (proved)

* Modelled: `ab_less_cd`, both versions (Model/Vec).
* Proof: 128-bit split into halves.
* Theorems: `C42_ab_less_cd`, `C42_ab_less_cd_msvc`.

### C43 inside is a tie-free orientation test (proved)

* Modelled: `inside`.
* Proof: case analysis of the tie-breaking; epsilon argument over the rationals.
* Theorems: `C43_defined`, `C43_irreflexive`, `C43_antisymmetric`, `C43_simulation_of_simplicity`.

### C44 Every point is inside exactly one triangle of a mesh (proved)

* Modelled: `inside` on the three edges of a triangle (Model/Vec, Proof/Mesh).
* Proof: counting: interior edges cancel; winding of the boundary.
* Note: The winding number is that of the boundary around the displaced point; C44_exactly_one is the form in the source comment.
* Theorems: `C44_displaced_interior`, `C44_at_most_one`, `C44_exactly_one`, `C44_count_is_winding`, `C44_winds_once`.

### C45 Range tests are exact distance comparisons (proved)

* Modelled: `in_range_rr*`.
* Proof: quadratic minimisation over the reals.
* Note: The radius squared must not be negative for the definedness part; ranges without overflow in C45_defined.
* Theorems: `C45_in_range`, `C45_line`, `C45_ray`, `C45_segment`, `C45_defined`, `C45_ball_hits_ray`.

### C46 in_range_rr_edge requires the projection to lie on the edge (partial)

* Modelled: `in_range_rr_edge`, `ball_hits_edge`.
* Proof: same; witness.
* Note: False of the code: beyond the far end of the edge, points in range of the near end are reported (C46_edge_false). Proved otherwise; C46_edge_exact is what the code decides for all points.
* Theorems: `C46_edge_false`, `C46_edge_partial`, `C46_edge_exact`, `C46_ball_hits_edge_partial`.

### C47 Expanded products are exact (proved)

* Modelled: `sqrx`, `dotx`, `crossx`.
* Proof: range arithmetic.
* Theorems: `C47_scalar`, `C47_dot2`, `C47_sqr2`, `C47_cross2`, `C47_cross3`, `C47_dot3`, `C47_dot3_small`.

### C48 vec arithmetic is component-wise and lawful (partial)

* Modelled: operators on `vec2`, `vec3`, references for the compound assignments.
* Proof: case analysis; witness for the alias and the exact result for each aliased component.
* Note: False of the code for a *= a.x and a /= a.x, where the scalar is a component of the assigned vector (C48_alias_false); C48_alias_mul, C48_alias_div and the vec3 forms say what is left then, C48_alias_iff in exactly which cases it is right. Everything else proved.
* Theorems: `C48_bin2`, `C48_scale2`, `C48_bin3`, `C48_scale3`, `C48_assign`, `C48_assign_scale_partial`, `C48_alias_false`, `C48_equality`, `C48_add_sub`, `C48_alias_mul`, `C48_alias_div`, `C48_alias_iff`, `C48_alias_mul3`, `C48_alias_div3`.

### C49 intersect returns the intersection point (partial)

* Modelled: `intersect`, `muldiv`.
* Proof: exact rational intersection point and a bound of the rounding error.
* Note: False of the code for determinants 0 < d < 65536, where p1 is returned (C49_small_false, and C49_small for all of them). Parallel case exact; otherwise an explicit error bound is proved.
* Theorems: `C49_parallel`, `C49_small_false`, `C49_small`, `C49_negative_shift_undefined`, `C49_intersect_partial`.

### C50 in_polygon is the winding number (proved)

* Modelled: `in_polygon_xy`, `in_polygon`.
* Proof: crossing number = total swept angle, via the complex argument in Mathlib.
* Note: For points off the edges the count is the winding number by angles; rotation, reversal and cutting hold for all points.
* Theorems: `C50_winding_number`, `C50_defined`, `C50_rotate`, `C50_reverse`, `C50_cut`, `C50_triangle`, `C50_overflow_beyond_bound`.

### C51 degrees_to_angle is exact (proved)

* Modelled: `degrees_to_angle`, `angle`.
* Proof: arithmetic.
* Theorems: `C51_degrees`, `C51_multiples`, `C51_odd_monotone`, `C51_total`.

### C52 cordic rotate is accurate (proved)

* Modelled: `cordic_n::rotate`, `to_cartesian`, with the tables computed by a model of IEEE doubles (Model/Cordic).
* Proof: rotation matrices over the reals, certified bounds for the arctangents and the gain, error propagation through 32 rounds.
* Note: For every vector of length at most 2^31-1 and every angle. INT_MIN as radius is undefined at half a turn (C52_int_min_undefined). The compile-time table is evaluated in a model of IEEE double arithmetic.
* Theorems: `C52_rotate_accurate`, `C52_to_cartesian`, `C52_quarter_turn`, `C52_full_turn`, `C52_int_min_undefined`.

### C53 isqrt of a perfect square is its root (proved)

* Modelled: `isqrt`, `hypot` with rounding of IEEE doubles (Model/Isqrt).
* Proof: relative error of one rounding.
* Note: Also: nearest integer below 2^50 (sharp), error below one everywhere, Pythagorean triples exact on x86 and not on other processors, where the root is rounded down for sums of squares below 2^52 and out of range results are undefined.
* Theorems: `C53_perfect_square`, `C53_error_below_one`, `C53_nearest`, `C53_hypot_pythagorean`, `C53_not_nearest_beyond`, `C53_int_min`, `C53_platforms_differ`, `C53_generic_pythagorean_false`, `C53_generic_floor`, `C53_generic_range_undefined`.

### C54 z_encode is an order preserving bijection per axis (proved)

* Modelled: `z_expand`, `z_encode`, `z_inside` (Model/Zorder).
* Proof: bit extensionality.
* Theorems: `C54_encode`, `C54_injective`, `C54_monotone`, `C54_inside`.

### C55 z_query finds every point of the rectangle (partial)

* Modelled: `z_query`, `z_lower_bound` with its span stack.
* Proof: invariant over the stack of spans.
* Note: proved for walks within the span stack, except elements whose low 16 bits are all ones in the last cell, which the code misses (C55_misses_last_false, and C55_below_last for all of them)
* Theorems: `C55_query_partial`, `C55_below_last`, `C55_reads`, `C55_misses_last_false`.

### C56 z_query returns only points of the rectangle (partial)

* Modelled: same.
* Proof: same; witness.
* Note: false as stated: C56_outside_false; proved for aligned squares and, in general, that reported elements lie in the z-range of a sub-rectangle
* Theorems: `C56_range_partial`, `C56_square`, `C56_outside_false`.

### C57 z_query does not overflow its span stack (partial)

* Modelled: same.
* Proof: the sides of the current box bound the number of further pushes: each push halves a side, potential argument; witnesses for every size just above the bound.
* Note: false as stated: C57_overflow_false; proved for queries of up to 2^kx by 2^ky cells with kx + ky at most 32, anywhere, which is sharp (C57_sharp_false)
* Theorems: `C57_stack_partial`, `C57_overflow_false`, `C57_sharp_false`.

### C58 z_split cuts the box into its two halves (proved)

* Modelled: `z_split`.
* Proof: highest differing bit.
* Theorems: `C58_split`, `C58_strips`, `C58_single`.

### C59 atomic_fetch_add / sub loops are linearizable (proved)

* Modelled: `atomic_fetch_*` loops, any number of threads (Model/FetchAdd).
* Proof: linearizability invariant over all schedules.
* Note: Loads and failed exchanges may see any value at all.
* Theorems: `C59_linearizable`, `C59_sum`, `C59_sub_as_add`, `C59_solo`.

### C60 scope_spin_lock excludes (proved)

* Modelled: `scope_spin_lock` on x86-TSO with store buffers (Model/SpinLock), all 256 slots together (Model/SpinSlots).
* Proof: inductive invariant over all schedules; linearizability of the guarded operations; for all slots one invariant per slot and a frame lemma.
* Note: On x86-TSO, with store buffers; operations under the lock are shown linearizable, for one slot and (C60_slots_...) for all slots and objects together, with one store buffer per thread; the holder of a slot can always get on.
* Theorems: `C60_exclusion`, `C60_release`, `C60_linearizable`, `C60_slots_exclusion`, `C60_slots_release`, `C60_slots_linearizable`, `C60_slots_holder`, `C60_index`.

### C61 MSVC atomics on small structs do not tear (partial)

* Modelled: `atomic_load`, `atomic_store` of structs.
* Proof: same; witness schedule.
* Note: False of the code: atomic_load of a small struct takes the spin lock, atomic_store does not (C61_torn_false). Proved for sizes where every operation takes the lock.
* Theorems: `C61_locked_partial`, `C61_torn_false`.

### C62 mutex wrappers exclude (proved)

* Modelled: wrappers over locks given by their documentation (Model/Mutex).
* Proof: inductive invariant.
* Note: Relative to the documented behaviour of std::mutex, std::shared_mutex and SRWLOCK.
* Theorems: `C62_mutex`, `C62_shared`, `C62_available`.

### C63 nameof / as_enum round trip (proved)

* Modelled: `nameof`, `as_enum`, `same`, `skip`; what the compiler prints is a parameter (Model/Nameof).
* Proof: list induction.
* Note: For any compiler that writes enumerators qualified and other values as casts. Only the outermost qualifier is removed (C63_unqualified_false), names written with a parenthesis first are lost (C63_anonymous_false), nameof<unsigned int>() is int (C63_type_false).
* Theorems: `C63_nameof`, `C63_unnamed`, `C63_round_trip`, `C63_unknown`, `C63_sound`, `C63_unqualified_false`, `C63_anonymous_false`, `C63_type_false`, `C63_type`.

### C64 io reflection events are well bracketed and lossless (proved)

* Modelled: `io::item`, `items` on descriptions of types (Model/Io).
* Proof: mutual induction over types and values.
* Note: Also that a reader restores what was written; no handler gets the capacity of a list (C64_capacity_false).
* Theorems: `C64_bracketed`, `C64_lossless`, `C64_read_back`, `C64_capacity_false`.

### C65 Log record format (proved)

* Modelled: `os::log`, `CE_LOG` levels (Model/Log).
* Proof: list induction; parsing as left inverse.
* Note: Quotes are not escaped (C65_escape_false).
* Theorems: `C65_record`, `C65_letter`, `C65_one_line`, `C65_lossless`, `C65_escape_false`, `C65_levels`.

### C66 Check macros return their test and report exactly on failure (proved)

* Modelled: check macros as expressions, `call_error_hook`, `os::error`.
* Proof: evaluation of the expression trees.
* Note: The hook's level is always 0, so the default hook always asks for a break.
* Theorems: `C66_info`, `C66_level`, `C66_report`, `C66_verify`, `C66_reject`, `C66_off`.

### C67 to_utf16 converts every valid UTF-8 text (proved)

* Modelled: `to_utf16` (Model/Utf16).
* Proof: UTF-8 and UTF-16 encoders as spec; induction.
* Note: Truncated text is read past its end (C67_truncated_false).
* Theorems: `C67_valid`, `C67_size`, `C67_lossless`, `C67_reads_iff`, `C67_truncated_false`, `C67_terminated_false`.

### C68 sequence_t<T, N> is 0, 1, ..., N-1 with logarithmic recursion (proved)

* Modelled: `detail::sequence` (Model/TypeList).
* Proof: induction along the binary digits.
* Theorems: `C68_numbers`, `C68_depth`.

### C69 Type list queries (proved)

* Modelled: `select`, `are_same`, `has`, `count_leading_t`.
* Proof: list induction.
* Theorems: `C69_select`, `C69_cond`, `C69_same`, `C69_has`, `C69_leading`.

### C70 span skip / trim (proved)

* Modelled: `span`, `skip`, `trim`.
* Proof: lists.
* Theorems: `C70_skip`, `C70_trim`, `C70_inside`, `C70_compose`.

### C71 cdt mesh links stay consistent (proved)

* Modelled: the whole of cdt.h: `reset`, `do_flip`, `try_flip`, `flip`, `insert_point_at_node`, `constrain_edge`, `insert_edge`, `split_constraint`, `locate*`, `fill` (Model/Cdt).
* Proof: invariant `Inv` (twins, corners, clockwise) and `Rim` (outline), preserved by every operation (Proof/Cdt, CdtFlip, CdtInsert).
* Note: For every history of reset, insert_point, insert_edge, constrain_edge, flip, try_flip and fill that comes to an end.
* Theorems: `C71_linked`, `C71_outline`, `C71_vertices`.

### C72 cdt triangles stay clockwise and non-degenerate (proved)

* Modelled: same, and `validate_face`.
* Proof: same.
* Note: All assertions of validate_face hold except e0 != e1 and its rotations, which fail for a face with two edges on the outline (C72_distinct_twins_false).
* Theorems: `C72_clockwise`, `C72_validate`, `C72_distinct_twins_false`.

### C73 cdt flip recursion terminates (proved)

* Modelled: `flip`, `insert_point_at_node`, `constrain_edge` with fuel.
* Proof: lifted-paraboloid volume as a strictly decreasing natural number.
* Note: flip, constrain_edge and insert_point_at_node; also that no assertion in them fails. The walk that finds the face is not part of this property.
* Theorems: `C73_flip_ends`, `C73_insert_ends`, `C73_constrain_ends`.

### C74 cdt arithmetic does not overflow (partial)

* Modelled: `incircle` in 64-bit arithmetic.
* Proof: range arithmetic; witness in a reachable mesh.
* Note: False of the code: the products overflow (C74_no_overflow_false), already for the first point of a mesh. In two's complement the result is exact for all 16-bit coordinates, and nothing overflows in a square of side 35210.
* Theorems: `C74_no_overflow_false`, `C74_wrapped_partial`, `C74_small_partial`.

### C75 cdt locate returns a face containing the point (proved)

* Modelled: `locate` with its 32-bit differences.
* Proof: walk invariant; C44 for uniqueness.
* Note: Also that a face is found exactly for the points of the half-open square. The uniqueness is for scales up to 2^15, above which the 32-bit differences overflow.
* Theorems: `C75_locate`, `C75_one_face`, `C75_fits`, `C75_in_square`, `C75_unique`.

### C76 cdt fill paints exactly the region (proved)

* Modelled: `fill`, `fill_ex` with the 256-entry stack.
* Proof: reachability through unconstrained edges; the stack holds at most two entries per painted face level.
* Theorems: `C76_fill`, `C76_again`.

### C77 to_polar is accurate (proved)

* Modelled: `cordic_n::vector`, `to_polar`.
* Proof: same technique as C52; residual angle bounds per round.
* Note: For every nonzero vector of length at most 2^31-1; beyond it overflows (C77_overflow), and the zero vector gets an arbitrary angle (C77_zero).
* Theorems: `C77_to_polar`, `C77_zero`, `C77_overflow`.

### C78 insert_point inserts exactly the new points of the square (proved)

* Modelled: `insert_point`: `locate_insertion_node` and `insert_point_at_node`.
* Proof: case analysis of where the walk ends; nothing but the appended vertex changes coordinates (Proof/CdtPoints).
* Note: For calls that return. A point on the outline that is not a vertex is refused.
* Theorems: `C78_insert`.

### C79 the triangulation is Delaunay (partial)

* Modelled: all operations of cdt.h but `insert_edge`, `try_flip`.
* Proof: every flip cascade restores legality of the edges it touches; local implies global by the power-distance argument along a segment (Proof/CdtWalk).
* Note: False with insert_edge, which leaves edges that are not locally Delaunay (C79_insert_edge_false). Proved for all histories of reset, insert_point, flip and fill (Delaunay) and with constrain_edge (locally Delaunay). The in-circle test is taken in two's complement, see C74.
* Theorems: `C79_locally_delaunay_partial`, `C79_delaunay`, `C79_insert_edge_false`.

### C80 the walk to a point ends (partial)

* Modelled: `locate_insertion_node`, `locate`, `insert_point`.
* Proof: power distance of the target decreases along the walk on Delaunay meshes, so no face is seen twice; in general the height, at the target, of the plane of the face grows along the walk when the surface over the mesh bends upwards (Spec/Regular), and where it is flat the power decides; witness: three long constraints in a pinwheel, with the period of the walk checked by the kernel.
* Note: False with constraints: the walk can go around in circles for ever (C80_constraints_false). Proved, with at most 6 size steps, for all meshes without constraints, and with constraints whenever some assignment of heights makes the surface over the mesh bend upwards across every edge (regular triangulations; flat where Delaunay, so that every Delaunay mesh is included, C80_flat). The mesh of C80_constraints_false has no such heights.
* Theorems: `C80_walk_ends_partial`, `C80_insert_ends_partial`, `C80_locate_ends_partial`, `C80_constraints_false`, `C80_flat`, `C80_upward_walk_partial`, `C80_upward_insert_partial`, `C80_upward_locate_partial`.

### C81 the faces tile the square (proved)

* Modelled: all operations of cdt.h.
* Proof: number of faces over a rational point is constant (counting as in C44), perturbation arguments for points on edges (Proof/CdtPlane).
* Theorems: `C81_tiling`.

### C82 a constrained segment stays (proved)

* Modelled: all operations of cdt.h.
* Proof: every step keeps constrained edges or divides them at a vertex on them (Proof/CdtFence); induction over the history.
* Note: For calls that return.
* Theorems: `C82_constrain`, `C82_persist`.

### C83 insert_edge puts the segment into the triangulation (partial)

* Modelled: `insert_edge`, `split_constraint`, `intersect`.
* Proof: mutual induction over the four functions (Proof/CdtRoute); truncation moves the crossing by less than one unit; witnesses evaluated by the kernel.
* Note: False of the code: a way with a bend at a rounded crossing is reported as success even in a mesh without constraints (C83_straight_false), and two crossing segments are enough to make it fail (C83_crossing_false). Proved: when it returns true there is a chain of constrained edges from end to end whose bends are each less than one unit off the segment they divide, and it stays for ever.
* Theorems: `C83_route_partial`, `C83_chain`, `C83_straight_false`, `C83_crossing_false`.

### C84 edges() and faces() enumerate the triangulation (proved)

* Modelled: `edges`, `faces`, both `operator[]`, the iterators, `edge_vert_a`, `edge_vert_b`, `edge_vert_o` (Model/CdtView).
* Proof: induction over the loops; two faces on the same side of an edge would overlap near its middle, against C81 (Proof/CdtView); counting with the twin as a bijection.
* Note: With a scale of 2^17 or more the corners of the square overflow (C84_scale_false).
* Theorems: `C84_edges`, `C84_faces`, `C84_empty`, `C84_edge_value`, `C84_face_value`, `C84_scale_false`, `C84_primary`, `C84_count`.

### C85 the packed storage holds every mesh (proved)

* Modelled: the union as an array of 16-bit words with reads and writes of all fields (Model/CdtView).
* Proof: arithmetic of word indices; the number of vertices never exceeds the limit (mutual induction over insert_edge).
* Note: For N of at least 4; with less already reset writes outside (C85_small_false). The order of bit-fields in a word is assumed to be the usual one.
* Theorems: `C85_size`, `C85_write`, `C85_fits`, `C85_small_false`.

### C86 insert_point and insert_edge with user coordinates (proved)

* Modelled: the two public functions on top of the model of C78 and C83.
* Proof: floor division; C78 and C83.
* Note: For calls that return. The way of insert_edge is that of C83, with bends. The side tests of the walk fit 64 bits for all 32-bit coordinates (C86_products). Points of the lowest column and row of the grid are refused although they are in the square.
* Theorems: `C86_point`, `C86_products`, `C86_edge`.

### C87 sleep_ns waits at least its time, timestamps are nanoseconds (partial)

* Modelled: the arguments passed to `nanosleep` and `SleepEx`, which are given by their documentation; the arithmetic of `monotonic_timestamp` (Model/Os).
* Proof: integer arithmetic.
* Note: False of the code: a signal ends the wait (C87_signal_false); on Windows the time is rounded down to milliseconds (C87_short_false) and from 49.7 days on it never returns (C87_forever_false). Proved: exact and well-formed on POSIX without signals, within one millisecond on Windows; the timestamps on POSIX.
* Theorems: `C87_posix_partial`, `C87_signal_false`, `C87_windows_partial`, `C87_short_false`, `C87_forever_false`, `C87_timestamp`, `C87_timestamp_range`.

### C88 map_span shows the file and leaks nothing (proved)

* Modelled: `open_file`, `close_file`, `map_span`, `unmap_span` of os_win32.cpp over a model of handles, sections and views in which any call may fail (Model/Os).
* Proof: case analysis over the failing call; handles are fresh numbers.
* Note: On Windows, where the size of the file fits SIZE_T; on 32-bit systems only the beginning of a file of 4 GB or more is shown (C88_large_false). An empty file is reported like a missing one (C88_empty_false). On POSIX the functions are not implemented and return false (C88_posix_false).
* Theorems: `C88_handles`, `C88_contents`, `C88_unmap`, `C88_unmap_twice`, `C88_fresh`, `C88_success`, `C88_file`, `C88_elements`, `C88_posix_false`, `C88_empty_false`, `C88_large_false`.

### C89 The MSVC atomics pick one way of exclusion per type and do the arithmetic of the type (partial)

* Modelled: `info`, `atom_t` and the `if constexpr` chains of all operations as functions of what the traits ask about a type; the interlocked addition on bit vectors (Model/Atomic).
* Proof: case analysis on sizes and traits; BitVec.ofInt is additive.
* Note: Holds for native types. Fails for classes of 1, 2, 4, 8 bytes with an operator- of their own (vec2<int32_t>): loads take the lock, stores do not; for larger classes that convert to a number: loads do not take the lock; compare-exchange lacks a return for sizes other than 1, 2, 4, 8, 16; classes whose operators are members are added as integers; subtracting INT_MIN overflows. That 8- and 16-bit fetch_add narrows inside braces (a matter of compiler warnings and errors) is not modelled.
* Theorems: `C89_coherent`, `C89_compare_exchange`, `C89_instruction`, `C89_native`, `C89_class_false`, `C89_convertible_false`, `C89_add`, `C89_sub_partial`, `C89_sub_false`, `C89_pointer`, `C89_member_false`.

### C90 Atomic operations have one order, and publish what was written before (proved)

* Modelled: operations as single instructions or loops on an x86-TSO machine with plain reads and writes (Model/Atomic).
* Proof: invariant by induction over executions for the order; for publication, the newest store of the variable is tracked through buffer and memory.
* Note: The compiler is taken to keep the program order, which is what _ReadWriteBarrier and the intrinsics ask of it.
* Theorems: `C90_linearizable`, `C90_publish`.

### C91 Compare-exchange loops are lock-free (proved)

* Modelled: the same machine as C90, with the rounds in vain as events.
* Proof: potential argument: a thread that is bound to fail was overtaken by an effect not yet accounted for.
* Note: The loop of atomic_std.h uses compare_exchange_weak, which may fail for no reason; there the bound holds for the other failures. The loops are not wait-free (shown).
* Theorems: `C91_lock_free`, `C91_from`, `C91_wait_free_false`.

### C92 Waiting for the spin lock ends (proved)

* Modelled: The spin lock machine of C60 (Model/SpinLock): calls, compare-exchange, waiting loop, word-wise copies, buffered stores and their arrival in memory. Spec/SpinLock: infinite runs with stuttering, weak fairness for the code of each thread and for each store buffer.
* Proof: Who is inside gets ahead by fairness (a measure of the words left), then its release reaches memory because its buffer can only shrink, then a waiting thread either takes the free lock or another one does; the reachable-state invariant of C60 says who holds the lock. Calls and effects are counted to bound the waiting when calls are finite. The starving run is given explicitly, with period 7.
* Note: C92_progress and C92_returns hold for all weakly fair infinite executions. The same for all slots together (C92_slots_progress, C92_slots_returns), slot by slot: calls for ever at one slot do not keep those at another waiting. C92_starvation_false shows that no single call is guaranteed to return: in a fair execution one thread waits while another completes call after call (the lock has no queue).
* Theorems: `C92_progress`, `C92_returns`, `C92_starvation_false`, `C92_slots_progress`, `C92_slots_returns`.

### C93 open_file asks for the file that was named (Windows) (proved)

* Modelled: CE_STRLEN, as_span (with the terminator), the _alloca buffer with its stale contents, to_utf16 with its loop bound but reading on in the array of the path, and the reading of the name up to its terminator by the system.
* Proof: Whole characters are converted independently of what follows (strong induction on the bytes); the terminator is the last byte before the loop bound, so a character that swallows it leaves at least two units of room; the rest from C67.
* Note: For valid UTF-8 proved (C93_path, C93_distinct), the buffer is never overrun whatever the bytes (C93_fits), and any path of whole characters gives a name that depends on nothing else (C93_bytes). Outside of that: a path that ends inside a character loses its terminator (C93_truncated_false), and the overlong form C0 80 ends the name early (C93_overlong_false).
* Theorems: `C93_path`, `C93_distinct`, `C93_fits`, `C93_bytes`, `C93_truncated_false`, `C93_overlong_false`.

### C94 Type transformations remove what they say and nothing else (proved)

* Modelled: Types as terms with qualifiers; template argument deduction for the patterns `const T`, `volatile T`, `const volatile T`, `T*` with qualifiers; the choice of the most specialized match.
* Proof: Induction on types for each pattern: what it matches and deduces; that requalifying gives the type back, and an unqualified type is determined by any of its qualified forms, so all ways of removing agree.
* Theorems: `C94_const`, `C94_volatile`, `C94_cv`, `C94_unique`, `C94_ref`, `C94_pointer`, `C94_is_ptr`.

### C95 as_string with vectors stays in its array and shows the components (partial)

* Modelled: to_text_m, to_text_n, measure (1024 for vec) and the constructor of as_string, with up to four components; which overloads are visible inside to_text_n.
* Proof: The array text of C05 placed behind what is already written; lengths are added up: four texts of 254, separators and brackets are exactly 1024.
* Note: C95_concat_in_bounds_partial requires components with texts of at most 254 characters; C95_short shows that only C strings can have longer ones. For those the property fails: a vec of one C string of 1023 or more characters is written behind the array (C95_overflow_false); C95_concat_exact says what is written for texts of any length and when a vec fits. A matrix is shown as the addresses of its rows, because to_text_n does not see the overload for vec (C95_matrix_false).
* Theorems: `C95_concat_in_bounds_partial`, `C95_concat_exact`, `C95_short`, `C95_overflow_false`, `C95_matrix_false`.

### C96 Inserting points and edges does not overflow (apart from incircle) (proved)

* Modelled: A second transcription of insertion in which every difference, product and sum of coordinates is checked to fit int64_t (Model/Cdt64).
* Proof: Mutual induction: the checked functions equal the unchecked ones. A point that was accepted is a weighted mean of 16-bit corners (a face test with one strict sign already shows that the face is not degenerate), so everything behind the insertion has 17-bit vectors; the crossing is between the ends of the constraint.
* Note: The determinant of incircle is excluded: it does overflow (C74). The bound for int64_t coordinates is exact (C96_point_undefined). The assertion a != 0 && b != 0 && c != 0 of line 622 never fails.
* Theorems: `C96_point`, `C96_point_undefined`, `C96_edge`, `C96_user`, `C96_user_defined`.

### C97 crc32c detects every error of up to three bits and every odd number of wrong bits (proved)

* Modelled: The byte overload of crc32 with the polynomial of crc32c_t (Model/Crc); the other overloads agree with it by C07.
* Proof: C09 reduces a collision to divisibility by the generator; the sum over the error positions has an odd number of terms or the form x^i(x^d - 1). The generator vanishes at 1; x has order 2^31-1 in (Z/2)[x]/(generator) because that number is prime (Lucas-Lehmer) and x^(2^31-1) = 1 there, computed by repeated squaring in the kernel.
* Note: The two-bit bound is exact; C97_bound_is_tight gives two messages of 2^28 bytes that differ in two bits and collide.
* Theorems: `C97_odd`, `C97_two`, `C97_three`, `C97_bound_is_tight`.

### C98 Over one period the generators give every number equally often (proved)

* Modelled: The generators as in C14-C18 (Model/Random).
* Proof: The walk over a full cycle counts every state once (C14-C16), so occurrences are fibres of the output function. Fibres are counted by a one to one map: the multiplications have inverses, rotations are undone, the xorshift of pcg and the step of xoroshiro are solved bit by bit. For next64 the pair of two consecutive outputs determines the state and 2 is invertible modulo the period.
* Note: For pcg32_64 the shift by 32 that C++ leaves undefined is taken to give 0 or the operand (C17).
* Theorems: `C98_xoroshiro64ss`, `C98_next64`, `C98_xoroshiro128pp`, `C98_pcg`, `C98_ranged`.

### C99 The algorithms compare as seldom as their names promise (partial)

* Modelled: the functions of Model/Sort and Model/Heap with a counter of comparisons (Model/Cost); every theorem also states that forgetting the counter gives the function of C21-C25.
* Proof: induction over the loops and the recursion; for the negation the constant arrays and growth of n squared against n log n.
* Note: The bound n log n is false of intro_sort: with equal elements the number of comparisons is quadratic for every cutoff. Proved: that negation, the quadratic bound n(n+5)/2 that does hold, and all the other bounds.
* Theorems: `C99_searches`, `C99_insertion_sort`, `C99_intro_sort`, `C99_nlogn_false`, `C99_priority_queue`.

### C100 A rectangle query between two points, filtered by z_inside, is exact (partial)

* Modelled: same as C54-C58, corners not aligned to cells.
* Proof: invariant of the walk over codes: which codes at or after the current element are wanted is unchanged by pops, splits and jumps; ascending picked indices and filter.
* Note: False when the far corner is in the last cell: C100_world_false, a query of the whole plane finds nothing. Proved for all other corners; the stack bound is C57's.
* Theorems: `C100_query_partial`, `C100_returns`, `C100_world_false`, `C100_unfiltered_false`.

### C101 refine says where a point lies relative to a face; collinear decides collinearity (proved)

* Modelled: refine, on, collinear with checked 64-bit arithmetic.
* Proof: barycentric weights: products of weights and area equal the cross products; linear algebra.
* Note: Nothing in the header calls these functions. Far points overflow (C101_far_undefined).
* Theorems: `C101_refine`, `C101_weights`, `C101_far_undefined`, `C101_collinear`.

### C102 rotl32 rotates for every amount (partial)

* Modelled: rotl32 with shifts undefined from 32 on.
* Proof: bitwise.
* Note: False for multiples of 32: the right shift is by 32, which is undefined (C102_zero_undefined). Proved for all other amounts; the library itself uses 5, 13, 26.
* Theorems: `C102_rotl_partial`, `C102_zero_undefined`.

### C103 get<N>(t) returns member N of a structure of up to four members (partial)

* Modelled: arrity_count, detail::get, crack and the scopes its body sees; unqualified name lookup.
* Proof: case analysis; induction over the members.
* Note: False of the code: with structured bindings (the project builds as C++17) the name get inside crack finds crack::get, so every use is ill-formed (C103_get_false). Proved: without structured bindings it returns the member; the helper it means to call returns the member; the number of members is counted correctly. The rules of name lookup used are part of the model.
* Theorems: `C103_get_false`, `C103_pick`, `C103_arity`, `C103_named_partial`.

### C104 The macros for checks and logging expand to the intended code (partial)

* Modelled: Preprocessing tokens with hide sets, Prosser's expansion algorithm and the library's macros as token lists; the GNU comma deletion in `, ##__VA_ARGS__`.
* Proof: Rules for one expansion step with symbolic segments of tokens, applied by tactics; expansion is monotone in the number of steps, hence unique.
* Note: The claim about the text of the test is false (C104_text_false, C104_comma_false); everything else is proved. The user's tokens are assumed not to be macros, and the level name LVL is left out.
* Theorems: `C104_get`, `C104_map`, `C104_unique`, `C104_checks_partial`, `C104_error`, `C104_log`, `C104_msg`, `C104_other`, `C104_text_false`, `C104_comma_false`.

### C105 The text of a floating point number is complete and reads back as the number (proved)

* Modelled: `to_text(char[], float/double)` with `std::to_chars` as any function meeting the contract of the standard: a text in the style of `%f` or `%e` that a correctly rounding reader reads as the number, shortest, and nearest of the shortest; `as_string` with such numbers and `vec` of them.
* Proof: Distance between neighbouring numbers is at least 2^-p of the number, 17 (9) digits come within half of 10^-16 (10^-8) of it, so a text of 17 (9) digits and three (two) digits of exponent always reads back and the shortest is no longer; finitely many texts of a length give the nearest. Rounding to nearest even has one result, the characters of a text have one reading.
* Note: std::to_chars itself is not modelled but taken by its contract (shortest text that reads back, nearest of these), which C105_exists shows can be met. The array must have room for 32 characters at the place of the text even though 24 suffice (C105_room_undefined).
* Theorems: `C105_exists`, `C105_length`, `C105_injective`, `C105_to_text`, `C105_reads_back`, `C105_room_undefined`, `C105_as_string`.

### C106 What several threads log arrives as whole lines (partial)

* Modelled: `debug_out` for posix with the number of characters the kernel takes as an input, the sequence of `debug_out` calls of `os::log` and `os::error`, threads stepping piece by piece in any order, optionally under a lock of the caller (Model/Stderr).
* Proof: induction over the schedule; under the lock the stream is whole lines followed by the beginning of the owner's line; two threads in turns and one short write as counterexamples.
* Note: Not true of the code: a line is written in many pieces without a lock (C106_mixed_lines_false) and the rest of a short write is dropped (C106_short_write_false). Proved: with complete writes nothing is lost or cut within a piece and each thread's pieces stay in order; if the caller logs under a lock the stream consists of whole lines.
* Theorems: `C106_pieces`, `C106_pieces_in_order`, `C106_whole_lines_partial`, `C106_mixed_lines_false`, `C106_short_write_false`.

### C107 normal gives a vector of length one in the same direction (partial)

* Modelled: `normal` of both platforms over floating point values with infinities and NaN, every operation rounded to nearest with ties to even (C107_rounding: as the standard demands), plain or with fused multiply-add; `rsqrtss` is any function with relative error at most 1.5 * 2^-12, the square root is computed.
* Proof: The error of each rounding is bounded relatively and absolutely; the sum of squares is then within 2^-21 of the exact one, and the result's length follows. Overflow: a rounded result of 2^128 or more is infinite and stays so; underflow: a subnormal sum counts as zero.
* Note: Not true of all vectors: with a component of 2^64 or more the result is the null vector (C107_long_false), with no component above 2^-64 it has infinities and NaN (C107_short_false, C107_short_generic_false). With an infinite component the result is NaN there and zero elsewhere (C107_infinite_false); with a NaN it is NaN throughout (C107_nan, not for x86, where the manual's promise as modelled does not cover NaN). Proved for components of at most 2^63, one of them at least 2^-62. The instruction rsqrtss is taken by the promise of its manual; the sign of zero is not kept.
* Theorems: `C107_rounding`, `C107_commutes`, `C107_unit_partial`, `C107_unit_generic_partial`, `C107_long_false`, `C107_short_false`, `C107_short_generic_false`, `C107_nan`, `C107_infinite_false`.

### C108 Different seeds give different generators (proved)

* Modelled: The seeding functions of the three generators over the models of CRC-32C and FNV-1a.
* Proof: CRC: a difference within 32 bits changes it (C09) and so does a different start; FNV: each step is a bijection (C11), and stretches of six bytes are told apart (C143); the steps of the generators are bijections, and two results of xoroshiro64ss determine the state. The seeds of eight bytes are as many as the states.
* Note: C108_pcg_seven_false is the witness that six bytes are the most.
* Theorems: `C108_xoroshiro64ss_one_byte`, `C108_xoroshiro64ss_short`, `C108_xoroshiro64ss_onto`, `C108_xoroshiro128pp_one_byte`, `C108_pcg_one_byte`, `C108_pcg_number`, `C108_xoroshiro64ss_stretch`, `C108_xoroshiro128pp_stretch`, `C108_pcg_stretch`, `C108_pcg_seven_false`.

### C109 The triangulation of a set of points does not depend on the order of insertion (proved)

* Modelled: `reset` and `insert_point` of the model of C71, lists of successful insertions; faces compared by the positions of their corners.
* Proof: by C79 all circles are empty. For overlapping faces the power of a common point with respect to the two circles is the same from both sides: the difference of the two circle functions is linear, nonnegative at the corners of one face and nonpositive at those of the other, so it vanishes at the corners of the face that has the point strictly inside. C81 gives a face of the other mesh over the middle of each face, and with no four points on an empty circle its corners are those of the face; both are clockwise, so one is a rotation of the other. A witness shows that with four points on an empty circle the order does matter.
* Theorems: `C109_same_circle`, `C109_unique`, `C109_order`, `C109_condition_needed`.

### C110 Inserting a point without constraints flips at most n - 3 edges (proved)

* Modelled: `flip`, the flips at the end of `insert_point_at_node` and `insert_point` once more, returning the number of runs of `do_flip`, with separate bounds for the walk and for the recursion.
* Proof: an invariant of the flips of one insertion: faces without the new vertex have no older vertex in their circle, and every edge at the new vertex has an empty circle through its ends, so it is never flipped; hence every flip turns a face without the new vertex into one with it, and a vertex has at most n faces because the vertices that follow it in them are distinct.
* Note: Copies of flip and insert_point_at_node that also count the flips; that without the count they are the functions of the model is C110_count.  Needs a triangulation without constraints: with constraints the walk may not end (C80).
* Theorems: `C110_count`, `C110_linear`, `C110_insert_ends`, `C110_fan`, `C110_fan_le`, `C110_tight`.

### C111 with constraints the triangulation is constrained Delaunay and depends on vertices and constraints only (partial)

* Modelled: Model/Cdt; Spec/Sight says what is visible in terms of segments.
* Proof: walk along the line of sight: the power of the vertex does not grow from face to face, and is zero at the end; a point inside a face is moved a little so that the line meets no other vertex. Uniqueness: corners are visible from inside, so the two circles agree (lifting, as in C109).
* Note: False with insert_edge (C111_insert_edge_false), for the reason given at C79. Proved for all histories without it; for every mesh, the property is equivalent to the local one (C111_local).
* Theorems: `C111_local`, `C111_constrained_delaunay_partial`, `C111_insert_edge_false`, `C111_same_circle`, `C111_unique`, `C111_hidden`.

### C112 cdt: inserting an edge ends, and adds few vertices (partial)

* Modelled: `insert_edge`, its loop and `split_constraint` once more with the search for the face of a point as a parameter (`Verif/Model/CdtBy.lean`); the walk of the code and the exhaustive search under `#if 0` as two instances. `C112_same` ties the first to the model of C74-C83.
* Proof: The distance along the axes from one end to the other is a measure: a rounded intersection lies in the box of the ends and is neither of them, so it splits the distance into two smaller ones; passing through a vertex makes it smaller; a flip keeps it but puts one more corner at the vertex the edge starts from, and there are only `3 (2n - 6)` corners. Turning around a vertex that is not a corner of the square comes to the face that looks at the other end: vectors that always turn the same way and come back pass every direction (`pass_around`). Vertices are counted by the same induction.
* Note: The code does not have the property: walks among constraints may not end (C112_walk_false), and from a corner of the square the mesh is left (C112_corner_false). Proved for every other start: it ends with the exhaustive search (C112_search), with the walk unless a walk does not end (C112_only_walks_partial), and the number of added vertices is bounded (C112_bound).
* Theorems: `C112_same`, `C112_search`, `C112_only_walks_partial`, `C112_bound`, `C112_walk_false`, `C112_corner_false`.

### C113 rotate, to_polar and to_cartesian undo each other (proved)

* Modelled: the functions of Verif/Model/Cordic.lean.
* Proof: composition of the error bounds of C52 and C77 with the true rotation (`C113_rotate_twice`, `C113_rotate_back`, `C113_polar_back`, `C113_cartesian_back`, `C113_length`).
* Theorems: `C113_length`, `C113_rotate_twice`, `C113_rotate_back`, `C113_polar_back`, `C113_cartesian_back`.

### C114 cdt: filling does not leak through a polygon (proved)

* Modelled: `fill` and the triangulation of Verif/Model/Cdt.lean, `in_polygon` of Verif/Model/Vec.lean; winding numbers are sums of angles (Spec/Winding.lean) at real points.
* Proof: the winding number is continuous and a multiple of a full turn, so it is the same at both ends of a segment that does not meet the polygon (Proof/WindingMove.lean); constrained edges do not enter faces and do not touch the inside of an unconstrained edge (C111), so faces joined by an unconstrained edge are joined by such segments; `C114_same`, `C114_fill`, `C114_outside`, and `C114_fences` for sides made of fences (C82, C83). Across an edge passed once the angle of that edge jumps by a full turn while the others are continuous (Proof/WindingCross.lean): `C114_sides`, `C114_separated`.
* Note: The claim is about the faces that are painted; that all faces of the region are painted is C76.
* Theorems: `C114_same`, `C114_fill`, `C114_outside`, `C114_sides`, `C114_separated`, `C114_fences`.

### C115 cdt: filling a simple polygon paints exactly its inside (proved)

* Modelled: `fill` and `fill_ex` as the recursion of the code with a bound on its depth, `inPolygon`; the outline is a predicate on the links and flags of the mesh.
* Proof: The boundary of a set of faces that is closed under crossing free edges enters every vertex as often as it leaves it; at each vertex of the outline it continues along the outline, hence it is the whole outline or empty; an empty boundary means all faces (every line from a face to another crosses edges). So each set contains one of the two faces at the first side, and those differ by one in winding number (C114).
* Note: The side conditions are those of a drawing of one polygon; where several polygons or crossing sides are drawn the claim that remains is C114.
* Theorems: `C115_region`, `C115_two_sides`, `C115_fill`, `C115_in_polygon`.

### C116 z-order: points sorted by code can be searched by rectangle (proved)

* Modelled: `encode`, `query`, `inside` (Model/Zorder.lean) and `introSort` (Model/Sort.lean), the same definitions as for C22 and C55.
* Proof: Sortedness and permutation from C22, the rectangle from C100, the return from C57; the elements after sorting are still codes of points.
* Note: The limits on the rectangle are those of C57 and C100, where counterexamples beyond them are proved.
* Theorems: `C116_search`.

### C117 cdt: filling stops exactly where a closed line of constrained edges separates (proved)

* Modelled: `fill` and `fill_ex` as the recursion of the code with a bound on its depth; closed lines and winding numbers are defined without reference to the faces (sums of angles).
* Proof: The edges of the painted faces without painted neighbour start at every vertex as often as they end there, so they can be joined to closed polygons (induction on the number of paths). The angle under which they are seen is the sum over the painted triangles, because inner edges cancel; a clockwise triangle is seen under minus one turn from inside and under nothing from any other face of the tiling.
* Theorems: `C117_region`, `C117_fill`, `C117_surrounded`.

### C118 Sine, cosine and arc tangent are accurate and consistent (proved)

* Modelled: rotate, vector and the functions that pick a component.
* Proof: From the accuracy of rotate (C52) and vector (C77), with Mathlib's Complex.arg as the specification of the angle.
* Note: The negative x axis is excluded for atan2_2pi, where the angle may be given as plus or minus half a turn.
* Theorems: `C118_cos_sin`, `C118_quarter`, `C118_pythagoras`, `C118_degrees`, `C118_atan2`, `C118_angle_back`.

### C119 muldiv with 32 bit factors is exact (proved)

* Modelled: muldiv for int32_t factors.
* Proof: Bounds on the product and the truncated quotient.
* Theorems: `C119_muldiv`, `C119_part`, `C119_edge_cases`.

### C120 Seeded generators are the published ones (proved)

* Modelled: seed, read, step and next of pcg32_64_t, seed of xoroshiro128pp.
* Proof: Iteration of the step compared with the published functions, which reproduce the published test run.
* Note: For the over-long shift see C17.
* Theorems: `C120_pcg_published`, `C120_pcg_bytes`, `C120_xoroshiro128pp_bytes`.

### C121 A message followed by its CRC has a fixed CRC (proved)

* Modelled: crc32 over bytes and words.
* Proof: The four bytes are one step of the word overload, which is linear and injective.
* Theorems: `C121_residue`, `C121_residue_crc32c`, `C121_check`, `C121_forge`.

### C122 A triangulation of points contains the nearest-neighbour graph and every minimum spanning tree, and greedy walks find nearest vertices (proved)

* Modelled: The mesh of Model/Cdt, as for C71–C81; edges, distances, circles (with real centre) and paths are in Spec/Near.lean, in terms of corners of faces and coordinates.
* Proof: From C81 (tiling) the direction from a vertex towards any other starts within a face with that corner (pigeonhole over the finitely many faces), which writes the difference as a non-negative combination of two edges; C79 (no vertex inside the circle) then compares squares with linear functions (Proof/Near.lean).
* Theorems: `C122_circle`, `C122_only`, `C122_diameter`, `C122_cut`, `C122_nearest`, `C122_path`, `C122_greedy`.

### C123 Interpolation over a triangulation of points has the least error any triangles can have (proved)

* Modelled: The mesh of Model/Cdt; averages with real weights, spread and bounded curvature are in Spec/Interpolate.lean.
* Proof: The circle of a face (C79) gives an affine function below x²+y² at every vertex and equal at the corners; C81 gives the face (Proof/Interpolate.lean).
* Theorems: `C123_exists`, `C123_least`, `C123_error`, `C123_sharp`.

### C124 No flip of an edge makes the smallest angle larger (proved)

* Modelled: The mesh of Model/Cdt; angles by the arc cosine of real analysis in Spec/Interpolate.lean.
* Proof: C79 (locally Delaunay): the in-circle determinant is the difference of cotangents of inscribed angles, times positive factors; angles compare as cotangents do (Proof/Interpolate.lean).
* Theorems: `C124_flip`.

### C125 Lines along edges of the triangulation are drawn as they are, and what they enclose can be filled (proved)

* Modelled: `insertEdge`, `edgeLoop`, `corner`, `constrainEdge`, `locateIns`, `insertAt`, `fill`, `inPolygon`. Spec: `Drawn` (only the flags of the named edges differ), `Drawing` (a list of calls), `sidesOf`.
* Proof: The corner at a vertex that looks towards a point is unique, since the faces do not overlap, so the loop stops at the edge; on a locally Delaunay mesh `constrain_edge` flips nothing; the search from a face with the vertex ends at once. Lists by induction, the polygon with C122 and C115.
* Theorems: `C125_edge`, `C125_hint`, `C125_points`, `C125_lines`, `C125_can`, `C125_polygon`, `C125_paint`.

### C126 The triangulation of points has the largest smallest angle (proved)

* Modelled: The operations of cdt as for C79 and C111. The other triangulation is any list of clockwise triangles between vertices that cover the square and meet vertices at their corners only; C126_meshes shows that the faces of every mesh are one.
* Proof: Take an angle and the side a b opposite to it. By compactness (a filter at 0) one triangle of the other triangulation has points of the face near a and near the side; a is a corner of it, its next side is crossed by or ends at b, and its third corner, not inside the circle, sees a b under an angle that is not larger. That the condition is needed: `C126_insert_edge_false`, a mesh made by `insert_edge` in which turning one edge makes every angle larger than its smallest; angles are compared by their cotangents, which are rational.
* Note: The angles are real numbers (arccos). After insert_edge the mesh need not be locally Delaunay (C79).
* Theorems: `C126_meshes`, `C126_walls`, `C126_smallest_angle`, `C126_constrained`, `C126_insert_edge_false`.

### C127 The triangulation of points has the smallest circles around its triangles (proved)

* Modelled: As C126; circles with real centre and radius.
* Proof: The centre of the smallest circle around a face is a rational point of the face (the centre of its circumcircle or the middle of a side); the triangle of the other triangulation there has its corners outside the circumcircle, and the power of the centre bounds every circle around that triangle from below. That the condition is needed: `C127_insert_edge_false`, with the centres of the circles given and a convex combination of squared distances as lower bound.
* Theorems: `C127_largest_circle`, `C127_constrained`, `C127_insert_edge_false`.

### C128 base64 decode takes the bits of the letters in order (proved)

* Modelled: `decode`, `size` (Model/Base64.lean), the same definitions as for C12 and C13; the order of bits is stated with `bitAt` (Props/Base64Bits.lean).
* Proof: Each byte is the or of two shifted letters; the positions of its bits are followed through the three cases of i mod 3 by linear arithmetic. Equality of bytes from equality of bits.
* Note: Texts of letters only; lengths up to 2^62 as in C12 and C13.
* Theorems: `C128_bits`, `C128_same`, `C128_surplus`, `C128_not_injective`.

### C129 lziii decode does not depend on what the destination held; decoder holds the decoded data or does not compile (proved)

* Modelled: `decodeInto` is the loop of `decode` on a destination with given contents; `decoder` is `size`, zeroed bytes and `decodeInto`. A bad access in constant evaluation, or an array of no bytes, is a compile error: `none`. Limits of a compiler on the steps of constant evaluation are not modelled.
* Proof: The run on an empty destination and the run on a filled one are kept side by side: they agree below the write index, and a span always begins behind it or outside the destination. With C35 and C37 this gives the result for decoder.
* Theorems: `C129_overwrites`, `C129_data`, `C129_compiles_iff`.

### C130 of all triangulations of the same places that of points makes the smoothest surface (proved)

* Modelled: Height, slope and roughness of the surface over a mesh (Spec/Rough), stated over the corners of faces and real heights; Sheet: a triangulation whoever made it.
* Proof: A flip changes the roughness by det * K^2 / (product of four areas), K the distance of the four heights from a plane: an identity of polynomials, so in-circle flips never raise it and those flips end (potential of C73) at a Delaunay mesh. Two constrained Delaunay meshes of the same places and constraints are equally rough: the roughness is a sum over edges of the cotangents opposite, in which edges with four corners on a circle cancel with their twins, and every other edge is in both meshes, because its middle lies in a face of the other one that overlaps a face beside it, and faces that overlap have their corners on one circle (visibility as in C111). The other triangulation gets the constraints of the first and the flips keep these. A mesh that is not locally Delaunay is improved by one try_flip, which gives the exact characterisation and, with the mesh of C79, the counterexample for insert_edge. With heights x^2 + y^2 every in-circle flip lowers it, hence the exact characterisation.
* Note: The other triangulation is any mesh that is linked, clockwise, has the square as its outline, 16-bit coordinates and every vertex in use once (Sheet); every mesh of every history is one (C130_sheet). The slopes are tied to the plane through the corners by C130_plane. C130_insert_edge_false shows that the hypothesis LocallyDelaunay of the constrained version does not come for free.
* Theorems: `C130_sheet`, `C130_plane`, `C130_least`, `C130_best_iff`, `C130_constrained`, `C130_constrained_iff`, `C130_marked`, `C130_local_iff`, `C130_insert_edge_false`, `C130_flip`.

### C131 Atomics may be used inside the operators of atomics (partial)

* Modelled: the acquisitions and releases of each thread, nested as the scopes are, with the releases in store buffers that an acquisition waits for (Model/SpinNest).
* Proof: invariant: who holds which slots; induction on the slots above the one waited for; the work left decreases.
* Note: False of the code: an operator that uses an atomic whose address differs by a multiple of 2048 waits for its own thread (C131_self_false), and two threads can wait for each other (C131_cross_false). Proved: the slots are given back by those who have them and are free in the end (C131_free); with slots taken in ascending order no deadlock (C131_ordered_partial) and every run ends with all threads done and all slots free (C131_ends_partial). Without nesting see C60_slots_holder.
* Theorems: `C131_free`, `C131_ordered_partial`, `C131_ends_partial`, `C131_self_false`, `C131_cross_false`.

### C132 The 128-bit product and quotient lose nothing (proved)

* Modelled: `int128_t`, `xmul`, `xdiv` over `mul128` (C42) and the signed division instruction with its exceptions (Model/Wide).
* Proof: The halves make up the product (integer arithmetic); passing the low half as a signed number keeps its bits; the size of a part by multiplying out.
* Note: The instructions behind _mul128 and _div128 are taken as their manual describes them. Nothing in the library calls these functions (the one use is disabled).
* Theorems: `C132_product`, `C132_muldiv`, `C132_back`, `C132_part`, `C132_part_undefined`.

### C133 A compare-exchange compares bits, and the fetch loops are right all the same (partial)

* Modelled: Atomics that hold bits, with a map to values; the operations of atomic_std.h with any bits for the relaxed load and weak failures; the loop of a caller with copies that may change padding.
* Proof: Invariant: the values replay as effects in order; rounds in vain are paid for by calls and effects of others; == of binary32 against equality of bits; witnesses.
* Note: C133_linearizable, C133_rounds, C133_alone and C133_goes hold without exception. False as stated for 0 against -0, NaNs and padding (C133_zero_false, C133_nan_false, C133_padding_false); C133_exact_partial assumes one representation for each value, C133_equal_partial that == is equality of bits, C133_retry_partial that copies keep all bits (C133_retry_false).
* Theorems: `C133_linearizable`, `C133_exact_partial`, `C133_rounds`, `C133_alone`, `C133_goes`, `C133_equal_partial`, `C133_zero_false`, `C133_nan_false`, `C133_float`, `C133_padding_false`, `C133_retry_partial`, `C133_retry_false`.

### C134 Sorting, searching and queues are safe whatever the comparison does, and right where it is an order (proved)

* Modelled: the functions of C21 to C25 with an arbitrary Boolean function for `operator<`.
* Proof: the permutation part of the invariants without the order; an order among some values is extended to all values, and both comparisons give the same run.
* Note: The comparison is a function of its two arguments. With a NaN among the elements the others need not be sorted (C134_nan_sort_false) and dequeue may give a number that is not the least (C134_nan_queue_false).
* Theorems: `C134_insertion_sort`, `C134_intro_sort`, `C134_searches`, `C134_queue`, `C134_insertion_sort_on`, `C134_intro_sort_on`, `C134_searches_on`, `C134_queue_on`, `C134_nan_sort_false`, `C134_nan_queue_false`.

### C135 Sorting and searching count (proved)

* Modelled: the functions of C22 and C24 one after the other.
* Proof: sorted order splits the array at the two positions; permutations keep counts.
* Theorems: `C135_equal_range`, `C135_found`.

### C136 Lengths are ordered (proved)

* Modelled: the model of C53 (Model/Isqrt): conversion to binary64, correctly rounded root, conversion to int32_t, and the generic variant.
* Proof: Proof/IsqrtMono: rounding to nearest keeps the order of fractions; conversion to double keeps the order and is idempotent; the significand of the root times the other's scale keeps the order across exponents; the root of a rounded square below 2^64 is exact. The bounds and the triangle inequality follow from C53's error bounds with Cauchy's inequality.
* Note: the exact triangle inequality and the order beyond the 32-bit range are refuted (C136_triangle_exact_false, C136_isqrt_mono_range_false)
* Theorems: `C136_isqrt_mono`, `C136_hypot_mono`, `C136_hypot_symm`, `C136_hypot_bounds`, `C136_triangle`, `C136_triangle_near`, `C136_triangle_exact_false`, `C136_isqrt_mono_range_false`, `C136_generic_mono`, `C136_generic_bounds`, `C136_axis`.

### C137 Output that overlaps the input (proved)

* Modelled: Model/InPlace: the three functions with all arguments as addresses in one memory.
* Proof: refinement of the models for separate memory (Model/Base64, Model/Zorder, Model/Vec): the write position never passes the read position, and searches look only ahead of it; the steps of intersect are followed for each overlap.
* Note: output that begins one element behind the input fails for both (C137_query_behind_false, C137_decode_behind_false); wrong results of intersect with each of the other three objects in C137_intersect_alias_false
* Theorems: `C137_intersect_first`, `C137_intersect_end`, `C137_intersect_other`, `C137_intersect_alias_false`, `C137_query_in_place`, `C137_query_behind_false`, `C137_decode_in_place`, `C137_decode_behind_false`.

### C138 in_polygon on edges and vertices (proved)

* Modelled: `inPolygon` (C50) with the contribution `crossing` of each edge, `inside` and `inTriangle` (C44).
* Proof: The contribution of an edge depends on the side of the two heights and the strict sign of the cross product. For a triangle the three cross products weighted by the opposite heights sum to zero, which decides the signs in each of the eight patterns of heights; two patterns up to rotation are proved by hand. Opposite directions cancel (`crossing` is antisymmetric), so sums over parts equal the sum over the whole.
* Note: The cut is stated on the level of directed edges: those of the parts are those of the whole and inner edges in pairs. C138_same_triangle_false is the finding that in_polygon and inside break ties in opposite ways.
* Theorems: `C138_triangle`, `C138_opposite_ties`, `C138_parts`, `C138_exactly_one`, `C138_same_triangle_false`.

### C139 The range tests fit together (proved)

* Modelled: `inRange`, `inRangeLine`, `inRangeRay`, `inRangeSegment`, `inRangeEdge` (Model/Vec), `hypot`, `hypotGeneric` (Model/Isqrt).
* Proof: Each test is equivalent to the existence of a near point of the line with a parameter in an interval (C45, C46). The near parameters form an interval (convexity of the square), the other end is the parameter 1 - t; hypot by the error bound of C53.
* Note: On x86 the strict form fails since the length is rounded to nearest (C139_hypot_strict_false); in_range_rr_edge depends on the order of the ends (C139_edge_reverse_false). The statements about the edge exclude the edge of length zero.
* Theorems: `C139_chain`, `C139_mono`, `C139_reverse`, `C139_segment_rays`, `C139_segment_edge`, `C139_hypot`, `C139_hypot_generic`, `C139_hypot_strict_false`, `C139_edge_reverse_false`.

### C140 lziii decodes in place (proved)

* Modelled: `decode` again, with source and destination as addresses in one memory (Model/LziiiMem).
* Proof: Induction over the encoding from inside a group, with the invariant that what is left of the stream is at most as long as what it still produces and the control bytes it still contains; a literal takes one byte and gives one, a span takes two and gives at least three, and of the control bytes the first has been read before anything is written.
* Note: C140_less_false is a stream of nine literals for which one byte less gives wrong data.
* Theorems: `C140_in_place`, `C140_fits`, `C140_buffer`, `C140_less_false`.

### C141 Every point of the square is in exactly one face by in_polygon, and how that differs from locate (proved)

* Modelled: `faceList` and `faceAt` (C84), `inPolygon` (C50), `locate` (C75); `faceCount` is the loop body a user writes.
* Proof: The directed edges of the faces are those of the square and pairs of opposite edges (the invariant of C71), so by C138 the counts add up to that of the square, which is computed; each is 0 or -1. Off the edges the triangle test and the count have the same strict signs.
* Note: C141_locate_edges_false shows that the two differ on edges and sides.
* Theorems: `C141_one_face`, `C141_locate`, `C141_locate_edges_false`.

### C142 The nearest vertex, starting from locate (proved)

* Modelled: The mesh operations of Model/Cdt.lean and locate; a search is a list of vertices, each joined to the next by an edge of a face in use and strictly farther from the point than the next.
* Proof: The distances decrease, so a search has no vertex twice and is shorter than the number of vertices; the longest search cannot be continued, and C122_greedy says that its end is nearest. The face of locate is in use by C75_locate, so its corners are vertices. The witness is a mesh of three points built by the model.
* Note: C142_corners_false is the witness for the last sentence.
* Theorems: `C142_search`, `C142_reaches`, `C142_locate`, `C142_corners_false`.

### C143 fnv1a tells short differences and short names apart, and a dictionary keyed by it is a map from names (proved)

* Modelled: fnv1a of Model/Fnv.lean and the dictionary of Model/Dictionary.lean, with fnv1a(text) as the key of each call.
* Proof: The high part of the hash (all but 8 bits) after a byte is the old one times the prime plus l * 2^s + r * l / 256 with l the low byte after the exclusive or. For two strings of the same length the difference is a number in base r (403 or 435) with digits below r plus 2^s times a second sum. If it vanishes, the first sum is a multiple k of 2^s; for k = 0 all digits are 0, for each of the 2 (3618) other k a complete search through the digit sequences, evaluated by the kernel and proved complete, finds none with a fitting second sum. The different lengths of names are settled by computing which high parts one and two bytes can lead to. The dictionary follows from C32 because the keys are in one-to-one relation to the names and never 0.
* Note: C143_longer_false and C143_names_false are the witnesses that the lengths are the largest possible.
* Theorems: `C143_stretch`, `C143_longer_false`, `C143_names`, `C143_names_false`, `C143_dictionary`.

### C144 When zero bytes added to a message change its CRC-32C (proved)

* Modelled: crc32 over bytes with the table of the Castagnoli polynomial (Model/Crc).
* Proof: A zero bit acts on the register as multiplication by x modulo the generator, a permutation whose order is the prime 2^31-1 (proved for C97), so a register value is fixed by one step or has period exactly 2^31-1; the fixed values are computed from the bits by downward induction.
* Note: C144_end_false gives four bytes whose CRC-32C no number of zero bytes changes. C144_zeros is the exact condition; C144_front the unconditional form in front, C144_end the form at the end.
* Theorems: `C144_zeros`, `C144_front`, `C144_end`, `C144_end_false`.

### C145 A rectangle query looks at few codes it does not report (proved)

* Modelled: z_query, z_lower_bound with a counter of array reads (Model/ZorderCost); C145_same says that the output is that of Model/Zorder.
* Proof: Every lower corner the walk jumps to is the beginning of a run (invariant of the box stack), and successive jumps go to different ones because the array is sorted; runs are counted by the coordinates of the predecessor of a code.
* Note: C145_query is the bound between points, C145_runs the bound by runs, C145_runs_bound counts runs, C145_block the aligned square; C145_block_only_false shows the block bound is not one for all rectangles. z_split calls are not counted; there are at most 64 for a code read, by the rounds of `look`.
* Theorems: `C145_same`, `C145_runs`, `C145_runs_bound`, `C145_query`, `C145_block`, `C145_block_only_false`.

### C146 How small and how large lziii streams are, and what may follow them (proved)

* Modelled: The model of C35 (size and decode byte for byte, none for an access outside the arrays).
* Proof: sizeLoop_ratio: 17 times the bytes counted never exceed 144 times the source bytes used plus 18 per control bit at hand, an invariant of the loop. The stream of literals and the stream of one literal and copies of length 18 give existence and sharpness through C35. decodeLoop_append and decodeLoop_stop are inductions over the source and over the encoding relation.
* Note: C146_within_false shows the last sentence of the statement: a destination of 2 for a stream of 4 bytes is overrun.
* Theorems: `C146_every`, `C146_expansion`, `C146_sharp`, `C146_behind`, `C146_beginning`, `C146_within_false`.

### C147 crc32c detects up to five wrong bits in messages of up to 659 bytes (proved)

* Modelled: The model of C06 and C97; `errors` is the set of bit positions in which two messages differ.
* Proof: Four terms of degree at most 5274 are never a multiple of the generator: in the ring of remainders every 1 + x^a is a power of x times a fixed element, and four terms that vanish would make two of the 5274 logarithms close, which sorting them excludes. The logarithms are a certificate (CrcTables.lean, written by tools/crc_tables.py); the kernel checks it with polynomials coded in six bits for each coefficient, for which Gf2Spread.lean proves that products of numbers are products of polynomials. An odd number of wrong bits is C97.
* Note: The bound is the best possible (C147_bound_is_tight).
* Theorems: `C147_near`, `C147_five`, `C147_frame`, `C147_bound_is_tight`.

### C148 What numbers of one generator tell about others (proved)

* Modelled: The model of C14 to C17; the machine's result of a shift by 32 is a parameter as in C17.
* Proof: Adding 2^63 commutes with the linear congruential step because the multiplier is odd, and changes one bit before the rotation and the amount of the rotation by 16. The output function of xoroshiro64ss and x ^ (x << 9) are inverted explicitly (`predict`).
* Note: Read with C108: different seeds give different generators, but these are not independent.
* Theorems: `C148_twins`, `C148_determined`, `C148_predict`.

### C149 Tickets and reference counts made of the atomic counters are right under every schedule (proved)

* Modelled: The model of the atomic loops of C59 (Model/FetchAdd.lean). The client that counts references is a separate relation (Users): a call needs a handle not in use by another call, a clone gives back two, a drop none.
* Proof: Every step is a call, a quiet step, an effect or a return. Tickets: the returned results and those about to be returned are a permutation of the first k numbers, k the effects so far, and calls = effects + threads with work to do. Reference counts: the count is the sum of the free handles and of what each thread accounts for; the number of drops told 1 is 1 exactly when the count is 0.
* Note: C149_tickets, C149_no_gaps: numbers; C149_last_once, C149_last_exists: reference counts; C149_wraps: why the number of clones is limited. Memory ordering of other data is not part of the model.
* Theorems: `C149_tickets`, `C149_no_gaps`, `C149_last_once`, `C149_last_exists`, `C149_wraps`.

### C150 Structures that are looked at in two ways are laid out the same in both (proved)

* Modelled: A layout function for structures with plain members and bit-fields (Model/Layout.lean), the declarations of rgba, vec, edge_data, face_data, vert_data and thread_mutex as lists of members.
* Proof: Induction over the members for structures of one type. For the union the offsets of the members of the first element are computed by the kernel and the index is added by arithmetic.
* Note: C150_rules: the layout rules place members in order, aligned, without overlap; C150_as_array, C150_rgba, C150_vec; C150_sizes, C150_union, C150_store; C150_mutex; C150_mutex_alignment_false: nothing asserts the alignment of the mutex. Aliasing rules of C++ (that the casts are allowed at all) are not modelled.
* Theorems: `C150_rules`, `C150_as_array`, `C150_rgba`, `C150_vec`, `C150_sizes`, `C150_union`, `C150_store`, `C150_mutex`, `C150_mutex_alignment_false`.

### C151 Something is done once: of all claims by compare-exchange or exchange exactly one succeeds, and what it publishes is seen complete (proved)

* Modelled: The model of atomics with store buffers of C90 (Model/Atomic.lean).
* Proof: Every step is an effect of the sequential meaning or leaves the atomics alone; induction over executions gives the position of the successful compare-exchange in the execution. The third part finds it between the write and the other thread's operation and applies C90_publish.
* Note: C151_once, C151_flag, C151_published. The memory model is that of x86 (store buffers) as in C90; effects are the results returned (C90_linearizable).
* Theorems: `C151_once`, `C151_flag`, `C151_published`.

### C152 Texts of several numbers determine the numbers (proved)

* Modelled: nothing new: the model of to_text and as_string of C03 and C05.
* Proof: the digits of a number end at the first character that is no digit, induction over the pattern; the reader splits at commas, induction over the array.
* Note: arrays: an independent reader gives back what was written; messages: injectivity for a fixed pattern; the two _false theorems are the witnesses for the conditions the statement names
* Theorems: `C152_array_reads_back`, `C152_array_injective`, `C152_array_of_texts_false`, `C152_message_injective`, `C152_message_adjacent_false`.

### C153 Several mutexes taken in one order do not deadlock (proved)

* Modelled: threads with lists of calls over several mutexes, on top of the model of the wrappers and platform locks of C62.
* Proof: the invariant of C62 for each mutex; of the threads that wait, one that waits for a mutex of highest rank finds it free; the number of calls to be made falls.
* Note: the locks of the platform are trusted to behave as documented (Model/Mutex.lean); the _false theorem is the witness that the order is needed
* Theorems: `C153_defined`, `C153_no_deadlock`, `C153_finishes`, `C153_order_needed_false`, `C153_twice_undefined`.

### C154 Shuffling with next_unbiased (proved)

* Modelled: the shuffle loop on lists, on top of the model of next_unbiased, pcg32_64 and xoroshiro64ss.
* Proof: the output sequences that lead to an arrangement are the draws that bring its first element to the front times those that arrange the rest; counting states against n!.
* Note: the shuffle is code a user writes, modelled as stated; the _false theorem shows that exact uniformity fails, as next_unbiased does not reject (C19)
* Theorems: `C154_permutes`, `C154_nearly_uniform`, `C154_uniform_false`, `C154_some_never`.

### C155 min_priority_queue as a queue of events (proved)

* Modelled: the event loop, on top of the model of min_priority_queue of C25.
* Proof: what is dequeued is minimal and everything that comes later is waiting or posted by a later handler; induction over turns and histories.
* Note: the loop is code a user writes, modelled as stated; the _false theorem is the witness that equal events are not in order by themselves
* Theorems: `C155_in_order`, `C155_numbered_fifo`, `C155_fifo_false`.

### C156 base64 in pieces (proved)

* Modelled: nothing new: the model of base64 of C12.
* Proof: byte 3 k + i of a text with 4 k characters in front is byte i of the rest, induction over the groups.
* Note: the two _false theorems are the witnesses that the multiples of four and three are needed
* Theorems: `C156_fewer`, `C156_pieces`, `C156_joined`, `C156_joined_false`, `C156_cut_false`.

### C157 CRC-32C of names (proved)

* Modelled: `crc32Bytes`, `crc32c` (Model/Crc.lean); the name characters are in Spec/CrcNames.lean.
* Proof: The CRC is a sum over the bytes (linearity). Equal lengths: the last four bytes form a word, and the difference made by the bytes before would have to vanish under a mask (complete tables of 64 and 1024 cases). Different lengths: parity checks on the CRC that do not see which characters are used tell the length, except five against none or one, where four more checks read bits of the fourth character and give one that is no name character.
* Note: Tight: witnesses with six characters, with six small letters against two, and with seven small letters.
* Theorems: `C157_five_in_text`, `C157_six_in_text`, `C157_names`, `C157_six_false`, `C157_small_false`.

<!-- end properties -->
