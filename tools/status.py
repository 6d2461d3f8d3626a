STATUS = {
 "C01": ("proved", "All ten integer types through their size and signedness; to_text of a bool is in C03."),
 "C02": ("proved", "Every cell outside the text keeps its content; measure is also tight."),
 "C03": ("proved", "Preconditions Arg.OkM; null char const* and unterminated short arrays are shown to be undefined. Floating point arguments are in C105, vectors in C95."),
 "C04": ("proved", ""),
 "C05": ("proved", "Elements that are arrays or vectors themselves are shown as addresses (C05_nested_false)."),
 "C06": ("proved", ""),
 "C07": ("proved", ""),
 "C08": ("proved", ""),
 "C09": ("proved", "Burst errors up to 32 bits, and the exact criterion (generator polynomial divides the difference) for all others."),
 "C10": ("proved", ""),
 "C11": ("proved", ""),
 "C12": ("proved", "Strings below 2^62 bytes."),
 "C13": ("proved", ""),
 "C14": ("proved", ""),
 "C15": ("proved", ""),
 "C16": ("proved", ""),
 "C17": ("proved", "The over-long shift is a parameter of the model; both results the comment in the source names are covered."),
 "C18": ("proved", ""),
 "C19": ("partial", "The property is false of the code (threshold is 0 - n % n = 0, so nothing is rejected): proved uniform iff n divides 2^32, witness n = 3, and that the error is at most one draw in 2^32."),
 "C20": ("partial", "False for xoroshiro64ss (witnesses: the empty seed and an 8 byte seed; exact criterion proved). Holds for xoroshiro128pp; pcg has no stuck state (C16)."),
 "C21": ("proved", ""),
 "C22": ("proved", "Cut-off at least 1; with cut-off 0 the partition reads outside (C22_cutoff_zero_undefined)."),
 "C23": ("partial", "The logarithmic bound is false of the code: equal elements (and others) recurse linearly deep. Proved: that negation, and the linear bound that does hold."),
 "C24": ("proved", ""),
 "C25": ("proved", "dequeue() on an empty queue is shown to be undefined (C25_dequeue_empty_undefined) and excluded."),
 "C26": ("proved", ""),
 "C27": ("proved", "Growth of trivially constructible T shows the previous slot contents (C27_trivial_growth_is_stale); the refinement accounts for it."),
 "C28": ("proved", "For default constructible T; the other case is C29."),
 "C29": ("partial", "False of the code for types without a default constructor: construct_copy assigns to raw memory (witnesses). Proved for default constructible types."),
 "C30": ("proved", "Up to the first call that breaks a stated precondition (double free etc.)."),
 "C31": ("proved", ""),
 "C32": ("partial", "False for the name held by names[0] (zero): never found, each bind takes a new entry. Proved for all other names, N >= 2; C32_history_exact says what happens with all names."),
 "C33": ("partial", "Same exclusion as C32; N = 1 is shown to write outside the arrays."),
 "C34": ("proved", "For the orientation the scan uses; the usual orientation is shown to fail (C34_usual_layout_fails)."),
 "C35": ("proved", ""),
 "C36": ("proved", ""),
 "C37": ("partial", "False of the code: a bad offset or truncated stream reads outside the buffers (witnesses). Proved: size + decode is safe exactly on the well formed streams (length < 2^59)."),
 "C38": ("partial", "False for bytes >= 0x80, which a signed char compares as blanks (C38_non_ascii_false). Proved for ASCII text, and memory safety for all text; C38_keys_exact gives the keys for all text."),
 "C39": ("partial", "False when a blank precedes a comma, and for non-ASCII text (C39_blank_before_comma_false). Proved for lists without either; memory safety for all text; C39_exact gives the names for all text."),
 "C40": ("proved", ""),
 "C41": ("proved", "frequency * Fd * (Fn + 1) <= 2^64 and a total tick count below 2^64; frequency 0 is shown to divide by zero."),
 "C42": ("proved", ""),
 "C43": ("proved", ""),
 "C44": ("proved", "The winding number is that of the boundary around the displaced point; C44_exactly_one is the form in the source comment."),
 "C45": ("proved", "The radius squared must not be negative for the definedness part; ranges without overflow in C45_defined."),
 "C46": ("partial", "False of the code: beyond the far end of the edge, points in range of the near end are reported (C46_edge_false). Proved otherwise; C46_edge_exact is what the code decides for all points."),
 "C47": ("proved", ""),
 "C48": ("partial", "False of the code for a *= a.x and a /= a.x, where the scalar is a component of the assigned vector (C48_alias_false); C48_alias_mul, C48_alias_div and the vec3 forms say what is left then, C48_alias_iff in exactly which cases it is right. Everything else proved."),
 "C49": ("partial", "False of the code for determinants 0 < d < 65536, where p1 is returned (C49_small_false, and C49_small for all of them). Parallel case exact; otherwise an explicit error bound is proved."),
 "C50": ("proved", "For points off the edges the count is the winding number by angles; rotation, reversal and cutting hold for all points."),
 "C51": ("proved", ""),
 "C53": ("proved", "Also: nearest integer below 2^50 (sharp), error below one everywhere, Pythagorean triples exact on x86 and not on other processors, where the root is rounded down for sums of squares below 2^52 and out of range results are undefined."),
 "C52": ("proved", "For every vector of length at most 2^31-1 and every angle. INT_MIN as radius is undefined at half a turn (C52_int_min_undefined). The compile-time table is evaluated in a model of IEEE double arithmetic."),
 "C77": ("proved", "For every nonzero vector of length at most 2^31-1; beyond it overflows (C77_overflow), and the zero vector gets an arbitrary angle (C77_zero)."),
    "C54": ("proved", ""),
    "C55": ("partial", "proved for walks within the span stack, except elements whose low 16 bits are all ones in the last cell, which the code misses (C55_misses_last_false, and C55_below_last for all of them)"),
    "C56": ("partial", "false as stated: C56_outside_false; proved for aligned squares and, in general, that reported elements lie in the z-range of a sub-rectangle"),
    "C57": ("partial", "false as stated: C57_overflow_false; proved for queries of up to 2^kx by 2^ky cells with kx + ky at most 32, anywhere, which is sharp (C57_sharp_false)"),
    "C58": ("proved", ""),
    "C59": ("proved", "Loads and failed exchanges may see any value at all."),
    "C60": ("proved", "On x86-TSO, with store buffers; operations under the lock are shown linearizable, for one slot and (C60_slots_...) for all slots and objects together, with one store buffer per thread; the holder of a slot can always get on."),
    "C61": ("partial", "False of the code: atomic_load of a small struct takes the spin lock, atomic_store does not (C61_torn_false). Proved for sizes where every operation takes the lock."),
    "C62": ("proved", "Relative to the documented behaviour of std::mutex, std::shared_mutex and SRWLOCK."),
    "C63": ("proved", "For any compiler that writes enumerators qualified and other values as casts. Only the outermost qualifier is removed (C63_unqualified_false), names written with a parenthesis first are lost (C63_anonymous_false), nameof<unsigned int>() is int (C63_type_false)."),
    "C64": ("proved", "Also that a reader restores what was written; no handler gets the capacity of a list (C64_capacity_false)."),
    "C65": ("proved", "Quotes are not escaped (C65_escape_false)."),
    "C66": ("proved", "The hook's level is always 0, so the default hook always asks for a break."),
    "C67": ("proved", "Truncated text is read past its end (C67_truncated_false)."),
    "C68": ("proved", ""),
    "C69": ("proved", ""),
    "C70": ("proved", ""),
    "C71": ("proved", "For every history of reset, insert_point, insert_edge, constrain_edge, flip, try_flip and fill that comes to an end."),
    "C72": ("proved", "All assertions of validate_face hold except e0 != e1 and its rotations, which fail for a face with two edges on the outline (C72_distinct_twins_false)."),
    "C73": ("proved", "flip, constrain_edge and insert_point_at_node; also that no assertion in them fails. The walk that finds the face is not part of this property."),
    "C74": ("partial", "False of the code: the products overflow (C74_no_overflow_false), already for the first point of a mesh. In two's complement the result is exact for all 16-bit coordinates, and nothing overflows in a square of side 35210."),
    "C75": ("proved", "Also that a face is found exactly for the points of the half-open square. The uniqueness is for scales up to 2^15, above which the 32-bit differences overflow."),
    "C76": ("proved", ""),
    "C78": ("proved", "For calls that return. A point on the outline that is not a vertex is refused."),
    "C79": ("partial", "False with insert_edge, which leaves edges that are not locally Delaunay (C79_insert_edge_false). Proved for all histories of reset, insert_point, flip and fill (Delaunay) and with constrain_edge (locally Delaunay). The in-circle test is taken in two's complement, see C74."),
    "C80": ("partial", "False with constraints: the walk can go around in circles for ever (C80_constraints_false). Proved, with at most 6 size steps, for all meshes without constraints, and with constraints whenever some assignment of heights makes the surface over the mesh bend upwards across every edge (regular triangulations; flat where Delaunay, so that every Delaunay mesh is included, C80_flat). The mesh of C80_constraints_false has no such heights."),
    "C81": ("proved", ""),
    "C82": ("proved", "For calls that return."),
    "C83": ("partial", "False of the code: a way with a bend at a rounded crossing is reported as success even in a mesh without constraints (C83_straight_false), and two crossing segments are enough to make it fail (C83_crossing_false). Proved: when it returns true there is a chain of constrained edges from end to end whose bends are each less than one unit off the segment they divide, and it stays for ever."),
    "C84": ("proved", "With a scale of 2^17 or more the corners of the square overflow (C84_scale_false)."),
    "C85": ("proved", "For N of at least 4; with less already reset writes outside (C85_small_false). The order of bit-fields in a word is assumed to be the usual one."),
    "C86": ("proved", "For calls that return. The way of insert_edge is that of C83, with bends. The side tests of the walk fit 64 bits for all 32-bit coordinates (C86_products). Points of the lowest column and row of the grid are refused although they are in the square."),
    "C87": ("partial", "False of the code: a signal ends the wait (C87_signal_false); on Windows the time is rounded down to milliseconds (C87_short_false) and from 49.7 days on it never returns (C87_forever_false). Proved: exact and well-formed on POSIX without signals, within one millisecond on Windows; the timestamps on POSIX."),
    "C88": ("proved", "On Windows, where the size of the file fits SIZE_T; on 32-bit systems only the beginning of a file of 4 GB or more is shown (C88_large_false). An empty file is reported like a missing one (C88_empty_false). On POSIX the functions are not implemented and return false (C88_posix_false)."),
    "C89": ("partial", "Holds for native types. Fails for classes of 1, 2, 4, 8 bytes with an operator- of their own (vec2<int32_t>): loads take the lock, stores do not; for larger classes that convert to a number: loads do not take the lock; compare-exchange lacks a return for sizes other than 1, 2, 4, 8, 16; classes whose operators are members are added as integers; subtracting INT_MIN overflows. That 8- and 16-bit fetch_add narrows inside braces (a matter of compiler warnings and errors) is not modelled."),
    "C90": ("proved", "The compiler is taken to keep the program order, which is what _ReadWriteBarrier and the intrinsics ask of it."),
    "C91": ("proved", "The loop of atomic_std.h uses compare_exchange_weak, which may fail for no reason; there the bound holds for the other failures. The loops are not wait-free (shown)."),
    "C92": ("proved", "C92_progress and C92_returns hold for all weakly fair infinite executions. The same for all slots together (C92_slots_progress, C92_slots_returns), slot by slot: calls for ever at one slot do not keep those at another waiting. C92_starvation_false shows that no single call is guaranteed to return: in a fair execution one thread waits while another completes call after call (the lock has no queue)."),
    "C93": ("proved", "For valid UTF-8 proved (C93_path, C93_distinct), the buffer is never overrun whatever the bytes (C93_fits), and any path of whole characters gives a name that depends on nothing else (C93_bytes). Outside of that: a path that ends inside a character loses its terminator (C93_truncated_false), and the overlong form C0 80 ends the name early (C93_overlong_false)."),
    "C94": ("proved", ""),
    "C95": ("partial", "C95_concat_in_bounds_partial requires components with texts of at most 254 characters; C95_short shows that only C strings can have longer ones. For those the property fails: a vec of one C string of 1023 or more characters is written behind the array (C95_overflow_false); C95_concat_exact says what is written for texts of any length and when a vec fits. A matrix is shown as the addresses of its rows, because to_text_n does not see the overload for vec (C95_matrix_false)."),
    "C96": ("proved", "The determinant of incircle is excluded: it does overflow (C74). The bound for int64_t coordinates is exact (C96_point_undefined). The assertion a != 0 && b != 0 && c != 0 of line 622 never fails."),
    "C97": ("proved", "The two-bit bound is exact; C97_bound_is_tight gives two messages of 2^28 bytes that differ in two bits and collide."),
    "C98": ("proved", "For pcg32_64 the shift by 32 that C++ leaves undefined is taken to give 0 or the operand (C17)."),
    "C99": ("partial", "The bound n log n is false of intro_sort: with equal elements the number of comparisons is quadratic for every cutoff. Proved: that negation, the quadratic bound n(n+5)/2 that does hold, and all the other bounds."),
    "C100": ("partial", "False when the far corner is in the last cell: C100_world_false, a query of the whole plane finds nothing. Proved for all other corners; the stack bound is C57's."),
    "C101": ("proved", "Nothing in the header calls these functions. Far points overflow (C101_far_undefined)."),
    "C102": ("partial", "False for multiples of 32: the right shift is by 32, which is undefined (C102_zero_undefined). Proved for all other amounts; the library itself uses 5, 13, 26."),
    "C103": ("partial", "False of the code: with structured bindings (the project builds as C++17) the name get inside crack finds crack::get, so every use is ill-formed (C103_get_false). Proved: without structured bindings it returns the member; the helper it means to call returns the member; the number of members is counted correctly. The rules of name lookup used are part of the model."),
    "C104": ("partial", "The claim about the text of the test is false (C104_text_false, C104_comma_false); everything else is proved. The user's tokens are assumed not to be macros, and the level name LVL is left out."),
    "C105": ("proved", "std::to_chars itself is not modelled but taken by its contract (shortest text that reads back, nearest of these), which C105_exists shows can be met. The array must have room for 32 characters at the place of the text even though 24 suffice (C105_room_undefined)."),
    "C106": ("partial", "Not true of the code: a line is written in many pieces without a lock (C106_mixed_lines_false) and the rest of a short write is dropped (C106_short_write_false). Proved: with complete writes nothing is lost or cut within a piece and each thread's pieces stay in order; if the caller logs under a lock the stream consists of whole lines."),
    "C107": ("partial", "Not true of all vectors: with a component of 2^64 or more the result is the null vector (C107_long_false), with no component above 2^-64 it has infinities and NaN (C107_short_false, C107_short_generic_false). With an infinite component the result is NaN there and zero elsewhere (C107_infinite_false); with a NaN it is NaN throughout (C107_nan, not for x86, where the manual's promise as modelled does not cover NaN). Proved for components of at most 2^63, one of them at least 2^-62. The instruction rsqrtss is taken by the promise of its manual; the sign of zero is not kept."),
    "C108": ("proved", "C108_pcg_seven_false is the witness that six bytes are the most."),
    "C109": ("proved", ""),
    "C110": ("proved", "Copies of flip and insert_point_at_node that also count the flips; that without the count they are the functions of the model is C110_count.  Needs a triangulation without constraints: with constraints the walk may not end (C80)."),
    "C111": ("partial", "False with insert_edge (C111_insert_edge_false), for the reason given at C79. Proved for all histories without it; for every mesh, the property is equivalent to the local one (C111_local)."),
    "C112": ("partial", "The code does not have the property: walks among constraints may not end (C112_walk_false), and from a corner of the square the mesh is left (C112_corner_false). Proved for every other start: it ends with the exhaustive search (C112_search), with the walk unless a walk does not end (C112_only_walks_partial), and the number of added vertices is bounded (C112_bound)."),
    "C113": ("proved", ""),
    "C114": ("proved", "The claim is about the faces that are painted; that all faces of the region are painted is C76."),
    "C115": ("proved", "The side conditions are those of a drawing of one polygon; where several polygons or crossing sides are drawn the claim that remains is C114."),
    "C116": ("proved", "The limits on the rectangle are those of C57 and C100, where counterexamples beyond them are proved."),
    "C117": ("proved", ""),
    "C118": ("proved", "The negative x axis is excluded for atan2_2pi, where the angle may be given as plus or minus half a turn."),
    "C119": ("proved", ""),
    "C120": ("proved", "For the over-long shift see C17."),
    "C121": ("proved", ""),
    "C122": ("proved", ""),
    "C123": ("proved", ""),
    "C124": ("proved", ""),
    "C125": ("proved", ""),
    "C126": ("proved", "The angles are real numbers (arccos). After insert_edge the mesh need not be locally Delaunay (C79)."),
    "C127": ("proved", ""),
    "C128": ("proved", "Texts of letters only; lengths up to 2^62 as in C12 and C13."),
    "C129": ("proved", ""),
    "C130": ("proved", "The other triangulation is any mesh that is linked, clockwise, has the square as its outline, 16-bit coordinates and every vertex in use once (Sheet); every mesh of every history is one (C130_sheet). The slopes are tied to the plane through the corners by C130_plane. C130_insert_edge_false shows that the hypothesis LocallyDelaunay of the constrained version does not come for free."),
    "C131": ("partial", "False of the code: an operator that uses an atomic whose address differs by a multiple of 2048 waits for its own thread (C131_self_false), and two threads can wait for each other (C131_cross_false). Proved: the slots are given back by those who have them and are free in the end (C131_free); with slots taken in ascending order no deadlock (C131_ordered_partial) and every run ends with all threads done and all slots free (C131_ends_partial). Without nesting see C60_slots_holder."),
    "C132": ("proved", "The instructions behind _mul128 and _div128 are taken as their manual describes them. Nothing in the library calls these functions (the one use is disabled)."),
    "C133": ("partial", "C133_linearizable, C133_rounds, C133_alone and C133_goes hold without exception. False as stated for 0 against -0, NaNs and padding (C133_zero_false, C133_nan_false, C133_padding_false); C133_exact_partial assumes one representation for each value, C133_equal_partial that == is equality of bits, C133_retry_partial that copies keep all bits (C133_retry_false)."),
    "C134": ("proved", "The comparison is a function of its two arguments. With a NaN among the elements the others need not be sorted (C134_nan_sort_false) and dequeue may give a number that is not the least (C134_nan_queue_false)."),
    "C135": ("proved", ""),
    "C136": ("proved", "the exact triangle inequality and the order beyond the 32-bit range are refuted (C136_triangle_exact_false, C136_isqrt_mono_range_false)"),
    "C137": ("proved", "output that begins one element behind the input fails for both (C137_query_behind_false, C137_decode_behind_false); wrong results of intersect with each of the other three objects in C137_intersect_alias_false"),
    "C138": ("proved", "The cut is stated on the level of directed edges: those of the parts are those of the whole and inner edges in pairs. C138_same_triangle_false is the finding that in_polygon and inside break ties in opposite ways."),
    "C139": ("proved", "On x86 the strict form fails since the length is rounded to nearest (C139_hypot_strict_false); in_range_rr_edge depends on the order of the ends (C139_edge_reverse_false). The statements about the edge exclude the edge of length zero."),
    "C140": ("proved", "C140_less_false is a stream of nine literals for which one byte less gives wrong data."),
    "C141": ("proved", "C141_locate_edges_false shows that the two differ on edges and sides."),
    "C142": ("proved", "C142_corners_false is the witness for the last sentence."),
    "C143": ("proved", "C143_longer_false and C143_names_false are the witnesses that the lengths are the largest possible."),
    "C144": ("proved", "C144_end_false gives four bytes whose CRC-32C no number of zero bytes changes. C144_zeros is the exact condition; C144_front the unconditional form in front, C144_end the form at the end."),
    "C145": ("proved", "C145_query is the bound between points, C145_runs the bound by runs, C145_runs_bound counts runs, C145_block the aligned square; C145_block_only_false shows the block bound is not one for all rectangles. z_split calls are not counted; there are at most 64 for a code read, by the rounds of `look`."),
    "C146": ("proved", "C146_within_false shows the last sentence of the statement: a destination of 2 for a stream of 4 bytes is overrun."),
    "C147": ("proved", "The bound is the best possible (C147_bound_is_tight)."),
    "C148": ("proved", "Read with C108: different seeds give different generators, but these are not independent."),
    "C149": ("proved", "C149_tickets, C149_no_gaps: numbers; C149_last_once, C149_last_exists: reference counts; C149_wraps: why the number of clones is limited. Memory ordering of other data is not part of the model."),
    "C150": ("proved", "C150_rules: the layout rules place members in order, aligned, without overlap; C150_as_array, C150_rgba, C150_vec; C150_sizes, C150_union, C150_store; C150_mutex; C150_mutex_alignment_false: nothing asserts the alignment of the mutex. Aliasing rules of C++ (that the casts are allowed at all) are not modelled."),
    "C151": ("proved", "C151_once, C151_flag, C151_published. The memory model is that of x86 (store buffers) as in C90; effects are the results returned (C90_linearizable)."),
    "C152": ("proved", "arrays: an independent reader gives back what was written; messages: injectivity for a fixed pattern; the two _false theorems are the witnesses for the conditions the statement names"),
    "C153": ("proved", "the locks of the platform are trusted to behave as documented (Model/Mutex.lean); the _false theorem is the witness that the order is needed"),
    "C154": ("proved", "the shuffle is code a user writes, modelled as stated; the _false theorem shows that exact uniformity fails, as next_unbiased does not reject (C19)"),
    "C155": ("proved", "the loop is code a user writes, modelled as stated; the _false theorem is the witness that equal events are not in order by themselves"),
    "C156": ("proved", "the two _false theorems are the witnesses that the multiples of four and three are needed"),
    "C157": ("proved", "Tight: witnesses with six characters, with six small letters against two, and with seven small letters."),
}
