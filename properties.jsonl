{"id": "C01", "title": "Integer to text is exact decimal", "statement": "to_text(buf, i) for any built-in integer type writes exactly the canonical decimal representation of i (a '-' for negatives, no leading zeros) starting at buf and returns buf + number of characters written.", "quantifier": "every value of every signed/unsigned 8, 16, 32 and 64 bit integer type", "why_tests_cant": "2^64 values times ten types; the fixed-point reciprocal arithmetic can be off by one on isolated values.", "anchors": ["lib/to_text_from_integer.h: to_text_from_integer, JEAIII_A/D/S/W/L09/L03/K/KX/KYX", "lib/to_text.cpp: to_text"]}
{"id": "C02", "title": "Integer text fits its declared measure", "statement": "to_text of an integer of type T never writes outside the first measure<T>::value characters of the destination, including intermediate stores.", "quantifier": "every value of every integer type, every prior content of the destination buffer", "why_tests_cant": "requires the maximum over all values of the type, and absence of stray two-byte stores.", "anchors": ["lib/to_text_from_integer.h: JEAIII_W", "lib/h/ce/ce.h: measure"]}
{"id": "C03", "title": "as_string never overflows and is NUL terminated", "statement": "as_string{args...}.as, for integer, char, bool, C string, bounded char array, null pointer and pointer arguments, is written without leaving its fixed array, ends with a NUL, and holds the concatenation of the texts of the arguments (C strings cut at 1024 characters).", "quantifier": "every finite list of arguments and every argument value, strings of any length", "why_tests_cant": "argument lists and string lengths are unbounded.", "anchors": ["lib/h/ce/ce.h: as_string, measure, to_text_m, to_text_s, to_text_p"]}
{"id": "C04", "title": "Integer text is injective", "statement": "two integers of the same type have the same to_text output only if they are equal, and reading the text back as a decimal number gives the integer.", "quantifier": "every pair of values of every integer type", "why_tests_cant": "pairs of 64-bit values.", "anchors": ["lib/to_text_from_integer.h: to_text_from_integer"]}
{"id": "C05", "title": "Array and vec text format", "statement": "to_text of an array / vec of n elements that are not arrays or vectors themselves is '[' followed by the element texts separated by ', ' followed by ']'; for n = 0 it is '[]'.", "quantifier": "every element count and every element text", "why_tests_cant": "element counts and contents are unbounded.", "anchors": ["lib/h/ce/ce.h: to_text_n, to_text(vec)"]}
{"id": "C06", "title": "Table CRC equals the bit-serial CRC", "statement": "crc32(c, n, bytes) equals the textbook bit-at-a-time reflected CRC-32 (initial value complement, final complement) for the polynomial of T.", "quantifier": "every polynomial, every starting value, every byte string of every length", "why_tests_cant": "unbounded strings and 2^32 polynomials and states.", "anchors": ["lib/h/ce/ce.h: detail::crc32, crc32(T,size_t,uint8_t const[])"]}
{"id": "C07", "title": "Wide CRC overloads agree with the byte overload", "statement": "crc32 over uint32_t / uint64_t arrays equals crc32 over the little-endian bytes of the same arrays.", "quantifier": "every polynomial, starting value and array of words of every length", "why_tests_cant": "slicing-by-4/8 uses 8 distinct tables; tests check a couple of words.", "anchors": ["lib/h/ce/ce.h: crc32(T,size_t,uint32_t const[]), crc32(T,size_t,uint64_t const[]), crc32_table"]}
{"id": "C08", "title": "CRC can be computed in pieces", "statement": "feeding the result of crc32 over a prefix as the starting value for the suffix gives the crc32 of the whole string; crc32c(literal) is crc32 with the Castagnoli polynomial and initial value over the characters before the terminating NUL.", "quantifier": "every split of every byte string", "why_tests_cant": "unbounded strings and split points.", "anchors": ["lib/h/ce/ce.h: crc32, crc32c, crc32c_t"]}
{"id": "C09", "title": "CRC detects every burst error up to 32 bits", "statement": "if two messages of the same length differ only inside a window of at most 32 consecutive bits (in transmission order), and differ there, their crc32 values differ; more generally equal-length messages have equal crc exactly when the generator polynomial divides the difference polynomial.", "quantifier": "every message length, every position of the window and every non-zero error pattern, every starting value, every polynomial with a constant term (incl. CRC-32C)", "why_tests_cant": "all pairs of messages of all lengths.", "anchors": ["lib/h/ce/ce.h: detail::crc32, crc32"]}
{"id": "C10", "title": "FNV-1a is the standard byte fold, with multi-byte elements hashed little-endian", "statement": "fnv1a over an array of k-byte elements equals FNV-1a over the concatenated little-endian bytes; hashing a prefix and passing its hash as the basis for the suffix gives the hash of the whole; the C string overload hashes exactly the characters before the NUL.", "quantifier": "every element width, array length, content and basis, both 32 and 64 bit", "why_tests_cant": "unbounded arrays.", "anchors": ["lib/h/ce/ce.h: hash::fnv1a, fnv1a32, fnv1a64"]}
{"id": "C11", "title": "FNV-1a never confuses strings differing in one byte", "statement": "for equal-length byte strings that differ in exactly one byte the 32- and 64-bit FNV-1a hashes differ, and different bases give different hashes of the same data.", "quantifier": "every string, position, pair of byte values and basis", "why_tests_cant": "unbounded strings.", "anchors": ["lib/h/ce/ce.h: hash::fnv1a"]}
{"id": "C12", "title": "base64 decode inverts base64 encoding", "statement": "for every byte string, decoding its standard base64 text (padded, unpadded, or followed by any non-base64 character) with size() and decode() gives back exactly the byte string.", "quantifier": "every byte string of every length and every terminator", "why_tests_cant": "unbounded strings.", "anchors": ["lib/h/ce/ce.h: base64::size, base64::decode, ascii::is_base64"]}
{"id": "C13", "title": "base64 decode stays in bounds", "statement": "decode(size(src), dst, src) reads only characters of src before its terminator and writes each dst byte exactly once; size(n) equals floor(3n/4) without overflow for every size_t n.", "quantifier": "every source text and every size_t", "why_tests_cant": "unbounded texts, all 2^64 sizes.", "anchors": ["lib/h/ce/ce.h: base64::size, base64::decode"]}
{"id": "C14", "title": "xoroshiro64ss walks one cycle of length 2^64-1", "statement": "next() permutes the states, the all-zero state is the only fixed trap, and starting from any non-zero state the state sequence has period exactly 2^64-1 (every non-zero state is visited).", "quantifier": "every starting state", "why_tests_cant": "the cycle has 2^64-1 states.", "anchors": ["lib/h/ce/ce.h: random::xoroshiro64ss, next"]}
{"id": "C15", "title": "xoroshiro128pp walks one cycle of length 2^128-1", "statement": "next() permutes the states and from any non-zero state the state sequence has period exactly 2^128-1.", "quantifier": "every starting state", "why_tests_cant": "the cycle has 2^128-1 states.", "anchors": ["lib/h/ce/ce.h: random::xoroshiro128pp, next"]}
{"id": "C16", "title": "pcg32_64 has full period 2^64", "statement": "from any state, repeated next() visits all 2^64 states before returning to the start.", "quantifier": "every starting state", "why_tests_cant": "2^64 states.", "anchors": ["lib/h/ce/ce.h: random::step(pcg32_64_t), next"]}
{"id": "C17", "title": "pcg32_64 output is a rotation whatever the target does with a 32-bit shift of a 32-bit value", "statement": "read(g) is the 32-bit value (g>>27 ^ g>>45) rotated right by g>>59, for either result (0 or the operand) the hardware gives for the over-long shift that the expression contains when the rotation is 0; in standard C++ that shift is undefined.", "quantifier": "every state", "why_tests_cant": "2^64 states, and the undefined case is compiler dependent.", "anchors": ["lib/h/ce/ce.h: random::read(pcg32_64_t)"]}
{"id": "C18", "title": "next_ranged stays below its bound", "statement": "next_ranged(g, n) < n for n > 0, returns 0 for n = 0, advances the generator by exactly one step, and is monotone in the underlying 32-bit draw with every value below n reachable.", "quantifier": "every generator state and every 32-bit n", "why_tests_cant": "2^96 combinations.", "anchors": ["lib/h/ce/ce.h: random::next_ranged"]}
{"id": "C19", "title": "next_unbiased is uniform", "statement": "over a uniformly distributed stream of 32-bit draws, next_unbiased(g, n) returns each value in [0, n) with exactly the same probability.", "quantifier": "every n > 0 and every draw", "why_tests_cant": "uniformity over 2^32 draws for every n.", "anchors": ["lib/h/ce/ce.h: random::next_unbiased"]}
{"id": "C20", "title": "Seeding never leaves a generator stuck", "statement": "after seed(g, size, data) the generator state is not the all-zero state from which xoroshiro produces zeros forever.", "quantifier": "every seed byte string of every length", "why_tests_cant": "unbounded seeds.", "anchors": ["lib/h/ce/ce.h: seed(xoroshiro64ss&), seed(xoroshiro128pp&), seed(pcg32_64_t&)"]}
{"id": "C21", "title": "insertion_sort sorts, permutes and is stable", "statement": "insertion_sort(a, b) rearranges [a, b) into non-descending order, keeps the multiset of elements, keeps equivalent elements in their original order, and touches only [a, b).", "quantifier": "every array length and content, every element type with a strict weak order <", "why_tests_cant": "unbounded lengths and arbitrary orders.", "anchors": ["lib/h/ce/sort.h: insertion_sort"]}
{"id": "C22", "title": "intro_sort sorts and permutes", "statement": "intro_sort<N>(a, b) terminates, touches only [a, b) and leaves it sorted and a permutation of the input.", "quantifier": "every array, every cutoff N >= 1, every strict weak order", "why_tests_cant": "unbounded lengths, every pivot pattern.", "anchors": ["lib/h/ce/sort.h: intro_sort, partition, median"]}
{"id": "C23", "title": "intro_sort recursion depth is logarithmic", "statement": "the recursion depth of intro_sort is bounded by O(log n) as its name (introspective sort) promises.", "quantifier": "every array", "why_tests_cant": "worst-case inputs are adversarial.", "anchors": ["lib/h/ce/sort.h: intro_sort"]}
{"id": "C24", "title": "lower_bound / upper_bound find the partition points", "statement": "on a sorted range lower_bound returns the first position whose element is not less than k and upper_bound the first whose element is greater than k; on any range both stay inside [a, b] and only read inside [a, b).", "quantifier": "every range and key, every strict weak order", "why_tests_cant": "unbounded lengths.", "anchors": ["lib/h/ce/sort.h: lower_bound, upper_bound", "lib/h/ce/zorder.h: z_lower_bound"]}
{"id": "C25", "title": "min_priority_queue dequeues a minimum", "statement": "after any history of enqueue/dequeue, the queue contents are the multiset enqueued minus dequeued, head() and dequeue() give a minimal element, enqueue fails exactly when N elements are held (and then changes nothing), and only data[0..N) is touched.", "quantifier": "every operation history, every capacity, every total preorder", "why_tests_cant": "histories are unbounded.", "anchors": ["lib/h/ce/ce.h: heap_raise, heap_lower, min_priority_queue"]}
{"id": "C26", "title": "bitset is an array of independent bits", "statement": "after any history of set/reset operations, bitset[i] is the value last stored for index i, and no operation on index i changes any other index; set()/reset() store every index.", "quantifier": "every size N, every operation history, every index", "why_tests_cant": "histories and sizes are unbounded.", "anchors": ["lib/h/ce/ce.h: bitset"]}
{"id": "C27", "title": "bulk behaves like a bounded sequence", "statement": "after any history of append, append_n, resize, remove_at (ordered and unordered), clear, copy construction and assignment, the elements are those of the obvious list, operations fail exactly when the capacity or index bound is exceeded, and a failed operation changes nothing.", "quantifier": "every capacity and every operation history", "why_tests_cant": "histories are unbounded.", "anchors": ["lib/h/ce/ce.h: bulk, assign_items, construct_at, destroy_at"]}
{"id": "C28", "title": "bulk constructs and destroys each element exactly once", "statement": "in any history, every slot below size holds a live object and every slot at or above size holds none; no operation constructs over a live object, destroys or reads a dead one; after the destructor every constructed object has been destroyed.", "quantifier": "every capacity and operation history for element types with non-trivial constructor and destructor", "why_tests_cant": "histories are unbounded; the state is not observable from tests without instrumentation.", "anchors": ["lib/h/ce/ce.h: bulk, construct_at, destroy_at, construct_copy, is_constructible_with"]}
{"id": "C29", "title": "Copying a bulk constructs before it assigns", "statement": "copying a bulk never assigns to a slot that holds no live object.", "quantifier": "every element type (copyable), sizes of source and destination", "why_tests_cant": "depends on type traits evaluated at compile time; undefined behaviour is silent.", "anchors": ["lib/h/ce/ce.h: construct_copy, is_constructible_with, assign_items"]}
{"id": "C30", "title": "pool queues are independent FIFO queues", "statement": "after any history of append_tail, insert_head, remove_head, queue reset and pool reset (with all queues empty) on any number of queues sharing one pool, each queue holds the items of the obvious double-ended list, head()/tail() show its ends, and operations on one queue never disturb another.", "quantifier": "every number of queues, every capacity, every interleaved operation history", "why_tests_cant": "histories are unbounded; aliasing bugs need particular orders of frees and allocations.", "anchors": ["lib/h/ce/pool.h: pool, queue_t, append_tail, insert_head, remove_head, head, tail, is_empty"]}
{"id": "C31", "title": "pool allocation never hands out a node twice and only fails when full", "statement": "alloc_index returns a non-zero index below N that is neither allocated nor linked in a queue, and returns 0 exactly when all N-1 nodes are in use; free_index makes exactly that node available again. Resetting a queue keeps its nodes in use until the pool is reset.", "quantifier": "every history of allocations, frees and queue operations", "why_tests_cant": "histories are unbounded.", "anchors": ["lib/h/ce/pool.h: alloc_index, free_index, reset"]}
{"id": "C32", "title": "dictionary is a map", "statement": "after any history of bind, find(n) is non-nil exactly for the bound names and refers to the most recently bound value; rebinding a name reuses its entry.", "quantifier": "every history of bind/find over every key type and value type", "why_tests_cant": "histories are unbounded.", "anchors": ["lib/h/ce/dictionary.h: dictionary, find, bind, operator[]"]}
{"id": "C33", "title": "dictionary handles are stable and capacity is exactly N-1", "statement": "a handle returned by bind keeps referring to the same name's value for ever, distinct names have distinct handles, bind returns nil exactly when N-1 names are bound and the name is new, and no access leaves the arrays.", "quantifier": "every history, every capacity", "why_tests_cant": "histories are unbounded.", "anchors": ["lib/h/ce/dictionary.h: bind, find"]}
{"id": "C34", "title": "dictionary heap search is correct", "statement": "when names[1..heap) is laid out as an implicit search tree, the heap scan of find returns the entry of n if and only if n is in the tree.", "quantifier": "every tree size, every key", "why_tests_cant": "unbounded trees.", "anchors": ["lib/h/ce/dictionary.h: find"]}
{"id": "C35", "title": "lziii decode expands every well-formed stream", "statement": "for every token sequence (literals and back references into already produced data), decode(size(enc), dst, enc) of its encoding equals the expansion of the tokens, including overlapping back references.", "quantifier": "every well-formed token sequence of every length", "why_tests_cant": "unbounded sequences.", "anchors": ["lib/h/ce/lziii.h: size, decode"]}
{"id": "C36", "title": "lziii size is exact and decode is memory safe for well-formed streams", "statement": "size(enc) equals the number of bytes decode produces; decode reads only enc and writes exactly size(enc) bytes, each before it is read.", "quantifier": "every well-formed stream", "why_tests_cant": "unbounded streams.", "anchors": ["lib/h/ce/lziii.h: size, decode"]}
{"id": "C37", "title": "lziii is memory safe on arbitrary input", "statement": "decoding arbitrary bytes never reads or writes outside the source and destination arrays.", "quantifier": "every byte string", "why_tests_cant": "adversarial inputs.", "anchors": ["lib/h/ce/lziii.h: size, decode"]}
{"id": "C38", "title": "Log key splitting", "statement": "names<N, COUNT> splits the stringized argument list at its top level commas (outside brackets and quotes), trims blanks around every key, and never writes outside its text buffer; every key is NUL terminated.", "quantifier": "every argument text and every COUNT", "why_tests_cant": "unbounded texts.", "anchors": ["lib/h/ce/ce.h: names"]}
{"id": "C39", "title": "Reflected member names", "statement": "names_t<N, COUNT> gives each member its own NUL-terminated name equal to the text between the commas with blanks removed, inside its buffer.", "quantifier": "every list of COUNT identifiers with arbitrary blanks", "why_tests_cant": "unbounded texts.", "anchors": ["lib/h/ce/io.h: names_t"]}
{"id": "C40", "title": "clock never drifts", "statement": "however often and at whatever times it is polled, the tick count after the last poll is exactly floor(elapsed * Fn / (frequency * Fd)) where elapsed is the time since reset, and the values returned by elapsed() add up to it.", "quantifier": "every polling schedule, every frequency and rate for which the 64-bit intermediates do not overflow", "why_tests_cant": "schedules are unbounded.", "anchors": ["lib/h/ce/clock.h: clock::reset, elapsed, current"]}
{"id": "C41", "title": "clock arithmetic does not overflow in normal use", "statement": "the 64-bit intermediate values of clock::elapsed never wrap when frequency*Fd*(Fn+1) < 2^64 and the total tick count fits 64 bits; a frequency of 0 divides by zero.", "quantifier": "every polling schedule", "why_tests_cant": "schedules are unbounded.", "anchors": ["lib/h/ce/clock.h: clock::elapsed"]}
{"id": "C42", "title": "ab_less_cd compares 128-bit products exactly", "statement": "ab_less_cd(a,b,c,d) is a*b < c*d over the integers, for both the __int128 and the MSVC high/low implementation.", "quantifier": "all 2^256 argument combinations", "why_tests_cant": "too many combinations; carries between the halves matter on rare inputs.", "anchors": ["lib/h/ce/math.h: ab_less_cd"]}
{"id": "C43", "title": "inside is a tie-free orientation test", "statement": "inside(a,a) is false; for a != b exactly one of inside(a,b), inside(b,a) is true; and inside(a,b) is the sign of the cross product after displacing both by the same arbitrarily small (e, e^2-style) perturbation.", "quantifier": "all pairs of vectors whose products do not overflow", "why_tests_cant": "2^128 pairs.", "anchors": ["lib/h/ce/math.h: inside"]}
{"id": "C44", "title": "Every point is inside exactly one triangle of a mesh", "statement": "for a triangle mesh (clockwise, non-degenerate triangles, interior edges shared by two triangles in opposite directions), the number of triangles for which inside(a-p,b-p) && inside(b-p,c-p) && inside(c-p,a-p) equals the winding number of the mesh boundary around p; in particular it is exactly one for points in a mesh whose boundary winds once around them, even on edges and vertices.", "quantifier": "every mesh and every point", "why_tests_cant": "meshes are unbounded.", "anchors": ["lib/h/ce/math.h: inside", "lib/h/ce/cdt.h: locate"]}
{"id": "C45", "title": "Range tests are exact distance comparisons", "statement": "in_range_rr, in_range_rr_line, in_range_rr_ray and in_range_rr_segment return true exactly when some point of the disc centre / line / ray / segment is closer to p than sqrt(rr).", "quantifier": "all coordinates within the documented non-overflow range", "why_tests_cant": "quintuples of 32/64 bit numbers.", "anchors": ["lib/h/ce/math.h: in_range_rr, in_range_rr_line, in_range_rr_ray, in_range_rr_segment"]}
{"id": "C46", "title": "in_range_rr_edge requires the projection to lie on the edge", "statement": "in_range_rr_edge(p, rr, d) is true exactly when the projection of p lies on the edge from 0 to d and the distance of p to the edge's line is below sqrt(rr).", "quantifier": "all coordinates", "why_tests_cant": "quintuples of 32/64 bit numbers.", "anchors": ["lib/h/ce/math.h: in_range_rr_edge, ball_hits_edge"]}
{"id": "C47", "title": "Expanded products are exact", "statement": "sqrx, dotx and crossx on 32-bit scalars, vec2 and vec3 return the exact mathematical value; the only inputs for which 64-bit signed overflow (undefined) can occur are characterised.", "quantifier": "all 32-bit vectors", "why_tests_cant": "2^64 .. 2^192 inputs.", "anchors": ["lib/h/ce/ce.h: sqrx, dotx, crossx"]}
{"id": "C48", "title": "vec arithmetic is component-wise and lawful", "statement": "+ - * / == != on vec2/vec3 act component-wise; compound assignments equal the plain operators.", "quantifier": "all vectors", "why_tests_cant": "all values.", "anchors": ["lib/h/ce/ce.h: operator+ - * / == != on vec2, vec3"]}
{"id": "C49", "title": "intersect returns the intersection point", "statement": "intersect(p0,p1,q0,q1,r) returns false exactly for parallel lines and otherwise r is the intersection point of the lines up to rounding.", "quantifier": "all quadruples of points without overflow", "why_tests_cant": "2^256 inputs.", "anchors": ["lib/h/ce/math.h: intersect, muldiv"]}
{"id": "C50", "title": "in_polygon is the winding number", "statement": "in_polygon_xy(x,y,n,ps) is the signed number of times the closed polygon winds round the point: it does not depend on the starting vertex, changes sign with orientation, is additive when a polygon is cut along a chord, and for a triangle is non-zero exactly for points inside.", "quantifier": "every polygon of every size and every point", "why_tests_cant": "unbounded polygons.", "anchors": ["lib/h/ce/ce.h: in_polygon_xy, in_polygon"]}
{"id": "C51", "title": "degrees_to_angle is exact", "statement": "degrees_to_angle(45*k) is k * angle::_45, the result is odd, monotone, and rounds toward zero, for all degrees in (-360, 360); outside it wraps modulo the 32-bit conversion.", "quantifier": "every int32 degree value", "why_tests_cant": "2^32 values.", "anchors": ["lib/h/ce/math.h: degrees_to_angle, angle"]}
{"id": "C52", "title": "cordic rotate is accurate", "statement": "to_cartesian(r, t) is within a fixed small error of (r cos(2 pi t), r sin(2 pi t)) for every angle and radius without overflow, and quarter turns are exact symmetries.", "quantifier": "every radius and angle", "why_tests_cant": "2^64 inputs.", "anchors": ["lib/h/ce/math.h: detail::cordic_n::rotate, to_cartesian, cos_2pi, sin_2pi"]}
{"id": "C53", "title": "isqrt of a perfect square is its root", "statement": "isqrt(x*x) = |x| for every 32-bit x other than INT_MIN, given IEEE-754 correctly rounded conversion and square root.", "quantifier": "every int32", "why_tests_cant": "needs all values and a floating point argument.", "anchors": ["lib/h/ce/math.h: isqrt, hypot"]}
{"id": "C54", "title": "z_encode is an order preserving bijection per axis", "statement": "z_encode interleaves the offset-binary coordinates; it is injective, and increasing in each coordinate when the other is fixed; masked comparisons of codes compare coordinates (z_inside is exactly the rectangle test).", "quantifier": "all pairs of 32-bit points and rectangles", "why_tests_cant": "2^64 points.", "anchors": ["lib/h/ce/zorder.h: z_expand, z_encode, z_inside"]}
{"id": "C55", "title": "z_query finds every point of the rectangle", "statement": "z_query over a sorted array outputs, in order and without duplicates, a subsequence of the data that contains every element inside the rectangle.", "quantifier": "every sorted array and every rectangle", "why_tests_cant": "unbounded arrays.", "anchors": ["lib/h/ce/zorder.h: z_query, z_split, z_lower_bound"]}
{"id": "C56", "title": "z_query returns only points of the rectangle", "statement": "every element z_query outputs is inside the query rectangle (at its cell granularity).", "quantifier": "every sorted array and rectangle", "why_tests_cant": "unbounded arrays.", "anchors": ["lib/h/ce/zorder.h: z_query, z_split"]}
{"id": "C57", "title": "z_query does not overflow its span stack", "statement": "z_query never pushes more than the 32 spans its local array holds.", "quantifier": "every sorted array and rectangle", "why_tests_cant": "needs adversarial rectangles.", "anchors": ["lib/h/ce/zorder.h: z_query"]}
{"id": "C58", "title": "z_split cuts the box into its two halves", "statement": "z_split(lo,hi) yields jo, ji such that the boxes [lo,jo] and [ji,hi] partition the rectangle [lo,hi], every point of the first precedes every point of the second in z order, and jo / ji are the largest / smallest codes of the halves.", "quantifier": "every rectangle", "why_tests_cant": "2^128 rectangles.", "anchors": ["lib/h/ce/zorder.h: z_split"]}
{"id": "C59", "title": "atomic_fetch_add / sub loops are linearizable", "statement": "for any number of threads running the compare-exchange polyfill of atomic_fetch_add / atomic_fetch_sub (std and MSVC variants) under any schedule with any spurious failures, each completed call takes effect exactly once, atomically, and returns the value just before its effect.", "quantifier": "every number of threads, every schedule, every pattern of spurious failures", "why_tests_cant": "schedules are unbounded.", "anchors": ["lib/h/ce/atomic_std.h: atomic_fetch_add, atomic_fetch_sub", "lib/h/ce/atomic_msvc_x86.h: atomic_fetch_add, atomic_fetch_sub"]}
{"id": "C60", "title": "scope_spin_lock excludes", "statement": "under every schedule at most one thread is inside the critical section guarded by one spin lock slot, and a release makes the slot free.", "quantifier": "every number of threads and every schedule", "why_tests_cant": "schedules are unbounded.", "anchors": ["lib/h/ce/atomic_msvc_x86.h: detail::scope_spin_lock"]}
{"id": "C61", "title": "MSVC atomics on small structs do not tear", "statement": "atomic_load of an atomic struct of 8 bytes returns a value that some atomic_store / initialisation stored.", "quantifier": "every schedule", "why_tests_cant": "depends on interleavings.", "anchors": ["lib/h/ce/atomic_msvc_x86.h: atomic_load, atomic_store"]}
{"id": "C62", "title": "mutex wrappers exclude", "statement": "with clients that release only what they hold, at every point of every schedule a thread_mutex has at most one holder and a thread_shared_mutex has either one exclusive holder and no shared holders or any number of shared holders.", "quantifier": "every number of threads and every schedule", "why_tests_cant": "schedules are unbounded.", "anchors": ["lib/mutex_std.cpp", "lib/h/ce/mutex.h"]}
{"id": "C63", "title": "nameof / as_enum round trip", "statement": "as_enum(nameof(v)) = v for every named enumerator with value in [0,256); nameof gives '???' for every unnamed or out-of-range value; as_enum of a text that is no enumerator name gives the supplied default.", "quantifier": "every enumeration (table of names), every value and every text", "why_tests_cant": "every enumeration and every text.", "anchors": ["lib/h/ce/nameof.h: nameof, as_enum, same, skip"]}
{"id": "C64", "title": "io reflection events are well bracketed and lossless", "statement": "for every reflected type and value the event sequence produced by io::item is properly nested and determines the value.", "quantifier": "every type description and value", "why_tests_cant": "types and values are unbounded trees.", "anchors": ["lib/h/ce/io.h: io::item, io::items, reflection, CE_IO_BIND, CE_IO_AS"]}
{"id": "C65", "title": "Log record format", "statement": "os::log emits exactly '<L>: { \"k\": \"v\", ... }' and a newline, with the level letter clamped to the table and the pairs in order; that is one line if no text has a newline, and can be read back if no text has a quote.", "quantifier": "every level, every list of pairs", "why_tests_cant": "unbounded argument lists.", "anchors": ["lib/os.cpp: log"]}
{"id": "C66", "title": "Check macros return their test and report exactly on failure", "statement": "CE_VERIFY(t) and CE_REJECT(t) evaluate t once and have value t; the error hook runs exactly when VERIFY/ASSERT is false or REJECT is true, with kind, text, file and argument names split correctly from the packed info string; the program breaks exactly when the hook asks for it.", "quantifier": "every test outcome, every hook result, every info text", "why_tests_cant": "texts are unbounded; macro precedence errors hide in combinations.", "anchors": ["lib/h/ce/ce.h: CE_AFFIRM, CE_ASSERT, CE_VERIFY, CE_REJECT, call_error_hook", "lib/os.cpp: error"]}
{"id": "C67", "title": "to_utf16 converts every valid UTF-8 text", "statement": "to_utf16 of the UTF-8 encoding of a sequence of Unicode scalar values writes its UTF-16 encoding, never more code units than source bytes, reading only the source.", "quantifier": "every sequence of scalar values", "why_tests_cant": "unbounded texts.", "anchors": ["lib/os_win32.cpp: to_utf16"]}
{"id": "C68", "title": "sequence_t<T, N> is 0, 1, ..., N-1 with logarithmic recursion", "statement": "the template recursion of sequence_t yields exactly the list 0..N-1 and its instantiation depth is at most 1 + log2(N) + 1.", "quantifier": "every N", "why_tests_cant": "every N.", "anchors": ["lib/h/ce/ce.h: detail::sequence, sequence_t"]}
{"id": "C69", "title": "Type list queries", "statement": "has_v<T, Us...> is membership, are_same_v<Ts...> is 'non-empty and all equal', select_t<N, Ts...> is the N-th type, count_leading_t counts the leading run.", "quantifier": "every type list", "why_tests_cant": "lists are unbounded.", "anchors": ["lib/h/ce/ce.h: has, are_same, select, detail::count_leading_t"]}
{"id": "C70", "title": "span skip / trim", "statement": "skip(s,n) is the span without its first min(n,size) elements, trim(s,n) without its last min(n,size); both stay inside s.", "quantifier": "every span and every size_t n", "why_tests_cant": "all sizes.", "anchors": ["lib/h/ce/ce.h: span, skip, trim"]}
{"id": "C71", "title": "cdt mesh links stay consistent", "statement": "after reset and any sequence of edge flips and point insertions every edge's twin's twin is the edge itself, twins agree on endpoints and constraint flags, and boundary edges stay constrained.", "quantifier": "every history of insertions and flips", "why_tests_cant": "histories are unbounded.", "anchors": ["lib/h/ce/cdt.h: reset, do_flip, insert_point_at_node, constrain_edge, validate_face"]}
{"id": "C72", "title": "cdt triangles stay clockwise and non-degenerate", "statement": "every face of the mesh has strictly negative cross product after any sequence of insertions, flips accepted by can_flip and flips accepted by incircle.", "quantifier": "every history", "why_tests_cant": "histories are unbounded.", "anchors": ["lib/h/ce/cdt.h: flip, can_flip, incircle, insert_point_at_node, validate_face"]}
{"id": "C73", "title": "cdt flip recursion terminates", "statement": "the recursive Delaunay flipping started by an insertion always terminates.", "quantifier": "every mesh reachable by insertions", "why_tests_cant": "cocircular and degenerate configurations.", "anchors": ["lib/h/ce/cdt.h: flip, do_flip, incircle"]}
{"id": "C74", "title": "cdt arithmetic does not overflow", "statement": "incircle on 16-bit coordinates never overflows 64-bit arithmetic.", "quantifier": "all 2^128 coordinate combinations", "why_tests_cant": "too many.", "anchors": ["lib/h/ce/cdt.h: incircle"]}
{"id": "C75", "title": "cdt locate returns a face containing the point", "statement": "if locate returns a non-zero node, the point is inside that face in the sense of inside(); in a consistent mesh that face is the only one.", "quantifier": "every mesh, point and hint", "why_tests_cant": "meshes are unbounded.", "anchors": ["lib/h/ce/cdt.h: locate"]}
{"id": "C76", "title": "cdt fill paints exactly the region", "statement": "fill(n, info) sets the info of exactly the faces reachable from n through unconstrained edges and faces not yet carrying info, and terminates within its explicit stack.", "quantifier": "every mesh", "why_tests_cant": "meshes are unbounded.", "anchors": ["lib/h/ce/cdt.h: fill, fill_ex"]}
{"id": "C77", "title": "to_polar is accurate", "statement": "to_polar(x, y) is within one unit of the length of (x, y) and within 0.66 + 27 / length units (2^-31 turns) of its angle, without overflow, for every nonzero vector shorter than 2^31.", "quantifier": "every vector", "why_tests_cant": "2^64 inputs and a real-number reference.", "anchors": ["lib/h/ce/math.h: cordic_n::vector", "lib/h/ce/math.h: to_polar"]}
{"id": "C78", "title": "insert_point inserts exactly the new points of the square", "statement": "insert_point(px, py, hint) returns a node exactly when the point is already a vertex or lies strictly inside the 16-bit square and there is room; it leaves the mesh untouched when it returns 0 or the point is a vertex, and otherwise appends exactly one vertex, at the point, and moves none; whatever the hint.", "quantifier": "every mesh that can be built, every point and every hint", "why_tests_cant": "All meshes and all positions of a point relative to them, including the outline, edges and vertices.", "anchors": ["lib/h/ce/cdt.h: insert_point", "lib/h/ce/cdt.h: insert_point_at_node"]}
{"id": "C79", "title": "the triangulation is Delaunay", "statement": "After any sequence of point insertions no vertex lies strictly inside the circumcircle of a face; with constraints, every unconstrained edge is locally Delaunay.", "quantifier": "every sequence of operations", "why_tests_cant": "Local in-circle tests imply the global property by a geometric argument over all meshes; a test sees one mesh.", "anchors": ["lib/h/ce/cdt.h: flip", "lib/h/ce/cdt.h: incircle", "lib/h/ce/cdt.h: insert_point"]}
{"id": "C80", "title": "the walk to a point ends", "statement": "locate and insert_point return, from any hint to any point, after a number of steps bounded by the size of the mesh.", "quantifier": "every mesh that can be built, every point and every hint", "why_tests_cant": "Termination of a walk over all triangulations; a test cannot tell a long walk from an endless one.", "anchors": ["lib/h/ce/cdt.h: locate_insertion_node", "lib/h/ce/cdt.h: locate", "lib/h/ce/cdt.h: insert_point"]}
{"id": "C81", "title": "the faces tile the square", "statement": "The faces of a mesh never overlap, leave no gaps in the square, and no vertex lies inside or on a face without being one of its corners; vertices are distinct and each is used by a face.", "quantifier": "every sequence of operations, every point of the plane", "why_tests_cant": "A statement about all rational points and all meshes; it needs a covering-number argument.", "anchors": ["lib/h/ce/cdt.h: insert_point", "lib/h/ce/cdt.h: insert_edge", "lib/h/ce/cdt.h: flip"]}
{"id": "C82", "title": "a constrained segment stays", "statement": "After constrain_edge the segment between the ends of the edge consists of constrained edges of the triangulation, and it still does after any sequence of later insertions, constraints, flips and fills: it can be divided by vertices on it but no part of it disappears or moves.", "quantifier": "every mesh that can be built, every edge, every later history short of reset", "why_tests_cant": "All later histories; a flip or a split anywhere could lose the mark of one of the two halves of an edge.", "anchors": ["lib/h/ce/cdt.h: constrain_edge", "lib/h/ce/cdt.h: insert_point_at_node", "lib/h/ce/cdt.h: flip", "lib/h/ce/cdt.h: insert_edge"]}
{"id": "C83", "title": "insert_edge puts the segment into the triangulation", "statement": "insert_edge(p, q) returns true when both ends are in the square and there is room, and then the segment from p to q consists of constrained edges, whatever is done later.", "quantifier": "every mesh that can be built, all ends and hints, every later history", "why_tests_cant": "All meshes and all crossings of the segment with edges and constraints.", "anchors": ["lib/h/ce/cdt.h: insert_edge", "lib/h/ce/cdt.h: split_constraint"]}
{"id": "C84", "title": "edges() and faces() enumerate the triangulation", "statement": "A loop over edges() visits each edge of each face once and ends, a loop over faces() each face once; the values are the corners in user coordinates with their constraint flags, twins and information; of the one or two visits to an edge exactly one is marked primary; there are 2n-6 faces and 3n-7 primary edges for n vertices; before reset there is nothing.", "quantifier": "every mesh that can be built, every scale Q up to 16", "why_tests_cant": "All meshes: that primary marks each segment once needs that no two faces share a directed edge, a geometric fact about every mesh.", "anchors": ["lib/h/ce/cdt.h: edges", "lib/h/ce/cdt.h: faces", "lib/h/ce/cdt.h: operator[]", "lib/h/ce/cdt.h: edge_vert_a"]}
{"id": "C85", "title": "the packed storage holds every mesh", "statement": "Edges, faces and vertices share one array of 16-bit words in which constraint flags take 3 bits, vertex numbers 13 and edge numbers 16. A write of any field leaves all other fields as they are, and every mesh that can be built with c_limit vertices fits: no number is truncated, no access is outside of the array.", "quantifier": "every sequence of operations with every N, all fields", "why_tests_cant": "All meshes up to 8192 vertices and all pairs of fields.", "anchors": ["lib/h/ce/cdt.h: edge_data", "lib/h/ce/cdt.h: vert_data", "lib/h/ce/cdt.h: face_data", "lib/h/ce/cdt.h: c_limit"]}
{"id": "C86", "title": "insert_point and insert_edge with user coordinates", "statement": "insert_point(p) puts p on the even grid point below it: it returns true exactly when there is a vertex there, or there is room and both coordinates are from -32766*2^Q up to below 32768*2^Q, and then a vertex lies less than two grid steps below p; it changes nothing when it returns false and never moves a vertex. insert_edge(p, q) that returns true leaves a constrained way between the grid points of p and q.", "quantifier": "every mesh that can be built, all 32-bit coordinates, every Q", "why_tests_cant": "All coordinates, negative ones rounding down; all meshes.", "anchors": ["lib/h/ce/cdt.h: insert_point", "lib/h/ce/cdt.h: insert_edge"]}
{"id": "C87", "title": "sleep_ns waits at least its time, timestamps are nanoseconds", "statement": "sleep_ns(ns) returns after at least ns nanoseconds. monotonic_timestamp never decreases and the difference of two timestamps divided by monotonic_frequency is the time between them.", "quantifier": "all 64-bit times, all readings of the clock", "why_tests_cant": "Corner values such as durations beyond 49 days cannot be waited for in a test.", "anchors": ["lib/os_posix.cpp: sleep_ns", "lib/os_win32.cpp: sleep_ns", "lib/os_posix.cpp: monotonic_timestamp"]}
{"id": "C88", "title": "map_span shows the file and leaks nothing", "statement": "map_span(span, path) either returns false, with an empty span and nothing mapped, or returns true and the span shows the whole file; whatever system calls fail, no handle stays open; unmap_span undoes it.", "quantifier": "every pattern of failing system calls, every state of the process, every file", "why_tests_cant": "Failures of system calls cannot be provoked systematically.", "anchors": ["lib/os_win32.cpp: map_span", "lib/os_win32.cpp: unmap_span", "lib/os_win32.cpp: open_file", "lib/os_win32.cpp: close_file"]}
{"id": "C89", "title": "The MSVC atomics pick one way of exclusion per type and do the arithmetic of the type", "statement": "With MSVC, all operations on one atomic either take the spin lock or none does; atomic_compare_exchange works for every type; atomic_fetch_add and atomic_fetch_sub compute what += and -= of the type compute.", "quantifier": "every type, described by its size and by which operators it has; every width, every operand", "why_tests_cant": "the choice is made by templates for types that do not exist yet; tests instantiate a handful of them and hardly ever interleave.", "anchors": ["lib/h/ce/atomic_msvc_x86.h: detail::info", "lib/h/ce/atomic_msvc_x86.h: atomic_load", "lib/h/ce/atomic_msvc_x86.h: atomic_compare_exchange", "lib/h/ce/atomic_msvc_x86.h: atomic_fetch_add", "lib/h/ce/atomic_msvc_x86.h: atomic_fetch_sub"]}
{"id": "C90", "title": "Atomic operations have one order, and publish what was written before", "statement": "All operations on all atomics of native types (plain loads and compare-exchange loops included) take effect in one order, each between its call and its return, and compare-exchange reports truthfully. If a thread writes a variable and then performs an atomic operation other than a load, nobody sees an older value of the variable after that operation took effect.", "quantifier": "any number of threads, atomics, variables, any interleaving, any delay of stores in store buffers (x86-TSO)", "why_tests_cant": "store buffers delay rarely and unpredictably.", "anchors": ["lib/h/ce/atomic_msvc_x86.h: atomic_load", "lib/h/ce/atomic_msvc_x86.h: atomic_store", "lib/h/ce/atomic_msvc_x86.h: atomic_compare_exchange"]}
{"id": "C91", "title": "Compare-exchange loops are lock-free", "statement": "In any execution a thread repeats rounds of atomic_fetch_add or atomic_fetch_sub at most as often as operations of other threads take effect, so some thread always makes progress.", "quantifier": "any number of threads, any interleaving", "why_tests_cant": "progress concerns all schedules, also those that a test machine never produces.", "anchors": ["lib/h/ce/atomic_msvc_x86.h: atomic_fetch_add", "lib/h/ce/atomic_msvc_x86.h: atomic_fetch_sub"]}
{"id": "C92", "title": "Waiting for the spin lock ends", "statement": "Operations on atomics that take the spin lock do not deadlock: as long as one of them waits, sooner or later one takes effect, and if only finitely many are called, all of them return. (A single call may still be overtaken for ever by others.)", "quantifier": "any number of threads, atomics sharing one slot, infinite executions that are weakly fair to threads and to store buffers (x86-TSO)", "why_tests_cant": "liveness concerns infinite executions; a test that runs into a deadlock once in a billion schedules reports success.", "anchors": ["lib/h/ce/atomic_msvc_x86.h: detail::scope_spin_lock", "lib/h/ce/atomic_msvc_x86.h: atomic_load", "lib/h/ce/atomic_msvc_x86.h: atomic_store"]}
{"id": "C93", "title": "open_file asks for the file that was named (Windows)", "statement": "open_file(path) passes the system the UTF-16 text of the UTF-8 path, terminated and within the buffer it allocates, whatever the stack held before and whatever follows the path in memory; different paths name different files.", "quantifier": "every sequence of Unicode scalar values other than 0, every content of stack and memory; for the bound of the buffer every byte string", "why_tests_cant": "paths in all scripts and all lengths; what the stack holds is not under the control of a test.", "anchors": ["lib/os_win32.cpp: open_file", "lib/os_win32.cpp: as_span", "lib/os_win32.cpp: CE_TO_UTF16", "lib/os_win32.cpp: to_utf16"]}
{"id": "C94", "title": "Type transformations remove what they say and nothing else", "statement": "remove_const, remove_volatile and remove_cv remove exactly these top-level qualifiers (for arrays those of the elements); remove_reference and remove_pointer give the type referred or pointed to; remove_cvref leaves neither reference nor qualifier and is idempotent; is_ptr holds exactly for pointers, qualified or not, and references to them.", "quantifier": "all types built from scalar and class types, pointers, references, arrays and functions, of any depth and qualification", "why_tests_cant": "there are infinitely many types; tests instantiate a few.", "anchors": ["lib/h/ce/ce.h: remove_reference", "lib/h/ce/ce.h: remove_cv", "lib/h/ce/ce.h: remove_cvref", "lib/h/ce/ce.h: remove_pointer", "lib/h/ce/ce.h: is_ptr"]}
{"id": "C95", "title": "as_string with vectors stays in its array and shows the components", "statement": "as_string{args...} with vec arguments is written without leaving its array, ends with a NUL and holds the concatenated texts, a vec being shown as its components in brackets.", "quantifier": "any number of arguments, any components", "why_tests_cant": "the room left depends on the lengths of all texts.", "anchors": ["lib/h/ce/ce.h: as_string", "lib/h/ce/ce.h: to_text_n", "lib/h/ce/ce.h: measure", "lib/h/ce/ce.h: mat"]}
{"id": "C96", "title": "Inserting points and edges does not overflow (apart from incircle)", "statement": "insert_point and insert_edge on user coordinates never overflow signed arithmetic in the walk to the point, the face tests, the flip tests, the cross products, the crossings with constraints and the recursive calls, for every 32-bit coordinate, every scale and whatever the mesh contains. The overloads for int64_t coordinates accept at most 3036967731 in absolute value.", "quantifier": "all meshes with 16-bit coordinates, all points and segments with 32-bit coordinates, all scales, all histories of flips and splits", "why_tests_cant": "overflow depends on the combination of far points and mesh contents; sanitizers only see the inputs that were run.", "anchors": ["lib/h/ce/cdt.h: insert_point, insert_edge, locate_insertion_node, insert_point_at_node, split_constraint, intersect_edges, can_flip"]}
{"id": "C97", "title": "crc32c detects every error of up to three bits and every odd number of wrong bits", "statement": "Two messages of the same length that differ in an odd number of bits have different CRC-32C; messages of at most 2^31-1 bits that differ in one, two or three bits have different CRC-32C; two wrong bits go unnoticed exactly when their distance is a multiple of 2^31-1.", "quantifier": "every starting value, every pair of messages of the same length and every set of error positions", "why_tests_cant": "There are 2^61 pairs of positions in a message of 2^31 bits, times all contents; that the two-bit bound is 2^31-1 is a fact about the order of x modulo the polynomial, not about samples.", "anchors": ["lib/h/ce/ce.h: crc32", "lib/h/ce/ce.h: crc32c_t"]}
{"id": "C98", "title": "Over one period the generators give every number equally often", "statement": "In a full period, from any start, next(pcg32_64_t) gives every 32-bit number exactly 2^32 times; next(xoroshiro64ss) every 32-bit number 2^32 times (0 once less), next(xoroshiro128pp) every 64-bit number 2^64 times (0 once less); next64(xoroshiro64ss) gives every 64-bit number except 0 exactly once and never 0; next_ranged(pcg, n) gives every number below n between floor(2^32/n) and floor(2^32/n)+1 times 2^32.", "quantifier": "every starting state (other than all zeros for xoroshiro), every output value, every range n", "why_tests_cant": "A period has 2^64 or 2^128 calls; statistics of samples only show what is not grossly wrong.", "anchors": ["lib/h/ce/ce.h: random::xoroshiro64ss", "lib/h/ce/ce.h: random::xoroshiro128pp", "lib/h/ce/ce.h: random::pcg32_64_t", "lib/h/ce/ce.h: random::next_ranged"]}
{"id": "C99", "title": "The algorithms compare as seldom as their names promise", "statement": "lower_bound and upper_bound in n elements call operator< at most floor(log2 n) + 1 times; insertion_sort calls it at most n(n-1)/2 times, and n-1 times on sorted input; enqueue into a priority queue of n elements calls it at most floor(log2(n+1)) times and dequeue at most 2 floor(log2(n-1)) times; intro_sort calls it O(n log n) times.", "quantifier": "for every element type, operator<, range, content and cutoff N >= 1", "why_tests_cant": "a test measures some inputs; a bound on the number of comparisons is about all inputs of all lengths", "anchors": ["lib/h/ce/sort.h:30-144", "lib/h/ce/ce.h:1419-1477"]}
{"id": "C100", "title": "A rectangle query between two points, filtered by z_inside, is exact", "statement": "For data sorted by z_encode and int32 points (x0,y0) <= (x1,y1): filtering the output of z_query(z_encode(x0,y0), z_encode(x1,y1)) by z_inside leaves exactly the stored points with x0<=x<=x1 and y0<=y<=y1, with multiplicity and in stored order; the query returns for rectangles of up to 2^kx by 2^ky cells with kx+ky<=32.", "quantifier": "every sorted array of codes of int32 points, every rectangle", "why_tests_cant": "depends on every alignment of two 64-bit corners to the cells and on the contents of the array; the wrap at the last cell and the stack bound are met only by particular rectangles.", "anchors": ["lib/h/ce/zorder.h: z_query, z_encode, z_inside"]}
{"id": "C101", "title": "refine says where a point lies relative to a face; collinear decides collinearity", "statement": "For a face of any mesh made by the operations and a point with coordinates up to 2^30: refine(x,y,n) is n+3 when the point is strictly inside the face, n+j when it is strictly on the inner side of the other two edges and on or beyond edge j, and 0 otherwise, without overflow. collinear is true exactly when the three points lie on one line.", "quantifier": "every reachable mesh, face and point; every triple of points with coordinates up to 2^30", "why_tests_cant": "a sign error shows only for points near particular edges.", "anchors": ["lib/h/ce/cdt.h: refine, on, collinear"]}
{"id": "C102", "title": "rotl32 rotates for every amount", "statement": "rotl32(x, i) is x rotated left by i modulo 32, for every int i.", "quantifier": "every x and i", "why_tests_cant": "the case i = 0 works on most hardware.", "anchors": ["lib/h/ce/ce.h: rotl32, CE_ROTL32"]}
{"id": "C103", "title": "get<N>(t) returns member N of a structure of up to four members", "statement": "For an aggregate t of one to four members and N below their number, get<N>(t) compiles and returns member N.", "quantifier": "every aggregate of up to four members and every N", "why_tests_cant": "nothing in the library or its tests instantiates get.", "anchors": ["lib/h/ce/ce.h: get, detail::crack, detail::arrity_count"]}
{"id": "C104", "title": "The macros for checks and logging expand to the intended code", "statement": "For every test that is one macro argument and every further arguments, without macros of the program in them, CE_ASSERT, CE_VERIFY, CE_REJECT and CE_ERROR expand to the expression that evaluates the test once and, if checks are on, reports kind, text of the test, file, line, text of the arguments and the arguments, and with checks off to the bare test; CE_LOG and CE_LOG_MSG call the hook with the number of the level (7 for an unknown name), the names and the arguments once, or with logging off only count the arguments in an unevaluated operand; CE_PP_GET_k and CE_PP_MAP pick and map arguments. The text of a test is not always as written: macros in it are expanded first, and a comma outside parentheses ends it.", "quantifier": "all tests, arguments, level names, file names and lines; both settings of CE_ERROR_LEVEL and CE_LOG_LEVEL", "why_tests_cant": "The expansions run through up to ten nested macros that defer and suppress one another by hide sets; a test sees one argument list for one configuration, while a stray comma, an empty argument list, a parenthesised comma or an unknown level each take another path.", "anchors": ["lib/h/ce/ce.h:199-266", "lib/h/ce/ce.h:1172", "lib/h/ce/ce.h:1181-1195"]}
{"id": "C105", "title": "The text of a floating point number is complete and reads back as the number", "statement": "For every float and double (zeros, subnormal numbers, infinities and NaNs included), to_text writes the whole text of the number, never a cut one: at most 24 characters for a double and 15 for a float, within the 32 the library allows std::to_chars. Reading the text with correct rounding gives the number back, sign of zero included, and numbers that differ have texts that differ. as_string with such arguments, and vectors of them, writes the concatenated texts and a terminator inside its array, whose size is computed without looking at the numbers.", "quantifier": "all numbers of both formats, all implementations of std::to_chars that meet its contract, all argument lists", "why_tests_cant": "There are 2^64 doubles; the longest texts and the nearest neighbours are rare, and a limit that is one character short would only show for them.", "anchors": ["lib/to_text.cpp:28-31,49-50", "lib/h/ce/ce.h:989-998,1025-1066"]}
{"id": "C106", "title": "What several threads log arrives as whole lines", "statement": "Each call of os::log and os::error puts its line on the standard error stream in one piece, whatever other threads log at the same time and however many characters a write to the stream takes.", "quantifier": "all numbers of threads, all sequences of calls, all schedules", "why_tests_cant": "Mixed lines need two threads to log within microseconds of each other, and a short write needs a full pipe or a signal; a test sees neither.", "anchors": ["lib/os.cpp:31-79", "lib/os_posix.cpp:36-42"]}
{"id": "C107", "title": "normal gives a vector of length one in the same direction", "statement": "For every vec3<float> of finite numbers other than the null vector, ce::math::normal gives a vector of finite numbers whose length is one up to the stated accuracy and whose direction is that of the argument.", "quantifier": "all vectors of three numbers, all results of the reciprocal square root instruction that its manual allows, with and without contraction to fused operations", "why_tests_cant": "There are 2^96 arguments; the accuracy of the instruction differs between processors, and overflow and underflow of the sum of squares need vectors far from the usual ones.", "anchors": ["lib/h/ce/math.h:230-236", "lib/h/ce/math.h:250-256"]}
{"id": "C108", "title": "Different seeds give different generators", "statement": "Seeding xoroshiro64ss, xoroshiro128pp or pcg32_64_t with byte strings of the same length that differ in one byte, or pcg32_64_t with different numbers, gives generators whose states never agree after the same number of steps; so do byte strings of the same length that differ only within a stretch of four bytes (xoroshiro64ss) or six bytes (the others), such as a number in a structure, while two seeds of seven bytes start pcg32_64_t in the same state. For xoroshiro64ss the same holds of any two different seeds of the same length up to eight bytes, every state has exactly one seed of eight bytes, and of any two consecutive results of such generators one differs.", "quantifier": "all seeds of all lengths, all positions and values of the byte, all numbers of steps", "why_tests_cant": "There are 2^64 seeds of eight bytes and no bound on the length of others; a collision is a matter of chance no test hits.", "anchors": ["lib/h/ce/ce.h:715-722", "lib/h/ce/ce.h:750-754", "lib/h/ce/ce.h:803-811"]}
{"id": "C109", "title": "The triangulation of a set of points does not depend on the order of insertion", "statement": "Fill two triangulations with the same set of points, in any orders, with repetitions, with any hints and any capacities, each insertion succeeding. If no circle without a point inside goes through four of the points (the corners of the square counted), the two have the same triangles: same corners, same orientation. Where faces of two triangulations of the same points overlap, their corners are always on one circle.", "quantifier": "every two capacities, every two sequences of points and hints with the same set of points", "why_tests_cant": "there are more orders and point sets than can be tried; a wrong flip shows up only for particular quadruples of points in a particular order", "anchors": ["lib/h/ce/cdt.h:insert_point", "lib/h/ce/cdt.h:flip", "lib/h/ce/cdt.h:reset"]}
{"id": "C110", "title": "Inserting a point without constraints flips at most n - 3 edges", "statement": "Without constraints, inserting a point into a triangulation of n vertices takes at most 6n steps to find its place from any hint, flips at most n - 3 edges, and recurses at most n - 2 calls deep; every flip adds exactly one triangle at the new vertex, so the number of flips is the number of triangles at it in the result less three, or less four when the point was on an edge.  No vertex ever has as many triangles as there are vertices.", "quantifier": "for all histories of reset, insert_point, flip and fill, all points and all hints", "why_tests_cant": "The recursion of flip has no visible bound; tests with small meshes see a few flips, and neither the worst case over all point sets nor the depth of the stack can be found by trying.", "anchors": ["lib/h/ce/cdt.h flip", "lib/h/ce/cdt.h do_flip", "lib/h/ce/cdt.h insert_point_at_node"]}
{"id": "C111", "title": "with constraints the triangulation is constrained Delaunay and depends on vertices and constraints only", "statement": "In a triangulation with constrained edges no vertex that can be seen from inside a face (along a segment that meets no constrained edge) is strictly inside the circle of the face, and so two triangulations with the same vertices and constrained edges have the same faces, whatever the history, unless four vertices that see each other are on a circle.", "quantifier": "all histories of reset, insert_point, constrain_edge, flip and fill; all faces, all rational points inside them, all vertices; all pairs of such histories", "why_tests_cant": "the claim is about all points of the plane and all histories; local tests of single edges do not settle what is visible far away", "anchors": ["lib/h/ce/cdt.h:434", "lib/h/ce/cdt.h:788"]}
{"id": "C112", "title": "cdt: inserting an edge ends, and adds few vertices", "statement": "cdt::insert_edge(p, q) returns, whatever constraints are already there and however the rounded intersections fall, and it adds at most |qx - px| + |qy - py| + 1 vertices. This fails in two ways: the walk to a point may go around for ever among constraints, and from a corner of the square the search for the direction of the edge turns only one way and leaves the square. Apart from these it holds: from any other point, with the exhaustive search that the source contains (switched off) in place of the walk, every call returns; with the walk a call returns unless one of its walks does not.", "quantifier": "all meshes reachable by any sequence of operations, all end points, all hints, any limit", "why_tests_cant": "Each crossing of a constraint is split at a rounded point and both parts are inserted again, each part may flip edges, cross further constraints and split again; that no rounding leads to endless splitting is a statement about unboundedly many nested calls, and the bound is over all meshes.", "anchors": ["lib/h/ce/cdt.h:788-943", "lib/h/ce/cdt.h:513-586"]}
{"id": "C113", "title": "rotate, to_polar and to_cartesian undo each other", "statement": "rotate(v, s) followed by rotate by t is a rotation by s + t, rotating by t and then by -t gives v again, to_cartesian of to_polar gives v again, and to_polar of to_cartesian gives radius and angle again, up to a stated number of units: at most one unit per component for vectors up to 2^28 long, a few units for longer ones; rotating keeps the length within 5/2 units, and within one unit up to 2^28.", "quantifier": "all vectors whose length fits 31 bits (for two rotations, up to 2^31 - 4), all angles; radii from 100 for the angle", "why_tests_cant": "there are 2^64 vectors and 2^32 angles; a test sees samples", "anchors": ["lib/h/ce/math.h: detail::cordic_n::rotate, detail::cordic_n::vector, to_cartesian, to_polar"]}
{"id": "C114", "title": "cdt: filling does not leak through a polygon", "statement": "When the sides of a closed polygon are constrained edges of the triangulation (each side possibly divided into several), fill() started in any face paints only faces whose points have the same winding number with respect to the polygon as the points of the first face; in_polygon agrees on them. Started at the corner of the square, it paints only faces outside the polygon. It never paints both faces at an edge that the polygon passes exactly once.", "quantifier": "all triangulations a program can have, all polygons (also ones that cross themselves), all faces, all points of the faces that are not on the polygon", "why_tests_cant": "the region depends on the whole history of the triangulation; a leak needs one wrong flag or link among all of them", "anchors": ["lib/h/ce/cdt.h: fill, fill_ex, flip, constrain_edge", "lib/h/ce/ce.h: in_polygon"]}
{"id": "C115", "title": "cdt: filling a simple polygon paints exactly its inside", "statement": "When the constrained edges inside the square are the sides of one closed polygon without repeated vertices, and no face carries the new info, fill started in any face terminates and paints exactly the faces on the same side of the polygon: those around whose points the polygon winds as often as around the start. The polygon has two sides: it winds around the points off it not at all or once in one fixed direction, and both happen. So started at a point where in_polygon is not zero it paints exactly the faces where in_polygon is not zero, and started where it is zero exactly those where it is zero; no other face changes.", "quantifier": "every triangulation reached by any sequence of operations, every outline of any number of vertices, every starting face, every info, every point of a face that is not on the polygon", "why_tests_cant": "a version of the Jordan curve theorem for every triangulation and every polygon; a test fills some polygons and looks at some faces", "anchors": ["lib/h/ce/cdt.h: fill, fill_ex", "lib/h/ce/ce.h: in_polygon"]}
{"id": "C116", "title": "z-order: points sorted by code can be searched by rectangle", "statement": "Points with 32-bit coordinates, turned into codes by z_encode, sorted by intro_sort and asked for a rectangle by z_query between the codes of its corners, with the answer filtered by z_inside, give exactly the points in the rectangle, each as often as it was given: nothing is lost or invented anywhere between the three parts. The rectangle has up to 2^32 cells of 256 by 256 units and does not reach the far corner of the plane.", "quantifier": "all lists of points, all rectangles of the stated size, all small-sort thresholds of at least 1", "why_tests_cant": "a composition of three algorithms over every list of points and every rectangle; a test tries some random lists", "anchors": ["lib/h/ce/zorder.h: z_encode, z_query, z_inside, z_lower_bound", "lib/h/ce/sort.h: intro_sort, insertion_sort"]}
{"id": "C117", "title": "cdt: filling stops exactly where a closed line of constrained edges separates", "statement": "Whatever has been constrained (one polygon, several, nested ones, open lines, crossings), when no face carries the new info, fill started in any face terminates and leaves a face unpainted if and only if there is a closed line of constrained edges that winds differently around that face and around the start. Around the painted faces run closed lines of constrained edges that together wind exactly once around each painted face and around no other. So a gap in the constraints always leaks, and only a gap leaks.", "quantifier": "every triangulation reached by any sequence of operations, every starting face, every face, every info", "why_tests_cant": "says for all drawings when there is and when there is not a separating line; a test can only look at drawings for which the answer is known", "anchors": ["lib/h/ce/cdt.h: fill, fill_ex, insert_edge, constrain_edge, flip"]}
{"id": "C118", "title": "Sine, cosine and arc tangent are accurate and consistent", "statement": "cos_2pi(r, t) and sin_2pi(r, t) are less than two units from r cos and r sin of the angle (less than one for radii up to 8e8), a quarter turn exchanges them exactly, the root of the sum of their squares is the radius within 5/2 units, with degrees_to_angle they are those of the given degrees; atan2_2pi and polar_ang give the angle of a vector within 0.66 + 27 / length units of 2^-31 turns, polar_mag its length within one unit, and atan2_2pi gives the angle of (cos_2pi, sin_2pi) again.", "quantifier": "every radius other than INT_MIN, every angle, every vector shorter than 2^31", "why_tests_cant": "2^64 pairs of radius and angle, errors of 32 rounded steps that add up, and a comparison with real numbers", "anchors": ["lib/h/ce/math.h: cos_2pi, sin_2pi, atan2_2pi, polar_mag, polar_ang, degrees_to_angle"]}
{"id": "C119", "title": "muldiv with 32 bit factors is exact", "statement": "muldiv(b, n, d) with 32 bit n and d does not overflow on the way and gives b * n / d rounded toward zero in both components whenever the quotient fits in 32 bits, which it does for |n| <= |d|; the remainder is less than d. Division by zero is undefined.", "quantifier": "all 32 bit vectors, factors and divisors other than zero", "why_tests_cant": "2^128 argument combinations", "anchors": ["lib/h/ce/math.h: muldiv"]}
{"id": "C120", "title": "Seeded generators are the published ones", "statement": "pcg32_64_t seeded with a number gives for ever the results of the published pcg32 seeded with that number and the sequence of its static initializer; seeding with bytes is seeding with their 64 bit FNV-1a hash; xoroshiro128pp seeded with bytes starts from the hash of the bytes and the hash of the bytes appended to themselves.", "quantifier": "every seed and every number of results", "why_tests_cant": "2^64 seeds with sequences of 2^64 results; a test compares a few", "anchors": ["lib/h/ce/ce.h: seed, read, step, next, hash::fnv1a64"]}
{"id": "C121", "title": "A message followed by its CRC has a fixed CRC", "statement": "crc32 over a message followed by its own crc32 (least significant byte first) is the same value whatever the message and the starting value, for CRC-32C the published residue 0x48674bc7, and it has this value only then; for any message and any wanted value exactly one choice of four bytes after the message gives that value.", "quantifier": "every polynomial (with a constant term for the uniqueness), starting value and byte string", "why_tests_cant": "messages of every length and content", "anchors": ["lib/h/ce/ce.h: crc32, crc32c"]}
{"id": "C122", "title": "A triangulation of points contains the nearest-neighbour graph and every minimum spanning tree, and greedy walks find nearest vertices", "statement": "After reset, insert_point, flip and fill calls, two vertices for which some circle passes through both and has all other vertices strictly outside are joined by an edge of a face, and only vertices on a common circle with no vertex strictly inside are joined. In particular vertices with no other vertex in the disc over them are joined, every vertex is joined to each of its nearest vertices, each shortest connection between a set of vertices and the rest is an edge, and any two vertices are connected by a path of edges whose squared lengths add up to at most their squared distance. For every point of the plane a vertex with no strictly nearer neighbour is a nearest vertex.", "quantifier": "for all sequences of calls, all numbers and positions of points, all pairs of vertices, all circles, all splits of the vertices and all points of the plane", "why_tests_cant": "A test has a few point sets and would compare with brute force; that no point set and no order of insertion leaves out such an edge needs the tiling and the empty circles of all faces.", "anchors": ["lib/h/ce/cdt.h: reset", "lib/h/ce/cdt.h: insert_point", "lib/h/ce/cdt.h: flip", "lib/h/ce/cdt.h: fill"]}
{"id": "C123", "title": "Interpolation over a triangulation of points has the least error any triangles can have", "statement": "Every point of the square lies in a face and is an average of its corners. After reset, insert_point, flip and fill calls the corners of that face have the least average squared distance from the point among all averages of vertices that give the point, so values interpolated between them, of a function with second derivatives of at most M, are off by at most M/2 times that; for one such function every choice of vertices is off by as much as its own bound.", "quantifier": "for all sequences of calls, all points of the square, all choices of vertices and weights, all functions and all M", "why_tests_cant": "Tests would sample points and triangles; the claim compares with every other way to connect the vertices.", "anchors": ["lib/h/ce/cdt.h: reset", "lib/h/ce/cdt.h: insert_point", "lib/h/ce/cdt.h: flip", "lib/h/ce/cdt.h: fill"]}
{"id": "C124", "title": "No flip of an edge makes the smallest angle larger", "statement": "After reset, insert_point, constrain_edge, flip and fill calls, for every unconstrained edge whose two faces form a strictly convex quadrilateral, and each of the six angles of the two faces, the two faces on the other diagonal would have an angle that is not larger.", "quantifier": "for all sequences of calls, all edges that could be flipped, all six angles", "why_tests_cant": "The angles are real numbers and the meshes unbounded; the comparison has to hold exactly, including ties on a circle.", "anchors": ["lib/h/ce/cdt.h: reset", "lib/h/ce/cdt.h: insert_point", "lib/h/ce/cdt.h: flip", "lib/h/ce/cdt.h: fill", "lib/h/ce/cdt.h: constrain_edge"]}
{"id": "C125", "title": "Lines along edges of the triangulation are drawn as they are, and what they enclose can be filled", "statement": "On a mesh that is locally Delaunay, insert_edge between two vertices that an edge joins, from one that is not a corner of the square, adds no vertex, moves no edge, constrains exactly this edge and returns true; it returns for a hint in a face of the edge, and without constraints for every hint. Any list of such edges can be drawn, in any order and with any hints, with exactly these edges constrained. A closed polygon of different vertices of a triangulation of points whose sides have no other vertex in the circles around them can be drawn so, and fill then paints exactly the faces on the side of the polygon where it starts, which in_polygon tells apart.", "quantifier": "for all sequences of calls, all joined pairs of vertices, all hints, all lists of edges, all polygons, all start faces", "why_tests_cant": "Each call searches, inserts, turns around the vertex and flips recursively; that nothing else changes, on every mesh, no sample of meshes shows.", "anchors": ["lib/h/ce/cdt.h: insert_edge", "lib/h/ce/cdt.h: constrain_edge", "lib/h/ce/cdt.h: insert_point", "lib/h/ce/cdt.h: locate_insertion_node", "lib/h/ce/cdt.h: fill", "lib/h/ce/ce.h: in_polygon"]}
{"id": "C126", "title": "The triangulation of points has the largest smallest angle", "statement": "Of all triangulations of the square with vertices at the points inserted, however made, the one insert_point builds has the largest smallest angle: for every angle of one of its faces every other triangulation has an angle that is not larger. With constrained edges the same holds among the triangulations that these edges do not cut, as long as the mesh is locally Delaunay. After insert_edge, which does not keep it so, this may fail.", "quantifier": "all sets of points and histories of reset, insert_point, flip and fill (with constraints: every locally Delaunay mesh); all triangulations with the same vertices, all angles", "why_tests_cant": "A test can compare with a few other triangulations; the claim is about all of them, of which there are exponentially many.", "anchors": ["lib/h/ce/cdt.h: insert_point_at_node", "lib/h/ce/cdt.h: flip", "lib/h/ce/cdt.h: incircle", "lib/h/ce/cdt.h: constrain_edge"]}
{"id": "C127", "title": "The triangulation of points has the smallest circles around its triangles", "statement": "Of all triangulations of the square with vertices at the points inserted, the one insert_point builds has the smallest largest circle around a triangle: for every face every other triangulation has a triangle such that any circle containing it is at least as large as some circle containing the face. With constrained edges the same holds among the triangulations that these edges do not cut, as long as the mesh is locally Delaunay. After insert_edge, which does not keep it so, this may fail.", "quantifier": "all sets of points and histories of reset, insert_point, flip and fill (with constraints: every locally Delaunay mesh); all triangulations with the same vertices, all faces, all circles", "why_tests_cant": "A test can compare with a few other triangulations; the claim is about all of them and all circles.", "anchors": ["lib/h/ce/cdt.h: insert_point_at_node", "lib/h/ce/cdt.h: flip", "lib/h/ce/cdt.h: incircle"]}
{"id": "C128", "title": "base64 decode takes the bits of the letters in order", "statement": "For every text of n base64 letters, whether an encoder wrote it or not, decode gives floor(3n/4) bytes whose bits are the bits of the letters in the same order. The spare bits of the last letter, and a single letter behind whole groups of four, are ignored: two texts of the same length give the same bytes exactly when they agree in the bits of whole bytes, so texts that differ may be decoded alike.", "quantifier": "every text of letters, of every length up to 2^62, and whatever follows it", "why_tests_cant": "Unbounded texts; 64^n texts of each length, most of which no encoder produces.", "anchors": ["lib/h/ce/ce.h: base64::size, base64::decode"]}
{"id": "C129", "title": "lziii decode does not depend on what the destination held; decoder holds the decoded data or does not compile", "statement": "decode overwrites: for every bytes, well formed or not, it succeeds or fails alike whatever the destination held before, and when it succeeds every byte below the given size has been set, to a value that does not depend on what was there, and no byte at or beyond the size is touched. decoder<T> compiles exactly when T's bytes are a well-formed stream of at least one token, and then holds exactly the data of that stream.", "quantifier": "every encoded byte string (decoder: shorter than 2^58), every destination size up to 2^63, every previous content of the destination", "why_tests_cant": "Unbounded streams; the previous contents of a destination are as many as the byte strings of its size; decoder is evaluated by the compiler, and a test cannot hold the programs that must not compile.", "anchors": ["lib/h/ce/lziii.h: decode", "lib/h/ce/lziii.h: decoder"]}
{"id": "C130", "title": "of all triangulations of the same places that of points makes the smoothest surface", "statement": "Give a height to every vertex and let the surface over each face be the plane through the heights at its corners. After any sequence of point insertions the square of the slope, integrated over the square, is at most that over any other triangulation of the square with vertices at the same places, whatever the heights are; the triangulations that are as good for all heights are exactly the Delaunay ones; and no call of flip on any mesh raises it. With constraints: after insert_point, constrain_edge, flip and fill in any order it is at most that over any other triangulation that has edges where the constrained edges are, and a mesh of any history has this property exactly when it is locally Delaunay, which insert_edge does not ensure.", "quantifier": "every sequence of point insertions (with constraints: every history that leaves the mesh locally Delaunay), every other triangulation (whoever made it, any constraints), every assignment of real heights", "why_tests_cant": "Heights are real functions on the vertices and the other triangulations are exponentially many; a test can compare a few of each. That local flips reach the least value is an argument about all sequences of flips.", "anchors": ["lib/h/ce/cdt.h: insert_point", "lib/h/ce/cdt.h: flip", "lib/h/ce/cdt.h: incircle"]}
{"id": "C131", "title": "Atomics may be used inside the operators of atomics", "statement": "a thread inside an atomic operation that runs user code under the spin lock (operator+= of a type without native atomics) may use other atomics there: no thread waits for ever.", "quantifier": "every number of threads, every nesting of sections, every schedule", "why_tests_cant": "whether two objects share a slot depends on addresses, whether threads meet on the schedule.", "anchors": ["lib/h/ce/atomic_msvc_x86.h: detail::scope_spin_lock, atomic_fetch_add, atomic_fetch_sub"]}
{"id": "C132", "title": "The 128-bit product and quotient lose nothing", "statement": "On MSVC, msvc::xmul(a, b) holds the exact product, and msvc::xdiv(msvc::xmul(a, b), d) is a * b / d cut off towards zero, even when a * b does not fit 64 bits. It raises a processor exception exactly if d is 0 or the quotient does not fit; a part n / d of a number (|n| <= |d|) always fits, except for -2^63 negated.", "quantifier": "all 64-bit a, b, d", "why_tests_cant": "2^192 arguments; the halves and carries matter only for products beyond 64 bits.", "anchors": ["lib/h/ce/math.h:58-80"]}
{"id": "C133", "title": "A compare-exchange compares bits, and the fetch loops are right all the same", "statement": "atomic_compare_exchange(a, expected, v) should succeed exactly when the contents equal `expected`. It compares the bits: it agrees with == for types in which equal means the same bits, and for floats other than zeros and NaNs. For 0 against -0 and for classes whose padding differs it fails though the values are equal; for a NaN it succeeds though a NaN equals nothing. atomic_fetch_add and atomic_fetch_sub, which loop around a compare-exchange, are right for all these: each call adds exactly once to the value that is there and returns it, whatever the relaxed first load gave, with failures for no reason of compare_exchange_weak, with NaNs and padding; and a loop fails for a reason at most once for its call and once for each effect of another thread. A caller's own loop around atomic_compare_exchange ends in its second round if undisturbed, provided copying the class keeps its padding.", "quantifier": "all representations and values, all threads, operations, interleavings, stale first loads, failures for no reason, and choices of padding", "why_tests_cant": "A stale relaxed load, a weak compare-exchange that fails for no reason, and different padding depend on processor, compiler and chance; a test on x86 sees none of them.", "anchors": ["lib/h/ce/atomic_std.h:49-83", "lib/h/ce/atomic_msvc_x86.h:230-325"]}
{"id": "C134", "title": "Sorting, searching and queues are safe whatever the comparison does, and right where it is an order", "statement": "whatever operator< answers (NaN, <=, an inconsistent one), insertion_sort, intro_sort, lower_bound, upper_bound and min_priority_queue end, touch only their range and lose, invent or duplicate no element; if operator< is a strict weak order among the values that occur (doubles without NaN), the results are those of C21 to C25.", "quantifier": "every comparison function, every array, every history of the queue", "why_tests_cant": "a test tries particular comparisons; the memory errors of sorts with bad comparisons depend on the data.", "anchors": ["lib/h/ce/sort.h: insertion_sort, partition, median, intro_sort, lower_bound, upper_bound", "lib/h/ce/ce.h: heap_raise, heap_lower, min_priority_queue"]}
{"id": "C135", "title": "Sorting and searching count", "statement": "after intro_sort of an array, lower_bound of a key is at the number of elements less than the key, upper_bound - lower_bound is the number of elements equivalent to it, exactly the places between hold such elements, and a key is found if and only if the array contained an equivalent element.", "quantifier": "every strict weak order among the values that occur, every array, every key, every cut-off from 1", "why_tests_cant": "a test tries particular arrays; duplicates at the borders of partitions and search steps matter.", "anchors": ["lib/h/ce/sort.h: intro_sort, lower_bound, upper_bound"]}
{"id": "C136", "title": "Lengths are ordered", "statement": "isqrt keeps the order of its arguments as long as the roots fit in 32 bits. hypot does not depend on the signs or the order of its arguments, never grows when components shrink in magnitude, is exact along an axis, is at least each component's magnitude and at most their sum. The hypot of a sum of two vectors is at most the sum of their hypots plus two, plus one if the squared lengths are below 2^50; the exact triangle inequality does not hold. Order, symmetry, axis and bounds hold for the x86 variant and for the variant of other processors.", "quantifier": "for all arguments whose result fits in int32_t", "why_tests_cant": "the computation rounds two to five times (squares, sum, root, conversion), and order could be lost at any of the 2^63 arguments where a rounding changes direction or the exponent changes; tests cannot visit them", "anchors": ["lib/h/ce/math.h:216-221", "lib/h/ce/math.h:223-228", "lib/h/ce/math.h:245-248"]}
{"id": "C137", "title": "Output that overlaps the input", "statement": "base64::decode may write over the text it decodes, and z_query over the array it searches, or anywhere that does not begin behind the input: the results are those for separate memory and nothing else changes. The result of intersect may be the object that holds its first point (or a separate one): the answer is that for separate objects. It may not be any of the others: with the end of the first line it never reports an intersection and overwrites that end, and with an end of the second line what it reports is always an end of the first line.", "quantifier": "for all memories, addresses, texts, arrays and points, any overlap", "why_tests_cant": "the effect of overlap depends on where each of an unbounded number of reads and writes falls; tests of the library use separate objects", "anchors": ["lib/h/ce/ce.h:879-892", "lib/h/ce/zorder.h:111-170", "lib/h/ce/math.h:261-277"]}
{"id": "C138", "title": "in_polygon on edges and vertices", "statement": "in_polygon is consistent on the boundary. For a triangle the result is 0, or 1 if the triangle is counter-clockwise, or 2^64-1 if it is clockwise, and 0 if it has no area, wherever the point lies. If the directed edges of some polygons are those of a whole polygon together with inner edges that occur in both directions, the results of the parts add up to that of the whole modulo 2^64; so a point of a polygon cut into clockwise triangles is in exactly one of them, also if it lies on edges or vertices. Ties are decided the opposite way from the triangle test made of inside: in_polygon finds the point in the triangle exactly when that test does with everything turned by half a turn, so on shared edges the two name different triangles.", "quantifier": "for all points, triangles and polygons within the range of the arithmetic, and all ways to cut them", "why_tests_cant": "points exactly on edges and vertices of arbitrary cuts form an unbounded set of degenerate cases, each with its own pattern of signs", "anchors": ["lib/h/ce/ce.h:665-699", "lib/h/ce/math.h:100-126"]}
{"id": "C139", "title": "The range tests fit together", "statement": "For the same ball, in_range_rr of the beginning implies in_range_rr_segment, that implies in_range_rr_ray, and that implies in_range_rr_line; in_range_rr_edge implies the segment. A larger radius never turns an answer from true to false. The answers for a segment and a line do not depend on which end is given first. A ball touches a segment exactly when it touches the rays from both ends through the other, and exactly when it touches one of the ends or the edge. A hypot below r means in range of r, in range of r means a hypot of at most r; off x86, below 2^26, the two agree exactly.", "quantifier": "for all positions, squared radii and directions for which the tests are defined", "why_tests_cant": "relations between different functions over four or more 32-bit coordinates and a 64-bit radius, with the decisive cases exactly on the boundary", "anchors": ["lib/h/ce/math.h:131-212", "lib/h/ce/math.h:217-248"]}
{"id": "C140", "title": "lziii decodes in place", "statement": "lziii::decode may write into the memory that holds the stream. If the destination begins at or behind the end of the stream, or ends at least (n - 1) / 8 bytes before the end of the stream, n being the decoded size, the decoded data is that of separate memory, nothing outside of the destination changes and nothing outside of the memory is touched. A stream is never longer than n + (n + 7) / 8 bytes, so a buffer of that size with the stream at its end is always enough. One byte less is not.", "quantifier": "for all well-formed streams, all memories and all positions of stream and destination in it", "why_tests_cant": "whether a write reaches bytes that are still to be read depends on the whole sequence of literals, spans and control bytes of the stream", "anchors": ["lib/h/ce/lziii.h:71-91", "lib/h/ce/lziii.h:34-39"]}
{"id": "C141", "title": "Every point of the square is in exactly one face by in_polygon, and how that differs from locate", "statement": "For every triangulation a program can build and every scale up to 2^15: in_polygon of a point and the three corners of a face, for the faces that faces() visits, is 0 or 2^64-1 and never overflows; it is 2^64-1 for exactly one face if the point is in the square with its left and bottom sides and without the other two, also on edges and vertices, and for no face otherwise. The face that locate returns is that face if the point is not on an edge of it. On edges, and on the sides of the square, the two differ: locate includes the right and top sides.", "quantifier": "for all sequences of calls, all scales up to 2^15, all points with coordinates in [-2^30, 2^30)", "why_tests_cant": "triangulations and degenerate points are unbounded; a test only meets points on edges by design", "anchors": ["lib/h/ce/cdt.h:243", "lib/h/ce/cdt.h:959-1032", "lib/h/ce/ce.h:665-699"]}
{"id": "C142", "title": "The nearest vertex, starting from locate", "statement": "In a triangulation of points a search that goes along edges from vertex to vertex, strictly nearer to a given point with each step, passes each vertex at most once, so it takes fewer steps than there are vertices, and where no step is left it is at a vertex that is nearest of all. From every corner of the face that locate returns for the point such a search leads to a nearest vertex. Taking the nearest corner of that face is not enough: the nearest vertex can be a vertex of another face, much nearer than the corners.", "quantifier": "for all sequences of point insertions, all points of the plane, all searches along edges", "why_tests_cant": "whether a search can get stuck depends on the whole triangulation; a test only sees the ones it builds", "anchors": ["lib/h/ce/cdt.h:959-1032", "lib/h/ce/cdt.h: reset", "lib/h/ce/cdt.h: insert_point"]}
{"id": "C143", "title": "fnv1a tells short differences and short names apart, and a dictionary keyed by it is a map from names", "statement": "Two byte strings of the same length that differ only within a stretch of three bytes never have the same 32-bit fnv1a, and never the same 64-bit fnv1a if the stretch is at most six bytes, whatever comes before and after and whatever the basis. Four and seven bytes are too long: \"S3vr\" and \"wBnk\" have the same hash. Different texts of up to three characters have different fnv1a, also if their lengths differ, and none has the value 0; there is a text of four characters with the value 0. So a zero-initialised dictionary whose keys are fnv1a of texts of up to three characters behaves as a map from texts, for every sequence of calls.", "quantifier": "for all byte strings, stretches and bases; for all texts of up to three characters; for all sequences of dictionary calls", "why_tests_cant": "256^6 pairs of stretches times all surroundings and bases; a test of some names says nothing about the others", "anchors": ["lib/h/ce/ce.h:529-581", "test/dictionary.cpp:17-29", "lib/h/ce/dictionary.h:46-111"]}
{"id": "C144", "title": "When zero bytes added to a message change its CRC-32C", "statement": "Two messages that differ only in the number of zero bytes at one place (end, front or between) have the same CRC-32C exactly when the two numbers differ by a multiple of 2^31-1 or the CRC of the part before them is 0xffffffff or 0x035bd250. With the default starting value fewer than 2^31-1 zero bytes in front always change the CRC; zero bytes at the end change it unless it is one of the two values, and four 0xff bytes followed by any number of zero bytes all have the same CRC.", "quantifier": "all starting values, all byte strings before and after, all numbers of zero bytes", "why_tests_cant": "the failing prefixes are 2 in 2^32 and the period is 2^31-1 bytes; a sample of paddings says nothing about the others", "anchors": ["lib/h/ce/ce.h: crc32", "lib/h/ce/ce.h: crc32c_t"]}
{"id": "C145", "title": "A rectangle query looks at few codes it does not report", "statement": "z_query over sorted data reads the codes it reports, and besides at most (log2(size)+2) reads for each run of consecutive codes of the rectangle and one more time that; a rectangle of w by h cells has at most 2(w+h) runs, so a query between two points costs the answer plus the circumference in cells of 256 units times a binary search, however many points are stored. A square block is one run: two searches.", "quantifier": "all sorted arrays, all sizes, all rectangles between 32-bit points for which the query returns (C100 says which)", "why_tests_cant": "the cost depends on how the rectangle lies in the z order and where the stored points are; timing one data set says nothing about another", "anchors": ["lib/h/ce/zorder.h: z_query, z_lower_bound, z_split"]}
{"id": "C146", "title": "How small and how large lziii streams are, and what may follow them", "statement": "Every n bytes (n < 2^64) have a stream of n + ceil(n/8) bytes that size and decode handle. Whatever the bytes given, well formed or not, size asks for at most 144/17 times their number, and this is reached up to a constant: 127 + 144k equal bytes have a stream of 16 + 17k. Bytes behind a stream are ignored by decode. A destination that ends where a token ends receives the beginning of the data; one that ends within a back reference is written past its end.", "quantifier": "all data, all byte strings, all streams, all numbers of bytes appended, all token boundaries", "why_tests_cant": "the worst ratio is a maximum over all byte strings; a corpus shows the ratios of its files only", "anchors": ["lib/h/ce/lziii.h: size, decode"]}
{"id": "C147", "title": "crc32c detects up to five wrong bits in messages of up to 659 bytes", "statement": "Two messages of the same length of at most 659 bytes that differ in one to five bits never have the same CRC-32C, whatever the starting value. Four wrong bits are noticed in messages of any length if they lie within 5275 bits. Of a message of at most 655 bytes with its CRC behind it up to five wrong bits, in message or CRC, are noticed by the receiver. For 660 bytes this is false: some four wrong bits go unnoticed.", "quantifier": "all messages of up to 659 bytes, all choices of up to five wrong bits, all starting values", "why_tests_cant": "more than 10^13 choices of four bits, for each of them all messages", "anchors": ["lib/h/ce/ce.h: crc32", "lib/h/ce/ce.h: crc32c_t"]}
{"id": "C148", "title": "What numbers of one generator tell about others", "statement": "Two generators pcg32_64 seeded with numbers that differ by 2^63 (in the highest bit) give, call by call and for ever, the same number apart from a rotation by 16 and one inverted bit, so they must not be used as independent. Two generators xoroshiro64ss that give the same two numbers in a row are the same, and from two numbers in a row all that follow can be computed by a short formula, so they must not be used where numbers are to be unpredictable.", "quantifier": "all seeds, all states, all numbers of calls", "why_tests_cant": "2^64 seeds or states, unbounded sequences of calls", "anchors": ["lib/h/ce/ce.h: pcg32_64_t seed, step, read", "lib/h/ce/ce.h: xoroshiro64ss"]}
{"id": "C149", "title": "Tickets and reference counts made of the atomic counters are right under every schedule", "statement": "Let any number of threads use one w-bit unsigned atomic. (a) If they only call atomic_fetch_add(a, 1), at most 2^w times, no two calls return the same number and every number is one of the first `number of calls` from the initial value; when all calls have returned the numbers are exactly those, none left out. (b) If it counts handles, started at the number n >= 1 of handles, with atomic_fetch_add(a, 1) called by a holder for another handle and atomic_fetch_sub(a, 1) called once for each handle given up, and n plus the clones are fewer than 2^w, then at most one atomic_fetch_sub returns 1; once one has, no handle exists, nobody is inside a clone and every other drop has already taken effect; and when all handles are given up and all calls have returned exactly one has returned 1. (c) The limit is needed: for every w, after 2^w clones by one thread a drop returns 1 while 2^w handles are in use.", "quantifier": "all widths, numbers of threads, schedules, values seen by relaxed loads and by failed exchanges, spurious failures, both implementations", "why_tests_cant": "A schedule that hands out a number twice or destroys an object early may need a particular interleaving of loads and exchanges in several threads; tests see few schedules.", "anchors": ["lib/h/ce/atomic_std.h:60-80", "lib/h/ce/atomic_msvc_x86.h:178-325"]}
{"id": "C150", "title": "Structures that are looked at in two ways are laid out the same in both", "statement": "(a) For every type T, rgba<T> has the size and alignment of T[4] and r, g, b, a are where elements 0 to 3 of its array view are; the same for vec<N, T> as T[N] (and matrices). (b) In the union of cdt, for every face f and k < 3 the bits of fs[f].ck, pk, ek are those of es[4f + k].c, p, e; for every vertex v the members a_.. and x of vs[v] are those of fs[2v], the members b_.. and y those of fs[2v + 1]; a face's fi takes the bits of c and p of the fourth edge; the asserted sizes hold and the three arrays have equal sizes; reading the declared bits gives what the storage model of C85 reads. (c) A thread_mutex has exactly the size of the mutex constructed in it, neighbours do not overlap, and it is suitably aligned if the mutex needs no more alignment than a pointer; without that condition the assertions of mutex.h pass although the alignment may be wrong.", "quantifier": "all element types (size, alignment), all indices, all memories, all mutex types passing the static_assert", "why_tests_cant": "The casts are undefined or compiler-dependent when the layouts differ; a test sees one compiler and a few types and indices.", "anchors": ["lib/h/ce/ce.h:903-914", "lib/h/ce/ce.h:587-590", "lib/h/ce/io.h:116-119", "lib/h/ce/cdt.h:57-127", "lib/h/ce/mutex.h:47-63"]}
{"id": "C151", "title": "Something is done once: of all claims by compare-exchange or exchange exactly one succeeds, and what it publishes is seen complete", "statement": "(a) If nothing is done to an atomic, at first v0, but loads and compare-exchanges from v0 to other values, by any threads, then the first compare-exchange to take effect succeeds and no other; all loads before it give v0, all loads after it give its value, and all later compare-exchanges return false and are told its value. (b) If a flag is only exchanged with v1, the first exchange returns the initial value and all others v1. (c) If the winner of (a) has written a variable, that nobody else writes, before its compare-exchange, every thread that got the winner's value, from a load or from its own failed compare-exchange, and then reads the variable, gets what the winner wrote (or something it wrote later).", "quantifier": "all numbers of threads, schedules, values, other atomics in use at the same time, states of the store buffers", "why_tests_cant": "Lazily made objects go wrong only when two threads meet at the compare-exchange or a store lingers in a buffer; tests cannot force these moments.", "anchors": ["lib/h/ce/atomic_msvc_x86.h:178-325", "lib/h/ce/atomic_std.h:54-58"]}
{"id": "C152", "title": "Texts of several numbers determine the numbers", "statement": "The text that to_text writes for an array or vec of integers determines the integers and how many there are, whatever their types. The string of as_string{ \"x = \", x, \", y = \", y, \".\" } determines the integers, if the texts between two numbers are not empty and no text behind a number begins with a digit. Neither holds without those conditions: as_string{ 1, 23 } and as_string{ 12, 3 } are equal, and texts inside arrays are not quoted.", "quantifier": "all lists of integers of all integer types in range, of any length; all patterns of texts and integer types of any length; all memories and positions", "why_tests_cant": "Injectivity speaks about every pair of argument lists of every length; a test compares single texts.", "anchors": ["lib/h/ce/ce.h: as_string, measure, to_text_m, to_text_s, to_text_p", "lib/h/ce/ce.h: to_text_n, to_text(vec)"]}
{"id": "C153", "title": "Several mutexes taken in one order do not deadlock", "statement": "Threads that take any number of mutexes, exclusively or shared, in the order of some numbering (for instance by address), and release what they took: nothing undefined happens, as long as a thread is not finished some call completes, every schedule ends with all programs finished and all mutexes free. This holds whether or not the platform lets a waiting writer go before readers. In different orders two threads can wait for each other for ever, and acquiring what one has already, shared or not, is undefined.", "quantifier": "any finite number of threads, any mutexes, all programs of any length, all schedules, both policies for waiting writers", "why_tests_cant": "A deadlock needs a particular interleaving; absence of deadlock speaks about all of them.", "anchors": ["lib/mutex_std.cpp", "lib/h/ce/mutex.h"]}
{"id": "C154", "title": "Shuffling with next_unbiased", "statement": "The usual shuffle, for (; n > 0; --n, ++a) swap(a[0], a[next_unbiased(g, n)]), permutes the elements, draws once per element and ends, with any generator. With independent 32-bit outputs every arrangement is possible and each comes from between the product of floor(2^32 / k) and the product of floor(2^32 / k) + 1 of the output sequences; it is not exactly uniform (three elements). With pcg32_64 or xoroshiro64ss and 21 elements or more some arrangements never come out, whatever the seed.", "quantifier": "all generators, all arrays of fewer than 2^32 distinct elements, all arrangements, all states", "why_tests_cant": "The statements count output sequences or quantify over all 2^64 states and all arrangements.", "anchors": ["lib/h/ce/ce.h: random::next_unbiased"]}
{"id": "C155", "title": "min_priority_queue as a queue of events", "statement": "A loop that takes the first event from a min_priority_queue, handles it and enqueues new events that are not before the one handled: events come out in order, also if some did not fit; if all fitted, the handled and the waiting ones are exactly those enqueued; the loop ends only when none waits. Events that compare equal come out in the order they were enqueued if they are numbered and compared by time, then number; by time alone they do not (four equal events).", "quantifier": "all strict weak orders, capacities below 2^64, handlers, first events and numbers of turns; all histories of calls for the numbered events", "why_tests_cant": "The order in which events come out depends on everything enqueued before; tests see single runs.", "anchors": ["lib/h/ce/ce.h: heap_raise, heap_lower, min_priority_queue"]}
{"id": "C156", "title": "base64 in pieces", "statement": "A text can be cut after any multiple of four characters and the pieces decoded one by one, each to its own size: together they give the bytes of the whole, whatever the characters. Encodings of pieces of bytes, all but the last a multiple of three long, can be put together. Asking for fewer bytes gives the first ones. Elsewhere text cannot be cut or put together: witnesses with single bytes.", "quantifier": "all texts of up to 2^62 characters, all places to cut at, any number of pieces", "why_tests_cant": "The cut may be at any place of any text.", "anchors": ["lib/h/ce/ce.h: base64::size, base64::decode, ascii::is_base64"]}
{"id": "C157", "title": "CRC-32C of names", "statement": "Two different names of letters and underscores, of at most five characters each and not necessarily of the same length, never have the same crc32c, so a switch over crc32c of such literals has no clash. In any text, replacing up to five consecutive bytes by as many others with the same two upper bits, or up to six with the same three upper bits (small letters), changes the CRC. The bounds are tight: UbjIfE and kiXbzh clash, and so do lpymae and aa, and ktbfvjj and nqkebot.", "quantifier": "all pairs of names of up to five characters; all texts, places, starting values", "why_tests_cant": "There are more than 400 million such names and the pairs of them are more than 10^17; the text around is of any length.", "anchors": ["lib/h/ce/ce.h: crc32c, detail::crc32, crc32"]}
