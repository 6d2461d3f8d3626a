#!/usr/bin/env python3
"""Writes the table of properties in DESIGN.md between the two markers, from HOW below, tools/status.py and MANIFEST.json."""
import json, os, re
root = os.path.join(os.path.dirname(os.path.abspath(__file__)), "..")
HOW = {}
def h(i, modelled, how): HOW[i] = (modelled.rstrip("."), how.rstrip("."))

h("C01", "`to_text_from_integer` for every size and sign, each digit store at its index, all products in exact 32/64-bit arithmetic (Model/ToText)", "fixed-point invariant `u*2^32 <= t*10^n < (u+1)*2^32` for each `JEAIII_` macro; the spec is the recursive decimal numeral")
h("C02", "same", "the text is placed as a list, so its length bounds the cells written; a value of maximal length for each type")
h("C03", "`measure`, `to_text_m`, `to_text_s`, `to_text_p`, `as_string` (Model/AsString)", "induction over the argument list; each text is at most its measure")
h("C04", "same as C01", "left inverse: reading the numeral")
h("C05", "`to_text_n`, `to_text(vec)`", "induction over the elements")
h("C06", "`detail::crc32`, `crc32_table`, the byte overload (Model/Crc)", "table entry = eight bit steps; induction over the data")
h("C07", "the `uint32_t` and `uint64_t` overloads, slicing tables", "xor-linearity of the eight-bit step; slicing lemma")
h("C08", "all overloads, `crc32c`", "induction; composition of folds")
h("C09", "same", "bit step is injective; polynomials over GF(2) in Mathlib for the divisibility criterion")
h("C10", "`hash::fnv1a` and its overloads (Model/Fnv)", "induction over elements and bytes")
h("C11", "same", "the prime is odd, so a step is a bijection")
h("C12", "`base64::size`, `decode`, `ascii::is_base64` (Model/Base64)", "encoder as spec; three-byte groups; induction")
h("C13", "same", "the reads are a list that must not run out; result independent of what follows")
h("C14", "`xoroshiro64ss` (Model/Random)", "the step is a matrix over GF(2); its order by kernel-checked powers for each prime factor of 2^64-1; irreducibility of the minimal polynomial for the single cycle")
h("C15", "`xoroshiro128pp`", "same with 2^128-1")
h("C16", "`pcg32_64_t` step and seed", "Hull-Dobell by induction on the exponent of two")
h("C17", "`read(pcg32_64_t)`", "bit extensionality; the result of the over-long shift is a parameter")
h("C18", "`next_ranged`", "arithmetic on the 64-bit product")
h("C19", "`next_unbiased`", "the threshold expression is 0, so nothing is rejected; counting the draws per result")
h("C20", "`seed` of the three generators", "CRC injectivity for 128pp; witnesses for 64ss")
h("C21", "`insertion_sort` (Model/Sort), checked array access", "loop invariants")
h("C22", "`intro_sort`, `partition`, `median`", "partition invariant, induction on the range")
h("C23", "the recursion depth as fuel of the same model", "family of constant arrays; induction for the linear bound")
h("C24", "`lower_bound`, `upper_bound`, `z_lower_bound`", "interval invariant")
h("C25", "`heap_raise`, `heap_lower`, `min_priority_queue` (Model/Heap)", "heap order as an invariant over histories, refinement to multisets")
h("C26", "`bitset` with its index assertions (Model/Bitset)", "bit extensionality, induction over histories")
h("C27", "`bulk` with raw/live slots, element writes, iteration and assertions (Model/Bulk)", "refinement to lists over histories of several variables")
h("C28", "same", "live slots are exactly those below the size, in every reachable state")
h("C29", "`construct_copy`, `is_constructible_with`", "`is_constructible_with<T, T>` is always false; witnesses, and the remaining cases")
h("C30", "`pool` as arrays of next indices (Model/Pool)", "representation predicate: disjoint index lists, over histories")
h("C31", "same", "same; counting")
h("C32", "`dictionary` with its index assertions (Model/Dictionary)", "refinement to a finite map over histories")
h("C33", "same", "same")
h("C34", "`find` with a heap part", "search tree invariant along the descent")
h("C35", "`lziii::size`, `decode` (Model/Lziii)", "token semantics as spec; induction over tokens")
h("C36", "same", "same")
h("C37", "same", "a run without bad access determines a token list")
h("C38", "`names` (Model/Names)", "induction over the text with the bracket depth; buffer bounds")
h("C39", "`names_t`", "same")
h("C40", "`clock::reset`, `elapsed`, `current` (Model/Clock)", "invariant: residual = elapsed * Fn mod (f * Fd)")
h("C41", "same with 64-bit wrap", "bounds on the products")
h("C42", "`ab_less_cd`, both versions (Model/Vec)", "128-bit split into halves")
h("C43", "`inside`", "case analysis of the tie-breaking; epsilon argument over the rationals")
h("C44", "`inside` on the three edges of a triangle (Model/Vec, Proof/Mesh)", "counting: interior edges cancel; winding of the boundary")
h("C45", "`in_range_rr*`", "quadratic minimisation over the reals")
h("C46", "`in_range_rr_edge`, `ball_hits_edge`", "same; witness")
h("C47", "`sqrx`, `dotx`, `crossx`", "range arithmetic")
h("C48", "operators on `vec2`, `vec3`, references for the compound assignments", "case analysis; witness for the alias and the exact result for each aliased component")
h("C49", "`intersect`, `muldiv`", "exact rational intersection point and a bound of the rounding error")
h("C50", "`in_polygon_xy`, `in_polygon`", "crossing number = total swept angle, via the complex argument in Mathlib")
h("C51", "`degrees_to_angle`, `angle`", "arithmetic")
h("C52", "`cordic_n::rotate`, `to_cartesian`, with the tables computed by a model of IEEE doubles (Model/Cordic)", "rotation matrices over the reals, certified bounds for the arctangents and the gain, error propagation through 32 rounds")
h("C53", "`isqrt`, `hypot` with rounding of IEEE doubles (Model/Isqrt)", "relative error of one rounding")
h("C54", "`z_expand`, `z_encode`, `z_inside` (Model/Zorder)", "bit extensionality")
h("C55", "`z_query`, `z_lower_bound` with its span stack", "invariant over the stack of spans")
h("C56", "same", "same; witness")
h("C57", "same", "the sides of the current box bound the number of further pushes: each push halves a side, potential argument; witnesses for every size just above the bound")
h("C58", "`z_split`", "highest differing bit")
h("C59", "`atomic_fetch_*` loops, any number of threads (Model/FetchAdd)", "linearizability invariant over all schedules")
h("C60", "`scope_spin_lock` on x86-TSO with store buffers (Model/SpinLock), all 256 slots together (Model/SpinSlots)", "inductive invariant over all schedules; linearizability of the guarded operations; for all slots one invariant per slot and a frame lemma")
h("C61", "`atomic_load`, `atomic_store` of structs", "same; witness schedule")
h("C62", "wrappers over locks given by their documentation (Model/Mutex)", "inductive invariant")
h("C63", "`nameof`, `as_enum`, `same`, `skip`; what the compiler prints is a parameter (Model/Nameof)", "list induction")
h("C64", "`io::item`, `items` on descriptions of types (Model/Io)", "mutual induction over types and values")
h("C65", "`os::log`, `CE_LOG` levels (Model/Log)", "list induction; parsing as left inverse")
h("C66", "check macros as expressions, `call_error_hook`, `os::error`", "evaluation of the expression trees")
h("C67", "`to_utf16` (Model/Utf16)", "UTF-8 and UTF-16 encoders as spec; induction")
h("C68", "`detail::sequence` (Model/TypeList)", "induction along the binary digits")
h("C69", "`select`, `are_same`, `has`, `count_leading_t`", "list induction")
h("C70", "`span`, `skip`, `trim`", "lists")
h("C71", "the whole of cdt.h: `reset`, `do_flip`, `try_flip`, `flip`, `insert_point_at_node`, `constrain_edge`, `insert_edge`, `split_constraint`, `locate*`, `fill` (Model/Cdt)", "invariant `Inv` (twins, corners, clockwise) and `Rim` (outline), preserved by every operation (Proof/Cdt, CdtFlip, CdtInsert)")
h("C72", "same, and `validate_face`", "same")
h("C73", "`flip`, `insert_point_at_node`, `constrain_edge` with fuel", "lifted-paraboloid volume as a strictly decreasing natural number")
h("C74", "`incircle` in 64-bit arithmetic", "range arithmetic; witness in a reachable mesh")
h("C75", "`locate` with its 32-bit differences", "walk invariant; C44 for uniqueness")
h("C76", "`fill`, `fill_ex` with the 256-entry stack", "reachability through unconstrained edges; the stack holds at most two entries per painted face level")
h("C77", "`cordic_n::vector`, `to_polar`", "same technique as C52; residual angle bounds per round")
h("C78", "`insert_point`: `locate_insertion_node` and `insert_point_at_node`", "case analysis of where the walk ends; nothing but the appended vertex changes coordinates (Proof/CdtPoints)")
h("C79", "all operations of cdt.h but `insert_edge`, `try_flip`", "every flip cascade restores legality of the edges it touches; local implies global by the power-distance argument along a segment (Proof/CdtWalk)")
h("C80", "`locate_insertion_node`, `locate`, `insert_point`", "power distance of the target decreases along the walk on Delaunay meshes, so no face is seen twice; in general the height, at the target, of the plane of the face grows along the walk when the surface over the mesh bends upwards (Spec/Regular), and where it is flat the power decides; witness: three long constraints in a pinwheel, with the period of the walk checked by the kernel")
h("C81", "all operations of cdt.h", "number of faces over a rational point is constant (counting as in C44), perturbation arguments for points on edges (Proof/CdtPlane)")
h("C82", "all operations of cdt.h", "every step keeps constrained edges or divides them at a vertex on them (Proof/CdtFence); induction over the history")
h("C83", "`insert_edge`, `split_constraint`, `intersect`", "mutual induction over the four functions (Proof/CdtRoute); truncation moves the crossing by less than one unit; witnesses evaluated by the kernel")
h("C84", "`edges`, `faces`, both `operator[]`, the iterators, `edge_vert_a`, `edge_vert_b`, `edge_vert_o` (Model/CdtView)", "induction over the loops; two faces on the same side of an edge would overlap near its middle, against C81 (Proof/CdtView); counting with the twin as a bijection")
h("C85", "the union as an array of 16-bit words with reads and writes of all fields (Model/CdtView)", "arithmetic of word indices; the number of vertices never exceeds the limit (mutual induction over insert_edge)")
h("C86", "the two public functions on top of the model of C78 and C83", "floor division; C78 and C83")
h("C87", "the arguments passed to `nanosleep` and `SleepEx`, which are given by their documentation; the arithmetic of `monotonic_timestamp` (Model/Os)", "integer arithmetic")
h("C88", "`open_file`, `close_file`, `map_span`, `unmap_span` of os_win32.cpp over a model of handles, sections and views in which any call may fail (Model/Os)", "case analysis over the failing call; handles are fresh numbers")
h("C89", "`info`, `atom_t` and the `if constexpr` chains of all operations as functions of what the traits ask about a type; the interlocked addition on bit vectors (Model/Atomic)", "case analysis on sizes and traits; BitVec.ofInt is additive")
h("C90", "operations as single instructions or loops on an x86-TSO machine with plain reads and writes (Model/Atomic)", "invariant by induction over executions for the order; for publication, the newest store of the variable is tracked through buffer and memory")
h("C91", "the same machine as C90, with the rounds in vain as events", "potential argument: a thread that is bound to fail was overtaken by an effect not yet accounted for")
h("C92", "The spin lock machine of C60 (Model/SpinLock): calls, compare-exchange, waiting loop, word-wise copies, buffered stores and their arrival in memory. Spec/SpinLock: infinite runs with stuttering, weak fairness for the code of each thread and for each store buffer.", "Who is inside gets ahead by fairness (a measure of the words left), then its release reaches memory because its buffer can only shrink, then a waiting thread either takes the free lock or another one does; the reachable-state invariant of C60 says who holds the lock. Calls and effects are counted to bound the waiting when calls are finite. The starving run is given explicitly, with period 7.")
h("C93", "CE_STRLEN, as_span (with the terminator), the _alloca buffer with its stale contents, to_utf16 with its loop bound but reading on in the array of the path, and the reading of the name up to its terminator by the system.", "Whole characters are converted independently of what follows (strong induction on the bytes); the terminator is the last byte before the loop bound, so a character that swallows it leaves at least two units of room; the rest from C67.")
h("C94", "Types as terms with qualifiers; template argument deduction for the patterns `const T`, `volatile T`, `const volatile T`, `T*` with qualifiers; the choice of the most specialized match.", "Induction on types for each pattern: what it matches and deduces; that requalifying gives the type back, and an unqualified type is determined by any of its qualified forms, so all ways of removing agree.")
h("C95", "to_text_m, to_text_n, measure (1024 for vec) and the constructor of as_string, with up to four components; which overloads are visible inside to_text_n.", "The array text of C05 placed behind what is already written; lengths are added up: four texts of 254, separators and brackets are exactly 1024.")
h("C96", "A second transcription of insertion in which every difference, product and sum of coordinates is checked to fit int64_t (Model/Cdt64).", "Mutual induction: the checked functions equal the unchecked ones. A point that was accepted is a weighted mean of 16-bit corners (a face test with one strict sign already shows that the face is not degenerate), so everything behind the insertion has 17-bit vectors; the crossing is between the ends of the constraint.")
h("C97", "The byte overload of crc32 with the polynomial of crc32c_t (Model/Crc); the other overloads agree with it by C07.", "C09 reduces a collision to divisibility by the generator; the sum over the error positions has an odd number of terms or the form x^i(x^d - 1). The generator vanishes at 1; x has order 2^31-1 in (Z/2)[x]/(generator) because that number is prime (Lucas-Lehmer) and x^(2^31-1) = 1 there, computed by repeated squaring in the kernel.")
h("C98", "The generators as in C14-C18 (Model/Random).", "The walk over a full cycle counts every state once (C14-C16), so occurrences are fibres of the output function. Fibres are counted by a one to one map: the multiplications have inverses, rotations are undone, the xorshift of pcg and the step of xoroshiro are solved bit by bit. For next64 the pair of two consecutive outputs determines the state and 2 is invertible modulo the period.")
h("C99", "the functions of Model/Sort and Model/Heap with a counter of comparisons (Model/Cost); every theorem also states that forgetting the counter gives the function of C21-C25", "induction over the loops and the recursion; for the negation the constant arrays and growth of n squared against n log n")
h("C100", "same as C54-C58, corners not aligned to cells", "invariant of the walk over codes: which codes at or after the current element are wanted is unchanged by pops, splits and jumps; ascending picked indices and filter")
h("C101", "refine, on, collinear with checked 64-bit arithmetic", "barycentric weights: products of weights and area equal the cross products; linear algebra")
h("C102", "rotl32 with shifts undefined from 32 on", "bitwise")
h("C103", "arrity_count, detail::get, crack and the scopes its body sees; unqualified name lookup", "case analysis; induction over the members")
h("C104", "Preprocessing tokens with hide sets, Prosser's expansion algorithm and the library's macros as token lists; the GNU comma deletion in `, ##__VA_ARGS__`.", "Rules for one expansion step with symbolic segments of tokens, applied by tactics; expansion is monotone in the number of steps, hence unique.")
h("C105", "`to_text(char[], float/double)` with `std::to_chars` as any function meeting the contract of the standard: a text in the style of `%f` or `%e` that a correctly rounding reader reads as the number, shortest, and nearest of the shortest; `as_string` with such numbers and `vec` of them.", "Distance between neighbouring numbers is at least 2^-p of the number, 17 (9) digits come within half of 10^-16 (10^-8) of it, so a text of 17 (9) digits and three (two) digits of exponent always reads back and the shortest is no longer; finitely many texts of a length give the nearest. Rounding to nearest even has one result, the characters of a text have one reading.")
h("C106", "`debug_out` for posix with the number of characters the kernel takes as an input, the sequence of `debug_out` calls of `os::log` and `os::error`, threads stepping piece by piece in any order, optionally under a lock of the caller (Model/Stderr)", "induction over the schedule; under the lock the stream is whole lines followed by the beginning of the owner's line; two threads in turns and one short write as counterexamples")
h("C107", "`normal` of both platforms over floating point values with infinities and NaN, every operation rounded to nearest with ties to even (C107_rounding: as the standard demands), plain or with fused multiply-add; `rsqrtss` is any function with relative error at most 1.5 * 2^-12, the square root is computed", "The error of each rounding is bounded relatively and absolutely; the sum of squares is then within 2^-21 of the exact one, and the result's length follows. Overflow: a rounded result of 2^128 or more is infinite and stays so; underflow: a subnormal sum counts as zero")
h("C108", "The seeding functions of the three generators over the models of CRC-32C and FNV-1a", "CRC: a difference within 32 bits changes it (C09) and so does a different start; FNV: each step is a bijection (C11), and stretches of six bytes are told apart (C143); the steps of the generators are bijections, and two results of xoroshiro64ss determine the state. The seeds of eight bytes are as many as the states")
h("C109", "`reset` and `insert_point` of the model of C71, lists of successful insertions; faces compared by the positions of their corners", "by C79 all circles are empty. For overlapping faces the power of a common point with respect to the two circles is the same from both sides: the difference of the two circle functions is linear, nonnegative at the corners of one face and nonpositive at those of the other, so it vanishes at the corners of the face that has the point strictly inside. C81 gives a face of the other mesh over the middle of each face, and with no four points on an empty circle its corners are those of the face; both are clockwise, so one is a rotation of the other. A witness shows that with four points on an empty circle the order does matter")
h("C110", "`flip`, the flips at the end of `insert_point_at_node` and `insert_point` once more, returning the number of runs of `do_flip`, with separate bounds for the walk and for the recursion", "an invariant of the flips of one insertion: faces without the new vertex have no older vertex in their circle, and every edge at the new vertex has an empty circle through its ends, so it is never flipped; hence every flip turns a face without the new vertex into one with it, and a vertex has at most n faces because the vertices that follow it in them are distinct")
h("C111", "Model/Cdt; Spec/Sight says what is visible in terms of segments.", "walk along the line of sight: the power of the vertex does not grow from face to face, and is zero at the end; a point inside a face is moved a little so that the line meets no other vertex. Uniqueness: corners are visible from inside, so the two circles agree (lifting, as in C109).")
h("C112", "`insert_edge`, its loop and `split_constraint` once more with the search for the face of a point as a parameter (`Verif/Model/CdtBy.lean`); the walk of the code and the exhaustive search under `#if 0` as two instances. `C112_same` ties the first to the model of C74-C83.", "The distance along the axes from one end to the other is a measure: a rounded intersection lies in the box of the ends and is neither of them, so it splits the distance into two smaller ones; passing through a vertex makes it smaller; a flip keeps it but puts one more corner at the vertex the edge starts from, and there are only `3 (2n - 6)` corners. Turning around a vertex that is not a corner of the square comes to the face that looks at the other end: vectors that always turn the same way and come back pass every direction (`pass_around`). Vertices are counted by the same induction.")
h("C113", "the functions of Verif/Model/Cordic.lean", "composition of the error bounds of C52 and C77 with the true rotation (`C113_rotate_twice`, `C113_rotate_back`, `C113_polar_back`, `C113_cartesian_back`, `C113_length`)")
h("C114", "`fill` and the triangulation of Verif/Model/Cdt.lean, `in_polygon` of Verif/Model/Vec.lean; winding numbers are sums of angles (Spec/Winding.lean) at real points", "the winding number is continuous and a multiple of a full turn, so it is the same at both ends of a segment that does not meet the polygon (Proof/WindingMove.lean); constrained edges do not enter faces and do not touch the inside of an unconstrained edge (C111), so faces joined by an unconstrained edge are joined by such segments; `C114_same`, `C114_fill`, `C114_outside`, and `C114_fences` for sides made of fences (C82, C83). Across an edge passed once the angle of that edge jumps by a full turn while the others are continuous (Proof/WindingCross.lean): `C114_sides`, `C114_separated`")
h("C115", "`fill` and `fill_ex` as the recursion of the code with a bound on its depth, `inPolygon`; the outline is a predicate on the links and flags of the mesh", "The boundary of a set of faces that is closed under crossing free edges enters every vertex as often as it leaves it; at each vertex of the outline it continues along the outline, hence it is the whole outline or empty; an empty boundary means all faces (every line from a face to another crosses edges). So each set contains one of the two faces at the first side, and those differ by one in winding number (C114).")
h("C116", "`encode`, `query`, `inside` (Model/Zorder.lean) and `introSort` (Model/Sort.lean), the same definitions as for C22 and C55", "Sortedness and permutation from C22, the rectangle from C100, the return from C57; the elements after sorting are still codes of points.")
h("C117", "`fill` and `fill_ex` as the recursion of the code with a bound on its depth; closed lines and winding numbers are defined without reference to the faces (sums of angles)", "The edges of the painted faces without painted neighbour start at every vertex as often as they end there, so they can be joined to closed polygons (induction on the number of paths). The angle under which they are seen is the sum over the painted triangles, because inner edges cancel; a clockwise triangle is seen under minus one turn from inside and under nothing from any other face of the tiling.")
h("C118", "rotate, vector and the functions that pick a component", "From the accuracy of rotate (C52) and vector (C77), with Mathlib's Complex.arg as the specification of the angle.")
h("C119", "muldiv for int32_t factors", "Bounds on the product and the truncated quotient.")
h("C120", "seed, read, step and next of pcg32_64_t, seed of xoroshiro128pp", "Iteration of the step compared with the published functions, which reproduce the published test run.")
h("C121", "crc32 over bytes and words", "The four bytes are one step of the word overload, which is linear and injective.")
h("C122", "The mesh of Model/Cdt, as for C71–C81; edges, distances, circles (with real centre) and paths are in Spec/Near.lean, in terms of corners of faces and coordinates.", "From C81 (tiling) the direction from a vertex towards any other starts within a face with that corner (pigeonhole over the finitely many faces), which writes the difference as a non-negative combination of two edges; C79 (no vertex inside the circle) then compares squares with linear functions (Proof/Near.lean).")
h("C123", "The mesh of Model/Cdt; averages with real weights, spread and bounded curvature are in Spec/Interpolate.lean.", "The circle of a face (C79) gives an affine function below x²+y² at every vertex and equal at the corners; C81 gives the face (Proof/Interpolate.lean).")
h("C124", "The mesh of Model/Cdt; angles by the arc cosine of real analysis in Spec/Interpolate.lean.", "C79 (locally Delaunay): the in-circle determinant is the difference of cotangents of inscribed angles, times positive factors; angles compare as cotangents do (Proof/Interpolate.lean).")
h("C125", "`insertEdge`, `edgeLoop`, `corner`, `constrainEdge`, `locateIns`, `insertAt`, `fill`, `inPolygon`. Spec: `Drawn` (only the flags of the named edges differ), `Drawing` (a list of calls), `sidesOf`.", "The corner at a vertex that looks towards a point is unique, since the faces do not overlap, so the loop stops at the edge; on a locally Delaunay mesh `constrain_edge` flips nothing; the search from a face with the vertex ends at once. Lists by induction, the polygon with C122 and C115.")
h("C126", "The operations of cdt as for C79 and C111. The other triangulation is any list of clockwise triangles between vertices that cover the square and meet vertices at their corners only; C126_meshes shows that the faces of every mesh are one.", "Take an angle and the side a b opposite to it. By compactness (a filter at 0) one triangle of the other triangulation has points of the face near a and near the side; a is a corner of it, its next side is crossed by or ends at b, and its third corner, not inside the circle, sees a b under an angle that is not larger. That the condition is needed: `C126_insert_edge_false`, a mesh made by `insert_edge` in which turning one edge makes every angle larger than its smallest; angles are compared by their cotangents, which are rational.")
h("C127", "As C126; circles with real centre and radius.", "The centre of the smallest circle around a face is a rational point of the face (the centre of its circumcircle or the middle of a side); the triangle of the other triangulation there has its corners outside the circumcircle, and the power of the centre bounds every circle around that triangle from below. That the condition is needed: `C127_insert_edge_false`, with the centres of the circles given and a convex combination of squared distances as lower bound.")
h("C128", "`decode`, `size` (Model/Base64.lean), the same definitions as for C12 and C13; the order of bits is stated with `bitAt` (Props/Base64Bits.lean)", "Each byte is the or of two shifted letters; the positions of its bits are followed through the three cases of i mod 3 by linear arithmetic. Equality of bytes from equality of bits.")
h("C129", "`decodeInto` is the loop of `decode` on a destination with given contents; `decoder` is `size`, zeroed bytes and `decodeInto`. A bad access in constant evaluation, or an array of no bytes, is a compile error: `none`. Limits of a compiler on the steps of constant evaluation are not modelled.", "The run on an empty destination and the run on a filled one are kept side by side: they agree below the write index, and a span always begins behind it or outside the destination. With C35 and C37 this gives the result for decoder.")
h("C130", "Height, slope and roughness of the surface over a mesh (Spec/Rough), stated over the corners of faces and real heights; Sheet: a triangulation whoever made it.", "A flip changes the roughness by det * K^2 / (product of four areas), K the distance of the four heights from a plane: an identity of polynomials, so in-circle flips never raise it and those flips end (potential of C73) at a Delaunay mesh. Two constrained Delaunay meshes of the same places and constraints are equally rough: the roughness is a sum over edges of the cotangents opposite, in which edges with four corners on a circle cancel with their twins, and every other edge is in both meshes, because its middle lies in a face of the other one that overlaps a face beside it, and faces that overlap have their corners on one circle (visibility as in C111). The other triangulation gets the constraints of the first and the flips keep these. A mesh that is not locally Delaunay is improved by one try_flip, which gives the exact characterisation and, with the mesh of C79, the counterexample for insert_edge. With heights x^2 + y^2 every in-circle flip lowers it, hence the exact characterisation.")
h("C131", "the acquisitions and releases of each thread, nested as the scopes are, with the releases in store buffers that an acquisition waits for (Model/SpinNest)", "invariant: who holds which slots; induction on the slots above the one waited for; the work left decreases")
h("C132", "`int128_t`, `xmul`, `xdiv` over `mul128` (C42) and the signed division instruction with its exceptions (Model/Wide).", "The halves make up the product (integer arithmetic); passing the low half as a signed number keeps its bits; the size of a part by multiplying out.")
h("C133", "Atomics that hold bits, with a map to values; the operations of atomic_std.h with any bits for the relaxed load and weak failures; the loop of a caller with copies that may change padding.", "Invariant: the values replay as effects in order; rounds in vain are paid for by calls and effects of others; == of binary32 against equality of bits; witnesses.")
h("C134", "the functions of C21 to C25 with an arbitrary Boolean function for `operator<`", "the permutation part of the invariants without the order; an order among some values is extended to all values, and both comparisons give the same run")
h("C135", "the functions of C22 and C24 one after the other", "sorted order splits the array at the two positions; permutations keep counts")
h("C136", "the model of C53 (Model/Isqrt): conversion to binary64, correctly rounded root, conversion to int32_t, and the generic variant", "Proof/IsqrtMono: rounding to nearest keeps the order of fractions; conversion to double keeps the order and is idempotent; the significand of the root times the other's scale keeps the order across exponents; the root of a rounded square below 2^64 is exact. The bounds and the triangle inequality follow from C53's error bounds with Cauchy's inequality")
h("C137", "Model/InPlace: the three functions with all arguments as addresses in one memory", "refinement of the models for separate memory (Model/Base64, Model/Zorder, Model/Vec): the write position never passes the read position, and searches look only ahead of it; the steps of intersect are followed for each overlap")
h("C138", "`inPolygon` (C50) with the contribution `crossing` of each edge, `inside` and `inTriangle` (C44)", "The contribution of an edge depends on the side of the two heights and the strict sign of the cross product. For a triangle the three cross products weighted by the opposite heights sum to zero, which decides the signs in each of the eight patterns of heights; two patterns up to rotation are proved by hand. Opposite directions cancel (`crossing` is antisymmetric), so sums over parts equal the sum over the whole.")
h("C139", "`inRange`, `inRangeLine`, `inRangeRay`, `inRangeSegment`, `inRangeEdge` (Model/Vec), `hypot`, `hypotGeneric` (Model/Isqrt)", "Each test is equivalent to the existence of a near point of the line with a parameter in an interval (C45, C46). The near parameters form an interval (convexity of the square), the other end is the parameter 1 - t; hypot by the error bound of C53.")
h("C140", "`decode` again, with source and destination as addresses in one memory (Model/LziiiMem)", "Induction over the encoding from inside a group, with the invariant that what is left of the stream is at most as long as what it still produces and the control bytes it still contains; a literal takes one byte and gives one, a span takes two and gives at least three, and of the control bytes the first has been read before anything is written.")
h("C141", "`faceList` and `faceAt` (C84), `inPolygon` (C50), `locate` (C75); `faceCount` is the loop body a user writes", "The directed edges of the faces are those of the square and pairs of opposite edges (the invariant of C71), so by C138 the counts add up to that of the square, which is computed; each is 0 or -1. Off the edges the triangle test and the count have the same strict signs.")
h("C142", "The mesh operations of Model/Cdt.lean and locate; a search is a list of vertices, each joined to the next by an edge of a face in use and strictly farther from the point than the next.", "The distances decrease, so a search has no vertex twice and is shorter than the number of vertices; the longest search cannot be continued, and C122_greedy says that its end is nearest. The face of locate is in use by C75_locate, so its corners are vertices. The witness is a mesh of three points built by the model.")
h("C143", "fnv1a of Model/Fnv.lean and the dictionary of Model/Dictionary.lean, with fnv1a(text) as the key of each call.", "The high part of the hash (all but 8 bits) after a byte is the old one times the prime plus l * 2^s + r * l / 256 with l the low byte after the exclusive or. For two strings of the same length the difference is a number in base r (403 or 435) with digits below r plus 2^s times a second sum. If it vanishes, the first sum is a multiple k of 2^s; for k = 0 all digits are 0, for each of the 2 (3618) other k a complete search through the digit sequences, evaluated by the kernel and proved complete, finds none with a fitting second sum. The different lengths of names are settled by computing which high parts one and two bytes can lead to. The dictionary follows from C32 because the keys are in one-to-one relation to the names and never 0.")
h("C144", "crc32 over bytes with the table of the Castagnoli polynomial (Model/Crc).", "A zero bit acts on the register as multiplication by x modulo the generator, a permutation whose order is the prime 2^31-1 (proved for C97), so a register value is fixed by one step or has period exactly 2^31-1; the fixed values are computed from the bits by downward induction.")
h("C145", "z_query, z_lower_bound with a counter of array reads (Model/ZorderCost); C145_same says that the output is that of Model/Zorder.", "Every lower corner the walk jumps to is the beginning of a run (invariant of the box stack), and successive jumps go to different ones because the array is sorted; runs are counted by the coordinates of the predecessor of a code.")
h("C146", "The model of C35 (size and decode byte for byte, none for an access outside the arrays).", "sizeLoop_ratio: 17 times the bytes counted never exceed 144 times the source bytes used plus 18 per control bit at hand, an invariant of the loop. The stream of literals and the stream of one literal and copies of length 18 give existence and sharpness through C35. decodeLoop_append and decodeLoop_stop are inductions over the source and over the encoding relation.")
h("C147", "The model of C06 and C97; `errors` is the set of bit positions in which two messages differ.", "Four terms of degree at most 5274 are never a multiple of the generator: in the ring of remainders every 1 + x^a is a power of x times a fixed element, and four terms that vanish would make two of the 5274 logarithms close, which sorting them excludes. The logarithms are a certificate (CrcTables.lean, written by tools/crc_tables.py); the kernel checks it with polynomials coded in six bits for each coefficient, for which Gf2Spread.lean proves that products of numbers are products of polynomials. An odd number of wrong bits is C97.")
h("C148", "The model of C14 to C17; the machine's result of a shift by 32 is a parameter as in C17.", "Adding 2^63 commutes with the linear congruential step because the multiplier is odd, and changes one bit before the rotation and the amount of the rotation by 16. The output function of xoroshiro64ss and x ^ (x << 9) are inverted explicitly (`predict`).")
h("C149", "The model of the atomic loops of C59 (Model/FetchAdd.lean). The client that counts references is a separate relation (Users): a call needs a handle not in use by another call, a clone gives back two, a drop none.", "Every step is a call, a quiet step, an effect or a return. Tickets: the returned results and those about to be returned are a permutation of the first k numbers, k the effects so far, and calls = effects + threads with work to do. Reference counts: the count is the sum of the free handles and of what each thread accounts for; the number of drops told 1 is 1 exactly when the count is 0.")
h("C150", "A layout function for structures with plain members and bit-fields (Model/Layout.lean), the declarations of rgba, vec, edge_data, face_data, vert_data and thread_mutex as lists of members.", "Induction over the members for structures of one type. For the union the offsets of the members of the first element are computed by the kernel and the index is added by arithmetic.")
h("C151", "The model of atomics with store buffers of C90 (Model/Atomic.lean).", "Every step is an effect of the sequential meaning or leaves the atomics alone; induction over executions gives the position of the successful compare-exchange in the execution. The third part finds it between the write and the other thread's operation and applies C90_publish.")
h("C152", "nothing new: the model of to_text and as_string of C03 and C05", "the digits of a number end at the first character that is no digit, induction over the pattern; the reader splits at commas, induction over the array")
h("C153", "threads with lists of calls over several mutexes, on top of the model of the wrappers and platform locks of C62", "the invariant of C62 for each mutex; of the threads that wait, one that waits for a mutex of highest rank finds it free; the number of calls to be made falls")
h("C154", "the shuffle loop on lists, on top of the model of next_unbiased, pcg32_64 and xoroshiro64ss", "the output sequences that lead to an arrangement are the draws that bring its first element to the front times those that arrange the rest; counting states against n!")
h("C155", "the event loop, on top of the model of min_priority_queue of C25", "what is dequeued is minimal and everything that comes later is waiting or posted by a later handler; induction over turns and histories")
h("C156", "nothing new: the model of base64 of C12", "byte 3 k + i of a text with 4 k characters in front is byte i of the rest, induction over the groups")
h("C157", "`crc32Bytes`, `crc32c` (Model/Crc.lean); the name characters are in Spec/CrcNames.lean", "The CRC is a sum over the bytes (linearity). Equal lengths: the last four bytes form a word, and the difference made by the bytes before would have to vanish under a mask (complete tables of 64 and 1024 cases). Different lengths: parity checks on the CRC that do not see which characters are used tell the length, except five against none or one, where four more checks read bits of the fourth character and give one that is no name character.")
exec(open(os.path.join(root, "tools", "design_more.py")).read()) if os.path.exists(os.path.join(root, "tools", "design_more.py")) else None

claims = {c["property"]: c for c in json.load(open(os.path.join(root, "MANIFEST.json")))["claims"]}
rows = []
for line in open(os.path.join(root, "properties.jsonl")):
    p = json.loads(line); i = p["id"]; c = claims[i]
    if i not in HOW: print("no description for", i); continue
    m, how = HOW[i]
    names = ", ".join("`%s`" % t.split(".")[-1] for t in c["theorems"])
    rows.append("### %s %s (%s)\n\n* Modelled: %s.\n* Proof: %s.\n%s* Theorems: %s.\n" % (i, p["title"], c["status"], m, how, ("* Note: %s\n" % c["note"]) if c["note"] else "", names))
path = os.path.join(root, "DESIGN.md")
s = open(path).read()
a, b = "<!-- properties -->\n", "<!-- end properties -->\n"
s = s[:s.index(a) + len(a)] + "\n" + "\n".join(rows) + "\n" + s[s.index(b):]
open(path, "w").write(s)
print(len(rows), "properties described")
