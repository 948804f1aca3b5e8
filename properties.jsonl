{"id": "C01", "title": "A particle's representations always describe the same momentum", "statement": "After any sequence of successful assignments to r_sp_d, l_sp_d, r_sp_u, l_sp_u, r2_sp, r2_sp_b, four_mom, four_mom_d, the exposed r2_sp, r2_sp_b, four_mom and four_mom_d of a Particle are index-raised/lowered/slashed versions of one another, and the exposed up-index spinors are the index-raised down-index spinors.", "quantifier": "for every field with a square root of -1, every starting particle that is consistent, and every finite history of assignments with arbitrary values", "why_tests_cant": "The eight setters can be interleaved in any order with any values; tests exercise a handful of single assignments.", "anchors": ["lips/particle.py: Particle setters r_sp_d, l_sp_d, r_sp_u, l_sp_u, r2_sp, r2_sp_b, four_mom, four_mom_d"]}
{"id": "C02", "title": "Assigning a representation and reading it back returns the same value", "statement": "For each of the eight kinematic properties, reading it straight after assigning it returns what was assigned; raising then lowering (or lowering then raising) a spinor, bispinor or vector index is the identity.", "quantifier": "for every particle state and every assigned value over every field of characteristic different from two with a square root of -1", "why_tests_cant": "Round trips must hold for every component value; a test checks random points to a tolerance.", "anchors": ["lips/particle.py: Particle._r_sp_d_to_r_sp_u, _r_sp_u_to_r_sp_d, _l_sp_d_to_l_sp_u, _l_sp_u_to_l_sp_d, _r2_sp_to_r2_sp_b, _r2_sp_b_to_r2_sp, _r2_sp_to_four_momentum, _r2_sp_b_to_four_momentum, _four_mom_d_to_r2_sp"]}
{"id": "C03", "title": "The mass squared is the Minkowski square and the determinant", "statement": "Particle.m2 equals P0^2-P1^2-P2^2-P3^2 of the exposed four momentum, and equals the determinant of the exposed rank-two spinor; the Lorentz dot product of two particles is the polarised form, is symmetric and bilinear.", "quantifier": "for all four-vectors over every field of characteristic different from two with a square root of -1", "why_tests_cant": "It is a polynomial identity in all components; finitely many points do not establish it.", "anchors": ["lips/particle.py: Particle.lsq, m2", "lips/tools.py: ldot", "lips/particles_compute.py: Particles_Compute.ldot"]}
{"id": "C04", "title": "Particles built from spinors are massless, and massless momenta are rebuilt from their spinors", "statement": "A particle whose right or left spinor was last assigned has m2 = 0 whatever the values. Conversely assigning a momentum with m2 = 0 and P0+P3 not small yields spinors whose outer product is that momentum, in both spinor conventions.", "quantifier": "for all spinor values; for all massless momenta away from the negative z direction; for both spinor conventions", "why_tests_cant": "Square-root and division branches depend on every component; random tests never prove the identity.", "anchors": ["lips/particle.py: Particle._set_r_sp_d, _set_l_sp_d, _r1_sp_to_r2_sp, _r1_sp_to_r2_sp_b", "lips/__init__.py: spinor_convention"]}
{"id": "C05", "title": "A momentum along the degenerate direction never corrupts a particle", "statement": "Assigning a momentum whose P0+P3 vanishes leaves the momentum representations consistent and the four spinor slots either all unset or consistent with the new momentum.", "quantifier": "for all momenta with P0+P3 = 0, for both spinor conventions", "why_tests_cant": "The degenerate direction has measure zero, so random tests never reach it.", "anchors": ["lips/particle.py: Particle._set_r_sp_d, _set_l_sp_d, r2_sp setter, four_mom setter"]}
{"id": "C06", "title": "Particle arithmetic is four-vector arithmetic", "statement": "p+q, p-q, -p, p*c, c*p and p/c have the momentum that vector arithmetic gives, sum() over any list of particles is the vector sum, independent of order and grouping, and the operands' momenta are unchanged.", "quantifier": "for all particles, all scalars and all finite lists of particles", "why_tests_cant": "sum() starts from the integer 0 and goes through __radd__, so the law needs induction on the list.", "anchors": ["lips/particle.py: Particle.__add__, __radd__, __sub__, __neg__, __mul__, __truediv__"]}
{"id": "C07", "title": "Equal particles have equal hashes", "statement": "If two Particle objects compare equal then they have the same hash, and equality is an equivalence relation that depends on the momentum only.", "quantifier": "for all pairs of particles", "why_tests_cant": "The hash uses spinors for massless particles while equality uses the momentum, so the failing pairs are those related by little-group scaling, which random tests never generate.", "anchors": ["lips/particle.py: Particle.__eq__, Particle.__hash__"]}
{"id": "C08", "title": "Swapping angles for squares twice is the identity, and once is parity", "statement": "angles_for_squares keeps m2, maps the momentum to its parity image (only P2 changes sign), leaves all representations consistent, and applied twice restores the particle exactly (for a massive fermion with a spin index, up to a common sign of both spinors).", "quantifier": "for all particles, with or without spinors, with or without a spin index", "why_tests_cant": "Needs every component value and each of the optional-state combinations.", "anchors": ["lips/particle.py: Particle.angles_for_squares", "lips/particles.py: Particles.angles_for_squares"]}
{"id": "C09", "title": "fix_mom_cons (complex, axis 1) conserves momentum touching only |A> and |B>", "statement": "After fix_mom_cons(A, B) the total momentum is exactly zero, A and B are massless, [A| and [B| and every other particle are unchanged, provided [A|B] is not zero.", "quantifier": "for every number of particles n>=2, all distinct A, B in 1..n, all momenta of the other particles (massive or not), with [A|B] nonzero", "why_tests_cant": "The sum over all other particles needs a proof for every n and every value; tests use a few multiplicities and tolerances.", "anchors": ["lips/particles.py: Particles.fix_mom_cons"]}
{"id": "C10", "title": "fix_mom_cons (complex, axis 2) conserves momentum touching only |A] and |B]", "statement": "After fix_mom_cons(A, B, axis=2) the total momentum is exactly zero, A and B are massless, |A> and |B> and every other particle are unchanged, provided <A|B> is not zero.", "quantifier": "for every n>=2, all distinct A, B in 1..n, all momenta of the others, with <A|B> nonzero", "why_tests_cant": "Same as for axis 1.", "anchors": ["lips/particles.py: Particles.fix_mom_cons"]}
{"id": "C11", "title": "fix_mom_cons (real) conserves momentum and keeps A and B on shell", "statement": "With real_momenta=True and axis in 1..3, if K0 differs from K_axis (K the sum of the other momenta) the total momentum is exactly zero, A and B are massless, every component of A and B lies in any subfield containing the components of the others, and every other particle is unchanged.", "quantifier": "for every n>=2, all distinct A, B, each axis, all momenta of the others with K0 != K_axis", "why_tests_cant": "Needs the rational identity for every K and every axis.", "anchors": ["lips/particles.py: Particles.fix_mom_cons"]}
{"id": "C12", "title": "The random choice of the two compensating particles is irrelevant for conservation", "statement": "With A = B = 0, whichever pair random.sample returns, the result conserves momentum if the relevant bracket is nonzero; with exactly one of A, B equal to zero the call silently changes nothing.", "quantifier": "for every n>=2 and every possible random outcome", "why_tests_cant": "The outcome is random; a test sees one draw per seed.", "anchors": ["lips/particles.py: Particles.fix_mom_cons"]}
{"id": "C13", "title": "Only the two chosen particles are rewritten, and a conserving point is a fixed point", "statement": "fix_mom_cons applied to a point that already conserves momentum with the massless pair A, B and [A|B] != 0 (axis 1) or <A|B> != 0 (axis 2) leaves every particle unchanged, hence fix_mom_cons is idempotent.", "quantifier": "for all n, A != B, and all phase-space points conserving momentum", "why_tests_cant": "An identity over the whole momentum-conserving variety, not a sample of it.", "anchors": ["lips/particles.py: Particles.fix_mom_cons"]}
{"id": "C14", "title": "Spinor brackets are antisymmetric and satisfy the Schouten identity", "statement": "<A|B> = -<B|A>, [A|B] = -[B|A], <A|A> = 0, and <AB><CD> + <AC><DB> + <AD><BC> = 0 and likewise for squares.", "quantifier": "for all labels and all spinor values", "why_tests_cant": "Polynomial identities over all inputs.", "anchors": ["lips/particles_compute.py: Particles_Compute.compute (pA2, pS2 branches)"]}
{"id": "C15", "title": "Two-particle Mandelstams are products of brackets", "statement": "For massless particles s_AB = <A|B>[B|A] = 2 pA.pB, and s_A = 0; s is the square of the summed momentum for any list of labels.", "quantifier": "for all labels, all massless momenta", "why_tests_cant": "Polynomial identity; fixes the sign convention for every input.", "anchors": ["lips/particles_compute.py: Particles_Compute.compute (pSijk branch)", "lips/tools.py: det"]}
{"id": "C16", "title": "Mandelstams depend only on the set of labels, and equal their complement", "statement": "s_{i..k} is invariant under reordering of its labels, and on a momentum-conserving point s of a set of labels equals s of the complementary set.", "quantifier": "for every n, every list of labels, every momentum-conserving point", "why_tests_cant": "Needs all subsets of all multiplicities.", "anchors": ["lips/particles_compute.py: Particles_Compute.compute (pSijk branch)", "lips/particles.py: Particles._complementary"]}
{"id": "C17", "title": "Spinor strings expand into products of brackets", "statement": "<A|P1|P2|...|B] evaluates to the sum over choices of one massless label in each slot of the alternating product of angle and square brackets; each slot is linear, with the sign written in the string.", "quantifier": "for strings of every length, every slot content with signs, all massless values", "why_tests_cant": "Chains have unbounded length; needs induction over the chain.", "anchors": ["lips/particles_compute.py: Particles_Compute.compute (pNB branch)"]}
{"id": "C18", "title": "Reversing a spinor string flips its sign according to its parity", "statement": "<A|P1..Pk|B> = -<B|Pk..P1|A> for even k, [A|..|B] likewise, and <A|P1..Pk|B] = [B|Pk..P1|A> for odd k.", "quantifier": "for strings of every length and all momenta, massive or not", "why_tests_cant": "Unbounded chain length.", "anchors": ["lips/particles_compute.py: Particles_Compute.compute (pNB branch)"]}
{"id": "C19", "title": "Momentum conservation can be used inside a spinor string", "statement": "On a momentum-conserving point replacing any slot of a spinor string by the complementary set of labels flips the sign of its value, and if the slot is next to a massless end label that label can be added or dropped freely.", "quantifier": "for all n, all chains, all slots, all momentum-conserving points", "why_tests_cant": "The set code relies on this for arbitrary strings (flip sign -1); finitely many strings do not settle it.", "anchors": ["lips/particles_compute.py: Particles_Compute.compute (pNB branch)", "lips/hardcoded_limits/particles_set.py: Particles_Set._set_NB"]}
{"id": "C20", "title": "Scalar invariants are Lorentz invariant", "statement": "Transforming every angle spinor by one SL(2) matrix and every square spinor by another leaves every <A|B>, [A|B], closed spinor string, s, trace, tr5, Gram Delta, Omega and Pi value unchanged.", "quantifier": "for all matrices of determinant one, all points, all strings", "why_tests_cant": "Continuous symmetry acting on all inputs.", "anchors": ["lips/particles_compute.py: Particles_Compute.compute"]}
{"id": "C21", "title": "Invariants have definite little-group weights", "statement": "Rescaling |A> by t and |A] by 1/t leaves the momentum of A unchanged, and multiplies a closed spinor string by t to the number of angle end-labels A minus square end-labels A; traces, s, tr5, Delta, Omega, Pi are unchanged.", "quantifier": "for all nonzero t, all labels, all strings, all points", "why_tests_cant": "Continuous symmetry acting on all inputs.", "anchors": ["lips/particles_compute.py: Particles_Compute.compute"]}
{"id": "C22", "title": "Traces are cyclic, reversible and consistent with brackets", "statement": "tr(P1|...|P2k) is invariant under cyclic shift by two, under reversal, tr(A|B) = 2 A.B, and tr(A|B|C|D) = [A|B|C|D|A> for massless A.", "quantifier": "for traces of every even length and all momenta", "why_tests_cant": "Unbounded length.", "anchors": ["lips/particles_compute.py: Particles_Compute.compute (ptr branch)"]}
{"id": "C23", "title": "tr5 is totally antisymmetric, and linear in every momentum slot", "statement": "tr5(a|b|c|d) changes sign when two slots are swapped and is additive in each slot, including slots that are sums of several labels.", "quantifier": "for all momenta and all slot contents for which compute returns a value", "why_tests_cant": "The rotation used to find a massless first slot only shows its sign on sums placed first.", "anchors": ["lips/particles_compute.py: Particles_Compute.compute (ptr5 branch)"]}
{"id": "C24", "title": "tr5 squared equals the five-point Gram determinant", "statement": "On every five-point massless momentum-conserving point, the value of δ5 equals tr5_1234 squared.", "quantifier": "for all massless momentum-conserving five-point kinematics", "why_tests_cant": "Identity on a variety; sampling does not prove it.", "anchors": ["lips/particles_compute.py: Particles_Compute.compute (pd5, ptr5 branches)"]}
{"id": "C25", "title": "The Gram Delta is the Källén function and does not depend on the dropped corner", "statement": "With three corners whose momenta sum to zero, Δ = (P1.P2)^2 - P1^2 P2^2 = a quarter of the Källén function of the three masses, is invariant under permuting the corners, and the shorthand Δ_ijk equals the explicit Δ with the arcs spelled out.", "quantifier": "for all n, all partitions of the labels into three corners, all momentum-conserving points", "why_tests_cant": "Needs all partitions and all points.", "anchors": ["lips/particles_compute.py: Particles_Compute.compute (pDijk branch)", "lips/particles.py: Particles.ijk_to_3NonOverlappingLists"]}
{"id": "C26", "title": "The determinant routine is the determinant", "statement": "det(matrix) returns the Leibniz determinant for every square matrix of size at least one, so it is alternating, multilinear and multiplicative.", "quantifier": "for all sizes n>=1 and all entries in a commutative ring", "why_tests_cant": "Recursion on the matrix size; needs induction.", "anchors": ["lips/tools.py: det"]}
{"id": "C27", "title": "Omega and Pi are fixed by the Gram Delta and the Mandelstams", "statement": "At six points with three two-label arcs A=(a1,a2), B, C and T = s_B+s_C-s_A: on every massless momentum-conserving point s_{C,a1}+s_{C,a2} = T, Π = 2 s_{C,a1} - T, Ω = -2Δ - TΠ/2, and Ω plus the Ω with the labels of arc A exchanged equals -4Δ.", "quantifier": "for all massless momentum-conserving points and all choices of seeds giving three arcs of two labels", "why_tests_cant": "Polynomial identities on the momentum-conserving variety.", "anchors": ["lips/particles_compute.py: Particles_Compute.compute (pOijk, pPijk, pDijk branches)"]}
{"id": "C28", "title": "A spinor string with the wrong closing bracket is rejected, the right one accepted", "statement": "compute raises SyntaxError exactly when the closing bracket of a spinor string does not match its opening bracket and number of slots; otherwise the index contraction is of the right type and the result is a scalar.", "quantifier": "for strings with any number of slots", "why_tests_cant": "Unbounded number of slots.", "anchors": ["lips/particles_compute.py: Particles_Compute.compute (pNB branch)"]}
{"id": "C29", "title": "Open-index strings glue to closed strings", "statement": "Contracting an open-ended string with the matching end spinor gives the closed string, and a double-open string contracted on both sides gives the closed string; |A>[A| is the bispinor of A for massless A.", "quantifier": "for all chains and all points", "why_tests_cant": "Unbounded chain length.", "anchors": ["lips/particles_compute.py: Particles_Compute.compute (pNB_open_begin, pNB_open_end, pNB_double_open branches)"]}
{"id": "C30", "title": "Polarisation contractions satisfy transversality and gauge identities", "statement": "ep(i,i) = 0, ep(i,q) = 0 for the reference vector, the sum over j of ep(i,j) vanishes on momentum-conserving points, ee is symmetric, ee vanishes for equal helicities, and changing the reference vector shifts ep(i,j) by a multiple of the gauge direction.", "quantifier": "for all n, labels, helicity configurations, points and reference vectors with nonzero denominators", "why_tests_cant": "Gauge identities hold for every reference vector.", "anchors": ["lips/particles_compute.py: Particles_Compute.ep, pe, ee"]}
{"id": "C31", "title": "ee terminates on every helicity configuration", "statement": "ee(i, j) returns a value for every helicity configuration written with the documented symbols '+', 'p', '-', 'm'.", "quantifier": "for all helicity configurations over those four symbols", "why_tests_cant": "Mixed spellings of the same helicity recurse; a test with one spelling never sees it.", "anchors": ["lips/particles_compute.py: Particles_Compute.ee"]}
{"id": "C32", "title": "image applies the permutation and images compose", "statement": "For n<=9 and pairwise distinct momenta, image(p) moves particle i to position p(i), image of an image is the image of the composition, image by inverse(p) undoes image(p), and self is not modified.", "quantifier": "for all permutations of up to nine labels and all points with pairwise distinct momenta", "why_tests_cant": "9! permutations times all points.", "anchors": ["lips/particles.py: Particles.image", "lips/symmetries.py: inverse, identity"]}
{"id": "C33", "title": "image is correct for points with coinciding momenta", "statement": "image applies the permutation also when two particles have equal momenta.", "quantifier": "for all points and permutations", "why_tests_cant": "Coinciding momenta are measure zero but are produced by the special limits the package constructs.", "anchors": ["lips/particles.py: Particles.image"]}
{"id": "C34", "title": "copy returns an equal phase-space point", "statement": "copy() returns a point with the same particles in the same order.", "quantifier": "for every multiplicity n and all points", "why_tests_cant": "The identity permutation string is ambiguous from n=10 on; tests use small n.", "anchors": ["lips/particles.py: Particles.copy", "lips/symmetries.py: identity"]}
{"id": "C35", "title": "Evaluating on the image is evaluating the relabelled expression", "statement": "For every expression, compute on image(p) equals compute of the expression with labels mapped by the inverse relabelling on the original point, and with the swap flag angle and square brackets are exchanged up to the documented sign.", "quantifier": "for all expressions, permutations and points", "why_tests_cant": "Holds for all strings and all group elements.", "anchors": ["lips/particles.py: Particles.image", "lips/particles_compute.py: Particles_Compute.compute"]}
{"id": "C36", "title": "inverse is an involutive inverse on permutations", "statement": "inverse(inverse(p)) = p, and composing p with inverse(p) is the identity string, for permutations of up to nine labels; the symmetry flag is kept.", "quantifier": "for all permutations of 1..n, n<=9", "why_tests_cant": "All permutations.", "anchors": ["lips/symmetries.py: inverse, identity"]}
{"id": "C37", "title": "Phase-weight symmetries form a group containing the identity", "statement": "phase_weights_compatible_symmetries returns exactly the permutations that map the weights to themselves (flag False) or to their negatives (flag True), without repetition; the result contains the identity and is closed under composition and inversion; all_symmetries returns all n! permutations with flag False.", "quantifier": "for all lists of weights", "why_tests_cant": "Group closure over all inputs.", "anchors": ["lips/symmetries.py: phase_weights_compatible_symmetries, all_symmetries"]}
{"id": "C38", "title": "Base-one indexing accepts exactly 1..len and reads what was written", "statement": "oPs[i] succeeds exactly for 1<=i<=len; writing then reading returns the value, other positions unchanged; deletion removes exactly that position; otherwise IndexError and no change.", "quantifier": "for all lengths, indices and histories of writes and deletions", "why_tests_cant": "All histories.", "anchors": ["lips/tools.py: indexing_decorator", "lips/particles.py: Particles.__getitem__, __setitem__, __delitem__, insert"]}
{"id": "C39", "title": "insert can place a particle at every position including the end", "statement": "For every position 1..len+1 insert(i, x) yields a list whose i-th entry is x with the others shifted.", "quantifier": "for all lengths and positions", "why_tests_cant": "Boundary position len+1 for every length, in particular the empty list.", "anchors": ["lips/particles.py: Particles.insert", "lips/tools.py: indexing_decorator"]}
{"id": "C40", "title": "String indexing addresses the particle whose label is in the string", "statement": "oPs['<i|'] etc. read and write the corresponding spinor of particle i, other particles unchanged, and a plain label string 'i' addresses particle i.", "quantifier": "for all labels including multi-digit ones", "why_tests_cant": "Multi-digit labels are outside the usual test multiplicities.", "anchors": ["lips/particles.py: Particles.__getitem__, Particles.__setitem__"]}
{"id": "C41", "title": "Equality of phase-space points is an equivalence relation", "statement": "Particles.__eq__ is reflexive, symmetric and transitive and implies equal length.", "quantifier": "for all pairs and triples of points", "why_tests_cant": "Different lengths are the untested case.", "anchors": ["lips/particles.py: Particles.__eq__"]}
{"id": "C42", "title": "The complementary list is the sorted complement", "statement": "_complementary of a nonempty list of labels returns, in increasing order and without repetition, the labels of 1..n not in it; doing it twice returns the sorted set when both are nonempty.", "quantifier": "for all n and all label lists", "why_tests_cant": "All subsets.", "anchors": ["lips/particles.py: Particles._complementary", "lips/invariants.py: _complementary"]}
{"id": "C43", "title": "Three seeds cut the cycle of labels into three arcs", "statement": "For distinct seeds in 1..n ijk_to_3NonOverlappingLists terminates and returns three lists starting with the seeds, each a run of cyclically consecutive labels, pairwise disjoint, together covering 1..n exactly once.", "quantifier": "for all n>=3 and all triples of distinct seeds", "why_tests_cant": "while True loops: termination for all inputs cannot be tested.", "anchors": ["lips/particles.py: Particles.ijk_to_3NonOverlappingLists"]}
{"id": "C44", "title": "The arc construction terminates on every input", "statement": "ijk_to_3NonOverlappingLists terminates for every triple of integers.", "quantifier": "for all n and all integer triples", "why_tests_cant": "Non-termination cannot be observed by a test.", "anchors": ["lips/particles.py: Particles.ijk_to_3NonOverlappingLists"]}
{"id": "C45", "title": "Clustering preserves momenta", "statement": "The k-th particle of cluster(corners) has the summed momentum of corner k; clustering a partition preserves total momentum; every s, Gram or trace of clusters equals the one with the labels spelled out; clustering in two steps equals clustering once.", "quantifier": "for all n, all partitions, all points", "why_tests_cant": "All partitions.", "anchors": ["lips/particles.py: Particles.cluster"]}
{"id": "C46", "title": "Clustering rewrites string-valued internal masses faithfully", "statement": "An internal mass given as a Mandelstam string of a corner evaluates on the clustered point to the same value as on the original one.", "quantifier": "for all corner partitions and Mandelstam strings", "why_tests_cant": "Substring collisions between corner labels depend on the partition.", "anchors": ["lips/particles.py: Particles.cluster", "lips/tools.py: subs_dict"]}
{"id": "C47", "title": "Massive fermion states satisfy the Dirac equations", "statement": "For a massive fermion clustered from two massless legs, contracting its momentum with its spinor states gives the mass times the other chirality, the completeness relation holds with the declared index position, and <ab>[ba] equals the mass squared.", "quantifier": "for all massless leg pairs and both index positions", "why_tests_cant": "Identity over all momenta.", "anchors": ["lips/particles.py: Particles.cluster"]}
{"id": "C48", "title": "phasespace_consistency_check reports exactly the outliers, in order, and terminates", "statement": "The check terminates; small_outliers is exactly the list of invariants whose absolute value is at most the threshold and big_outliers those at least its inverse, each sorted by value; the caller's list is not changed. Without a list of invariants the check looks at the angle and the square bracket of every pair of particles, each once.", "quantifier": "for all lists of invariants and all values in a linear order", "why_tests_cant": "The while True bubble sort needs a termination proof for all lists.", "anchors": ["lips/particles.py: Particles.phasespace_consistency_check"]}
{"id": "C49", "title": "Momentum and on-shell checks are exact", "statement": "momentum_conservation_check returns True exactly when every entry of the total momentum is within tolerance, onshell_relation_check exactly when every mass squared is.", "quantifier": "for all points with at least one particle", "why_tests_cant": "All inputs including boundary values.", "anchors": ["lips/particles.py: Particles.momentum_conservation_check, onshell_relation_check"]}
{"id": "C50", "title": "Spinor-string labels survive unpacking and repacking", "statement": "_get_lNB applied to the string made by _lNB_to_string returns the same start, slots and end, for labels of any number of digits.", "quantifier": "for all label lists", "why_tests_cant": "All labels and lengths.", "anchors": ["lips/particles.py: Particles._get_lNB, Particles._lNB_to_string"]}
{"id": "C51", "title": "Internal masses given by name are usable after construction", "statement": "Constructing with internal_masses as a dict, list, tuple or set of names registers exactly those names, and the names keep tracking every later mass assignment.", "quantifier": "for all collections of names and all later assignments", "why_tests_cant": "Container type and history dependence.", "anchors": ["lips/particles.py: Particles.__init__, Particles.__setattr__, internal_masses_dict"]}
{"id": "C52", "title": "Simultaneous substitution does not cascade", "statement": "subs_dict in escape mode replaces every leftmost non-overlapping occurrence once, never rewrites its own output, and rsubs_dict undoes subs_dict for the bold-digit table on plain text.", "quantifier": "for all texts", "why_tests_cant": "All strings.", "anchors": ["lips/tools.py: subs_dict, rsubs_dict, bold_digits"]}
{"id": "C53", "title": "Mandelstam generation lists every multi-particle channel exactly once", "statement": "all_strings(n, 's') lists, without repetition, exactly one representative of each unordered pair {S, complement of S} with both parts of size at least three, and every listed label set has size between 3 and n/2.", "quantifier": "for all n from 6 to 9", "why_tests_cant": "Combinatorial completeness over all subsets; the generator itself is proved for all label alphabets where labels are single characters.", "anchors": ["lips/invariants.py: all_strings, recurse_s_ijk_gen"]}
{"id": "C54", "title": "Mandelstam generation is correct beyond nine particles", "statement": "The same holds for n >= 10.", "quantifier": "for all n >= 10", "why_tests_cant": "Two-character labels break the backtracking; tests stop at n = 7.", "anchors": ["lips/invariants.py: recurse_s_ijk_gen"]}
{"id": "C55", "title": "tr5 generation lists every independent tr5 exactly once", "statement": "all_strings(n, 'tr5') lists exactly the increasing 4-subsets of 1..n-1, each once; on a momentum-conserving point every other tr5 is a combination of them up to sign at n = 5.", "quantifier": "for all n between 5 and 10", "why_tests_cant": "Combinatorial completeness.", "anchors": ["lips/invariants.py: generate_tr5_ijkls"]}
{"id": "C56", "title": "Three-mass triangle generation lists each partition once", "statement": "generate_D_ijk(n) lists each partition of the cyclic labels into three consecutive arcs of length at least two exactly once (up to rotation of the arcs).", "quantifier": "for all n >= 6 (label concatenation restricted to n <= 9)", "why_tests_cant": "Combinatorial completeness.", "anchors": ["lips/invariants.py: generate_D_ijk"]}
{"id": "C57", "title": "Two-bracket generation lists every bracket once", "statement": "all_strings(n, '2') lists each <i|j> and [i|j] with i<j exactly once for n other than 4, and only the angle ones at n = 4.", "quantifier": "for all n", "why_tests_cant": "Combinatorial completeness for all n.", "anchors": ["lips/invariants.py: all_strings"]}
{"id": "C58", "title": "The neighbouring test recognises exactly cyclic intervals", "statement": "CheckIfNeighbouring(n, middle) is True exactly when the label set is a cyclic interval.", "quantifier": "for all n and all nonempty duplicate-free label lists in 1..n", "why_tests_cant": "All subsets; the loop is a fixed-point computation.", "anchors": ["lips/invariants.py: CheckIfNeighbouring"]}
{"id": "C59", "title": "The invariants cache is transparent", "statement": "Invariants(n) returns the same lists whether or not a complete cache is present, for every crash point of an earlier writer.", "quantifier": "for all interleavings of constructions and crashes, and all flag combinations", "why_tests_cant": "Crash points and histories.", "anchors": ["lips/invariants.py: Invariants.__init__"]}
{"id": "C60", "title": "Every documented flag combination of Invariants constructs", "statement": "Invariants(n, ...) does not raise for any combination of its boolean flags.", "quantifier": "for all n and all flag combinations", "why_tests_cant": "Flags outside defaults are untested.", "anchors": ["lips/invariants.py: Purge4Brackets, Invariants.GenerateFromScratch"]}
{"id": "C61", "title": "Setting a two-particle bracket sets it, and conserves momentum", "statement": "_set('<A|B>', X) with first component of <A| nonzero and the compensating bracket nonzero yields <A|B> = X exactly, zero total momentum, A's angle spinor unchanged, and changes only |B> and the square spinors of the two compensating particles; likewise for [A|B].", "quantifier": "for all n>=4, labels, X and points satisfying the guards", "why_tests_cant": "Exact identity for all values of X including 0 and infinitesimal ones.", "anchors": ["lips/hardcoded_limits/particles_set.py: Particles_Set._set_A2, _set_S2"]}
{"id": "C62", "title": "Setting a spinor string through its head sets it", "statement": "When the head label occurs nowhere else, _set_NB assigns the head spinor so that the string equals X, through the linear equation (or the quadratic one when head and tail coincide), and fixing momentum with two free particles keeps it.", "quantifier": "for all chains, all X and all points satisfying the guards", "why_tests_cant": "All chain lengths and values.", "anchors": ["lips/hardcoded_limits/particles_set.py: Particles_Set._set_NB"]}
{"id": "C63", "title": "Setting a spinor string through the middle sets it", "statement": "When a label b occurs only in the first slot, solving for <a|b> makes the string equal X.", "quantifier": "for all chains, all X and all points satisfying the guards", "why_tests_cant": "All chain lengths and values.", "anchors": ["lips/hardcoded_limits/particles_set.py: Particles_Set._set_NB"]}
{"id": "C64", "title": "Setting s_ijk sets it", "statement": "_set('s_ijk..', X) for at least three labels and n >= 5 yields s = X and zero total momentum.", "quantifier": "for all n, label lists, modes, X and points satisfying the guards", "why_tests_cant": "All values and label lists.", "anchors": ["lips/hardcoded_limits/particles_set.py: Particles_Set._set_Sijk"]}
{"id": "C65", "title": "Setting Δ sets it for every square-root branch", "statement": "_set_Dijk solves the quadratic so that Δ = X, whichever square root the field returns, in every mode, and fixing momentum with the last two labels of the third corner keeps Δ = X.", "quantifier": "for all corners, modes, X and points satisfying the guards", "why_tests_cant": "Both branches and all values.", "anchors": ["lips/hardcoded_limits/particles_set.py: Particles_Set._set_Dijk"]}
{"id": "C66", "title": "Setting Ω and Π sets them", "statement": "_set_Oijk and _set_Pijk make Ω_ijk (resp. Π_ijk) equal X at six points.", "quantifier": "for all X and points satisfying the guards", "why_tests_cant": "Large hand-expanded polynomials whose correctness is an identity.", "anchors": ["lips/hardcoded_limits/particles_set.py: Particles_Set._set_Oijk, _set_Pijk"]}
{"id": "C67", "title": "Setting tr5 sets it", "statement": "_set_tr5 makes tr5(a|b|c|d) equal X at six points and above, and at five points for every ordering of the four labels.", "quantifier": "for all orderings, X and points satisfying the guards", "why_tests_cant": "The five-point formula ignores the labels, so orderings matter.", "anchors": ["lips/hardcoded_limits/particles_set.py: Particles_Set._set_tr5"]}
{"id": "C68", "title": "If a limit setter returns, the point is what was asked for", "statement": "If _set returns normally then the invariant equals the requested value within tolerance and, with fix_mom, momentum is conserved and all particles are on shell; _set_pair and variety give the same up to a sign of each value.", "quantifier": "for every behaviour of the inner solver, every point and tolerance", "why_tests_cant": "Quantifies over every inner solver behaviour, including wrong ones.", "anchors": ["lips/hardcoded_limits/particles_set.py: Particles_Set._set", "lips/hardcoded_limits/particles_set_pair.py: Particles_SetPair._set_pair", "lips/particles_variety.py: Particles_Variety.variety"]}
{"id": "C69", "title": "variety falls back cleanly", "statement": "When the hard-coded solver raises and the Singular solver is allowed, the Singular solver starts from the original particles; when it is not allowed and the hard-coded solver raises, variety does not return normally.", "quantifier": "for every behaviour of both solvers", "why_tests_cant": "Quantifies over failures at every point.", "anchors": ["lips/particles_variety.py: Particles_Variety.variety"]}
{"id": "C70", "title": "Pair setting of two Mandelstams assigns each its own value", "statement": "_set_pair('s_..', x, 's_..', y) targets the first with x and the second with y also when it rewrites the longer one by its complement.", "quantifier": "for all label lists and values", "why_tests_cant": "The label swap is only visible for different lengths and different values.", "anchors": ["lips/hardcoded_limits/particles_set_pair.py: Particles_SetPair._set_pair_Sijk_and_Sijk"]}
{"id": "C71", "title": "Pair dispatch terminates", "statement": "_set_pair_inner terminates for every pair of kinds of invariants: swapping the two arguments never loops.", "quantifier": "for all pairs of kinds", "why_tests_cant": "Mutual recursion.", "anchors": ["lips/hardcoded_limits/particles_set_pair.py: Particles_SetPair._set_pair_inner"]}
{"id": "C72", "title": "Mutating particles only for compensation is safe for the pair just set", "statement": "The pair (and axis) that _can_fix_mom_cons returns for a two-bracket and a spinor string never changes a spinor on which either invariant depends.", "quantifier": "for all two-brackets and spinor strings", "why_tests_cant": "Case analysis over all label coincidences.", "anchors": ["lips/hardcoded_limits/particles_set_pair.py: Particles_SetPair._can_fix_mom_cons"]}
{"id": "C73", "title": "Polynomial images agree with phase-space images", "statement": "Evaluating covariant_poly_image(f, rule) on a point equals evaluating f on the image point; images compose; invariant_poly_image is compatible with brackets of permuted labels including the sign.", "quantifier": "for all polynomials, rules with n<=9 and points", "why_tests_cant": "All polynomials and group elements.", "anchors": ["lips/algebraic_geometry/covariant_ideal.py: covariant_poly_image", "lips/algebraic_geometry/invariant_ideal.py: invariant_poly_image, indices_2d"]}
{"id": "C74", "title": "Polynomial images are correct beyond nine particles", "statement": "covariant_poly_image relabels multi-digit variables correctly.", "quantifier": "for all n >= 10", "why_tests_cant": "Single-digit regex; untested range.", "anchors": ["lips/algebraic_geometry/covariant_ideal.py: covariant_poly_image"]}
{"id": "C75", "title": "Multiplicity is recovered from the ring", "statement": "A ring with 4n covariant variables gives multiplicity n, and a ring with n(n-1) invariant variables gives multiplicity n; variable lists have no repetitions and that length.", "quantifier": "for all n", "why_tests_cant": "All n.", "anchors": ["lips/algebraic_geometry/covariant_ideal.py: LipsIdeal.__init__", "lips/algebraic_geometry/invariant_ideal.py: SpinorIdeal.__init__", "lips/algebraic_geometry/tools.py: lips_covariant_symbols, lips_invariant_symbols"]}
{"id": "C76", "title": "Writing a dictionary of components and reading it back", "statement": "update_particles followed by analytical_subs_d returns the dictionary, and update_particles leaves every particle massless and consistent; applying analytical_subs_d to the analytic point returns the original point.", "quantifier": "for all n and all dictionaries", "why_tests_cant": "All n and values.", "anchors": ["lips/algebraic_geometry/particles_singular_variety.py: update_particles", "lips/particles.py: Particles.analytical_subs_d, make_analytical_d"]}
{"id": "C77", "title": "A univariate slice keeps momentum conserved for every parameter value and makes brackets linear", "statement": "After shifting every |i> by t x_i |η> and every |i] by t y_i |η~], if all t-coefficients of the total momentum vanish then the point conserves momentum for every t, stays massless, and every <i|j> and [i|j] is a polynomial of degree at most one in t.", "quantifier": "for all n, all t, all shifts solving the constraints", "why_tests_cant": "For every t.", "anchors": ["lips/particles_slices.py: Particles_Slices.univariate_slice"]}
{"id": "C78", "title": "A bivariate slice uses all its shift parameters", "statement": "In the bivariate slice every solved-for parameter enters the shifted point.", "quantifier": "for all n", "why_tests_cant": "A symbol used in place of another is invisible to numeric tests of momentum conservation.", "anchors": ["lips/particles_slices.py: Particles_Slices.bivariate_slice"]}
{"id": "C79", "title": "Twistor randomisation conserves momentum and is massless", "statement": "If all consecutive angle brackets are nonzero then after randomise_twistor the total momentum is zero and every momentum is massless.", "quantifier": "for all n>=3 and all twistor values with nonzero consecutive brackets", "why_tests_cant": "Telescoping sum over all n.", "anchors": ["lips/particles.py: Particles.randomise_twistor", "lips/particle.py: Particle.comp_twist_x, twist_x_to_mom"]}
{"id": "C80", "title": "Random massless momenta are massless for any square-root branch", "statement": "randomise_mpc yields a massless particle and never the excluded direction.", "quantifier": "for all random draws and either square-root branch", "why_tests_cant": "All draws.", "anchors": ["lips/particle.py: Particle.randomise_mpc"]}
{"id": "C81", "title": "Evaluating an expression is compositional", "statement": "The value of an arithmetic expression of invariants is the arithmetic combination of the values of its leaves: precedence, unary minus, powers and rational numbers as in ordinary arithmetic; a rational number is an exact fraction. An expression raises ZeroDivisionError or the exception of the first of its invariants that raises; no exception of an invariant is lost; a literal over zero and a negative power of zero raise ZeroDivisionError.", "quantifier": "for all expression trees and points", "why_tests_cant": "Unbounded expression depth.", "anchors": ["lips/particles_eval.py: _eval_node, ast_eval_expr"]}
{"id": "C82", "title": "Every documented variable string is dispatched to its own branch", "statement": "Each documented form (<a|b>, [a|b], strings, s_ijk, Δ, Ω, Π, tr5) is evaluated by the branch that implements it, for all labels; an internal mass is never shadowed by another kind of invariant.", "quantifier": "for all labels and mass names", "why_tests_cant": "Infinitely many strings and an order-dependent chain of patterns.", "anchors": ["lips/particles_compute.py: Particles_Compute.compute", "lips/tools.py: pSijk, pMi, pMVar, pA2, pS2, pNB"]}
{"id": "C83", "title": "Saving phase-space points never overwrites earlier ones", "statement": "save_phase_space_point called repeatedly with the same invariant keeps every earlier file.", "quantifier": "for all numbers of saves and all invariants", "why_tests_cant": "History property.", "anchors": ["lips/particles.py: Particles.save_phase_space_point"]}
{"id": "C84", "title": "Dictionary insertion of symbols is complete", "statement": "make_analytical_d replaces exactly the components whose indepVars entry is zero by the symbol with that particle's number and leaves a consistent particle; with default arguments every component becomes its own symbol.", "quantifier": "for all n and all masks", "why_tests_cant": "All masks.", "anchors": ["lips/particles.py: Particles.make_analytical_d"]}
{"id": "C85", "title": "Parentheses inside a slot group as in arithmetic", "statement": "In the text of a spinor string a slot may be any sum or difference of labels with parentheses; calling the point on the text gives the string with the slot replaced by the value of that expression.", "quantifier": "for all points, all strings and all nestings of sums, differences and parentheses", "why_tests_cant": "Unbounded nesting; only signs before parentheses distinguish the readings.", "anchors": ["lips/tools.py: NumberBracketToString", "lips/particles_compute.py: Particles_Compute.compute"]}
{"id": "C86", "title": "Compensating particles for two three-brackets are safe", "statement": "The pair of particles and the axis that how_to_fix_mom_cons returns for two three-brackets consist of two different particles, and restoring momentum conservation with them changes neither three-bracket.", "quantifier": "for all pairs of three-brackets with arbitrary coincidences of labels, all points", "why_tests_cant": "Case analysis over all label coincidences and both kinds of brackets.", "anchors": ["lips/hardcoded_limits/particles_set_pair.py: Particles_SetPair._set_pair_3B_and_3B"]}
{"id": "C87", "title": "Setting two two-brackets reaches both values", "statement": "After _set_pair of two spinor products, angle or square, with values X and Y, both spinor products have the requested values, momentum is conserved and the point is massless and consistent; requests that cannot be met raise.", "quantifier": "for all points with nonzero guards, all multiplicities, all label coincidences and both kinds of brackets, all values", "why_tests_cant": "Depends on which labels coincide and on how many labels are left to restore momentum conservation.", "anchors": ["lips/hardcoded_limits/particles_set_pair.py: Particles_SetPair._set_pair_A2_or_S2_and_A2_or_S2"]}
{"id": "C88", "title": "Setting a two-bracket and a Mandelstam invariant reaches both values", "statement": "After _set_pair of a spinor product and of a Mandelstam invariant of at least three labels, both have the requested values, momentum is conserved and the point is massless and consistent; unsupported label sets raise.", "quantifier": "for all points with nonzero guards, all multiplicities, all label sets, all values", "why_tests_cant": "Whether restoring momentum conservation spoils one of the two depends on which labels coincide.", "anchors": ["lips/hardcoded_limits/particles_set_pair.py: Particles_SetPair._set_pair_A2_or_S2_and_Sijk"]}
{"id": "C89", "title": "Setting two Mandelstam invariants reaches both values", "statement": "After _set_pair of two Mandelstam invariants of at least three labels each, both have the requested values, momentum is conserved and the point is massless and consistent.", "quantifier": "for all points with nonzero guards, all multiplicities, all pairs of label sets, all values", "why_tests_cant": "Overlaps of label sets, containment in particular, are combinatorial.", "anchors": ["lips/hardcoded_limits/particles_set_pair.py: Particles_SetPair._set_pair_Sijk_and_Sijk"]}
{"id": "C90", "title": "Setting two three-brackets reaches both values", "statement": "After _set_pair of two different strings ⟨a|P|b], with values X and Y, both strings have the requested values, momentum is conserved and the point is massless and consistent.", "quantifier": "for all points with nonzero guards, all multiplicities, all lengths of the middles, all label coincidences and kinds of brackets, all values", "why_tests_cant": "Many branches on label coincidences, of which tests touch a few; several leave one string at a wrong value.", "anchors": ["lips/hardcoded_limits/particles_set_pair.py: Particles_SetPair._set_pair_3B_and_3B"]}
{"id": "C91", "title": "Setting the difference of five-brackets reaches the value", "statement": "After _set of (⟨a|b|(x+y)|e|a]-⟨b|f|(x+y)|e|b]) to X the difference is X, momentum is conserved, the point is massless and consistent, and only the particles e, x, y changed.", "quantifier": "for all points that conserve momentum with nonzero guards, all multiplicities, all labels, all values", "why_tests_cant": "Momentum conservation is restored with particles that occur in the invariant; that the value survives depends on an identity and on the starting point.", "anchors": ["lips/hardcoded_limits/particles_set.py: Particles_Set._set_p5Bdiff"]}
{"id": "C92", "title": "A text matches at most one pattern of compute", "statement": "What compute takes a text for, with the labels taken from it, is what the one regular expression of lips/tools.py that matches the text says; no text matches two of them (a mass of one label apart), so the order of the tests does not matter, and exactly the texts matching none reach the expression parser.", "quantifier": "for all texts", "why_tests_cant": "There are infinitely many texts, and overlaps of regular expressions with nested repetitions show up only on unusual ones.", "anchors": ["lips/tools.py: pSijk … pNB_double_open", "lips/particles_compute.py: Particles_Compute.compute"]}
{"id": "C93", "title": "Setting an invariant given as text", "statement": "particles._set(text, X) calls the setter of the one pattern that matches the text, the same pattern that compute uses for it, and raises or returns only when compute(text) is within tolerance of X and, with momentum fixing, the point is massless and conserves momentum. For the texts of angle and square brackets, strings whose head occurs once or whose first slot has a label of its own, Mandelstams of three or more labels, Gram determinants, Omega, Pi, tr5 at six or more points and differences of five-brackets of one-digit labels, at non-degenerate points it returns with compute(text) = X exactly, total momentum zero, all masses zero and all other particles unchanged; texts that no setter reads leave the point alone. Exceptions: strings with an even number of slots set through their tail and tr5 in odd orders at five points raise, s_ij is never set.", "quantifier": "for all texts, all values, all multiplicities, all massless points meeting the stated non-vanishing conditions", "why_tests_cant": "The texts are infinitely many and the dispatch depends on their characters; a sampled text cannot show that no other text is read differently, nor a sampled point that the setter returns on all of them.", "anchors": ["lips/hardcoded_limits/particles_set.py: Particles_Set._set, Particles_Set._set_inner", "lips/particles.py: Particles.check_consistency", "lips/tools.py: p5Bdiff"]}
{"id": "C94", "title": "The invariants of an expression are found in its text", "statement": "_parse turns an expression of numbers, + - * / ^ ** ( ), blanks and invariants (two-brackets with or without bar, strings and slots of one-digit labels, s_ijk in its four spellings, Ω, Π, tr5, traces, Gram determinants with explicit corners) into the Python text with every invariant as oPs('name') under the name compute reads as this invariant, with the products left out put in, and with nothing else touched but blanks, carets and quotients of literals; whatever stands next to an invariant. compute of the text is then its value by ordinary arithmetic with the invariants computed in turn. Exceptions: masses m_i and Δ_ijk next to anything else, strings with labels of two digits and traces with several slots in parentheses are not.", "quantifier": "for all expressions of these parts, all ways of writing the invariants, all points", "why_tests_cant": "Forty substitutions run one after the other over the text, each seeing the output of the ones before; whether one of them hits inside an already recognised invariant or across two of them depends on the neighbours, of which there are infinitely many.", "anchors": ["lips/particles_eval.py: Particles_Eval._parse, Particles_Eval._eval", "lips/particles_compute.py: Particles_Compute.compute"]}
{"id": "C95", "title": "Setting a two-bracket and a Gram determinant as a pair", "statement": "_set_pair of <a|b> or [a|b] with value v and a three-corner Δ with value w whose corners contain every label once, at a massless point: the corner named first is the one with both labels, else the last is the one with neither, and one of the two exists; if it has two labels, the last corner two, and some expressions do not vanish, then the result is massless, conserves momentum, has <a|b> = v and Δ = w in the order of corners that was given, and at most four particles moved, or the square root is missing and ValueError is raised. With one label in the corner named first it raises. Naming the corners in another order by the shorthand Δ_ijk gives the same corners in that order.", "quantifier": "for all fields, multiplicities, massless points, labels, partitions into corners and values meeting the non-vanishing conditions", "why_tests_cant": "Corner partitions grow exponentially with multiplicity and the points form a continuum; a numerical test checks the two values at sampled points only.", "anchors": ["lips/hardcoded_limits/particles_set_pair.py: Particles_SetPair._set_pair_A2_or_S2_and_Dijk", "lips/particles.py: Particles.ijk_to_3NonOverlappingLists"]}
{"id": "C96", "title": "Setting a three-bracket and a Gram determinant as a pair", "statement": "_set_pair of a three-bracket with value v and a three-corner Δ with value w, at a massless point: if the corners can be ordered for the string, the last corner then having no label of it but possibly its last one, then, when the particle changed for Δ does not occur in the string in the way that is changed, the result is massless, conserves momentum, has the string = v and Δ = w in the order of corners given, at most four particles moved, or the square root is missing and ValueError is raised. If they can only be ordered after momentum conservation is used on the string, the string ends at -v.", "quantifier": "for all fields, multiplicities, massless points, strings, partitions into corners and values meeting the non-vanishing conditions", "why_tests_cant": "The strings, the partitions into corners and the points are unboundedly many, and which particle is changed depends on how they overlap.", "anchors": ["lips/hardcoded_limits/particles_set_pair.py: Particles_SetPair._set_pair_3B_and_Dijk"]}
{"id": "C97", "title": "Setting a three-bracket and a Mandelstam invariant as a pair", "statement": "_set_pair of a three-bracket with value v and a Mandelstam invariant of three or more labels with value w, at a massless point: with two labels in neither of them, as they are or after the invariant is replaced by its complement, the result is massless, conserves momentum, has both values, and at most four particles moved; with one label free and an end of the string outside the invariant likewise, with three particles moved. Exceptions: if the middle of the string is replaced the string ends at -v; with one label free and both ends of the string in the invariant momentum is not conserved unless the invariant had its value before; if the invariant contains the string another pair is set, with the values exchanged. The recursive calls come back at once to arguments with two free labels.", "quantifier": "for all fields, multiplicities, massless points, strings, invariants and values meeting the non-vanishing conditions", "why_tests_cant": "Which particles are changed depends on how the labels overlap, with unboundedly many overlaps as the multiplicity grows; a numerical test sees single points.", "anchors": ["lips/hardcoded_limits/particles_set_pair.py: Particles_SetPair._set_pair_3B_and_Sijk"]}
{"id": "C98", "title": "Setting a two-bracket and a spinor string as a pair", "statement": "_set_pair of a two-bracket with value v and a spinor string with value z, at a massless point. The string actually set (a slot rewritten by momentum conservation, the string turned round, a label moved to the front of its slot) equals the string asked for up to a sign at every massless point that conserves momentum, and a way to restore momentum conservation is found whenever the string or one with a single slot rewritten admits one. Whenever the call returns with such a way found, the result is massless, conserves momentum, and the string has the value z or -z; the two-bracket has the value v if the spinor changed for the string is not one of its own. That is the case when both ends of the string are of the other kind, and for a three-bracket with two free labels unless its end of the other kind occurs in the slot while its other end does not and is a label of the two-bracket; in that case the two-bracket loses its value. Where no such way is found and the call returns, momentum is not conserved, outside special configurations. If the denominators met on the way are not zero the call does return, with exactly v and z, and at most four particles moved.", "quantifier": "for all fields, multiplicities, massless points, two-brackets, strings of any length and values", "why_tests_cant": "Which spinor is changed depends on how the labels of the two invariants overlap and on the length of the string; a test samples a few overlaps at random points.", "anchors": ["lips/hardcoded_limits/particles_set_pair.py: Particles_SetPair._set_pair_A2_or_S2_and_NB"]}
{"id": "C99", "title": "Setting a Mandelstam invariant and a Gram determinant as a pair", "statement": "_set_pair of a Mandelstam invariant with value v and a three-mass Gram determinant with value w, at a massless point whose labels are divided among the three corners. When the corners chosen are AB and CD and the invariant is s_ABC or its complement, the formulas for the two spinor components (some 50 kB of text) give a massless point that conserves momentum with s = v and Δ = w, Δ in the order of corners given, or the square root is missing and a TypeError is raised; only A, B and the first two particles of the third corner move. With corners of two labels and an invariant of three labels the method answers 'Not implemented.' exactly when the invariant has one label in each corner; in all other cases it sets both. The square root is that of mpmath whatever the field is, so over finite and p-adic fields the method raises.", "quantifier": "for all fields, multiplicities, massless points, Mandelstam invariants, corners and values", "why_tests_cant": "The formulas are polynomials of several hundred terms in 18 variables; a test checks them at a point up to rounding, at one choice of the corners.", "anchors": ["lips/hardcoded_limits/particles_set_pair.py: Particles_SetPair._set_pair_Sijk_and_Dijk", "lips/hardcoded_limits/DoubleCollinearLimit_D_and_S_a.py: expression_for_a", "lips/hardcoded_limits/DoubleCollinearLimit_D_and_S_e.py: expression_for_e"]}
{"id": "C100", "title": "The pairs of invariants written out for seven points", "statement": "_set_pair knows seven pairs of a spinor string and a three-mass Gram determinant and one pair of two strings, compared as texts. For each of them, at a massless point of seven particles and with the denominators met on the way not zero, either a square root is missing and ValueError is raised, or the point that comes out is massless and conserves momentum, the Gram determinant has its value and the string has its value, both read off the texts that were asked for although other texts are set; only four particles move. In the pair ⟨7|3+4|5+6|7⟩, Δ_135 the string ends with the opposite sign, because ⟨7|3+4|1+2|7⟩ is set instead. Every other pair of texts, also one that only differs by parentheses or by the order of the corners, sets nothing.", "quantifier": "for all fields, massless points of seven particles and values", "why_tests_cant": "None of these texts occurs in the tests of the project; whether the texts set instead name the same functions is an identity over all points that conserve momentum.", "anchors": ["lips/hardcoded_limits/particles_set_pair.py: Particles_SetPair._set_pair_NB_and_Dijk", "lips/hardcoded_limits/particles_set_pair.py: Particles_SetPair._set_pair_inner"]}
{"id": "C101", "title": "_set_pair as a whole", "statement": "_set_pair with two invariants read as two-bracket, three-bracket, longer string, Mandelstam invariant or three-mass Gram determinant. From five particles on the inner method answers after at most four recursive calls (apart from the two tables of texts). The order of two invariants of different kinds does not matter to it. It answers 'Not implemented.' exactly for: a longer string with a three-bracket or a Mandelstam invariant, two Gram determinants, strings and Gram determinants not in the tables, a three-bracket or a Mandelstam invariant and a Gram determinant whose corners do not fit; never for a pair with a two-bracket, two three-brackets, a three-bracket and a Mandelstam invariant, or two Mandelstam invariants. When the point reached conserves momentum, is massless and has the two values up to a sign, the method returns normally. When it returns normally the point conserves momentum, is on shell and has the two values up to a sign each, within the tolerance, unless a three-bracket and a Mandelstam invariant were asked for with all labels of the string among those of the invariant. In that case an angle bracket and the invariant are checked instead: with the invariant given first the method returns normally although the invariant has the value that was asked for the string; with the string first it raises, unless the two values agree up to a sign.", "quantifier": "for all fields, multiplicities from five (termination) or any (the rest), points, pairs of invariants and values", "why_tests_cant": "The method has 25 branches that call each other with rewritten arguments; termination, the exact list of missing cases and what a normal return means are statements over all of them.", "anchors": ["lips/hardcoded_limits/particles_set_pair.py: Particles_SetPair._set_pair", "lips/hardcoded_limits/particles_set_pair.py: Particles_SetPair._set_pair_inner"]}
{"id": "C102", "title": "The equations handed to Singular", "statement": "The polynomials LipsIdeal(multiplicity, covariants) makes, evaluated at the components a, b, c, d of any massless point over any field in which two is not zero, are four times the entries of the covariants at that point, in order, followed (unless momentum_conservation is False) by the four entries of the total momentum. So the points at which all of them vanish are exactly those at which all covariants vanish and momentum is conserved. The constructor raises exactly if a covariant raises or if one of the entries has no symbols left; in particular a covariant that vanishes identically, like ⟨1|1⟩, is refused. The ideal contains the covariants it was made from, and a covariant it contains vanishes at every common zero of its generators over a field of characteristic zero. When point_on_variety returns a common zero, _singular_variety leaves a massless, momentum-conserving point at which all invariants vanish, or all the generators if some were given, whatever the point was before.", "quantifier": "for all multiplicities, covariants without divisions, fields, points and solvers", "why_tests_cant": "Relates polynomials in symbols to values at every point of every field; the tests look at a few ideals and at points found by Singular for one seed.", "anchors": ["lips/algebraic_geometry/covariant_ideal.py: LipsIdeal.__init__", "lips/algebraic_geometry/covariant_ideal.py: LipsIdeal.__contains__", "lips/algebraic_geometry/particles_singular_variety.py: Particles_SingularVariety._singular_variety"]}
{"id": "C103", "title": "The ideal in brackets is the ideal in components", "statement": "The zeros of conversionIdeal(n) are exactly the components of a point together with the values of its brackets, A1 = ⟨1|2⟩, A2 = ⟨1|3⟩, ..., B1 = [1|2], .... Provided eliminate returns the polynomials of the ideal in the bracket variables alone, a polynomial in the brackets is in SpinorIdeal(n, invariants) exactly if it is in LipsIdeal(n, invariants) after the brackets are written in components. Hence it vanishes on the brackets of every massless point, over a field of characteristic zero, at which the invariants vanish and momentum is conserved; the Schouten identities for any four labels are in every such ideal, and momentum conservation sum_k ⟨i|k⟩[k|j] is unless it is switched off: this is what to_momentum_and_schouten_qring divides out.", "quantifier": "for all multiplicities, covariants without divisions, elimination procedures meeting their specification, polynomials, fields and points", "why_tests_cant": "Equality of ideals and vanishing at all points of all fields; the tests compare a few Groebner bases computed by Singular.", "anchors": ["lips/algebraic_geometry/tools.py: conversionIdeal", "lips/algebraic_geometry/invariant_ideal.py: SpinorIdeal.__init__", "lips/algebraic_geometry/invariant_ideal.py: SpinorIdeal.to_momentum_and_schouten_qring", "lips/algebraic_geometry/covariant_ideal.py: LipsIdeal.invariant_slice"]}
{"id": "C104", "title": "Images of an ideal, and the class of its images", "statement": "Calling a LipsIdeal with a rule gives the ideal whose generators are the polynomials with their variables moved, as an ideal and on the texts; the common zeros of the image are exactly the images of the common zeros. Images compose, and the inverse rule leads back to the same texts. The image of LipsIdeal(n, covariants) under a permutation is LipsIdeal(n, covariants with their labels permuted). equivalenceClass has exactly one entry for every ideal that is the image under a permutation, under the first permutation in the order of all_symmetries that gives it, the ideal itself first; if equality of ideals is respected by images, the number of entries times the number of permutations that leave the ideal as it is, is n!. Images under an exchange of angle and square brackets are not in the class.", "quantifier": "for all multiplicities up to nine, permutations, texts of polynomials with integer coefficients, covariants without divisions, equality relations on ideals, fields and points with different momenta", "why_tests_cant": "All ideals and all permutations; the orbit counting formula and the correspondence of zeros are statements about infinitely many polynomials and points, and the tests have no case of equivalenceClass.", "anchors": ["lips/algebraic_geometry/covariant_ideal.py: LipsIdeal.__call__", "lips/algebraic_geometry/covariant_ideal.py: LipsIdeal.image", "lips/algebraic_geometry/covariant_ideal.py: LipsIdeal.equivalenceClass", "lips/symmetries.py: all_symmetries"]}
{"id": "C105", "title": "A slice stays on its variety for every value of its variables", "statement": "If univariate_slice or bivariate_slice with the covariant algorithm returns, the point is massless with spinors r + t·x·η (for two variables r + t1·x1·η1 + t2·x2·η2), no parameter being zero, momentum is conserved and all the constraints hold identically in the variables, and also for every number put in place of the variables. The equations handed to the solver hold for some values of the parameters exactly if the slice with these values is on the variety; they can be made exactly if every constraint is a number and neither one of them nor an entry of the total momentum is free of symbols. The generic algorithm gives a massless point with conserved momentum on which the constraints hold. Without a seed, a first solution in which a parameter is zero ends in a TypeError; with a seed the next one is tried.", "quantifier": "for all multiplicities, fields without characteristic two, points, constraints without divisions, seeds, random spinors, and solvers that return a common zero", "why_tests_cant": "The tests compare a slice at a few points; that the constraints hold identically in the variables is a statement about all polynomials, and the equivalence between the equations and the variety is not observable in a run.", "anchors": ["lips/particles_slices.py: univariate_slice", "lips/particles_slices.py: bivariate_slice"]}
{"id": "C106", "title": "Expressions with open indices evaluate as matrices", "statement": "An expression built from names, integers, Fractions, the Levi-Civita symbol, sums and differences of equal shapes, products @ of matching shapes, multiples by numbers, quotients by non-zero numbers, integer powers of numbers, transposes, numpy.block of two parts and slices evaluates to the matrix or number it stands for; a result with one entry comes back as a number and any other as it is; without arrays the value is the one of C81. The text is read as the tree that Python's grammar derives, which is unique. A spinor string cut into two or three pieces with open indices has the value of the whole string, and is linear in a sum between the brackets. The first component of a massive spinor with its index lowered or raised is plus or minus the second component. Products of lengths that do not match, @ with a number, unknown names and functions raise. Not so: sums of a row and a column give a table of all sums, |..| after a plain square bracket at an even place is read with its two kinds of index exchanged, and after [i^| with several slots their order is reversed. On texts, the ends of ⟨a_|..|b_⟩, ⟨a_|..|b^], [a^|..|b_⟩ and [a^|..|b^] are rewritten with the Levi-Civita symbol and the labels a, a+1 and b, b+1 for labels of any number of digits, and nothing else is touched by that step. The texts ⟨a|, [a|, |a⟩, |a] and |a±b±..| are read as the names they are, for labels of any number of digits.", "quantifier": "for all expressions, fields, points, labels, slots and names", "why_tests_cant": "The tests evaluate a few expressions at a random point and compare with another expression; the meaning of all expressions and the cases where a value comes out that is not the one of the string are not covered by examples.", "anchors": ["lips/particles_eval.py: Particles_Eval._parse", "lips/particles_eval.py: Particles_Eval._eval", "lips/particles_eval.py: _eval_node", "lips/particles_eval.py: as_scalar_if_scalar", "lips/particles_compute.py: Particles_Compute.compute"]}
{"id": "C107", "title": "Images of an ideal in the brackets", "statement": "Calling a SpinorIdeal with a rule gives the ideal whose generators are the polynomials with their brackets moved, signs included: the bracket of i and j becomes the bracket of their images, of the other kind if the rule exchanges angle and square brackets. Images compose and the inverse rule leads back, as polynomials. The common zeros of the image are the brackets of the images of the points whose brackets are common zeros, and the image of the slice of a LipsIdeal is the slice of its image. The image of SpinorIdeal(n, invariants) under a permutation is SpinorIdeal(n, invariants with their labels permuted). Every text stands for one polynomial at most.", "quantifier": "for all multiplicities up to nine, permutations with and without exchange, texts of polynomials with integer coefficients in the brackets, invariants without divisions, fields and points with different momenta", "why_tests_cant": "All ideals and all rules; the tests compare a few images with hard-coded texts and never compare the image of a slice with the slice of the image.", "anchors": ["lips/algebraic_geometry/invariant_ideal.py: SpinorIdeal.__call__", "lips/algebraic_geometry/invariant_ideal.py: SpinorIdeal.image", "lips/algebraic_geometry/invariant_ideal.py: invariant_poly_image", "lips/algebraic_geometry/covariant_ideal.py: LipsIdeal.invariant_slice"]}
{"id": "C108", "title": "Texts for Mathematica", "statement": "four_momenta_for_mathematica declares the particles one after the other, counted from one: each line is a DeclareSpinorMomentum statement whose numbers have exactly the values of the four components, at the current precision; with as_spinors=True those of the two spinors, the right one as a column and the left one as a row. The files written by save_phase_space_point assign to each subscripted symbol the number that is the component of the spinor. Every text is at most one number.", "quantifier": "for all numbers of particles, all decimals with or without sign and exponent as real and imaginary parts, all precisions", "why_tests_cant": "Nothing in the tests reads these texts; signs, exponents and brackets interact through chains of replacements over the whole line.", "anchors": ["lips/particles.py: Particles.four_momenta_for_mathematica", "lips/particles.py: Particles._r_sp_d_for_mathematica", "lips/particles.py: Particles._l_sp_d_for_mathematica"]}
{"id": "C109", "title": "New phase-space points conserve momentum", "statement": "Particles(n, field=..) returns n massless particles whose momenta add up to zero, with the drawn left spinors and, but for two particles, the drawn right spinors; among all such points it is the only one. It raises exactly if it would have to divide by a vanishing square bracket of the two particles chosen. A list of massless particles that already conserves momentum is kept as it is. randomise_all has the same outcome. One particle raises ValueError; for two particles all momenta are zero, for three all angle brackets are.", "quantifier": "for all multiplicities from one on, all draws of spinors and labels, all fields of characteristic other than two with exact arithmetic", "why_tests_cant": "Random draws hit vanishing brackets with probability of the order of one over the characteristic, and the tests use points with at least four particles.", "anchors": ["lips/particles.py: Particles.__init__", "lips/particles.py: Particles.randomise_all", "lips/particles.py: Particles.fix_mom_cons", "lips/particle.py: Particle.randomise_spinors_in_field"]}
{"id": "C110", "title": "Generated strings with one slot are complete and not redundant", "statement": "all_strings(n, 3) writes each string once: the texts ⟨a|(P)|d] with P a set of at least two labels beside a and d that is smaller than its complement, or as large and with the smallest label. Of a slot and its complement exactly one is listed. At every massless point that conserves momentum the value of any ⟨a|(P)|d] is zero, plus or minus a product of two brackets, or plus or minus the value of the listed string. With the restriction to neighbouring labels, what is left, in the same order, are the strings for which the ends together with the slot, or with its complement, form a cyclic interval.", "quantifier": "for all multiplicities up to nine, all ends and slots, all massless points over all fields with exact arithmetic", "why_tests_cant": "Completeness is a statement on all kinematic points and all slots, and the tests only compare the lengths of a few lists.", "anchors": ["lips/invariants.py: all_strings", "lips/invariants.py: Purge3Brackets", "lips/invariants.py: Invariants.__init__"]}
{"id": "C111", "title": "Generated strings with two slots: values, products, and what is lost", "statement": "The value of ⟨a|(P)|(Q)|d⟩ changes sign when the string is reversed and when a slot is replaced by its complement beside the end; it is the product of a bracket and an s when both slots are one set or its complement, and for equal ends a product of a string with one slot and a bracket when they differ by one label. all_strings(n, 4) writes every string once, only strings that are not removed as products, and all of those except for some with equal ends and slots without a common label. For equal ends a string is removed exactly if it is such a product, so every string vanishes, is such a product, or has up to sign the value of one that is not removed. For different ends the code removes more than the products.", "quantifier": "for all multiplicities from six to nine, all ends and slots, all orders of iteration over sets, all massless points over all fields with exact arithmetic", "why_tests_cant": "Whether a removed string is a product is a statement on all kinematic points, which strings are lost depends on the order in which Python iterates over sets, and the tests only compare the lengths of a few lists.", "anchors": ["lips/invariants.py: all_strings", "lips/invariants.py: Invariants.__init__", "lips/particles_compute.py: Particles_Compute.compute (pNB branch)"]}
{"id": "C112", "title": "Points in memory: when they may be treated as values, and what is shared", "statement": "A program that never slices a point, clusters it, or assigns the array of one particle to another sees the same as if every point were a list of values: what it does to one point changes no other point, and every call raises what it would raise on values. Clusters and assigned arrays may be added if nothing is written into arrays, that is without make_analytical_d and subs. A copy, or an image without exchange, has no object and no array in common with anything, so that no history of commands that do not name it changes it, however much the other points share. The full claim, that no command changes a point other than the one it is called on, is false: slices are the same objects, and make_analytical_d on a cluster with single particles changes the spinors of the clustered point and leaves it inconsistent, as it does for a particle whose spinor was assigned from another one.", "quantifier": "for all programs, which may depend on all values seen, of any length, all points, multiplicities, fields and contents of memory", "why_tests_cant": "Whether two points share an array shows only when one of them is written into later; the tests check single calls on new points.", "anchors": ["lips/particles.py: Particles.image", "lips/particles.py: Particles.cluster", "lips/particles.py: Particles.make_analytical_d", "lips/particles.py: Particles.subs", "lips/particles.py: Particles.__getitem__", "lips/particles.py: Particles.__setitem__", "lips/particle.py: Particle.__add__", "lips/particle.py: Particle.angles_for_squares"]}
{"id": "C113", "title": "Generated strings with three slots: values and which are listed", "statement": "Invariants(n).invs_5 holds, once each, exactly the strings ⟨a|(P)|(Q)|(R)|a] whose slots are three arcs of at least two labels which together with a are all labels, in one of the three cyclic orders: none below seven particles. compute returns for such a string the sum over p, q, t of ⟨a p⟩[p q]⟨q t⟩[t a], whatever the order of the labels in the slots. With momentum conservation it is s_P s_R - s_aP s_aR, hence the same for the slots read from right to left, so that every order of the three arcs has the value of a listed string.", "quantifier": "for all multiplicities, labels, arcs and orders of the labels in the slots, all massless points over all fields with exact arithmetic", "why_tests_cant": "That the other three orders of the slots may be left out is an identity between polynomials on all points that conserve momentum; the tests compare lengths of lists at seven points or less.", "anchors": ["lips/invariants.py: generate_5Brackets", "lips/invariants.py: CheckIfNeighbouring", "lips/invariants.py: all_strings", "lips/particles_compute.py: Particles_Compute.compute (pNB branch)"]}
{"id": "C114", "title": "What Invariants(n) lists", "statement": "When the construction succeeds, each of the nine lists has exactly the following: all brackets of two labels; the strings with one slot of C110, all or those of neighbouring labels, and at six points, unless switched off, the hard-coded ones that passed the check; the strings with two slots that all_strings keeps, all or those whose slots are two labels that are neighbours together with the end beside them, and three strings added at seven points only; the strings with three slots of C113; one s of each pair of complementary sets; the Gram determinants of the arcs, and three added at six points only; six Ω and six Π at six points only; tr5 of four of the first n-1 labels. full is everything, full_minus_4_brackets leaves out the strings with two slots, and invs_N has the strings with slots. One of the three strings added at seven points is a Gram determinant, so full_minus_4_brackets leaves it out.", "quantifier": "for all multiplicities from six on, all arguments of the constructor, all orders of iteration over sets, all results of the random check at six points", "why_tests_cant": "The restrictions, the extra strings and the flags combine in many ways, each with hundreds of strings; the tests compare the lengths of two lists.", "anchors": ["lips/invariants.py: Invariants.GenerateFromScratch", "lips/invariants.py: Invariants.full", "lips/invariants.py: Invariants.full_minus_4_brackets", "lips/invariants.py: Invariants.invs_N", "lips/invariants.py: Purge4Brackets", "lips/invariants.py: Brackets4IsIndividuallyNeighbouring"]}
{"id": "C115", "title": "Internal masses belong to their point", "statement": "After any sequence of constructions (with a dictionary of masses, a set of names, or none), assignments of masses or of other attributes, copies, images, slices, clusters and substitutions, internal_masses_dict of every point has exactly the masses and values that were given to that point: an assignment concerns one point only, a copy or image has the masses of the original at the time it was made, a cluster has them with the new values, a slice has none, a substitution treats each value once. No command raises. This holds as long as no mass has the name of a property without setter, each set of names is given to one constructor only, and the values can be substituted into. Without these conditions it is false: a set given to two constructors is shared, so that a new mass on one point makes internal_masses_dict, image, copy and cluster of the other raise AttributeError; and assigning ms or multiplicity raises AttributeError but registers the name, after which the same methods of that point raise.", "quantifier": "for all programs of any length, numbers of points, names and values of masses", "why_tests_cant": "The tests give masses to one point and read them back; sharing and registered names without value show only in later calls, for particular names or on other points.", "anchors": ["lips/particles.py: Particles.__init__", "lips/particles.py: Particles.__setattr__", "lips/particles.py: Particles.internal_masses_dict", "lips/particles.py: Particles.image", "lips/particles.py: Particles.cluster", "lips/particles.py: Particles.subs", "lips/particles.py: Particles.__getitem__"]}
{"id": "C116", "title": "Every listed invariant can be computed and set", "statement": "For every text t of Invariants(n).full (n from six up; from ten on the constructor raises), whatever the flags, the order of the sets and the random numbers of the six-point block: at every massless point compute(t) returns a number and does not raise, and _set(t, ...) takes t for the same kind of invariant as compute does and does not ignore it. The listed two-particle brackets, strings with one slot, Mandelstam invariants and tr5 leave out at least two labels, as _set needs to restore momentum, and do not repeat the label that _set changes; the strings with three slots leave out no label.", "quantifier": "for all n, flags, orders of sets, listed texts, fields and massless points", "why_tests_cant": "The lists have hundreds of texts per n written by one set of functions and read by regular expressions elsewhere; a spelling that no pattern matches is silently ignored by _set.", "anchors": ["lips/invariants.py: Invariants.GenerateFromScratch", "lips/invariants.py: Invariants.full", "lips/particles_compute.py: Particles_Compute.compute", "lips/hardcoded_limits/particles_set.py: Particles_Set._set_inner"]}
{"id": "C117", "title": "The strings added at six points are independent of the listed ones", "statement": "At six points the constructor Invariants tries nine fixed strings with one slot. For every sequence of random points, every solver behind _set and every arithmetic: the ones added are among the nine, in their order and without repetition; a string is added exactly if, at the point where _set brought it to the value, no invariant listed before is below the threshold; the loop over attempts ends; and the block raises only if randomise_all, _set or an evaluation raises. An added string is not listed before and differs from every listed invariant, even up to sign. With restriction none of the nine or their complements is listed before; without it, in exact arithmetic, nothing is added. No other list changes.", "quantifier": "for all draws of points, solvers, evaluations, flags and orders of sets", "why_tests_cant": "Which strings are added depends on random points and on a numerical solver; a test sees one draw.", "anchors": ["lips/invariants.py: Invariants.GenerateFromScratch", "lips/particles.py: Particles.phasespace_consistency_check", "lips/hardcoded_limits/particles_set.py: Particles_Set._set"]}
{"id": "C118", "title": "Converting a point to another field commutes with evaluation", "statement": "Particles.to_field, padic_to_finite_field and finite_field_to_padic return exactly if every particle has its spinors and every component can be converted; they agree with each other. For a massless point and a conversion given by ring homomorphisms with 2 invertible (reduction of p-adic integers, p odd; embedding of a field), compute gives corresponding results before and after, for every text: the same exception or corresponding values. In particular an invariant vanishes on the reduced point exactly if p divides it on the original. Momentum conservation survives, and converting there and back returns the same point. Intended for every point.", "quantifier": "for all fields, homomorphisms, points, texts", "why_tests_cant": "Tests convert one random point between two fields and look at one invariant.", "anchors": ["lips/particle.py: Particle.to_field", "lips/particles.py: Particles.to_field", "lips/algebraic_geometry/particles_singular_variety.py: padic_to_finite_field", "lips/algebraic_geometry/particles_singular_variety.py: finite_field_to_padic"]}
{"id": "C119", "title": "Substituting values commutes with evaluation", "statement": "Take a massless point whose components are polynomials in any symbols, as make_analytical_d makes. Particles.subs returns, and for every text compute on the substituted point gives the polynomial of the original point with the values put in, or raises the same exception. In particular: replace all components of a massless numerical point by the symbols a1, b1, c1, d1, ..., evaluate a text, and put the components of the point into the resulting polynomial; this is the value of the text at the point, and the same texts raise the same exceptions.", "quantifier": "for all fields in which 2 is not zero, points, numbers of particles, symbols, substitutions, texts", "why_tests_cant": "Tests substitute into a handful of points and compare a handful of invariants up to rounding.", "anchors": ["lips/particles.py: Particles.subs", "lips/particles.py: Particles.make_analytical_d", "lips/particles_compute.py: Particles_Compute.compute"]}
{"id": "C120", "title": "Expressions evaluate consistently over p-adic numbers, finite fields and symbols", "statement": "Take a massless point with p-adic integers as spinor components, p odd, its reduction modulo p, and any text, an invariant or an arithmetic expression of invariants with quotients and powers. If compute returns a number on the reduced point, it returns on the original point a p-adic integer with this residue; an exception other than ZeroDivisionError on the reduced point is raised on the original too; and an exception on the original is raised on the reduced point unless that divides by zero. For an embedding of fields values and exceptions are the same. With all components replaced by symbols, compute returns a rational function that is defined at the components of a numerical point and has there the value of the text, whenever the numerical evaluation returns. Expressions with open indices (lists, matrix products, numpy.block, numpy.transpose, slices) correspond in the same way.", "quantifier": "for all odd primes, fields in which 2 is not zero, points, numbers of particles, texts", "why_tests_cant": "Tests compare a few expressions over one prime at random points, where no denominator vanishes.", "anchors": ["lips/particles_compute.py: Particles_Compute.compute", "lips/particles_eval.py: Particles_Eval._eval", "lips/particles_eval.py: _eval_node", "lips/algebraic_geometry/particles_singular_variety.py: padic_to_finite_field", "lips/particles.py: Particles.make_analytical_d"]}
{"id": "C121", "title": "Expressions of invariants are Lorentz invariant", "statement": "Act on all momenta with g and h of determinant one (|k> -> g|k>, [k| -> [k|h, and correspondingly on massive momenta). For every text that compute takes, an invariant or an arithmetic expression of invariants, in which every trace has an even number of slots and every spinor string opened by a character other than the two brackets ends in the matching one, compute returns the same number before and after, or raises the same exception. The two conditions are needed: tr(1) and <1|2|1] (with the ASCII character) are computed without complaint and change from 1 to 0 under a Lorentz transformation, over every field in which 2 is not zero.", "quantifier": "for all fields, points, numbers of particles, massless and massive, pairs of matrices of determinant one, texts", "why_tests_cant": "Tests check a few invariants at random points; no test transforms a point and evaluates an expression.", "anchors": ["lips/particles_compute.py: Particles_Compute.compute", "lips/particles_eval.py: Particles_Eval._eval", "lips/particles_eval.py: _eval_node"]}
{"id": "C122", "title": "Little-group weights and mass dimensions of invariants and expressions are what counting gives", "statement": "Multiply |A> by t and [A| by 1/t. Every invariant, whatever its text, is multiplied by t to the number of its angle ends A minus the number of its square ends A; Mandelstams, traces, tr5, Gram determinants, Omega, Pi and delta5 do not change; exceptions stay the same. Multiply all spinors by t: every invariant is multiplied by t^2 to its mass dimension (1 for brackets, one more than the number of slots for strings, 4 for tr5 and Omega, the number of slots for traces, 2 for Pi, masses and Mandelstams, 4 or twice the number of corners less one for Gram determinants, 8 for delta5). An arithmetic expression in which the terms of each sum have one weight, and exponents are integers, is multiplied by the power of its weight.", "quantifier": "for all fields, points, numbers of particles, particles A, factors, texts of invariants and expressions", "why_tests_cant": "Tests of weights compare two evaluations of a few expressions at random points.", "anchors": ["lips/particles_compute.py: Particles_Compute.compute", "lips/particles_eval.py: Particles_Eval._eval", "lips/particles_eval.py: _eval_node"]}
{"id": "C123", "title": "No setter leaves the mass shell; histories of calls keep points good", "statement": "Let every particle be consistent, massless and have spinors. After any sequence of returning calls of _set (any text, value, mode, with or without momentum fixing), _set_pair (any two invariants and values), fix_mom_cons (without real_momenta), image (any rule) and angles_for_squares, every particle is consistent, massless and has spinors. The total momentum is within tolerance of zero unless a value was set with fix_mom=False and momentum was not restored since. Over exact fields good points go to good points.", "quantifier": "for all fields, points, numbers of particles, texts, values and sequences of calls", "why_tests_cant": "Tests run a few setters on random points and check the point that one call leaves.", "anchors": ["lips/hardcoded_limits/particles_set.py: Particles_Set._set", "lips/hardcoded_limits/particles_set_pair.py: Particles_SetPair._set_pair", "lips/particles.py: Particles.fix_mom_cons", "lips/particles.py: Particles.image", "lips/particles.py: Particles.angles_for_squares"]}
{"id": "C124", "title": "Setters that raise: assignments stay, the mass shell is kept", "statement": "Let every particle be consistent, massless and have spinors. Whether _set returns or raises, for any text, value, mode and with or without momentum fixing, every particle is consistent, massless and has spinors afterwards, and at most three particles have changed (one without momentum fixing unless Omega or Pi is set; tr5 of five particles is excepted). The same is true of _set_pair for any two invariants, with at most four particles changed; a pair that is not implemented changes nothing. Without momentum fixing a setter other than those of Omega and Pi that raises has changed nothing. With momentum fixing, a setter that returns leaves momentum conserved even if the checks that follow raise. _set is not atomic: setting <A|B> raises when there are fewer than two other particles, or the angle bracket of the first two other particles is zero, but the value has been set and momentum is not conserved any more; setting <a|b> and <d|e> raises when the second component of the right spinor of d is zero, but <a|b> has been set; and when the square bracket of the first two other particles is zero, but both have been set. fix_mom_cons is atomic: if it raises, nothing has changed. So a setter that raises with momentum fixing leaves what it leaves without (strings and Mandelstam invariants: when two labels are free). After any sequence of calls, raising or not, every particle is on the mass shell, and a call fix_mom_cons(A, B) with non-zero labels that returns makes the point good again.", "quantifier": "for all fields, points, numbers of particles, texts, values, modes and sequences of calls, over all exceptions", "why_tests_cant": "Tests look at the point after calls that return; which assignments an exception leaves depends on where in the setter it is raised.", "anchors": ["lips/hardcoded_limits/particles_set.py: Particles_Set._set", "lips/particles.py: Particles.fix_mom_cons", "lips/hardcoded_limits/particles_set_pair.py: Particles_SetPair._set_pair"]}
{"id": "C125", "title": "Expressions with open indices transform as their indices say", "statement": "Give every index of an array a kind: a spinor index of the angle or square type, of the kind of |k> or of <k|, no index, or several one after the other (blocks). |k>, <k|, |k], [k|, strings open at the left, right or both sides have the kinds their brackets and the parity of their slots say. If an expression of these and of invariants, made with +, -, *, /, **, @, epsilon, numpy.transpose, numpy.block and slices, only adds arrays of equal kinds and only contracts an index with one of the opposite kind, then for a point and its image under a Lorentz transformation compute raises for both or for none, the same exception; an array at the image is the array at the point with each index transformed as its kind says; and when no index is left the values are equal. In particular the spinors <i_|, |i_>, [i^|, |i^] of massive particles transform as <i|, |i>, [i|, |i], so strings between them are invariant. Nothing checks that indices fit: [1|@|2> and [1|@|2|@|3> are computed and are not invariant.", "quantifier": "for all fields, points, numbers of particles, Lorentz transformations and expressions of any size", "why_tests_cant": "Tests evaluate a few expressions at a few points; that any expression with proper indices is covariant is a statement about all expression trees and all transformations.", "anchors": ["lips/particles_eval.py: Particles_Eval._eval, _eval_node", "lips/particles_compute.py: Particles_Compute.compute"]}
{"id": "C126", "title": "On an image, renamed expressions have the values of the original ones", "statement": "Let q be the image of a point p of at most nine particles under a permutation of the labels. Rename the labels in a text: the digits that are labels are replaced through the permutation, while the 5 of tr5, the digits in the names of internal masses and the coefficients of an expression stay. Then q computes the renamed text to exactly what p computes the text to: the same number, spinor, matrix or array, or the same exception. This holds for every name except the shorthands Ω_ijk, Π_ijk, Δ_ijk and δ5, and for every expression made of such names with any of the operations of compute. It fails for the shorthands: Δ_135 and δ5 on six particles are counterexamples.", "quantifier": "for all fields, points of at most nine particles, permutations, texts and expressions of any size", "why_tests_cant": "A test evaluates chosen expressions under chosen permutations; that no form of text and no operation treats a label specially is a statement about all texts, expressions and permutations.", "anchors": ["lips/particles.py: Particles.image", "lips/particles_compute.py: Particles_Compute.compute", "lips/particles_eval.py: Particles_Eval._eval, _eval_node", "lips/tools.py: the regular expressions of the names"]}
{"id": "C127", "title": "On an image with brackets exchanged, expressions have the values of the flipped expressions", "statement": "Let q be a point p all of whose particles have spinors, after angles_for_squares. Flip an expression: exchange angle and square brackets in every two-bracket and string, put the first slot of every trace at its end, and write (-x) for every two-bracket, every string with both ends of one kind and every tr5, while Mandelstam invariants, Gram determinants, Ω and Π stay. Then q evaluates an expression to exactly what p evaluates the flipped expression to, value or exception, with implicit products, powers, fractions and blanks anywhere. With a permutation as well, image((permutation, True)) of p evaluates the expression with its labels renamed to what p evaluates the flipped expression to. Traces have an even number of slots, and under a permutation Ω and Π are left out.", "quantifier": "for all fields in which two is not zero, points of particles with spinors, written expressions of any size that are syntactically correct; under permutations, points of at most nine particles", "why_tests_cant": "A test flips chosen expressions by hand; that signs and brackets come out right in every position of every expression, next to every operator, is a statement about all of them.", "anchors": ["lips/particles.py: Particles.angles_for_squares, image", "lips/particle.py: Particle.angles_for_squares", "lips/particles_compute.py: Particles_Compute.compute", "lips/particles_eval.py: Particles_Eval._eval, _parse"]}
{"id": "C128", "title": "Expressions with open indices scale with the weights that counting gives", "statement": "Give every name a little-group weight for particle A: the number of angle ends that are A minus the number of square ends that are A, for brackets, closed strings, single spinors and open strings alike. Expressions add weights in products and matrix products, subtract them in quotients, multiply them in integer powers; what is added or put into one block has one weight; ϵ and numbers have none; transposing and taking slices or entries keep it. When |A⟩ is multiplied by t and [A| by 1/t, the value of an expression with weight W, number, array or list, is multiplied entry by entry by t^W, and an exception is the same exception. When all spinors are multiplied by t, the same holds with the number of spinors (twice the mass dimension) as weight.", "quantifier": "for all fields, points, nonzero t, particles A and expressions of any size that have a weight", "why_tests_cant": "Tests check some expressions at some points; the claim is about every expression, every shape of array and every scaling.", "anchors": ["lips/particles_eval.py: Particles_Eval._eval_node, as_scalar_if_scalar", "lips/particles_compute.py: Particles_Compute.compute"]}
{"id": "C129", "title": "With angle and square brackets exchanged, expressions with open indices are their mirror images transposed", "statement": "The mirror image of a name is the name read from right to left with angle and square brackets exchanged: |1] for ⟨1|, |2|1] for ⟨1|2|, [2|1] for ⟨1|2⟩, ⟨3|2|1] for ⟨1|2|3]; Mandelstam invariants and Gram determinants are their own, traces of an even number of slots are rotated, tr5 is minus itself. The mirror image of an expression has the mirror images of its names, the factors of every matrix product in the opposite order, columns of blocks as rows and the other way round, the two indices of a subscript exchanged and ϵ with the opposite sign. On a point whose particles have all had angles_for_squares applied, an expression evaluates to the transpose of what its mirror image evaluates to on the original point; a number is the same number, and one raises an exception exactly if the other does.", "quantifier": "for all fields of characteristic other than two, points whose particles are consistent and have both spinors, and expressions of any size whose names have mirror images", "why_tests_cant": "Tests check some strings at some points; the claim is about every expression, every shape of array and every point.", "anchors": ["lips/particle.py: Particle.angles_for_squares", "lips/particles_eval.py: Particles_Eval._eval_node, as_scalar_if_scalar", "lips/particles_compute.py: Particles_Compute.compute"]}
{"id": "C130", "title": "Slices of a point take, replace and delete the particles their bounds name, and nothing else", "statement": "Points are base-one lists: ps[i] is the particle with label i. A slice ps[lo:hi:step] takes the particles at the positions from the lower bound in steps up to but not including the upper bound, negative bounds counting from the end and bounds beyond the list being cut, in increasing order for positive and decreasing order for negative steps; a step of zero raises ValueError. ps[a:b] should hold the particles with labels a, ..., b-1, with label i of the slice being label a-1+i of the point, and should be a point with the same field, reference vector and internal masses. What is assigned to a slice is read back from it and other particles are left; with a step other than one the numbers of particles have to agree, otherwise ValueError. Deleting a slice leaves exactly the other particles in their order.", "quantifier": "for all lists of particles, all integer or missing bounds and steps, and all lists assigned", "why_tests_cant": "Tests use slices of a few points; the claim is about all lengths, all bounds including negative ones and ones beyond the list, and all steps.", "anchors": ["lips/tools.py: indexing_decorator", "lips/particles.py: Particles.__getitem__, __setitem__, __delitem__"]}
{"id": "C131", "title": "ijk_to_3Ks gives three momenta that conserve momentum and determine Δ_ijk", "statement": "For three different labels i, j, k of a point, ijk_to_3Ks returns three particles whose momenta are the sums over three lists of labels; the lists begin with i, j and k and every label of the point is in exactly one of them, so the total momentum of the three particles is that of the point. A list with one label gives that particle. The squared masses of the three particles are the Mandelstam invariants of the lists. If momentum is conserved, Δ_ijk on the point is the value of Δ_123 on the three particles, a quarter of the Källén function of their squared masses. With i, j and k in another order the same particles are returned in that order.", "quantifier": "for all fields of characteristic other than two, the symmetric convention for spinors (the default), points of any multiplicity with consistent particles (at most nine for the texts), and all different labels", "why_tests_cant": "Tests compute Δ for a few labels at a few points; the claim is about every multiplicity, every choice of labels and every point.", "anchors": ["lips/particles.py: Particles.ijk_to_3Ks, ijk_to_3NonOverlappingLists, cluster", "lips/particles_compute.py: Particles_Compute.compute"]}
{"id": "C132", "title": "A point made of particles of another point conserves momentum and leaves the other point as it was", "statement": "Particles([oPs[i], ...]) gives a point that conserves momentum, with two of its particles changed if the listed ones do not conserve it, and the point oPs that the particles were taken from does not change.", "quantifier": "for all fields, points, lists of different particles of a point, and pairs of particles drawn by fix_mom_cons", "why_tests_cant": "Tests build points of new particles or look only at the new point; that the other point changes shows for particular lists and draws only.", "anchors": ["lips/particles.py: Particles.__init__, fix_mom_cons"]}
{"id": "C133", "title": "Particle(kinematics) has the kinematics it is given and refuses what it does not understand", "statement": "Whenever Particle(kinematics) returns for an array of shape (4,), an array of shape (2, 2) or a pair of arrays of shapes (2, 1) and (1, 2), the particle has that momentum, bispinor or pair of spinors, with all other representations in agreement; in the default convention it returns for bispinors and spinors in every field and for momenta in fields with 1j. Any other argument raises, and p[k] is component k of the momentum.", "quantifier": "for all fields, all arguments and all integer keys", "why_tests_cant": "Tests make particles of a few arrays in the fields with complex numbers; the claim is about every argument and every field.", "anchors": ["lips/particle.py: Particle.__init__, __getitem__"]}
