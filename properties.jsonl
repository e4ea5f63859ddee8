{"id": "C01", "title": "Number::ratio is exact", "statement": "For every pair of signed machine integers num, den with den != 0 (and, in a build with overflow checks, neither equal to isize::MIN) Number::ratio(num, den) returns without panic a Number whose special/primer/symbol observation is exactly that of the rational num/den, and no later egest on it ever panics.", "quantifier": "all isize num, den; all word sizes; both build profiles; any number of egest calls", "why_tests_cant": "2^128 input pairs and an unbounded number of calls", "anchors": ["src/lib.rs: Number::ratio", "src/strategy/ratio.rs: new, Ratio::egest"]}
{"id": "C02", "title": "Number::ratio_u is exact", "statement": "For every sign flag and all usize num, den with den != 0, Number::ratio_u returns a Number observed exactly as (+/-)num/den, with no panic on any later egest.", "quantifier": "all bool, usize, usize; any number of egest calls", "why_tests_cant": "input space is 2^129; the no-overflow claim concerns every intermediate state", "anchors": ["src/lib.rs: Number::ratio_u", "src/strategy/ratio.rs: new, Ratio::egest"]}
{"id": "C03", "title": "Zero denominators are rejected", "statement": "Number::ratio and Number::ratio_u with a zero denominator always panic with 'division by zero' (unless num is isize::MIN under overflow checks, which panics with arithmetic overflow first); no Number is ever returned.", "quantifier": "all numerators, sign flags, word sizes, profiles", "why_tests_cant": "every numerator", "anchors": ["src/strategy/ratio.rs: new"]}
{"id": "C04", "title": "Ratio streams end", "statement": "Repeatedly calling egest on a Number built by ratio reaches None after finitely many symbols; the number of symbols depends only on the value.", "quantifier": "all rational inputs, any machine word", "why_tests_cant": "termination over an unbounded family of inputs", "anchors": ["src/strategy/ratio.rs: Ratio::egest", "src/lib.rs: Clog::egest"]}
{"id": "C05", "title": "None is final", "statement": "Once egest has returned None on a Clog denoting a number, every later egest call on it returns None (or, for lazily computed clogs, panics with an overflow), however many calls are made.", "quantifier": "all Clogs reachable through the API, all numbers of further calls", "why_tests_cant": "unbounded number of later calls", "anchors": ["src/lib.rs: Clog::egest", "src/strategy/ratio.rs: Ratio::egest", "src/strategy/homographic.rs: Homographic::egest"]}
{"id": "C06", "title": "Meaning of one egest", "statement": "For a Clog denoting x in (0,1), egest returns None iff x = 1/2, Amplify iff x < 1/2 (and the Clog then denotes 2x), Uncover iff x > 1/2 (and it then denotes 1/x - 1), unless it panics with an overflow.", "quantifier": "all Clogs reachable through the API, all histories of earlier calls", "why_tests_cant": "the state space of nested strategies is unbounded", "anchors": ["src/lib.rs: Clog::egest", "src/protocol.rs: Reduction"]}
{"id": "C07", "title": "Observation depends only on the value", "statement": "Two ratios with equal cross products give identical special/primer/symbol observations, for any number of egest calls, although their internal numerators and denominators differ.", "quantifier": "all pairs of equal fractions", "why_tests_cant": "infinitely many equal pairs", "anchors": ["src/strategy/ratio.rs: new, Ratio::egest"]}
{"id": "C08", "title": "One-to-one: different values, different symbols", "statement": "Two different numbers in (0,1) (rational or not) have different symbol sequences; two different rationals give different observations (special, primer, symbols).", "quantifier": "all pairs of reals in (0,1)", "why_tests_cant": "uncountable domain, the difference may appear arbitrarily late", "anchors": ["src/protocol.rs: Reduction (doc: one-to-one relationship)"]}
{"id": "C09", "title": "Every finite symbol string is some rational", "statement": "For every optional primer and every finite list of Reduction symbols there is exactly one rational whose representation it is.", "quantifier": "all primers, all finite lists", "why_tests_cant": "lists of every length", "anchors": ["src/protocol.rs: Reduction, Primer"]}
{"id": "C10", "title": "Finite iff rational", "statement": "The symbol sequence of a real in (0,1) is finite if and only if the real is rational (the protocol docs leave this as TODO: link to a formal proof).", "quantifier": "all reals in (0,1)", "why_tests_cant": "uncountable domain", "anchors": ["src/protocol.rs: Reduction (doc)"]}
{"id": "C11", "title": "Infinite sequences are the irrationals", "statement": "An infinite symbol sequence is the sequence of a (unique, irrational) number in (0,1) exactly when it does not end in Amplify forever.", "quantifier": "all infinite sequences", "why_tests_cant": "infinite objects", "anchors": ["src/protocol.rs: Reduction (doc)"]}
{"id": "C12", "title": "Special, primer and reduction cover the line without overlap", "statement": "Every real number is exactly one of: a Special value, or a unique optional primer applied to a unique number in (0,1).", "quantifier": "all reals", "why_tests_cant": "uncountable domain", "anchors": ["src/protocol.rs: Primer, Special"]}
{"id": "C13", "title": "compare is numeric order", "statement": "For Numbers denoting rationals p and q, Number::compare returns Less/Equal/Greater exactly as p < q, p = q, p > q (or an operand's egest panics with overflow).", "quantifier": "all pairs of Numbers however constructed", "why_tests_cant": "unbounded lengths of common prefix, all strategies", "anchors": ["src/compare.rs: compare, compare_specials, compare_hybrid, compare_others, compare_primers, compare_clogs"]}
{"id": "C14", "title": "compare is a total order", "statement": "On Numbers built by ratio, compare never panics, is reflexive, antisymmetric under swapping arguments (reverse) and transitive, and is Equal exactly for equal values.", "quantifier": "all pairs and triples of fractions", "why_tests_cant": "triples of unbounded values", "anchors": ["src/compare.rs: compare"]}
{"id": "C15", "title": "compare terminates", "statement": "compare on Numbers denoting rationals always terminates.", "quantifier": "all pairs of Numbers denoting rationals", "why_tests_cant": "termination", "anchors": ["src/compare.rs: compare_clogs"]}
{"id": "C16", "title": "homographic computes (nx*x+n)/(dx*x+d)", "statement": "With overflow checks on, for every Number denoting a rational x and all coefficients with dx*x+d != 0, Number::homographic terminates and returns a Number denoting (nx*x+n)/(dx*x+d), or panics with an integer overflow; every later egest on the result follows that value or panics with an overflow. It is never silently wrong.", "quantifier": "all Numbers however constructed, all coefficients, any number of egest calls", "why_tests_cant": "unbounded input streams and coefficients; the test suite samples |coef| <= 6", "anchors": ["src/lib.rs: Number::homographic", "src/strategy/homographic.rs: new, prime, egest, reduction_egest, primer_egest", "src/strategy/support.rs: updated_range"]}
{"id": "C17", "title": "homographic at a pole never yields a finite number", "statement": "If dx*x+d = 0, Number::homographic panics ('division by zero' or an overflow) or, only when dx = d = 0, may return a Number whose clog emits Amplify forever; it never returns a Number denoting a rational.", "quantifier": "all Numbers and coefficients at a pole", "why_tests_cant": "unbounded input streams", "anchors": ["src/strategy/homographic.rs: new, prime_ingest", "src/strategy/ratio.rs: new"]}
{"id": "C18", "title": "homographic at a pole of a non-zero denominator polynomial always panics", "statement": "If dx*x+d = 0 and (dx, d) != (0, 0), Number::homographic always panics, with 'division by zero' or an overflow. (The stronger claim without the side condition is false of the code: homographic(1/2, 1, 1, 0, 0) returns a Number that emits Amplify forever.)", "quantifier": "all Numbers, all coefficients with (dx,d) != (0,0)", "why_tests_cant": "unbounded input streams", "anchors": ["src/strategy/homographic.rs: new, primer_egest"]}
{"id": "C19", "title": "No logic-error panic in homographic", "statement": "With overflow checks on, neither construction nor any egest of a homographic Number reaches the 'logic error' panics or an unwrap of a missing strategy, for x denoting a rational.", "quantifier": "all Numbers, coefficients and numbers of egest calls", "why_tests_cant": "invariant over all reachable coefficient states", "anchors": ["src/strategy/homographic.rs: reduction_ingest, reduction_egest"]}
{"id": "C20", "title": "combine computes the bilinear quotient", "statement": "With overflow checks on, for all Numbers denoting rationals x, y and coefficients with non-zero denominator value, Number::combine terminates and returns a Number denoting (nxy*x*y+nx*x+ny*y+n)/(dxy*x*y+dx*x+dy*y+d), or panics with an integer overflow; every later egest follows that value or panics with an overflow.", "quantifier": "all pairs of Numbers, all eight coefficients, any number of egest calls", "why_tests_cant": "unbounded; tests sample coefficients in -1..2", "anchors": ["src/lib.rs: Number::combine", "src/strategy/combine.rs: new, prime, prime_ingest, egest, reduction_egest, reduction_ingest, image_extremes"]}
{"id": "C21", "title": "combine at a pole never yields a finite number", "statement": "If the denominator value is zero, Number::combine panics with 'division by zero' or an overflow, or returns a Number whose clog emits Amplify forever; it never returns a Number denoting a rational.", "quantifier": "all pairs of Numbers and coefficients at a pole", "why_tests_cant": "unbounded input streams", "anchors": ["src/strategy/combine.rs: new, prime_ingest"]}
{"id": "C22", "title": "Dividing by zero with combine", "statement": "combine(x, y, 0,1,0,0, 0,0,1,0) = x / y with y = 0 is rejected by a panic, as Number::ratio rejects a zero denominator. FALSE of the code, in every build: it is rejected exactly when x is 0 or +/-1/2^j; for every other x a Number emitting Amplify forever is returned. Recorded as proved negation with the exact set of rejected x.", "quantifier": "all x with y = 0", "why_tests_cant": "all x", "anchors": ["src/strategy/combine.rs: new (Special::Zero arm)", "src/strategy/homographic.rs: primer_egest"]}
{"id": "C23", "title": "No logic-error panic in combine", "statement": "Neither construction nor any egest of a combined Number reaches the 'logic error' panics, for x and y denoting rationals.", "quantifier": "all pairs of Numbers, coefficients, numbers of egest calls", "why_tests_cant": "invariant over all reachable coefficient states", "anchors": ["src/strategy/combine.rs: reduction_ingest, reduction_egest"]}
{"id": "C24", "title": "consume preserves the value", "statement": "For every Number denoting a rational x, Number::consume terminates and returns y, ny, n, dy, d with (ny*y+n)/(dy*y+d) = x, reading a missing y as one half, with non-zero denominator.", "quantifier": "all Numbers however constructed", "why_tests_cant": "unbounded streams", "anchors": ["src/lib.rs: Number::consume", "src/strategy/consume.rs: new, consume, amplify_x, uncover_x"]}
{"id": "C25", "title": "consume never overflows", "statement": "consume's own unchecked arithmetic never overflows in any profile and word size: it panics only if an egest of its input panics, and all returned coefficients are below isize::MAX/2 in magnitude.", "quantifier": "all Numbers, word sizes, profiles", "why_tests_cant": "loop invariant over unbounded streams", "anchors": ["src/strategy/consume.rs: consume, is_state_unsafe"]}
{"id": "C26", "title": "consume stops only for the documented reasons", "statement": "consume returns None for y only when the input has been read to one half (or is special); it returns Some(y) only when some coefficient has reached isize::MAX/4 in magnitude, and then no symbol has been lost. If the input has at most L symbols and 2^(L+3) is a machine integer, consume reads all of it: it returns None for y, without panic.", "quantifier": "all Numbers", "why_tests_cant": "unbounded streams", "anchors": ["src/strategy/consume.rs: consume, is_state_unsafe"]}
{"id": "C27", "title": "consume then rebuild is the identity", "statement": "Feeding consume's outputs to homographic (or, when y is None, to ratio(ny+2n, dy+2d)) gives back a Number denoting the original value, or an overflow panic.", "quantifier": "all Numbers", "why_tests_cant": "composition over unbounded streams", "anchors": ["src/strategy/consume.rs: tests t_none, t_some", "src/lib.rs: Number::consume, Number::homographic"]}
{"id": "C28", "title": "Field laws through combine", "statement": "Addition, subtraction, multiplication and division built from combine compute the exact sum, difference, product, quotient; hence e.g. compare(x+y, y+x), compare(x*(y+z), x*y+x*z) and compare((x-y)+y, x) are Equal whenever no overflow panic occurs.", "quantifier": "all Numbers denoting rationals", "why_tests_cant": "algebraic laws over an infinite domain", "anchors": ["src/lib.rs: Number::combine, Number::compare"]}
{"id": "C29", "title": "Homographic transformations compose as matrices", "statement": "Applying homographic twice denotes the same value as once with the product coefficients.", "quantifier": "all Numbers, all pairs of coefficient quadruples without poles", "why_tests_cant": "infinite domain", "anchors": ["src/lib.rs: Number::homographic"]}
{"id": "C30", "title": "Unity, negation, reciprocal, doubling and halving: exactly when they cannot overflow", "statement": "For every Number x denoting a rational q: homographic with (1,0,0,1) and (-1,0,0,1) never overflow, at construction or at any later egest, and give q and -q. The reciprocal (0,1,1,0) never overflows if q > 0 or q <= -1/2^(bits-2), and panics at construction for every other negative q. Doubling (2,0,0,1) never overflows if |q| <= 1/2 or |q| >= 1, halving (1,0,0,2) never overflows if |q| <= 1 or |q| >= 2; in the ranges left out, the double of every q with 2^(bits-2)/(2^(bits-2)+1) < q < 1 and the half of every q with 1 < q < 1 + 1/2^(bits-2) is built, gives its first bits-2 symbols, and panics at the next egest. (The tests named *_does_not_overflow suggest that none of the five ever overflows; that is false for the last three.)", "quantifier": "all Numbers denoting a rational, all numbers of egest calls, all builds and word sizes", "why_tests_cant": "the tests try only ratio(MAX,1) and ratio(1,MAX)", "anchors": ["src/strategy/homographic.rs: tests *_does_not_overflow*, egest, prime"]}
{"id": "C31", "title": "A safe size for homographic", "statement": "If the coefficients are at most M in magnitude and x has at most L symbols, and (M*2^(L+1))^2 fits isize, then (away from a pole) homographic and all its egests never overflow in any build: the result is exact without any panic.", "quantifier": "all Numbers, coefficients within the bound", "why_tests_cant": "quantifies over every stream of length L", "anchors": ["src/strategy/homographic.rs", "src/strategy/support.rs: compare_reduce"]}
{"id": "C32", "title": "homographic is total on machine integers", "statement": "homographic(ratio(p,q), nx, n, dx, d) away from poles never panics. FALSE of the code (issue #2 in the ignored tests): ratio(isize::MAX,1) + 1 panics with an overflow at the read number bits-1, and so does x + 1 for every number x above 2^(bits-2), on every machine and in every build; the symbols before are read. Recorded as proved negation.", "quantifier": "all numbers above 2^(bits-2), all builds and word sizes (negation)", "why_tests_cant": "needs all inputs; the negation needs one", "anchors": ["src/strategy/homographic.rs: tests add_does_not_overflow1", "src/strategy/support.rs: compare_reduce"]}
{"id": "C33", "title": "Release agrees with checked builds", "statement": "Whenever a build with overflow checks returns (does not panic), a build without them returns the same result, for every API function and every later egest.", "quantifier": "all API functions, inputs and call counts", "why_tests_cant": "two builds over all inputs", "anchors": ["src/strategy/support.rs", "src/strategy/homographic.rs", "src/strategy/combine.rs", "src/strategy/consume.rs"]}
{"id": "C34", "title": "Release is never silently wrong", "statement": "Without overflow checks homographic still never returns a Number with a wrong value. FALSE of the code, on every machine: with a coefficient isize::MIN the sign of the operand is lost, homographic(x, isize::MIN, n, 0, d) does exactly the same for x and for -x, so a result that is right for one is wrong for the other (homographic(-1/2, isize::MIN, 0, 0, 1) has the wrong sign); with no coefficient at isize::MIN but one at -isize::MAX, homographic(x, 2, 0, -1, -isize::MAX) is given as positive for every x between 0 and 1, although it is negative; and homographic(-3, 2^(bits-2), 0, 0, -1) reaches the panic marked as a logic error at the second read. In builds with overflow checks these calls panic. Recorded as proved negations.", "quantifier": "all inputs in a release build", "why_tests_cant": "needs all inputs; the negation needs one", "anchors": ["src/strategy/homographic.rs: new (nx = -nx)", "src/strategy/support.rs: updated_range"]}
{"id": "C35", "title": "Any API history refines exact rational arithmetic", "statement": "Every expression built from ratio, ratio_u, homographic, combine, consume-and-rebuild and partial egestion, evaluated by the code, denotes the value of the same expression in exact rational arithmetic, or panics with an overflow.", "quantifier": "all finite histories of API operations away from poles", "why_tests_cant": "unbounded histories", "anchors": ["src/lib.rs: Number, Clog"]}
{"id": "C36", "title": "A partly read Clog is still a number", "statement": "After any number of egest calls the remaining Clog, wrapped in Number::Other with any primer, denotes the primer applied to the remaining value, and can be used in every operation.", "quantifier": "all Clogs, call counts and primers", "why_tests_cant": "unbounded histories", "anchors": ["src/lib.rs: Clog::egest, Number::Other"]}
{"id": "C37", "title": "unwrap_special and unwrap_other", "statement": "unwrap_special returns the content iff the Number is Special and panics otherwise; unwrap_other likewise for Other.", "quantifier": "all Numbers", "why_tests_cant": "all Numbers", "anchors": ["src/lib.rs: Number::unwrap_special, Number::unwrap_other"]}
{"id": "C38", "title": "compare reads clogs only when primers tie", "statement": "When primers already decide, compare does not read the clogs. FALSE of the code: Ordering::then evaluates its argument eagerly, so a Number whose clog panics (or never ends) makes compare panic (or hang) although the primers decide. Recorded as proved negation.", "quantifier": "all pairs with different primers", "why_tests_cant": "all pairs; the negation needs one", "anchors": ["src/compare.rs: compare_others"]}
{"id": "C39", "title": "Printed form identifies the number", "statement": "The text main.rs prints for a Number (Z/P/N, or optional T/R/G then A/U symbols then H) is finite for every Number denoting a rational, never panics for ratio-built Numbers, and two ratio-built Numbers print the same text iff they are equal.", "quantifier": "all fractions", "why_tests_cant": "all fractions", "anchors": ["src/main.rs: logn, logs, logp, logc, logr"]}
{"id": "C40", "title": "isize::MIN in Number::ratio", "statement": "With overflow checks, ratio with an argument isize::MIN always panics with arithmetic overflow; without them it returns exactly num/den.", "quantifier": "all pairs with an argument isize::MIN", "why_tests_cant": "whole boundary line of the input square", "anchors": ["src/lib.rs: Number::ratio"]}
{"id": "C41", "title": "Precision of a finite read", "statement": "Reading 2n symbols determines the value to within 2^-n, and reading 3n symbols to within 4^-n: two numbers in (0,1) (reals, or any two clogs of the library whatever their strategies) whose first 2n (3n) egest answers agree differ by less than 2^-n (4^-n). n symbols never say more than 2^-n: for every n there are numbers with the same first n symbols whose distance is as near to 2^-n as wanted.", "quantifier": "all n, all reals in (0,1), all Clogs denoting numbers", "why_tests_cant": "uncountable domain, unbounded n", "anchors": ["src/protocol.rs: Reduction", "src/lib.rs: Clog::egest"]}
{"id": "C42", "title": "A safe size for combine", "statement": "If the eight coefficients are at most M in magnitude, x and y have at most Lx and Ly symbols, and (M*2^(Lx+Ly+3))^2 fits isize, then (away from a pole) combine and all its egests never overflow in any build: the result is exact without any panic.", "quantifier": "all pairs of Numbers, coefficients within the bound, all builds and word sizes", "why_tests_cant": "quantifies over every pair of streams of bounded length", "anchors": ["src/strategy/combine.rs", "src/strategy/support.rs: compare_reduce"]}
{"id": "C43", "title": "The demonstration program", "statement": "The program src/main.rs ends without a panic, and prints one line for each of 0, 0.5, 1, ..., 16, 16.5, isize::MAX, 1/isize::MAX and -2: the label, a colon, a space and the text of that number.", "quantifier": "all builds and word sizes", "why_tests_cant": "no test runs it, and a run shows one machine and one build only", "anchors": ["src/main.rs: main, logn"]}
{"id": "C44", "title": "A wider machine gives the same answers", "statement": "Any program over the API (on integers of the narrower machine, and without consume, whose limit is the word size), any sequence of egests, compare and the printed text give, on a machine with a wider isize, the same answer as on a narrower one with overflow checks, unless the narrower one panics with an overflow; a Number that denotes q on the narrower machine without any overflow denotes q on the wider one.", "quantifier": "all programs over the API, all pairs of word sizes", "why_tests_cant": "a test runs on one word size", "anchors": ["src/lib.rs: Number, Clog", "src/strategy/ratio.rs", "src/strategy/homographic.rs", "src/strategy/combine.rs", "src/compare.rs", "src/main.rs: logn"]}
{"id": "C45", "title": "How long it takes to read a fraction", "statement": "A fraction of integers up to 2^b in magnitude has at most (b-1)(b+4)/2 symbols, and only (2^b-1)/2^b and its signed reciprocals have that many; so reading a Number made by ratio reaches None after at most (w-2)(w+3)/2 symbols on a w-bit machine (2077 on 64 bits), one less unless an argument is isize::MIN, and ratio(isize::MAX, 1) takes exactly that one less. Likewise for ratio_u with one more bit. As a consequence homographic on fractions has a safe size expressed in the size of the integers only.", "quantifier": "all fractions, all word sizes and builds", "why_tests_cant": "a bound over all pairs of machine integers", "anchors": ["src/lib.rs: Number::ratio, Number::ratio_u", "src/strategy/ratio.rs: egest", "src/protocol.rs: Reduction"]}
{"id": "C46", "title": "When a build without overflow checks can be trusted", "statement": "If the coefficients are at most M in magnitude, x has at most L symbols and M*2^(L+3) is a machine integer (for combine, M*2^(Lx+Ly+5)), then in every build, also without overflow checks, homographic and combine away from a pole end and return a Number with the exact value or panic because a checked operation failed, and so does every later egest; at a pole they panic with a division by zero or a failed checked operation, or return a Number that amplifies forever (homographic only when dx = d = 0).", "quantifier": "all numbers, coefficients, builds and word sizes within the bound", "why_tests_cant": "tests run with overflow checks, and the claim is about all inputs of the other builds", "anchors": ["src/strategy/homographic.rs: new, egest", "src/strategy/combine.rs: new, egest", "src/strategy/support.rs"]}
{"id": "C47", "title": "Programs on small fractions never panic and are exact", "statement": "In every build, debug or release and of any word size, a program of API calls (ratio, ratio_u, homographic, combine, consume and rebuild, reading symbols and wrapping the rest) that has a value in exact rational arithmetic, whose operands are fractions of integers below 2^b and whose coefficients are at most M, with b and M small for the machine (an explicit inequality), runs without panic and returns a Number whose every later egest answers exactly the value; comparing two such results returns their order. In particular the sum, difference, product and quotient of two fractions of integers below 4 on a 16 bit machine, 8 on 32 bits and 16 on 64 bits are exact and never panic. The limit is near: 1/7 + 6/7 panics on 16 bits, 1/15 + 15 on 32 bits, and 1/63 + 62/63 and 127/127 on 64 bits.", "quantifier": "all programs, all fractions and coefficients within the bound, all builds and word sizes", "why_tests_cant": "unbounded family of programs and inputs", "anchors": ["src/lib.rs", "src/strategy/homographic.rs", "src/strategy/combine.rs", "src/strategy/consume.rs", "src/compare.rs"]}
{"id": "C48", "title": "Recursion depth is bounded by the symbols of the operands", "statement": "homographic, combine, compare, consume and egest recurse no deeper than the number of symbols of their operands plus a small constant, in every build and for all coefficients: if x can be read at depth F and has fewer than F symbols, homographic(x) needs depth F and its result is read at depth F+1; for combine F+1 and F+2; compare stops after the symbols of the shorter operand; consume after those of its operand. Functions of fractions of w-bit integers need depth at most (w-2)(w+3)/2+2 (2078 or 2079 for 64 bits). A program needs max(F, L+1) plus two per nested call.", "quantifier": "all numbers denoting rationals, all coefficients, all builds and word sizes; all programs (with overflow checks)", "why_tests_cant": "tests see only that their few inputs do not exhaust the stack", "anchors": ["src/strategy/homographic.rs: prime, egest (FIXME: recursion)", "src/strategy/combine.rs: prime, egest", "src/lib.rs: Clog::egest", "src/strategy/consume.rs", "src/compare.rs"]}
{"id": "C49", "title": "The Rc unwraps in Combine never fail", "statement": "Whatever public functions are called in whatever order, and also after caught panics, no unwrap() of Rc::get_mut or Rc::try_unwrap in combine.rs fails: every Rc<Clog> has exactly one owner whenever it is used, including the clone and replacement in shutdown_x/shutdown_y. A session without panics gets the same answers as with plain owned values instead of Rc.", "quantifier": "all finite sessions of public calls, all builds and word sizes", "why_tests_cant": "sharing is a whole-history property of the heap; tests only run a few short histories and never continue after a panic", "anchors": ["src/strategy/combine.rs:935-958 prime_ingest", "src/strategy/combine.rs:1211-1274 simple_clog, promote_clog, shutdown_x, shutdown_y, reduction_ingest"]}
{"id": "C50", "title": "What the debugging println! lines say", "statement": "A session without homographic and combine prints nothing; a constant map prints nothing; homographic of a number p(num/den) with 0<num<den, and each egest of such a result, prints one line 'nx n dx d' before every operand symbol it reads and one more. Line i applied to what is left of the operand after i symbols equals the map applied to the number (numerator and denominator scaled by one nonzero factor), also for the lines printed before a panic; the result reads on where the last line stands. combine of two such numbers, and each egest of its result, prints nothing while both operands last; when one operand has ended, every line printed, applied to what is left of the other operand after some number of symbols, equals the map applied to the two numbers up to one nonzero factor (also for the lines printed before a panic).", "quantifier": "all sessions; all fractions, primers and coefficients (opposites taken must not wrap around), all builds and word sizes", "why_tests_cant": "no test looks at the standard output", "anchors": ["src/strategy/homographic.rs:1088", "src/strategy/homographic.rs:1141", "src/strategy/combine.rs:1234"]}
{"id": "C51", "title": "A caught panic harms only the number it happened on", "statement": "If panics are caught (catch_unwind) and a number on which egest panicked is not used again, all later answers are the same as if every call worked on plain values. Without that restriction it is false: after a caught overflow panic egest can go on and answer a wrong symbol (a number below one half answers Uncover), in debug and release builds.", "quantifier": "all finite sessions of public calls, all builds and word sizes; one witness for the negative part", "why_tests_cant": "tests stop at the first panic", "anchors": ["src/strategy/homographic.rs:1042-1077 ingest_amplify, reduction_ingest", "src/strategy/combine.rs:1222-1274", "src/lib.rs:47-55"]}
{"id": "C52", "title": "Every session with the library is right", "statement": "In a build with overflow checks, make any finite list of calls of the public functions (ratio, ratio_u, homographic, combine, egest, consume, compare, unwrap_special, unwrap_other, and the constructors of Number), each inside catch_unwind, on the numbers made by earlier calls. Then every answer agrees with a table of rationals kept beside it: each new number has the face (special value or primer) of its value, each egest answers the first symbol of what is left of the value, each consume leaves a part and coefficients that stand for the value, each compare answers the order of the values. Otherwise the call gives up with an integer overflow, which can only happen if an operand or the result comes from homographic or combine. ratio panics exactly for isize::MIN and zero denominators. Each call returns unless a denominator vanishes. A panic makes only its own operands unusable.", "quantifier": "all finite sessions of public calls with machine integer arguments, all word sizes, builds with overflow checks", "why_tests_cant": "the sessions are infinitely many, and the state after each call depends on all the calls before", "anchors": ["src/lib.rs:47-192", "src/strategy/homographic.rs:37-1098", "src/strategy/combine.rs:34-1290", "src/compare.rs:1-257", "src/strategy/consume.rs:30-200"]}
{"id": "C53", "title": "Sessions do not depend on the build", "statement": "If no overflow check fails in a session (arbitrary public calls one after the other, with caught panics) of the build with overflow checks, the build without them gives the same answers and prints the same lines, so those are right too. If no integer overflow happens in a session without consume on one machine, every machine with wider words, with or without overflow checks, gives the same answers and prints the same lines. Both restrictions are needed: with a failing check the build without checks can answer wrongly (isize::MIN times -1/2 looks negative), and consume stops earlier on narrower words.", "quantifier": "all finite sessions of public calls with machine integer arguments, all pairs of builds and word sizes", "why_tests_cant": "tests run one build on one machine, and a handful of sessions", "anchors": ["src/lib.rs:47-192", "src/strategy/homographic.rs:840-1152", "src/strategy/combine.rs:675-1290", "src/strategy/consume.rs:84-145", "src/compare.rs:246-361"]}
{"id": "C54", "title": "Operands that are not fractions", "statement": "Some divisions by zero return a number instead of panicking, and that number can be passed to further calls. With overflow checks, for operands that behave like elements of any ordered field (fractions, reals, infinite numbers and infinitesimals of a non-archimedean field): whenever homographic or combine returns, the result behaves like the exact value of the quotient in that field; at a pole nothing is returned but a number that answers Amplify forever; whenever compare answers, it answers the order in that field; whenever consume returns, its result stands for the operand; and panics are overflows, divisions by zero or panics of the operands. A number that answers Amplify forever behaves like every infinite number (primer Turn or Ground) or every infinitesimal (no primer or Reflect), and a number that behaves like an infinite one has primer Turn and answers only Amplify.", "quantifier": "all ordered fields, all operands whose answered symbols are those of an element of the field, all machine integer coefficients, all word sizes", "why_tests_cant": "the values are not representable as fractions, and the answers are infinite sequences", "anchors": ["src/lib.rs:47-192", "src/strategy/homographic.rs:840-1152", "src/strategy/combine.rs:675-1290", "src/strategy/consume.rs:84-145", "src/compare.rs:246-361"]}
{"id": "C55", "title": "Which calls end when an operand is not a fraction", "statement": "For operands whose every egest ends and whose symbols are those of an element of any ordered field. With overflow checks, up to overflows: homographic ends, and so does every egest of the result, unless the map is constant or the value a pole; combine ends, and so does every egest of the result, if one operand is a fraction and the value is not a fraction. consume always ends, in every build. compare of two clogs ends as soon as their symbols differ or both end; for clogs with the same endless symbols it never answers, whatever the primers. Never returning: a constant homographic map of value -1, 0 or 1 at a number that is not a fraction; nx*x/(dx*x) at a number that answers Amplify forever, whatever nx and dx; combine when the symbols of the operands leave open whether the value is -1, 0 or 1; combine of two numbers that answer Amplify forever when the greatest term is missing from the numerator or the denominator, so the sum, difference, product and quotient of two infinite numbers. Of these, nx*x/(dx*x) at an infinitesimal and x/y at two infinite numbers that do not panic run forever in every build.", "quantifier": "all ordered fields, all operands whose symbols are those of an element of the field, all machine integer coefficients, all word sizes; all builds where said", "why_tests_cant": "termination and non-termination of loops on endless inputs cannot be observed by running", "anchors": ["src/strategy/homographic.rs:840-1152", "src/strategy/combine.rs:675-1290", "src/strategy/combine.rs:885-905", "src/strategy/consume.rs:84-145", "src/compare.rs:294-361"]}
{"id": "C56", "title": "What consume returns, exactly", "statement": "consume of a number with a primer and a clog reads some symbols of the clog and returns the coefficients of the map from what is left of the clog to the number, in lowest terms: the four coefficients have no common factor, which determines them up to the sign. It stops only when the clog has ended, or as soon as one of the coefficients in lowest terms reaches a quarter of isize::MAX in magnitude, not one symbol earlier or later. If consume panics, then reading the clog panics.", "quantifier": "all primers and all clogs (whatever symbols they answer), all builds and word sizes", "why_tests_cant": "two tests look at the value of two results; neither at the coefficients, the stopping point, or clogs that are not fractions", "anchors": ["src/strategy/consume.rs:84-167", "src/lib.rs:189-193"]}
{"id": "C57", "title": "How far compare reads, and what it answers, for any two operands", "statement": "For any two Numbers with a primer and a clog, whatever the clogs answer: compare reads both clogs in step up to the first place where their symbols differ or both end, also when the primers differ. If the read there panics (the first operand's, or the second's after the first's returned), compare panics with that panic; if it never ends, or if the symbols agree for ever, compare never ends; otherwise compare returns the order of the primers (below -1, below 0, below 1, above 1), or for equal primers the order of the two symbols (Amplify, end, Uncover), reversed once for Reflect or Turn and once for every common Uncover. These cases are exhaustive.", "quantifier": "all primers, all pairs of clogs, all builds and word sizes", "why_tests_cant": "tests compare pairs of fractions; the statement is about every clog, also ones that panic, hang or are not fractions", "anchors": ["src/compare.rs:246-361"]}
{"id": "C58", "title": "Whole sessions with divisions by zero", "statement": "For every sequence of calls to the public functions, each in its own catch_unwind, in a build with overflow checks: the answers are right in every ordered field with infinite elements. A caller may keep a table of values in which the number returned for a division by zero is any infinite element or its negative, chosen anew at each such call; then every number made has the face and the symbols of the exact value, every symbol, order and consumed part is that of the values in the table, homographic at a pole panics unless both denominator coefficients are zero, combine at a pole panics or returns an infinite number, and other panics are integer overflows. A call goes on forever only if an operand is not a fraction and, for homographic, the map is constant or the value a pole; for combine, both operands are not fractions or the value is a fraction or a pole; for compare, no symbol tells the operands apart; reading or consuming a number ends if the call that made the number was sure to end.", "quantifier": "all finite sequences of calls with machine-integer arguments, all ordered fields and all choices of infinite elements, all word sizes", "why_tests_cant": "sessions are unbounded in length and content, and no test oracle can hold infinite values", "anchors": ["src/lib.rs:47-192", "src/strategy/homographic.rs:840-1152", "src/strategy/combine.rs:675-1290", "src/strategy/consume.rs:84-145", "src/compare.rs:246-361", "src/protocol.rs:63-84"]}
{"id": "C59", "title": "homographic reads no more of its operand than the answers need", "statement": "Take any operand with a primer and a clog, whatever the clog answers after its first symbols l, and a map (nx*x+n)/(dx*x+d) that is not constant (nx*d != n*dx), in a build with overflow checks. Call the primer and the first m symbols of the result settled by l when they are the same for every operand whose symbols begin with l. If they are settled by l, and the denominator is positive or the map is bounded on these operands, then homographic and m calls of egest on the result give exactly these answers without reading more of the operand than the shortest beginning of l that settles them, or panic with an overflow. If no beginning of l settles them, then more than l is read: if the operand panics after l, homographic or one of the m calls panics with that panic or with an overflow, and if the operand never answers after l, they do not return either. The condition on the denominator is needed: 1/x at negative x reads on although its primer is settled.", "quantifier": "all primers and clogs, all integer coefficients with nx*d != n*dx, all beginnings l, all numbers m of symbols, every word size", "why_tests_cant": "a test can count the symbols read for some operands and maps; that no operand, map and number of symbols makes the code read one symbol too many is a statement about all intervals and all maps", "anchors": ["src/strategy/homographic.rs:840-900", "src/strategy/homographic.rs:941-1057", "src/strategy/homographic.rs:1079-1099", "src/strategy/homographic.rs:1138-1152"]}
{"id": "C60", "title": "combine reads its operands in pairs, and no more pairs than clear answers need", "statement": "Take any two operands with a primer and a clog each, whatever the clogs answer after their first symbols lx and ly (as many of each), and any map (nxy*x*y+nx*x+ny*y+n)/(dxy*x*y+dx*x+dy*y+d), in a build with overflow checks. Call a primer and symbols of the result clear from lx and ly when, for every pair of operands whose symbols begin with lx and ly, they are the primer and first symbols of the value, the denominator (relative to the size of the operands) is at least some fixed delta > 0 away from 0, and the value inside its primer and what is left of it after each of these symbols stay at least delta away from 0 and from 1. If they are clear, then combine and as many calls of egest on the result give exactly these answers without reading more pairs of symbols than the shortest beginnings from which they are clear, or panic with an overflow. If no primer and m symbols are clear from lx and ly, another symbol of x is asked for and then one of y: if x panics after lx, or answers and y panics after ly, then combine or one of the m calls of egest panics with that panic or with an overflow; if it never answers, they do not return either. Being the same for all operands is not enough for combine to answer: of x*y it reads all of 1/16 and 1/16 before it gives the primer, which is settled from the start.", "quantifier": "all primers and clogs, all eight integer coefficients, all beginnings lx and ly of equal length, all sequences of symbols, every word size", "why_tests_cant": "a test can count the symbols read for some operands and maps; the criterion, which is exact in both directions, quantifies over all pairs of operands with given first symbols and over all bilinear maps", "anchors": ["src/strategy/combine.rs:797-823", "src/strategy/combine.rs:863-972", "src/strategy/combine.rs:1092-1177", "src/strategy/combine.rs:1234-1289"]}
{"id": "C61", "title": "2^b-1 plus one overflows exactly when b(b+1) is at least the word size plus 3", "statement": "Take any number denoting 2^b-1 (2 <= b < word size) that is read without panics, and add one with homographic(x,1,1,0,1). If b(b+1) < bits+3, the result denotes 2^b and never panics. If b(b+1) >= bits+3, the result is made and its first b-1 symbols are right, but reading the b-th panics with an overflow. So on a 64 bit machine 127+1 is right and 255+1 panics at the eighth symbol: the numbers for which arithmetic is safe (C31) are really that small. On words of up to 69 bits, so on all usual machines, 2^b-1 with the least such b is the first number that cannot be incremented: for all n from 1 to 2^b-2 the result has the answers of the fraction n+1 (15 is the first on 16 bits, 63 on 32 bits, 255 on 64 bits).", "quantifier": "all b, all numbers denoting 2^b-1 whatever strategy they are made of, every word size and build; that 2^b-1 is the first: all word sizes up to 69 bits", "why_tests_cant": "whether it overflows depends on the word size and on all intermediate states; the exact boundary is about all b and all word sizes at once", "anchors": ["src/strategy/homographic.rs:986-996", "src/strategy/homographic.rs:1042-1077", "src/strategy/homographic.rs:1138-1152", "src/strategy/support.rs:200-207"]}
{"id": "C62", "title": "The operands -1, 0 and 1, and maps that do not depend on an operand, are resolved exactly", "statement": "homographic of one of the numbers -1, 0, 1 equals Number::ratio of the two integers obtained by putting it in (also where this divides by zero), or panics with an overflow if one of them is not a machine integer. homographic with nx = dx = 0 equals Number::ratio(n, d), whatever the operand: it is not read. combine with one of -1, 0, 1 for an operand equals homographic of the other operand with that number put into the four coefficients: the same result with the same strategy, the same panics, the same non-termination, or a panic with an overflow if one of the four is not a machine integer. So 255 + 1 by combine overflows as in C61.", "quantifier": "all operands (also misbehaving clogs), all machine integer coefficients, every word size and build", "why_tests_cant": "equality of all outcomes for all operands and coefficients, including those that panic or never return", "anchors": ["src/strategy/homographic.rs:840-900", "src/strategy/combine.rs:675-827", "src/lib.rs:112-174"]}
{"id": "C63", "title": "A number is known only by its answers", "statement": "If two numbers have the same special value, or the same primer and clogs that give the same answers up to the first None (the same symbols, the same panics after the same symbols, the same calls that never return), then exchanging one for the other changes no outcome: homographic and combine return numbers that again have the same answers, or panic alike, or both never return; compare answers the same; consume returns the same coefficients and a rest with the same answers. So operands are never read past None, how a number was made never matters, and where an overflow occurs depends only on the answers of the operands; in particular equal fractions written differently (255/1, 510/2) behave alike in every call, overflows included.", "quantifier": "all pairs of numbers (also misbehaving clogs), all coefficients, every word size and build", "why_tests_cant": "it compares all outcomes of two computations with infinitely many possible operands, including those that never return", "anchors": ["src/lib.rs:47-55", "src/lib.rs:82-192", "src/strategy/homographic.rs:840-1152", "src/strategy/combine.rs:675-1289", "src/compare.rs:246-361", "src/strategy/consume.rs:84-145"]}
{"id": "C64", "title": "Identity, negation and reciprocal of a positive number change no answer", "statement": "homographic with the identity map (1,0,0,1) of any number always returns a number with the same answers (in the sense of C63: same symbols, same panics, same non-termination); with (-1,0,0,1) it always returns a number with the answers of the number with opposite sign, i.e. only the primer changes; negating twice gives back the same answers; (0,1,1,0) of a number with primer none or Turn always returns the number with the other of these primers and the same answers. This holds whatever the clog does: when it never ends, denotes nothing, panics or never returns.", "quantifier": "all numbers and clogs, every word size and build", "why_tests_cant": "it is about every possible clog and all its answers, also those that never come", "anchors": ["src/lib.rs:112-131", "src/strategy/homographic.rs:840-1152"]}
{"id": "C65", "title": "No overflow while few symbols of the operands are needed", "statement": "Let the coefficients of numerator and denominator each sum to at most M in magnitude. If the primer and the first m symbols of the value of homographic are settled by the first i symbols of the operand (away from poles, as in C59) and (M*2^i)^2 is a machine integer, then homographic and m calls of egest on its result return exactly these answers, without panic, in every build, and read no more than these i symbols: whatever the operand does later, whether or not it has an end or a value, and however large m is. For combine the same with the first i symbols of both operands (clearly settled, as in C60) and (M*4^i)^2. The limit is near: there is an operand of 64 bit machines and a map with M = 2 whose 19th symbol is settled by 35 symbols and overflows, while up to 30 symbols are covered.", "quantifier": "all operands that are not special, all coefficients, all m, every word size and build", "why_tests_cant": "it is about every operand, also such that panic or never end, and every number of calls", "anchors": ["src/lib.rs:112-164", "src/strategy/homographic.rs:840-1152", "src/strategy/combine.rs:675-1289"]}
{"id": "C66", "title": "Maps that only change the first symbols leave the other answers alone", "statement": "Let the operand of homographic begin with the symbols l, and let the map send every such operand to the number with primer p', first symbols l' and the same remaining symbols. If the coefficients of numerator and denominator each sum to at most M in magnitude and (M*2^(|l|+1))^2 is a machine integer (and, for results that can be arbitrarily large, the denominator is positive), then homographic returns without panic a number with primer p', whose first symbols are l', and whose further answers are exactly those of what is left of the operand: the same symbols, the same panics after the same symbols, the same calls that do not return, in every build, whatever the operand is. So x+1 for x in (0,1) is Turn, Uncover, then the answers of x; halving x in (0,1), or doubling x > 1, puts one Amplify in front; doubling x < 1/2 takes one away. Every primer and every list of symbols up to half the word size can be put in front by some coefficients, and every list up to a quarter of the word size can be taken away.", "quantifier": "all operands that are not special (rational, irrational, without end, panicking, not returning), all maps, all symbols l and l', every word size and build", "why_tests_cant": "it is about every operand and every later call of egest on the result, without bound", "anchors": ["src/lib.rs:112-124", "src/strategy/homographic.rs:840-1152"]}
{"id": "C67", "title": "A number that consume has read in part cannot be rebuilt, unless it is tiny or huge", "statement": "If consume gives up before the end of its operand and returns a remaining number y with coefficients ny, n, dy, d, then homographic(y, ny, n, dy, d), which should give the number back (the ignored test t_some of consume.rs does this), panics (unwrap on None) in the call itself, in every build, whatever is left of the operand, whenever the first Uncover of the number comes after at most bits-6 times Amplify; in particular whenever the number has a value q with 2^-(bits-5) <= |q| <= 2^(bits-5). This limit is sharp: with bits-5 times Amplify some numbers panic and some do not. If on the contrary the number begins with bits-3 times Amplify, consume stops after these and homographic gives back the same number: the same primer and the same answers, including panics and calls that do not return.", "quantifier": "all operands that are not special (rational or not, with or without end, panicking or not), all primers, every word size and build", "why_tests_cant": "all operands for which consume gives up, on every machine; the failing calls depend on symbols dozens of calls deep", "anchors": ["src/lib.rs:176-192", "src/strategy/consume.rs:50-72", "src/strategy/consume.rs:84-167", "src/strategy/homographic.rs:941-996", "src/strategy/support.rs:138-207"]}
{"id": "C68", "title": "The printed coefficients are exactly the remaining map, halved where possible", "statement": "For a fraction as operand, the lines printed by homographic are determined: line i is the map with the operand's primer and its first i symbols absorbed, and the lines of a later egest are that map with the primer of the result and the answers given so far taken out again, in each case halved as often as the four coefficients allow but at most once for each Amplify among the symbols read and the answers given. If the coefficients given by the caller are not all even, that is the map divided by the greatest power of two that divides all four coefficients. So the sizes of the coefficients the code works with do not depend on when they were halved. This also holds for the lines printed before a panic.", "quantifier": "all fractions whose parts fit a usize, all primers, all coefficients that are not both nx = dx = 0 (without overflow checks: nx and dx not isize::MIN, and for the egests no coefficient of the last line of the call either), any number of egests, every word size and build, whatever the outcome of the call", "why_tests_cant": "covers the coefficients of every intermediate state for all operands and all maps", "anchors": ["src/strategy/homographic.rs:1042-1057", "src/strategy/homographic.rs:1079-1099", "src/strategy/homographic.rs:1118-1135", "src/strategy/homographic.rs:1138-1152"]}
{"id": "C69", "title": "Order laws through the API", "statement": "compare fits the arithmetic as in an ordered field: compare(x, y) is what compare says of x - y and 0; adding z to both sides changes no answer; multiplying both sides by z keeps the answer, turns it round or makes it Equal, by what compare says of z and 0; the mean of x and y lies between them; and homographic keeps the order of two operands, turns it round or makes them Equal, by the sign of (nx*d - n*dx)(dx*x + d)(dx*y + d).", "quantifier": "all numbers that denote a fraction, on any word size with overflow checks: the calls return with these answers or panic by overflow; and all numbers that follow an element of any ordered field, where a call that returns gives these answers", "why_tests_cant": "all operands, including results of other calls, and all maps", "anchors": ["src/lib.rs:79-84", "src/lib.rs:109-171", "src/compare.rs:246-361"]}
{"id": "C70", "title": "After a caught overflow, homographic is fail-stop and combine is not", "statement": "Let egest be called on a result of homographic again and again, each call inside catch_unwind. If the coefficients are small enough to be doubled once for each symbol of the operand and three times more, and the operand is fail-stop itself, then the answers are the right symbols up to some point and overflow panics from there on; a symbol after a panic never comes. Fractions are fail-stop. For combine this is false: after a caught overflow the result can answer wrong symbols, even for small fractions and coefficients 0 and 1.", "quantifier": "all word sizes and build profiles, all fail-stop operands (fractions, and results of homographic on them, nested), all coefficients within the bound, any number of calls, any state of the rest of the program", "why_tests_cant": "needs every operand and every way an overflow can interrupt egest", "anchors": ["src/strategy/homographic.rs:1042-1077", "src/strategy/homographic.rs:1101-1152", "src/strategy/combine.rs:1234-1274", "src/lib.rs:45-57"]}
{"id": "C71", "title": "When a printed line cannot be written: the call panics, homographic goes on where it was, combine does not", "statement": "homographic and its results print a line on each round, and println! panics when standard output cannot be written. Whichever lines cannot be written: a call ends exactly as if everything could be written, up to its first such line, and there it panics. If the caller catches this panic and calls egest again, then on an object without combine the second call does what the first would have done (the same symbol, or the same overflow panic, or it does not return), so the answers without these panics are those of a caller who can write everything. For combine this is false: the operand is moved out of the object before the line is printed, and 1/2 is left in its place. If one line cannot be written, 1/3 + 1/5 answers a wrong first symbol; and a result can answer wrong symbols even if no line is ever written.", "quantifier": "all word sizes and build profiles, all sets of lines that cannot be written, all objects, coefficients, numbers of calls and states of the rest of the program", "why_tests_cant": "tests run with a working standard output; the failure can come at any line of any call", "anchors": ["src/strategy/homographic.rs:1079-1099", "src/strategy/homographic.rs:1136-1152", "src/strategy/combine.rs:1222-1274", "src/lib.rs:45-57"]}
{"id": "C72", "title": "What stands on standard output, in order, also when the program does not get to the end", "statement": "The demonstration program writes, in this order and nothing else, for each of the 37 entries of C43 the label, the letters of the value one by one, and the end of the line. If some piece of output cannot be written, the program panics at the first such piece and has written exactly the pieces before it. logn on any number whose egest gives the symbols l and then None prints the letter of the primer, the letters of l and H; if egest panics after l, it has printed the same without H; the debugging lines of homographic stand between the letters and are those of the calls made. So logn on a fail-stop number (C70) prints the text of its value, or a proper part of it and then an overflow panic.", "quantifier": "all word sizes and build profiles, all numbers (also results of homographic and combine), all sets of pieces that cannot be written, everything printed before", "why_tests_cant": "the program has no test; output can fail at any piece, and partial output depends on where the overflow happens", "anchors": ["src/main.rs:5-26", "src/main.rs:28-40", "src/main.rs:70-82", "src/strategy/homographic.rs:1079-1099"]}
{"id": "C73", "title": "A number minus itself, or plus its opposite, is zero when it is short enough, and overflows when it is not", "statement": "combine computing x - y for two numbers of the same value, and combine computing x + y for a number and its opposite, return the special 0 without any panic if the representation is small: read to its end with a factor 2 for each Amplify and 1/x for each Uncover, the product g must satisfy 4*g^2 <= isize::MAX. Every fraction with parts up to 2^b in magnitude has g <= 2^(b(b+1)/2)/2, so on words of at least b(b+1)+2 bits it can be subtracted from itself and added to its opposite. For (2^b-1)/2^b and its opposite, b >= 2, the bound is exact: the result is 0 if words have at least b(b+1) bits, and otherwise the call panics with an overflow. On 64 bits every fraction with parts up to 128 works, and 255/256 - 255/256 and 255/256 + (-255/256) panic.", "quantifier": "all word sizes and build profiles, all values, all pairs of numbers of this value respectively of opposite values (also results of homographic and combine)", "why_tests_cant": "the overflow happens in a call on two small fractions with the simplest of results, and it needs the longest fractions of a size to see how soon", "anchors": ["src/strategy/combine.rs:675-828", "src/strategy/combine.rs:863-980", "src/lib.rs:136-170"]}
{"id": "C74", "title": "A number divided by itself, or times its inverse, is one when it is short enough, and overflows when it is not", "statement": "combine computing x / y for two numbers of the same value other than 0, and x * y for two numbers whose values are inverses of each other, returns the special 1 without any panic if the representation is small: with the growth g of the first number as in C73, 8*g^4 <= isize::MAX suffices. So a fraction with parts up to 2^b in magnitude can be divided by itself, and multiplied by its inverse, on words of at least 2b(b+1)+1 bits. For (2^b-1)/2^b, its inverse and their opposites, b >= 3, words of 2b^2 bits suffice, and this is exact: on words of fewer bits both calls panic with an overflow. On 64 bits all fractions with parts up to 32 work, and 63/64 divided by itself, or multiplied by 64/63, panics, and so do 64/63, -63/64 and -64/63 divided by themselves.", "quantifier": "all word sizes and build profiles, all values other than 0, all pairs of numbers of this value or of inverse values (also results of homographic and combine)", "why_tests_cant": "the call is on two small fractions and has the simplest of results, and the overflow is in a product of intermediate coefficients which no caller sees", "anchors": ["src/strategy/combine.rs:675-828", "src/strategy/combine.rs:863-980", "src/strategy/support.rs:138-207", "src/lib.rs:136-170"]}
{"id": "C75", "title": "Swapping the operands of combine changes no answer, but can decide whether there is an overflow", "statement": "combine(x, y) and combine(y, x) with the coefficients of x and y exchanged give the same special value, primer and answers as far as both can be read, in a build with overflow checks, whenever the denominator is not zero at the operands. Whether they can be read may depend on the order: on every machine the construction of (2*y - 1)*(x + 2^(bits-3)) at y = 1/2 panics with an overflow when any x in (0, 1/2) is the first operand, and returns 0 when y is. It happens with plain sums of small fractions: on 64 bits 32/63 + 63 can be read to the end, and 63 + 32/63 panics at the 13th symbol; likewise 2/15 + 30 on 32 bits and 10/11 + 7/8 on 16 bits.", "quantifier": "same answers: all word sizes, all coefficients, all operands with a rational value, all numbers of answers read; order matters: all word sizes and build profiles, all x in (0, 1/2), all y of value 1/2; sums: the named fractions", "why_tests_cant": "a test of commutativity compares results that both exist; that the calls differ in whether they exist needs operands at the limit of the word", "anchors": ["src/strategy/combine.rs:924-972", "src/strategy/combine.rs:1018-1052", "src/lib.rs:136-170"]}
{"id": "C76", "title": "The room that the four operations need, by the growth of the operands", "statement": "The growth of a number is the product of a factor 2 for each Amplify of its expansion and 1/x for each Uncover, x being what is left before the symbol. If q grows at most by g, then homographic of q with coefficients whose magnitudes add up to at most S in the numerator and in the denominator returns the exact value, without any panic then or later, whenever (2*S*g)^2 <= isize::MAX; combine of numbers growing at most by gx and gy whenever (4*S*gx*gy)^2 <= isize::MAX. Hence on all fractions with numerator and denominator up to 2^b in magnitude, sums and differences are exact on words of 2b(b+1)+4 bits, and products and quotients on words of 2b(b+1)+2 bits. On 16, 32 and 64 bits all sums and differences of fractions with parts up to 4, 10 and 46 are exact, and all products and quotients with parts up to 4, 14 and 46. A program of such calls, with ratio, ratio_u, consume and rebuilding, in which the condition holds at every call returns exactly its value in rational arithmetic and never panics. Not much larger parts are possible: on 16 bits 1/7 + 6/7 and 7/8 * 8/7 overflow, on 32 bits 1/30 + 29/30 and 1/31 * 31, on 64 bits 1/63 + 62/63 and 63/64 * 64/63, however the operands were computed.", "quantifier": "all word sizes, both build profiles, all coefficients, all numbers with a rational value; the limits: the named values and all numbers denoting them", "why_tests_cant": "a test runs single operands; that no operand of a given size overflows is a statement about all of them and all ways to compute them", "anchors": ["src/strategy/homographic.rs", "src/strategy/combine.rs", "src/lib.rs:108-170"]}
{"id": "C77", "title": "Consuming a number piece by piece", "statement": "Calling consume for a number, then for what is left of it, and so on, comes to an end for every number that can be read without a panic; no call panics, and the maps returned, the last one applied first to one half, give exactly the number. Whatever the strategies inside, a call that leaves something has read at least bits-3 and at most 3(bits-3) symbols, and a call that leaves nothing fewer than 3(bits-3), so the number of calls is known from the number of symbols up to a factor three. A number made by ratio is consumed in at most bits/2+3 calls (35 on a 64-bit machine).", "quantifier": "all word sizes, both build profiles, all clogs; the end and the value: all numbers denoting a rational; the bound on the calls: all arguments of ratio", "why_tests_cant": "the number of calls and of symbols per call has to be bounded over all operands, whose strategies may be nested to any depth", "anchors": ["src/strategy/consume.rs:128-167", "src/lib.rs:189-192"]}
{"id": "C78", "title": "On wide enough words every session is exact", "statement": "For every sequence of calls of the public functions there is a word size from which on, in both build profiles, the answers are those of exact rational arithmetic: numbers made have the sign and size of their exact value, egest answers the exact first symbol, compare the exact order, consume reads everything into a map that gives the exact value, and the only panics are those for division by zero and for unwrapping the wrong variant. No call gives up with an overflow before the first one whose denominator vanishes. The same holds for every nested program of calls with a value in exact arithmetic. A program without consume has a sharp word size: with overflow checks it is exact if and only if the machine has at least so many bits. An explicit condition on growth of the operands and magnitude of the coefficients says when a given word size is enough.", "quantifier": "all sequences of calls and all programs, all word sizes from one that depends on the calls only, both build profiles", "why_tests_cant": "a claim about all sessions and about infinitely many word sizes, only a few of which exist as machines", "anchors": ["src/lib.rs:40-193", "src/strategy/homographic.rs:840-907", "src/strategy/combine.rs:675-789", "src/strategy/consume.rs:84-167", "src/strategy/support.rs:138-188"]}
{"id": "C79", "title": "How many symbols compare reads, by the distance of the operands", "statement": "compare of two numbers whose symbols stand for values at least 1/4^n apart, whatever strategies are inside, reads fewer than 3n symbols that both have in common, then one more of each, which are different, and returns the answer that follows from them. So for fractions with parts up to 2^b it is fewer than 3b common symbols, and for numbers made by ratio on a 64-bit machine at most 188, although such a number can have more than 2000 symbols; the exceptions are numbers that are equal, opposite or inverse up to the sign, which have all their symbols in common.", "quantifier": "all word sizes, both build profiles, all clogs that can be read without a panic, all n and b", "why_tests_cant": "a bound over all pairs of operands at any distance, whose strategies may be nested to any depth", "anchors": ["src/compare.rs:294-361", "src/lib.rs:82-84"]}
{"id": "C80", "title": "A size check on the text of a program guarantees exact results", "statement": "From the text of a program of API calls (ratio, ratio_u, homographic, combine, consume and rebuild, reading symbols and wrapping the rest) one computes, without running it and without knowing any value, a bound for the numerator and denominator of every intermediate result (the product of the bounds of the operands and of the sum of the coefficients; reading symbols does not increase it). If at every call S^2*2^(b(b+1)) < 2^(bits-1) for homographic, S^2*2^(b(b+1)+c(c+1)) < 2^(bits-1) for combine, where S bounds the sums of the coefficients and 2^b, 2^c the operands, and consume is applied to short enough numbers, then the program, if it has a value at all, returns exactly this value in every build and never panics, nor does any later egest. In particular: the sum of k+1 fractions with parts up to 2^b, one after the other, is exact on words of b(b+1)+B(B+1)+4 bits with B=(b+1)k-1; their product on b(b+1)+bk(bk+1)+2 bits; a polynomial of degree k with integer coefficients below 2^m at a fraction with parts up to 2^b, by Horner's rule, on 2m+b(b+1)+(B+1)(B+2)+2 bits with B=(b+m)k.", "quantifier": "all programs of any length and depth, all given numbers whose parts are bounded, all word sizes, both build profiles; all lists of fractions, all polynomials", "why_tests_cant": "quantifies over all programs and all word sizes; the intermediate values are not known when the check is made", "anchors": ["src/lib.rs:87-192", "src/strategy/homographic.rs", "src/strategy/combine.rs", "src/strategy/consume.rs"]}
{"id": "C81", "title": "Time: a program takes a number of rounds linear in the symbols of its operands", "statement": "Count one round for every call of Strategy::egest and of prime (with their recursive calls, and the calls on the operands) and for every turn of the loops of consume and compare. For numbers that denote rationals: homographic, together with all later reading of its result, takes at most c + 2(L+1) + 1 rounds beyond one for each egest made by the caller, where L is the number of symbols of the operand and c what reading the operand costs beyond one round per symbol; combine at most c + c' + L + L' + max(L,L') + 6; consume at most c + 2(L+1); compare at most c + c' + 3(min(L,L')+1). Numbers made by ratio and ratio_u have c = 0. So the costs of nested operations add up instead of multiplying, and a whole program (ratio, homographic, combine, consume and rebuild, reading and rewrapping) and the reading of n symbols of its result take at most n rounds and the sum of the costs of its calls, whether they end in a panic or not. For fractions of machine integers one combine takes at most 3(bits-2)(bits+3)/2 + 6 rounds beyond the symbols read (6237 on 64 bits). The bounds are attained (3/5 + 1, 3/5 * 3/5). No recursive call is missed by the count: a call that is out of fuel f has taken f rounds.", "quantifier": "all numbers denoting rationals, all coefficients, all word sizes, both build profiles for single calls; all programs with a value in builds with overflow checks, and in every build where they have room (C76)", "why_tests_cant": "a bound for all inputs, all programs and any amount of reading; tests measure single runs", "anchors": ["src/lib.rs:47-55", "src/lib.rs:82-192", "src/strategy/homographic.rs:918-939", "src/strategy/homographic.rs:1059-1152", "src/strategy/combine.rs:863-972", "src/strategy/combine.rs:1234-1289", "src/strategy/consume.rs:128-145", "src/compare.rs:329-361"]}
{"id": "C82", "title": "Space: reading never enlarges a number, and every field always holds a machine integer", "statement": "In every build, with or without overflow checks and whatever the operands, coefficients and panics are: reading symbols from a number never adds a strategy to those behind it and never nests them deeper, and leaves in every field of every strategy an integer of the field's machine type. ratio makes one strategy; homographic at most one more than its operand has; combine at most one more than its operands have together; what consume leaves of its operand has not grown, and the four coefficients it returns are machine integers. So the number a program makes has at most one strategy for each call of ratio, homographic, combine and rebuild in the program, nested no deeper than the calls, however many symbols are read. The bound is attained (combine on 17/97 and 31/199 gives three strategies, and a single ratio at the end).", "quantifier": "all clogs and numbers with machine integers in their fields (denoting a value or not), all machine coefficients, all programs, all amounts of reading, all word sizes, both build profiles", "why_tests_cant": "an invariant of every reachable state under any history of calls, including states after wrapped arithmetic; tests do not see the fields", "anchors": ["src/lib.rs:47-55", "src/lib.rs:87-192", "src/strategy/ratio.rs:185-266", "src/strategy/homographic.rs:840-1152", "src/strategy/combine.rs:675-1289", "src/strategy/consume.rs:84-162"]}
{"id": "C83", "title": "How precisely the symbols of a number determine it: the exact rates", "statement": "Two numbers in (0,1), rational or not, with the same first n symbols are no further apart than 9/8 times the fourth root of 1/(5+2√6)^n (0.826 bits for each symbol), so reading 4n symbols pins a number down to within 9/8/(5+2√6)^n, whatever strategies it is made of; and for every n there are numbers with the same first 4n symbols more than 3/4/(5+2√6)^n apart. On the other hand n symbols never say more than 1/6/((3+√5)/2)^n (1.389 bits for each symbol): another number with the same symbols is at least that far away; and the n symbols Uncover of (√5-1)/2 leave no more than that times a constant. So compare of numbers made by ratio reads at most 155 symbols in common on a 64-bit machine (39 on a 16-bit one), unless the numbers are equal, opposite or inverse up to the sign.", "quantifier": "all reals in (0,1), all n; all clogs and numbers of the library, all word sizes, both build profiles", "why_tests_cant": "a bound over all pairs of numbers and all lengths with the optimal constant, whose optimality is over all symbol sequences", "anchors": ["src/lib.rs:26-27", "src/lib.rs:37-59", "src/protocol.rs:44-50", "src/compare.rs:294-361"]}
{"id": "C84", "title": "Memory is given back: no leak, no dangling pointer, no sharing, also through panics", "statement": "However a caller makes, reads, combines, compares, consumes and drops numbers, and whatever panics it catches on the way (also those of a println! that cannot write its line), afterwards an allocation behind an Rc exists exactly if the number in one of its variables points to it, directly or through other clogs; it belongs to the number in one variable only, and there is exactly one pointer to it. So when no numbers are left nothing is allocated, also if they went away in a panic. Each call of combine adds at most two allocations and nothing else adds any, in particular not reading symbols. No Rc::get_mut or Rc::try_unwrap ever fails. And giving memory back does no harm: as long as lines can be written, all answers, the numbers in the variables and the lines printed are those of the model in which nothing is freed.", "quantifier": "all lists of calls and drops, with any panics caught, any lines that cannot be written, all word sizes, both build profiles", "why_tests_cant": "leaks and dangling pointers on panic paths need every interleaving of calls, drops and overflows; a test sees a few", "anchors": ["src/lib.rs:47-55", "src/lib.rs:112-192", "src/strategy/homographic.rs:840-900", "src/strategy/homographic.rs:1079-1099", "src/strategy/combine.rs:675-827", "src/strategy/combine.rs:863-972", "src/strategy/combine.rs:1211-1289", "src/strategy/consume.rs:84-145", "src/compare.rs:246-361"]}
{"id": "C85", "title": "How many lines are printed", "statement": "homographic.rs prints a line of debugging output in every round of prime and of egest. A caller can keep an account of them: each call is charged a number of lines that depends only on the values of its operands and on whether they are results of homographic or combine, and at all times at most as many lines have been printed as have been charged. Making a fraction, a special value, unwrapping and re-priming are charged nothing. homographic is charged one line for each symbol of its operand and for the end; combine is charged only the symbols by which one operand is longer than the other, and the end; reading a symbol of a result is charged one line. So when a fraction with L symbols goes through homographic and the result is read m times, there are at most L+1+m lines, and when two fractions with L and L' symbols are combined, m + |L-L'| or m + |L-L'| + 1, depending on the order of the operands. Both bounds are met.", "quantifier": "all lists of calls, with any panics caught (calls about which nothing is known are charged what they print), all word sizes, overflow checks on", "why_tests_cant": "a bound over all operands and all sequences of calls; a test counts the lines of some", "anchors": ["src/strategy/homographic.rs:1079-1099", "src/strategy/homographic.rs:1136-1153", "src/strategy/combine.rs:1211-1289", "src/strategy/combine.rs:675-827"]}
{"id": "C86", "title": "Large and small numbers cannot be multiplied, divided, added or subtracted", "statement": "A number is not limited by the width of the machine, but combine is: while it learns from both operands only that they are large, or only that they are close to zero, it doubles a coefficient with every symbol. Two numbers greater in magnitude than 2^(bits/2) and 2^((bits-1)/2), or two numbers closer to zero than the inverses of these, cannot be multiplied: the call panics (unwrap on None), in every build, also if the operands have no value but only begin with so many Amplify. The same holds for dividing a large number by a small one or a small one by a large one, for adding a large and a small number, and (with one more symbol) for subtracting them. So on 64 bits no number greater than 2^32 can be squared. For powers of two the limit is exact: 2^a*2^b, 2^-a*2^-b (with any signs), 2^a/2^-b and 2^-a/2^b are exact if 2a+1 <= bits or 2b+2 <= bits and panic otherwise, but a large result of negative sign is exact if a+b+2 <= bits and panics otherwise: 2*2^62 is exact on 64 bits, 2*(-2^62) panics.", "quantifier": "all operands (values, or only the first symbols), all exponents, all signs, all word sizes, both build profiles", "why_tests_cant": "concerns all operands beyond a limit that depends on the word size, and the exact limit for every pair of exponents", "anchors": ["src/strategy/combine.rs:863-972", "src/strategy/combine.rs:1018-1052", "src/strategy/homographic.rs:1079-1099", "src/lib.rs:136-174"]}
{"id": "C87", "title": "How far homographic looks ahead", "statement": "How many symbols of its operand homographic reads for a number of symbols of the result, whatever the operand and the coefficients. With coefficients whose row sums are at most S and a determinant D other than zero, i symbols of the operand settle the primer and m symbols of the result only if D^4*(5+2*sqrt 6)^m <= (3*S^2*((3+sqrt 5)/2)^i)^4; so if the operand panics (or never answers) after fewer, the m symbols are never given. And if the result keeps away by e from 0, 1 and the places where one of these symbols changes, they are given from i symbols as soon as (5*S^2*((3+sqrt 5)/2)^(m+1))^4 < (e*D)^4*(5+2*sqrt 6)^i, whatever the operand does later. In whole numbers, for S <= 2^s and e = 1/2^k: not from i symbols when 56i+80s+64 <= 33m, certainly from i symbols when 56m+80s+40k+149 <= 33i; and if also 2(s+i) < bits-1 the symbols are returned exactly, with or without overflow checks.", "quantifier": "all operands (with or without a value), all coefficients with a determinant other than zero, all numbers of symbols, all word sizes", "why_tests_cant": "a bound on the rate for all operands, coefficients and lengths, with irrational constants", "anchors": ["src/strategy/homographic.rs:1079-1117", "src/strategy/homographic.rs:1136-1153", "src/lib.rs:112-131"]}
{"id": "C88", "title": "How far combine looks ahead at most", "statement": "With coefficients whose row sums are at most S, a result that keeps away by e from 0, 1 and the places where one of its first m symbols changes, and a numerator or denominator of magnitude at least f*max(1,|x|)*max(1,|y|), the primer and m symbols of the result of combine are given from i symbols of each operand as soon as (5*S*((3+sqrt 5)/2)^(m+1))^4 < (e*f)^4*(5+2*sqrt 6)^i, whatever the operands do later (unless a number is too large before); and they are returned, exactly and with or without overflow checks, if also (S*4^i)^2 is a machine integer. For a sum, a difference or a product of numbers up to 2^a and 2^b, and e = 1/2^k, it is enough that 56m+40(a+b)+40k+189 <= 33i: about 1.7 symbols of each operand for a symbol of the result, and 1.3 for each bit of their size.", "quantifier": "all operands, all coefficients, all numbers of symbols, all word sizes", "why_tests_cant": "a bound for all operands, coefficients and lengths, with irrational constants", "anchors": ["src/strategy/combine.rs:863-972", "src/strategy/combine.rs:1018-1052", "src/lib.rs:136-174"]}
{"id": "C89", "title": "How far combine must look ahead", "statement": "With coefficients whose row sums are at most S and the second operand held at y, let D(y) = (nxy*y+nx)*(dy*y+d) - (ny*y+n)*(dxy*y+dx). If (3*(S*max(1,|y|))^2*((3+sqrt 5)/2)^i)^4 < D(y)^4*(5+2*sqrt 6)^m, then i symbols of the first operand are too few for the primer and m symbols of the result, however much is known of the second operand, and the same with the operands exchanged: if an operand panics (or never answers) after i symbols of each, so does combine or one of the m calls of egest on its result. For a sum, difference, product or quotient the number of symbols of each operand that m symbols of the result take is therefore bounded on both sides; for a sum of numbers up to 2^a and 2^b it is more than i0 and at most i when 56*i0+80*min(a,b)+144 <= 33*m and 56*m+40(a+b)+40k+189 <= 33*i.", "quantifier": "all operands, all coefficients, all numbers of symbols, all word sizes", "why_tests_cant": "says that no number of symbols below a bound is ever enough, for all operands, coefficients and lengths", "anchors": ["src/strategy/combine.rs:863-972", "src/strategy/combine.rs:1018-1052", "src/lib.rs:136-174"]}
{"id": "C90", "title": "What combine reads when one operand ends", "statement": "Let one operand end: it answers None after finitely many symbols, so that its value a is known exactly, and let the map of the other operand that is left be injective. If for all values the other operand can still have after giving certain symbols (at least as many as the first gave before its end, one more when the first operand is the one that goes on) the result is bounded, has the same primer p' and the same first m symbols, then with overflow checks combine returns a number with primer p' and m calls of egest give exactly those symbols, unless arithmetic overflows. Of the other operand no more than the given symbols is asked, so it does not matter what it does afterwards. The state left is either still a combination, with equally many symbols taken from both, or a homographic map of the other operand alone. With C87 this gives the number of symbols that are enough: for a sum or product with the fraction a/b of size at most 2^s whose result keeps 1/2^k away from where its symbols change, 56*m+80*s+40*k+149 <= 33*i. If each row of coefficients has absolute values summing to at most M and (8*M*4^i*2^j)^2 is a machine integer, where i pairs are read before the end is found and j symbols after it, then nothing overflows and the same holds in every build.", "quantifier": "all operands of which one ends, all coefficients, all numbers of symbols, all word sizes", "why_tests_cant": "quantifies over all operands, including ones that panic or never answer after the symbols named, and over all coefficients and lengths", "anchors": ["src/strategy/combine.rs:863-883", "src/strategy/combine.rs:924-972", "src/strategy/combine.rs:974-1016", "src/strategy/combine.rs:1211-1276", "src/lib.rs:136-174"]}
{"id": "C91", "title": "Expressions of real numbers can be computed to any precision", "statement": "Take any expression of fractions, homographic, combine and partial reading (what is left after some symbols, with any primer) over real inputs, in which no denominator is zero and no call turns irrational operands into a rational result, and let v be its value in real arithmetic. For every m there are a word size B and a number k of symbols such that on all words of at least B bits, in every build, whenever each input is given by a Number that is the input exactly if the input is rational, and otherwise has its primer and answers its first k symbols (whatever it does afterwards), all calls return without panic, and the result is v exactly if v is rational, and otherwise has the primer of v and answers its first m symbols. Fractions near enough to an irrational number do as its approximation, and such fractions can be made with Number::ratio. So for irrational v and every e > 0 there is an h > 0 such that, computed from fractions nearer than h to the inputs on wide enough words, the symbols answered by the result leave only numbers nearer than e to v. The condition on irrational operands cannot be dropped: for sqrt 2 times sqrt 2, no number of symbols of sqrt 2 is enough for the first symbol of the product.", "quantifier": "all expressions, all real inputs, all precisions, all numbers that approximate the inputs", "why_tests_cant": "quantifies over all expressions, all real inputs and all approximations, including ones that panic or diverge after the symbols needed", "anchors": ["src/lib.rs:87-174", "src/strategy/homographic.rs", "src/strategy/combine.rs"]}
{"id": "C92", "title": "Arithmetic with 0, 1 and -1 works on any number at all, except some quotients", "statement": "For any Number x at all - a fraction or not, with or without end, panicking or never returning - in every build and on every word size: x+0, 0+x, x-0, x*1, 1*x and x/1 by combine return a number with exactly the answers of x; 0-x, x*(-1) and (-1)*x one with the answers of the opposite of x; x*0 and 0*x return the constant zero. 1/x and -1/x for x > 0 and for x < -1, and x/(-1) for x between -1 and 1, change the primer and no answer. None of these reads a symbol of x. The other quotients do, and have a limit. Let the clog of x begin with exactly j times Amplify. For j <= bits-3, x/(-1) for |x| > 1 and 1/x and -1/x for -1 < x < 0 return a number with exactly the answers of the opposite, the reciprocal and the opposite reciprocal. If the clog begins with bits-2 times Amplify and gives one more answer, x/(-1) for x > 1 and 1/x for -1 < x < 0 panic. So for a number of value q > 1, q/(-1) is right if q <= 2^(bits-2) and panics if q > 2^(bits-2); for -1 < q < 0, 1/q is right if q <= -2^-(bits-2) and panics otherwise.", "quantifier": "all Numbers and Clogs (also ones that are not fractions), all word sizes and builds", "why_tests_cant": "quantifies over all numbers, including ones without end or whose egest panics or diverges, and compares all their answers", "anchors": ["src/lib.rs:136-174", "src/strategy/combine.rs:675-770", "src/strategy/homographic.rs:840-964", "src/strategy/support.rs:138-188"]}
{"id": "C93", "title": "Zero divided by a number reads the number to its end, and can overflow", "statement": "0/x by combine, for x other than -1, 0 and 1, on every word size and in every build: if it returns, the clog of x has ended and the result is zero. It returns zero if x ends after at most bits-3 symbols, so for every fraction of integers up to 2^b in magnitude with (b-1)(b+4)/2+3 <= bits (up to 512 on a 64-bit machine). It panics with an overflow if x gives more than 2^(bits-1)+1 times Uncover, so for every number with infinitely many of them. Small fractions are enough: 0/(1/4095) panics on a 64-bit machine, 0/(1/511) on 32 bits, 0/(95/98) on 16 bits. For x = 1/(2^b-1) or -1/(2^b-1) with b >= 3 the limit is exact: 0/x panics with an overflow if (b-2)(b+1)/2 >= bits-1 (b >= 12 on 64 bits, 9 on 32, 7 on 16), and is zero otherwise. Likewise for x = 2^b/(2^b-1) or its opposite with b >= 2: an overflow if (b-1)(b+2)/2 >= bits-1 (0/(2048/2047) on 64 bits), zero otherwise.", "quantifier": "all clogs, all primers, all word sizes and builds", "why_tests_cant": "quantifies over all operands, including ones that never end", "anchors": ["src/lib.rs:136-174", "src/strategy/homographic.rs:918-964", "src/strategy/homographic.rs:1042-1057", "src/strategy/homographic.rs:1079-1099"]}
{"id": "C94", "title": "A panic on reading is not lost in a result", "statement": "Let reading x give some symbols and then a panic. With overflow checks: if homographic of x, by a map that is not constant, returns a number, this number is not special and never answers None, whatever is read of it; the same for combine of x, as first or second operand, with a number of value q, by a map that is not constant in x beside q, and for combine of x with another number that panics when read, by a map that is not constant in x. In every build: compare of x with a number of value q, or with another number that panics when read, does not answer Equal, and if consume of x returns, it returns a rest, and the rest never answers None.", "quantifier": "all numbers x that panic after any symbols, all coefficients, all fractions q, all word sizes", "why_tests_cant": "quantifies over all broken operands, all coefficients and all readings of the result", "anchors": ["src/lib.rs:112-131", "src/lib.rs:136-174", "src/lib.rs:82-84", "src/lib.rs:189-192"]}
{"id": "C95", "title": "A counter that adds one returns forever, but cannot be read from 2^b on", "statement": "Start with 0 and add 1 again and again with combine. Every addition returns, on every word size and in every build. For machine integers of up to 69 bits and the smallest b with bits+3 <= b(b+1) (b = 4, 6, 8 for 16, 32, 64 bits) the counter has, after n < 2^b additions, exactly the answers of Number::ratio(n, 1), without any panic; after 2^b additions (16, 64, 256) it gives the first b-1 symbols, and panics when the next one is read; and with overflow checks it can never again be read to an end, after any number of further additions. On every word size: if the counter is right at 2^b-1, with b as above or larger (and below bits), it breaks off at 2^b.", "quantifier": "all numbers of additions; word sizes up to 69 bits for the exact range, all word sizes for the rest", "why_tests_cant": "quantifies over all lengths of the loop and all word sizes", "anchors": ["src/lib.rs:136-174", "src/strategy/homographic.rs:918-964", "src/strategy/homographic.rs:1042-1057"]}
{"id": "C96", "title": "Powers of two by repeated multiplication are exact for ever, powers of -2 are not", "statement": "Start with y and multiply by y again and again with combine, y being 2^b, 1/2^b or the opposite of one, on a machine with at least 2b+2 bits, in every build. For y = 2^b, 1/2^b and -1/2^b all powers are returned without panic and have their exact value, however large or small. For y = -2^b the n-th power is exact if b*m+2 <= bits, m being the largest odd number up to n; otherwise the loop has panicked with an overflow. So on a 64-bit machine 2^1001 and (-1/2)^1001 are exact, (-2)^62 is, and the multiplication that should give (-2)^63 panics. If bits < 2b+1, already the first product y*y panics, for all four kinds of y.", "quantifier": "all exponents, all b with 2b+2 <= bits or bits < 2b+1, all word sizes and builds", "why_tests_cant": "quantifies over all exponents and all word sizes", "anchors": ["src/lib.rs:136-174", "src/strategy/combine.rs:863-972"]}
{"id": "C97", "title": "Continued fractions whose quotients are powers of two are exact, however large their parts", "statement": "On every word size and in every build: x = 2^k + 1/x by homographic(x, 2^k, 1, 1, 0), any number of times and with any k that have 2k+6 <= bits, starting with a number greater than 1. What is read of the result is, for each quotient 2^k from the outside, k times Amplify, Uncover, and k times Amplify, and then exactly the answers of the starting number, whether it has a value or not. If it has the value q, the result is read to its end without panic and is the expansion of 2^k1 + 1/(2^k2 + ... + 1/q). So x = 1 + 1/x starting with 2 gives all quotients of successive Fibonacci numbers exactly, also those with more than 64 bits.", "quantifier": "all lists of exponents, all numbers greater than 1, all word sizes and builds", "why_tests_cant": "quantifies over all lengths of the fraction, values beyond the machine integers, and operands without value", "anchors": ["src/lib.rs:112-131", "src/strategy/homographic.rs:1101-1135", "src/strategy/homographic.rs:1138-1153"]}
{"id": "C98", "title": "Repeated division by powers of two is exact for ever going down, and going up while the quotients are positive", "statement": "Divide x by y again and again with combine, on a machine with at least 2b+2 bits, in every build. If x = ±1/2^a and y = ±2^b with a, b >= 1, all quotients are returned without panic and have their exact value, however small. If x = ±2^a and y = ±1/2^b, the first n quotients are exact if every negative one among them has a magnitude of at most 2^(bits-2); otherwise the loop has panicked with an overflow. So on a 64-bit machine 2 can be divided by 1/2 for ever, but -2 only 61 times: the division that should give -2^63 panics, although all the quotients before it are exact. If bits < 2b+2, going down from ±1/2^a the first quotient is exact when 2a+1 <= bits and panics otherwise, and the second panics in any case.", "quantifier": "all numbers of divisions, all a and b >= 1 (2b+2 <= bits for going up), all signs, all word sizes and builds", "why_tests_cant": "quantifies over all numbers of divisions and all word sizes", "anchors": ["src/lib.rs:136-174", "src/strategy/combine.rs:863-972"]}
{"id": "C99", "title": "Every rational number can be made and read exactly, on every machine", "statement": "On every word size and in every build: start with any number between 0 and 1 and, for a list of symbols from the last to the first, call homographic for x/2 (Amplify) or 1/(1+x) (Uncover). All calls return without panic, and what is read of the result is exactly that list of symbols and then the answers of the starting number, whatever they are. Starting with ratio(1, 2), and with one more call of homographic for the primer (1/x, -x or -1/x), a number is made that is read to its end without panic as the expansion of its value. So every rational number is representable, not only those whose numerator and denominator are machine integers: 0, 1 and -1 as specials given by ratio, and every other one by such calls, however many bits it needs.", "quantifier": "all rational numbers, all lists of symbols, all primers, all word sizes and builds", "why_tests_cant": "quantifies over all rational numbers and over expansions of any length", "anchors": ["src/lib.rs:112-131", "src/lib.rs:87-93", "src/strategy/homographic.rs:840-900"]}
{"id": "C100", "title": "Numbers of any size are compared exactly", "statement": "On every word size and in every build: if two numbers can each be read to their end, that is, the expansion of a value and then None, nothing being required of what is read after that, then compare returns without panic and its answer is the order of the two values; the same holds for such a number and a special, in both orders. Numbers that never panic are of this kind or special. So numbers whose numerator and denominator are no machine integers, made as in C97 or C99, are compared exactly with each other and with all other numbers.", "quantifier": "all numbers that can be read to their end, of any value, all word sizes and builds", "why_tests_cant": "quantifies over all numbers, however they were made, and over values of any size", "anchors": ["src/lib.rs:82-84", "src/compare.rs:246-361"]}
{"id": "C101", "title": "consume is exact and does not overflow for numbers of any size", "statement": "On every word size and in every build: if a number can be read to its end, that is, the expansion of its value q and then None, nothing being required of what is read after that, then consume returns without panic. The coefficients it returns are below isize::MAX/2 in magnitude, and with the rest y they stand for q: (ny*y+n)/(dy*y+d) = q with a denominator that is not zero, where no rest stands for y = 1/2, and a rest is again a number that can be read to its end. So a number whose numerator and denominator are no machine integers, made as in C97 or C99, can be taken apart piece by piece: calling consume again and again, each time on the rest that the call before has left, comes to an end with a call that leaves none, and the pieces put together are exactly q.", "quantifier": "all numbers that can be read to their end, of any value, all word sizes and builds", "why_tests_cant": "quantifies over all numbers, however they were made, and over values of any size", "anchors": ["src/lib.rs:176-192", "src/strategy/consume.rs:84-167"]}
