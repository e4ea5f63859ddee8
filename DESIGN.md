# Formal model of clarith in Lean 4

clarith is a small Rust crate for exact arithmetic on *continued logarithms*: a
number in (0,1) is a stream of `Amplify`/`Uncover` symbols, a `Number` is either
`Special` (-1, 0, 1) or an optional `Primer` followed by such a stream (`Clog`).

## Layout

| module | contents |
|---|---|
| `Verif/Model/Machine.lean` | machine words, panics, build profile, out-of-fuel |
| `Verif/Model/Protocol.lean` | `src/protocol.rs` |
| `Verif/Model/Ratio.lean` | `src/strategy/ratio.rs` |
| `Verif/Model/Strategy.lean` | `struct Homographic`, `struct Combine`, `Box<dyn Strategy>`, `enum Number` |
| `Verif/Model/Support.lean` | `src/strategy/support.rs` |
| `Verif/Model/Homographic.lean` | `src/strategy/homographic.rs` |
| `Verif/Model/Combine.lean` | `src/strategy/combine.rs` |
| `Verif/Model/Number.lean` | `src/lib.rs`, `src/strategy.rs`, `src/strategy/consume.rs` |
| `Verif/Model/Compare.lean` | `src/compare.rs` |
| `Verif/Model/Steps.lean` | the same functions statement by statement, with heap, printed lines and caught panics |
| `Verif/Model/Stdout.lean` | the functions that print, once more, on a standard output that may fail |
| `Verif/Model/Memory.lean` | the functions in which a clog goes out of scope, once more, with what is dropped and freed |
| `Verif/Model/Timed.lean` | the functions that recurse or loop, once more, with a count of rounds |
| `Verif/Model/Plain.lean` | the caller that catches panics, for the first model |
| `Verif/Model/Main.lean` | `src/main.rs` (what is printed, and the whole program) |
| `Verif/Model/MainSteps.lean` | `src/main.rs` with every `print!` as a step, and with output that may fail |
| `Verif/Spec.lean` | the independent specification over the rationals (see below) |
| `Verif/SpecReal.lean` | the same over the reals, for the claims of the protocol documentation |
| `Verif/SpecField.lean` | the same over any ordered field, for operands that are not fractions |
| `Verif/SpecGrowth.lean` | how much the coefficients grow while an operand is read |
| `Verif/SpecSessionField.lean` | the table of a session over any ordered field, with divisions by zero |
| `Verif/SpecFailStop.lean` | what fail-stop means, over the statement-by-statement model |
| `Verif/SpecStdout.lean` | what is said about lines that cannot be written |
| `Verif/SpecScreen.lean` | what is said about the stream of standard output |
| `Verif/SpecSession.lean` | what a caller may expect of a list of calls, with a table of rationals |
| `Verif/SpecLines.lean` | what a caller may expect to be printed by a list of calls |
| `Verif/SpecIdeal.lean` | what a list of calls answers if integers never overflow, without any word size |
| `Verif/Proofs/*.lean` | lemmas |
| `Verif/Properties/*.lean` | the property theorems `C01_...`, each with an example meeting its hypotheses |
| `Verif/Tests/*.lean` | the project's own tests run on the model |

## Specification

`Spec.lean` uses no function of the model except that it observes `Clog.egest`.

* `Spec.symbols k x`: the answers of `k` successive egest calls that the protocol
  documentation prescribes for the value `x` (none at 1/2; Amplify and 2x below;
  Uncover and 1/x-1 above). `Spec.applyPrimer`, `Spec.specialValue`,
  `Spec.Expands`, `Spec.SymbolCount`.
* `Returns m v` (for all large enough fuel `m` gives `v`), `Panics m p`,
  `Diverges m` (out of fuel for every fuel), `Ends A m P` (ends; either returns a value with
  `P` or panics with a panic in `A`).
* `Clog.Denotes cfg A c x`: for every `k` the first `k` egest calls on `c` answer
  `symbols k x`, or one of them panics with a panic allowed by `A`.
  `Number.Denotes` adds primers and specials. With `A = NoPanic` the
  denotation is exact; with `A = Overflow` integer overflow panics are allowed.
* `Clog.AmplifiesForever`.

## Modelling decisions

* **Machine integers.** `isize`/`usize` values are `Int`/`Nat`; every arithmetic
  operation of the code goes through an operation that checks the range of a
  machine with `bits` bits (any `bits >= 16`). `checked_*().unwrap()` panics when
  out of range. Unchecked operators (`-x`, `x *= -1`, `n *= 2`, `+=`) panic when
  out of range if the build has overflow checks, and wrap otherwise: both
  profiles are modelled by the flag `overflowChecks`.
* **Panics** are values of `Out`: `panic p`, where `p` distinguishes division by
  zero, `unwrap` of a failed checked operation, arithmetic overflow, the
  "logic error" panics, and the `unwrap_special`/`unwrap_other` panics. What a panic leaves
  of a number (`catch_unwind`) is in the second model, see below and C51.
* **Recursion.** `Clog::egest`, `prime`, `consume`, `compare_clogs` recurse or
  loop on data that can be infinite. The model gives each a fuel argument;
  `timeout` is returned when it runs out. It is proved (Proofs/Fuel.lean) that more fuel never
  changes an outcome other than `timeout`.
* **`Box<dyn Strategy>`** is an inductive type with the three strategies the
  crate ever boxes (`Ratio`, `Homographic`, `Combine`), nested to any depth. The
  trait is in a private module, so users cannot add strategies.
* **`&mut self`** becomes a returned new state. `Rc<Clog>` in `Combine` is a
  uniquely owned pointer throughout (`Rc::get_mut`, `Rc::try_unwrap` always
  succeed because `shutdown_*` overwrites the field, dropping the other reference, first), so it is
  modelled by the clog itself. This is proved in the second model (C49).
* **Two models.** `Model/Steps.lean` is a finer model of the same functions: every assignment to
  a field is a step, a panic keeps the steps made so far, `Rc`s are addresses of
  reference-counted cells, and the `println!` lines are recorded. It is driven by a caller that
  makes any calls and catches every panic. `Proofs/StepsSim.lean` proves that it answers like the
  first model, so the theorems about the first model carry over.
* **Printing** (`main.rs`) is modelled twice: by the text of a completed call (`Model/Main.lean`), and
  as a stream of pieces, one for each `print!`, `println!` and debugging line (`Model/MainSteps.lean`).

## Not modelled

* What becomes of the text of a line that `println!` or `print!` could not write: it may stay in the
  buffer of `Stdout`. The panic is in `Model/Stdout.lean` and `Model/MainSteps.lean` (C71, C72). One
  macro call is one piece, although it may hand its text over in parts.
* `Weak` pointers and more than one thread: `Rc` has no `Weak` in this crate and is not `Send`.
* Stack size and memory in bytes, and time in seconds (C48 bounds the recursion depth, C81 the number of calls, C82 the number of boxed strategies, C84 the number of allocations behind `Rc`s).
* `impl Strategy for Consume` and the other commented-out blocks of `consume.rs` and
  `combine.rs`; `Cargo`, Docker, CI files. The tests are not part of the model but are run on it.

## Trusted base

Lean's kernel (with its big-number acceleration for literals), the axioms
`propext`, `Classical.choice`, `Quot.sound` (no theorem depends on any other; many depend
on fewer), and the faithfulness of the model
definitions to the cited Rust lines. No other axiom, no `sorry`, no
`native_decide`/`bv_decide`. `decide +kernel` is used only on literals: for witnesses,
negations, examples and tests, and for the finite table of `C61_first_on_usual_words`, which
covers the word sizes up to 69 bits completely (the same for wider words is not claimed), and the
table of `C76_growth`, which covers all fractions with parts up to 46.

Evidence for faithfulness that is checked by the kernel: `Verif/Tests` contains the
assertions of the crate's own test modules (compare.rs 121, homographic.rs 234,
combine.rs 474, ratio.rs, consume.rs), evaluated on the model for a 64-bit checked and a
32-bit unchecked build (the few that read thousands of symbols on a 16-bit machine);
the integration tests of `tests/compare.rs` are proved
as theorems; the examples in the documentation of `protocol.rs` are evaluated as well; the tests marked `#[ignore]` for issue #2 are shown to overflow in the model.

## Disagreements between the code and what a user would expect

* C18, C22: a denominator that is identically zero (or `x / 0` by `combine`) is not always
  rejected: a Number that emits Amplify forever ("infinity") is returned, on which `compare`
  may hang. C22 gives the exact set of dividends for which `x / 0` panics.
* C30: the reciprocal, doubling and halving can overflow although the tests named
  `*_does_not_overflow` suggest they do not. Thresholds are proved.
* C61: `ratio(255, 1) + 1` panics on a 64 bit machine (`15 + 1` on 16 bits, `63 + 1` on 32 bits):
  numbers of a size every user works with.  The boundary is exact: `2^b - 1` plus one overflows if
  and only if `b(b+1) >= bits + 3`.
* C47: `1/63 + 62/63`, `127 / 127`, `127 - 95` and `127 * 127` by `combine` panic on a 64 bit machine
  (`1/7 + 6/7` on 16 bits, `1/15 + 15` on 32 bits).  `Verif/Tests/SmallFractions.lean` lists, for some
  first operands on a 16 bit machine, exactly which calls with small fractions panic.
* C73: `255/256 - 255/256` by `combine` panics on a 64 bit machine (`15/16 - 15/16` on 16 bits),
  although all fractions with parts up to 128 can be subtracted from themselves.
* C74: `63/64 / 63/64` and `63/64 * 64/63` by `combine` panic on a 64 bit machine (`7/8 / 7/8` on 16
  bits), and so do the same calls with negative numbers, although all fractions with parts up to 32
  can be divided by themselves.
* C75: `32/63 + 63` can be read to its end on a 64 bit machine and `63 + 32/63` panics.
* C32: `ratio(isize::MAX, 1) + 1` panics (issue #2 of the project); so does `x + 1` for every
  `x > 2^(bits-2)`, on every machine, when its symbol number `bits-1` is read.
* C34: in a build without overflow checks a coefficient `isize::MIN`, or one at `-isize::MAX`,
  gives a wrong number, and coefficients of `2^62` reach a "logic error" panic. C46 gives a range
  of coefficients in which such a build can be trusted.
* C38: `compare` reads both clogs even when the primers decide (`Ordering::then` is eager),
  so it can hang or panic where the answer is already known.
* C51: after a caught overflow panic in `egest` the same clog goes on and can answer wrong symbols.
* C70: for `combine` this takes no large coefficients: (66342/66315) / (130080/117631) on 64 bits, or
  3/11 - 8/11 on 16 bits, answer wrong symbols after a caught overflow. `homographic` with
  coefficients that can be doubled often enough only panics from then on.
* C71: the debugging line is printed while `combine` has its operand outside of the object. If it
  cannot be written (a closed pipe) and the panic is caught, the object goes on with 1/2 in place of
  the operand and answers wrong symbols.
* C55: with such an "infinity" as operand, `nx*x/(dx*x)` runs forever at its reciprocal even when
  the quotient is not special, and `combine` never returns for the sum, difference, product or
  quotient of two infinities (`is_domain_amenable` of `combine.rs` refuses a zero constant term,
  that of `homographic.rs` accepts it).
* C67: what `consume` returns when it gives up cannot be put together again by `homographic`,
  which panics at once, unless the number is below `2^-(bits-5)` or above `2^(bits-5)` in magnitude
  (the test `t_some` of consume.rs is ignored because of issue #2).
* C50: `homographic` and the results it gives print debugging lines on every call.
* C86: a Number may be much larger than `isize::MAX`, but on a 64 bit machine no number above `2^32`
  can be squared, nor the square of one below `2^-32` be formed, and `2^33 + 1` plus its inverse panics.
  It also depends on the sign: `2 * 2^62` is exact, `2 * (-2^62)` panics.
* C92: `x / (-1)` panics for every `x` above `2^(bits-2)` and `1 / x` for every negative `x` above
  `-2^-(bits-2)`, although `x * (-1)` and `1 / (-x)` do not even look at the operand.
* C93: `0 / (1/4095)` panics on a 64 bit machine (`0 / (1/511)` on 32 bits): zero divided by a number
  reads the number to its end.
* C95: counting from 0 by adding 1 returns a number each time, but on a 64 bit machine it cannot be read from
  256 on (16 and 64 on 16 and 32 bits), although `Number::ratio(256, 1)` can.
* C96: multiplying by 2, or by -1/2, again and again is exact for ever; multiplying by -2 panics at `(-2)^63`.
* C98: dividing 2 by 1/2 again and again is exact for ever; dividing -2 by 1/2 panics at `-2^63`.

Each is recorded as a theorem stating the negation with its witnesses, beside the strongest
true statement found.

## Proof method per property

| id | method |
|---|---|
| C01 C02 C07 C40 | invariant `0 < num < den` of `Ratio`, one-step lemma value/symbol, induction on the number of calls |
| C03 C37 | direct computation of the model functions for all inputs |
| C04 | well-founded induction on the reduced denominator and numerator |
| C05 C06 C36 | consequences of `Denotes` for all clogs (Proofs/Clog.lean, Observe.lean) |
| C08 C10 C11 C12 C41 | real analysis on the spec map: two steps at least double distances, three multiply them by four; nested compact intervals for existence |
| C09 | induction on the list |
| C13 C14 C15 | induction on the symbol sequence of one operand; polarity flips with every Uncover |
| C16 C17 C18 C19 | invariant on endpoint values of the Moebius map over [0,1] (Proofs/Coef4.lean); program logic `Out.Sat` with a size parameter; induction on the symbol sequence of x. Restricted to builds with overflow checks (C34 shows why) |
| C20 C21 C22 C23 | the same with the four corners of [0,1]^2 (Proofs/Coef8.lean), ending in C16 |
| C24 C25 C26 C27 | loop invariant of `consume` (value preserved, coefficients below MAX/4 before every step) |
| C28 C29 | corollaries of C16, C20 and C13 |
| C30 | the transducer returns to finitely many coefficient states (Proofs/Unity.lean, Reciprocal.lean); exact simulation; the overflows pass through the states `2^k, 0, -1, 2^(k+1)` (Proofs/NearOne.lean) |
| C31 C42 | growth bound: endpoint magnitudes at most double per ingestion and never grow on egestion; carried as the size parameter of the C16/C20 proof |
| C32 | false of the code: proved negation, for every number above 2^(bits-2); the states of the map are `2^k, 0, 1, 2^k` (Proofs/AddOne.lean) |
| C34 | false of the code: proved negations, with concrete witnesses on 64 bits evaluated by the kernel, and on every word size by evaluating the calls with symbolic limits (Properties/ReleaseWrong.lean) |
| C38 | false of the code: proved negation with a concrete witness evaluated by the kernel |
| C33 | simulation between the two profiles, function by function (Proofs/Release.lean) |
| C35 | induction over an expression language of API calls |
| C39 | C01 + C08 + injectivity of the printed encoding |
| C43 | `main` unfolded to 33+3 printed numbers, each by C01/C39 |
| C44 | simulation between a narrow checked machine and a wider one, function by function (Proofs/Wider.lean) |
| C45 | induction on the bit size of the denominator, with separate bounds for even denominators and for runs of doublings (Proofs/Length.lean); the extremal fraction is expanded explicitly |
| C46 | the C16/C20 proof with a size parameter split in two: a linear bound for the unchecked operators, none for the checked ones |
| C47 | induction over the expression language of C35, with the symbol count of C45 feeding the size bounds of C31, C42 and C26 |
| C48 | fuel in the model is recursion depth; induction on the symbol sequence with no invariant on the coefficients, and a coinductive invariant on the states of the result (Proofs/Depth.lean) |
| C49 | statement-by-statement model with a heap of reference-counted cells (Model/Steps.lean); separation-style ownership invariant (Proofs/StepsHeap.lean), simulation of the first model (StepsSim.lean, StepsCaller.lean) |
| C50 | the printed lines are part of the world of Model/Steps.lean; invariant along the recursion of prime and egest (Proofs/StepsPrinted.lean), and for combine along the heap as well (Proofs/StepsPrintedCombine.lean) |
| C51 | simulation between the statement-by-statement model and the first model, with the numbers that took part in a panic forgotten (Proofs/StepsCaller.lean); witness by evaluation |
| C52 | Verif/SpecSession.lean states what a session may answer with nothing but a table of rationals; Proofs/Session.lean proves it for the statement-by-statement model by induction on the calls, from C01-C03, C06, C13, C16, C20, C24, the simulation behind C49 and C51, and fuel monotonicity |
| C53 | The statement-by-statement model is run in both builds (Proofs/StepsAgree.lean): each piece of code either stops with the excepted panic in the first build or does the same in both and leaves the same state. Proved statement by statement, then by induction over fuel and over the calls. Witness sessions for the restrictions. |
| C54 | Verif/SpecField.lean states what it means to behave like an element of an ordered field: the answers, as long as there are any, are the symbols computed in that field. The invariants of the strategies are proved again over an arbitrary ordered field with a partial-correctness logic (Proofs/Field*.lean), since such calls need not end. Examples in the hyperreals. |
| C55 | Ends of calls: the coefficients of a homographic map fit machine integers and have a determinant other than zero, and reading a symbol never returns to coefficients seen before (Proofs/Total.lean, an induction over the finitely many coefficients not yet seen), so a loop that neither answers nor overflows is impossible. combine is reduced to that case once the operand that is a fraction has ended. Non-termination: an invariant of the coefficients under which primer_egest is never reached or undecided (Proofs/Hang.lean). |
| C56 | The specification is the function `undo` that puts symbols back in front of a rational, and integer divisibility. Invariant of the loop: the coefficients undo the symbols read and have no common factor (halving happens exactly when doubling would create one). Two integer maps with the same values and without common factor agree up to the sign. |
| C57 | Specification by two rank functions and a parity, independent of the code's branches. Loop lemma: after the symbols in common the loop is at the remaining clogs with the polarity given by the parity; divergence by fuel monotonicity; exhaustiveness by induction on the number of symbols in common. |
| C58 | Verif/SpecSessionField.lean states what a session may answer with a table of elements of an ordered field; Proofs/SessionField.lean proves it for the statement-by-statement model by induction on the calls, from C54 and C55, with C16, C17, C20, C21 for operands that are fractions, the simulation behind C49 and C51, and fuel monotonicity. Not promised: calls naming a variable twice (the compiler rejects them) and numbers whose egest panicked. |
| C59 | Specification by quantification over all rational operands with the given first symbols; no reference to the coefficients or range tests of the code. Proof: a linear function that is positive on (0,1) is nonnegative at 0 and 1 and conversely, so the conditions that the code tests at the two ends hold as soon as the answer is the same on the whole interval (`primerEgest_some`, `reductionEgest_some`, the converses of the soundness lemmas); induction on the symbols read for `prime` and `egest`, induction on m for the calls. The exception: `normalise` gives n/0 the sign of n, which is the wrong infinity when the denominator is negative next to its zero (`C59_pole_needed`). |
| C60 | Specification by quantification over all rational operands with the given first symbols and over a distance delta; no reference to the coefficients, corners or range tests of the code. Proof: a bilinear function that is at least delta away from 0 on (0,1)^2 has the same sign at the four corners, and conversely is bounded away from 0 by the smallest corner (`Bilin`, `Coef8.inv_iff`); so the invariant of the state is the same as a margin, and the range tests at the four corners succeed exactly when a margin exists (`primerAttempt_some`, `reductionAttempt_some`, the converses of the soundness lemmas). `Coef8.After`: reading a symbol changes numerator and denominator by a factor between fixed positive bounds, so margins are kept. Then induction on the symbols read, as for C59. `C60_not_optimal`: the same answer for all operands is not enough. |
| C61 | Exact run (Proofs/Powers.lean). The result is a power of two, so its last symbol can only be told from all symbols of the operand: all states after the first b-1 symbols have the value 1/2 at the operand (`Halfway`), hence no symbol can be given before the end (`Halfway.attempt`). The numerator at the operand, V, doubles with every Amplify read (`egest_amplifies`, `Stage.run`) up to 2^S with 2S = b(b+1)-4. The cross products of the range test stay below V^2 and at the last state lie in [2^(2S), 2^(2S+1)). That no smaller number overflows (Properties/First.lean): evaluated for the numbers below 255, each on the narrowest machine it is claimed for, and carried to wider machines by C44 and to other representations by C63. |
| C62 | Equations between outcomes at equal fuel; the specification `substitute` is the integer a*s+b (`substitute_eq`). Proof by unfolding the constructors and the checked operations. |
| C63 | Specification `SameAnswers` (after the same symbols, the same next answer or panic), `SameNumber`, `SameOutcome`. Proof: a one-sided simulation `Sim` between an outcome at one fuel and outcomes at all large fuels, coinductive agreement of clogs, induction over the loops; both directions together give the theorem. |
| C64 | In the state of the identity each symbol comes out as it goes in (checked on a 16 bit machine and carried over to all); agreement of the clog and the wrapped clog in both directions by coinduction; negation twice by C63. |
| C65 | The reading lemmas of C59 and C60 are proved for any allowed set of panics and with a bound on the coefficients at the ends of (0,1): reading a symbol at most doubles it, giving one keeps it. With no panic allowed this is C65, with overflows allowed C59 and C60. The limit by computation, with the settledness of the 19 symbols carried over from a 256 bit machine. |
| C66 | The reading lemmas of C59/C65 show that exactly l is read and l' given; after that the map is the identity with a common factor (a map of (0,1) into itself that undoes symbols can undo none). In that state the factor does not grow, so by coinduction (as in C64) all further answers are those of the operand. Instances by computing the maps; the coefficients for given symbols by induction on them. |
| C67 | The coefficients of `consume` are known exactly (C56): up to the sign and the primer they are not negative, `d` is the greatest and at least a quarter of `isize::MAX`, and the image of 1, `(nx+n)/(dx+d)`, is more than `2^-(j+1)` if the first Uncover comes after `j` times Amplify. So `nx+n` is at least five and the cross product `(nx+n)*d` in `compare_reduce` overflows; it is the first thing `prime` computes. If only Amplify was read the coefficients are `(1, 0, 0, 2^(bits-3))` with the primer; every product has a factor 0 or 1, the shift comes out again symbol by symbol, and then the state is the identity of C66. Between the two ranges (bits-5 and bits-4 times Amplify) it depends on the symbols that follow (`C67_limit_sharp` has a witness of each kind); nothing more is claimed there. Spec: `Spec.rebuild` (C27), `Gives`, `SameNumber`. |
| C68 | In the step model (C50), which keeps the printed lines. `Spec.readIn` is substitution of `x/2` or `1/(x+1)` into the map with integer coefficients, `Spec.giveOut` applies `2z` or `1/z-1` to its value; both are written without any division, and `Halved a K k` says that `k` is `K` halved as often as possible but at most `a` times. Each Amplify of the code is a doubling followed by one halving if all four coefficients are even; a product of such steps adds at most one factor two for each Amplify, so `Halved` is an invariant, and it determines the line (C68_determined). C68_lowest_terms: with given coefficients that are not all even it is division by the greatest power of two. `CanNegate` excludes `isize::MIN` where a build without overflow checks would wrap (C34). |
| C69 | From C13, C16, C20 and C28 for fractions, and from C54 for values in an ordered field `K`. Programs of several calls, as in C28; the last call's answer is related to the first's. |
| C70 | Verif/SpecFailStop.lean defines fail-stop as a greatest fixed point over the statement-by-statement model. In Proofs/FailStop.lean each way through one round of `Homographic::egest` is an equation; with room for doubling the only step that can overflow is the range check, which has changed nothing yet and so fails again; induction on the symbols of the operand. Negation for combine by evaluation. |
| C71 | Verif/Model/Stdout.lean repeats the statement-by-statement model with a `println!` that may fail. Proofs/Stdout.lean: the two agree up to the first line that fails, by a relation closed under sequencing (`Tracks`). Proofs/StdoutResume.lean: a round that printed changes the state to one from which the rest of the call is the same (`Alike`), induction on the fuel and the nesting. Negation for combine by evaluation. |
| C72 | Verif/Model/MainSteps.lean: every `print!` of main.rs is a step, in one stream with the debugging lines, with and without failing output. The program: lemmas composable over sequencing (`Writes`, `Lists`), each fraction by induction on its expansion. Failing output: the relation `Tracks` of C71. Any number: induction on the answers of `egest`. |
| C73 | SpecGrowth.lean states the growth. Neither sign is known as long as the values are equal, so both operands are read in turn to their ends and no symbol leaves: the coefficients stay of the form (0, s, -s, 0, e, f, f, h), or with the opposite denominators, every second round; the sum of opposite numbers starts in the same form. Sufficient bound by induction on the expansion with an invariant; growth of fractions by induction on b; the worst fractions step by step, where the largest intermediate result is the power 2^(b(b+1)-2). |
| C74 | With the growth of SpecGrowth.lean. The coefficients stay of the form (a, b, c, d) over (a, c, b, d), with one sign, every second round; both operands are read to their ends and no symbol leaves, because 1 stays inside the range. The largest intermediate result is a product of two sums in the comparison of the values at the corners; sufficient bound by induction on the expansion. For the worst fractions nothing is halved after the first block, and the last product is at least 2^(2b^2-2) and less than 2^(2b^2-1). |
| C75 | Same answers from C20 for both orders and the uniqueness of what a value is read as. For the order: the first symbol of the first operand doubles the coefficients that do not belong to it, so the same call overflows or not. The sums are witnesses by evaluation. |
| C76 | The values of a linear form at the ends of [0,1] are followed through the symbols of the operand (`Proofs/Peak.lean`): twice the value at 1/2 after all symbols is 2g times the value at the number. The invariants of `Proofs/Homographic.lean` and `Proofs/Combine.lean` carry these bounds instead of a power of two per symbol, so C31 and C42 are corollaries of the same proof. For parts up to 46 the growth is a finite table checked in the kernel and lifted to all fractions; up to 2^b it is C73_growth. The limits are evaluated for one pair of ratios and carried over to all numbers of the same value by C63. |
| C77 | Three symbols map two positive numbers four times nearer to each other (`Proofs/Contract.lean`, eight cases), and the determinant of the map read so far is a nonzero integer, so its last coefficient is at least 2^(n/3) after n symbols; C56 and the bound of C67 give the converse. The calls are an inductive relation over the model's `consume`; value by C24, end by induction on the symbols left (C36), the bound for ratio by C45. |
| C78 | `Verif/SpecIdeal.lean` gives the answers over the rationals without any word size. One call with room is exact by C76 (homographic, combine), C26 and C24 (consume), C01-C03, C13; the store-level session follows through the simulation of C52 by induction over the calls. Every rational has a growth and finitely many symbols, so a large enough word size exists. The sharp size is the least one, with C44. |
| C79 | Two numbers with 3n symbols in common are less than 1/4^n apart (C41); two different fractions with denominators up to 2^b are at least 1/4^b apart. The first difference of the symbols then gives the reads and the answer by C57. |
| C80 | The bound on the parts is shown to hold for the exact value at every node of the program (C80_parts); with C73_growth it bounds the growth of the operands, so that the condition of C76 holds at every call (C80_fits_roomy). The corollaries compute the check for sums, products and Horner's rule by induction over the list. |
| C81 | `Verif/Model/Timed.lean` repeats the functions that recurse or loop and counts their rounds; C81_same shows that the answers and panics are those of the first model, C81_counted that every recursive call is counted. The bound is proved by credits (`Timed.Within`): a clog carries a budget that pays for all that happens below it, and each egest leaves a budget for the rest (`Clog.Budget`, `Clog.Costs` for given numbers). Not counted: the printing of lines, and the arithmetic within a round (a bounded number of machine operations). |
| C82 | A Hoare-style invariant over the first model (`Space.Gives`: what is returned, if anything is, satisfies it), by induction on fuel through every function that changes a field. It also confirms that the model's unbounded integers never leave the machine's range, which the Rust types guarantee and the model's types do not. |
| C83 | Sharpens C41 and C79. `Proofs/Rate.lean` follows the derivative of the map undone so far (`seen`) with a potential that depends on how many Amplify came since the last Uncover (`weight`); the four inequalities that make it a potential meet with equality on the cycle Uncover, Amplify, Amplify, Amplify, which is then the witness. The lower bound uses the golden ratio in the same way. |
| C84 | `Verif/Model/Memory.lean` repeats the functions in which a clog goes out of scope, with what Rust does then: the clog is dropped with all its `Rc`s, at the end of its owner, by an assignment, and when a panic unwinds through its owner; any of the printed lines may fail to be written. `Proofs/Memory.lean` is a small separation logic: `Own w o fp` says that `o` owns exactly the allocations `fp`, and `Tri e P m J R` that a piece of code keeps to what it owns, keeps at most `e` allocations more than it had, and leaves `J` behind when it panics; `Proofs/MemorySafe.lean` goes through all functions. `Proofs/MemoryTwin.lean` runs the model side by side with `Model/Steps.lean`: its allocations are among those of the other. The specification `Spec.Points` (what can be reached) is separate. Dropping the same thing twice is not a mistake the model could make visible (the allocation is gone already); the Rust compiler excludes it. |
| C85 | `Verif/SpecLines.lean` is the account: `Charge` (a relation between the table of C52 and a number of lines, unique by `C85_charge`) and `Accounts`. `Proofs/StepsLines.lean` gives each clog credits: `Clog.Counts` bounds the symbols it has left, `Clog.Lines` says what reading them prints at most, and `Cost` that a piece of code pays for its lines from the credits of its arguments; `Proofs/StepsLinesCaller.lean` and `Proofs/StepsAccount.lean` carry that through the public functions and a session. A result keeps the unspent credits of its operands, which is why reading it is charged only one line. In `C85_homographic` and `C85_combine` no call panics; after a panic the operands are gone, and later calls that name them are not promised anything. |
| C86 | `Proofs/Large.lean`: `Coef8.Waits` describes coefficients for which the primer attempt finds nothing while both operands answer Amplify, and of which one doubling overflows; four families of them (product, quotient, sum and difference after the primers are absorbed) are followed by induction. For powers of two `Coef8.Folds` adds what `homographic` receives when one operand ends. For opposite signs the image of a large power is an interval that contains infinity in its inside, so `homographic` waits as well, until the other operand ends (`Homographic.prime_huge_neg`). |
| C87 | C59 reduces reading to settledness over all rationals with the given first symbols; C65 adds the room for the coefficients. A cylinder of i symbols is at least `3/8 / ((3+√5)/2)^i` wide (`begins_apart`) and at most `9/8 / (5+2√6)^(i/4)` (C83). Without the primers the map is a quotient of two linear forms with the same determinant up to the sign (`without_primers`), of which the greater is at least `D/(2S)` and at most `S`, so distances are multiplied by `D/S²` at least and by a little more than `4S²/D` at most. m symbols stretch a distance by at most `((3+√5)/2)^(m+1)` (`same_symbols`, the potential of C83 used in the other direction). The specification `Undisturbed` is written with rationals only. |
| C88 | C60 reduces reading to a margin on all rationals with the given first symbols; C65 adds the room for the coefficients. Numerator and denominator, multiplied by the denominators of the operands (`Lookahead.up`, `down`), are bilinear in numbers of magnitude at most one that change no faster than the operands' remainders, so they move by at most `S` times the width of the two cylinders (C83); with the denominator of the result at least `f` the result moves by at most `5S/f` times the rate, and m symbols stretch that by at most `((3+√5)/2)^(m+1)` (as in C87). The margin of C60 is what is left of `e`. |
| C89 | What C60 calls clear for two operands is settled in the sense of C59 for the homographic map of the first operand with the second held at any rational y that has the symbols read (`ClearlySettled.held`; its integer coefficients are those of combine times numerator and denominator of y). C87's lower bound for this map, divided by the denominator of y, is the claim; exchanging the operands gives the other side. Together with C88 (and its counterpart for quotients) this bounds the symbols read from both sides. |
| C90 | `Verif.Proofs.ReadsEnd`: the inductive predicate `Way` describes how the two operands are read together until one ends; along it, a combination of the operands is turned into a homographic map of the one that goes on, and both the call in which this happens and the calls after it answer what the values still possible have in common (`combine_way`). The prime phase and the reduction phase turn at the end of an operand in different code (`prime_ingest` by `homographic::new` on the operand with its primer, `reduction_ingest` by `homographic::new` and unwrapping what it gives); both are covered. `C90_beside` links what is left to the coefficients nxy*a+ny*b, ... of a fraction a/b, and C87 counts the symbols. The sizes of the coefficients are followed along the way, which gives the versions without overflow (`C90_x_returns`, `C90_y_returns`). |
| C91 | `Verif.Proofs.Nearby`: numbers near an irrational number have its primer and its first symbols, with room (`near_value`), and numbers that share enough symbols are near each other (C41). Each call is continuous where its denominator is not zero, so enough symbols of the operands settle the first symbols of the result; then C65 (one or two irrational operands), C90 (a fraction beside an irrational operand), C62 (a special operand) and C78 (fractions only) say that the code returns them without overflow on wide enough words. Induction over the expression (`C91_programs`). The specification is `RealValue` (real arithmetic), `Shows` (the first symbols in `SpecReal`) and `Approximates`. Not included: consume in the middle of an expression, which reads as many symbols as fit a word, so no number of symbols is enough on all words. |
| C92 | A special operand makes `combine` a `homographic` with known small coefficients (C62), which C64 treats as identity or negation; the quotients are evaluated on the narrowest word and lifted. Two specials: C62 and C01. The limit: `primer_egest` takes the value of `m/(-x)` at 0 as positive infinity, so `⟨0, m, -1, 0⟩` is never answered and Amplify doubles `m` (`Neutral.undecided`, `doubles`). The limit is exact (`C92_exact`): at the first Uncover `-m(1+x)` is known to be at most -1, which takes `2m`, and the clog `1/(m(1+x'))` that is left gives back the symbols that were read (`scaled`, `one`, then the identity). The specification is `Op`, `Like` (returns a number with the same answers, C63) and `opposite`. |
| C93 | `0/x` becomes `homographic(x, 0, 0, 1, 0)` (C62). With a zero numerator `primer_egest` answers nothing or panics (`ZeroOver.attempt`), so `prime` reads on; at the end of the operand it makes 0/D. The denominators at most double with each symbol (`prime_short`), and have one sign, so D is not zero; after the second Uncover each Uncover adds at least one and nothing makes them smaller (`prime_long`). Fractions: C45. Witnesses by the kernel. That numbers with that many Uncovers exist on every machine: `ZeroOver.tower`, by C66. Exact limit for 1/(2^b-1) (`C93_mersenne`): the symbols come in rounds A^j U U, and the denominators p, q at the start of round j satisfy p + q(2^(j+1)-1) = 2^g with g growing by j each round, so the last sum lies between 2^e and 2^(e+1), e = (b-2)(b+1)/2. `C93_mersenne_turned` (2^b/(2^b-1)) reads one Uncover and enters the same rounds. |
| C94 | A clog that panics after the symbols `l` follows, in the sense of C54 with all panics allowed, every real number that begins with `l`; there is an irrational one (`Broken.follows_irrational`, from the square root of 2). By C54 the result follows the image of it, which is irrational because the map is not constant, and an irrational number has no last symbol (`Broken.none_not_mem`). With a second broken operand: it follows three fractions (`Broken.follows_three`), and one of them leaves the map not constant, a polynomial of degree two having at most two zeros. |
| C95 | The loop is `Spec.count`. Each addition is `homographic(x, 1, 1, 0, 1)` (C62), which finds the primer Turn without reading (`Counter.add_one`). Below `2^b`: induction with C61 for the fraction and C63 to pass from the fraction to the counter. At `2^b`: C61_power_plus_one, carried over by C63. Beyond: C94, the counter follows an irrational number. |
| C96 | The loop is `Spec.power`. Induction with the exact limits of C86: one operand, `y`, ends in time, so only products of opposite signs, the odd powers of a negative number, meet the limit. |
| C97 | One step is an instance of C66 (a map that only puts symbols before those of its operand), because reading `A^k U A^k` and then `s` gives `1/(2^k + s)`. Induction over the list with C63. The value: the expansion of the operand, continued to the front (`ContFrac.expands_append`). |
| C98 | The loop is `Spec.divided`. Induction with the exact limits of C86 for quotients: y ends in time, so only quotients of operands with opposite signs, the negative ones, meet the limit. |
| C99 | The calls are `Spec.prepend`, `Spec.primed`, `Spec.prependAll` and `Spec.build`. Each call puts one symbol in front (C66); by C63 the symbols put in front before are not disturbed. `Spec.ReadsAs` (from C97) says that the expansion is read, and then None. |
| C100 | Strengthens C13 from numbers that may be read for ever to numbers that can be read up to the first None (`Spec.ReadsAs`). The proof is the one of C13, with the hypothesis on the operands used only as long as symbols follow. |
| C101 | Strengthens C24 and C25 from numbers that may be read for ever to numbers that can be read up to the first None (`Spec.ReadsAs`). The proof is the one of C24, with the hypothesis on the operand used only as long as symbols follow; `Spec.StandsFor` is the documentation of `consume` in src/lib.rs. Each call with a rest has read at least one symbol, so the calls come to an end (`Spec.Portions`, `Spec.together`). |
