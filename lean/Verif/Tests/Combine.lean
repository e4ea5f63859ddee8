import Verif.Tests.Support

/-! # The unit tests of `src/strategy/combine.rs`, run on the model

These are tests, not proofs: each `example` evaluates the model on the inputs of one `#[test]`
function. -/

namespace Clarith.Tests

/-- combine.rs:39-179 `mul`, assertions 1 to 44 -/
example : bothBuilds fun cfg =>
    [(-2, 1, -2, 1, 4, 1), (-2, 1, -1, 1, 2, 1), (-2, 1, -2, 3, 4, 3), (-2, 1, -1, 2, 1, 1),
     (-2, 1, -1, 4, 1, 2), (-2, 1, 0, 1, 0, 1), (-2, 1, 1, 4, -1, 2), (-2, 1, 1, 2, -1, 1),
     (-2, 1, 2, 3, -4, 3), (-2, 1, 1, 1, -2, 1), (-2, 1, 2, 1, -4, 1), (-1, 1, -2, 1, 2, 1),
     (-1, 1, -1, 1, 1, 1), (-1, 1, -2, 3, 2, 3), (-1, 1, -1, 2, 1, 2), (-1, 1, -1, 4, 1, 4),
     (-1, 1, 0, 1, 0, 1), (-1, 1, 1, 4, -1, 4), (-1, 1, 1, 2, -1, 2), (-1, 1, 2, 3, -2, 3),
     (-1, 1, 1, 1, -1, 1), (-1, 1, 2, 1, -2, 1), (-2, 3, -2, 1, 4, 3), (-2, 3, -1, 1, 2, 3),
     (-2, 3, -2, 3, 4, 9), (-2, 3, -1, 2, 1, 3), (-2, 3, -1, 4, 1, 6), (-2, 3, 0, 1, 0, 1),
     (-2, 3, 1, 4, -1, 6), (-2, 3, 1, 2, -1, 3), (-2, 3, 2, 3, -4, 9), (-2, 3, 1, 1, -2, 3),
     (-2, 3, 2, 1, -4, 3), (-1, 2, -2, 1, 1, 1), (-1, 2, -1, 1, 1, 2), (-1, 2, -2, 3, 1, 3),
     (-1, 2, -1, 2, 1, 4), (-1, 2, -1, 4, 1, 8), (-1, 2, 0, 1, 0, 1), (-1, 2, 1, 4, -1, 8),
     (-1, 2, 1, 2, -1, 4), (-1, 2, 2, 3, -1, 3), (-1, 2, 1, 1, -1, 2), (-1, 2, 2, 1, -1, 1)].all
      fun (n, d, n', d', n'', d'') =>
        combines cfg n d n' d' (1) (0) (0) (0) (0) (0) (0) (1) n'' d'' := by
  decide +kernel

/-- combine.rs:39-179 `mul`, assertions 45 to 88 -/
example : bothBuilds fun cfg =>
    [(-1, 4, -2, 1, 1, 2), (-1, 4, -1, 1, 1, 4), (-1, 4, -2, 3, 1, 6), (-1, 4, -1, 2, 1, 8),
     (-1, 4, -1, 4, 1, 16), (-1, 4, 0, 1, 0, 1), (-1, 4, 1, 4, -1, 16),
     (-1, 4, 1, 2, -1, 8), (-1, 4, 2, 3, -1, 6), (-1, 4, 1, 1, -1, 4), (-1, 4, 2, 1, -1, 2),
     (0, 1, -2, 1, 0, 1), (0, 1, -1, 1, 0, 1), (0, 1, -2, 3, 0, 1), (0, 1, -1, 2, 0, 1),
     (0, 1, -1, 4, 0, 1), (0, 1, 0, 1, 0, 1), (0, 1, 1, 4, 0, 1), (0, 1, 1, 2, 0, 1),
     (0, 1, 2, 3, 0, 1), (0, 1, 1, 1, 0, 1), (0, 1, 2, 1, 0, 1), (1, 4, -2, 1, -1, 2),
     (1, 4, -1, 1, -1, 4), (1, 4, -2, 3, -1, 6), (1, 4, -1, 2, -1, 8),
     (1, 4, -1, 4, -1, 16), (1, 4, 0, 1, 0, 1), (1, 4, 1, 4, 1, 16), (1, 4, 1, 2, 1, 8),
     (1, 4, 2, 3, 1, 6), (1, 4, 1, 1, 1, 4), (1, 4, 2, 1, 1, 2), (1, 2, -2, 1, -1, 1),
     (1, 2, -1, 1, -1, 2), (1, 2, -2, 3, -1, 3), (1, 2, -1, 2, -1, 4), (1, 2, -1, 4, -1, 8),
     (1, 2, 0, 1, 0, 1), (1, 2, 1, 4, 1, 8), (1, 2, 1, 2, 1, 4), (1, 2, 2, 3, 1, 3),
     (1, 2, 1, 1, 1, 2), (1, 2, 2, 1, 1, 1)].all
      fun (n, d, n', d', n'', d'') =>
        combines cfg n d n' d' (1) (0) (0) (0) (0) (0) (0) (1) n'' d'' := by
  decide +kernel

/-- combine.rs:39-179 `mul`, assertions 89 to 121 -/
example : bothBuilds fun cfg =>
    [(2, 3, -2, 1, -4, 3), (2, 3, -1, 1, -2, 3), (2, 3, -2, 3, -4, 9), (2, 3, -1, 2, -1, 3),
     (2, 3, -1, 4, -1, 6), (2, 3, 0, 1, 0, 1), (2, 3, 1, 4, 1, 6), (2, 3, 1, 2, 1, 3),
     (2, 3, 2, 3, 4, 9), (2, 3, 1, 1, 2, 3), (2, 3, 2, 1, 4, 3), (1, 1, -2, 1, -2, 1),
     (1, 1, -1, 1, -1, 1), (1, 1, -2, 3, -2, 3), (1, 1, -1, 2, -1, 2), (1, 1, -1, 4, -1, 4),
     (1, 1, 0, 1, 0, 1), (1, 1, 1, 4, 1, 4), (1, 1, 1, 2, 1, 2), (1, 1, 2, 3, 2, 3),
     (1, 1, 1, 1, 1, 1), (1, 1, 2, 1, 2, 1), (2, 1, -2, 1, -4, 1), (2, 1, -1, 1, -2, 1),
     (2, 1, -2, 3, -4, 3), (2, 1, -1, 2, -1, 1), (2, 1, -1, 4, -1, 2), (2, 1, 0, 1, 0, 1),
     (2, 1, 1, 4, 1, 2), (2, 1, 1, 2, 1, 1), (2, 1, 2, 3, 4, 3), (2, 1, 1, 1, 2, 1),
     (2, 1, 2, 1, 4, 1)].all
      fun (n, d, n', d', n'', d'') =>
        combines cfg n d n' d' (1) (0) (0) (0) (0) (0) (0) (1) n'' d'' := by
  decide +kernel

/-- combine.rs:181-310 `div`, assertions 1 to 44 -/
example : bothBuilds fun cfg =>
    [(-2, 1, -2, 1, 1, 1), (-2, 1, -1, 1, 2, 1), (-2, 1, -2, 3, 3, 1), (-2, 1, -1, 2, 4, 1),
     (-2, 1, -1, 4, 8, 1), (-2, 1, 1, 4, -8, 1), (-2, 1, 1, 2, -4, 1), (-2, 1, 2, 3, -3, 1),
     (-2, 1, 1, 1, -2, 1), (-2, 1, 2, 1, -1, 1), (-1, 1, -2, 1, 1, 2), (-1, 1, -1, 1, 1, 1),
     (-1, 1, -2, 3, 3, 2), (-1, 1, -1, 2, 2, 1), (-1, 1, -1, 4, 4, 1), (-1, 1, 1, 4, -4, 1),
     (-1, 1, 1, 2, -2, 1), (-1, 1, 2, 3, -3, 2), (-1, 1, 1, 1, -1, 1), (-1, 1, 2, 1, -1, 2),
     (-2, 3, -2, 1, 1, 3), (-2, 3, -1, 1, 2, 3), (-2, 3, -2, 3, 1, 1), (-2, 3, -1, 2, 4, 3),
     (-2, 3, -1, 4, 8, 3), (-2, 3, 1, 4, -8, 3), (-2, 3, 1, 2, -4, 3), (-2, 3, 2, 3, -1, 1),
     (-2, 3, 1, 1, -2, 3), (-2, 3, 2, 1, -1, 3), (-1, 2, -2, 1, 1, 4), (-1, 2, -1, 1, 1, 2),
     (-1, 2, -2, 3, 3, 4), (-1, 2, -1, 2, 1, 1), (-1, 2, -1, 4, 2, 1), (-1, 2, 1, 4, -2, 1),
     (-1, 2, 1, 2, -1, 1), (-1, 2, 2, 3, -3, 4), (-1, 2, 1, 1, -1, 2), (-1, 2, 2, 1, -1, 4),
     (-1, 4, -2, 1, 1, 8), (-1, 4, -1, 1, 1, 4), (-1, 4, -2, 3, 3, 8), (-1, 4, -1, 2, 1, 2)].all
      fun (n, d, n', d', n'', d'') =>
        combines cfg n d n' d' (0) (1) (0) (0) (0) (0) (1) (0) n'' d'' := by
  decide +kernel

/-- combine.rs:181-310 `div`, assertions 45 to 88 -/
example : bothBuilds fun cfg =>
    [(-1, 4, -1, 4, 1, 1), (-1, 4, 1, 4, -1, 1), (-1, 4, 1, 2, -1, 2), (-1, 4, 2, 3, -3, 8),
     (-1, 4, 1, 1, -1, 4), (-1, 4, 2, 1, -1, 8), (0, 1, -2, 1, 0, 1), (0, 1, -1, 1, 0, 1),
     (0, 1, -2, 3, 0, 1), (0, 1, -1, 2, 0, 1), (0, 1, -1, 4, 0, 1), (0, 1, 1, 4, 0, 1),
     (0, 1, 1, 2, 0, 1), (0, 1, 2, 3, 0, 1), (0, 1, 1, 1, 0, 1), (0, 1, 2, 1, 0, 1),
     (1, 4, -2, 1, -1, 8), (1, 4, -1, 1, -1, 4), (1, 4, -2, 3, -3, 8), (1, 4, -1, 2, -1, 2),
     (1, 4, -1, 4, -1, 1), (1, 4, 1, 4, 1, 1), (1, 4, 1, 2, 1, 2), (1, 4, 2, 3, 3, 8),
     (1, 4, 1, 1, 1, 4), (1, 4, 2, 1, 1, 8), (1, 2, -2, 1, -1, 4), (1, 2, -1, 1, -1, 2),
     (1, 2, -2, 3, -3, 4), (1, 2, -1, 2, -1, 1), (1, 2, -1, 4, -2, 1), (1, 2, 1, 4, 2, 1),
     (1, 2, 1, 2, 1, 1), (1, 2, 2, 3, 3, 4), (1, 2, 1, 1, 1, 2), (1, 2, 2, 1, 1, 4),
     (2, 3, -2, 1, -1, 3), (2, 3, -1, 1, -2, 3), (2, 3, -2, 3, -1, 1), (2, 3, -1, 2, -4, 3),
     (2, 3, -1, 4, -8, 3), (2, 3, 1, 4, 8, 3), (2, 3, 1, 2, 4, 3), (2, 3, 2, 3, 1, 1)].all
      fun (n, d, n', d', n'', d'') =>
        combines cfg n d n' d' (0) (1) (0) (0) (0) (0) (1) (0) n'' d'' := by
  decide +kernel

/-- combine.rs:181-310 `div`, assertions 89 to 110 -/
example : bothBuilds fun cfg =>
    [(2, 3, 1, 1, 2, 3), (2, 3, 2, 1, 1, 3), (1, 1, -2, 1, -1, 2), (1, 1, -1, 1, -1, 1),
     (1, 1, -2, 3, -3, 2), (1, 1, -1, 2, -2, 1), (1, 1, -1, 4, -4, 1), (1, 1, 1, 4, 4, 1),
     (1, 1, 1, 2, 2, 1), (1, 1, 2, 3, 3, 2), (1, 1, 1, 1, 1, 1), (1, 1, 2, 1, 1, 2),
     (2, 1, -2, 1, -1, 1), (2, 1, -1, 1, -2, 1), (2, 1, -2, 3, -3, 1), (2, 1, -1, 2, -4, 1),
     (2, 1, -1, 4, -8, 1), (2, 1, 1, 4, 8, 1), (2, 1, 1, 2, 4, 1), (2, 1, 2, 3, 3, 1),
     (2, 1, 1, 1, 2, 1), (2, 1, 2, 1, 1, 1)].all
      fun (n, d, n', d', n'', d'') =>
        combines cfg n d n' d' (0) (1) (0) (0) (0) (0) (1) (0) n'' d'' := by
  decide +kernel

/-- combine.rs:312-452 `add`, assertions 1 to 44 -/
example : bothBuilds fun cfg =>
    [(-2, 1, -2, 1, -4, 1), (-2, 1, -1, 1, -3, 1), (-2, 1, -2, 3, -8, 3),
     (-2, 1, -1, 2, -5, 2), (-2, 1, -1, 4, -9, 4), (-2, 1, 0, 1, -2, 1),
     (-2, 1, 1, 4, -7, 4), (-2, 1, 1, 2, -3, 2), (-2, 1, 2, 3, -4, 3), (-2, 1, 1, 1, -1, 1),
     (-2, 1, 2, 1, 0, 1), (-1, 1, -2, 1, -3, 1), (-1, 1, -1, 1, -2, 1),
     (-1, 1, -2, 3, -5, 3), (-1, 1, -1, 2, -3, 2), (-1, 1, -1, 4, -5, 4),
     (-1, 1, 0, 1, -1, 1), (-1, 1, 1, 4, -3, 4), (-1, 1, 1, 2, -1, 2), (-1, 1, 2, 3, -1, 3),
     (-1, 1, 1, 1, 0, 1), (-1, 1, 2, 1, 1, 1), (-2, 3, -2, 1, -8, 3), (-2, 3, -1, 1, -5, 3),
     (-2, 3, -2, 3, -4, 3), (-2, 3, -1, 2, -7, 6), (-2, 3, -1, 4, -11, 12),
     (-2, 3, 0, 1, -2, 3), (-2, 3, 1, 4, -5, 12), (-2, 3, 1, 2, -1, 6), (-2, 3, 2, 3, 0, 1),
     (-2, 3, 1, 1, 1, 3), (-2, 3, 2, 1, 4, 3), (-1, 2, -2, 1, -5, 2), (-1, 2, -1, 1, -3, 2),
     (-1, 2, -2, 3, -7, 6), (-1, 2, -1, 2, -1, 1), (-1, 2, -1, 4, -3, 4),
     (-1, 2, 0, 1, -1, 2), (-1, 2, 1, 4, -1, 4), (-1, 2, 1, 2, 0, 1), (-1, 2, 2, 3, 1, 6),
     (-1, 2, 1, 1, 1, 2), (-1, 2, 2, 1, 3, 2)].all
      fun (n, d, n', d', n'', d'') =>
        combines cfg n d n' d' (0) (1) (1) (0) (0) (0) (0) (1) n'' d'' := by
  decide +kernel

/-- combine.rs:312-452 `add`, assertions 45 to 88 -/
example : bothBuilds fun cfg =>
    [(-1, 4, -2, 1, -9, 4), (-1, 4, -1, 1, -5, 4), (-1, 4, -2, 3, -11, 12),
     (-1, 4, -1, 2, -3, 4), (-1, 4, -1, 4, -1, 2), (-1, 4, 0, 1, -1, 4),
     (-1, 4, 1, 4, 0, 1), (-1, 4, 1, 2, 1, 4), (-1, 4, 2, 3, 5, 12), (-1, 4, 1, 1, 3, 4),
     (-1, 4, 2, 1, 7, 4), (0, 1, -2, 1, -2, 1), (0, 1, -1, 1, -1, 1), (0, 1, -2, 3, -2, 3),
     (0, 1, -1, 2, -1, 2), (0, 1, -1, 4, -1, 4), (0, 1, 0, 1, 0, 1), (0, 1, 1, 4, 1, 4),
     (0, 1, 1, 2, 1, 2), (0, 1, 2, 3, 2, 3), (0, 1, 1, 1, 1, 1), (0, 1, 2, 1, 2, 1),
     (1, 4, -2, 1, -7, 4), (1, 4, -1, 1, -3, 4), (1, 4, -2, 3, -5, 12),
     (1, 4, -1, 2, -1, 4), (1, 4, -1, 4, 0, 1), (1, 4, 0, 1, 1, 4), (1, 4, 1, 4, 1, 2),
     (1, 4, 1, 2, 3, 4), (1, 4, 2, 3, 11, 12), (1, 4, 1, 1, 5, 4), (1, 4, 2, 1, 9, 4),
     (1, 2, -2, 1, -3, 2), (1, 2, -1, 1, -1, 2), (1, 2, -2, 3, -1, 6), (1, 2, -1, 2, 0, 1),
     (1, 2, -1, 4, 1, 4), (1, 2, 0, 1, 1, 2), (1, 2, 1, 4, 3, 4), (1, 2, 1, 2, 1, 1),
     (1, 2, 2, 3, 7, 6), (1, 2, 1, 1, 3, 2), (1, 2, 2, 1, 5, 2)].all
      fun (n, d, n', d', n'', d'') =>
        combines cfg n d n' d' (0) (1) (1) (0) (0) (0) (0) (1) n'' d'' := by
  decide +kernel

/-- combine.rs:312-452 `add`, assertions 89 to 121 -/
example : bothBuilds fun cfg =>
    [(2, 3, -2, 1, -4, 3), (2, 3, -1, 1, -1, 3), (2, 3, -2, 3, 0, 1), (2, 3, -1, 2, 1, 6),
     (2, 3, -1, 4, 5, 12), (2, 3, 0, 1, 2, 3), (2, 3, 1, 4, 11, 12), (2, 3, 1, 2, 7, 6),
     (2, 3, 2, 3, 4, 3), (2, 3, 1, 1, 5, 3), (2, 3, 2, 1, 8, 3), (1, 1, -2, 1, -1, 1),
     (1, 1, -1, 1, 0, 1), (1, 1, -2, 3, 1, 3), (1, 1, -1, 2, 1, 2), (1, 1, -1, 4, 3, 4),
     (1, 1, 0, 1, 1, 1), (1, 1, 1, 4, 5, 4), (1, 1, 1, 2, 3, 2), (1, 1, 2, 3, 5, 3),
     (1, 1, 1, 1, 2, 1), (1, 1, 2, 1, 3, 1), (2, 1, -2, 1, 0, 1), (2, 1, -1, 1, 1, 1),
     (2, 1, -2, 3, 4, 3), (2, 1, -1, 2, 3, 2), (2, 1, -1, 4, 7, 4), (2, 1, 0, 1, 2, 1),
     (2, 1, 1, 4, 9, 4), (2, 1, 1, 2, 5, 2), (2, 1, 2, 3, 8, 3), (2, 1, 1, 1, 3, 1),
     (2, 1, 2, 1, 4, 1)].all
      fun (n, d, n', d', n'', d'') =>
        combines cfg n d n' d' (0) (1) (1) (0) (0) (0) (0) (1) n'' d'' := by
  decide +kernel

/-- combine.rs:454-594 `sub`, assertions 1 to 44 -/
example : bothBuilds fun cfg =>
    [(-2, 1, -2, 1, 0, 1), (-2, 1, -1, 1, -1, 1), (-2, 1, -2, 3, -4, 3),
     (-2, 1, -1, 2, -3, 2), (-2, 1, -1, 4, -7, 4), (-2, 1, 0, 1, -2, 1),
     (-2, 1, 1, 4, -9, 4), (-2, 1, 1, 2, -5, 2), (-2, 1, 2, 3, -8, 3), (-2, 1, 1, 1, -3, 1),
     (-2, 1, 2, 1, -4, 1), (-1, 1, -2, 1, 1, 1), (-1, 1, -1, 1, 0, 1),
     (-1, 1, -2, 3, -1, 3), (-1, 1, -1, 2, -1, 2), (-1, 1, -1, 4, -3, 4),
     (-1, 1, 0, 1, -1, 1), (-1, 1, 1, 4, -5, 4), (-1, 1, 1, 2, -3, 2), (-1, 1, 2, 3, -5, 3),
     (-1, 1, 1, 1, -2, 1), (-1, 1, 2, 1, -3, 1), (-2, 3, -2, 1, 4, 3), (-2, 3, -1, 1, 1, 3),
     (-2, 3, -2, 3, 0, 1), (-2, 3, -1, 2, -1, 6), (-2, 3, -1, 4, -5, 12),
     (-2, 3, 0, 1, -2, 3), (-2, 3, 1, 4, -11, 12), (-2, 3, 1, 2, -7, 6),
     (-2, 3, 2, 3, -4, 3), (-2, 3, 1, 1, -5, 3), (-2, 3, 2, 1, -8, 3), (-1, 2, -2, 1, 3, 2),
     (-1, 2, -1, 1, 1, 2), (-1, 2, -2, 3, 1, 6), (-1, 2, -1, 2, 0, 1),
     (-1, 2, -1, 4, -1, 4), (-1, 2, 0, 1, -1, 2), (-1, 2, 1, 4, -3, 4),
     (-1, 2, 1, 2, -1, 1), (-1, 2, 2, 3, -7, 6), (-1, 2, 1, 1, -3, 2), (-1, 2, 2, 1, -5, 2)].all
      fun (n, d, n', d', n'', d'') =>
        combines cfg n d n' d' (0) (1) (-1) (0) (0) (0) (0) (1) n'' d'' := by
  decide +kernel

/-- combine.rs:454-594 `sub`, assertions 45 to 88 -/
example : bothBuilds fun cfg =>
    [(-1, 4, -2, 1, 7, 4), (-1, 4, -1, 1, 3, 4), (-1, 4, -2, 3, 5, 12),
     (-1, 4, -1, 2, 1, 4), (-1, 4, -1, 4, 0, 1), (-1, 4, 0, 1, -1, 4), (-1, 4, 1, 4, -1, 2),
     (-1, 4, 1, 2, -3, 4), (-1, 4, 2, 3, -11, 12), (-1, 4, 1, 1, -5, 4),
     (-1, 4, 2, 1, -9, 4), (0, 1, -2, 1, 2, 1), (0, 1, -1, 1, 1, 1), (0, 1, -2, 3, 2, 3),
     (0, 1, -1, 2, 1, 2), (0, 1, -1, 4, 1, 4), (0, 1, 0, 1, 0, 1), (0, 1, 1, 4, -1, 4),
     (0, 1, 1, 2, -1, 2), (0, 1, 2, 3, -2, 3), (0, 1, 1, 1, -1, 1), (0, 1, 2, 1, -2, 1),
     (1, 4, -2, 1, 9, 4), (1, 4, -1, 1, 5, 4), (1, 4, -2, 3, 11, 12), (1, 4, -1, 2, 3, 4),
     (1, 4, -1, 4, 1, 2), (1, 4, 0, 1, 1, 4), (1, 4, 1, 4, 0, 1), (1, 4, 1, 2, -1, 4),
     (1, 4, 2, 3, -5, 12), (1, 4, 1, 1, -3, 4), (1, 4, 2, 1, -7, 4), (1, 2, -2, 1, 5, 2),
     (1, 2, -1, 1, 3, 2), (1, 2, -2, 3, 7, 6), (1, 2, -1, 2, 1, 1), (1, 2, -1, 4, 3, 4),
     (1, 2, 0, 1, 1, 2), (1, 2, 1, 4, 1, 4), (1, 2, 1, 2, 0, 1), (1, 2, 2, 3, -1, 6),
     (1, 2, 1, 1, -1, 2), (1, 2, 2, 1, -3, 2)].all
      fun (n, d, n', d', n'', d'') =>
        combines cfg n d n' d' (0) (1) (-1) (0) (0) (0) (0) (1) n'' d'' := by
  decide +kernel

/-- combine.rs:454-594 `sub`, assertions 89 to 121 -/
example : bothBuilds fun cfg =>
    [(2, 3, -2, 1, 8, 3), (2, 3, -1, 1, 5, 3), (2, 3, -2, 3, 4, 3), (2, 3, -1, 2, 7, 6),
     (2, 3, -1, 4, 11, 12), (2, 3, 0, 1, 2, 3), (2, 3, 1, 4, 5, 12), (2, 3, 1, 2, 1, 6),
     (2, 3, 2, 3, 0, 1), (2, 3, 1, 1, -1, 3), (2, 3, 2, 1, -4, 3), (1, 1, -2, 1, 3, 1),
     (1, 1, -1, 1, 2, 1), (1, 1, -2, 3, 5, 3), (1, 1, -1, 2, 3, 2), (1, 1, -1, 4, 5, 4),
     (1, 1, 0, 1, 1, 1), (1, 1, 1, 4, 3, 4), (1, 1, 1, 2, 1, 2), (1, 1, 2, 3, 1, 3),
     (1, 1, 1, 1, 0, 1), (1, 1, 2, 1, -1, 1), (2, 1, -2, 1, 4, 1), (2, 1, -1, 1, 3, 1),
     (2, 1, -2, 3, 8, 3), (2, 1, -1, 2, 5, 2), (2, 1, -1, 4, 9, 4), (2, 1, 0, 1, 2, 1),
     (2, 1, 1, 4, 7, 4), (2, 1, 1, 2, 3, 2), (2, 1, 2, 3, 4, 3), (2, 1, 1, 1, 1, 1),
     (2, 1, 2, 1, 0, 1)].all
      fun (n, d, n', d', n'', d'') =>
        combines cfg n d n' d' (0) (1) (-1) (0) (0) (0) (0) (1) n'' d'' := by
  decide +kernel

/-- combine.rs:596-616 `egest0` -/
example : bothBuilds fun cfg =>
    [(-2, 3, 2, 3, 3, 5)].all
      fun (n, d, n', d', n'', d'') =>
        combines cfg n d n' d' (0) (0) (0) (1) (0) (0) (1) (1) n'' d'' := by
  decide +kernel

end Clarith.Tests
