import Verif.Tests.Support

/-! # The unit tests of `src/compare.rs`, run on the model

These are tests, not proofs: each `example` evaluates the model on the inputs of one `#[test]`
function. -/

namespace Clarith.Tests

/-- compare.rs:77-90 `compare_negative_two` -/
example : bothBuilds fun cfg =>
    [(-2, 1, -2, 1, .eq), (-2, 1, -1, 1, .lt), (-2, 1, -2, 3, .lt), (-2, 1, -1, 2, .lt),
     (-2, 1, -1, 4, .lt), (-2, 1, 0, 1, .lt), (-2, 1, 1, 4, .lt), (-2, 1, 1, 2, .lt),
     (-2, 1, 2, 3, .lt), (-2, 1, 1, 1, .lt), (-2, 1, 2, 1, .lt)].all
      fun (n, d, n', d', o) => compares cfg n d n' d' o := by
  decide +kernel

/-- compare.rs:92-105 `compare_negative_one` -/
example : bothBuilds fun cfg =>
    [(-1, 1, -2, 1, .gt), (-1, 1, -1, 1, .eq), (-1, 1, -2, 3, .lt), (-1, 1, -1, 2, .lt),
     (-1, 1, -1, 4, .lt), (-1, 1, 0, 1, .lt), (-1, 1, 1, 4, .lt), (-1, 1, 1, 2, .lt),
     (-1, 1, 2, 3, .lt), (-1, 1, 1, 1, .lt), (-1, 1, 2, 1, .lt)].all
      fun (n, d, n', d', o) => compares cfg n d n' d' o := by
  decide +kernel

/-- compare.rs:107-120 `compare_negative_two_thirds` -/
example : bothBuilds fun cfg =>
    [(-2, 3, -2, 1, .gt), (-2, 3, -1, 1, .gt), (-2, 3, -2, 3, .eq), (-2, 3, -1, 2, .lt),
     (-2, 3, -1, 4, .lt), (-2, 3, 0, 1, .lt), (-2, 3, 1, 4, .lt), (-2, 3, 1, 2, .lt),
     (-2, 3, 2, 3, .lt), (-2, 3, 1, 1, .lt), (-2, 3, 2, 1, .lt)].all
      fun (n, d, n', d', o) => compares cfg n d n' d' o := by
  decide +kernel

/-- compare.rs:122-135 `compare_negative_one_half` -/
example : bothBuilds fun cfg =>
    [(-1, 2, -2, 1, .gt), (-1, 2, -1, 1, .gt), (-1, 2, -2, 3, .gt), (-1, 2, -1, 2, .eq),
     (-1, 2, -1, 4, .lt), (-1, 2, 0, 1, .lt), (-1, 2, 1, 4, .lt), (-1, 2, 1, 2, .lt),
     (-1, 2, 2, 3, .lt), (-1, 2, 1, 1, .lt), (-1, 2, 2, 1, .lt)].all
      fun (n, d, n', d', o) => compares cfg n d n' d' o := by
  decide +kernel

/-- compare.rs:137-153 `compare_negative_one_fourth` -/
example : bothBuilds fun cfg =>
    [(-1, 4, -2, 1, .gt), (-1, 4, -1, 1, .gt), (-1, 4, -2, 3, .gt), (-1, 4, -1, 2, .gt),
     (-1, 4, -1, 4, .eq), (-1, 4, 0, 1, .lt), (-1, 4, 1, 4, .lt), (-1, 4, 1, 2, .lt),
     (-1, 4, 2, 3, .lt), (-1, 4, 1, 1, .lt), (-1, 4, 2, 1, .lt)].all
      fun (n, d, n', d', o) => compares cfg n d n' d' o := by
  decide +kernel

/-- compare.rs:155-168 `compare_zero` -/
example : bothBuilds fun cfg =>
    [(0, 1, -2, 1, .gt), (0, 1, -1, 1, .gt), (0, 1, -2, 3, .gt), (0, 1, -1, 2, .gt),
     (0, 1, -1, 4, .gt), (0, 1, 0, 1, .eq), (0, 1, 1, 4, .lt), (0, 1, 1, 2, .lt),
     (0, 1, 2, 3, .lt), (0, 1, 1, 1, .lt), (0, 1, 2, 1, .lt)].all
      fun (n, d, n', d', o) => compares cfg n d n' d' o := by
  decide +kernel

/-- compare.rs:170-183 `compare_one_fourth` -/
example : bothBuilds fun cfg =>
    [(1, 4, -2, 1, .gt), (1, 4, -1, 1, .gt), (1, 4, -2, 3, .gt), (1, 4, -1, 2, .gt),
     (1, 4, -1, 4, .gt), (1, 4, 0, 1, .gt), (1, 4, 1, 4, .eq), (1, 4, 1, 2, .lt),
     (1, 4, 2, 3, .lt), (1, 4, 1, 1, .lt), (1, 4, 2, 1, .lt)].all
      fun (n, d, n', d', o) => compares cfg n d n' d' o := by
  decide +kernel

/-- compare.rs:185-198 `compare_one_half` -/
example : bothBuilds fun cfg =>
    [(1, 2, -2, 1, .gt), (1, 2, -1, 1, .gt), (1, 2, -2, 3, .gt), (1, 2, -1, 2, .gt),
     (1, 2, -1, 4, .gt), (1, 2, 0, 1, .gt), (1, 2, 1, 4, .gt), (1, 2, 1, 2, .eq),
     (1, 2, 2, 3, .lt), (1, 2, 1, 1, .lt), (1, 2, 2, 1, .lt)].all
      fun (n, d, n', d', o) => compares cfg n d n' d' o := by
  decide +kernel

/-- compare.rs:200-213 `compare_two_thirds` -/
example : bothBuilds fun cfg =>
    [(2, 3, -2, 1, .gt), (2, 3, -1, 1, .gt), (2, 3, -2, 3, .gt), (2, 3, -1, 2, .gt),
     (2, 3, -1, 4, .gt), (2, 3, 0, 1, .gt), (2, 3, 1, 4, .gt), (2, 3, 1, 2, .gt),
     (2, 3, 2, 3, .eq), (2, 3, 1, 1, .lt), (2, 3, 2, 1, .lt)].all
      fun (n, d, n', d', o) => compares cfg n d n' d' o := by
  decide +kernel

/-- compare.rs:215-228 `compare_one` -/
example : bothBuilds fun cfg =>
    [(1, 1, -2, 1, .gt), (1, 1, -1, 1, .gt), (1, 1, -2, 3, .gt), (1, 1, -1, 2, .gt),
     (1, 1, -1, 4, .gt), (1, 1, 0, 1, .gt), (1, 1, 1, 4, .gt), (1, 1, 1, 2, .gt),
     (1, 1, 2, 3, .gt), (1, 1, 1, 1, .eq), (1, 1, 2, 1, .lt)].all
      fun (n, d, n', d', o) => compares cfg n d n' d' o := by
  decide +kernel

/-- compare.rs:230-243 `compare_two` -/
example : bothBuilds fun cfg =>
    [(2, 1, -2, 1, .gt), (2, 1, -1, 1, .gt), (2, 1, -2, 3, .gt), (2, 1, -1, 2, .gt),
     (2, 1, -1, 4, .gt), (2, 1, 0, 1, .gt), (2, 1, 1, 4, .gt), (2, 1, 1, 2, .gt),
     (2, 1, 2, 3, .gt), (2, 1, 1, 1, .gt), (2, 1, 2, 1, .eq)].all
      fun (n, d, n', d', o) => compares cfg n d n' d' o := by
  decide +kernel

end Clarith.Tests
