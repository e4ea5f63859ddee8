import Verif.Tests.Support

/-! # The unit tests of `src/strategy/homographic.rs`, run on the model

These are tests, not proofs: each `example` evaluates the model on the inputs of one `#[test]`
function. -/

namespace Clarith.Tests

/-- homographic.rs:90-109 `t_1111` -/
example : bothBuilds fun cfg =>
    [(-2, 1, 1, 1), (-2, 3, 1, 1), (-1, 2, 1, 1), (-1, 4, 1, 1), (0, 1, 1, 1), (1, 4, 1, 1),
     (1, 2, 1, 1), (2, 3, 1, 1), (1, 1, 1, 1), (2, 1, 1, 1)].all
      fun (n, d, n', d') => maps cfg n d (1) (1) (1) (1) n' d' := by
  decide +kernel

/-- homographic.rs:111-118 `p_1111` -/
example : bothBuilds fun cfg => divides cfg (-1) (1) (1) (1) (1) (1) := by
  decide +kernel

/-- homographic.rs:120-139 `t_1110` -/
example : bothBuilds fun cfg =>
    [(-2, 1, 1, 2), (-1, 1, 0, 1), (-2, 3, -1, 2), (-1, 2, -1, 1), (-1, 4, -3, 1),
     (1, 4, 5, 1), (1, 2, 3, 1), (2, 3, 5, 2), (1, 1, 2, 1), (2, 1, 3, 2)].all
      fun (n, d, n', d') => maps cfg n d (1) (1) (1) (0) n' d' := by
  decide +kernel

/-- homographic.rs:141-148 `p_1110` -/
example : bothBuilds fun cfg => divides cfg (0) (1) (1) (1) (1) (0) := by
  decide +kernel

/-- homographic.rs:150-169 `t_1101` -/
example : bothBuilds fun cfg =>
    [(-2, 1, -1, 1), (-1, 1, 0, 1), (-2, 3, 1, 3), (-1, 2, 1, 2), (-1, 4, 3, 4),
     (0, 1, 1, 1), (1, 4, 5, 4), (1, 2, 3, 2), (2, 3, 5, 3), (1, 1, 2, 1), (2, 1, 3, 1)].all
      fun (n, d, n', d') => maps cfg n d (1) (1) (0) (1) n' d' := by
  decide +kernel

/-- homographic.rs:171-190 `t_1011` -/
example : bothBuilds fun cfg =>
    [(-2, 1, 2, 1), (-2, 3, -2, 1), (-1, 2, -1, 1), (-1, 4, -1, 3), (0, 1, 0, 1),
     (1, 4, 1, 5), (1, 2, 1, 3), (2, 3, 2, 5), (1, 1, 1, 2), (2, 1, 2, 3)].all
      fun (n, d, n', d') => maps cfg n d (1) (0) (1) (1) n' d' := by
  decide +kernel

/-- homographic.rs:192-199 `p_1011` -/
example : bothBuilds fun cfg => divides cfg (-1) (1) (1) (0) (1) (1) := by
  decide +kernel

/-- homographic.rs:201-220 `t_0111` -/
example : bothBuilds fun cfg =>
    [(-2, 1, -1, 1), (-2, 3, 3, 1), (-1, 2, 2, 1), (-1, 4, 4, 3), (0, 1, 1, 1),
     (1, 4, 4, 5), (1, 2, 2, 3), (2, 3, 3, 5), (1, 1, 1, 2), (2, 1, 1, 3)].all
      fun (n, d, n', d') => maps cfg n d (0) (1) (1) (1) n' d' := by
  decide +kernel

/-- homographic.rs:222-229 `p_0111` -/
example : bothBuilds fun cfg => divides cfg (-1) (1) (0) (1) (1) (1) := by
  decide +kernel

/-- homographic.rs:231-250 `t_0110` -/
example : bothBuilds fun cfg =>
    [(-2, 1, -1, 2), (-1, 1, -1, 1), (-2, 3, -3, 2), (-1, 2, -2, 1), (-1, 4, -4, 1),
     (1, 4, 4, 1), (1, 2, 2, 1), (2, 3, 3, 2), (1, 1, 1, 1), (2, 1, 1, 2)].all
      fun (n, d, n', d') => maps cfg n d (0) (1) (1) (0) n' d' := by
  decide +kernel

/-- homographic.rs:252-259 `p_0110` -/
example : bothBuilds fun cfg => divides cfg (0) (1) (0) (1) (1) (0) := by
  decide +kernel

/-- homographic.rs:261-280 `t_0101` -/
example : bothBuilds fun cfg =>
    [(-2, 1, 1, 1), (-1, 1, 1, 1), (-2, 3, 1, 1), (-1, 2, 1, 1), (-1, 4, 1, 1),
     (0, 1, 1, 1), (1, 4, 1, 1), (1, 2, 1, 1), (2, 3, 1, 1), (1, 1, 1, 1), (2, 1, 1, 1)].all
      fun (n, d, n', d') => maps cfg n d (0) (1) (0) (1) n' d' := by
  decide +kernel

/-- homographic.rs:282-301 `t_0011` -/
example : bothBuilds fun cfg =>
    [(-2, 1, 0, 1), (-2, 3, 0, 1), (-1, 2, 0, 1), (-1, 4, 0, 1), (0, 1, 0, 1), (1, 4, 0, 1),
     (1, 2, 0, 1), (2, 3, 0, 1), (1, 1, 0, 1), (2, 1, 0, 1)].all
      fun (n, d, n', d') => maps cfg n d (0) (0) (1) (1) n' d' := by
  decide +kernel

/-- homographic.rs:303-310 `p_0011` -/
example : bothBuilds fun cfg => divides cfg (-1) (1) (0) (0) (1) (1) := by
  decide +kernel

/-- homographic.rs:312-331 `t_0010` -/
example : bothBuilds fun cfg =>
    [(-2, 1, 0, 1), (-1, 1, 0, 1), (-2, 3, 0, 1), (-1, 2, 0, 1), (-1, 4, 0, 1),
     (1, 4, 0, 1), (1, 2, 0, 1), (2, 3, 0, 1), (1, 1, 0, 1), (2, 1, 0, 1)].all
      fun (n, d, n', d') => maps cfg n d (0) (0) (1) (0) n' d' := by
  decide +kernel

/-- homographic.rs:333-340 `p_0010` -/
example : bothBuilds fun cfg => divides cfg (0) (1) (0) (0) (1) (0) := by
  decide +kernel

/-- homographic.rs:342-361 `t_0001` -/
example : bothBuilds fun cfg =>
    [(-2, 1, 0, 1), (-1, 1, 0, 1), (-2, 3, 0, 1), (-1, 2, 0, 1), (-1, 4, 0, 1),
     (0, 1, 0, 1), (1, 4, 0, 1), (1, 2, 0, 1), (2, 3, 0, 1), (1, 1, 0, 1), (2, 1, 0, 1)].all
      fun (n, d, n', d') => maps cfg n d (0) (0) (0) (1) n' d' := by
  decide +kernel

/-- homographic.rs:363-367 `t_0000` -/
example : bothBuilds fun cfg => divides cfg (1) (1) (0) (0) (0) (0) := by
  decide +kernel

/-- homographic.rs:369-376 `p_0021` -/
example : bothBuilds fun cfg => divides cfg (-1) (2) (0) (0) (2) (1) := by
  decide +kernel

/-- homographic.rs:378-397 `t_pppp` -/
example : bothBuilds fun cfg =>
    [(-2, 1, 1, 3), (-1, 1, 1, 1), (-2, 3, 5, 7), (-1, 2, 2, 3), (-1, 4, 5, 8),
     (0, 1, 3, 5), (1, 4, 7, 12), (1, 2, 4, 7), (2, 3, 13, 23), (1, 1, 5, 9), (2, 1, 7, 13)].all
      fun (n, d, n', d') => maps cfg n d (2) (3) (4) (5) n' d' := by
  decide +kernel

/-- homographic.rs:399-418 `t_pppn` -/
example : bothBuilds fun cfg =>
    [(-2, 1, 1, 13), (-1, 1, -1, 9), (-2, 3, -5, 23), (-1, 2, -2, 7), (-1, 4, -5, 12),
     (0, 1, -3, 5), (1, 4, -7, 8), (1, 2, -4, 3), (2, 3, -13, 7), (1, 1, -5, 1),
     (2, 1, 7, 3)].all
      fun (n, d, n', d') => maps cfg n d (2) (3) (4) (-5) n' d' := by
  decide +kernel

/-- homographic.rs:420-439 `t_ppnp` -/
example : bothBuilds fun cfg =>
    [(-2, 1, -1, 13), (-1, 1, 1, 9), (-2, 3, 5, 23), (-1, 2, 2, 7), (-1, 4, 5, 12),
     (0, 1, 3, 5), (1, 4, 7, 8), (1, 2, 4, 3), (2, 3, 13, 7), (1, 1, 5, 1), (2, 1, -7, 3)].all
      fun (n, d, n', d') => maps cfg n d (2) (3) (-4) (5) n' d' := by
  decide +kernel

/-- homographic.rs:441-460 `t_pnpp` -/
example : bothBuilds fun cfg =>
    [(-2, 1, 7, 3), (-1, 1, -5, 1), (-2, 3, -13, 7), (-1, 2, -4, 3), (-1, 4, -7, 8),
     (0, 1, -3, 5), (1, 4, -5, 12), (1, 2, -2, 7), (2, 3, -5, 23), (1, 1, -1, 9),
     (2, 1, 1, 13)].all
      fun (n, d, n', d') => maps cfg n d (2) (-3) (4) (5) n' d' := by
  decide +kernel

/-- homographic.rs:462-481 `t_nppp` -/
example : bothBuilds fun cfg =>
    [(-2, 1, -7, 3), (-1, 1, 5, 1), (-2, 3, 13, 7), (-1, 2, 4, 3), (-1, 4, 7, 8),
     (0, 1, 3, 5), (1, 4, 5, 12), (1, 2, 2, 7), (2, 3, 5, 23), (1, 1, 1, 9), (2, 1, -1, 13)].all
      fun (n, d, n', d') => maps cfg n d (-2) (3) (4) (5) n' d' := by
  decide +kernel

/-- homographic.rs:483-502 `t_nppn` -/
example : bothBuilds fun cfg =>
    [(-2, 1, -7, 13), (-1, 1, -5, 9), (-2, 3, -13, 23), (-1, 2, -4, 7), (-1, 4, -7, 12),
     (0, 1, -3, 5), (1, 4, -5, 8), (1, 2, -2, 3), (2, 3, -5, 7), (1, 1, -1, 1),
     (2, 1, -1, 3)].all
      fun (n, d, n', d') => maps cfg n d (-2) (3) (4) (-5) n' d' := by
  decide +kernel

/-- homographic.rs:504-523 `t_npnp` -/
example : bothBuilds fun cfg =>
    [(-2, 1, 7, 13), (-1, 1, 5, 9), (-2, 3, 13, 23), (-1, 2, 4, 7), (-1, 4, 7, 12),
     (0, 1, 3, 5), (1, 4, 5, 8), (1, 2, 2, 3), (2, 3, 5, 7), (1, 1, 1, 1), (2, 1, 1, 3)].all
      fun (n, d, n', d') => maps cfg n d (-2) (3) (-4) (5) n' d' := by
  decide +kernel

/-- homographic.rs:525-544 `t_nnpp` -/
example : bothBuilds fun cfg =>
    [(-2, 1, -1, 3), (-1, 1, -1, 1), (-2, 3, -5, 7), (-1, 2, -2, 3), (-1, 4, -5, 8),
     (0, 1, -3, 5), (1, 4, -7, 12), (1, 2, -4, 7), (2, 3, -13, 23), (1, 1, -5, 9),
     (2, 1, -7, 13)].all
      fun (n, d, n', d') => maps cfg n d (-2) (-3) (4) (5) n' d' := by
  decide +kernel

/-- homographic.rs:546-565 `t_nnpn` -/
example : bothBuilds fun cfg =>
    [(-2, 1, -1, 13), (-1, 1, 1, 9), (-2, 3, 5, 23), (-1, 2, 2, 7), (-1, 4, 5, 12),
     (0, 1, 3, 5), (1, 4, 7, 8), (1, 2, 4, 3), (2, 3, 13, 7), (1, 1, 5, 1), (2, 1, -7, 3)].all
      fun (n, d, n', d') => maps cfg n d (-2) (-3) (4) (-5) n' d' := by
  decide +kernel

/-- homographic.rs:567-586 `t_nnnp` -/
example : bothBuilds fun cfg =>
    [(-2, 1, 1, 13), (-1, 1, -1, 9), (-2, 3, -5, 23), (-1, 2, -2, 7), (-1, 4, -5, 12),
     (0, 1, -3, 5), (1, 4, -7, 8), (1, 2, -4, 3), (2, 3, -13, 7), (1, 1, -5, 1),
     (2, 1, 7, 3)].all
      fun (n, d, n', d') => maps cfg n d (-2) (-3) (-4) (5) n' d' := by
  decide +kernel

/-- homographic.rs:588-607 `t_nnnn` -/
example : bothBuilds fun cfg =>
    [(-2, 1, 1, 3), (-1, 1, 1, 1), (-2, 3, 5, 7), (-1, 2, 2, 3), (-1, 4, 5, 8),
     (0, 1, 3, 5), (1, 4, 7, 12), (1, 2, 4, 7), (2, 3, 13, 23), (1, 1, 5, 9), (2, 1, 7, 13)].all
      fun (n, d, n', d') => maps cfg n d (-2) (-3) (-4) (-5) n' d' := by
  decide +kernel

/-- homographic.rs:609-628 `t_6342` -/
example : bothBuilds fun cfg =>
    [(-2, 1, 3, 2), (-1, 1, 3, 2), (-2, 3, 3, 2), (-1, 4, 3, 2), (0, 1, 3, 2), (1, 4, 3, 2),
     (1, 2, 3, 2), (2, 3, 3, 2), (1, 1, 3, 2), (2, 1, 3, 2)].all
      fun (n, d, n', d') => maps cfg n d (6) (3) (4) (2) n' d' := by
  decide +kernel

/-- homographic.rs:630-637 `p_6342` -/
example : bothBuilds fun cfg => divides cfg (-1) (2) (6) (3) (4) (2) := by
  decide +kernel

/-- homographic.rs:651-660 `unity_does_not_overflow1` -/
example : both16 fun cfg => consumed cfg cfg.imax 1 1 0 0 1 =
    .ok () := by
  decide +kernel

/-- homographic.rs:662-671 `unity_does_not_overflow2` -/
example : both16 fun cfg => consumed cfg 1 cfg.imax 1 0 0 1 =
    .ok () := by
  decide +kernel

/-- homographic.rs:673-682 `mul_does_not_overflow1` -/
example : both16 fun cfg => consumed cfg cfg.imax 1 2 0 0 1 =
    .ok () := by
  decide +kernel

/-- homographic.rs:684-693 `mul_does_not_overflow2` -/
example : both16 fun cfg => consumed cfg 1 cfg.imax 2 0 0 1 =
    .ok () := by
  decide +kernel

/-- homographic.rs:695-704 `div_does_not_overflow1` -/
example : both16 fun cfg => consumed cfg cfg.imax 1 1 0 0 2 =
    .ok () := by
  decide +kernel

/-- homographic.rs:706-715 `div_does_not_overflow2` -/
example : both16 fun cfg => consumed cfg 1 cfg.imax 1 0 0 2 =
    .ok () := by
  decide +kernel

/-- homographic.rs:717-726 `rec_does_not_overflow1` -/
example : both16 fun cfg => consumed cfg cfg.imax 1 0 1 1 0 =
    .ok () := by
  decide +kernel

/-- homographic.rs:728-737 `rec_does_not_overflow2` -/
example : both16 fun cfg => consumed cfg 1 cfg.imax 0 1 1 0 =
    .ok () := by
  decide +kernel

/-- homographic.rs:739-749 `add_does_not_overflow1`, ignored by the project
("issue #2"): the model overflows, as the issue says -/
example : both16 fun cfg => consumed cfg cfg.imax 1 1 1 0 1 =
    .panic .unwrapNone := by
  decide +kernel

/-- homographic.rs:751-760 `add_does_not_overflow2` -/
example : both16 fun cfg => consumed cfg 1 cfg.imax 1 1 0 1 =
    .ok () := by
  decide +kernel

/-- homographic.rs:762-772 `rec_add_does_not_overflow1`, ignored by the project
("issue #2"): the model overflows, as the issue says -/
example : both16 fun cfg => consumed cfg cfg.imax 1 0 1 1 1 =
    .panic .unwrapNone := by
  decide +kernel

/-- homographic.rs:774-783 `rec_add_does_not_overflow2` -/
example : both16 fun cfg => consumed cfg 1 cfg.imax 0 1 1 1 =
    .ok () := by
  decide +kernel

/-- homographic.rs:785-794 `incr_does_not_overflow1` -/
example : both16 fun cfg => consumed cfg cfg.imax 1 1 1 1 0 =
    .ok () := by
  decide +kernel

/-- homographic.rs:796-806 `incr_does_not_overflow2`, ignored by the project
("issue #2"): the model overflows, as the issue says -/
example : both16 fun cfg => consumed cfg 1 cfg.imax 1 1 1 0 =
    .panic .unwrapNone := by
  decide +kernel

/-- homographic.rs:808-817 `rec_incr_does_not_overflow1` -/
example : both16 fun cfg => consumed cfg cfg.imax 1 1 0 1 1 =
    .ok () := by
  decide +kernel

/-- homographic.rs:819-829 `rec_incr_does_not_overflow2`, ignored by the project
("issue #2"): the model overflows, as the issue says -/
example : both16 fun cfg => consumed cfg 1 cfg.imax 1 0 1 1 =
    .panic .unwrapNone := by
  decide +kernel

end Clarith.Tests
