{
 "claims": [
  {
   "property": "C01",
   "status": "proved",
   "theorems": [
    "Verif.ThreadPool.ordered_tasks_never_overlap",
    "Verif.ThreadPool.nonExclusive_is_largest"
   ],
   "note": "For any number of workers, all interleavings."
  },
  {
   "property": "C02",
   "status": "proved",
   "theorems": [
    "Verif.ThreadPool.group_starts_in_submission_order",
    "Verif.ThreadPool.group_finishes_in_submission_order",
    "Verif.ThreadPool.earlier_tasks_of_group_finished"
   ],
   "note": "Start order for every group, finish order for exclusive groups, and the step form."
  },
  {
   "property": "C03",
   "status": "proved",
   "theorems": [
    "Verif.ThreadPool.task_in_exactly_one_place",
    "Verif.ThreadPool.task_started_at_most_once",
    "Verif.ThreadPool.counters_exact",
    "Verif.ThreadPool.pool_never_faults"
   ],
   "note": "Exactly-one-place, at-most-once, exact counters, no CHECK failure or UB."
  },
  {
   "property": "C04",
   "status": "partial",
   "theorems": [
    "Verif.ThreadPool.runnable_task_stranded_refuted",
    "Verif.ThreadPool.runnable_task_not_stranded_partial",
    "Verif.ThreadPool.all_tasks_done_at_rest_partial",
    "Verif.ThreadPool.internal_steps_terminate",
    "Verif.ThreadPool.worker_sleeps_only_if_nothing_may_start",
    "Verif.ThreadPool.worker_takes_first_startable"
   ],
   "note": "False for the code: a waitForEmptyQueue caller can swallow the notify_one (runnable_task_stranded_refuted). Proved when enqueue and waitForEmptyQueue calls do not overlap and stop() does not race with enqueue."
  },
  {
   "property": "C05",
   "status": "partial",
   "theorems": [
    "Verif.ThreadPool.stop_drains_refuted",
    "Verif.ThreadPool.shutdown_drains_partial",
    "Verif.ThreadPool.destructor_returns_partial",
    "Verif.ThreadPool.internal_steps_terminate",
    "Verif.ThreadPool.waiter_asleep_has_work"
   ],
   "note": "False for the code when stop() races with enqueue (stop_drains_refuted). Proved when stop() is not called during an enqueue call; the destructor returns; sleeping waiters always have work left."
  },
  {
   "property": "C06",
   "status": "proved",
   "theorems": [
    "Verif.ThreadPool.wait_returns_only_when_idle",
    "Verif.ThreadPool.wait_returns_when_idle"
   ],
   "note": "Both directions."
  },
  {
   "property": "C07",
   "status": "proved",
   "theorems": [
    "Verif.RWLock.writer_excludes_others"
   ],
   "note": "Both mutex classes, any number of threads."
  },
  {
   "property": "C08",
   "status": "proved",
   "theorems": [
    "Verif.RWLock.no_writer_during_upgrade",
    "Verif.RWLock.one_upgrade_at_a_time",
    "Verif.RWLock.upgrade_ends_as_writer",
    "Verif.RWLock.upgrade_decision"
   ],
   "note": "Both classes."
  },
  {
   "property": "C09",
   "status": "proved",
   "theorems": [
    "Verif.RWLock.blocked_thread_has_reason",
    "Verif.RWLock.all_idle_at_rest",
    "Verif.RWLock.closing_steps_terminate"
   ],
   "note": "Both classes: every sleeper has a reason or a pending notification; finishing steps terminate and end with all threads idle."
  },
  {
   "property": "C10",
   "status": "partial",
   "theorems": [
    "Verif.RWLock.isInUse_exact_base",
    "Verif.RWLock.isInUse_readerFirst_refuted",
    "Verif.RWLock.isInUse_readerFirst_partial"
   ],
   "note": "Exact for ReaderWriterMutex; false for the reader-first class (isInUse_readerFirst_refuted), where it reports holders only."
  },
  {
   "property": "C100",
   "status": "partial",
   "theorems": [
    "Verif.Lsd.regionGrow_all",
    "Verif.Lsd.regionGrow_spec",
    "Verif.Lsd.regionGrow_complete",
    "Verif.Lsd.IsRegion.connected",
    "Verif.Lsd.IsRegion.size",
    "Verif.Lsd.bend_grow",
    "Verif.Lsd.region_mean_refuted"
   ],
   "note": "Exact reals, cv::fastAtan2 is a parameter. Pixels are aligned with the mean when they are taken, not with the mean of the whole region (region_mean_refuted)."
  },
  {
   "property": "C101",
   "status": "partial",
   "theorems": [
    "Verif.Lsd.region2rect_form",
    "Verif.Lsd.rect_line",
    "Verif.Lsd.rect_ends",
    "Verif.Lsd.rect_ends_reached",
    "Verif.Lsd.rect_width",
    "Verif.Lsd.rect_axis",
    "Verif.Lsd.orient_within",
    "Verif.Lsd.orient_axis",
    "Verif.Lsd.region2rect_single",
    "Verif.Lsd.region2rect_ok",
    "Verif.Lsd.bump_rect",
    "Verif.Lsd.rect_bounding_refuted",
    "Verif.Lsd.rect_oriented_refuted"
   ],
   "note": "Exact reals. The rectangle is not a bounding rectangle: its width is centred at the wrong place (rect_bounding_refuted); the orientation may be off by more than the tolerance (rect_oriented_refuted)."
  },
  {
   "property": "C102",
   "status": "proved",
   "theorems": [
    "Verif.Lsd.tolerance_eq",
    "Verif.Lsd.nearDiffs_ne_nil",
    "Verif.Lsd.nearDiffs_mem",
    "Verif.Lsd.dense_iff",
    "Verif.Lsd.removeFar_spec",
    "Verif.Lsd.removeFar_owns",
    "Verif.Lsd.reduce_spec",
    "Verif.Lsd.refine_spec"
   ],
   "note": "Exact reals. Stated for images whose pixels with a direction have gradients of at least one, which quant_steep of C107 gives."
  },
  {
   "property": "C103",
   "status": "proved",
   "theorems": [
    "Verif.Lsd.norm_eq",
    "Verif.Lsd.ll_defined",
    "Verif.Lsd.ll_mod",
    "Verif.Lsd.ll_direction",
    "Verif.Lsd.ramp_slopes"
   ],
   "note": "Exact reals; the direction is stated for an exact arc tangent."
  },
  {
   "property": "C104",
   "status": "partial",
   "theorems": [
    "Verif.Lsd.bin_lt",
    "Verif.Lsd.llList_spec",
    "Verif.Lsd.llList_points",
    "Verif.Lsd.list_order_refuted"
   ],
   "note": "The chain of cells is in the right order (llList_spec), but its start is lost and the caller goes through the vector, which is in the order of rows (llList_points, list_order_refuted)."
  },
  {
   "property": "C105",
   "status": "partial",
   "theorems": [
    "Verif.Lsd.nfa_none",
    "Verif.Lsd.nfa_all",
    "Verif.Lsd.nfa_offset",
    "Verif.Lsd.nfa_refuted",
    "Verif.Lsd.nfa_meaningful_refuted"
   ],
   "note": "Exact reals, exact logarithms of factorials, probabilities up to one half. Right if all pixels are aligned or none. Otherwise log_gamma(n + 1) is missing in the code, and the value is off by the logarithm of n!/e^(n+1) (nfa_offset); hence refuted (nfa_refuted, nfa_meaningful_refuted). The truncation of the sum is within the bound claimed."
  },
  {
   "property": "C106",
   "status": "partial",
   "theorems": [
    "Verif.Lsd.rectPixels_spec",
    "Verif.Lsd.corners_spec",
    "Verif.Lsd.scanRows_upper",
    "Verif.Lsd.diamond_counted",
    "Verif.Lsd.counts_le",
    "Verif.Lsd.alignedCount_spec",
    "Verif.Lsd.counted_refuted",
    "Verif.Lsd.improve_value",
    "Verif.Lsd.improve_good",
    "Verif.Lsd.improve_finer",
    "Verif.Lsd.improve_narrower",
    "Verif.Lsd.Narrower.inside",
    "Verif.Lsd.shrink_sides",
    "Verif.Lsd.rectNfa_spec"
   ],
   "note": "Exact reals, no overflow. Improving is proved. Counting is refuted (counted_refuted): slopes are integer divisions and mix rows with columns, so for a horizontal rectangle only one column is counted; what is proved is that different pixels of the image are counted, in the rows of the rectangle."
  },
  {
   "property": "C107",
   "status": "partial",
   "theorems": [
    "Verif.Lsd.visit_inv",
    "Verif.Lsd.quant_steep",
    "Verif.Lsd.minReg_two",
    "Verif.Lsd.flsd_spec",
    "Verif.Lsd.aslam_flsd",
    "Verif.Lsd.apart_count",
    "Verif.Lsd.segment_pixel",
    "Verif.Lsd.segment_ends",
    "Verif.Lsd.tiny_minReg",
    "Verif.Lsd.flsd_fails_refuted"
   ],
   "note": "Exact reals; blurring and resizing are not modelled. Never failing is proved for quantizations of at least one and tolerances of at least ten degrees, and for the parameters of aslam; for smaller ones detection may throw (flsd_fails_refuted)."
  },
  {
   "property": "C108",
   "status": "partial",
   "theorems": [
    "Verif.NumDiff.step_pos",
    "Verif.NumDiff.step_eq",
    "Verif.NumDiff.numerical_spec",
    "Verif.NumDiff.formula_exact",
    "Verif.NumDiff.formula_error",
    "Verif.NumDiff.passes_sound",
    "Verif.NumDiff.passes_complete",
    "Verif.NumDiff.failure_reported",
    "Verif.NumDiff.stepsize_refuted",
    "Verif.NumDiff.formula_five"
   ],
   "note": "Proved for exact reals: the entries, the returned value, the order of the error and what a passed test means. Refuted: the step that is used is not the one given but its square root times the input (stepsize_refuted)."
  },
  {
   "property": "C109",
   "status": "partial",
   "theorems": [
    "Verif.ImageEqual.no_access_outside",
    "Verif.ImageEqual.equal_iff",
    "Verif.ImageEqual.single_channel_iff",
    "Verif.ImageEqual.equal_symm",
    "Verif.ImageEqual.equal_refl",
    "Verif.ImageEqual.tolerance_mono",
    "Verif.ImageEqual.default_iff",
    "Verif.ImageEqual.integers_exact",
    "Verif.ImageEqual.places_named",
    "Verif.ImageEqual.channels_refuted",
    "Verif.ImageEqual.tolerance_refuted",
    "Verif.ImageEqual.refl_refuted",
    "Verif.ImageEqual.position_refuted"
   ],
   "note": "Single-channel images are compared as specified, without reads outside. Refuted: of images with several channels only the first part of each row is compared (channels_refuted); for floating-point pixels the tolerance is not what is documented (tolerance_refuted), an image with NaN or infinite pixels differs from itself (refl_refuted), and the reported position has row and column exchanged (position_refuted)."
  },
  {
   "property": "C11",
   "status": "proved",
   "theorems": [
    "Verif.Serialization.matrix_round_trip",
    "Verif.Serialization.matrix_encoding_injective",
    "Verif.Serialization.image_round_trip",
    "Verif.Serialization.image_length",
    "Verif.Serialization.unsupported_image"
   ],
   "note": "Eigen matrices of every compile-time shape, and cv::Mat images, with the length of the bytes and the images that are refused."
  },
  {
   "property": "C110",
   "status": "partial",
   "theorems": [
    "Verif.TestRig.test_poses",
    "Verif.TestRig.Centre.unique",
    "Verif.TestRig.test_centres_differ",
    "Verif.TestRig.surround_axes",
    "Verif.TestRig.surround_position_refuted",
    "Verif.TestRig.surround_plane_refuted",
    "Verif.TestRig.rig_made",
    "Verif.TestRig.surround_made"
   ],
   "note": "Exact reals; the random identifiers are parameters. The poses are proved. Refuted: the axes of the surround-view cameras are right, but they are not at the positions on the circle in the body frame (surround_position_refuted) nor in one plane (surround_plane_refuted)."
  },
  {
   "property": "C111",
   "status": "partial",
   "theorems": [
    "Verif.Calibration.median_middle",
    "Verif.Calibration.guess_iff",
    "Verif.Calibration.guesses_spec",
    "Verif.Calibration.no_observations",
    "Verif.Calibration.vanishing_spec",
    "Verif.Calibration.incomplete_ignored",
    "Verif.Calibration.opposite_apart",
    "Verif.Calibration.fisheye_exact",
    "Verif.Calibration.straight_refuted",
    "Verif.Calibration.chosen_iff",
    "Verif.Calibration.fisheye_guesses",
    "Verif.Calibration.median_const"
   ],
   "note": "Exact reals; what std::nth_element leaves in the other places is a parameter. The guesses, the median and what is ignored are proved for rows that are curved in the image, and exactness for an equidistant camera. Refuted: if a row of a complete target is straight in the image, as for every pinhole camera without distortion and every target with two columns, the function returns true with a focal length that is not a number (straight_refuted)."
  },
  {
   "property": "C112",
   "status": "partial",
   "theorems": [
    "Verif.VisualFrame.Raw.raw_recovered",
    "Verif.VisualFrame.Raw.pinhole_onRays",
    "Verif.VisualFrame.Raw.unified_onRays",
    "Verif.VisualFrame.Raw.pinholeNull_back",
    "Verif.VisualFrame.Raw.pinholeNull_inverts",
    "Verif.VisualFrame.Raw.raw_pinhole",
    "Verif.VisualFrame.Raw.raw_unified",
    "Verif.VisualFrame.Raw.raw_identity",
    "Verif.VisualFrame.Raw.raw_eq_map",
    "Verif.VisualFrame.Raw.raw_map_refuted",
    "Verif.VisualFrame.Raw.raw_failed",
    "Verif.VisualFrame.Raw.raw_null_refuted",
    "Verif.VisualFrame.Raw.raw_vectorized",
    "Verif.VisualFrame.Raw.raw_index_partial",
    "Verif.VisualFrame.Raw.raw_index_refuted"
   ],
   "note": "Exact reals. Proved: the raw coordinates of points in front of the cameras, the visibility, the vectorised function, and agreement with the map of the undistorter for rays that point forward. Refuted: agreement with the map for backward rays, where the map is wrong (raw_map_refuted); a missing raw camera is a null pointer that is followed (raw_null_refuted); indices from 2^31 pass the check (raw_index_refuted)."
  },
  {
   "property": "C113",
   "status": "partial",
   "theorems": [
    "Verif.Camera.randomKeypoint_inside",
    "Verif.Camera.randomKeypoint_visible",
    "Verif.Camera.randomKeypoint_onto",
    "Verif.Camera.pinholeRandomPoint_spec",
    "Verif.Camera.pinholeRandomPoint_null",
    "Verif.Camera.pinholeRandomPoint_tiny_refuted",
    "Verif.Camera.negative_depth_refuted",
    "Verif.Camera.lidarRandomPoint_spec",
    "Verif.Camera.unifiedRandomKeypoint_spec",
    "Verif.Camera.unifiedRandomKeypoint_visible",
    "Verif.Camera.unifiedRandomKeypoint_one_refuted",
    "Verif.Camera.unifiedRandomPoint_ok",
    "Verif.Camera.unifiedRandomPoint_returns",
    "Verif.Camera.unified_centre_refuted",
    "Verif.Camera.borderRays_seen",
    "Verif.Camera.borderRays_enclose",
    "Verif.Camera.borderRays_enclose_refuted",
    "Verif.Camera.borderKeypoints_all",
    "Verif.Camera.unifiedRandomKeypoint_reach",
    "Verif.Camera.unifiedRandomKeypoint_reach_refuted",
    "Verif.Camera.lidarBorderRays_seen"
   ],
   "note": "Exact reals; the draws are parameters. Proved: range and visibility of the keypoints, depth and visibility of the points, the border rays. The random keypoints of a unified projection camera are characterised exactly (unifiedRandomKeypoint_reach); the rectangle is sized with the square of the radius, so that for large xi most keypoints never occur (unifiedRandomKeypoint_reach_refuted). Refuted: for negative depths the process ends (negative_depth_refuted); for depths up to 1e-10 the point is not visible (pinholeRandomPoint_tiny_refuted); for xi = 1 the keypoint is never random (unifiedRandomKeypoint_one_refuted), and outside of the image if the principal point is (unified_centre_refuted); visible keypoints in the outer half of the last column are not enclosed (borderRays_enclose_refuted)."
  },
  {
   "property": "C114",
   "status": "partial",
   "theorems": [
    "Verif.Kaze.Response.levels_at",
    "Verif.Kaze.Response.level_octave",
    "Verif.Kaze.Response.levels_increasing",
    "Verif.Kaze.Response.times_positive",
    "Verif.Kaze.Response.derivative_inside",
    "Verif.Kaze.Response.multiscale_quadratic",
    "Verif.Kaze.Response.response_quadratic",
    "Verif.Kaze.Response.response_transposed_partial",
    "Verif.Kaze.Response.response_affine",
    "Verif.Kaze.Response.response_transposed_refuted",
    "Verif.Kaze.Response.response_scales",
    "Verif.Kaze.Response.many_octaves_refuted",
    "Verif.Kaze.Response.small_offset_refuted",
    "Verif.Kaze.Response.default_levels"
   ],
   "note": "Exact reals; cv::sepFilter2D and cv::getDerivKernels as documented. Proved: the levels, their scales and times, the derivatives inside the image and their exactness for quadratic images, the determinant, changes of brightness, and that all levels of the default options are computed. Refuted: next to the border the response of the transposed image is not the transposed response (response_transposed_refuted); with ten octaves a kernel is stored outside its array (many_octaves_refuted); with an offset below one half the response is not a number (small_offset_refuted)."
  },
  {
   "property": "C115",
   "status": "partial",
   "theorems": [
    "Verif.Kaze.Orientation.begins_all",
    "Verif.Kaze.Orientation.inWindow_iff",
    "Verif.Kaze.Orientation.window_covers",
    "Verif.Kaze.Orientation.samples_disc",
    "Verif.Kaze.Orientation.res_value",
    "Verif.Kaze.Orientation.orientation_longest",
    "Verif.Kaze.Orientation.orientation_range",
    "Verif.Kaze.Orientation.orientation_uniform_partial",
    "Verif.Kaze.Orientation.orientation_gain",
    "Verif.Kaze.Orientation.orientation_zero_refuted",
    "Verif.Kaze.Orientation.orientation_dominant_refuted",
    "Verif.Kaze.Orientation.exactAtan2_exact"
   ],
   "note": "Exact reals, windows at the exact multiples of 0.15, the arc tangent as a parameter that is exact. Proved: the windows, the samples and their weights, the longest sum, the range, the contrast, and one common direction other than zero. Refuted: gradients along the axis of x are in no window, so the angle stays what it was if there are no others (orientation_zero_refuted), and one weak gradient of another direction outweighs all of them (orientation_dominant_refuted)."
  },
  {
   "property": "C116",
   "status": "partial",
   "theorems": [
    "Verif.Kaze.ScaleSpace.kernelSize_spec",
    "Verif.Kaze.ScaleSpace.gaussian_within",
    "Verif.Kaze.ScaleSpace.gaussian_interior",
    "Verif.Kaze.ScaleSpace.gaussian_small_refuted",
    "Verif.Kaze.ScaleSpace.gaussian_none_refuted",
    "Verif.Kaze.ScaleSpace.run_affine",
    "Verif.Kaze.ScaleSpace.times_bounds",
    "Verif.Kaze.ScaleSpace.run_levels",
    "Verif.Kaze.ScaleSpace.smooth_lags_refuted",
    "Verif.Kaze.ScaleSpace.unsupported_refuted",
    "Verif.Kaze.ScaleSpace.run_fed_partial",
    "Verif.Kaze.ScaleSpace.run_defaults",
    "Verif.Kaze.ScaleSpace.run_aos_partial",
    "Verif.Kaze.ScaleSpace.run_none",
    "Verif.Kaze.ScaleSpace.run_flat_refuted",
    "Verif.Kaze.ScaleSpace.run_flat_defaults_refuted",
    "Verif.Kaze.ScaleSpace.run_wide_refuted",
    "Verif.Kaze.ScaleSpace.sublevels_refuted"
   ],
   "note": "Exact reals; cv::GaussianBlur and cv::Scharr as documented. Proved: what every level is made of, existence of all levels with constant size and mean and variance that does not grow, for FED and, on square images, for AOS (there also the range of the pixels), in particular for the default options; contrast and brightness (with FED); the kernel of the smoothing. Refuted: the smoothed image of a level is that of the level before (smooth_lags_refuted); an unsupported diffusivity still returns 0 (unsupported_refuted); the levels of flat images are not numbers (run_flat_refuted, run_flat_defaults_refuted); images that are not square fail without FED (run_wide_refuted); twenty sublevels have undefined behaviour (sublevels_refuted); standard deviations up to 0.35 have no kernel (gaussian_small_refuted) and up to 0.5 do not smooth (gaussian_none_refuted)."
  },
  {
   "property": "C117",
   "status": "partial",
   "theorems": [
    "Verif.Kaze.Evaluation.nndr_iff",
    "Verif.Kaze.Evaluation.nndr_mono",
    "Verif.Kaze.Evaluation.nndr_ambiguous",
    "Verif.Kaze.Evaluation.nndr_short_refuted",
    "Verif.Kaze.Evaluation.nndr_names_refuted",
    "Verif.Kaze.Evaluation.ransac_spec",
    "Verif.Kaze.Evaluation.ransac_sublist",
    "Verif.Kaze.Evaluation.ransac_twice_refuted",
    "Verif.Kaze.Evaluation.ransac_odd_refuted",
    "Verif.Kaze.Evaluation.fits_iff",
    "Verif.Kaze.Evaluation.homography_spec",
    "Verif.Kaze.Evaluation.homography_scale",
    "Verif.Kaze.Evaluation.homography_again",
    "Verif.Kaze.Evaluation.homography_mono",
    "Verif.Kaze.Evaluation.homography_inverse",
    "Verif.Kaze.Evaluation.homography_alias_refuted",
    "Verif.Kaze.Evaluation.homography_odd_refuted",
    "Verif.Kaze.Evaluation.read_spec",
    "Verif.Kaze.Evaluation.read_inliers",
    "Verif.Kaze.Evaluation.read_missing",
    "Verif.Kaze.Evaluation.read_incomplete_refuted",
    "Verif.Kaze.Evaluation.read_long_refuted",
    "Verif.Kaze.Evaluation.save_spec",
    "Verif.Kaze.Evaluation.save_radius",
    "Verif.Kaze.Evaluation.save_unopened",
    "Verif.Kaze.Evaluation.save_fewer_refuted",
    "Verif.Kaze.Evaluation.save_more_refuted",
    "Verif.Kaze.Evaluation.save_zero_refuted",
    "Verif.Kaze.Evaluation.compose_spec",
    "Verif.Kaze.Evaluation.draw_smaller_refuted",
    "Verif.Kaze.Evaluation.draw_lines",
    "Verif.Kaze.Evaluation.draw_larger_refuted",
    "Verif.Kaze.Evaluation.draw_colour_refuted",
    "Verif.Kaze.Evaluation.draw_colours"
   ],
   "note": "Exact reals; the estimators and sscanf are parameters, and rounding of printed numbers is not modelled. Proved: the ratio test and its monotonicity, the inliers of an estimator and of a homography (any scale, again, larger errors, inverse), reading of complete files, the saved file, and the canvas and lines for images of the same size. Refuted: a keypoint with one neighbour is read out of bounds (nndr_short_refuted); queryIdx is used as an index of the parameter named train (nndr_names_refuted); the inliers of an estimator are appended to older ones (ransac_twice_refuted) while those of a homography replace them; filtering in place loses everything (homography_alias_refuted); odd lengths are read out of bounds; incomplete files and long lines are read with success into a matrix that does not consist of numbers (read_incomplete_refuted, read_long_refuted); keypoints without descriptors are left out of the file, descriptors without keypoints are undefined, and size zero gives infinity (save_more_refuted, save_fewer_refuted, save_zero_refuted); the resized second image is not used, so smaller images are read out of bounds and larger ones cut off (draw_smaller_refuted, draw_larger_refuted); other colours draw nothing (draw_colour_refuted)."
  },
  {
   "property": "C118",
   "status": "partial",
   "theorems": [
    "Verif.Lsd.Draw.compare_count",
    "Verif.Lsd.Draw.compare_same",
    "Verif.Lsd.Draw.compare_symm",
    "Verif.Lsd.Draw.compare_triangle",
    "Verif.Lsd.Draw.compare_overlay",
    "Verif.Lsd.Draw.compare_mat_refuted",
    "Verif.Lsd.Draw.show_both_refuted",
    "Verif.Lsd.Draw.show_spec",
    "Verif.Lsd.Draw.show_both_spec",
    "Verif.Lsd.Draw.show_both",
    "Verif.Lsd.Draw.compare_throws",
    "Verif.Lsd.Draw.draw_spec",
    "Verif.Lsd.Draw.draw_mat_refuted",
    "Verif.Lsd.Draw.draw_colour_refuted",
    "Verif.Lsd.Draw.detect_outputs",
    "Verif.Lsd.Draw.detect_throws"
   ],
   "note": "The pixels of a line are a parameter. Proved for segments in vectors: the count as the size of the symmetric difference, equality, symmetry, triangle inequality, the colours, drawing, and the outputs of the detection. Refuted: of segments in the matrix that the detection makes only the first is drawn or compared (compare_mat_refuted, draw_mat_refuted); showing two lists without an image always throws (show_both_refuted); drawing turns pictures in colour grey (draw_colour_refuted)."
  },
  {
   "property": "C119",
   "status": "partial",
   "theorems": [
    "Verif.Visualization.keypoints_spec",
    "Verif.Visualization.twoTypes_has",
    "Verif.Visualization.keypoints_stale_refuted",
    "Verif.Visualization.keypoints_undescribed_refuted",
    "Verif.Visualization.keypoints_raw",
    "Verif.Visualization.matches_spec",
    "Verif.Visualization.matches_large",
    "Verif.Visualization.matches_negative_refuted",
    "Verif.Visualization.matches_none_refuted"
   ],
   "note": "The pixels of a shape are not modelled; pointers are not null. Proved: the background, the circles and lines for keypoints of a type and for matches in range. Refuted: without keypoints of the type the image is left stale (keypoints_stale_refuted); frames without descriptors abort (keypoints_undescribed_refuted); negative indices pass the checks (matches_negative_refuted); a frame without keypoints of the type aborts even without matches (matches_none_refuted)."
  },
  {
   "property": "C12",
   "status": "partial",
   "theorems": [
    "Verif.Serialization.matrix_accepts_only_complete",
    "Verif.Serialization.vector_over_read_refuted",
    "Verif.Serialization.vector_truncated_payload_refuted",
    "Verif.Serialization.vector_accepts_prefix_partial",
    "Verif.Serialization.image_overflow_refuted",
    "Verif.Serialization.image_accepts_only_complete_partial",
    "Verif.Serialization.image_wrap_refuted"
   ],
   "note": "Proved in full for single matrices. False for vectors of matrices (over-read) and for cv::Mat (channel count masked by OpenCV; announced size computed modulo 2^64): refutations, with the part that holds."
  },
  {
   "property": "C120",
   "status": "partial",
   "theorems": [
    "Verif.Target.estimate_spec",
    "Verif.Target.estimate_default",
    "Verif.Target.estimate_exact",
    "Verif.Target.estimate_failure",
    "Verif.Target.estimate_rejects",
    "Verif.Target.estimate_unknown",
    "Verif.Target.estimate_refinement_refuted"
   ],
   "note": "Exact reals; the RANSAC of OpenGV is a parameter. Proved: what the RANSAC is given and the tolerance as an angle, exactness for exact observations if the RANSAC is exact, defaults, the untouched pose on failure, and the inputs that end the process. Refuted: asking for the nonlinear refinement, which the overload without options does, has no effect (estimate_refinement_refuted)."
  },
  {
   "property": "C121",
   "status": "partial",
   "theorems": [
    "Verif.CameraLife.create_spec",
    "Verif.CameraLife.createOf_spec",
    "Verif.CameraLife.create_valid",
    "Verif.CameraLife.testCamera_spec",
    "Verif.CameraLife.created_consistent",
    "Verif.CameraLife.consistent_always",
    "Verif.CameraLife.isValid_iff",
    "Verif.CameraLife.valid_kept",
    "Verif.CameraLife.setParameters_spec",
    "Verif.CameraLife.default_spec",
    "Verif.CameraLife.setRandom_spec",
    "Verif.CameraLife.clone_spec",
    "Verif.CameraLife.isEqual_refl",
    "Verif.CameraLife.clone_isEqual",
    "Verif.CameraLife.create_coefficients_refuted",
    "Verif.CameraLife.setParameters_refuted",
    "Verif.CameraLife.lidar_default_refuted",
    "Verif.CameraLife.null_distortion_refuted",
    "Verif.CameraLife.null_parameters_refuted",
    "Verif.CameraLife.setRandom_refuted"
   ],
   "note": "Doubles are rationals (no NaN); generated ids are arguments. Proved: what each factory makes and when it aborts, validity, consistency of model, id, numbers of parameters and mask under every sequence of changes, copies, test cameras. Refuted: coefficients given with \"no distortion\" are forgotten (create_coefficients_refuted), setParameters makes a camera invalid (setParameters_refuted), a default lidar has three of four parameters (lidar_default_refuted), a camera without distortion object is valid but cannot be copied or compared (null_distortion_refuted), ineffective coefficients make cameras unequal (null_parameters_refuted), setRandom keeps the flag for compressed images (setRandom_refuted)."
  },
  {
   "property": "C122",
   "status": "partial",
   "theorems": [
    "Verif.VisualFrame.Access.frame_refines_slots",
    "Verif.VisualFrame.Access.set_then_get",
    "Verif.VisualFrame.Access.swap_exchanges",
    "Verif.VisualFrame.Access.missing_aborts",
    "Verif.VisualFrame.Access.release_once",
    "Verif.VisualFrame.Access.others_untouched",
    "Verif.VisualFrame.Access.foreign_type_aborts",
    "Verif.VisualFrame.Access.item_cases",
    "Verif.VisualFrame.Access.index_check_refuted",
    "Verif.VisualFrame.Access.swap_null",
    "Verif.VisualFrame.Access.swap_null_refuted"
   ],
   "note": "Everything is proved for indices below 2^31 and pointers that are not null. Refuted: CHECK_LT(static_cast<int>(index), …) lets an index from 2^31 on (for instance size_t(-1)) pass, and the access is undefined behaviour (index_check_refuted, item_cases); the swap functions other than swapTrackIds do not check their argument (swap_null_refuted)."
  },
  {
   "property": "C123",
   "status": "partial",
   "theorems": [
    "Verif.Yaml.File.other_files",
    "Verif.Yaml.File.overwrites",
    "Verif.Yaml.File.failed_write_keeps",
    "Verif.Yaml.File.unwritable_aborts",
    "Verif.Yaml.File.read_written",
    "Verif.Yaml.File.camera_file_round_trip",
    "Verif.Yaml.File.rig_file_round_trip",
    "Verif.Yaml.File.last_write_wins",
    "Verif.Yaml.File.unreadable_keeps",
    "Verif.Yaml.File.reads_one_file",
    "Verif.Yaml.File.empty_file_camera",
    "Verif.Yaml.File.load_outcomes",
    "Verif.Yaml.File.load_true",
    "Verif.Yaml.File.matrix_file_round_trip",
    "Verif.Yaml.File.save_other_files",
    "Verif.Yaml.File.malformed_file_refuted",
    "Verif.Yaml.File.full_disk_refuted",
    "Verif.Yaml.File.save_unopened_refuted",
    "Verif.Yaml.File.failed_save_refuted"
   ],
   "note": "Proved: round trips, overwriting, other files untouched, last write wins, unreadable files refused, no exception out of Load. Refuted: only parsing is guarded, so a file with a malformed id ends the program (malformed_file_refuted); errors of writing are not noticed (full_disk_refuted); Save returns true when the file could not be opened (save_unopened_refuted, without assertions); a Save that fails has emptied the old file (failed_save_refuted)."
  },
  {
   "property": "C124",
   "status": "proved",
   "theorems": [
    "Verif.Memory.equal_hash",
    "Verif.Memory.mix_injective",
    "Verif.Memory.last_element",
    "Verif.Memory.scalars",
    "Verif.Memory.order_matters",
    "Verif.Memory.shape_ignored",
    "Verif.Memory.table_refines",
    "Verif.Memory.no_collisions_refuted",
    "Verif.Memory.nan_key_refuted"
   ],
   "note": "Also proved: the size of a matrix is not part of the hash (shape_ignored), distinct vectors may collide (no_collisions_refuted concerns a claim that the property does not make), a key that is not equal to itself is not found (nan_key_refuted). The element hash and the container are library code, modelled as parameters and as buckets."
  },
  {
   "property": "C125",
   "status": "partial",
   "theorems": [
    "Verif.Memory.owned_once",
    "Verif.Memory.nothing_leaks",
    "Verif.Memory.make_spec",
    "Verif.Memory.move_spec",
    "Verif.Memory.throwing_constructor_refuted",
    "Verif.Memory.second_base_refuted",
    "Verif.Memory.nonvirtual_refuted"
   ],
   "note": "Proved for constructors that do not throw and conversions to a first base class with a virtual destructor. Refuted: a constructor that throws leaks the memory (throwing_constructor_refuted); converting to a base class at an offset ends in undefined behaviour (second_base_refuted); without a virtual destructor the object is not destroyed as a whole (nonvirtual_refuted)."
  },
  {
   "property": "C126",
   "status": "partial",
   "theorems": [
    "Verif.HashId.serialize_holds",
    "Verif.HashId.deserialize_spec",
    "Verif.HashId.proto_round_trip",
    "Verif.HashId.message_round_trip",
    "Verif.HashId.correspondsTo_spec",
    "Verif.HashId.conversions",
    "Verif.HashId.stdHash_spec",
    "Verif.HashId.printString_spec",
    "Verif.HashId.printString_eq_iff",
    "Verif.HashId.print_differs",
    "Verif.HashId.print_not_parsed",
    "Verif.HashId.container_spec",
    "Verif.HashId.container_eq_iff",
    "Verif.HashId.seed_order",
    "Verif.HashId.seed_differs",
    "Verif.HashId.random_spec",
    "Verif.HashId.print_refuted",
    "Verif.HashId.hashPair_refuted",
    "Verif.HashId.seed_refuted"
   ],
   "note": "Proved except for telling ids apart in print: two ids print alike exactly if their first two and last two bytes agree (printString_eq_iff), so different ids may print alike (print_refuted). Also refuted: pairs of an id with itself all hash alike (hashPair_refuted); salting twice with the same value has no effect (seed_refuted)."
  },
  {
   "property": "C127",
   "status": "partial",
   "theorems": [
    "Verif.Yaml.newSensor_spec",
    "Verif.Yaml.copies",
    "Verif.Yaml.readBase_spec",
    "Verif.Yaml.readBase_loadBase",
    "Verif.Yaml.readBase_throws",
    "Verif.Yaml.valid_always_partial",
    "Verif.Yaml.others_unchanged",
    "Verif.Yaml.setters",
    "Verif.Yaml.assign_spec",
    "Verif.Yaml.read_no_map",
    "Verif.Yaml.half_read_refuted",
    "Verif.Yaml.mixed_id_refuted"
   ],
   "note": "Proved for programs in which reading the base part does not throw. Refuted otherwise: a caught exception of a malformed id leaves the sensor with an invalid id (half_read_refuted) or with a mixture of ids (mixed_id_refuted)."
  },
  {
   "property": "C128",
   "status": "partial",
   "theorems": [
    "Verif.Kaze.Compute.types_spec",
    "Verif.Kaze.Compute.program_schedule",
    "Verif.Kaze.Compute.schedule_filter",
    "Verif.Kaze.Compute.compute_spec",
    "Verif.Kaze.Compute.schedule_irrelevant",
    "Verif.Kaze.Compute.row_local",
    "Verif.Kaze.Compute.upright_angle",
    "Verif.Kaze.Compute.orientation_twice",
    "Verif.Kaze.Compute.compute_twice",
    "Verif.Kaze.Compute.level_refuted"
   ],
   "note": "Refuted: the level (class_id) of a keypoint is not checked (level_refuted). The rest is proved; calls on different keypoints are atomic events (they touch different keypoints and rows and only read the scale space)."
  },
  {
   "property": "C129",
   "status": "partial",
   "theorems": [
    "Verif.Undistort.samplesOf_spec",
    "Verif.Undistort.create_spec",
    "Verif.Undistort.toPinhole_spec",
    "Verif.Undistort.create_rejects",
    "Verif.Undistort.create_succeeds",
    "Verif.Undistort.scale_refuted",
    "Verif.Undistort.construct_iff",
    "Verif.Undistort.construct_built_partial",
    "Verif.Undistort.construct_pairs_refuted",
    "Verif.Undistort.construct_null_refuted",
    "Verif.Undistort.process_spec",
    "Verif.Undistort.process_area",
    "Verif.Undistort.bilinear_spec",
    "Verif.Undistort.pack_frac",
    "Verif.Undistort.bilinear_whole",
    "Verif.Undistort.bilinear_range",
    "Verif.Undistort.bilinear_mono",
    "Verif.Undistort.shows_partial",
    "Verif.Undistort.position_null",
    "Verif.Undistort.border_refuted",
    "Verif.Undistort.rounded_448",
    "Verif.Undistort.exists_singleTimes",
    "Verif.Undistort.size_refuted"
   ],
   "note": "Exact reals; images with one channel; interpolations other than linear are a parameter. Refuted: every positive scale works (scale_refuted), all made maps are accepted (construct_pairs_refuted), null cameras are rejected (construct_null_refuted), every pixel shows a part of the image with alpha 0 (border_refuted: last row and column black), the output camera fits its image (size_refuted: sizes in single and double precision differ, for example 640 columns at scale 0.7). What a pixel shows is proved for pinhole cameras within 32767 pixels; for cameras with a mirror see C79."
  },
  {
   "property": "C13",
   "status": "proved",
   "theorems": [
    "Verif.Serialization.vector_round_trip"
   ],
   "note": ""
  },
  {
   "property": "C130",
   "status": "partial",
   "theorems": [
    "Verif.FeatureTrack.Life.alive",
    "Verif.FeatureTrack.Life.no_leak",
    "Verif.FeatureTrack.Life.step_defined",
    "Verif.FeatureTrack.Life.read_spec",
    "Verif.FeatureTrack.Life.read_defined",
    "Verif.FeatureTrack.Life.camera_defined",
    "Verif.FeatureTrack.Life.create_spec",
    "Verif.FeatureTrack.Life.ident_fixed",
    "Verif.FeatureTrack.Life.owner_alive",
    "Verif.FeatureTrack.Life.read_stable",
    "Verif.FeatureTrack.Life.view_stable",
    "Verif.FeatureTrack.Life.view_sees",
    "Verif.FeatureTrack.Life.setFrame_camera",
    "Verif.FeatureTrack.Life.replaced_refuted",
    "Verif.FeatureTrack.Life.asked_refuted",
    "Verif.FeatureTrack.Life.descriptor_refuted",
    "Verif.FeatureTrack.Life.dangling_refuted",
    "Verif.FeatureTrack.Life.camera_refuted",
    "Verif.FeatureTrack.Life.setNCameras_spec",
    "Verif.FeatureTrack.Life.rig_refuted"
   ],
   "note": "Cameras of a rig are fixed; one block of descriptors; one thread. Refuted: the identifier keeps referring to its keypoint (replaced_refuted), can always be asked (asked_refuted), has a descriptor and a camera (descriptor_refuted), references stay good as long as the identifier (dangling_refuted), its camera is that of its frame (camera_refuted, rig_refuted)."
  },
  {
   "property": "C131",
   "status": "partial",
   "theorems": [
    "Verif.Statistics.timeText_spec",
    "Verif.Statistics.timeText_close",
    "Verif.Statistics.clock_inj",
    "Verif.Statistics.floor_div",
    "Verif.Statistics.sixty_refuted",
    "Verif.Statistics.long_refuted",
    "Verif.Statistics.tags_good",
    "Verif.Statistics.tags_asked",
    "Verif.Statistics.timings_spec",
    "Verif.Statistics.report_ok",
    "Verif.Statistics.report_rows",
    "Verif.Statistics.stats_rows",
    "Verif.Statistics.no_tags",
    "Verif.Statistics.heading_refuted",
    "Verif.Statistics.timing_file",
    "Verif.Statistics.stats_file",
    "Verif.Statistics.label_spec",
    "Verif.Statistics.label_refuted"
   ],
   "note": "Texts of plain numbers (operator<<) are a parameter; the figures are those of C-properties on accumulators, taken as given and not changing during printing. Refuted: seconds below 60 (sixty_refuted), every duration can be printed (long_refuted), heading in line with the rows (heading_refuted), labels distinct (label_refuted). The reader of files wants tags that do not begin with a blank."
  },
  {
   "property": "C132",
   "status": "partial",
   "theorems": [
    "Verif.VisualPipeline.Owners.lives_partial",
    "Verif.VisualPipeline.Owners.no_leak",
    "Verif.VisualPipeline.Owners.freak_refuted",
    "Verif.VisualPipeline.Owners.neon_refuted",
    "Verif.VisualPipeline.Owners.octaves_spec",
    "Verif.VisualPipeline.Owners.octaves_refuted",
    "Verif.VisualPipeline.Owners.noTarget_spec"
   ],
   "note": "lives_partial: all programs that do not touch FREAK pipelines once made. Refuted: FREAK pipelines can be used or destroyed (freak_refuted): FreakVisualPipeline gives std::shared_ptr the plain pointer of a temporary cv::Ptr, which deletes it. Also refuted: settings of BRISK matter on ARM (neon_refuted), large numbers of octaves (octaves_refuted). One thread; the default constructors for serialization are protected and not modelled."
  },
  {
   "property": "C133",
   "status": "partial",
   "theorems": [
    "Verif.Camera.Jets.fisheye_double",
    "Verif.Camera.Jets.null_double",
    "Verif.Camera.Jets.project_outcome",
    "Verif.Camera.Jets.jets_value",
    "Verif.Camera.Jets.fisheye_derivative_partial",
    "Verif.Camera.Jets.null_derivative",
    "Verif.Camera.Jets.coefficient_refuted",
    "Verif.Camera.Jets.boundary_refuted"
   ],
   "note": "fisheye_double, null_double: the template with double equals the virtual function. jets_value: jets carry those values. fisheye_derivative_partial, null_derivative: exact derivatives. Missing and refuted (boundary_refuted): w*w = 1e-5 and the circle r*r = 1e-5, where the distortion jumps. coefficient_refuted: near the centre the jets are right and distortParameterJacobian is wrong. The arithmetic of jets is that of ceres::Jet, which is not in the repository. The template of the lidar is in C69; that of the equidistant distortion is declared and not defined."
  },
  {
   "property": "C134",
   "status": "partial",
   "theorems": [
    "Verif.RWLock.Scoped.scoped_exclusion",
    "Verif.RWLock.Scoped.held_until_destroyed",
    "Verif.RWLock.Scoped.move_hands_over",
    "Verif.RWLock.Scoped.scopes_free",
    "Verif.RWLock.Scoped.no_deadlock_without_nesting",
    "Verif.RWLock.Scoped.nested_read_reader_first",
    "Verif.RWLock.Scoped.nested_write_refuted",
    "Verif.RWLock.Scoped.nested_read_refuted",
    "Verif.RWLock.Scoped.upgrade_in_scope_refuted"
   ],
   "note": "scoped_exclusion, held_until_destroyed, move_hands_over, scopes_free, no_deadlock_without_nesting: proved. Nesting is refuted: nested_write_refuted (one of two locks of a thread is a write lock: it waits for ever), nested_read_refuted (two read locks with a writer arriving in between, base class); with the reader-first mutex nested read locks are given at once (nested_read_reader_first). upgrade_in_scope_refuted: after upgradeToWriteLock the destructor of the read lock calls releaseReadLock, which leaves the mutex locked for ever."
  },
  {
   "property": "C135",
   "status": "partial",
   "theorems": [
    "Verif.Printing.table_rows",
    "Verif.Printing.table_of_none",
    "Verif.Printing.table_determines",
    "Verif.Printing.table_aborts_iff",
    "Verif.Printing.format_after_table",
    "Verif.Printing.rig_sections",
    "Verif.Printing.track_text",
    "Verif.Printing.empty_track_text",
    "Verif.Printing.track_determines",
    "Verif.Printing.projection_text",
    "Verif.Printing.triangulation_text",
    "Verif.Printing.distortion_names",
    "Verif.Printing.camera_names",
    "Verif.Printing.distortion_text",
    "Verif.Printing.camera_text",
    "Verif.Printing.camera_determines",
    "Verif.Printing.frame_text",
    "Verif.Printing.frame_determines",
    "Verif.Printing.empty_track_in_table_refuted",
    "Verif.Printing.titles_apart_refuted",
    "Verif.Printing.format_after_table_refuted",
    "Verif.Printing.fixed_notation_refuted",
    "Verif.Printing.kind_of_result_refuted",
    "Verif.Printing.camera_name_refuted",
    "Verif.Printing.lidar_determined_refuted",
    "Verif.Printing.label_once_refuted"
   ],
   "note": "table_rows, table_of_none, table_determines, table_aborts_iff, rig_sections, track_text, empty_track_text, track_determines, projection_text, triangulation_text, distortion_names, camera_names, distortion_text, camera_text, camera_determines, frame_text, frame_determines: proved. Refuted: an empty track in a list aborts (empty_track_in_table_refuted); the first two titles of the table run together (titles_apart_refuted); format of the stream changes (format_after_table_refuted; what it becomes is format_after_table); on a stream in scientific notation both flags are set, i.e. hexadecimal numbers (fixed_notation_refuted); results of triangulations are titled as projections (kind_of_result_refuted); the type of a lidar has no name (camera_name_refuted); a lidar does not show the centres of its angles (lidar_determined_refuted); the label of a camera is printed again behind the title of the distortion (label_once_refuted)."
  },
  {
   "property": "C136",
   "status": "partial",
   "theorems": [
    "Verif.Target.fromYaml_ok_iff",
    "Verif.Target.file_round_trip",
    "Verif.Target.file_makes_target",
    "Verif.Target.file_rejected",
    "Verif.Target.missing_spacing_refuted",
    "Verif.Target.missing_columns_refuted",
    "Verif.Target.missing_size_refuted",
    "Verif.Target.border_refuted",
    "Verif.Target.default_board"
   ],
   "note": "fromYaml_ok_iff: exactly which files are accepted and with what result. Refuted: safeGet failing is not looked at, so a file without spacing uses an uninitialised number (missing_spacing_refuted), files without columns, rows or size get those of the default board (missing_columns_refuted, missing_size_refuted), and the border of the tags cannot be given (border_refuted). Exact numbers; YAML text is a parameter as in C84."
  },
  {
   "property": "C137",
   "status": "partial",
   "theorems": [
    "Verif.NPipeline.Make.make_ok_iff",
    "Verif.NPipeline.Make.work_spec",
    "Verif.NPipeline.Make.made_never_misfits",
    "Verif.NPipeline.Make.changed_rig_refuted",
    "Verif.NPipeline.Make.testPipeline_ok_iff",
    "Verif.NPipeline.Make.make_stops"
   ],
   "note": "Refuted: rigs are shared and can be changed after the pipeline is made, and then the next image ends the program (changed_rig_refuted). Which n-frame an image is put into is arbitrary here and the subject of C28; indices of cameras that do not exist too. One lock at a time as in C28."
  },
  {
   "property": "C138",
   "status": "partial",
   "theorems": [
    "Verif.TestRig.randomCount_range",
    "Verif.TestRig.randomCount_iff",
    "Verif.TestRig.fifteen_refuted",
    "Verif.TestRig.setRandom_made",
    "Verif.TestRig.not_random_refuted",
    "Verif.VisualFrame.Test.testChannels_spec",
    "Verif.VisualFrame.Test.testNFrame_made",
    "Verif.VisualFrame.Test.testNFrame_times",
    "Verif.VisualFrame.Test.testNFrame_empty_refuted"
   ],
   "note": "Refuted: random rigs differ in the number and class of their cameras and in ids only (not_random_refuted), 15 cameras there are only for the random number 1 itself (fifteen_refuted, exact arithmetic), and a test n-frame of a rig without cameras has another time (testNFrame_empty_refuted)."
  },
  {
   "property": "C139",
   "status": "proved",
   "theorems": [
    "Verif.Distortion.radtan_stretch",
    "Verif.Distortion.radtan_onto",
    "Verif.Distortion.radtan_undistort_converges",
    "Verif.Distortion.radtan_undistort_distort",
    "Verif.Distortion.radtan_folds_refuted",
    "Verif.Distortion.radtan_singular_refuted",
    "Verif.Distortion.hasDerivAt_seenAt",
    "Verif.Distortion.equidistant_undistort_distort",
    "Verif.Distortion.slowsDown_zero",
    "Verif.Distortion.slowsDown_barrel",
    "Verif.Camera.pinhole_radtan_project_backProject",
    "Verif.Camera.pinhole_radtan_backProject_project",
    "Verif.Camera.pinhole_equidistant_backProject_project",
    "Verif.Camera.unified_radtan_project_backProject",
    "Verif.Camera.unified_radtan_backProject_project",
    "Verif.Camera.unified_equidistant_backProject_project"
   ],
   "note": "Exact arithmetic. The bounds are explicit: radial-tangential 3/2 (3/2 tol / R + R / 5^30), equidistant L tol / growth^3 + r (1 - growth)^30; with the default tolerance 1e-8 these are below 1e-7 for usual lenses (examples). Outside the stated regions it is false in general: where the lens folds the image over another point comes back (radtan_folds_refuted), and on the fold the iteration divides by zero (radtan_singular_refuted); near the centre the equidistant model does not iterate (C66). For cameras with a mirror the error in depth is larger by a factor that grows towards the edge of the mirror."
  },
  {
   "property": "C14",
   "status": "partial",
   "theorems": [
    "Verif.Serialization.scalar_buffer_round_trip",
    "Verif.Serialization.scalar_string_round_trip_partial",
    "Verif.Serialization.scalar_string_round_trip_signed",
    "Verif.Serialization.scalar_string_refuted",
    "Verif.Serialization.double_string_refuted",
    "Verif.Serialization.double_string_error_partial",
    "Verif.Serialization.stoll_space",
    "Verif.Serialization.stoll_other",
    "Verif.Serialization.stoll_sign",
    "Verif.Serialization.inRange_iff",
    "Verif.Serialization.micros_tie_even"
   ],
   "note": "Binary form: all values. String form: all values below 2^63; uint64/size_t from 2^63 on throw on reading (scalar_string_refuted); doubles lose precision (double_string_refuted). stoll_space, stoll_other and stoll_sign say what is read as a number."
  },
  {
   "property": "C140",
   "status": "partial",
   "theorems": [
    "Verif.OccupancyGrid.rounding_exact_borders",
    "Verif.OccupancyGrid.borders_int",
    "Verif.OccupancyGrid.rounding_near_partial",
    "Verif.OccupancyGrid.rounding_last_row_refuted",
    "Verif.OccupancyGrid.rounding_wrong_cell_refuted",
    "Verif.OccupancyGrid.rounding_zero_cell_refuted"
   ],
   "note": "Proved, with the grid and all cells exactly as in exact arithmetic, if the borders between the cells are doubles (rounding_exact_borders), as with cells of a whole number of pixels (borders_int). For all sizes the cell is the right one or the next (rounding_near_partial). The claim is false in general: with 480 rows and cells of height 480.0 / 11, the last double below 480 gets the row 11 of 11 rows and adding such a point ends the program (rounding_last_row_refuted), and another point is put in a cell that does not contain it (rounding_wrong_cell_refuted). Infinities, NaN and subnormal numbers are not modelled."
  },
  {
   "property": "C141",
   "status": "partial",
   "theorems": [
    "Verif.Statistics.figures_of_samples",
    "Verif.Statistics.means_of_samples_partial",
    "Verif.Statistics.means_of_deltas_partial",
    "Verif.Statistics.hz_spec",
    "Verif.Statistics.deltas_of_samples",
    "Verif.Statistics.timingHz_spec",
    "Verif.Statistics.twoRuns_figures",
    "Verif.Statistics.add_succeeds",
    "Verif.Statistics.timing_hz_refuted",
    "Verif.Statistics.variance_window_refuted",
    "Verif.Statistics.unknown_handle_refuted"
   ],
   "note": "Number, latest, smallest and largest sample and time are proved for every rounding, sums and means in exact arithmetic (for floating point see C43), the rate as the number of intervals divided by the time from the first to the last sample. Without samples the latest value and the mean are 0, and GetHz is -1. False: Timing::GetHz is one over the mean duration of a run, not the number of runs per second (timing_hz_refuted); the variance is that of the latest hundred samples although number and mean are those of all (variance_window_refuted). No reading of the clock is the epoch itself."
  },
  {
   "property": "C142",
   "status": "partial",
   "theorems": [
    "Verif.Lsd.Gamma.logGamma_close",
    "Verif.Lsd.Gamma.windschitl_close",
    "Verif.Lsd.Gamma.lanczos_close",
    "Verif.Lsd.Gamma.log_factorial_bounds",
    "Verif.Lsd.Gamma.nfa_close",
    "Verif.Lsd.Gamma.code_meaningful_refuted"
   ],
   "note": "Exact reals; log_gamma is proved within 1e-8 at all factorials (logGamma_close). For nfa the truncated sum of probabilities is right, but log_gamma(n + 1) is missing in the code, as in C105: the value is off by the logarithm of n!/e^(n+1) (nfa_close), so that with log_gamma as it is a rectangle with more than nine false alarms is found to be meaningful (code_meaningful_refuted). Rounding of the floating point operations in log_gamma is not modelled."
  },
  {
   "property": "C143",
   "status": "partial",
   "theorems": [
    "Verif.Channels.Concurrent.linearizable",
    "Verif.Channels.Concurrent.linearizable_finished",
    "Verif.Channels.Concurrent.dies_as_alone",
    "Verif.Channels.Concurrent.exclusive",
    "Verif.Channels.Concurrent.no_deadlock",
    "Verif.Channels.Concurrent.all_runs_end",
    "Verif.Channels.Concurrent.ends",
    "Verif.Channels.Concurrent.setters_of_different_channels",
    "Verif.Channels.Concurrent.deadlock_refuted",
    "Verif.Channels.Concurrent.setter_refuted",
    "Verif.Channels.Concurrent.write_race_refuted",
    "Verif.Channels.Concurrent.dangling_refuted",
    "Verif.Channels.Concurrent.assign_refuted"
   ],
   "note": "Linearizability, exclusion and that the program dies only where it would have alone are proved for all calls but operator=, which takes no mutex (channel.h:128-131): with it an outcome is reached that no order of the calls gives (assign_refuted). Threads never wait for ever if the comparisons of groups go upwards in some order (no_deadlock, ends); a == b in one thread and b == a in another can hang (deadlock_refuted). Setters of different channels do not disturb each other (setters_of_different_channels); two threads that set the same channel for the first time can abort (setter_refuted), setters write to the channel without the mutex while others read (write_race_refuted), or after it was removed (dangling_refuted). Memory is sequentially consistent in the model."
  },
  {
   "property": "C144",
   "status": "partial",
   "theorems": [
    "Verif.NPipeline.Shutdown.sleeps_only_if_needed",
    "Verif.NPipeline.Shutdown.not_stuck",
    "Verif.NPipeline.Shutdown.comes_to_end",
    "Verif.NPipeline.Shutdown.returns",
    "Verif.NPipeline.Shutdown.inside",
    "Verif.NPipeline.Shutdown.elsewhere",
    "Verif.NPipeline.Shutdown.after_shutdown",
    "Verif.NPipeline.Shutdown.limit_refuted"
   ],
   "note": "Everything about waiting and results is proved. Refuted: the limit of processImageBlockingIfFull. Only complete n-frames are counted, so with a limit of one any number of images is taken without blocking, and all may then be waiting in the output queue (limit_refuted; the comment in visual-npipeline.h:89-92 allows for the n-frames in work, but their number is not limited). For calls that are waiting while shutdown runs see C31."
  },
  {
   "property": "C145",
   "status": "partial",
   "theorems": [
    "Verif.NPipeline.Sync.one_per_trigger",
    "Verif.NPipeline.Sync.nothing_lost",
    "Verif.NPipeline.Sync.in_order",
    "Verif.NPipeline.Sync.one_worker_fifo",
    "Verif.NPipeline.Sync.one_thread",
    "Verif.NPipeline.Sync.two_threads_refuted"
   ],
   "note": "Proved as long as no image is handled before all images of the triggers up to the third before it (one_per_trigger, nothing_lost; in_order for the order), hence for pipelines with one thread whose images are submitted trigger by trigger (one_thread). Refuted for two threads: a thread that is slow while the other handles the images of three more triggers loses the n-frame of its image (two_threads_refuted); the clean-up takes it for one that will never be complete."
  },
  {
   "property": "C146",
   "status": "partial",
   "theorems": [
    "Verif.TrackManager.Chain.tracked_iff",
    "Verif.TrackManager.Chain.same_id_iff",
    "Verif.TrackManager.Chain.order_irrelevant",
    "Verif.TrackManager.Chain.next_call_iff",
    "Verif.TrackManager.Chain.frame_to_frame_succeeds",
    "Verif.TrackManager.Chain.joining_tracks_refuted",
    "Verif.TrackManager.Chain.call_order_refuted"
   ],
   "note": "Proved for all sequences of successful calls: which keypoints have an id (tracked_iff), which share one (same_id_iff), independence of the order (order_irrelevant), exactly when the next call succeeds (next_call_iff) and that tracking from frame to frame always does (frame_to_frame_succeeds). Refuted: two tracks that turn out to belong together are not joined, the call aborts (joining_tracks_refuted), so whether a history succeeds depends on the order of the calls (call_order_refuted)."
  },
  {
   "property": "C147",
   "status": "partial",
   "theorems": [
    "Verif.OccupancyGrid.Mask.mask_pixels",
    "Verif.OccupancyGrid.Mask.mask_rejects",
    "Verif.OccupancyGrid.Mask.covers_iff",
    "Verif.OccupancyGrid.Mask.mask_meaning_partial",
    "Verif.OccupancyGrid.Mask.unmasked_point_added_partial",
    "Verif.OccupancyGrid.Mask.fractional_cells_refuted",
    "Verif.OccupancyGrid.Mask.radius_cut_refuted"
   ],
   "note": "The pixels are exactly those painted (mask_pixels, mask_rejects). With cells of a whole number of pixels the meaning is as stated, with the square around the radius as outer bound (mask_meaning_partial, unmasked_point_added_partial). Refuted otherwise: with cells of 2.5 pixels a pixel in a full cell is not masked (fractional_cells_refuted), and the radius is cut to whole pixels (radius_cut_refuted)."
  },
  {
   "property": "C148",
   "status": "partial",
   "theorems": [
    "Verif.DescriptorRef.equal_defined",
    "Verif.DescriptorRef.equal_iff_bytes",
    "Verif.DescriptorRef.equal_true_iff",
    "Verif.DescriptorRef.equal_refl",
    "Verif.DescriptorRef.equal_symm",
    "Verif.DescriptorRef.equal_trans",
    "Verif.DescriptorRef.equal_after_assign",
    "Verif.DescriptorRef.distance_metric_partial",
    "Verif.DescriptorRef.equal_iff_distance_partial",
    "Verif.DescriptorRef.trailing_bytes_refuted",
    "Verif.DescriptorRef.empty_references_refuted"
   ],
   "note": "Proved: always defined (equal_defined), equality of bytes (equal_iff_bytes), equivalence relation (equal_refl, equal_symm, equal_trans), equal after assignment (equal_after_assign), and for aligned descriptors of 1 to 31 words of 16 bytes the metric and its relation to equality (distance_metric_partial, equal_iff_distance_partial). Refuted: bytes after the last full word do not count for the distance but do for the comparison (trailing_bytes_refuted); references without any bytes differ from each other (empty_references_refuted)."
  },
  {
   "property": "C149",
   "status": "partial",
   "theorems": [
    "Verif.Triangulation.track_exact_partial",
    "Verif.Triangulation.track_checked",
    "Verif.Triangulation.pinhole_null_inverts",
    "Verif.Triangulation.pinhole_fisheye_inverts",
    "Verif.Triangulation.unified_null_inverts",
    "Verif.Triangulation.stereo_refuted",
    "Verif.Triangulation.sideways_refuted"
   ],
   "note": "Exact reals; the decomposition is exact. Proved for tracks of one camera and landmarks outside the plane of the camera (track_exact_partial), for pinhole cameras without distortion and with fisheye distortion and for cameras with a mirror (pinhole_null_inverts, pinhole_fisheye_inverts, unified_null_inverts); which calls end the program (track_checked). Refuted: for rigs of several parallel cameras a landmark seen at one time is put into the center of the first camera, reported as success (stereo_refuted); a landmark at a right angle to the axis gives infinities (sideways_refuted)."
  },
  {
   "property": "C15",
   "status": "partial",
   "theorems": [
    "Verif.Channels.step_refines",
    "Verif.Channels.run_refines",
    "Verif.Channels.other_channels_unchanged",
    "Verif.Channels.clone_equal",
    "Verif.Channels.equal_groups_same_contents",
    "Verif.Channels.same_contents_equal",
    "Verif.Channels.clone_shares_pixels_refuted",
    "Verif.Channels.assign_shares_refuted",
    "Verif.Channels.compare_sizes_refuted"
   ],
   "note": "A channel group behaves as a typed map (refinement for all operation sequences, type errors abort); clone compares equal. Independence of a clone fails for image channels (pixels shared, clone_shares_pixels_refuted) and assignment shares channels (assign_shares_refuted); comparing matrices of different sizes is undefined (compare_sizes_refuted)."
  },
  {
   "property": "C150",
   "status": "partial",
   "theorems": [
    "Verif.GyroMatcher.true_matches_partial",
    "Verif.GyroMatcher.last_row_lost_refuted"
   ],
   "note": "Exact rationals for coordinates; keypoint indices are distinct. Proved for counterparts within the window, less a pixel, and outside the last row (true_matches_partial). Refuted: a counterpart in the last row of the image is never matched (last_row_lost_refuted)."
  },
  {
   "property": "C151",
   "status": "partial",
   "theorems": [
    "Verif.TrackManager.Follow.ids_are_landmarks",
    "Verif.TrackManager.Follow.channel_needed_refuted"
   ],
   "note": "Holds when all frames come with track ids of -1, as insertCvKeypointsAndDescriptorsIntoEmptyVisualFrame leaves them. Refuted without: the tracker ends the process if one of the two frames has no channel of track ids, although the track manager creates it (channel_needed_refuted); an earlier version of this model left that check out. Composition of the models of C150 and C146; predictions are inputs. Of the checks on the frames handed to track (feature-tracker-gyro.cc:80-109: channels, cameras, order in time) only those for track ids are modelled. Optical flow switched off."
  },
  {
   "property": "C152",
   "status": "proved",
   "theorems": [
    "Verif.GeometricVision.turned_exact",
    "Verif.GeometricVision.moved_exact",
    "Verif.GeometricVision.moved_bound",
    "Verif.GeometricVision.moved_away"
   ],
   "note": "Exact reals; frames with keypoints. \"Seen\" after a turn means deeper than 1e-10 of the former depth. With movement a prediction may succeed although the point is not seen any more (moved_away)."
  },
  {
   "property": "C153",
   "status": "partial",
   "theorems": [
    "Verif.Descriptor.pairwise_values",
    "Verif.Descriptor.places_differ",
    "Verif.Descriptor.close_pairs",
    "Verif.Descriptor.at_most_fifteen",
    "Verif.Descriptor.pairwise_distance_refuted",
    "Verif.Descriptor.pairwise_overflow_refuted"
   ],
   "note": "The order and places are right, but the scalars of the result are bytes: each value is the whole part of the root of the squared distance modulo 256, so never more than 15 and right only for descriptors closer than 16 (pairwise_distance_refuted: descriptors 16 apart are said to be 0 apart). More than 46341 descriptors overflow an int (pairwise_overflow_refuted). Eigen is taken to compute norm() of bytes in bytes, with std::sqrt converted back."
  },
  {
   "property": "C154",
   "status": "partial",
   "theorems": [
    "Verif.Kaze.Save.evolutionName_inj",
    "Verif.Kaze.Save.detectorName_inj",
    "Verif.Kaze.Save.names_differ",
    "Verif.Kaze.Save.pad2_value",
    "Verif.Kaze.Save.grey_near",
    "Verif.Kaze.Save.grey_middle",
    "Verif.Kaze.Save.grey_mono",
    "Verif.Kaze.Save.rescale_again",
    "Verif.Kaze.Save.scale_space_pictures",
    "Verif.Kaze.Save.detector_pictures",
    "Verif.Kaze.Save.scale_space_elsewhere",
    "Verif.Kaze.Save.detector_elsewhere",
    "Verif.Kaze.Save.saving_leaves",
    "Verif.Kaze.Save.saving_commutes",
    "Verif.Kaze.Save.scale_space_again",
    "Verif.Kaze.Save.evolutionName_seven",
    "Verif.Kaze.Save.detectorName_twelve",
    "Verif.Kaze.Save.scale_space_again_refuted",
    "Verif.Kaze.Save.flat_level_refuted",
    "Verif.Kaze.Save.saving_changes_refuted"
   ],
   "note": "Holds for levels with two values of which one is at most 1000. Refuted: levels above 1000 are written differently the second time (scale_space_again_refuted), a flat level becomes no numbers (flat_level_refuted), and writing scales the responses in place, so that a detection after it sees other responses (saving_changes_refuted). Exact numbers; the loss in JPEG and missing folders are not modelled."
  },
  {
   "property": "C155",
   "status": "partial",
   "theorems": [
    "Verif.GyroTracker.Loop.tracking_goes_on",
    "Verif.GyroTracker.Loop.channel_needed_refuted"
   ],
   "note": "Holds when all frames come with track ids of -1, as insertCvKeypointsAndDescriptorsIntoEmptyVisualFrame leaves them. Refuted without: the tracker ends the process if one of the two frames has no channel of track ids, although the track manager creates it (channel_needed_refuted). Keypoints of one descriptor type; candidate ratio above 0 and up to 1. Of the checks on the frames handed to track (feature-tracker-gyro.cc:80-109: channels, cameras, order in time) only those for track ids are modelled; nor are the check of the type of the extracted descriptors and those of the added keypoints (tracking-helpers.cc:71-82), so that no check fails is meant of the others."
  },
  {
   "property": "C16",
   "status": "proved",
   "theorems": [
    "Verif.OccupancyGrid.bookkeeping",
    "Verif.OccupancyGrid.cell_exists",
    "Verif.OccupancyGrid.cell_rejects",
    "Verif.OccupancyGrid.add_exact",
    "Verif.OccupancyGrid.reset_empty",
    "Verif.OccupancyGrid.setWeight_exact",
    "Verif.OccupancyGrid.create_covers",
    "Verif.OccupancyGrid.create_zero_cell_refuted"
   ],
   "note": "Exact rational coordinates instead of floating point. Constructing a grid with a zero cell size passes the (>= 0) check and divides by zero: create_zero_cell_refuted; the claims are about grids that were constructed."
  },
  {
   "property": "C17",
   "status": "proved",
   "theorems": [
    "Verif.OccupancyGrid.bounded_cells_keep_heaviest"
   ],
   "note": ""
  },
  {
   "property": "C18",
   "status": "proved",
   "theorems": [
    "Verif.OccupancyGrid.min_distance_kept",
    "Verif.OccupancyGrid.min_distance_always",
    "Verif.OccupancyGrid.min_distance_exact",
    "Verif.OccupancyGrid.min_distance_total"
   ],
   "note": ""
  },
  {
   "property": "C19",
   "status": "partial",
   "theorems": [
    "Verif.OccupancyGrid.thin_reaches_size_partial",
    "Verif.OccupancyGrid.thin_aborts_refuted"
   ],
   "note": "Proved when at most n cells are occupied (size, fullest cell only, termination); the unconditional claim is false: with more than n occupied cells the call always aborts (thin_aborts_refuted)."
  },
  {
   "property": "C20",
   "status": "proved",
   "theorems": [
    "Verif.OccupancyGrid.thin_cell_exact",
    "Verif.OccupancyGrid.thin_cells_exact"
   ],
   "note": ""
  },
  {
   "property": "C21",
   "status": "partial",
   "theorems": [
    "Verif.StlHelpers.erase_vector_exact",
    "Verif.StlHelpers.erase_vector_rejects",
    "Verif.StlHelpers.erase_vector_repeated_refuted",
    "Verif.StlHelpers.erase_eigen_exact",
    "Verif.StlHelpers.erase_eigen_only_exact",
    "Verif.StlHelpers.erase_eigen_nothing_refuted",
    "Verif.StlHelpers.erase_eigen_unordered_refuted",
    "Verif.StlHelpers.erase_container_vector_exact"
   ],
   "note": "Exact for distinct in-range indices; out-of-range indices abort. Repeated positions are undefined behaviour (erase_vector_repeated_refuted), the matrix version is undefined for an empty index list and for unordered lists (erase_eigen_*_refuted)."
  },
  {
   "property": "C22",
   "status": "partial",
   "theorems": [
    "Verif.StlHelpers.keep_strongest",
    "Verif.StlHelpers.kept_sorted",
    "Verif.StlHelpers.kept_sorted_refuted",
    "Verif.StlHelpers.median_exact",
    "Verif.StlHelpers.median_empty",
    "Verif.StlHelpers.orderStat_unique",
    "Verif.StlHelpers.mean_exact",
    "Verif.StlHelpers.draw_subset",
    "Verif.StlHelpers.draw_all",
    "Verif.StlHelpers.draw_terminates",
    "Verif.StlHelpers.countNested_exact"
   ],
   "note": "All parts proved except: a container that already has at most n elements is left unsorted (kept_sorted_refuted); sortedness is proved for longer ones."
  },
  {
   "property": "C23",
   "status": "proved",
   "theorems": [
    "Verif.HashId.hex_round_trip",
    "Verif.HashId.hexString_format",
    "Verif.HashId.hexString_injective",
    "Verif.HashId.shortHex_spec",
    "Verif.HashId.uint64_round_trip"
   ],
   "note": ""
  },
  {
   "property": "C24",
   "status": "partial",
   "theorems": [
    "Verif.HashId.hex_strings_accepted",
    "Verif.HashId.wrong_length_refused",
    "Verif.HashId.accepted_exactly_partial",
    "Verif.HashId.accepted_bytes",
    "Verif.HashId.accepts_non_hex_refuted",
    "Verif.HashId.throws_refuted"
   ],
   "note": "Hexadecimal strings are accepted and strings of another length refused unchanged. False otherwise: white space, signs and garbage after a digit are accepted (accepts_non_hex_refuted) and other strings throw after changing the id (throws_refuted); accepted_exactly_partial says exactly which strings are accepted."
  },
  {
   "property": "C25",
   "status": "proved",
   "theorems": [
    "Verif.HashId.eq_iff",
    "Verif.HashId.lt_strict_total",
    "Verif.HashId.invalid_iff",
    "Verif.HashId.hash_consistent",
    "Verif.HashId.hashPair_symmetric",
    "Verif.HashId.hash_is_fnv1a",
    "Verif.HashId.isSpace_iff"
   ],
   "note": ""
  },
  {
   "property": "C26",
   "status": "partial",
   "theorems": [
    "Verif.HashId.generated_distinct",
    "Verif.HashId.fromInt_injective",
    "Verif.HashId.fromInt_valid_partial",
    "Verif.HashId.fromInt_zero_refuted"
   ],
   "note": "Random ids: proved for up to 2^64-1 calls. Ids from integers are distinct and valid except for 0, whose id is invalid (fromInt_zero_refuted)."
  },
  {
   "property": "C27",
   "status": "partial",
   "theorems": [
    "Verif.Time.whole_units_partial",
    "Verif.Time.whole_units_refuted",
    "Verif.Time.validTime_iff",
    "Verif.Time.timeString_injective",
    "Verif.Time.timeString_format_partial",
    "Verif.Time.timeString_format_refuted"
   ],
   "note": "Exact for whole units up to a bound (seconds: year 2116; milliseconds: year 1988), under every rounding to nearest; beyond it is false (whole_units_refuted: a 2023 timestamp in milliseconds). Printed form is injective for all timestamps; its format is as claimed except for times in (-10^9, -10^8] (timeString_format_refuted)."
  },
  {
   "property": "C28",
   "status": "partial",
   "theorems": [
    "Verif.NPipeline.grouping",
    "Verif.NPipeline.grouped_with_nearest",
    "Verif.NPipeline.grouped_new",
    "Verif.NPipeline.frames_within_tolerance",
    "Verif.NPipeline.work_never_fails",
    "Verif.NPipeline.camera_index_check_refuted",
    "Verif.NPipeline.Int64.within_292_years",
    "Verif.NPipeline.Int64.keys_are_times",
    "Verif.NPipeline.Int64.invalid_time_always",
    "Verif.NPipeline.Int64.invalid_time_refuted"
   ],
   "note": "Proved for cameras of the rig, a non-negative tolerance and images from within 292 years (within_292_years). Otherwise the 64-bit time differences overflow, which an image without a valid time does whenever an n-frame is in progress: invalid_time_refuted, invalid_time_always. The range check lets one camera index too many through, which is undefined behaviour: camera_index_check_refuted."
  },
  {
   "property": "C29",
   "status": "proved",
   "theorems": [
    "Verif.NPipeline.delivered_complete",
    "Verif.NPipeline.delivered_once",
    "Verif.NPipeline.delivered_not_kept",
    "Verif.NPipeline.getNext_oldest",
    "Verif.NPipeline.getLatest_newest"
   ],
   "note": ""
  },
  {
   "property": "C30",
   "status": "partial",
   "theorems": [
    "Verif.NPipeline.cleanup_exact",
    "Verif.NPipeline.cleanup_incomplete_partial",
    "Verif.NPipeline.cleanup_isolated_partial",
    "Verif.NPipeline.cleanup_none_partial",
    "Verif.NPipeline.completed_available_partial",
    "Verif.NPipeline.complete_discarded_refuted",
    "Verif.NPipeline.equal_time_lost_refuted"
   ],
   "note": "False: the clean-up deletes complete n-frames between incomplete ones (complete_discarded_refuted), and an n-frame completed with the time of a waiting one is lost (equal_time_lost_refuted). Proved: exactly what the clean-up deletes, only incomplete ones if these come first, and availability otherwise."
  },
  {
   "property": "C31",
   "status": "partial",
   "theorems": [
    "Verif.NPipeline.Shutdown.shutdown_wakes_partial",
    "Verif.NPipeline.Shutdown.calls_end_partial",
    "Verif.NPipeline.Shutdown.no_deadlock_partial",
    "Verif.NPipeline.Shutdown.lost_wakeup_refuted"
   ],
   "note": "False: shutdown sets the flag without the mutex, so one caller between its test and its wait sleeps for ever (lost_wakeup_refuted). Proved: at most that one caller can stay asleep; every other call ends."
  },
  {
   "property": "C32",
   "status": "partial",
   "theorems": [
    "Verif.VisualFrame.discard_effect",
    "Verif.VisualFrame.discard_aligned_partial",
    "Verif.VisualFrame.discard_misaligns_refuted",
    "Verif.VisualFrame.discard_aborts_refuted"
   ],
   "note": "Exact effect and alignment for frames without 3D positions and time offsets and with at most one descriptor block. Otherwise false: 3D positions and time offsets are left misaligned (discard_misaligns_refuted) and several blocks abort (discard_aborts_refuted)."
  },
  {
   "property": "C33",
   "status": "proved",
   "theorems": [
    "Verif.VisualFrame.blocks_tile",
    "Verif.VisualFrame.no_descriptors",
    "Verif.VisualFrame.index_in_block",
    "Verif.VisualFrame.index_unique",
    "Verif.VisualFrame.index_out_of_range",
    "Verif.VisualFrame.getDescriptor_flat",
    "Verif.VisualFrame.type_of_index",
    "Verif.VisualFrame.chanOfType_segment",
    "Verif.VisualFrame.types_match_kept",
    "Verif.VisualFrame.types_match_empty",
    "Verif.VisualFrame.extend_appends",
    "Verif.VisualFrame.duplicate_type_hidden_refuted",
    "Verif.VisualFrame.deserialize_without_types_refuted",
    "Verif.VisualFrame.setDescriptorTypes_iff",
    "Verif.VisualFrame.setDescriptorTypes_else",
    "Verif.VisualFrame.deserialize_then_types",
    "Verif.VisualFrame.descriptor_calls_defined",
    "Verif.VisualFrame.startAndSize_ub",
    "Verif.VisualFrame.hasDescriptorType_spec"
   ],
   "note": "Accessors by type see only the first block of a type (duplicate_type_hidden_refuted); deserialised descriptors have no types (deserialize_without_types_refuted): both outside the claim."
  },
  {
   "property": "C34",
   "status": "proved",
   "theorems": [
    "Verif.VisualFrame.extend_history",
    "Verif.VisualFrame.extend_one"
   ],
   "note": ""
  },
  {
   "property": "C35",
   "status": "partial",
   "theorems": [
    "Verif.VisualFrame.Copy.fstep_refines",
    "Verif.VisualFrame.Copy.history_other",
    "Verif.VisualFrame.Copy.copy_independent",
    "Verif.VisualFrame.Copy.assign_independent",
    "Verif.VisualFrame.Copy.same_value_equal",
    "Verif.VisualFrame.Copy.copy_equal",
    "Verif.VisualFrame.Copy.copyN_exact",
    "Verif.VisualFrame.Copy.copyN_independent",
    "Verif.VisualFrame.Copy.copyN_equal_partial",
    "Verif.VisualFrame.Copy.copy_shares_pixels_refuted",
    "Verif.VisualFrame.Copy.equality_ignores_id_refuted",
    "Verif.VisualFrame.Copy.nframe_compare_refuted",
    "Verif.VisualFrame.Copy.self_assign_refuted",
    "Verif.VisualFrame.Copy.nframeEq_iff",
    "Verif.VisualFrame.Copy.frameEq_split",
    "Verif.VisualFrame.Copy.frameEqNoCam_iff",
    "Verif.VisualFrame.Copy.nframeEqNoRig_iff",
    "Verif.VisualFrame.Copy.nframeEq_noRig",
    "Verif.VisualFrame.Copy.setCam_unseen",
    "Verif.VisualFrame.Copy.setRig_unseen",
    "Verif.VisualFrame.Copy.nframeEqNoRig_unset"
   ],
   "note": "Frames: proved (refinement to values, independence, equality), except that the pixels of images are shared (copy_shares_pixels_refuted). N-frames: value and independence proved; comparison only if all frames are set, it aborts otherwise (nframe_compare_refuted); self-assignment loses the frames (self_assign_refuted)."
  },
  {
   "property": "C36",
   "status": "partial",
   "theorems": [
    "Verif.VisualFrame.Copy.min_timestamp_partial",
    "Verif.VisualFrame.Copy.max_timestamp",
    "Verif.VisualFrame.Copy.min_unset_refuted",
    "Verif.Limits.invalid_time"
   ],
   "note": "Maximum: proved. Minimum: proved if a frame is set; with none set it returns the largest 64-bit number instead of aborting (min_unset_refuted)."
  },
  {
   "property": "C37",
   "status": "partial",
   "theorems": [
    "Verif.TrackManager.apply_effect_partial",
    "Verif.TrackManager.apply_succeeds_iff",
    "Verif.TrackManager.id_overflow_refuted"
   ],
   "note": "For all frames, matches and previous ids, including a frame matched with itself, while fewer than 2^31 ids have been handed out; afterwards the ids written are negative (id_overflow_refuted). apply_succeeds_iff says exactly when the call succeeds."
  },
  {
   "property": "C38",
   "status": "partial",
   "theorems": [
    "Verif.TrackManager.ids_unique_partial",
    "Verif.TrackManager.unique_kept_iff",
    "Verif.TrackManager.new_id_never_used_partial",
    "Verif.TrackManager.crossing_duplicates_refuted",
    "Verif.TrackManager.self_match_refuted",
    "Verif.TrackManager.reset_reuses_refuted"
   ],
   "note": "New ids were never used before: proved up to 2^31 ids and without resetIdProvider. Distinct ids within a frame: proved when every call goes to a frame without ids; false for arbitrary sequences (crossing_duplicates_refuted, self_match_refuted). unique_kept_iff is the exact condition for one call."
  },
  {
   "property": "C39",
   "status": "partial",
   "theorems": [
    "Verif.GyroMatcher.matching_one_to_one_partial",
    "Verif.GyroMatcher.complement_aborts_refuted",
    "Verif.GyroMatcher.stale_size_aborts_refuted",
    "Verif.GyroMatcher.negative_row_refuted"
   ],
   "note": "For all inputs in which keypoints are in the image and no two descriptors differ in every bit. Otherwise false: such descriptors abort (complement_aborts_refuted), as do descriptors of another size than in the first call (stale_size_aborts_refuted); a keypoint above the image is undefined behaviour (negative_row_refuted)."
  },
  {
   "property": "C40",
   "status": "partial",
   "theorems": [
    "Verif.GyroMatcher.window_exact_partial",
    "Verif.GyroMatcher.window_sound",
    "Verif.GyroMatcher.window_complete_partial",
    "Verif.GyroMatcher.last_row_refuted",
    "Verif.GyroMatcher.bottom_row_refuted"
   ],
   "note": "Exactly the rows from the top row of the window to the one before its bottom row are visited. So the last row of the image is never visited (last_row_refuted), nor a keypoint at the bottom edge (bottom_row_refuted)."
  },
  {
   "property": "C41",
   "status": "partial",
   "theorems": [
    "Verif.GyroMatcher.ratio_order_independent_partial",
    "Verif.GyroMatcher.ratio_order_refuted",
    "Verif.GyroMatcher.verdict_exact",
    "Verif.GyroMatcher.verdict_two",
    "Verif.GyroMatcher.search_verdict",
    "Verif.GyroMatcher.relaxed_threshold",
    "Verif.GyroMatcher.float_ratio",
    "Verif.GyroMatcher.score_compare",
    "Verif.GyroMatcher.search_finds"
   ],
   "note": "False if exactly one candidate qualifies (ratio_order_refuted); proved otherwise. verdict_exact is the exact behaviour; relaxed_threshold, float_ratio and score_compare justify the exact arithmetic of the model; search_finds says which keypoint the search finds."
  },
  {
   "property": "C42",
   "status": "proved",
   "theorems": [
    "Verif.GyroTracker.lk_candidates",
    "Verif.GyroTracker.every_call",
    "Verif.GyroTracker.first_call",
    "Verif.GyroTracker.unmatched_exact",
    "Verif.GyroTracker.unmatched_aborts",
    "Verif.GyroTracker.erase_exact",
    "Verif.GyroTracker.ratio_zero",
    "Verif.GyroTracker.track_manager_accepts",
    "Verif.GyroTracker.matcher_matches_valid",
    "Verif.GyroTracker.lk_points_in_roi_partial",
    "Verif.GyroTracker.roi_wraps_refuted"
   ],
   "note": "For all sequences of calls on successive frames (frame k is the previous frame k+1 with its keypoints untouched), for all match lists of the matcher (matcher_matches_valid discharges the assumption by C39), optical flow results, sorts and extractors that return a subset. The region of interest test is only right if the border is not larger than the image (roi_wraps_refuted). Of the checks on the frames handed to track (feature-tracker-gyro.cc:80-109: channels, cameras, order in time) none is modelled."
  },
  {
   "property": "C43",
   "status": "partial",
   "theorems": [
    "Verif.Accumulator.adds_succeed",
    "Verif.Accumulator.counts_exact",
    "Verif.Accumulator.means_exact_partial",
    "Verif.Accumulator.window_statistics_partial",
    "Verif.Accumulator.exact_id",
    "Verif.Accumulator.exact_of_integers",
    "Verif.Accumulator.too_many_refuted",
    "Verif.Accumulator.rolling_mean_refuted",
    "Verif.Accumulator.rolling_mean_empty",
    "Verif.Limits.accumulator_max"
   ],
   "note": "For all sample sequences of at most 2^31-1 samples and all windows: counts, min, max, latest sample and the sample window are exact in floating point as well; sums, means and the variance are exact in exact arithmetic, and in floating point whenever the partial sums are representable (exact_of_integers). In floating point the rolling mean can lose all samples of the window (rolling_mean_refuted). One sample more overflows an int (too_many_refuted)."
  },
  {
   "property": "C44",
   "status": "partial",
   "theorems": [
    "Verif.Statistics.handles_alias_iff",
    "Verif.Statistics.samples_attributed",
    "Verif.Statistics.deltas_attributed",
    "Verif.Statistics.other_unchanged",
    "Verif.Statistics.query_by_tag",
    "Verif.Statistics.tag_of_handle",
    "Verif.Statistics.reset_detaches_refuted",
    "Verif.Statistics.hasHandle_iff"
   ],
   "note": "For all sequences of lookups, samples and resets. After a reset an old handle no longer denotes its tag (reset_detaches_refuted); between resets, and for the handle itself even across resets, everything holds. Delta times assume that no clock reading is the epoch itself."
  },
  {
   "property": "C45",
   "status": "partial",
   "theorems": [
    "Verif.Timer.samples_are_intervals",
    "Verif.Timer.intervals_once",
    "Verif.Timer.handle_kept",
    "Verif.Timer.created_handle",
    "Verif.Timer.stop_result",
    "Verif.Timer.copy_records_twice_refuted"
   ],
   "note": "For all sequences of timer operations without copies of timers; copying a running timer records its interval twice (copy_records_twice_refuted)."
  },
  {
   "property": "C46",
   "status": "partial",
   "theorems": [
    "Verif.Hamming.ssse3_exact",
    "Verif.Hamming.hamming_distance_partial",
    "Verif.Hamming.hamming_right_iff",
    "Verif.Hamming.sums_small",
    "Verif.Hamming.neon_distance_partial",
    "Verif.Hamming.long_descriptor_refuted",
    "Verif.Hamming.trailing_bytes_refuted",
    "Verif.Hamming.short_descriptor_refuted",
    "Verif.Hamming.unaligned_refuted"
   ],
   "note": "Exact for every pair of aligned descriptors whose length is a multiple of 16 between 16 and 496 bytes (496 bytes is the exact limit, hamming_right_iff). Longer descriptors overflow byte lanes (long_descriptor_refuted), trailing bytes are ignored (trailing_bytes_refuted), shorter ones are read out of bounds (short_descriptor_refuted) and unaligned ones are undefined (unaligned_refuted). The NEON variant is exact up to 2^32 bits."
  },
  {
   "property": "C47",
   "status": "partial",
   "theorems": [
    "Verif.Descriptor.setBit_exact",
    "Verif.Descriptor.flipBit_exact",
    "Verif.Descriptor.getBit_exact",
    "Verif.Descriptor.bits_out_of_range",
    "Verif.Descriptor.flips_exactly_n",
    "Verif.Descriptor.reported_after_flips_partial",
    "Verif.Descriptor.flip_all_aborts_refuted",
    "Verif.Descriptor.mean_is_majority",
    "Verif.Descriptor.descriptorMean_is_majority",
    "Verif.Descriptor.mean_minimises"
   ],
   "note": "Bit operations, the number of bits flipped and the majority mean for all descriptors; the reported number of flipped bits inherits the limits of C46; flipping all bits aborts (flip_all_aborts_refuted)."
  },
  {
   "property": "C48",
   "status": "partial",
   "theorems": [
    "Verif.NCamera.ids_agree_partial",
    "Verif.NCamera.step_agree",
    "Verif.NCamera.index_of_id",
    "Verif.NCamera.absent_iff",
    "Verif.NCamera.init_known",
    "Verif.NCamera.clone_spec",
    "Verif.NCamera.cloneWithNewIds_spec",
    "Verif.NCamera.setT_spec",
    "Verif.NCamera.construct_spec",
    "Verif.NCamera.refusals",
    "Verif.NCamera.getTById_unknown",
    "Verif.NCamera.without_distortion_spec",
    "Verif.NCamera.without_distortion_stale_refuted",
    "Verif.NCamera.same_ids_refuted",
    "Verif.NCamera.changed_id_refuted"
   ],
   "note": "For all histories in which the cameras given to a rig have different ids, ids of cameras in use are not changed and no rig is cloned without distortion. The latter leaves a map without any of the new ids (without_distortion_stale_refuted, for every rig); equal ids and later changes of ids are not noticed (same_ids_refuted, changed_id_refuted)."
  },
  {
   "property": "C49",
   "status": "proved",
   "theorems": [
    "Verif.Camera.pinhole_keypoint",
    "Verif.Camera.pinhole_project_backProject",
    "Verif.Camera.pinhole_backProject_project",
    "Verif.Camera.pinhole_status",
    "Verif.Camera.pinhole_null_inverse",
    "Verif.Camera.pinhole_fisheye_inverse"
   ],
   "note": "The distortion model enters through the hypothesis that it inverts at the point used; discharged for no distortion (pinhole_null_inverse) and the fisheye model where C54 shows it (pinhole_fisheye_inverse). The iterative models are inverse only up to convergence (C66)."
  },
  {
   "property": "C50",
   "status": "proved",
   "theorems": [
    "Verif.Camera.pinhole_jacobian",
    "Verif.Camera.pinhole_intrinsicsJacobian",
    "Verif.Camera.pinhole_distortionJacobian",
    "Verif.Camera.pinhole_radtan_jacobian",
    "Verif.Camera.pinhole_null_jacobian"
   ],
   "note": "The Jacobian of the distortion model enters as a hypothesis, which C53 proves where it holds (pinhole_radtan_jacobian, pinhole_null_jacobian). The Jacobian for the distortion coefficients is covered as well."
  },
  {
   "property": "C51",
   "status": "partial",
   "theorems": [
    "Verif.Camera.pinhole_project4_keypoint",
    "Verif.Camera.unified_project4_keypoint",
    "Verif.Camera.project4_scale",
    "Verif.Camera.pinhole_project4_status_partial",
    "Verif.Camera.project4_status_refuted",
    "Verif.Camera.pinhole_project4_jacobian_partial",
    "Verif.Camera.unified_project4_jacobian_partial",
    "Verif.Camera.pinhole_project4_negative",
    "Verif.Camera.project4_jacobian_refuted",
    "Verif.Camera.backProject4_project4"
   ],
   "note": "Keypoints: for all non-zero last coordinates and scales. The status depends on the scale near the minimum depth (project4_status_refuted); for a negative last coordinate the Jacobian returned is minus the derivative (pinhole_project4_negative, project4_jacobian_refuted)."
  },
  {
   "property": "C52",
   "status": "partial",
   "theorems": [
    "Verif.Camera.unified_keypoint",
    "Verif.Camera.unified_inverse_partial",
    "Verif.Camera.unified_backProject_project",
    "Verif.Camera.unified_boundary_refuted"
   ],
   "note": "For all keypoints except those exactly on the boundary circle of xi > 1, which back-projection reports as valid although the ray does not project (unified_boundary_refuted). The other direction is unified_backProject_project."
  },
  {
   "property": "C53",
   "status": "partial",
   "theorems": [
    "Verif.Distortion.radtan_jacobian",
    "Verif.Distortion.radtan_parameterJacobian",
    "Verif.Distortion.fisheye_jacobian_partial",
    "Verif.Distortion.fisheye_parameterJacobian_partial",
    "Verif.Distortion.equidistant_jacobian_partial",
    "Verif.Distortion.equidistant_parameterJacobian_partial",
    "Verif.Distortion.fisheye_parameterJacobian_refuted",
    "Verif.Distortion.fisheye_boundary_refuted",
    "Verif.Distortion.equidistant_center_refuted",
    "Verif.Distortion.equidistant_small_refuted"
   ],
   "note": "radial-tangential: everywhere. Fisheye: point Jacobian off the circle r^2=1e-5 (there the map jumps, fisheye_boundary_refuted), parameter Jacobian for r^2>=1e-5 (nearer to the centre it is never right, fisheye_parameterJacobian_refuted). Equidistant: for r>1e-8 (nearer: equidistant_center_refuted, equidistant_small_refuted)."
  },
  {
   "property": "C54",
   "status": "partial",
   "theorems": [
    "Verif.Distortion.fisheye_inverse_iff",
    "Verif.Distortion.fisheye_inverse_partial",
    "Verif.Distortion.fisheye_zero",
    "Verif.Distortion.fisheye_inverse_right",
    "Verif.Distortion.fisheye_inverse_refuted"
   ],
   "note": "Exact characterisation for coefficients in [0.5, 1.5] (fisheye_inverse_iff): the centre, and points with r^2>=1e-5 within 89 degrees, come back; no other point does (fisheye_inverse_refuted is an instance). Coefficient zero: fisheye_zero. fisheye_inverse_right is the other direction."
  },
  {
   "property": "C55",
   "status": "partial",
   "theorems": [
    "Verif.Triangulation.solveSystem_partial",
    "Verif.Triangulation.solveSystem_wraps",
    "Verif.Triangulation.nViews_exact_partial",
    "Verif.Triangulation.nViewsMultiCam_exact_partial",
    "Verif.Triangulation.nViews_observable",
    "Verif.Triangulation.nViews_tooFew",
    "Verif.Triangulation.nViews_success_refuted",
    "Verif.Triangulation.bearing_exact",
    "Verif.Triangulation.bearing_observable"
   ],
   "note": "Normalised measurements, one or several cameras: proved if the reported numerical rank is not below the number of views. Otherwise rank - n wraps and the status is \"successful\" although nothing is determined (nViews_success_refuted, with the threshold of the code). Bearing vectors: proved without that restriction. \"Unobservable\" iff all rays are parallel if the reported rank is the true one. Rank and solution of the QR decomposition are assumptions (Valid)."
  },
  {
   "property": "C56",
   "status": "partial",
   "theorems": [
    "Verif.Triangulation.track_partial",
    "Verif.Triangulation.track_refuted",
    "Verif.Triangulation.fast_columns",
    "Verif.Triangulation.fast_refuted"
   ],
   "note": "triangulateFeatureTrack: for tracks of one camera (with several, the mounting of the first is used for all: track_refuted). fastTriangulateFeatureTrack: false for every track, as all columns but the first are uninitialised memory (fast_columns, fast_refuted)."
  },
  {
   "property": "C57",
   "status": "partial",
   "theorems": [
    "Verif.Target.tag_position",
    "Verif.Target.tag_bijective",
    "Verif.Target.corner_injective",
    "Verif.Target.newAprilGrid_ok_iff",
    "Verif.Target.gridCoordinates_iff",
    "Verif.Target.gridCoordinates_partial",
    "Verif.Target.gridCoordinates_inverse",
    "Verif.Target.gridCoordinates_refuted",
    "Verif.Target.grid_extent",
    "Verif.Target.gridPoint_spec"
   ],
   "note": "The numbering of corners is proved for all boards. pointToGridCoordinates returns (column, row) but gridCoordinatesToPoint takes (row, column): the conversions are inverse only with the pair reversed (gridCoordinates_refuted)."
  },
  {
   "property": "C58",
   "status": "partial",
   "theorems": [
    "Verif.Target.observedCornerId_iff",
    "Verif.Target.index_spec",
    "Verif.Target.getObservedCornerById_partial",
    "Verif.Target.getObservedCornerById_complete",
    "Verif.Target.getObservedCornerById_refuted",
    "Verif.Target.correspondingTargetPoints_spec",
    "Verif.Target.getObservedCorner_spec",
    "Verif.Target.getObservedCorner_refuted",
    "Verif.Target.getObservedCornerId_spec",
    "Verif.Target.getObservedCornerId_refuted",
    "Verif.Target.negative_id_aborts"
   ],
   "note": "observedCornerId and getCorrespondingTargetPoints: all ids. getObservedCornerById: ids less than the number of observed corners, and all ids for complete observations; it aborts for every other id (getObservedCornerById_refuted). The checks of getObservedCorner and getObservedCornerId compare as int: indices from 2^31 on and negative ones pass (getObservedCorner_refuted, getObservedCornerId_refuted)."
  },
  {
   "property": "C59",
   "status": "partial",
   "theorems": [
    "Verif.Calibration.intersect_partial",
    "Verif.Calibration.intersect_concentric",
    "Verif.Calibration.intersect_touching_refuted",
    "Verif.Calibration.intersect_equal_refuted",
    "Verif.Calibration.fit_exact",
    "Verif.Calibration.fit_defined_iff"
   ],
   "note": "intersectCircles: exact except when the circles nearly touch (half chord under 1e-10), where one point within 1e-10 of both is returned (intersect_touching_refuted: it need not be on either), and for equal circles, where the code divides by zero (intersect_equal_refuted). fitCircle: exact for all points of a circle that are not on one line; undefined exactly for points on one line."
  },
  {
   "property": "C60",
   "status": "partial",
   "theorems": [
    "Verif.GeometricVision.reject_partition_partial",
    "Verif.GeometricVision.rejectIndices_spec",
    "Verif.GeometricVision.reject_outputs_refuted"
   ],
   "note": "Holds if both output lists are empty on entry; otherwise the matches are appended and a check then ends the program (reject_outputs_refuted). The two RANSAC runs of OpenGV are parameters."
  },
  {
   "property": "C61",
   "status": "proved",
   "theorems": [
    "Verif.RWLock.no_new_reader_while_writer_waits",
    "Verif.RWLock.no_new_reader_while_upgrade_waits",
    "Verif.RWLock.reader_first_grants_at_once"
   ],
   "note": ""
  },
  {
   "property": "C62",
   "status": "partial",
   "theorems": [
    "Verif.VisualFrame.clear_empty_partial",
    "Verif.VisualFrame.clear_incomplete_refuted"
   ],
   "note": "For frames with at most one descriptor block and without 3D positions and time offsets; false otherwise (clear_incomplete_refuted)."
  },
  {
   "property": "C63",
   "status": "partial",
   "theorems": [
    "Verif.VisualFrame.Copy.step_consistent_partial",
    "Verif.VisualFrame.Copy.run_consistent_partial",
    "Verif.VisualFrame.Copy.camera_changed_refuted",
    "Verif.VisualFrame.Copy.shared_frame_refuted",
    "Verif.VisualFrame.Copy.frame_twice_refuted",
    "Verif.VisualFrame.Copy.self_assign_rig_refuted",
    "Verif.VisualFrame.Copy.refused",
    "Verif.VisualFrame.Copy.areAllFramesSet_iff",
    "Verif.VisualFrame.Copy.isFrameSet_spec",
    "Verif.VisualFrame.Copy.hasRawImages_spec",
    "Verif.VisualFrame.Copy.hasRawImages_unset_refuted",
    "Verif.VisualFrame.Copy.releaseRawImages_partial",
    "Verif.VisualFrame.Copy.releaseRawImages_refuted",
    "Verif.VisualFrame.Copy.isFrameSet_checked",
    "Verif.NCamera.NFrame.no_rig",
    "Verif.NCamera.NFrame.queries_agree",
    "Verif.NCamera.NFrame.past_the_end",
    "Verif.NCamera.NFrame.unknown_index_refuted"
   ],
   "note": "Proved for callers who do not change the camera of a frame held by an n-frame with a rig, set rigs only over distinct frames that are not in another n-frame with a rig, and do not self-assign (Careful); each of these is needed (camera_changed_refuted, shared_frame_refuted, frame_twice_refuted, self_assign_rig_refuted). The rig itself is taken as unchanging. hasRawImagesInAllFrames ends the program for missing frames, releaseRawImagesOfAllFrames also for frames without an image (hasRawImages_unset_refuted, releaseRawImages_refuted). The index of an unknown camera is 2^64 - 1, not -1 as documented (unknown_index_refuted)."
  },
  {
   "property": "C64",
   "status": "partial",
   "theorems": [
    "Verif.Descriptor.median_minimises_partial",
    "Verif.Descriptor.deviation_is_least_average_partial",
    "Verif.Descriptor.floatMean_is_fraction",
    "Verif.Descriptor.squaredDeviation_exact",
    "Verif.Descriptor.median_long_refuted",
    "Verif.Descriptor.deviation_long_refuted",
    "Verif.Descriptor.median_unaligned_refuted"
   ],
   "note": "Over exact arithmetic. The median and the mean absolute deviation are right for aligned matrices whose columns are a whole number of 16-byte words up to 496 bytes (C46); the float mean and the standard deviation hold for all sizes. Refuted beyond: of longer descriptors the one farthest from the others can be chosen (median_long_refuted), their deviation can be zero (deviation_long_refuted), and columns that are not a multiple of 16 bytes are undefined (median_unaligned_refuted)."
  },
  {
   "property": "C65",
   "status": "partial",
   "theorems": [
    "Verif.DescriptorRef.step_safe",
    "Verif.DescriptorRef.run_safe",
    "Verif.DescriptorRef.no_double_free_no_leak",
    "Verif.DescriptorRef.assign_is_deep",
    "Verif.DescriptorRef.copy_is_deep",
    "Verif.DescriptorRef.write_is_private",
    "Verif.DescriptorRef.assign_released_refuted",
    "Verif.DescriptorRef.copy_uninitialised_refuted"
   ],
   "note": "For all sequences of operations, except assigning a released reference to an owning one (reads a null pointer: assign_released_refuted) and writing through a released one. The copy constructor reads an uninitialised member (copy_uninitialised_refuted); shown harmless for either value of it."
  },
  {
   "property": "C66",
   "status": "partial",
   "theorems": [
    "Verif.Distortion.newtonStep_solves",
    "Verif.Distortion.newtonStep_none",
    "Verif.Distortion.newtonLoop_end",
    "Verif.Distortion.newtonLoop_fixed",
    "Verif.Distortion.radtan_undistort_zero",
    "Verif.Distortion.radtan_undistort_center",
    "Verif.Distortion.equidistant_undistort_near",
    "Verif.Distortion.equidistant_undistort_refuted"
   ],
   "note": "Convergence itself is not claimed: proved are what each step solves, how the loop ends, that exact preimages are fixed and that the undistorted case and the centre are exact. The equidistant model returns points near the centre unchanged (equidistant_undistort_refuted)."
  },
  {
   "property": "C67",
   "status": "proved",
   "theorems": [
    "Verif.Camera.unified_status",
    "Verif.Camera.unified_scale",
    "Verif.Camera.unified_jacobian",
    "Verif.Camera.unified_intrinsicsJacobian",
    "Verif.Camera.unified_distortionJacobian",
    "Verif.Camera.unified_radtan_jacobians",
    "Verif.Camera.unified_null_jacobians"
   ],
   "note": "Exact reals, all xi >= 0 and every point with a valid projection. The Jacobian of the distortion model enters as a hypothesis, which C53 proves where it holds; discharged for radial-tangential distortion (unified_radtan_jacobians) and without distortion (unified_null_jacobians)."
  },
  {
   "property": "C68",
   "status": "partial",
   "theorems": [
    "Verif.Camera.visible_iff",
    "Verif.Camera.margin_iff",
    "Verif.Camera.margin_zero",
    "Verif.Camera.masked_iff",
    "Verif.Camera.project3Vectorized_map",
    "Verif.Camera.backProject3Vectorized_map",
    "Verif.Camera.isProjectable_iff",
    "Verif.Camera.isProjectable_refuted",
    "Verif.Camera.isProjectable4_iff",
    "Verif.Camera.isProjectable4_infinity",
    "Verif.Camera.isProjectable4_refuted"
   ],
   "note": "The claim of the documentation that isProjectable3 does not test visibility is false (isProjectable_refuted). A homogeneous point with a small last coordinate may not be projectable although the point it represents is (isProjectable4_refuted)."
  },
  {
   "property": "C69",
   "status": "partial",
   "theorems": [
    "Verif.Camera.lidar_backProject",
    "Verif.Camera.lidar_project_backProject_partial",
    "Verif.Camera.lidar_project_backProject_sector",
    "Verif.Camera.lidar_backProject_project",
    "Verif.Camera.lidar_status",
    "Verif.Camera.lidar_seam_refuted",
    "Verif.Camera.lidar_wrap_refuted",
    "Verif.Camera.lidar_external_refuted"
   ],
   "note": "Exact arithmetic. Keypoints of column zero whose azimuth is -pi come back outside the image (lidar_seam_refuted); columns that wrap are right only if the image covers a full turn (lidar_wrap_refuted); external intrinsics are ignored (lidar_external_refuted)."
  },
  {
   "property": "C70",
   "status": "partial",
   "theorems": [
    "Verif.Triangulation.gn_predicted",
    "Verif.Triangulation.gn_exact",
    "Verif.Triangulation.gn_jacobian",
    "Verif.Triangulation.gn_step",
    "Verif.Triangulation.gn_fixed",
    "Verif.Triangulation.gn_status_refuted",
    "Verif.Triangulation.gn_stops_refuted",
    "Verif.Triangulation.gn_returns",
    "Verif.Triangulation.gn_falls"
   ],
   "note": "Residuals, Jacobian, normal equations and fixed points are proved for all inputs; convergence is not claimed. The status is always \"successful\" (gn_status_refuted), and a bad start stops the loop after one iteration (gn_stops_refuted)."
  },
  {
   "property": "C71",
   "status": "partial",
   "theorems": [
    "Verif.Target.detect_spec",
    "Verif.Target.detect_negative_refuted"
   ],
   "note": "For tag detectors that do not return good detections with negative ids, which the code does not remove and which can overflow its arrays (detect_negative_refuted). The sorting and the sub-pixel refinement are parameters."
  },
  {
   "property": "C72",
   "status": "partial",
   "theorems": [
    "Verif.Calibration.conicRows_exact",
    "Verif.Calibration.conic_exact_partial",
    "Verif.Calibration.conic_garbage_refuted"
   ],
   "note": "For views in which all corners were observed. Rows of other views are uninitialised memory, and success is returned all the same (conic_garbage_refuted). cv::findHomography and cv::solve are parameters."
  },
  {
   "property": "C73",
   "status": "partial",
   "theorems": [
    "Verif.GeometricVision.pose3d_inliers_partial",
    "Verif.GeometricVision.inliersOf_spec",
    "Verif.GeometricVision.pose3d_fewer",
    "Verif.GeometricVision.pose3d_transformation_refuted",
    "Verif.GeometricVision.pose3d_best_refuted",
    "Verif.GeometricVision.pose3d_few_refuted",
    "Verif.GeometricVision.pose3d_camera_refuted"
   ],
   "note": "Refuted: the transformation is never written (rotation: old value, position: uninitialised), the inliers are those of the last transformation tried, two to six pairs end the program, camera indices are ignored. What holds is pose3d_inliers_partial."
  },
  {
   "property": "C74",
   "status": "proved",
   "theorems": [
    "Verif.GeometricVision.rotate_mul",
    "Verif.GeometricVision.rotate_inverse",
    "Verif.GeometricVision.rotate_posSemidef",
    "Verif.GeometricVision.rotate_symmetric",
    "Verif.GeometricVision.rotate_variance",
    "Verif.GeometricVision.rotate_trace"
   ],
   "note": ""
  },
  {
   "property": "C75",
   "status": "partial",
   "theorems": [
    "Verif.GeometricVision.bearing_spec",
    "Verif.GeometricVision.bearing_matches_partial",
    "Verif.GeometricVision.bearing_index_refuted",
    "Verif.GeometricVision.bearing_index_far",
    "Verif.GeometricVision.bearing_failure_refuted",
    "Verif.GeometricVision.predict_spec",
    "Verif.GeometricVision.predict_identity",
    "Verif.GeometricVision.predict_compose",
    "Verif.GeometricVision.predict_inverse",
    "Verif.GeometricVision.predict_empty_refuted"
   ],
   "note": "Predictions hold for frames with keypoints; without keypoints the old columns stay (predict_empty_refuted). Bearing vectors: the index one past the end is read (bearing_index_refuted), and keypoints that cannot be back-projected are not left out (bearing_failure_refuted). Composition and inverse for the pinhole camera without distortion."
  },
  {
   "property": "C76",
   "status": "partial",
   "theorems": [
    "Verif.GeometricVision.threshold_center_partial",
    "Verif.GeometricVision.threshold_refuted",
    "Verif.GeometricVision.threshold_range",
    "Verif.GeometricVision.pnp_result",
    "Verif.GeometricVision.pnp_rejects",
    "Verif.GeometricVision.pnp_failure_refuted",
    "Verif.GeometricVision.multi_threshold",
    "Verif.GeometricVision.multi_threshold_single",
    "Verif.GeometricVision.multi_result"
   ],
   "note": "The threshold matches pixel_sigma for measurements at the principal point only (threshold_refuted away from it). Keypoints that cannot be back-projected are used (pnp_failure_refuted). RANSAC and refinement of OpenGV are parameters."
  },
  {
   "property": "C77",
   "status": "partial",
   "theorems": [
    "Verif.VisualFrame.columns_spec",
    "Verif.VisualFrame.insertEmpty_spec",
    "Verif.VisualFrame.insertEmpty_accepts",
    "Verif.VisualFrame.insertEmpty_aligned_partial",
    "Verif.VisualFrame.insertEmpty_aligned_refuted",
    "Verif.VisualFrame.insertAdditional_partial",
    "Verif.VisualFrame.insertAdditional_aligned",
    "Verif.VisualFrame.insert_insert",
    "Verif.VisualFrame.insertAdditional_blocks_refuted",
    "Verif.VisualFrame.insertAdditional_cleared_refuted",
    "Verif.VisualFrame.insertAdditional_short_refuted",
    "Verif.VisualFrame.insertAdditional_rejects"
   ],
   "note": "Empty frames: 3D positions and time offsets are neither checked nor filled (insertEmpty_aligned_refuted), else proved. Appending: for frames with all detector channels, one descriptor block and descriptors of the same size; refuted for two blocks, for shorter descriptors and for cleared frames (insertAdditional_*_refuted); frames without one of the channels are rejected."
  },
  {
   "property": "C78",
   "status": "partial",
   "theorems": [
    "Verif.Undistort.outer_spec",
    "Verif.Undistort.inner_spec",
    "Verif.Undistort.matrix_checks",
    "Verif.Undistort.matrix_interpolates",
    "Verif.Undistort.matrix_inner",
    "Verif.Undistort.matrix_outer_partial",
    "Verif.Undistort.matrix_valid",
    "Verif.Undistort.matrix_scale_refuted",
    "Verif.Undistort.rectangles_null",
    "Verif.Undistort.matrix_null",
    "Verif.Undistort.matrix_identity_refuted",
    "Verif.Limits.edges_max"
   ],
   "note": "Exact arithmetic, inner and outer rectangle as defined by the 9x9 grid of the code. alpha 1: proved for the grid points, not for the points between. The focal length is negative for scales under which no pixel is left (matrix_scale_refuted). Without distortion the focal lengths shrink by (size-1)/size (matrix_null, matrix_identity_refuted)."
  },
  {
   "property": "C79",
   "status": "partial",
   "theorems": [
    "Verif.Undistort.map_ray_partial",
    "Verif.Undistort.map_pinhole_partial",
    "Verif.Undistort.map_unified_pinhole_partial",
    "Verif.Undistort.map_identity",
    "Verif.Undistort.map_unified_refuted",
    "Verif.Undistort.map_border_refuted",
    "Verif.Undistort.pack_exact_partial",
    "Verif.Undistort.pack_error_partial",
    "Verif.Undistort.pack_wrap_refuted"
   ],
   "note": "For rays in front of the cameras. Rays of the unified camera at more than 90 degrees are flipped (map_unified_refuted). With alpha 0 the last pixel lies outside the input image (map_border_refuted). The fixed-point maps wrap for positions beyond 2^15 pixels (pack_wrap_refuted)."
  },
  {
   "property": "C80",
   "status": "partial",
   "theorems": [
    "Verif.VisualPipeline.process_spec",
    "Verif.VisualPipeline.process_size",
    "Verif.VisualPipeline.process_copy",
    "Verif.VisualPipeline.process_shared",
    "Verif.VisualPipeline.process_keypoints",
    "Verif.VisualPipeline.construct_spec",
    "Verif.VisualPipeline.construct_undistorter_refuted",
    "Verif.VisualPipeline.detect_aligned_partial",
    "Verif.VisualPipeline.detect_none",
    "Verif.VisualPipeline.detect_then_insert"
   ],
   "note": "Detector, extractor and remapping are parameters. Alignment is stated for extractors that return one row per keypoint, which is not checked. Undistorters without cameras are accepted, and processing is then undefined (construct_undistorter_refuted)."
  },
  {
   "property": "C81",
   "status": "partial",
   "theorems": [
    "Verif.VisualPipeline.brisk_owns",
    "Verif.VisualPipeline.freak_refuted"
   ],
   "note": "BRISK: proved. FREAK: refuted."
  },
  {
   "property": "C82",
   "status": "partial",
   "theorems": [
    "Verif.FeatureTrack.create_spec",
    "Verif.FeatureTrack.create_measurement",
    "Verif.FeatureTrack.add_spec",
    "Verif.FeatureTrack.pop_empty_refuted",
    "Verif.FeatureTrack.built_measurements",
    "Verif.FeatureTrack.order_spec",
    "Verif.FeatureTrack.continued_spec",
    "Verif.FeatureTrack.diagonal_partial",
    "Verif.FeatureTrack.diagonal_bounds",
    "Verif.FeatureTrack.diagonal_mono",
    "Verif.FeatureTrack.diagonal_negative_refuted",
    "Verif.FeatureTrack.diagonal_empty",
    "Verif.FeatureTrack.measurements_of",
    "Verif.FeatureTrack.track_diagonal",
    "Verif.Limits.track_max",
    "Verif.Limits.track_min"
   ],
   "note": "The bounding box is exact if some keypoint has a positive u and some keypoint a positive v, as for all keypoints in an image. Otherwise it is too large, since the maxima start at the smallest positive double (diagonal_negative_refuted); it never is too small (diagonal_bounds). Removing from an empty track is undefined behaviour (pop_empty_refuted)."
  },
  {
   "property": "C83",
   "status": "proved",
   "theorems": [
    "Verif.StlHelpers.stddev_spec",
    "Verif.StlHelpers.stddev_zero",
    "Verif.StlHelpers.stddev_shift"
   ],
   "note": "Exact arithmetic."
  },
  {
   "property": "C84",
   "status": "partial",
   "theorems": [
    "Verif.Yaml.matrix_round_trip",
    "Verif.Yaml.encode_empty_refuted",
    "Verif.Yaml.encode_aborts",
    "Verif.Yaml.decoded_shape",
    "Verif.Yaml.decode_linear",
    "Verif.Yaml.decode_wrong_length",
    "Verif.Yaml.decode_no_size",
    "Verif.Yaml.decode_wrong_type",
    "Verif.Yaml.decode_rows_partial",
    "Verif.Yaml.decode_long_rows_refuted",
    "Verif.Yaml.decode_column_rows_refuted",
    "Verif.Yaml.decode_short_row_refuted",
    "Verif.Yaml.decode_zero_refuted",
    "Verif.Yaml.safeGet_spec",
    "Verif.Yaml.get_set"
   ],
   "note": "YAML text is a parameter (Codec) with the laws stated there; NaN and infinities are left out. Refuted: the 0x0 matrix does not come back (encode_empty_refuted, decode_zero_refuted); data given as rows is read without looking at the length of the rows (decode_long_rows_refuted, decode_column_rows_refuted), short rows are undefined behaviour or an exception (decode_short_row_refuted). Linear data is decoded exactly as stated."
  },
  {
   "property": "C85",
   "status": "partial",
   "theorems": [
    "Verif.Yaml.camera_round_trip",
    "Verif.Yaml.factory_round_trip_partial",
    "Verif.Yaml.mask_lost_refuted",
    "Verif.Yaml.deserialize_sound",
    "Verif.Yaml.created_sound",
    "Verif.Yaml.other_model_refuted",
    "Verif.Yaml.failed_load_refuted",
    "Verif.Yaml.missing_default_refuted",
    "Verif.Yaml.malformed_id_refuted",
    "Verif.Yaml.stale_distortion_refuted",
    "Verif.Yaml.missing_id",
    "Verif.Yaml.intrinsicsValid_iff",
    "Verif.Yaml.distValid_iff",
    "Verif.Yaml.deserialize_good",
    "Verif.Yaml.serialize_invalid",
    "Verif.Yaml.created_defaults"
   ],
   "note": "The round trip holds but for the mask, which is not written (mask_lost_refuted). A failed read changes the camera (failed_load_refuted); a camera accepts nodes of another model (other_model_refuted); a malformed id ends the program (malformed_id_refuted); without a distortion node the old distortion stays (stale_distortion_refuted)."
  },
  {
   "property": "C86",
   "status": "partial",
   "theorems": [
    "Verif.Yaml.rig_round_trip_partial",
    "Verif.Yaml.read_rig_sound",
    "Verif.Yaml.read_rig_map",
    "Verif.Yaml.initInternal_iff",
    "Verif.Yaml.initInternal_map",
    "Verif.Yaml.loadCams_prefix",
    "Verif.Yaml.mounting_ways",
    "Verif.Yaml.reload_refuted",
    "Verif.Yaml.stale_covariance_refuted",
    "Verif.Yaml.empty_rig_refuted",
    "Verif.Yaml.failed_rig_refuted",
    "Verif.Limits.freshRig_spec"
   ],
   "note": "The round trip holds for rigs with cameras read into a new rig, but for masks; transformations and their 4x4 matrices are a parameter with laws (exact arithmetic). Refuted: reading adds to the cameras that are there (reload_refuted), keeps an old covariance (stale_covariance_refuted), fails for rigs without cameras (empty_rig_refuted); a failed read leaves cameras behind that are not in the id map (failed_rig_refuted)."
  },
  {
   "property": "C87",
   "status": "partial",
   "theorems": [
    "Verif.Yaml.camEqual_iff",
    "Verif.Yaml.camEqual_refl",
    "Verif.Yaml.camEqual_symm",
    "Verif.Yaml.round_trip_equal",
    "Verif.Yaml.rigEqual_refl",
    "Verif.Yaml.rigEqual_symm",
    "Verif.Yaml.rigEqual_iff",
    "Verif.Yaml.rigEqual_spec",
    "Verif.Yaml.rig_round_trip_equal",
    "Verif.Yaml.equal_mask_refuted",
    "Verif.Yaml.equal_transitive_refuted",
    "Verif.Yaml.equal_covariance_refuted",
    "Verif.Limits.matClose_iff"
   ],
   "note": "Reflexive, symmetric and as specified (exact arithmetic). Not transitive because of the tolerance (equal_transitive_refuted); masks and covariances do not count (equal_mask_refuted, equal_covariance_refuted)."
  },
  {
   "property": "C88",
   "status": "partial",
   "theorems": [
    "Verif.CameraMask.delay_spec",
    "Verif.CameraMask.delay_mono",
    "Verif.CameraMask.maxDelay_partial",
    "Verif.CameraMask.maxDelay_lidar_refuted",
    "Verif.CameraMask.lidarDelay_spec",
    "Verif.CameraMask.global_shutter",
    "Verif.CameraMask.columnMode_iff",
    "Verif.CameraMask.delay_above_refuted",
    "Verif.CameraMask.delay_wrap_refuted",
    "Verif.CameraMask.delay_nan_refuted",
    "Verif.CameraMask.delay_defined_iff"
   ],
   "note": "Holds for keypoints in the image of cameras that are not lidars if the delays fit into 63 bits. Lidars do not override maxRollingShutterDelayNanoSeconds, which uses the rows (maxDelay_lidar_refuted); their own bound is lidarDelay_spec. Keypoints above the image get the delay of the first line (delay_above_refuted); large delays wrap (delay_wrap_refuted); NaN is undefined (delay_nan_refuted)."
  },
  {
   "property": "C89",
   "status": "partial",
   "theorems": [
    "Verif.CameraMask.isMasked_spec",
    "Verif.CameraMask.setMask_iff",
    "Verif.CameraMask.setMask_spec",
    "Verif.CameraMask.no_mask",
    "Verif.CameraMask.run_fits",
    "Verif.CameraMask.clone_spec",
    "Verif.CameraMask.clone_independent",
    "Verif.CameraMask.inf_masked",
    "Verif.CameraMask.resize_refuted",
    "Verif.CameraMask.nan_refuted",
    "Verif.CameraMask.shared_refuted"
   ],
   "note": "Holds as long as the image size is not changed after setMask (resize_refuted: reads outside the mask) and for keypoints that are not NaN (nan_refuted). The pixels are shared with the caller of setMask (shared_refuted)."
  },
  {
   "property": "C90",
   "status": "partial",
   "theorems": [
    "Verif.Kaze.Fed.isPrime_iff",
    "Verif.Kaze.Fed.nextPrime_some",
    "Verif.Kaze.Fed.reorder_perm",
    "Verif.Kaze.Fed.reorder_single",
    "Verif.Kaze.Fed.steps_enough",
    "Verif.Kaze.Fed.steps_least",
    "Verif.Kaze.Fed.steps_le",
    "Verif.Kaze.Fed.byProcessTime_plain_partial",
    "Verif.Kaze.Fed.byProcessTime_reordered_partial",
    "Verif.Kaze.Fed.byCycleTime_short_ub",
    "Verif.Kaze.Fed.byProcessTime_reordered_refuted",
    "Verif.Kaze.Fed.byCycleTime_tiny",
    "Verif.Kaze.Fed.byProcessTime_tiny_refuted"
   ],
   "note": "Exact reals. Without reordering proved for every time and number of steps; with reordering for stopping times for which a cycle has at least two steps. Refuted: reordering a cycle of one step writes outside the vectors (reorder_single, byCycleTime_short_ub, byProcessTime_reordered_refuted); tiny positive times give zero steps and leave the old steps in the vector (byCycleTime_tiny, byProcessTime_tiny_refuted)."
  },
  {
   "property": "C91",
   "status": "partial",
   "theorems": [
    "Verif.Kaze.Diffusion.conductivity_range_partial",
    "Verif.Kaze.Diffusion.conductivity_pos",
    "Verif.Kaze.Diffusion.conductivity_flat",
    "Verif.Kaze.Diffusion.conductivity_antitone",
    "Verif.Kaze.Diffusion.conductivity_refuted",
    "Verif.Kaze.Diffusion.nldStep_total",
    "Verif.Kaze.Diffusion.nldStep_small",
    "Verif.Kaze.Diffusion.nldStep_range",
    "Verif.Kaze.Diffusion.nldStep_range_sharp",
    "Verif.Kaze.Diffusion.nldSteps_energy",
    "Verif.Kaze.Diffusion.nldSteps_total",
    "Verif.Kaze.Diffusion.level_spread"
   ],
   "note": "Exact reals. The conductivities are in (0,1] for a contrast factor other than zero; with zero they are not numbers (conductivity_refuted). The range of the image is kept for steps up to 1/4, which is sharp (nldStep_range_sharp); FED steps are longer, for a cycle of them mean and spread are proved (level_spread). Images with one row or column are read outside their bounds (nldStep_small)."
  },
  {
   "property": "C92",
   "status": "partial",
   "theorems": [
    "Verif.Kaze.Diffusion.thomas_solves",
    "Verif.Kaze.Diffusion.pivot_ge",
    "Verif.Kaze.Diffusion.aosStep_ok_partial",
    "Verif.Kaze.Diffusion.aosStep_solves",
    "Verif.Kaze.Diffusion.aosStep_total",
    "Verif.Kaze.Diffusion.aosStep_range",
    "Verif.Kaze.Diffusion.aosStep_spread",
    "Verif.Kaze.Diffusion.aosStep_wide",
    "Verif.Kaze.Diffusion.aosStep_refuted",
    "Verif.Kaze.Diffusion.aosStep_refuted_tall"
   ],
   "note": "Exact reals. Proved for square images; wider images write outside the transposed buffer (aosStep_wide, aosStep_refuted), higher ones end with an exception (aosStep_refuted_tall)."
  },
  {
   "property": "C93",
   "status": "partial",
   "theorems": [
    "Verif.Kaze.Contrast.kPercentile_spec",
    "Verif.Kaze.Contrast.kPercentile_pos_partial",
    "Verif.Kaze.Contrast.kPercentile_zero",
    "Verif.Kaze.Contrast.kPercentile_flat_refuted",
    "Verif.Kaze.Contrast.computeMin_partial",
    "Verif.Kaze.Contrast.computeMin_refuted",
    "Verif.Kaze.Contrast.computeMax_partial",
    "Verif.Kaze.Contrast.computeMax_refuted",
    "Verif.Kaze.Contrast.convertScale_partial",
    "Verif.Kaze.Contrast.convertScale_flat_refuted",
    "Verif.Kaze.Contrast.convertScale_refuted"
   ],
   "note": "Exact reals. The percentile is as specified; it is positive if it asks for one gradient at least; for a flat image or a percentile of less than one gradient the factor is zero (kPercentile_flat_refuted, kPercentile_zero). The minimum and maximum helpers are right only for images within their start values; scaling of flat images divides by zero."
  },
  {
   "property": "C94",
   "status": "partial",
   "theorems": [
    "Verif.Kaze.Extrema.isExtremum_iff",
    "Verif.Kaze.Extrema.findLevel_iff",
    "Verif.Kaze.Extrema.findLevel_nodup",
    "Verif.Kaze.Extrema.mergeStep_cases",
    "Verif.Kaze.Extrema.detect_sound",
    "Verif.Kaze.Extrema.detect_strongest",
    "Verif.Kaze.Extrema.detect_far",
    "Verif.Kaze.Extrema.detect_near_refuted",
    "Verif.Kaze.Extrema.detect_border_refuted",
    "Verif.Kaze.Extrema.detect_stale_refuted",
    "Verif.Kaze.Extrema.detect_empty"
   ],
   "note": "What is found is exactly the maxima. The suppression of repeated points keeps the strongest one and all of them if none are near; that no two keypoints are near afterwards is refuted (detect_near_refuted), as is the test against the borders (detect_border_refuted), and keypoints of an earlier image stay (detect_stale_refuted)."
  },
  {
   "property": "C95",
   "status": "partial",
   "theorems": [
    "Verif.Kaze.Extrema.refineOne_belongs",
    "Verif.Kaze.Extrema.refineAll_belongs",
    "Verif.Kaze.Extrema.features_spec",
    "Verif.Kaze.Extrema.refineOne_quadratic",
    "Verif.Kaze.Extrema.cramer_right",
    "Verif.Kaze.Extrema.solves_unique",
    "Verif.Kaze.Extrema.refine_singular_refuted",
    "Verif.Kaze.Extrema.refine_stale_refuted"
   ],
   "note": "Exact arithmetic; cv::solve is a parameter that is right for regular systems. For singular systems its outcome is not looked at, and the offset of the keypoint before is used if the solver leaves the result as it is (refine_singular_refuted). Keypoints of other images in the vector are read outside the levels (refine_stale_refuted)."
  },
  {
   "property": "C96",
   "status": "partial",
   "theorems": [
    "Verif.Kaze.Descriptor.raw_length",
    "Verif.Kaze.Descriptor.lengthSq_eq",
    "Verif.Kaze.Descriptor.descriptor_none_iff",
    "Verif.Kaze.Descriptor.descriptor_unit",
    "Verif.Kaze.Descriptor.descriptor_inside",
    "Verif.Kaze.Descriptor.descriptor_contrast",
    "Verif.Kaze.Descriptor.bins_bound",
    "Verif.Kaze.Descriptor.extended_splits",
    "Verif.Kaze.Descriptor.interp_linear",
    "Verif.Kaze.Descriptor.interp_range_msurf",
    "Verif.Kaze.Descriptor.interp_range_refuted",
    "Verif.Kaze.Descriptor.interp_msurf_refuted",
    "Verif.Kaze.Descriptor.descriptor_flat_refuted",
    "Verif.Kaze.Descriptor.gsurf_ramp_refuted",
    "Verif.Kaze.Descriptor.surf_rotation",
    "Verif.Kaze.Descriptor.upright_refuted",
    "Verif.Kaze.Descriptor.msurf_centre_refuted",
    "Verif.Kaze.Descriptor.orientationSamples_length",
    "Verif.Kaze.Descriptor.position_rotated",
    "Verif.Kaze.Descriptor.position_upright",
    "Verif.Kaze.Descriptor.gauge_directions",
    "Verif.Kaze.Descriptor.msurf_cells",
    "Verif.Kaze.Descriptor.surf_cells",
    "Verif.Kaze.Descriptor.weight_symm",
    "Verif.Kaze.Descriptor.cell_sums"
   ],
   "note": "Exact arithmetic, all twelve descriptors. Where all sums are zero, as in flat regions, the descriptor is not a number (descriptor_flat_refuted, gsurf_ramp_refuted). The interpolation is exact for linear functions but extrapolates (interp_range_refuted), except for the rotated MSURF, where it stays in range but is not exact (interp_msurf_refuted). Upright is not the same as rotated by zero (upright_refuted); the weights of MSURF are off centre (msurf_centre_refuted)."
  },
  {
   "property": "C97",
   "status": "partial",
   "theorems": [
    "Verif.Lsd.Lines.filterLoop_spec",
    "Verif.Lsd.Lines.filterSize_spec",
    "Verif.Lsd.Lines.filterSize_unlimited",
    "Verif.Lsd.Lines.filterSize_nolimits",
    "Verif.Lsd.Lines.angle_partition",
    "Verif.Lsd.Lines.exactAtan2_range",
    "Verif.Lsd.Lines.angle_direction",
    "Verif.Lsd.Lines.angle_reverse",
    "Verif.Lsd.Lines.retained_iff",
    "Verif.Lsd.Lines.filter_matrix_refuted",
    "Verif.Lsd.Lines.detect_spec"
   ],
   "note": "Lists are proved. If the lines are an n x 1 matrix, as detect itself writes them, the filters look at the first line only, because they go along the width (filter_matrix_refuted). cv::fastAtan2 and the square root are exact."
  },
  {
   "property": "C98",
   "status": "partial",
   "theorems": [
    "Verif.Lsd.Lines.intersection_false_iff",
    "Verif.Lsd.Lines.intersection_point",
    "Verif.Lsd.Lines.intersection_fits",
    "Verif.Lsd.Lines.intersection_empty",
    "Verif.Lsd.Lines.intersection_symm",
    "Verif.Lsd.Lines.intersection_on_both_refuted",
    "Verif.Lsd.Lines.intersection_segments_refuted"
   ],
   "note": "Exact arithmetic. The point is that of the lines cut off to integers; it is neither on both lines exactly (intersection_on_both_refuted) nor within the segments (intersection_segments_refuted)."
  },
  {
   "property": "C99",
   "status": "partial",
   "theorems": [
    "Verif.Lsd.angleDiffSigned_range",
    "Verif.Lsd.angleDiffSigned_turns",
    "Verif.Lsd.angleDiff_least",
    "Verif.Lsd.angleDiff_symm",
    "Verif.Lsd.within_iff",
    "Verif.Lsd.isAligned_some",
    "Verif.Lsd.isAligned_iff",
    "Verif.Lsd.isAligned_none",
    "Verif.Lsd.isAligned_wide_refuted",
    "Verif.Lsd.doubleEqual_refl",
    "Verif.Lsd.doubleEqual_symm",
    "Verif.Lsd.doubleEqual_zero_iff"
   ],
   "note": "Exact reals. isAligned is right for tolerances below a quarter turn; beyond that it is refuted (isAligned_wide_refuted)."
  }
 ]
}