# Properties that the code does not have

For each property the theorems that refute it (in part), with the comment at the theorem. All are proved for the model with a concrete witness.

## C04

* `Verif.ThreadPool.runnable_task_stranded_refuted`: **C04 is violated by the code.** Workers and `waitForEmptyQueue` callers sleep on the same condition variable, and `enqueue` wakes only one sleeper. With one worker asleep, a task pushed, and a `waitForEmptyQueue` caller that went to sleep between the push and the `notify_one`, the notification may wake that caller; it sees the non-empty queue and sleeps again. Then a task that may start is queued, the only worker sleeps, no notification is pending, and nothing moves any more.

## C05

* `Verif.ThreadPool.stop_drains_refuted`: **C05 is violated by the code.** The test of `stop_` in `enqueueOrdered` is made without the mutex. A task whose enqueue call passed the test before `stop()` but pushes after the worker has already exited is accepted (the caller gets a valid future) and never executed; the destructor returns.

## C10

* `Verif.RWLock.isInUse_readerFirst_refuted`: **C10 is violated by `ReaderFirstReaderWriterMutex`**: it inherits `isInUse` but does not maintain the pending counters, so a thread waiting for the lock is not reported.

## C12

* `Verif.Serialization.vector_over_read_refuted`: **C12 fails for lists of matrices.** A buffer that announces one matrix and ends there makes the deserialiser read past its end; so does a buffer shorter than the count.
* `Verif.Serialization.vector_truncated_payload_refuted`: **C12 fails for lists of matrices (second way).** A truncated payload is read past its end even when all headers are complete.
* `Verif.Serialization.image_overflow_refuted`: **C12 fails for images.** A buffer of 529 bytes announcing a 1×1 image with 513 channels passes every check; OpenCV allocates a one-channel image (nine bits of the channel count) and `memcpy` writes 513 bytes into it.
* `Verif.Serialization.image_wrap_refuted`: The size that a header announces is computed modulo 2^64: sixteen bytes that announce an image of 2^17 by 2^16 pixels with 2^31 channels are accepted as complete. The image that is made has 512 channels, and none of its 2^42 bytes was in the buffer.

## C14

* `Verif.Serialization.scalar_string_refuted`: **C14 fails for large `uint64_t` / `size_t` values.** Every value from `2^63` on is written as a decimal string that the reader cannot read: `std::stoll` throws `std::out_of_range`.
* `Verif.Serialization.double_string_refuted`: **C14 fails for floating point strings.** Two different doubles (`2^-30` and `0`) have the same string form, so no reader can recover both.

## C15

* `Verif.Channels.clone_shares_pixels_refuted`: **C15 fails for the pixels of images.** A group with an image, its clone, and a write through the clone: the original shows the changed pixels (`cv::Mat` copies are shallow).
* `Verif.Channels.assign_shares_refuted`: **C15 fails after the sharing copy.** `operator=` / the copy constructor of `ChannelGroup` share the objects: a value stored through the copy appears in the original.
* `Verif.Channels.compare_sizes_refuted`: Comparing groups whose matrices differ in size is not defined: the answer is not `false`.

## C16

* `Verif.OccupancyGrid.create_zero_cell_refuted`: Cell sizes that are not positive are not all rejected: zero is undefined behaviour.

## C19

* `Verif.OccupancyGrid.thin_aborts_refuted`: **C19 (abort), refuted.** For every grid with more than `n` occupied cells the call aborts the process instead of reaching the size.

## C21

* `Verif.StlHelpers.erase_vector_repeated_refuted`: **C21 (vector, repeated positions), refuted.** For every vector and every list of valid positions that contains a repetition (and is not longer than the vector) the behaviour is undefined: a range with its end before its begin is copied.
* `Verif.StlHelpers.erase_eigen_nothing_refuted`: **C21 (Eigen matrices, empty list), refuted.** Erasing nothing is undefined behaviour: `back()` of the empty list is read before the test for emptiness.
* `Verif.StlHelpers.erase_eigen_unordered_refuted`: **C21 (Eigen matrices, unordered list), refuted.** Valid distinct positions in descending order are not rejected by a `CHECK` but run into an invalid block copy.

## C22

* `Verif.StlHelpers.kept_sorted_refuted`: **C22 (sorted result), refuted in general.** Despite its name the function leaves a short container unsorted.

## C24

* `Verif.HashId.accepts_non_hex_refuted`: **C24 refuted (acceptance).** White space and signs are accepted, also any character after a digit.
* `Verif.HashId.throws_refuted`: **C24 refuted (rejection).** Other strings throw instead of returning `false`, after changing the id.

## C26

* `Verif.HashId.fromInt_zero_refuted`: **C26 refuted.** The id made from zero is invalid.

## C27

* `Verif.Time.whole_units_refuted`: **C27 refuted.** For a time of November 2023 in milliseconds neither direction is exact, in any rounding to nearest.
* `Verif.Time.timeString_format_refuted`: Non-vacuity and **C27 refuted (format)**: a negative time below one second is printed with empty seconds.

## C28

* `Verif.NPipeline.camera_index_check_refuted`: Deviation: the range check admits one camera index too many.
* `Verif.NPipeline.Int64.invalid_time_refuted`: An image without a valid time (the smallest number) after any image from 1970 or later: the difference overflows, which is undefined.

## C30

* `Verif.NPipeline.complete_discarded_refuted`: **C30 refuted.** Both cameras delivered an image for time 1, nobody took an n-frame, and there is no n-frame for time 1 any more: the clean-up deleted it though it was complete.
* `Verif.NPipeline.equal_time_lost_refuted`: **C30 refuted (second way).** Two n-frames complete with the same time; `completed_.insert` ignores the second, which is lost although both of its images arrived and no n-frame was ever dropped.

## C31

* `Verif.NPipeline.Shutdown.lost_wakeup_refuted`: **C31 refuted.** A caller of `getNextBlocking` tests `shutdown_`, finds it unset and the queue empty; then `shutdown` runs completely; then the caller goes to sleep. From there on it sleeps for ever, whatever the other threads do, unless a worker still completes an n-frame or the wake-up is spurious.

## C32

* `Verif.VisualFrame.discard_misaligns_refuted`: **C32 refuted (3D positions).** Two keypoints, the first untracked, with 3D positions: afterwards there is one keypoint but two 3D positions, and entry 0 is the position of the removed keypoint.
* `Verif.VisualFrame.discard_aborts_refuted`: **C32 refuted (several blocks).** A frame with two descriptor blocks and an untracked keypoint: abort.

## C33

* `Verif.VisualFrame.duplicate_type_hidden_refuted`: Deviation: if two blocks have the same type, the `…OfType` accessors see only the first of them.
* `Verif.VisualFrame.deserialize_without_types_refuted`: Deviation: after deserialising descriptors into a frame without descriptors there are no types, and asking for the type of an existing descriptor (or setting descriptors) aborts.

## C35

* `Verif.VisualFrame.Copy.copy_shares_pixels_refuted`: **C35 refuted for pixels.** A frame with an image, its copy, and a write to the pixels through the copy: the original shows the changed pixels.
* `Verif.VisualFrame.Copy.equality_ignores_id_refuted`: Deviation: `operator==` ignores the id and the raw camera of a frame.
* `Verif.VisualFrame.Copy.nframe_compare_refuted`: **C35 refuted (comparison).** Two n-frames copied from one another compare with an abort if a frame is not set.
* `Verif.VisualFrame.Copy.self_assign_refuted`: **C35 refuted (self-assignment).** Assigning an n-frame to itself loses its frames.

## C36

* `Verif.VisualFrame.Copy.min_unset_refuted`: **C36 refuted (minimum).** With no frame set the minimum is the largest 64-bit number instead of an abort.

## C37

* `Verif.TrackManager.id_overflow_refuted`: Once `2^31` ids have been handed out, a match of two new keypoints writes a negative id: both stay untracked.

## C38

* `Verif.TrackManager.crossing_duplicates_refuted`: Three frames and three calls: keypoint 0 of frame 0 is matched to keypoint 0 of frame 1 and of frame 2, then keypoint 1 of frame 1 to keypoint 0 of frame 2. All calls succeed and frame 1 carries id 0 twice.
* `Verif.TrackManager.self_match_refuted`: A frame matched with itself carries the new id twice.
* `Verif.TrackManager.reset_reuses_refuted`: After `resetIdProvider` ids are handed out again while frames still carry them.

## C39

* `Verif.GyroMatcher.complement_aborts_refuted`: One descriptor that is the complement of another, in the search window: the matcher aborts.
* `Verif.GyroMatcher.stale_size_aborts_refuted`: The descriptor size is kept in a static variable by the first call in the process. After a first use with 128 bits, descriptors of 512 bits whose distance is 200 make the matcher abort.
* `Verif.GyroMatcher.negative_row_refuted`: A keypoint above the image (by a pixel or more) is converted to an unsigned number: undefined behaviour.

## C40

* `Verif.GyroMatcher.last_row_refuted`: A keypoint in the last row of the image is never visited, whatever the prediction and the window.
* `Verif.GyroMatcher.bottom_row_refuted`: A keypoint in the image, exactly `w` below the prediction, is not visited, although one exactly `w` above is.

## C41

* `Verif.GyroMatcher.ratio_order_refuted`: Distances 25 and 26 of 128 bits: visited in this order the ratio test fails, in the other order it passes, because the 26 is forgotten when the 25 is found.

## C42

* `Verif.GyroTracker.roi_wraps_refuted`: With a border larger than the image the unsigned subtraction wraps and points far outside of the image pass.

## C43

* `Verif.Accumulator.too_many_refuted`: The next one overflows a counter: undefined behaviour.
* `Verif.Accumulator.rolling_mean_refuted`: In floating point a large sample that has left the window still spoils the rolling mean: after -2^60, 1 the rolling mean over one sample is 0.

## C44

* `Verif.Statistics.reset_detaches_refuted`: After a reset the samples added through a handle obtained before are no longer reported for its tag: the handle of a collector or timer that outlives a reset does not keep denoting its tag.

## C45

* `Verif.Timer.copy_records_twice_refuted`: Copying a running timer: the one start is recorded twice.

## C46

* `Verif.Hamming.long_descriptor_refuted`: 512-byte descriptors that differ in every bit are at distance zero.
* `Verif.Hamming.trailing_bytes_refuted`: Bytes after the last full word are ignored: 20-byte descriptors that differ in the last byte are at distance zero.
* `Verif.Hamming.short_descriptor_refuted`: Descriptors of fewer than 16 bytes: 16 bytes are read all the same, past the end of the allocation if the descriptor is at its end.
* `Verif.Hamming.unaligned_refuted`: A descriptor that does not start at a multiple of 16, as the second column of a descriptor matrix whose columns are not a multiple of 16 bytes.

## C47

* `Verif.Descriptor.flip_all_aborts_refuted`: Flipping all bits is refused.

## C48

* `Verif.NCamera.without_distortion_stale_refuted`: After cloning a rig without distortion, no camera of the clone is found under its own id: the map of the clone still has the ids of the original.
* `Verif.NCamera.same_ids_refuted`: A rig can be built from two cameras with the same id; the index of the first is then that of the second.
* `Verif.NCamera.changed_id_refuted`: Changing the id of a camera that a rig uses makes it unknown to the rig.

## C51

* `Verif.Camera.project4_status_refuted`: The status depends on the scale of the coordinates: the same visible point is reported as invalid.
* `Verif.Camera.project4_jacobian_refuted`: So it is never the derivative, as the Jacobian of an undistorted camera is not zero.

## C52

* `Verif.Camera.unified_boundary_refuted`: On the boundary circle back-projection reports success, but no point on the ray projects.

## C53

* `Verif.Distortion.fisheye_parameterJacobian_refuted`: Nearer to the centre the Jacobian with respect to the coefficient is never the derivative: the code leaves out the factors `u` and `v`.
* `Verif.Distortion.fisheye_boundary_refuted`: On the circle where the formula changes the distortion jumps, so no matrix is its derivative.
* `Verif.Distortion.equidistant_center_refuted`: At the centre the distortion is the identity, but the Jacobian returned is zero.
* `Verif.Distortion.equidistant_small_refuted`: Between the radii 10⁻¹⁰ and 10⁻⁸ the distortion is the identity too, but the Jacobians returned are those of the formula used farther out.

## C54

* `Verif.Distortion.fisheye_inverse_refuted`: Points near the centre do not come back.

## C55

* `Verif.Triangulation.nViews_success_refuted`: both cameras see every point of a line, nothing determines one of them, yet the status is "successful": with the threshold 0.001 the reported rank is at most one, and one minus two wraps.

## C56

* `Verif.Triangulation.track_refuted`: The mounting of the first camera is used for all observations.
* `Verif.Triangulation.fast_refuted`: Whatever the track, the columns handed to the solver can be other than those of its observations.

## C57

* `Verif.Target.gridCoordinates_refuted`: The pair that is returned does not lead back to the point, except on the diagonal.

## C58

* `Verif.Target.getObservedCornerById_refuted`: `getObservedCornerById` compares the id with the number of observed corners: all ids from there on abort the program, observed or not.
* `Verif.Target.getObservedCorner_refuted`: the check of `getObservedCorner` looks at the index as an `int`, so that indices from 2^31 to 2^32 - 1 pass and memory outside of the matrix is read.
* `Verif.Target.getObservedCornerId_refuted`: a negative index passes the check of `getObservedCornerId`.

## C59

* `Verif.Calibration.intersect_touching_refuted`: Two circles of radius 1 that meet in two points with half a chord of 5e-11: the point returned is on neither.
* `Verif.Calibration.intersect_equal_refuted`: Equal circles: the code divides by zero (and returns two points that are not numbers).

## C60

* `Verif.GeometricVision.reject_outputs_refuted`: the matches are appended to it, and then the final check ends the program.

## C62

* `Verif.VisualFrame.clear_incomplete_refuted`: **C62 refuted.** With two descriptor blocks the second one stays, and 3D positions stay.

## C63

* `Verif.VisualFrame.Copy.camera_changed_refuted`: A frame that got its camera through an n-frame can be given another one: then the n-frame is inconsistent.
* `Verif.VisualFrame.Copy.shared_frame_refuted`: A frame that is in two n-frames: setting the rig of one of them breaks the other.
* `Verif.VisualFrame.Copy.frame_twice_refuted`: A frame that is twice in an n-frame is accepted by `setNCameras` and has the camera of its last place.
* `Verif.VisualFrame.Copy.self_assign_rig_refuted`: Self-assignment leaves a rig without places for frames.
* `Verif.VisualFrame.Copy.hasRawImages_unset_refuted`: With a missing frame before the first frame without raw image the program ends instead of answering.
* `Verif.VisualFrame.Copy.releaseRawImages_refuted`: A frame without raw image ends the program, after raw images of earlier frames have been released.
* `Verif.NCamera.NFrame.unknown_index_refuted`: The index of a camera that the rig does not have is not -1 and not refused: it is 2^64 - 1.

## C64

* `Verif.Descriptor.median_long_refuted`: Of these descriptors with 512 bytes the one with all bits is chosen, though the ones without bits are closer to the rest: the distances are wrong (C46).
* `Verif.Descriptor.deviation_long_refuted`: The mean absolute deviation of three descriptors with 512 bytes is zero, though the summed distance from any descriptor is 4096 or more.
* `Verif.Descriptor.median_unaligned_refuted`: The columns of a matrix whose number of rows is not a multiple of 16 are not aligned: undefined with two columns or more.

## C65

* `Verif.DescriptorRef.assign_released_refuted`: Assigning a released reference to one that owns memory: the released one has kept its size, so that `memcpy` reads from a null pointer.
* `Verif.DescriptorRef.copy_uninitialised_refuted`: As the C++ standard has it, copying a reference that owns memory is undefined: an uninitialised member is read.

## C66

* `Verif.Distortion.equidistant_undistort_refuted`: Near the centre the equidistant model returns the point undistorted although distorting moves it.

## C68

* `Verif.Camera.isProjectable_refuted`: So, unlike its documentation says, it is false for points that project without any singularity outside the image.
* `Verif.Camera.isProjectable4_refuted`: a point and the homogeneous point that represents it are not projectable alike.

## C69

* `Verif.Camera.lidar_seam_refuted`: If column zero has azimuth `-π`, its keypoints come back one image width to the right, outside the image.
* `Verif.Camera.lidar_wrap_refuted`: Without a full turn a column that wraps stands for another direction.
* `Verif.Camera.lidar_external_refuted`: External intrinsics are not used: the result is that of the camera's own, even where the other parameters would give a different keypoint.

## C70

* `Verif.Triangulation.gn_status_refuted`: With at least two views the status is always "successful", parallel rays or not, converged or not.
* `Verif.Triangulation.gn_stops_refuted`: If the squared residuals at the start add up to 100 or more, only one iteration is made.

## C71

* `Verif.Target.detect_negative_refuted`: Good detections with negative ids are not removed: two tags on a board of one are too many corners for the arrays (`std::sort` cannot change that).

## C72

* `Verif.Calibration.conic_garbage_refuted`: Views with unobserved corners leave rows of the system as they were in memory: whatever focal lengths are wanted, there are contents of the memory for which they are returned, and success is reported.

## C73

* `Verif.GeometricVision.pose3d_transformation_refuted`: whatever the points, the thresholds and the transformations tried, the "result" has the rotation that the caller's variable had before and the position of an uninitialised variable.
* `Verif.GeometricVision.pose3d_best_refuted`: the transformation tried first maps all seven points exactly, and yet the inliers returned are those of the one tried last, of which there are none.
* `Verif.GeometricVision.pose3d_few_refuted`: instead of reporting failure the function ends the program.
* `Verif.GeometricVision.pose3d_camera_refuted`: it makes no difference which camera a measurement is said to come from.

## C75

* `Verif.GeometricVision.bearing_index_refuted`: the index one past the last keypoint passes the check and is read.
* `Verif.GeometricVision.bearing_failure_refuted`: the flags are dropped, so a match of such a keypoint is handed on like any other.
* `Verif.GeometricVision.predict_empty_refuted`: the matrix of predictions keeps the columns it had.

## C76

* `Verif.GeometricVision.threshold_refuted`: with focal length 100 a landmark that projects 100 pixels from the measurement is no inlier for a `pixel_sigma` of 105 if the two lie on opposite sides of the principal point.
* `Verif.GeometricVision.pnp_failure_refuted`: the run is given whatever the camera left.

## C77

* `Verif.VisualFrame.insertEmpty_aligned_refuted`: **C77** refuted for frames with an (empty) channel of 3D positions: it is neither checked nor filled, so the frame has a keypoint without a 3D position.
* `Verif.VisualFrame.insertAdditional_blocks_refuted`: **C77** refuted for frames with two descriptor blocks: the first block is resized to the number of all keypoints, so the frame ends up with four descriptors for three keypoints, one of them uninitialised.
* `Verif.VisualFrame.insertAdditional_cleared_refuted`: **C77** refuted after `clearKeypointChannels`, which leaves a descriptor matrix without rows (visual-frame.cc:441-454): inserting additional keypoints into the cleared frame writes outside of it.
* `Verif.VisualFrame.insertAdditional_short_refuted`: **C77** refuted for descriptors shorter than those of the frame: the rest of the new descriptor is uninitialised, nothing is reported.

## C78

* `Verif.Undistort.matrix_scale_refuted`: **C78** refuted for small scales: a positive scale passes the checks although the output image is empty, and the focal lengths come out negative.
* `Verif.Undistort.matrix_identity_refuted`: **C78** refuted: undistorting a camera that has no distortion at scale one does not give back the camera (the sampled rectangle ends at the column `w`, the image at `w - 1`).

## C79

* `Verif.Undistort.map_unified_refuted`: **C79** refuted for the unified projection with rays at more than 90 degrees from the optical axis (what `createMappedUndistorter` builds for such cameras): between equal cameras without distortion a pixel is mapped to the opposite side of the image, because the ray is divided by its negative depth.
* `Verif.Undistort.map_border_refuted`: **C79** refuted at the border even for pinhole cameras without distortion: with `alpha = 0`, which promises that all pixels of the undistorted image are valid, its last pixel is taken from outside of the input image.
* `Verif.Undistort.pack_wrap_refuted`: **C79** refuted for keypoints far outside of the image, which strong distortion produces: the whole pixels are reduced modulo 65536, so a keypoint at 65546 pixels is read as pixel 10 of the image.

## C80

* `Verif.VisualPipeline.construct_undistorter_refuted`: **C80** refuted for undistorters without cameras (their default constructor leaves them null): the constructor checks the undistorter but not its cameras, and processing an image is undefined.

## C81

* `Verif.VisualPipeline.freak_refuted`: **C81** refuted for the FREAK pipeline: the temporary smart pointer deletes the detector at the end of the statement that stores its address, so using the detector is undefined, and destroying the pipeline deletes it a second time.

## C82

* `Verif.FeatureTrack.pop_empty_refuted`: **C82** refuted for an empty track: `getFirst…` and `getLast…` check for it, `popLast…` does not.
* `Verif.FeatureTrack.diagonal_negative_refuted`: **C82** refuted for negative coordinates, because the maxima start at the smallest positive number rather than the lowest: the box of a single keypoint at `(-10, 5)` has a diagonal of more than 100.

## C84

* `Verif.Yaml.encode_empty_refuted`: Not every matrix can be written: an empty one ends the program.
* `Verif.Yaml.decode_long_rows_refuted`: Rows that are too long are not noticed: for a column vector the surplus of each row is dropped.
* `Verif.Yaml.decode_column_rows_refuted`: Rows of the right length are not accepted: a column vector given as rows of one number each ends the program.
* `Verif.Yaml.decode_short_row_refuted`: A row that is too short ends the program instead of being refused.
* `Verif.Yaml.decode_zero_refuted`: If there are neither rows nor columns, data are dropped.

## C85

* `Verif.Yaml.mask_lost_refuted`: Not all of a camera survives: the mask is lost.
* `Verif.Yaml.other_model_refuted`: A camera does take over what was written by a camera of another model: a pinhole camera that reads the node of a lidar reports success, and is then a pinhole camera of the type lidar.
* `Verif.Yaml.failed_load_refuted`: A reading that fails does not leave the camera alone: id, image size, type and intrinsics are replaced, and the camera, valid before, is not valid any more.
* `Verif.Yaml.missing_default_refuted`: What the node does not say is not set to its default: the camera keeps whether its images are compressed, and its topic.
* `Verif.Yaml.malformed_id_refuted`: A malformed id is not refused, it ends the program.
* `Verif.Yaml.stale_distortion_refuted`: Writing a camera without distortion to a node that is in use leaves the distortion that stands there.

## C86

* `Verif.Yaml.reload_refuted`: Reading a rig does not replace the cameras that are there: a rig that reads what it has written itself has all its cameras twice.
* `Verif.Yaml.stale_covariance_refuted`: A rig without covariance does not take the covariance away: it is kept from before.
* `Verif.Yaml.empty_rig_refuted`: A rig without cameras cannot be read again.
* `Verif.Yaml.failed_rig_refuted`: A reading of a rig that fails does not leave the rig alone: it has a camera that is not in the map.

## C87

* `Verif.Yaml.equal_mask_refuted`: Cameras that differ are equal: the mask does not count.
* `Verif.Yaml.equal_transitive_refuted`: Equality of cameras is not transitive: the tolerance adds up.
* `Verif.Yaml.equal_covariance_refuted`: Rigs that differ are equal: the covariance does not count.

## C88

* `Verif.CameraMask.maxDelay_lidar_refuted`: For lidars the maximal delay is that of the rows, although the shutter moves along the columns: keypoints in the image have delays far above the "maximal" delay, and the number of lines does not agree with it.
* `Verif.CameraMask.delay_above_refuted`: Keypoints in the line above the image have the delay of the first line: truncation goes towards zero, so that one line delay is missing for all keypoints that wander out of the image at the top.
* `Verif.CameraMask.delay_wrap_refuted`: Delays that do not fit wrap: here a line delay near 2^63 gives negative delays.
* `Verif.CameraMask.delay_nan_refuted`: Coordinates that are not numbers or too large are undefined behaviour.

## C89

* `Verif.CameraMask.resize_refuted`: Changing the image size does not touch the mask; then asking about a keypoint in the image reads outside the mask.
* `Verif.CameraMask.nan_refuted`: Keypoints that are not numbers are not masked by cameras without mask, and undefined for cameras with one.
* `Verif.CameraMask.shared_refuted`: The mask is shared with the caller of `setMask`: a pixel written later changes what is masked.

## C90

* `Verif.Kaze.Fed.byProcessTime_reordered_refuted`: the reordering of the steps may have undefined behaviour: a time of 0.1 with steps up to 0.25.
* `Verif.Kaze.Fed.byProcessTime_tiny_refuted`: for a tiny positive time there is no step at all, and the steps that were in the vector stay there.

## C91

* `Verif.Kaze.Diffusion.conductivity_refuted`: with a contrast factor of zero (see C93), flat places have no conductivity at all.

## C92

* `Verif.Kaze.Diffusion.aosStep_refuted`: for an image of 480 rows and 640 columns the step writes outside its buffers.
* `Verif.Kaze.Diffusion.aosStep_refuted_tall`: for an image of 640 rows and 480 columns the step ends with an exception.

## C93

* `Verif.Kaze.Contrast.kPercentile_flat_refuted`: the contrast factor of a flat image is zero (then no conductivity is a number, C91).
* `Verif.Kaze.Contrast.computeMin_refuted`: ... but 1000 if all are larger.
* `Verif.Kaze.Contrast.computeMax_refuted`: ... but zero if all are negative.
* `Verif.Kaze.Contrast.convertScale_flat_refuted`: a flat image is not a number any more after scaling.
* `Verif.Kaze.Contrast.convertScale_refuted`: an image with values above 1000 only does not reach 0.

## C94

* `Verif.Kaze.Extrema.detect_near_refuted`: the keypoints may be near each other: the peak in the middle takes the place of the first one, though the second one is near as well and stronger.
* `Verif.Kaze.Extrema.detect_border_refuted`: keypoints at the border of the image are kept, whatever their size.
* `Verif.Kaze.Extrema.detect_stale_refuted`: keypoints of an image before stay in the vector.

## C95

* `Verif.Kaze.Extrema.refine_singular_refuted`: the outcome of the solver is not looked at: with a solver that leaves its result unchanged for singular systems, the second keypoint, a symmetric maximum, is moved by the offset of the first.
* `Verif.Kaze.Extrema.refine_stale_refuted`: keypoints of other images in the vector may be read outside of the levels.

## C96

* `Verif.Kaze.Descriptor.interp_range_refuted`: the others extrapolate: between the pixels 0 of column 2 and 1 of columns 3 and 4, the value at column 3.25 is more than 1.
* `Verif.Kaze.Descriptor.interp_msurf_refuted`: the rotated MSURF does not interpolate: a linear function is read as 3 at column 3.25.
* `Verif.Kaze.Descriptor.descriptor_flat_refuted`: there is no descriptor where the image is flat: the numbers are not numbers.
* `Verif.Kaze.Descriptor.gsurf_ramp_refuted`: nor has the gauge descriptor a value on a ramp.
* `Verif.Kaze.Descriptor.upright_refuted`: the upright descriptor is not the rotated one for angle zero: the axes are exchanged.
* `Verif.Kaze.Descriptor.msurf_centre_refuted`: the weights of a cell of MSURF are not centred: the first and the last row have different ones.

## C97

* `Verif.Lsd.Lines.filter_matrix_refuted`: the segments that `detect` copies into a `cv::Mat` are one below the other, and the filters go along the width of their input. From three segments of which the last two are longer than 20, the filter for 20 returns none, and says that it left out one.

## C98

* `Verif.Lsd.Lines.intersection_on_both_refuted`: the returned point need not be on the lines: the diagonals of a square of side one meet at its middle, the returned point is a corner; here it is a point of one of the lines only. And the segments themselves need not meet.
* `Verif.Lsd.Lines.intersection_segments_refuted`: the point need not be on the segments, only near the lines through them.

## C99

* `Verif.Lsd.isAligned_wide_refuted`: with a tolerance of 120 degrees, directions that differ by 110 degrees are not aligned if the difference of the numbers is 250 degrees, although those that differ by 110 degrees are otherwise.

## C100

* `Verif.Lsd.region_mean_refuted`: the documentation promises that the angles of the region are aligned with its mean up to the precision. They are aligned with the mean of the earlier pixels, which moves on: from directions of 0, 60, 90 and 90 degrees, with a precision of 60 degrees, all are taken, and the direction of the region differs from that of its first pixel by more.

## C101

* `Verif.Lsd.rect_bounding_refuted`: the documentation calls it the bounding rectangle of the region. Its length and its width are those of the region, but its line goes through the centre of gravity, which need not be in the middle: the pixel beside the row is 3/4 from the line of a rectangle of width 1.
* `Verif.Lsd.rect_oriented_refuted`: the direction need not be within the tolerance of the angle of the region, in either direction: for two pixels one above the other whose level lines are horizontal, it is vertical.

## C104

* `Verif.Lsd.list_order_refuted`: "Vector of coordinate points that are pseudo ordered by magnitude. Pixels would be ordered by norm value, up to a precision given by max_grad/n_bins." The vector is in the order of the rows: in `steps` the first pixel has the norm 10 and the second one 30.

## C105

* `Verif.Lsd.nfa_refuted`: "number of false alarms in the line region, with precision of 10%". With two pixels, one of them aligned, and a probability of one half, the number is 3/4; the value says that it is more than one.
* `Verif.Lsd.nfa_meaningful_refuted`: a rectangle that is found to be meaningful (a positive value) has on average less than one false alarm. With 20 pixels, one of them aligned, and a probability of one half, 10 tests have more than 9; the value is positive.

## C106

* `Verif.Lsd.counted_refuted`: the points "within the rectangle" are counted. Of the 33 pixels of `flat` only the three in the first column are.

## C107

* `Verif.Lsd.flsd_fails_refuted`: detection may fail. The least size of a region is rounded down, to zero for `tinyParams`; then the region of a single pixel has no axis, which is an exception.

## C108

* `Verif.NumDiff.stepsize_refuted`: the documentation calls the argument the step size of the differentiation. The step at 1 for a step size of 1/100 is 1/10, and at 100 it is 10.

## C109

* `Verif.ImageEqual.channels_refuted`: images with several channels that differ count as equal: only the first scalars of a row are looked at.
* `Verif.ImageEqual.tolerance_refuted`: "whether the absolute difference between any two elements exceeds a threshold": for integers the tolerance does not count at all, for floating point numbers it is relative, so that numbers within it are different and numbers beyond it are equal.
* `Verif.ImageEqual.refl_refuted`: an image is not equal to itself if it contains an infinite number.
* `Verif.ImageEqual.position_refuted`: for an image with one column the position named is always 0.

## C110

* `Verif.TestRig.surround_position_refuted`: the cameras of the surround rig are not where `t_B_C` puts them: the translation of the inverse is not rotated. The centres are on the y and z axes.
* `Verif.TestRig.surround_plane_refuted`: "a 4-camera rig in a plane": no plane contains the centres and the axes of the cameras.

## C111

* `Verif.Calibration.straight_refuted`: if a complete observation with two rows has a straight row, the function returns true, but the focal length is not a number. Rows are straight for a pinhole camera without distortion, and always if the target has two columns.

## C112

* `Verif.VisualFrame.Raw.raw_map_refuted`: the raw coordinates are the place the pixel was taken from. A frame of a camera of the unified projection, undistorted to the same camera: the raw coordinates are right, the map is not.
* `Verif.VisualFrame.Raw.raw_null_refuted`: for a frame without raw camera the call fails cleanly. The pointer is followed without a check.
* `Verif.VisualFrame.Raw.raw_index_refuted`: an index of 2³¹ passes the check, whatever the frame holds, and the keypoint is read out of bounds.

## C113

* `Verif.Camera.pinholeRandomPoint_tiny_refuted`: "creates a random visible point" for all depths that are accepted: up to `1e-10` it is never visible.
* `Verif.Camera.negative_depth_refuted`: "Negative depth means random between 0 and 100 meters". The process ends, for all cameras.
* `Verif.Camera.unifiedRandomKeypoint_one_refuted`: "creates a random valid keypoint": for `xi = 1`, which is valid, it is always the principal point, because the range is divided by zero.
* `Verif.Camera.unified_centre_refuted`: a valid camera whose principal point is not in the image: no draws help, the random keypoint is outside the image and the random point ends the process.
* `Verif.Camera.borderRays_enclose_refuted`: they enclose the rays of all visible keypoints. Keypoints in the outer half of the last column are in the image, but their rays are not combinations of the border rays.
* `Verif.Camera.unifiedRandomKeypoint_reach_refuted`: keypoints up to "the edge of this circle" of radius `1 / sqrt (xi² - 1)`, but for a margin, are not all created: the rectangle is sized with the *square* of the radius. With `xi = 3` no keypoint farther than a tenth of the focal length from the principal point is ever created, although keypoints up to a third of it have rays.

## C114

* `Verif.Kaze.Response.response_transposed_refuted`: next to the border the mixed derivative depends on the order of its derivatives, so the response of the transposed image is not the transposed response.
* `Verif.Kaze.Response.many_octaves_refuted`: with ten octaves the kernel of the last octave is stored out of the array.
* `Verif.Kaze.Response.small_offset_refuted`: with an offset below one half the first level has the scale zero, and its response is not a number.

## C115

* `Verif.Kaze.Orientation.orientation_zero_refuted`: if all gradients point along the axis of x, the angle of the keypoint is not set at all.
* `Verif.Kaze.Orientation.orientation_dominant_refuted`: gradients along the axis of x do not count. However strong they are, a single gradient of another direction, however weak, makes this direction the orientation.

## C116

* `Verif.Kaze.ScaleSpace.gaussian_small_refuted`: with a standard deviation up to 0.35 the size of the kernel has no defined value.
* `Verif.Kaze.ScaleSpace.gaussian_none_refuted`: with a standard deviation up to 0.5 nothing is smoothed.
* `Verif.Kaze.ScaleSpace.smooth_lags_refuted`: the smoothed images, from which keypoints are detected and described, lag behind: that of a level is that of the image of the level before, and the first two are always the same.
* `Verif.Kaze.ScaleSpace.unsupported_refuted`: a diffusivity that is not supported is reported on the console only: the function returns 0, and all levels have the image of the first one.
* `Verif.Kaze.ScaleSpace.run_flat_refuted`: for a flat image the contrast factor is zero and the conductivities are not numbers, so all levels but the first are not either.
* `Verif.Kaze.ScaleSpace.run_flat_defaults_refuted`: with the default options, all levels but the first of a flat image are not numbers.
* `Verif.Kaze.ScaleSpace.run_wide_refuted`: without FED, an image that is not square is out of the memory of the detector, or refused.
* `Verif.Kaze.ScaleSpace.sublevels_refuted`: with 20 sublevels, and otherwise the default options, the constructor does not end well: the cycles have a single step, which cannot be reordered.

## C117

* `Verif.Kaze.Evaluation.nndr_short_refuted`: A keypoint with a single neighbour is read outside of the bounds: this is what a matcher returns if the other image has only one keypoint.
* `Verif.Kaze.Evaluation.nndr_names_refuted`: `queryIdx` is used as an index of `train`: keypoints passed as the names of the parameters suggest are read outside of the bounds.
* `Verif.Kaze.Evaluation.ransac_twice_refuted`: The inliers of an earlier call are kept: two calls with the same vector return every inlier twice.
* `Verif.Kaze.Evaluation.ransac_odd_refuted`: A vector of odd length is read outside of its bounds.
* `Verif.Kaze.Evaluation.homography_alias_refuted`: Filtering a vector in place loses every match, also those that fit.
* `Verif.Kaze.Evaluation.homography_odd_refuted`: A vector of odd length is read outside of its bounds.
* `Verif.Kaze.Evaluation.read_incomplete_refuted`: A file with less than three lines is read with success, but the matrix does not consist of numbers and no pair is an inlier.
* `Verif.Kaze.Evaluation.read_long_refuted`: A first line of more than 255 characters, be it trailing spaces, makes the following lines unread: success is reported, but the matrix does not consist of numbers.
* `Verif.Kaze.Evaluation.save_fewer_refuted`: More descriptors than keypoints: keypoints are read outside of the vector.
* `Verif.Kaze.Evaluation.save_more_refuted`: Keypoints without descriptors are not written, though success is returned.
* `Verif.Kaze.Evaluation.save_zero_refuted`: The ellipse of a keypoint of size zero is not finite.
* `Verif.Kaze.Evaluation.draw_smaller_refuted`: If the second image is narrower than the first and not higher, or has less rows, then it is read outside of its bounds: what is copied is not the resized image.
* `Verif.Kaze.Evaluation.draw_larger_refuted`: A larger second image is cut off while the inliers are scaled: the pixel at the position (2, 0) of the second image is nowhere on the canvas, and its line ends at the pixel (1, 0) of that image.
* `Verif.Kaze.Evaluation.draw_colour_refuted`: Other colours than 0, 1 and 2 draw no lines.

## C118

* `Verif.Lsd.Draw.compare_mat_refuted`: Segments in a matrix as `detect` makes it: only the first of each is compared. Two lists that differ in everything but the first segment are found to be equal.
* `Verif.Lsd.Draw.show_both_refuted`: Without an image, `showSegments` throws for every two lists of segments: the image made has one channel.
* `Verif.Lsd.Draw.draw_mat_refuted`: Of the segments in a matrix as `detect` makes it, only the first is drawn.
* `Verif.Lsd.Draw.draw_colour_refuted`: Drawing on a picture in colour turns it grey, even without any segments.

## C119

* `Verif.Visualization.keypoints_stale_refuted`: Without keypoints of the type the image is left as it is: it does not show the frame but whatever it showed before.
* `Verif.Visualization.keypoints_undescribed_refuted`: A frame with keypoints but without descriptors aborts.
* `Verif.Visualization.matches_negative_refuted`: Negative indices pass the checks and are read outside of the bounds.
* `Verif.Visualization.matches_none_refuted`: If one of the frames has no keypoints of the type, the process aborts even without any matches.

## C120

* `Verif.Target.estimate_refinement_refuted`: whether it is asked for has no effect.

## C121

* `Verif.CameraLife.create_coefficients_refuted`: coefficients that are given together with "no distortion" are accepted and forgotten.
* `Verif.CameraLife.setParameters_refuted`: `setParameters` takes intrinsics that the constructor refuses, and makes a valid camera invalid.
* `Verif.CameraLife.lidar_default_refuted`: a lidar from the default constructor has three parameters instead of four: writing the fourth is undefined.
* `Verif.CameraLife.null_distortion_refuted`: with the distortion object taken away a camera is still valid, but asking whether it has a distortion aborts, copying it aborts, and comparing it is undefined; `removeDistortion` repairs it.
* `Verif.CameraLife.null_parameters_refuted`: coefficients can be given to "no distortion", where they have no effect; but then two cameras that project alike are not equal.
* `Verif.CameraLife.setRandom_refuted`: `setRandom` leaves the flag for compressed images, so that two cameras made random with the same id are not equal.

## C122

* `Verif.VisualFrame.Access.index_check_refuted`: The check of the index does not protect the access: an index of `2^31` (for instance `size_t(int(-2^31))`, and just so `size_t(-1)`) passes it on an empty vector.
* `Verif.VisualFrame.Access.swap_null_refuted`: So a null pointer is not always met by a failing check.

## C123

* `Verif.Yaml.File.malformed_file_refuted`: A malformed file is not always refused: a wrong id in a file ends the program, since only the parsing is guarded.
* `Verif.Yaml.File.full_disk_refuted`: Errors of writing go unnoticed: on a full disk `serializeToFile` returns as if the file had been written, and the camera cannot be read back.
* `Verif.Yaml.File.save_unopened_refuted`: `Save` without assertions returns true although the file could not be opened and nothing was written.
* `Verif.Yaml.File.failed_save_refuted`: A `Save` that fails has already emptied the file that was there.

## C124

* `Verif.Memory.no_collisions_refuted`: Different matrices may have the same hash even if all elements have different hashes (so the comparison in the container is needed): there are two vectors of two integers with the same hash.
* `Verif.Memory.nan_key_refuted`: A key that is not equal to itself (a matrix with a NaN) is not found again.

## C125

* `Verif.Memory.throwing_constructor_refuted`: A constructor that throws leaks: `aligned_unique` does not give the memory back, and no variable holds it.
* `Verif.Memory.second_base_refuted`: The conversion to a pointer to a second base class, which `aligned_delete` allows, ends in undefined behaviour: an address is given back that was not handed out.
* `Verif.Memory.nonvirtual_refuted`: After a conversion to a base class without virtual destructor the object is never destroyed as a whole, though its memory is given back.

## C126

* `Verif.HashId.print_refuted`: **C126 refuted (print tells ids apart).** Two different ids made from integers print alike: the printed form leaves out twelve of sixteen bytes.
* `Verif.HashId.hashPair_refuted`: **C126 refuted (pairs hash well).** All pairs of an id with itself hash alike.
* `Verif.HashId.seed_refuted`: **C126 refuted (salting always changes the seed).** Salting twice with the same value undoes it.

## C127

* `Verif.Yaml.half_read_refuted`: **C127 refuted (valid for life).** A sensor with a generated id (whose last byte is zero, as for the first 2^56 ids of libstdc++) is read from a node with a malformed id; the caller catches the exception; the sensor now has an invalid id, and `getId` ends the program.
* `Verif.Yaml.mixed_id_refuted`: **C127 refuted (failed reading keeps the sensor).** After the exception the id is neither the old one nor the one of the node: its first bytes are those of the node.

## C128

* `Verif.Kaze.Compute.level_refuted`: **C128 refuted (levels are checked).** A keypoint that was not found in this scale space, for example one made by `cv::KeyPoint` with its default `class_id` of -1, leads to undefined behaviour.

## C129

* `Verif.Undistort.scale_refuted`: **C129 refuted (every positive scale).** A scale that leaves one column passes the checks but the call aborts, for every pinhole camera without distortion.
* `Verif.Undistort.construct_pairs_refuted`: **C129 refuted (made maps are accepted).** Maps of the third type, pairs of floats, are rejected (unless the image is empty).
* `Verif.Undistort.construct_null_refuted`: **C129 refuted (null pointers are rejected).** A null pointer for the output camera is looked at; one for the input camera is accepted and looked at by the first image.
* `Verif.Undistort.border_refuted`: **C129 refuted (alpha 0: all pixels valid).** For every pinhole camera without distortion, with exact sizes, and with every alpha: in the undistorted image the last column and the last row are black, whatever the image is.
* `Verif.Undistort.size_refuted`: **C129 refuted (the output camera fits its image).** The size of the output image is computed in single precision, the size for which the camera matrix is made in double precision. At scale 0.7 an image of 640 columns becomes one of 448 columns with the camera matrix for 447, so that with alpha 0 the last column shows rays outside of the inscribed rectangle.

## C130

* `Verif.FeatureTrack.Life.replaced_refuted`: **Refuted: that an identifier goes on referring to the keypoint it was made for.** When another frame is put into the slot, the identifier reads a keypoint of that frame, without a word.
* `Verif.FeatureTrack.Life.asked_refuted`: **Refuted: that an identifier can be asked as long as it lives.** When the slot is emptied, the keypoints are cleared or fewer are set, asking it stops the process.
* `Verif.FeatureTrack.Life.descriptor_refuted`: **Refuted: that an identified keypoint has a descriptor and a camera.** Only the measurements are checked when an identifier is made: with fewer descriptors, with none, or without a rig, asking stops the process.
* `Verif.FeatureTrack.Life.dangling_refuted`: **Refuted: that the references an identifier gives stay good as long as the identifier.** Setting another number of keypoints frees the memory they point to, and so does replacing the frame once no handle to it is left; the identifier is still there, and so is the n-frame.
* `Verif.FeatureTrack.Life.camera_refuted`: **Refuted: that the camera of the identifier is the camera of its frame.** The frame can be given another camera afterwards; the identifier asks the rig.
* `Verif.FeatureTrack.Life.rig_refuted`: **Refuted: that after setting the rig each slot has a frame with the camera of that slot.** One frame may be in two slots; it has the camera of the second one.

## C131

* `Verif.Statistics.sixty_refuted`: **Refuted: that the seconds are below 60.** Just below a minute they are rounded up to 60, with zero minutes.
* `Verif.Statistics.long_refuted`: **Refuted: that every duration can be written.** From `2^31` minutes on, some four thousand years, the conversion to `int` is undefined.
* `Verif.Statistics.heading_refuted`: **Refuted: that the heading of the statistics is in line with the rows.** The rule has eleven characters and no tab after it: with tags of two characters the number sign is at 16, the number at 9 (at 14 with tabs every eight columns).
* `Verif.Statistics.label_refuted`: **Refuted: that the file tells the tags apart.** Tags that differ in a colon give two entries of one name.

## C132

* `Verif.VisualPipeline.Owners.freak_refuted`: **C81** refuted for the FREAK pipeline: the temporary smart pointer deletes the detector at the end of the statement that stores its address, so using the detector is undefined, and destroying the pipeline deletes it a second time.
* `Verif.VisualPipeline.Owners.neon_refuted`: **Refuted: that the settings of BRISK matter on ARM.** There the detector is made with a constant.
* `Verif.VisualPipeline.Owners.octaves_refuted`: **Refuted** for larger numbers of octaves: with `2 ^ 32 + 4` the detector gets 4.

## C133

* `Verif.Camera.Jets.coefficient_refuted`: **Near the centre the jets are right and `distortParameterJacobian` is wrong**, for every valid coefficient but zero: the derivative with respect to the coefficient that the jets give is never the one of the virtual function.
* `Verif.Camera.Jets.boundary_refuted`: **Refuted** on the circle where the formula changes: the jets hold derivatives though the distortion has none.

## C134

* `Verif.RWLock.Scoped.nested_write_refuted`: **C134 (nested locks).** Refuted: a thread that has a lock and makes another one, one of them a write lock, waits for ever, whatever the other threads do, with either class of mutex, and keeps the first.
* `Verif.RWLock.Scoped.nested_read_refuted`: **C134 (nested read locks).** Refuted for the base class: a thread that has a read lock while another thread waits with a write lock, and makes another read lock, waits for ever, whatever the other threads do, and so does the writer.
* `Verif.RWLock.Scoped.upgrade_in_scope_refuted`: **C134 (upgrading).** Refuted: the destructor of a read lock whose mutex was upgraded in the meantime with success (place `i` writes) calls `releaseReadLock`; after it the counter of readers stands at 2^32 - 1, the mutex is locked for writing by nobody, and no lock is given to anybody any more, whatever happens.

## C135

* `Verif.Printing.empty_track_in_table_refuted`: A track without observations is printed alone, not in a table.
* `Verif.Printing.titles_apart_refuted`: The titles of the first two columns are not apart: the second has ten letters.
* `Verif.Printing.format_after_table_refuted`: The format of a stream in which a table was printed is another: notation, precision and fill.
* `Verif.Printing.fixed_notation_refuted`: A stream in scientific notation keeps that flag: the measurements are asked for with both flags, which means hexadecimal numbers.
* `Verif.Printing.kind_of_result_refuted`: The text does not say whether it was a projection or a triangulation.
* `Verif.Printing.camera_name_refuted`: A lidar has no name: nothing is printed for its type.
* `Verif.Printing.lidar_determined_refuted`: Lidars that differ in the last two of their four intrinsics, the centres of the angles, are printed alike.
* `Verif.Printing.label_once_refuted`: The label stands twice, the second time behind the title of the distortion.

## C136

* `Verif.Target.missing_spacing_refuted`: **C136 (refuted): a file without the spacing is not rejected**: what the spacing was before, nothing, is used.
* `Verif.Target.missing_columns_refuted`: **C136 (refuted): a file without the number of columns is not rejected**, nor one in which it cannot be read: the board has six.
* `Verif.Target.missing_size_refuted`: **C136 (refuted): nor is one in which the size of a tag has a wrong key or a unit**: the tags have 88 mm.
* `Verif.Target.border_refuted`: **C136 (refuted): the border of the tags is not read**: what the file says about it does not matter.

## C137

* `Verif.NPipeline.Make.changed_rig_refuted`: the rigs are shared and may change. If a camera of the second rig is replaced after the pipeline is made (`NCamera::setCamera`), the next image ends the program.

## C138

* `Verif.TestRig.fifteen_refuted`: the number of cameras is not uniform over 1 to 15; fifteen is drawn only when the random number is the single end point 1 of its range.
* `Verif.TestRig.not_random_refuted`: there is nothing random about a random rig but its number of cameras, their class and the ids: two rigs of as many cameras, of numbers of the same sign, have the same transformations and cameras that differ by their ids only.
* `Verif.VisualFrame.Test.testNFrame_empty_refuted`: a test n-frame of a rig without cameras has the time 9223372036854775807 instead.

## C139

* `Verif.Distortion.radtan_folds_refuted`: Outside such a disc the lens can fold the image over: two points are distorted to the same one, and of a distorted point another one comes back.
* `Verif.Distortion.radtan_singular_refuted`: And at a point where the image is folded the iteration divides by zero at once.

## C140

* `Verif.OccupancyGrid.rounding_last_row_refuted`: The claim is false for other sizes: in a grid for 480 rows with cells of height `480.0 / 11`, adding a point in the last row of cells, at the last double below 480, ends the program.
* `Verif.OccupancyGrid.rounding_wrong_cell_refuted`: The claim is false for other sizes: in that grid a point is put in a cell that does not contain it.
* `Verif.OccupancyGrid.rounding_zero_cell_refuted`: a cell size of zero passes the checks, and the infinite number of cells has no value as a `size_t`.

## C141

* `Verif.Statistics.timing_hz_refuted`: `Timing::GetHz` is not the number of runs per second: with the two runs it is 1, although they are ten seconds apart, and `Statistics::GetHz` is a tenth.
* `Verif.Statistics.variance_window_refuted`: The variance is not that of the samples whose number and mean are reported: after one sample 1 and a hundred samples 0 it is 0, although the mean is not.
* `Verif.Statistics.unknown_handle_refuted`: Handles that have not been given out are not refused: adding a sample or asking with one is undefined behaviour.

## C142

* `Verif.Lsd.Gamma.code_meaningful_refuted`: a rectangle that the code finds to be meaningful (a positive value) has on average less than one false alarm. With 20 pixels, one of them aligned, and a probability of one half, 10 tests have more than 9 false alarms; the value is positive, with `log_gamma` as it is.

## C143

* `Verif.Channels.Concurrent.deadlock_refuted`: `a == b` in one thread and `b == a` in another can wait for each other for ever: each takes the mutex of its left side first.
* `Verif.Channels.Concurrent.setter_refuted`: Two threads that set the same channel of a frame for the first time can abort the program: both see that there is no channel, and the second to add it fails.
* `Verif.Channels.Concurrent.write_race_refuted`: Setting a channel writes to the object without the mutex, so a thread can be about to write to an object that another thread, which has the mutex, is about to read.
* `Verif.Channels.Concurrent.dangling_refuted`: A channel can be removed while another thread is about to write to it: the object is then in no group, and the reference dangles.
* `Verif.Channels.Concurrent.assign_refuted`: `operator=` takes no mutex: with it two threads can be between reading and writing the same group, and what comes out is what neither order of the two calls gives.

## C144

* `Verif.NPipeline.Shutdown.limit_refuted`: The limit of `processImageBlockingIfFull` does not limit the output queue: only complete n-frames are counted, not the images that are still to be processed. With a limit of one, a thread can put in any number of images without ever being blocked, all of which may then be complete and waiting.

## C145

* `Verif.NPipeline.Sync.two_threads_refuted`: **C145 refuted with two threads.** All images of four triggers are submitted, trigger by trigger; all of them are handled; and there is no complete n-frame for the first trigger: the clean-up deleted the n-frame that was waiting for the image the slow thread still worked on, and that image got an n-frame of its own which stays incomplete.

## C146

* `Verif.TrackManager.Chain.joining_tracks_refuted`: Two tracks that turn out to show the same point cannot be joined: the call aborts. Keypoint 0 of frame 0 was matched with keypoint 0 of frame 1 and keypoint 0 of frame 2 with keypoint 0 of frame 3; a match of the keypoints 0 of the frames 1 and 2, valid and between frames never matched before, ends the program.
* `Verif.TrackManager.Chain.call_order_refuted`: So whether a history succeeds depends on the order of the calls: in the order of the frames the same three calls succeed and all four keypoints share one track.

## C147

* `Verif.OccupancyGrid.Mask.fractional_cells_refuted`: With cells of 2.5 pixels: the pixel (2, 2) is not masked although the place (2, 2) is in a full cell (the rectangle ends at pixel 1), so a point detected there is added to a full cell or replaces another one.
* `Verif.OccupancyGrid.Mask.radius_cut_refuted`: The radius is cut to whole pixels: with a radius of 1.9 the pixel diagonal to a point, at a distance of 1.42, is not masked.

## C148

* `Verif.DescriptorRef.trailing_bytes_refuted`: Descriptors of 20 bytes that differ in the last byte: no bit is reported to differ, but they are not equal.
* `Verif.DescriptorRef.empty_references_refuted`: Nothing is seen through a new reference, a released one and one of size 0, but no two of them are equal: a released reference keeps its size, and one of size 0 has memory.

## C149

* `Verif.Triangulation.stereo_refuted`: a landmark seen at one time by the cameras of a rig that look in one direction from different places is put into the center of the first camera, with the status "successful".
* `Verif.Triangulation.sideways_refuted`: if a camera sees the landmark at a right angle to its axis, as cameras with a mirror can, the solver is given infinities.

## C150

* `Verif.GyroMatcher.last_row_lost_refuted`: A keypoint in the last row of the image is not matched, although the prediction is exact, the descriptors are equal and there is no other keypoint.

## C151

* `Verif.TrackManager.Follow.channel_needed_refuted`: without the channel of track ids in one of the two frames the call ends the process, although the track manager would create it (track-manager.cc:14-22).

## C153

* `Verif.Descriptor.pairwise_distance_refuted`: the numbers are not the Euclidean distances. Two descriptors that differ by 16 in one byte are said to be 0 apart.
* `Verif.Descriptor.pairwise_overflow_refuted`: more than 46341 descriptors overflow the `int` product that sizes the result.

## C154

* `Verif.Kaze.Save.scale_space_again_refuted`: what is written again does not stay the same if all values are above 1000: the least value is half-way to white at first, and black the second time.
* `Verif.Kaze.Save.flat_level_refuted`: a level of one value only is not a picture: its values are not numbers afterwards, in the detector neither.
* `Verif.Kaze.Save.saving_changes_refuted`: writing the responses is not only looking at them: responses below a threshold of a thousandth, none of which would be a keypoint, are above it afterwards.

## C155

* `Verif.GyroTracker.Loop.channel_needed_refuted`: both frames need the channel of track ids: without it in one of them the call ends the process, although the track manager would create it (track-manager.cc:14-22).
