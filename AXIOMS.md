# Axioms of each theorem

Output of `#print axioms` for every theorem of `MANIFEST.json`. `P` is `propext`, `C` is `Classical.choice`, `Q` is `Quot.sound`.

## C01 (proved)

* `Verif.ThreadPool.ordered_tasks_never_overlap`: P, C, Q
* `Verif.ThreadPool.nonExclusive_is_largest`: P, Q

## C02 (proved)

* `Verif.ThreadPool.group_starts_in_submission_order`: P, C, Q
* `Verif.ThreadPool.group_finishes_in_submission_order`: P, C, Q
* `Verif.ThreadPool.earlier_tasks_of_group_finished`: P, C, Q

## C03 (proved)

* `Verif.ThreadPool.task_in_exactly_one_place`: P, C, Q
* `Verif.ThreadPool.task_started_at_most_once`: P, C, Q
* `Verif.ThreadPool.counters_exact`: P, C, Q
* `Verif.ThreadPool.pool_never_faults`: P, C, Q

## C04 (partial)

* `Verif.ThreadPool.runnable_task_stranded_refuted`: P, Q
* `Verif.ThreadPool.runnable_task_not_stranded_partial`: P, C, Q
* `Verif.ThreadPool.all_tasks_done_at_rest_partial`: P, C, Q
* `Verif.ThreadPool.internal_steps_terminate`: P, C, Q
* `Verif.ThreadPool.worker_sleeps_only_if_nothing_may_start`: P, C, Q
* `Verif.ThreadPool.worker_takes_first_startable`: P, C, Q

## C05 (partial)

* `Verif.ThreadPool.stop_drains_refuted`: P
* `Verif.ThreadPool.shutdown_drains_partial`: P, C, Q
* `Verif.ThreadPool.destructor_returns_partial`: P, C, Q
* `Verif.ThreadPool.internal_steps_terminate`: P, C, Q
* `Verif.ThreadPool.waiter_asleep_has_work`: P, C, Q

## C06 (proved)

* `Verif.ThreadPool.wait_returns_only_when_idle`: P, C, Q
* `Verif.ThreadPool.wait_returns_when_idle`: P, C, Q

## C07 (proved)

* `Verif.RWLock.writer_excludes_others`: P, C, Q

## C08 (proved)

* `Verif.RWLock.no_writer_during_upgrade`: P, C, Q
* `Verif.RWLock.one_upgrade_at_a_time`: P, C, Q
* `Verif.RWLock.upgrade_ends_as_writer`: P, C, Q
* `Verif.RWLock.upgrade_decision`: P, C, Q

## C09 (proved)

* `Verif.RWLock.blocked_thread_has_reason`: P, C, Q
* `Verif.RWLock.all_idle_at_rest`: P, C, Q
* `Verif.RWLock.closing_steps_terminate`: P, C, Q

## C10 (partial)

* `Verif.RWLock.isInUse_exact_base`: P, C, Q
* `Verif.RWLock.isInUse_readerFirst_refuted`: P
* `Verif.RWLock.isInUse_readerFirst_partial`: P, C, Q

## C11 (proved)

* `Verif.Serialization.matrix_round_trip`: P, C, Q
* `Verif.Serialization.matrix_encoding_injective`: P, C, Q
* `Verif.Serialization.image_round_trip`: P, C, Q
* `Verif.Serialization.image_length`: P, Q
* `Verif.Serialization.unsupported_image`: P, Q

## C12 (partial)

* `Verif.Serialization.matrix_accepts_only_complete`: P, Q
* `Verif.Serialization.vector_over_read_refuted`: none
* `Verif.Serialization.vector_truncated_payload_refuted`: none
* `Verif.Serialization.vector_accepts_prefix_partial`: P, Q
* `Verif.Serialization.image_overflow_refuted`: P, C, Q
* `Verif.Serialization.image_accepts_only_complete_partial`: P, Q
* `Verif.Serialization.image_wrap_refuted`: P, C, Q

## C13 (proved)

* `Verif.Serialization.vector_round_trip`: P, C, Q

## C14 (partial)

* `Verif.Serialization.scalar_buffer_round_trip`: P, Q
* `Verif.Serialization.scalar_string_round_trip_partial`: P, C, Q
* `Verif.Serialization.scalar_string_round_trip_signed`: P, C, Q
* `Verif.Serialization.scalar_string_refuted`: P, Q
* `Verif.Serialization.double_string_refuted`: none
* `Verif.Serialization.double_string_error_partial`: P, Q
* `Verif.Serialization.stoll_space`: P
* `Verif.Serialization.stoll_other`: P
* `Verif.Serialization.stoll_sign`: P
* `Verif.Serialization.inRange_iff`: P, C, Q
* `Verif.Serialization.micros_tie_even`: P, Q

## C15 (partial)

* `Verif.Channels.step_refines`: P, C, Q
* `Verif.Channels.run_refines`: P, C, Q
* `Verif.Channels.other_channels_unchanged`: P, C, Q
* `Verif.Channels.clone_equal`: P, C, Q
* `Verif.Channels.equal_groups_same_contents`: P, C, Q
* `Verif.Channels.same_contents_equal`: P, C, Q
* `Verif.Channels.clone_shares_pixels_refuted`: P, C, Q
* `Verif.Channels.assign_shares_refuted`: P
* `Verif.Channels.compare_sizes_refuted`: P

## C16 (proved)

* `Verif.OccupancyGrid.bookkeeping`: P, C, Q
* `Verif.OccupancyGrid.cell_exists`: P, C, Q
* `Verif.OccupancyGrid.cell_rejects`: P, C, Q
* `Verif.OccupancyGrid.add_exact`: P, C, Q
* `Verif.OccupancyGrid.reset_empty`: P, C, Q
* `Verif.OccupancyGrid.setWeight_exact`: P, C, Q
* `Verif.OccupancyGrid.create_covers`: P, C, Q
* `Verif.OccupancyGrid.create_zero_cell_refuted`: P, C, Q

## C17 (proved)

* `Verif.OccupancyGrid.bounded_cells_keep_heaviest`: P, C, Q

## C18 (proved)

* `Verif.OccupancyGrid.min_distance_kept`: P, C, Q
* `Verif.OccupancyGrid.min_distance_always`: P, C, Q
* `Verif.OccupancyGrid.min_distance_exact`: P, C, Q
* `Verif.OccupancyGrid.min_distance_total`: P, C, Q

## C19 (partial)

* `Verif.OccupancyGrid.thin_reaches_size_partial`: P, C, Q
* `Verif.OccupancyGrid.thin_aborts_refuted`: P, C, Q

## C20 (proved)

* `Verif.OccupancyGrid.thin_cell_exact`: P, C, Q
* `Verif.OccupancyGrid.thin_cells_exact`: P, C, Q

## C21 (partial)

* `Verif.StlHelpers.erase_vector_exact`: P, C, Q
* `Verif.StlHelpers.erase_vector_rejects`: P, Q
* `Verif.StlHelpers.erase_vector_repeated_refuted`: P, Q
* `Verif.StlHelpers.erase_eigen_exact`: P, C, Q
* `Verif.StlHelpers.erase_eigen_only_exact`: P, C, Q
* `Verif.StlHelpers.erase_eigen_nothing_refuted`: P
* `Verif.StlHelpers.erase_eigen_unordered_refuted`: P
* `Verif.StlHelpers.erase_container_vector_exact`: P, C, Q

## C22 (partial)

* `Verif.StlHelpers.keep_strongest`: P, Q
* `Verif.StlHelpers.kept_sorted`: P, Q
* `Verif.StlHelpers.kept_sorted_refuted`: none
* `Verif.StlHelpers.median_exact`: P, C, Q
* `Verif.StlHelpers.median_empty`: P, C, Q
* `Verif.StlHelpers.orderStat_unique`: P, C, Q
* `Verif.StlHelpers.mean_exact`: P, C, Q
* `Verif.StlHelpers.draw_subset`: P, Q
* `Verif.StlHelpers.draw_all`: P, Q
* `Verif.StlHelpers.draw_terminates`: P, C, Q
* `Verif.StlHelpers.countNested_exact`: P, Q

## C23 (proved)

* `Verif.HashId.hex_round_trip`: P, C, Q
* `Verif.HashId.hexString_format`: P, Q
* `Verif.HashId.hexString_injective`: P, C, Q
* `Verif.HashId.shortHex_spec`: P, Q
* `Verif.HashId.uint64_round_trip`: P, C, Q

## C24 (partial)

* `Verif.HashId.hex_strings_accepted`: P, C, Q
* `Verif.HashId.wrong_length_refused`: P
* `Verif.HashId.accepted_exactly_partial`: P, C, Q
* `Verif.HashId.accepted_bytes`: P, C, Q
* `Verif.HashId.accepts_non_hex_refuted`: P, C, Q
* `Verif.HashId.throws_refuted`: P, C, Q

## C25 (proved)

* `Verif.HashId.eq_iff`: P, C, Q
* `Verif.HashId.lt_strict_total`: P, C, Q
* `Verif.HashId.invalid_iff`: P, C, Q
* `Verif.HashId.hash_consistent`: P, C, Q
* `Verif.HashId.hashPair_symmetric`: P, Q
* `Verif.HashId.hash_is_fnv1a`: P, C, Q
* `Verif.HashId.isSpace_iff`: P, C, Q

## C26 (partial)

* `Verif.HashId.generated_distinct`: P, C, Q
* `Verif.HashId.fromInt_injective`: P, C, Q
* `Verif.HashId.fromInt_valid_partial`: P, C, Q
* `Verif.HashId.fromInt_zero_refuted`: P, C, Q

## C27 (partial)

* `Verif.Time.whole_units_partial`: P, C, Q
* `Verif.Time.whole_units_refuted`: P, C, Q
* `Verif.Time.validTime_iff`: P
* `Verif.Time.timeString_injective`: P, Q
* `Verif.Time.timeString_format_partial`: P, C, Q
* `Verif.Time.timeString_format_refuted`: P, C, Q

## C28 (partial)

* `Verif.NPipeline.grouping`: P, Q
* `Verif.NPipeline.grouped_with_nearest`: P, Q
* `Verif.NPipeline.grouped_new`: P, Q
* `Verif.NPipeline.frames_within_tolerance`: P, Q
* `Verif.NPipeline.work_never_fails`: P, Q
* `Verif.NPipeline.camera_index_check_refuted`: P
* `Verif.NPipeline.Int64.within_292_years`: P, C, Q
* `Verif.NPipeline.Int64.keys_are_times`: P, Q
* `Verif.NPipeline.Int64.invalid_time_always`: P, Q
* `Verif.NPipeline.Int64.invalid_time_refuted`: P

## C29 (proved)

* `Verif.NPipeline.delivered_complete`: P, Q
* `Verif.NPipeline.delivered_once`: P, Q
* `Verif.NPipeline.delivered_not_kept`: P, Q
* `Verif.NPipeline.getNext_oldest`: P, Q
* `Verif.NPipeline.getLatest_newest`: P, Q

## C30 (partial)

* `Verif.NPipeline.cleanup_exact`: P, C, Q
* `Verif.NPipeline.cleanup_incomplete_partial`: P, C, Q
* `Verif.NPipeline.cleanup_isolated_partial`: P, C, Q
* `Verif.NPipeline.cleanup_none_partial`: P, Q
* `Verif.NPipeline.completed_available_partial`: P, Q
* `Verif.NPipeline.complete_discarded_refuted`: P
* `Verif.NPipeline.equal_time_lost_refuted`: P

## C31 (partial)

* `Verif.NPipeline.Shutdown.shutdown_wakes_partial`: P, Q
* `Verif.NPipeline.Shutdown.calls_end_partial`: P, Q
* `Verif.NPipeline.Shutdown.no_deadlock_partial`: P, Q
* `Verif.NPipeline.Shutdown.lost_wakeup_refuted`: P

## C32 (partial)

* `Verif.VisualFrame.discard_effect`: P, C, Q
* `Verif.VisualFrame.discard_aligned_partial`: P, C, Q
* `Verif.VisualFrame.discard_misaligns_refuted`: P
* `Verif.VisualFrame.discard_aborts_refuted`: P

## C33 (proved)

* `Verif.VisualFrame.blocks_tile`: P, Q
* `Verif.VisualFrame.no_descriptors`: none
* `Verif.VisualFrame.index_in_block`: P, Q
* `Verif.VisualFrame.index_unique`: P, Q
* `Verif.VisualFrame.index_out_of_range`: P, Q
* `Verif.VisualFrame.getDescriptor_flat`: P, Q
* `Verif.VisualFrame.type_of_index`: P, Q
* `Verif.VisualFrame.chanOfType_segment`: P, C, Q
* `Verif.VisualFrame.types_match_kept`: P, Q
* `Verif.VisualFrame.types_match_empty`: P, Q
* `Verif.VisualFrame.extend_appends`: P, Q
* `Verif.VisualFrame.duplicate_type_hidden_refuted`: P
* `Verif.VisualFrame.deserialize_without_types_refuted`: P
* `Verif.VisualFrame.setDescriptorTypes_iff`: P, Q
* `Verif.VisualFrame.setDescriptorTypes_else`: P, Q
* `Verif.VisualFrame.deserialize_then_types`: P, Q
* `Verif.VisualFrame.descriptor_calls_defined`: P, Q
* `Verif.VisualFrame.startAndSize_ub`: P, C, Q
* `Verif.VisualFrame.hasDescriptorType_spec`: P, Q

## C34 (proved)

* `Verif.VisualFrame.extend_history`: P, Q
* `Verif.VisualFrame.extend_one`: P, Q

## C35 (partial)

* `Verif.VisualFrame.Copy.fstep_refines`: P, C, Q
* `Verif.VisualFrame.Copy.history_other`: P, C, Q
* `Verif.VisualFrame.Copy.copy_independent`: P, C, Q
* `Verif.VisualFrame.Copy.assign_independent`: P, C, Q
* `Verif.VisualFrame.Copy.same_value_equal`: P, C, Q
* `Verif.VisualFrame.Copy.copy_equal`: P, C, Q
* `Verif.VisualFrame.Copy.copyN_exact`: P, C, Q
* `Verif.VisualFrame.Copy.copyN_independent`: P, C, Q
* `Verif.VisualFrame.Copy.copyN_equal_partial`: P, C, Q
* `Verif.VisualFrame.Copy.copy_shares_pixels_refuted`: P
* `Verif.VisualFrame.Copy.equality_ignores_id_refuted`: P
* `Verif.VisualFrame.Copy.nframe_compare_refuted`: P
* `Verif.VisualFrame.Copy.self_assign_refuted`: P
* `Verif.VisualFrame.Copy.nframeEq_iff`: P, Q
* `Verif.VisualFrame.Copy.frameEq_split`: P, Q
* `Verif.VisualFrame.Copy.frameEqNoCam_iff`: P, Q
* `Verif.VisualFrame.Copy.nframeEqNoRig_iff`: P, Q
* `Verif.VisualFrame.Copy.nframeEq_noRig`: P, Q
* `Verif.VisualFrame.Copy.setCam_unseen`: P, Q
* `Verif.VisualFrame.Copy.setRig_unseen`: P, Q
* `Verif.VisualFrame.Copy.nframeEqNoRig_unset`: P, C, Q

## C36 (partial)

* `Verif.VisualFrame.Copy.min_timestamp_partial`: P, Q
* `Verif.VisualFrame.Copy.max_timestamp`: P, Q
* `Verif.VisualFrame.Copy.min_unset_refuted`: P
* `Verif.Limits.invalid_time`: P, C, Q

## C37 (partial)

* `Verif.TrackManager.apply_effect_partial`: P, C, Q
* `Verif.TrackManager.apply_succeeds_iff`: P, C, Q
* `Verif.TrackManager.id_overflow_refuted`: P, Q

## C38 (partial)

* `Verif.TrackManager.ids_unique_partial`: P, C, Q
* `Verif.TrackManager.unique_kept_iff`: P, C, Q
* `Verif.TrackManager.new_id_never_used_partial`: P, C, Q
* `Verif.TrackManager.crossing_duplicates_refuted`: P, Q
* `Verif.TrackManager.self_match_refuted`: P, Q
* `Verif.TrackManager.reset_reuses_refuted`: P, Q

## C39 (partial)

* `Verif.GyroMatcher.matching_one_to_one_partial`: P, C, Q
* `Verif.GyroMatcher.complement_aborts_refuted`: P, C, Q
* `Verif.GyroMatcher.stale_size_aborts_refuted`: P, C, Q
* `Verif.GyroMatcher.negative_row_refuted`: P, C, Q

## C40 (partial)

* `Verif.GyroMatcher.window_exact_partial`: P, C, Q
* `Verif.GyroMatcher.window_sound`: P, C, Q
* `Verif.GyroMatcher.window_complete_partial`: P, C, Q
* `Verif.GyroMatcher.last_row_refuted`: P, C, Q
* `Verif.GyroMatcher.bottom_row_refuted`: P, C, Q

## C41 (partial)

* `Verif.GyroMatcher.ratio_order_independent_partial`: P, C, Q
* `Verif.GyroMatcher.ratio_order_refuted`: none
* `Verif.GyroMatcher.verdict_exact`: P, C, Q
* `Verif.GyroMatcher.verdict_two`: P, C, Q
* `Verif.GyroMatcher.search_verdict`: P, C, Q
* `Verif.GyroMatcher.relaxed_threshold`: P, C, Q
* `Verif.GyroMatcher.float_ratio`: P, C, Q
* `Verif.GyroMatcher.score_compare`: P, C, Q
* `Verif.GyroMatcher.search_finds`: P, C, Q

## C42 (proved)

* `Verif.GyroTracker.lk_candidates`: P, C, Q
* `Verif.GyroTracker.every_call`: P, C, Q
* `Verif.GyroTracker.first_call`: P, C, Q
* `Verif.GyroTracker.unmatched_exact`: P, C, Q
* `Verif.GyroTracker.unmatched_aborts`: P, C, Q
* `Verif.GyroTracker.erase_exact`: P, C, Q
* `Verif.GyroTracker.ratio_zero`: P, C, Q
* `Verif.GyroTracker.track_manager_accepts`: P, C, Q
* `Verif.GyroTracker.matcher_matches_valid`: P, C, Q
* `Verif.GyroTracker.lk_points_in_roi_partial`: P, C, Q
* `Verif.GyroTracker.roi_wraps_refuted`: P, C, Q

## C43 (partial)

* `Verif.Accumulator.adds_succeed`: P, C, Q
* `Verif.Accumulator.counts_exact`: P, C, Q
* `Verif.Accumulator.means_exact_partial`: P, C, Q
* `Verif.Accumulator.window_statistics_partial`: P, C, Q
* `Verif.Accumulator.exact_id`: P, C, Q
* `Verif.Accumulator.exact_of_integers`: P, C, Q
* `Verif.Accumulator.too_many_refuted`: P, C, Q
* `Verif.Accumulator.rolling_mean_refuted`: P, C, Q
* `Verif.Accumulator.rolling_mean_empty`: P, C, Q
* `Verif.Limits.accumulator_max`: P, C, Q

## C44 (partial)

* `Verif.Statistics.handles_alias_iff`: P, C, Q
* `Verif.Statistics.samples_attributed`: P, C, Q
* `Verif.Statistics.deltas_attributed`: P, C, Q
* `Verif.Statistics.other_unchanged`: P, C, Q
* `Verif.Statistics.query_by_tag`: P, C, Q
* `Verif.Statistics.tag_of_handle`: P, C, Q
* `Verif.Statistics.reset_detaches_refuted`: P, C, Q
* `Verif.Statistics.hasHandle_iff`: P, C, Q

## C45 (partial)

* `Verif.Timer.samples_are_intervals`: P, C, Q
* `Verif.Timer.intervals_once`: P, Q
* `Verif.Timer.handle_kept`: P, C, Q
* `Verif.Timer.created_handle`: P, C, Q
* `Verif.Timer.stop_result`: P, C, Q
* `Verif.Timer.copy_records_twice_refuted`: P, C, Q

## C46 (partial)

* `Verif.Hamming.ssse3_exact`: P, C, Q
* `Verif.Hamming.hamming_distance_partial`: P, C, Q
* `Verif.Hamming.hamming_right_iff`: P, C, Q
* `Verif.Hamming.sums_small`: P, Q
* `Verif.Hamming.neon_distance_partial`: P, C, Q
* `Verif.Hamming.long_descriptor_refuted`: P, C, Q
* `Verif.Hamming.trailing_bytes_refuted`: P, C, Q
* `Verif.Hamming.short_descriptor_refuted`: P, Q
* `Verif.Hamming.unaligned_refuted`: P, Q

## C47 (partial)

* `Verif.Descriptor.setBit_exact`: P, C, Q
* `Verif.Descriptor.flipBit_exact`: P, C, Q
* `Verif.Descriptor.getBit_exact`: P, C, Q
* `Verif.Descriptor.bits_out_of_range`: P, Q
* `Verif.Descriptor.flips_exactly_n`: P, C, Q
* `Verif.Descriptor.reported_after_flips_partial`: P, C, Q
* `Verif.Descriptor.flip_all_aborts_refuted`: P, Q
* `Verif.Descriptor.mean_is_majority`: P, C, Q
* `Verif.Descriptor.descriptorMean_is_majority`: P, C, Q
* `Verif.Descriptor.mean_minimises`: P, C, Q

## C48 (partial)

* `Verif.NCamera.ids_agree_partial`: P, C, Q
* `Verif.NCamera.step_agree`: P, C, Q
* `Verif.NCamera.index_of_id`: P, Q
* `Verif.NCamera.absent_iff`: P, C, Q
* `Verif.NCamera.init_known`: P, C, Q
* `Verif.NCamera.clone_spec`: P, C, Q
* `Verif.NCamera.cloneWithNewIds_spec`: P, C, Q
* `Verif.NCamera.setT_spec`: P, Q
* `Verif.NCamera.construct_spec`: P
* `Verif.NCamera.refusals`: P, Q
* `Verif.NCamera.getTById_unknown`: P
* `Verif.NCamera.without_distortion_spec`: P, C, Q
* `Verif.NCamera.without_distortion_stale_refuted`: P, C, Q
* `Verif.NCamera.same_ids_refuted`: P
* `Verif.NCamera.changed_id_refuted`: P

## C49 (proved)

* `Verif.Camera.pinhole_keypoint`: P, C, Q
* `Verif.Camera.pinhole_project_backProject`: P, C, Q
* `Verif.Camera.pinhole_backProject_project`: P, C, Q
* `Verif.Camera.pinhole_status`: P, C, Q
* `Verif.Camera.pinhole_null_inverse`: P, C, Q
* `Verif.Camera.pinhole_fisheye_inverse`: P, C, Q

## C50 (proved)

* `Verif.Camera.pinhole_jacobian`: P, C, Q
* `Verif.Camera.pinhole_intrinsicsJacobian`: P, C, Q
* `Verif.Camera.pinhole_distortionJacobian`: P, C, Q
* `Verif.Camera.pinhole_radtan_jacobian`: P, C, Q
* `Verif.Camera.pinhole_null_jacobian`: P, C, Q

## C51 (partial)

* `Verif.Camera.pinhole_project4_keypoint`: P, C, Q
* `Verif.Camera.unified_project4_keypoint`: P, C, Q
* `Verif.Camera.project4_scale`: P, C, Q
* `Verif.Camera.pinhole_project4_status_partial`: P, C, Q
* `Verif.Camera.project4_status_refuted`: P, C, Q
* `Verif.Camera.pinhole_project4_jacobian_partial`: P, C, Q
* `Verif.Camera.unified_project4_jacobian_partial`: P, C, Q
* `Verif.Camera.pinhole_project4_negative`: P, C, Q
* `Verif.Camera.project4_jacobian_refuted`: P, C, Q
* `Verif.Camera.backProject4_project4`: P, C, Q

## C52 (partial)

* `Verif.Camera.unified_keypoint`: P, C, Q
* `Verif.Camera.unified_inverse_partial`: P, C, Q
* `Verif.Camera.unified_backProject_project`: P, C, Q
* `Verif.Camera.unified_boundary_refuted`: P, C, Q

## C53 (partial)

* `Verif.Distortion.radtan_jacobian`: P, C, Q
* `Verif.Distortion.radtan_parameterJacobian`: P, C, Q
* `Verif.Distortion.fisheye_jacobian_partial`: P, C, Q
* `Verif.Distortion.fisheye_parameterJacobian_partial`: P, C, Q
* `Verif.Distortion.equidistant_jacobian_partial`: P, C, Q
* `Verif.Distortion.equidistant_parameterJacobian_partial`: P, C, Q
* `Verif.Distortion.fisheye_parameterJacobian_refuted`: P, C, Q
* `Verif.Distortion.fisheye_boundary_refuted`: P, C, Q
* `Verif.Distortion.equidistant_center_refuted`: P, C, Q
* `Verif.Distortion.equidistant_small_refuted`: P, C, Q

## C54 (partial)

* `Verif.Distortion.fisheye_inverse_iff`: P, C, Q
* `Verif.Distortion.fisheye_inverse_partial`: P, C, Q
* `Verif.Distortion.fisheye_zero`: P, C, Q
* `Verif.Distortion.fisheye_inverse_right`: P, C, Q
* `Verif.Distortion.fisheye_inverse_refuted`: P, C, Q

## C55 (partial)

* `Verif.Triangulation.solveSystem_partial`: P, C, Q
* `Verif.Triangulation.solveSystem_wraps`: P, C, Q
* `Verif.Triangulation.nViews_exact_partial`: P, C, Q
* `Verif.Triangulation.nViewsMultiCam_exact_partial`: P, C, Q
* `Verif.Triangulation.nViews_observable`: P, C, Q
* `Verif.Triangulation.nViews_tooFew`: P, C, Q
* `Verif.Triangulation.nViews_success_refuted`: P, C, Q
* `Verif.Triangulation.bearing_exact`: P, C, Q
* `Verif.Triangulation.bearing_observable`: P, C, Q

## C56 (partial)

* `Verif.Triangulation.track_partial`: P, C, Q
* `Verif.Triangulation.track_refuted`: P, C, Q
* `Verif.Triangulation.fast_columns`: P, C, Q
* `Verif.Triangulation.fast_refuted`: P, C, Q

## C57 (partial)

* `Verif.Target.tag_position`: P, C, Q
* `Verif.Target.tag_bijective`: P, C, Q
* `Verif.Target.corner_injective`: P, C, Q
* `Verif.Target.newAprilGrid_ok_iff`: P, C, Q
* `Verif.Target.gridCoordinates_iff`: P, Q
* `Verif.Target.gridCoordinates_partial`: P, C, Q
* `Verif.Target.gridCoordinates_inverse`: P, Q
* `Verif.Target.gridCoordinates_refuted`: P, C, Q
* `Verif.Target.grid_extent`: P, C, Q
* `Verif.Target.gridPoint_spec`: P, Q

## C58 (partial)

* `Verif.Target.observedCornerId_iff`: P, C, Q
* `Verif.Target.index_spec`: P, C, Q
* `Verif.Target.getObservedCornerById_partial`: P, C, Q
* `Verif.Target.getObservedCornerById_complete`: P, C, Q
* `Verif.Target.getObservedCornerById_refuted`: P, Q
* `Verif.Target.correspondingTargetPoints_spec`: P, C, Q
* `Verif.Target.getObservedCorner_spec`: P, Q
* `Verif.Target.getObservedCorner_refuted`: P, Q
* `Verif.Target.getObservedCornerId_spec`: P, Q
* `Verif.Target.getObservedCornerId_refuted`: P, Q
* `Verif.Target.negative_id_aborts`: P, Q

## C59 (partial)

* `Verif.Calibration.intersect_partial`: P, C, Q
* `Verif.Calibration.intersect_concentric`: P, C, Q
* `Verif.Calibration.intersect_touching_refuted`: P, C, Q
* `Verif.Calibration.intersect_equal_refuted`: P, C, Q
* `Verif.Calibration.fit_exact`: P, C, Q
* `Verif.Calibration.fit_defined_iff`: P, C, Q

## C60 (partial)

* `Verif.GeometricVision.reject_partition_partial`: P, C, Q
* `Verif.GeometricVision.rejectIndices_spec`: P, C, Q
* `Verif.GeometricVision.reject_outputs_refuted`: P, C, Q

## C61 (proved)

* `Verif.RWLock.no_new_reader_while_writer_waits`: P, C, Q
* `Verif.RWLock.no_new_reader_while_upgrade_waits`: P, C, Q
* `Verif.RWLock.reader_first_grants_at_once`: P, C, Q

## C62 (partial)

* `Verif.VisualFrame.clear_empty_partial`: P, C, Q
* `Verif.VisualFrame.clear_incomplete_refuted`: P

## C63 (partial)

* `Verif.VisualFrame.Copy.step_consistent_partial`: P, C, Q
* `Verif.VisualFrame.Copy.run_consistent_partial`: P, C, Q
* `Verif.VisualFrame.Copy.camera_changed_refuted`: P
* `Verif.VisualFrame.Copy.shared_frame_refuted`: P
* `Verif.VisualFrame.Copy.frame_twice_refuted`: P
* `Verif.VisualFrame.Copy.self_assign_rig_refuted`: P
* `Verif.VisualFrame.Copy.refused`: P, Q
* `Verif.VisualFrame.Copy.areAllFramesSet_iff`: P
* `Verif.VisualFrame.Copy.isFrameSet_spec`: P
* `Verif.VisualFrame.Copy.hasRawImages_spec`: P, C, Q
* `Verif.VisualFrame.Copy.hasRawImages_unset_refuted`: P
* `Verif.VisualFrame.Copy.releaseRawImages_partial`: P, C, Q
* `Verif.VisualFrame.Copy.releaseRawImages_refuted`: P, C, Q
* `Verif.VisualFrame.Copy.isFrameSet_checked`: P, Q
* `Verif.NCamera.NFrame.no_rig`: P
* `Verif.NCamera.NFrame.queries_agree`: P, Q
* `Verif.NCamera.NFrame.past_the_end`: P, Q
* `Verif.NCamera.NFrame.unknown_index_refuted`: P, C, Q

## C64 (partial)

* `Verif.Descriptor.median_minimises_partial`: P, C, Q
* `Verif.Descriptor.deviation_is_least_average_partial`: P, C, Q
* `Verif.Descriptor.floatMean_is_fraction`: P, C, Q
* `Verif.Descriptor.squaredDeviation_exact`: P, C, Q
* `Verif.Descriptor.median_long_refuted`: P, C, Q
* `Verif.Descriptor.deviation_long_refuted`: P, C, Q
* `Verif.Descriptor.median_unaligned_refuted`: P, Q

## C65 (partial)

* `Verif.DescriptorRef.step_safe`: P, C, Q
* `Verif.DescriptorRef.run_safe`: P, C, Q
* `Verif.DescriptorRef.no_double_free_no_leak`: P, C, Q
* `Verif.DescriptorRef.assign_is_deep`: P, C, Q
* `Verif.DescriptorRef.copy_is_deep`: P, C, Q
* `Verif.DescriptorRef.write_is_private`: P, Q
* `Verif.DescriptorRef.assign_released_refuted`: P
* `Verif.DescriptorRef.copy_uninitialised_refuted`: P

## C66 (partial)

* `Verif.Distortion.newtonStep_solves`: P, C, Q
* `Verif.Distortion.newtonStep_none`: P, C, Q
* `Verif.Distortion.newtonLoop_end`: P, C, Q
* `Verif.Distortion.newtonLoop_fixed`: P, C, Q
* `Verif.Distortion.radtan_undistort_zero`: P, C, Q
* `Verif.Distortion.radtan_undistort_center`: P, C, Q
* `Verif.Distortion.equidistant_undistort_near`: P, C, Q
* `Verif.Distortion.equidistant_undistort_refuted`: P, C, Q

## C67 (proved)

* `Verif.Camera.unified_status`: P, C, Q
* `Verif.Camera.unified_scale`: P, C, Q
* `Verif.Camera.unified_jacobian`: P, C, Q
* `Verif.Camera.unified_intrinsicsJacobian`: P, C, Q
* `Verif.Camera.unified_distortionJacobian`: P, C, Q
* `Verif.Camera.unified_radtan_jacobians`: P, C, Q
* `Verif.Camera.unified_null_jacobians`: P, C, Q

## C68 (partial)

* `Verif.Camera.visible_iff`: P, C, Q
* `Verif.Camera.margin_iff`: P, C, Q
* `Verif.Camera.margin_zero`: P, C, Q
* `Verif.Camera.masked_iff`: P, C, Q
* `Verif.Camera.project3Vectorized_map`: P, C, Q
* `Verif.Camera.backProject3Vectorized_map`: P, C, Q
* `Verif.Camera.isProjectable_iff`: P, C, Q
* `Verif.Camera.isProjectable_refuted`: P, C, Q
* `Verif.Camera.isProjectable4_iff`: P, C, Q
* `Verif.Camera.isProjectable4_infinity`: P, C, Q
* `Verif.Camera.isProjectable4_refuted`: P, C, Q

## C69 (partial)

* `Verif.Camera.lidar_backProject`: P, C, Q
* `Verif.Camera.lidar_project_backProject_partial`: P, C, Q
* `Verif.Camera.lidar_project_backProject_sector`: P, C, Q
* `Verif.Camera.lidar_backProject_project`: P, C, Q
* `Verif.Camera.lidar_status`: P, C, Q
* `Verif.Camera.lidar_seam_refuted`: P, C, Q
* `Verif.Camera.lidar_wrap_refuted`: P, C, Q
* `Verif.Camera.lidar_external_refuted`: P, C, Q

## C70 (partial)

* `Verif.Triangulation.gn_predicted`: P, C, Q
* `Verif.Triangulation.gn_exact`: P, C, Q
* `Verif.Triangulation.gn_jacobian`: P, C, Q
* `Verif.Triangulation.gn_step`: P, C, Q
* `Verif.Triangulation.gn_fixed`: P, C, Q
* `Verif.Triangulation.gn_status_refuted`: P, C, Q
* `Verif.Triangulation.gn_stops_refuted`: P, C, Q
* `Verif.Triangulation.gn_returns`: P, C, Q
* `Verif.Triangulation.gn_falls`: P, C, Q

## C71 (partial)

* `Verif.Target.detect_spec`: P, C, Q
* `Verif.Target.detect_negative_refuted`: P, C, Q

## C72 (partial)

* `Verif.Calibration.conicRows_exact`: P, C, Q
* `Verif.Calibration.conic_exact_partial`: P, C, Q
* `Verif.Calibration.conic_garbage_refuted`: P, C, Q

## C73 (partial)

* `Verif.GeometricVision.pose3d_inliers_partial`: P, C, Q
* `Verif.GeometricVision.inliersOf_spec`: P, C, Q
* `Verif.GeometricVision.pose3d_fewer`: P, C, Q
* `Verif.GeometricVision.pose3d_transformation_refuted`: P, C, Q
* `Verif.GeometricVision.pose3d_best_refuted`: P, C, Q
* `Verif.GeometricVision.pose3d_few_refuted`: P, C, Q
* `Verif.GeometricVision.pose3d_camera_refuted`: P, C, Q

## C74 (proved)

* `Verif.GeometricVision.rotate_mul`: P, C, Q
* `Verif.GeometricVision.rotate_inverse`: P, C, Q
* `Verif.GeometricVision.rotate_posSemidef`: P, C, Q
* `Verif.GeometricVision.rotate_symmetric`: P, C, Q
* `Verif.GeometricVision.rotate_variance`: P, C, Q
* `Verif.GeometricVision.rotate_trace`: P, C, Q

## C75 (partial)

* `Verif.GeometricVision.bearing_spec`: P, C, Q
* `Verif.GeometricVision.bearing_matches_partial`: P, C, Q
* `Verif.GeometricVision.bearing_index_refuted`: P
* `Verif.GeometricVision.bearing_index_far`: P, Q
* `Verif.GeometricVision.bearing_failure_refuted`: P
* `Verif.GeometricVision.predict_spec`: P, C, Q
* `Verif.GeometricVision.predict_identity`: P, C, Q
* `Verif.GeometricVision.predict_compose`: P, C, Q
* `Verif.GeometricVision.predict_inverse`: P, C, Q
* `Verif.GeometricVision.predict_empty_refuted`: P, C, Q

## C76 (partial)

* `Verif.GeometricVision.threshold_center_partial`: P, C, Q
* `Verif.GeometricVision.threshold_refuted`: P, C, Q
* `Verif.GeometricVision.threshold_range`: P, C, Q
* `Verif.GeometricVision.pnp_result`: P, C, Q
* `Verif.GeometricVision.pnp_rejects`: P, C, Q
* `Verif.GeometricVision.pnp_failure_refuted`: P, C, Q
* `Verif.GeometricVision.multi_threshold`: P, C, Q
* `Verif.GeometricVision.multi_threshold_single`: P, C, Q
* `Verif.GeometricVision.multi_result`: P, C, Q

## C77 (partial)

* `Verif.VisualFrame.columns_spec`: P, Q
* `Verif.VisualFrame.insertEmpty_spec`: P, C, Q
* `Verif.VisualFrame.insertEmpty_accepts`: P, C, Q
* `Verif.VisualFrame.insertEmpty_aligned_partial`: P, C, Q
* `Verif.VisualFrame.insertEmpty_aligned_refuted`: P, Q
* `Verif.VisualFrame.insertAdditional_partial`: P, Q
* `Verif.VisualFrame.insertAdditional_aligned`: P, Q
* `Verif.VisualFrame.insert_insert`: P, C, Q
* `Verif.VisualFrame.insertAdditional_blocks_refuted`: P, Q
* `Verif.VisualFrame.insertAdditional_cleared_refuted`: P, C, Q
* `Verif.VisualFrame.insertAdditional_short_refuted`: P
* `Verif.VisualFrame.insertAdditional_rejects`: P

## C78 (partial)

* `Verif.Undistort.outer_spec`: P, C, Q
* `Verif.Undistort.inner_spec`: P, C, Q
* `Verif.Undistort.matrix_checks`: P, C, Q
* `Verif.Undistort.matrix_interpolates`: P, C, Q
* `Verif.Undistort.matrix_inner`: P, C, Q
* `Verif.Undistort.matrix_outer_partial`: P, C, Q
* `Verif.Undistort.matrix_valid`: P, C, Q
* `Verif.Undistort.matrix_scale_refuted`: P, C, Q
* `Verif.Undistort.rectangles_null`: P, C, Q
* `Verif.Undistort.matrix_null`: P, C, Q
* `Verif.Undistort.matrix_identity_refuted`: P, C, Q
* `Verif.Limits.edges_max`: P, C, Q

## C79 (partial)

* `Verif.Undistort.map_ray_partial`: P, C, Q
* `Verif.Undistort.map_pinhole_partial`: P, C, Q
* `Verif.Undistort.map_unified_pinhole_partial`: P, C, Q
* `Verif.Undistort.map_identity`: P, C, Q
* `Verif.Undistort.map_unified_refuted`: P, C, Q
* `Verif.Undistort.map_border_refuted`: P, C, Q
* `Verif.Undistort.pack_exact_partial`: P, C, Q
* `Verif.Undistort.pack_error_partial`: P, C, Q
* `Verif.Undistort.pack_wrap_refuted`: P, C, Q

## C80 (partial)

* `Verif.VisualPipeline.process_spec`: P, Q
* `Verif.VisualPipeline.process_size`: P, Q
* `Verif.VisualPipeline.process_copy`: P, Q
* `Verif.VisualPipeline.process_shared`: P, Q
* `Verif.VisualPipeline.process_keypoints`: P, Q
* `Verif.VisualPipeline.construct_spec`: P
* `Verif.VisualPipeline.construct_undistorter_refuted`: P
* `Verif.VisualPipeline.detect_aligned_partial`: P, C, Q
* `Verif.VisualPipeline.detect_none`: P, C, Q
* `Verif.VisualPipeline.detect_then_insert`: P, C, Q

## C81 (partial)

* `Verif.VisualPipeline.brisk_owns`: P, C, Q
* `Verif.VisualPipeline.freak_refuted`: P, Q

## C82 (partial)

* `Verif.FeatureTrack.create_spec`: P, Q
* `Verif.FeatureTrack.create_measurement`: P, Q
* `Verif.FeatureTrack.add_spec`: P, Q
* `Verif.FeatureTrack.pop_empty_refuted`: none
* `Verif.FeatureTrack.built_measurements`: P, Q
* `Verif.FeatureTrack.order_spec`: P, C, Q
* `Verif.FeatureTrack.continued_spec`: P, C, Q
* `Verif.FeatureTrack.diagonal_partial`: P, C, Q
* `Verif.FeatureTrack.diagonal_bounds`: P, C, Q
* `Verif.FeatureTrack.diagonal_mono`: P, C, Q
* `Verif.FeatureTrack.diagonal_negative_refuted`: P, C, Q
* `Verif.FeatureTrack.diagonal_empty`: P, C, Q
* `Verif.FeatureTrack.measurements_of`: P, Q
* `Verif.FeatureTrack.track_diagonal`: P, C, Q
* `Verif.Limits.track_max`: P, C, Q
* `Verif.Limits.track_min`: P, C, Q

## C83 (proved)

* `Verif.StlHelpers.stddev_spec`: P, C, Q
* `Verif.StlHelpers.stddev_zero`: P, C, Q
* `Verif.StlHelpers.stddev_shift`: P, C, Q

## C84 (partial)

* `Verif.Yaml.matrix_round_trip`: P, C, Q
* `Verif.Yaml.encode_empty_refuted`: P, Q
* `Verif.Yaml.encode_aborts`: P, C, Q
* `Verif.Yaml.decoded_shape`: P, C, Q
* `Verif.Yaml.decode_linear`: P, C, Q
* `Verif.Yaml.decode_wrong_length`: P, C, Q
* `Verif.Yaml.decode_no_size`: P, Q
* `Verif.Yaml.decode_wrong_type`: P, C, Q
* `Verif.Yaml.decode_rows_partial`: P, C, Q
* `Verif.Yaml.decode_long_rows_refuted`: P, C, Q
* `Verif.Yaml.decode_column_rows_refuted`: P, C, Q
* `Verif.Yaml.decode_short_row_refuted`: P, C, Q
* `Verif.Yaml.decode_zero_refuted`: P, C, Q
* `Verif.Yaml.safeGet_spec`: P, Q
* `Verif.Yaml.get_set`: P

## C85 (partial)

* `Verif.Yaml.camera_round_trip`: P, C, Q
* `Verif.Yaml.factory_round_trip_partial`: P, C, Q
* `Verif.Yaml.mask_lost_refuted`: P, C, Q
* `Verif.Yaml.deserialize_sound`: P, C, Q
* `Verif.Yaml.created_sound`: P, C, Q
* `Verif.Yaml.other_model_refuted`: P, C, Q
* `Verif.Yaml.failed_load_refuted`: P, C, Q
* `Verif.Yaml.missing_default_refuted`: P, C, Q
* `Verif.Yaml.malformed_id_refuted`: P, C, Q
* `Verif.Yaml.stale_distortion_refuted`: P, C, Q
* `Verif.Yaml.missing_id`: P, C, Q
* `Verif.Yaml.intrinsicsValid_iff`: P, Q
* `Verif.Yaml.distValid_iff`: P, C, Q
* `Verif.Yaml.deserialize_good`: P, C, Q
* `Verif.Yaml.serialize_invalid`: P, Q
* `Verif.Yaml.created_defaults`: P, C, Q

## C86 (partial)

* `Verif.Yaml.rig_round_trip_partial`: P, C, Q
* `Verif.Yaml.read_rig_sound`: P, C, Q
* `Verif.Yaml.read_rig_map`: P, C, Q
* `Verif.Yaml.initInternal_iff`: P, Q
* `Verif.Yaml.initInternal_map`: P, C, Q
* `Verif.Yaml.loadCams_prefix`: P, C, Q
* `Verif.Yaml.mounting_ways`: P, Q
* `Verif.Yaml.reload_refuted`: P, C, Q
* `Verif.Yaml.stale_covariance_refuted`: P, C, Q
* `Verif.Yaml.empty_rig_refuted`: P, C, Q
* `Verif.Yaml.failed_rig_refuted`: P, C, Q
* `Verif.Limits.freshRig_spec`: P, Q

## C87 (partial)

* `Verif.Yaml.camEqual_iff`: P, C, Q
* `Verif.Yaml.camEqual_refl`: P, C, Q
* `Verif.Yaml.camEqual_symm`: P, C, Q
* `Verif.Yaml.round_trip_equal`: P, C, Q
* `Verif.Yaml.rigEqual_refl`: P, C, Q
* `Verif.Yaml.rigEqual_symm`: P, C, Q
* `Verif.Yaml.rigEqual_iff`: P, C, Q
* `Verif.Yaml.rigEqual_spec`: P, C, Q
* `Verif.Yaml.rig_round_trip_equal`: P, C, Q
* `Verif.Yaml.equal_mask_refuted`: P, C, Q
* `Verif.Yaml.equal_transitive_refuted`: P, C, Q
* `Verif.Yaml.equal_covariance_refuted`: P, C, Q
* `Verif.Limits.matClose_iff`: P, C, Q

## C88 (partial)

* `Verif.CameraMask.delay_spec`: P, C, Q
* `Verif.CameraMask.delay_mono`: P, C, Q
* `Verif.CameraMask.maxDelay_partial`: P, C, Q
* `Verif.CameraMask.maxDelay_lidar_refuted`: P, C, Q
* `Verif.CameraMask.lidarDelay_spec`: P, C, Q
* `Verif.CameraMask.global_shutter`: P, C, Q
* `Verif.CameraMask.columnMode_iff`: P
* `Verif.CameraMask.delay_above_refuted`: P, C, Q
* `Verif.CameraMask.delay_wrap_refuted`: P, C, Q
* `Verif.CameraMask.delay_nan_refuted`: P, C, Q
* `Verif.CameraMask.delay_defined_iff`: P, C, Q

## C89 (partial)

* `Verif.CameraMask.isMasked_spec`: P, C, Q
* `Verif.CameraMask.setMask_iff`: none
* `Verif.CameraMask.setMask_spec`: P, C, Q
* `Verif.CameraMask.no_mask`: P
* `Verif.CameraMask.run_fits`: P, C, Q
* `Verif.CameraMask.clone_spec`: P, C, Q
* `Verif.CameraMask.clone_independent`: P, C, Q
* `Verif.CameraMask.inf_masked`: P, C, Q
* `Verif.CameraMask.resize_refuted`: P, C, Q
* `Verif.CameraMask.nan_refuted`: P, C, Q
* `Verif.CameraMask.shared_refuted`: P, C, Q

## C90 (partial)

* `Verif.Kaze.Fed.isPrime_iff`: P, C, Q
* `Verif.Kaze.Fed.nextPrime_some`: P, C, Q
* `Verif.Kaze.Fed.reorder_perm`: P, C, Q
* `Verif.Kaze.Fed.reorder_single`: P, C, Q
* `Verif.Kaze.Fed.steps_enough`: P, C, Q
* `Verif.Kaze.Fed.steps_least`: P, C, Q
* `Verif.Kaze.Fed.steps_le`: P, C, Q
* `Verif.Kaze.Fed.byProcessTime_plain_partial`: P, C, Q
* `Verif.Kaze.Fed.byProcessTime_reordered_partial`: P, C, Q
* `Verif.Kaze.Fed.byCycleTime_short_ub`: P, C, Q
* `Verif.Kaze.Fed.byProcessTime_reordered_refuted`: P, C, Q
* `Verif.Kaze.Fed.byCycleTime_tiny`: P, C, Q
* `Verif.Kaze.Fed.byProcessTime_tiny_refuted`: P, C, Q

## C91 (partial)

* `Verif.Kaze.Diffusion.conductivity_range_partial`: P, C, Q
* `Verif.Kaze.Diffusion.conductivity_pos`: P, C, Q
* `Verif.Kaze.Diffusion.conductivity_flat`: P, C, Q
* `Verif.Kaze.Diffusion.conductivity_antitone`: P, C, Q
* `Verif.Kaze.Diffusion.conductivity_refuted`: P, C, Q
* `Verif.Kaze.Diffusion.nldStep_total`: P, C, Q
* `Verif.Kaze.Diffusion.nldStep_small`: P, C, Q
* `Verif.Kaze.Diffusion.nldStep_range`: P, C, Q
* `Verif.Kaze.Diffusion.nldStep_range_sharp`: P, C, Q
* `Verif.Kaze.Diffusion.nldSteps_energy`: P, C, Q
* `Verif.Kaze.Diffusion.nldSteps_total`: P, C, Q
* `Verif.Kaze.Diffusion.level_spread`: P, C, Q

## C92 (partial)

* `Verif.Kaze.Diffusion.thomas_solves`: P, C, Q
* `Verif.Kaze.Diffusion.pivot_ge`: P, C, Q
* `Verif.Kaze.Diffusion.aosStep_ok_partial`: P, C, Q
* `Verif.Kaze.Diffusion.aosStep_solves`: P, C, Q
* `Verif.Kaze.Diffusion.aosStep_total`: P, C, Q
* `Verif.Kaze.Diffusion.aosStep_range`: P, C, Q
* `Verif.Kaze.Diffusion.aosStep_spread`: P, C, Q
* `Verif.Kaze.Diffusion.aosStep_wide`: P, C, Q
* `Verif.Kaze.Diffusion.aosStep_refuted`: P, C, Q
* `Verif.Kaze.Diffusion.aosStep_refuted_tall`: P, C, Q

## C93 (partial)

* `Verif.Kaze.Contrast.kPercentile_spec`: P, C, Q
* `Verif.Kaze.Contrast.kPercentile_pos_partial`: P, C, Q
* `Verif.Kaze.Contrast.kPercentile_zero`: P, C, Q
* `Verif.Kaze.Contrast.kPercentile_flat_refuted`: P, C, Q
* `Verif.Kaze.Contrast.computeMin_partial`: P, C, Q
* `Verif.Kaze.Contrast.computeMin_refuted`: P, C, Q
* `Verif.Kaze.Contrast.computeMax_partial`: P, C, Q
* `Verif.Kaze.Contrast.computeMax_refuted`: P, C, Q
* `Verif.Kaze.Contrast.convertScale_partial`: P, C, Q
* `Verif.Kaze.Contrast.convertScale_flat_refuted`: P, C, Q
* `Verif.Kaze.Contrast.convertScale_refuted`: P, C, Q

## C94 (partial)

* `Verif.Kaze.Extrema.isExtremum_iff`: P, C, Q
* `Verif.Kaze.Extrema.findLevel_iff`: P, C, Q
* `Verif.Kaze.Extrema.findLevel_nodup`: P, C, Q
* `Verif.Kaze.Extrema.mergeStep_cases`: P, C, Q
* `Verif.Kaze.Extrema.detect_sound`: P, C, Q
* `Verif.Kaze.Extrema.detect_strongest`: P, C, Q
* `Verif.Kaze.Extrema.detect_far`: P, C, Q
* `Verif.Kaze.Extrema.detect_near_refuted`: P, C, Q
* `Verif.Kaze.Extrema.detect_border_refuted`: P, C, Q
* `Verif.Kaze.Extrema.detect_stale_refuted`: P, C, Q
* `Verif.Kaze.Extrema.detect_empty`: P, C, Q

## C95 (partial)

* `Verif.Kaze.Extrema.refineOne_belongs`: P, C, Q
* `Verif.Kaze.Extrema.refineAll_belongs`: P, C, Q
* `Verif.Kaze.Extrema.features_spec`: P, C, Q
* `Verif.Kaze.Extrema.refineOne_quadratic`: P, C, Q
* `Verif.Kaze.Extrema.cramer_right`: P, C, Q
* `Verif.Kaze.Extrema.solves_unique`: P, C, Q
* `Verif.Kaze.Extrema.refine_singular_refuted`: P, C, Q
* `Verif.Kaze.Extrema.refine_stale_refuted`: P, C, Q

## C96 (partial)

* `Verif.Kaze.Descriptor.raw_length`: P, C, Q
* `Verif.Kaze.Descriptor.lengthSq_eq`: P, C, Q
* `Verif.Kaze.Descriptor.descriptor_none_iff`: P, C, Q
* `Verif.Kaze.Descriptor.descriptor_unit`: P, C, Q
* `Verif.Kaze.Descriptor.descriptor_inside`: P, C, Q
* `Verif.Kaze.Descriptor.descriptor_contrast`: P, C, Q
* `Verif.Kaze.Descriptor.bins_bound`: P, C, Q
* `Verif.Kaze.Descriptor.extended_splits`: P, C, Q
* `Verif.Kaze.Descriptor.interp_linear`: P, C, Q
* `Verif.Kaze.Descriptor.interp_range_msurf`: P, C, Q
* `Verif.Kaze.Descriptor.interp_range_refuted`: P, C, Q
* `Verif.Kaze.Descriptor.interp_msurf_refuted`: P, C, Q
* `Verif.Kaze.Descriptor.descriptor_flat_refuted`: P, C, Q
* `Verif.Kaze.Descriptor.gsurf_ramp_refuted`: P, C, Q
* `Verif.Kaze.Descriptor.surf_rotation`: P, C, Q
* `Verif.Kaze.Descriptor.upright_refuted`: P, C, Q
* `Verif.Kaze.Descriptor.msurf_centre_refuted`: P, C, Q
* `Verif.Kaze.Descriptor.orientationSamples_length`: none
* `Verif.Kaze.Descriptor.position_rotated`: P, C, Q
* `Verif.Kaze.Descriptor.position_upright`: P, C, Q
* `Verif.Kaze.Descriptor.gauge_directions`: P, C, Q
* `Verif.Kaze.Descriptor.msurf_cells`: P, C, Q
* `Verif.Kaze.Descriptor.surf_cells`: P, C, Q
* `Verif.Kaze.Descriptor.weight_symm`: P, C, Q
* `Verif.Kaze.Descriptor.cell_sums`: P, C, Q

## C97 (partial)

* `Verif.Lsd.Lines.filterLoop_spec`: P, C, Q
* `Verif.Lsd.Lines.filterSize_spec`: P, C, Q
* `Verif.Lsd.Lines.filterSize_unlimited`: P, C, Q
* `Verif.Lsd.Lines.filterSize_nolimits`: P, C, Q
* `Verif.Lsd.Lines.angle_partition`: P, C, Q
* `Verif.Lsd.Lines.exactAtan2_range`: P, C, Q
* `Verif.Lsd.Lines.angle_direction`: P, C, Q
* `Verif.Lsd.Lines.angle_reverse`: P, C, Q
* `Verif.Lsd.Lines.retained_iff`: P, C, Q
* `Verif.Lsd.Lines.filter_matrix_refuted`: P, C, Q
* `Verif.Lsd.Lines.detect_spec`: P, C, Q

## C98 (partial)

* `Verif.Lsd.Lines.intersection_false_iff`: P, C, Q
* `Verif.Lsd.Lines.intersection_point`: P, C, Q
* `Verif.Lsd.Lines.intersection_fits`: P, C, Q
* `Verif.Lsd.Lines.intersection_empty`: P, C, Q
* `Verif.Lsd.Lines.intersection_symm`: P, C, Q
* `Verif.Lsd.Lines.intersection_on_both_refuted`: P, C, Q
* `Verif.Lsd.Lines.intersection_segments_refuted`: P, C, Q

## C99 (partial)

* `Verif.Lsd.angleDiffSigned_range`: P, C, Q
* `Verif.Lsd.angleDiffSigned_turns`: P, C, Q
* `Verif.Lsd.angleDiff_least`: P, C, Q
* `Verif.Lsd.angleDiff_symm`: P, C, Q
* `Verif.Lsd.within_iff`: P, C, Q
* `Verif.Lsd.isAligned_some`: P, C, Q
* `Verif.Lsd.isAligned_iff`: P, C, Q
* `Verif.Lsd.isAligned_none`: P, C, Q
* `Verif.Lsd.isAligned_wide_refuted`: P, C, Q
* `Verif.Lsd.doubleEqual_refl`: P, C, Q
* `Verif.Lsd.doubleEqual_symm`: P, C, Q
* `Verif.Lsd.doubleEqual_zero_iff`: P, C, Q

## C100 (partial)

* `Verif.Lsd.regionGrow_all`: P, C, Q
* `Verif.Lsd.regionGrow_spec`: P, C, Q
* `Verif.Lsd.regionGrow_complete`: P, C, Q
* `Verif.Lsd.IsRegion.connected`: P, C, Q
* `Verif.Lsd.IsRegion.size`: P, C, Q
* `Verif.Lsd.bend_grow`: P, C, Q
* `Verif.Lsd.region_mean_refuted`: P, C, Q

## C101 (partial)

* `Verif.Lsd.region2rect_form`: P, C, Q
* `Verif.Lsd.rect_line`: P, C, Q
* `Verif.Lsd.rect_ends`: P, C, Q
* `Verif.Lsd.rect_ends_reached`: P, C, Q
* `Verif.Lsd.rect_width`: P, C, Q
* `Verif.Lsd.rect_axis`: P, C, Q
* `Verif.Lsd.orient_within`: P, C, Q
* `Verif.Lsd.orient_axis`: P, C, Q
* `Verif.Lsd.region2rect_single`: P, C, Q
* `Verif.Lsd.region2rect_ok`: P, C, Q
* `Verif.Lsd.bump_rect`: P, C, Q
* `Verif.Lsd.rect_bounding_refuted`: P, C, Q
* `Verif.Lsd.rect_oriented_refuted`: P, C, Q

## C102 (proved)

* `Verif.Lsd.tolerance_eq`: P, C, Q
* `Verif.Lsd.nearDiffs_ne_nil`: P, C, Q
* `Verif.Lsd.nearDiffs_mem`: P, C, Q
* `Verif.Lsd.dense_iff`: P, C, Q
* `Verif.Lsd.removeFar_spec`: P, C, Q
* `Verif.Lsd.removeFar_owns`: P, C, Q
* `Verif.Lsd.reduce_spec`: P, C, Q
* `Verif.Lsd.refine_spec`: P, C, Q

## C103 (proved)

* `Verif.Lsd.norm_eq`: P, C, Q
* `Verif.Lsd.ll_defined`: P, C, Q
* `Verif.Lsd.ll_mod`: P, C, Q
* `Verif.Lsd.ll_direction`: P, C, Q
* `Verif.Lsd.ramp_slopes`: P, C, Q

## C104 (partial)

* `Verif.Lsd.bin_lt`: P, C, Q
* `Verif.Lsd.llList_spec`: P, C, Q
* `Verif.Lsd.llList_points`: P, C, Q
* `Verif.Lsd.list_order_refuted`: P, C, Q

## C105 (partial)

* `Verif.Lsd.nfa_none`: P, C, Q
* `Verif.Lsd.nfa_all`: P, C, Q
* `Verif.Lsd.nfa_offset`: P, C, Q
* `Verif.Lsd.nfa_refuted`: P, C, Q
* `Verif.Lsd.nfa_meaningful_refuted`: P, C, Q

## C106 (partial)

* `Verif.Lsd.rectPixels_spec`: P, C, Q
* `Verif.Lsd.corners_spec`: P, C, Q
* `Verif.Lsd.scanRows_upper`: P, C, Q
* `Verif.Lsd.diamond_counted`: P, C, Q
* `Verif.Lsd.counts_le`: P, C, Q
* `Verif.Lsd.alignedCount_spec`: P, C, Q
* `Verif.Lsd.counted_refuted`: P, C, Q
* `Verif.Lsd.improve_value`: P, C, Q
* `Verif.Lsd.improve_good`: P, C, Q
* `Verif.Lsd.improve_finer`: P, C, Q
* `Verif.Lsd.improve_narrower`: P, C, Q
* `Verif.Lsd.Narrower.inside`: P, C, Q
* `Verif.Lsd.shrink_sides`: P, C, Q
* `Verif.Lsd.rectNfa_spec`: P, C, Q

## C107 (partial)

* `Verif.Lsd.visit_inv`: P, C, Q
* `Verif.Lsd.quant_steep`: P, C, Q
* `Verif.Lsd.minReg_two`: P, C, Q
* `Verif.Lsd.flsd_spec`: P, C, Q
* `Verif.Lsd.aslam_flsd`: P, C, Q
* `Verif.Lsd.apart_count`: P, C, Q
* `Verif.Lsd.segment_pixel`: P, C, Q
* `Verif.Lsd.segment_ends`: P, C, Q
* `Verif.Lsd.tiny_minReg`: P, C, Q
* `Verif.Lsd.flsd_fails_refuted`: P, C, Q

## C108 (partial)

* `Verif.NumDiff.step_pos`: P, C, Q
* `Verif.NumDiff.step_eq`: P, C, Q
* `Verif.NumDiff.numerical_spec`: P, C, Q
* `Verif.NumDiff.formula_exact`: P, C, Q
* `Verif.NumDiff.formula_error`: P, C, Q
* `Verif.NumDiff.passes_sound`: P, C, Q
* `Verif.NumDiff.passes_complete`: P, C, Q
* `Verif.NumDiff.failure_reported`: P, C, Q
* `Verif.NumDiff.stepsize_refuted`: P, C, Q
* `Verif.NumDiff.formula_five`: P, C, Q

## C109 (partial)

* `Verif.ImageEqual.no_access_outside`: P, C, Q
* `Verif.ImageEqual.equal_iff`: P, C, Q
* `Verif.ImageEqual.single_channel_iff`: P, C, Q
* `Verif.ImageEqual.equal_symm`: P, C, Q
* `Verif.ImageEqual.equal_refl`: P, C, Q
* `Verif.ImageEqual.tolerance_mono`: P, C, Q
* `Verif.ImageEqual.default_iff`: P, C, Q
* `Verif.ImageEqual.integers_exact`: P, C, Q
* `Verif.ImageEqual.places_named`: P, C, Q
* `Verif.ImageEqual.channels_refuted`: P, C, Q
* `Verif.ImageEqual.tolerance_refuted`: P, C, Q
* `Verif.ImageEqual.refl_refuted`: P, C, Q
* `Verif.ImageEqual.position_refuted`: P, C, Q

## C110 (partial)

* `Verif.TestRig.test_poses`: P, C, Q
* `Verif.TestRig.Centre.unique`: P, C, Q
* `Verif.TestRig.test_centres_differ`: P, C, Q
* `Verif.TestRig.surround_axes`: P, C, Q
* `Verif.TestRig.surround_position_refuted`: P, C, Q
* `Verif.TestRig.surround_plane_refuted`: P, C, Q
* `Verif.TestRig.rig_made`: P, C, Q
* `Verif.TestRig.surround_made`: P, C, Q

## C111 (partial)

* `Verif.Calibration.median_middle`: P, C, Q
* `Verif.Calibration.guess_iff`: P, C, Q
* `Verif.Calibration.guesses_spec`: P, C, Q
* `Verif.Calibration.no_observations`: P, C, Q
* `Verif.Calibration.vanishing_spec`: P, C, Q
* `Verif.Calibration.incomplete_ignored`: P, C, Q
* `Verif.Calibration.opposite_apart`: P, C, Q
* `Verif.Calibration.fisheye_exact`: P, C, Q
* `Verif.Calibration.straight_refuted`: P, C, Q
* `Verif.Calibration.chosen_iff`: P
* `Verif.Calibration.fisheye_guesses`: P, C, Q
* `Verif.Calibration.median_const`: P, C, Q

## C112 (partial)

* `Verif.VisualFrame.Raw.raw_recovered`: P, C, Q
* `Verif.VisualFrame.Raw.pinhole_onRays`: P, C, Q
* `Verif.VisualFrame.Raw.unified_onRays`: P, C, Q
* `Verif.VisualFrame.Raw.pinholeNull_back`: P, C, Q
* `Verif.VisualFrame.Raw.pinholeNull_inverts`: P, C, Q
* `Verif.VisualFrame.Raw.raw_pinhole`: P, C, Q
* `Verif.VisualFrame.Raw.raw_unified`: P, C, Q
* `Verif.VisualFrame.Raw.raw_identity`: P, C, Q
* `Verif.VisualFrame.Raw.raw_eq_map`: P, C, Q
* `Verif.VisualFrame.Raw.raw_map_refuted`: P, C, Q
* `Verif.VisualFrame.Raw.raw_failed`: P, C, Q
* `Verif.VisualFrame.Raw.raw_null_refuted`: P, C, Q
* `Verif.VisualFrame.Raw.raw_vectorized`: P, C, Q
* `Verif.VisualFrame.Raw.raw_index_partial`: P, C, Q
* `Verif.VisualFrame.Raw.raw_index_refuted`: P, C, Q

## C113 (partial)

* `Verif.Camera.randomKeypoint_inside`: P, C, Q
* `Verif.Camera.randomKeypoint_visible`: P, C, Q
* `Verif.Camera.randomKeypoint_onto`: P, C, Q
* `Verif.Camera.pinholeRandomPoint_spec`: P, C, Q
* `Verif.Camera.pinholeRandomPoint_null`: P, C, Q
* `Verif.Camera.pinholeRandomPoint_tiny_refuted`: P, C, Q
* `Verif.Camera.negative_depth_refuted`: P, C, Q
* `Verif.Camera.lidarRandomPoint_spec`: P, C, Q
* `Verif.Camera.unifiedRandomKeypoint_spec`: P, C, Q
* `Verif.Camera.unifiedRandomKeypoint_visible`: P, C, Q
* `Verif.Camera.unifiedRandomKeypoint_one_refuted`: P, C, Q
* `Verif.Camera.unifiedRandomPoint_ok`: P, C, Q
* `Verif.Camera.unifiedRandomPoint_returns`: P, C, Q
* `Verif.Camera.unified_centre_refuted`: P, C, Q
* `Verif.Camera.borderRays_seen`: P, C, Q
* `Verif.Camera.borderRays_enclose`: P, C, Q
* `Verif.Camera.borderRays_enclose_refuted`: P, C, Q
* `Verif.Camera.borderKeypoints_all`: P, C, Q
* `Verif.Camera.unifiedRandomKeypoint_reach`: P, C, Q
* `Verif.Camera.unifiedRandomKeypoint_reach_refuted`: P, C, Q
* `Verif.Camera.lidarBorderRays_seen`: P, C, Q

## C114 (partial)

* `Verif.Kaze.Response.levels_at`: P, C, Q
* `Verif.Kaze.Response.level_octave`: P, C, Q
* `Verif.Kaze.Response.levels_increasing`: P, C, Q
* `Verif.Kaze.Response.times_positive`: P, C, Q
* `Verif.Kaze.Response.derivative_inside`: P, C, Q
* `Verif.Kaze.Response.multiscale_quadratic`: P, C, Q
* `Verif.Kaze.Response.response_quadratic`: P, C, Q
* `Verif.Kaze.Response.response_transposed_partial`: P, C, Q
* `Verif.Kaze.Response.response_affine`: P, C, Q
* `Verif.Kaze.Response.response_transposed_refuted`: P, C, Q
* `Verif.Kaze.Response.response_scales`: P, C, Q
* `Verif.Kaze.Response.many_octaves_refuted`: P, C, Q
* `Verif.Kaze.Response.small_offset_refuted`: P, C, Q
* `Verif.Kaze.Response.default_levels`: P, C, Q

## C115 (partial)

* `Verif.Kaze.Orientation.begins_all`: P, C, Q
* `Verif.Kaze.Orientation.inWindow_iff`: P, C, Q
* `Verif.Kaze.Orientation.window_covers`: P, C, Q
* `Verif.Kaze.Orientation.samples_disc`: P, C, Q
* `Verif.Kaze.Orientation.res_value`: P, C, Q
* `Verif.Kaze.Orientation.orientation_longest`: P, C, Q
* `Verif.Kaze.Orientation.orientation_range`: P, C, Q
* `Verif.Kaze.Orientation.orientation_uniform_partial`: P, C, Q
* `Verif.Kaze.Orientation.orientation_gain`: P, C, Q
* `Verif.Kaze.Orientation.orientation_zero_refuted`: P, C, Q
* `Verif.Kaze.Orientation.orientation_dominant_refuted`: P, C, Q
* `Verif.Kaze.Orientation.exactAtan2_exact`: P, C, Q

## C116 (partial)

* `Verif.Kaze.ScaleSpace.kernelSize_spec`: P, C, Q
* `Verif.Kaze.ScaleSpace.gaussian_within`: P, C, Q
* `Verif.Kaze.ScaleSpace.gaussian_interior`: P, C, Q
* `Verif.Kaze.ScaleSpace.gaussian_small_refuted`: P, C, Q
* `Verif.Kaze.ScaleSpace.gaussian_none_refuted`: P, C, Q
* `Verif.Kaze.ScaleSpace.run_affine`: P, C, Q
* `Verif.Kaze.ScaleSpace.times_bounds`: P, C, Q
* `Verif.Kaze.ScaleSpace.run_levels`: P, C, Q
* `Verif.Kaze.ScaleSpace.smooth_lags_refuted`: P, C, Q
* `Verif.Kaze.ScaleSpace.unsupported_refuted`: P, C, Q
* `Verif.Kaze.ScaleSpace.run_fed_partial`: P, C, Q
* `Verif.Kaze.ScaleSpace.run_defaults`: P, C, Q
* `Verif.Kaze.ScaleSpace.run_aos_partial`: P, C, Q
* `Verif.Kaze.ScaleSpace.run_none`: P, C, Q
* `Verif.Kaze.ScaleSpace.run_flat_refuted`: P, C, Q
* `Verif.Kaze.ScaleSpace.run_flat_defaults_refuted`: P, C, Q
* `Verif.Kaze.ScaleSpace.run_wide_refuted`: P, C, Q
* `Verif.Kaze.ScaleSpace.sublevels_refuted`: P, C, Q

## C117 (partial)

* `Verif.Kaze.Evaluation.nndr_iff`: P, C, Q
* `Verif.Kaze.Evaluation.nndr_mono`: P, C, Q
* `Verif.Kaze.Evaluation.nndr_ambiguous`: P, C, Q
* `Verif.Kaze.Evaluation.nndr_short_refuted`: P, C, Q
* `Verif.Kaze.Evaluation.nndr_names_refuted`: P, C, Q
* `Verif.Kaze.Evaluation.ransac_spec`: P, C, Q
* `Verif.Kaze.Evaluation.ransac_sublist`: P, C, Q
* `Verif.Kaze.Evaluation.ransac_twice_refuted`: P, C, Q
* `Verif.Kaze.Evaluation.ransac_odd_refuted`: P, C, Q
* `Verif.Kaze.Evaluation.fits_iff`: P, C, Q
* `Verif.Kaze.Evaluation.homography_spec`: P, C, Q
* `Verif.Kaze.Evaluation.homography_scale`: P, C, Q
* `Verif.Kaze.Evaluation.homography_again`: P, C, Q
* `Verif.Kaze.Evaluation.homography_mono`: P, C, Q
* `Verif.Kaze.Evaluation.homography_inverse`: P, C, Q
* `Verif.Kaze.Evaluation.homography_alias_refuted`: P, C, Q
* `Verif.Kaze.Evaluation.homography_odd_refuted`: P, C, Q
* `Verif.Kaze.Evaluation.read_spec`: P, C, Q
* `Verif.Kaze.Evaluation.read_inliers`: P, C, Q
* `Verif.Kaze.Evaluation.read_missing`: P, C, Q
* `Verif.Kaze.Evaluation.read_incomplete_refuted`: P, C, Q
* `Verif.Kaze.Evaluation.read_long_refuted`: P, C, Q
* `Verif.Kaze.Evaluation.save_spec`: P, C, Q
* `Verif.Kaze.Evaluation.save_radius`: P, C, Q
* `Verif.Kaze.Evaluation.save_unopened`: P, C, Q
* `Verif.Kaze.Evaluation.save_fewer_refuted`: P, C, Q
* `Verif.Kaze.Evaluation.save_more_refuted`: P, C, Q
* `Verif.Kaze.Evaluation.save_zero_refuted`: P, C, Q
* `Verif.Kaze.Evaluation.compose_spec`: P, C, Q
* `Verif.Kaze.Evaluation.draw_smaller_refuted`: P, C, Q
* `Verif.Kaze.Evaluation.draw_lines`: P, C, Q
* `Verif.Kaze.Evaluation.draw_larger_refuted`: P, C, Q
* `Verif.Kaze.Evaluation.draw_colour_refuted`: P, Q
* `Verif.Kaze.Evaluation.draw_colours`: none

## C118 (partial)

* `Verif.Lsd.Draw.compare_count`: P, C, Q
* `Verif.Lsd.Draw.compare_same`: P, C, Q
* `Verif.Lsd.Draw.compare_symm`: P, C, Q
* `Verif.Lsd.Draw.compare_triangle`: P, C, Q
* `Verif.Lsd.Draw.compare_overlay`: P, C, Q
* `Verif.Lsd.Draw.compare_mat_refuted`: P, C, Q
* `Verif.Lsd.Draw.show_both_refuted`: P
* `Verif.Lsd.Draw.show_spec`: P, C, Q
* `Verif.Lsd.Draw.show_both_spec`: P, C, Q
* `Verif.Lsd.Draw.show_both`: P
* `Verif.Lsd.Draw.compare_throws`: P, C, Q
* `Verif.Lsd.Draw.draw_spec`: P, C, Q
* `Verif.Lsd.Draw.draw_mat_refuted`: P
* `Verif.Lsd.Draw.draw_colour_refuted`: none
* `Verif.Lsd.Draw.detect_outputs`: P, Q
* `Verif.Lsd.Draw.detect_throws`: P

## C119 (partial)

* `Verif.Visualization.keypoints_spec`: P, C, Q
* `Verif.Visualization.twoTypes_has`: P, Q
* `Verif.Visualization.keypoints_stale_refuted`: P
* `Verif.Visualization.keypoints_undescribed_refuted`: P
* `Verif.Visualization.keypoints_raw`: P, C, Q
* `Verif.Visualization.matches_spec`: P, C, Q
* `Verif.Visualization.matches_large`: P, Q
* `Verif.Visualization.matches_negative_refuted`: P, Q
* `Verif.Visualization.matches_none_refuted`: P, C, Q

## C120 (partial)

* `Verif.Target.estimate_spec`: P, C, Q
* `Verif.Target.estimate_default`: P, C, Q
* `Verif.Target.estimate_exact`: P, C, Q
* `Verif.Target.estimate_failure`: P, C, Q
* `Verif.Target.estimate_rejects`: P, C, Q
* `Verif.Target.estimate_unknown`: P, C, Q
* `Verif.Target.estimate_refinement_refuted`: P, C, Q

## C121 (partial)

* `Verif.CameraLife.create_spec`: P, C, Q
* `Verif.CameraLife.createOf_spec`: P, C, Q
* `Verif.CameraLife.create_valid`: P, C, Q
* `Verif.CameraLife.testCamera_spec`: P, C, Q
* `Verif.CameraLife.created_consistent`: P, C, Q
* `Verif.CameraLife.consistent_always`: P, C, Q
* `Verif.CameraLife.isValid_iff`: P, Q
* `Verif.CameraLife.valid_kept`: P, C, Q
* `Verif.CameraLife.setParameters_spec`: P, C, Q
* `Verif.CameraLife.default_spec`: P, C, Q
* `Verif.CameraLife.setRandom_spec`: P, C, Q
* `Verif.CameraLife.clone_spec`: P
* `Verif.CameraLife.isEqual_refl`: P, C, Q
* `Verif.CameraLife.clone_isEqual`: P, C, Q
* `Verif.CameraLife.create_coefficients_refuted`: P, C, Q
* `Verif.CameraLife.setParameters_refuted`: P, C, Q
* `Verif.CameraLife.lidar_default_refuted`: P, C, Q
* `Verif.CameraLife.null_distortion_refuted`: P, C, Q
* `Verif.CameraLife.null_parameters_refuted`: P, C, Q
* `Verif.CameraLife.setRandom_refuted`: P, C, Q

## C122 (partial)

* `Verif.VisualFrame.Access.frame_refines_slots`: P, C, Q
* `Verif.VisualFrame.Access.set_then_get`: P, C, Q
* `Verif.VisualFrame.Access.swap_exchanges`: P, C, Q
* `Verif.VisualFrame.Access.missing_aborts`: P, C, Q
* `Verif.VisualFrame.Access.release_once`: P
* `Verif.VisualFrame.Access.others_untouched`: P, Q
* `Verif.VisualFrame.Access.foreign_type_aborts`: P, Q
* `Verif.VisualFrame.Access.item_cases`: P, C, Q
* `Verif.VisualFrame.Access.index_check_refuted`: P
* `Verif.VisualFrame.Access.swap_null`: P
* `Verif.VisualFrame.Access.swap_null_refuted`: P

## C123 (partial)

* `Verif.Yaml.File.other_files`: P
* `Verif.Yaml.File.overwrites`: P
* `Verif.Yaml.File.failed_write_keeps`: P
* `Verif.Yaml.File.unwritable_aborts`: P
* `Verif.Yaml.File.read_written`: P
* `Verif.Yaml.File.camera_file_round_trip`: P, C, Q
* `Verif.Yaml.File.rig_file_round_trip`: P, C, Q
* `Verif.Yaml.File.last_write_wins`: P
* `Verif.Yaml.File.unreadable_keeps`: P
* `Verif.Yaml.File.reads_one_file`: P
* `Verif.Yaml.File.empty_file_camera`: P, C, Q
* `Verif.Yaml.File.load_outcomes`: P, Q
* `Verif.Yaml.File.load_true`: P, Q
* `Verif.Yaml.File.matrix_file_round_trip`: P, C, Q
* `Verif.Yaml.File.save_other_files`: P
* `Verif.Yaml.File.malformed_file_refuted`: P, C, Q
* `Verif.Yaml.File.full_disk_refuted`: P, C, Q
* `Verif.Yaml.File.save_unopened_refuted`: P
* `Verif.Yaml.File.failed_save_refuted`: P

## C124 (proved)

* `Verif.Memory.equal_hash`: P, Q
* `Verif.Memory.mix_injective`: P, Q
* `Verif.Memory.last_element`: P, Q
* `Verif.Memory.scalars`: P, Q
* `Verif.Memory.order_matters`: P, Q
* `Verif.Memory.shape_ignored`: P, Q
* `Verif.Memory.table_refines`: P, Q
* `Verif.Memory.no_collisions_refuted`: P, Q
* `Verif.Memory.nan_key_refuted`: P, Q

## C125 (partial)

* `Verif.Memory.owned_once`: P, Q
* `Verif.Memory.nothing_leaks`: P, Q
* `Verif.Memory.make_spec`: P
* `Verif.Memory.move_spec`: P
* `Verif.Memory.throwing_constructor_refuted`: P
* `Verif.Memory.second_base_refuted`: P, Q
* `Verif.Memory.nonvirtual_refuted`: P

## C126 (partial)

* `Verif.HashId.serialize_holds`: P, C, Q
* `Verif.HashId.deserialize_spec`: P, C, Q
* `Verif.HashId.proto_round_trip`: P, C, Q
* `Verif.HashId.message_round_trip`: P, C, Q
* `Verif.HashId.correspondsTo_spec`: P, C, Q
* `Verif.HashId.conversions`: P
* `Verif.HashId.stdHash_spec`: P, C, Q
* `Verif.HashId.printString_spec`: P, Q
* `Verif.HashId.printString_eq_iff`: P, Q
* `Verif.HashId.print_differs`: P, C, Q
* `Verif.HashId.print_not_parsed`: P, Q
* `Verif.HashId.container_spec`: P, C, Q
* `Verif.HashId.container_eq_iff`: P, C, Q
* `Verif.HashId.seed_order`: P, Q
* `Verif.HashId.seed_differs`: P, Q
* `Verif.HashId.random_spec`: P, Q
* `Verif.HashId.print_refuted`: P, C, Q
* `Verif.HashId.hashPair_refuted`: P, Q
* `Verif.HashId.seed_refuted`: P, Q

## C127 (partial)

* `Verif.Yaml.newSensor_spec`: P
* `Verif.Yaml.copies`: none
* `Verif.Yaml.readBase_spec`: P, C, Q
* `Verif.Yaml.readBase_loadBase`: P, C, Q
* `Verif.Yaml.readBase_throws`: P, C, Q
* `Verif.Yaml.valid_always_partial`: P, C, Q
* `Verif.Yaml.others_unchanged`: P, C, Q
* `Verif.Yaml.setters`: P, C, Q
* `Verif.Yaml.assign_spec`: P, C, Q
* `Verif.Yaml.read_no_map`: P, C, Q
* `Verif.Yaml.half_read_refuted`: P, C, Q
* `Verif.Yaml.mixed_id_refuted`: P, C, Q

## C128 (partial)

* `Verif.Kaze.Compute.types_spec`: P, C, Q
* `Verif.Kaze.Compute.program_schedule`: P, Q
* `Verif.Kaze.Compute.schedule_filter`: P, C, Q
* `Verif.Kaze.Compute.compute_spec`: P, C, Q
* `Verif.Kaze.Compute.schedule_irrelevant`: P, C, Q
* `Verif.Kaze.Compute.row_local`: P, C, Q
* `Verif.Kaze.Compute.upright_angle`: P, C, Q
* `Verif.Kaze.Compute.orientation_twice`: P, C, Q
* `Verif.Kaze.Compute.compute_twice`: P, C, Q
* `Verif.Kaze.Compute.level_refuted`: P, C, Q

## C129 (partial)

* `Verif.Undistort.samplesOf_spec`: P, C, Q
* `Verif.Undistort.create_spec`: P, C, Q
* `Verif.Undistort.toPinhole_spec`: P, C, Q
* `Verif.Undistort.create_rejects`: P, C, Q
* `Verif.Undistort.create_succeeds`: P, C, Q
* `Verif.Undistort.scale_refuted`: P, C, Q
* `Verif.Undistort.construct_iff`: P, C, Q
* `Verif.Undistort.construct_built_partial`: P, C, Q
* `Verif.Undistort.construct_pairs_refuted`: P, C, Q
* `Verif.Undistort.construct_null_refuted`: P, C, Q
* `Verif.Undistort.process_spec`: P, C, Q
* `Verif.Undistort.process_area`: P, C, Q
* `Verif.Undistort.bilinear_spec`: P, C, Q
* `Verif.Undistort.pack_frac`: P, Q
* `Verif.Undistort.bilinear_whole`: P, Q
* `Verif.Undistort.bilinear_range`: P, Q
* `Verif.Undistort.bilinear_mono`: P, Q
* `Verif.Undistort.shows_partial`: P, C, Q
* `Verif.Undistort.position_null`: P, C, Q
* `Verif.Undistort.border_refuted`: P, C, Q
* `Verif.Undistort.rounded_448`: P, C, Q
* `Verif.Undistort.exists_singleTimes`: P, C, Q
* `Verif.Undistort.size_refuted`: P, C, Q

## C130 (partial)

* `Verif.FeatureTrack.Life.alive`: P, C, Q
* `Verif.FeatureTrack.Life.no_leak`: P, C, Q
* `Verif.FeatureTrack.Life.step_defined`: P, C, Q
* `Verif.FeatureTrack.Life.read_spec`: P, Q
* `Verif.FeatureTrack.Life.read_defined`: P, Q
* `Verif.FeatureTrack.Life.camera_defined`: P, Q
* `Verif.FeatureTrack.Life.create_spec`: P, C, Q
* `Verif.FeatureTrack.Life.ident_fixed`: P, Q
* `Verif.FeatureTrack.Life.owner_alive`: P, C, Q
* `Verif.FeatureTrack.Life.read_stable`: P, C, Q
* `Verif.FeatureTrack.Life.view_stable`: P, C, Q
* `Verif.FeatureTrack.Life.view_sees`: P, C, Q
* `Verif.FeatureTrack.Life.setFrame_camera`: P, C, Q
* `Verif.FeatureTrack.Life.replaced_refuted`: P, Q
* `Verif.FeatureTrack.Life.asked_refuted`: P, Q
* `Verif.FeatureTrack.Life.descriptor_refuted`: P, Q
* `Verif.FeatureTrack.Life.dangling_refuted`: P, Q
* `Verif.FeatureTrack.Life.camera_refuted`: P, Q
* `Verif.FeatureTrack.Life.setNCameras_spec`: P, C, Q
* `Verif.FeatureTrack.Life.rig_refuted`: P, Q

## C131 (partial)

* `Verif.Statistics.timeText_spec`: P, C, Q
* `Verif.Statistics.timeText_close`: P, C, Q
* `Verif.Statistics.clock_inj`: P, C, Q
* `Verif.Statistics.floor_div`: P, C, Q
* `Verif.Statistics.sixty_refuted`: P, C, Q
* `Verif.Statistics.long_refuted`: P, C, Q
* `Verif.Statistics.tags_good`: P, Q
* `Verif.Statistics.tags_asked`: P, C, Q
* `Verif.Statistics.timings_spec`: P, C, Q
* `Verif.Statistics.report_ok`: P, C, Q
* `Verif.Statistics.report_rows`: P, C, Q
* `Verif.Statistics.stats_rows`: P, C, Q
* `Verif.Statistics.no_tags`: P, C, Q
* `Verif.Statistics.heading_refuted`: P, C, Q
* `Verif.Statistics.timing_file`: P, C, Q
* `Verif.Statistics.stats_file`: P, C, Q
* `Verif.Statistics.label_spec`: P, Q
* `Verif.Statistics.label_refuted`: P, C, Q

## C132 (partial)

* `Verif.VisualPipeline.Owners.lives_partial`: P, C, Q
* `Verif.VisualPipeline.Owners.no_leak`: P, C, Q
* `Verif.VisualPipeline.Owners.freak_refuted`: P, C, Q
* `Verif.VisualPipeline.Owners.neon_refuted`: P, C, Q
* `Verif.VisualPipeline.Owners.octaves_spec`: P, Q
* `Verif.VisualPipeline.Owners.octaves_refuted`: none
* `Verif.VisualPipeline.Owners.noTarget_spec`: P, C, Q

## C133 (partial)

* `Verif.Camera.Jets.fisheye_double`: P, C, Q
* `Verif.Camera.Jets.null_double`: P, C, Q
* `Verif.Camera.Jets.project_outcome`: P, C, Q
* `Verif.Camera.Jets.jets_value`: P, C, Q
* `Verif.Camera.Jets.fisheye_derivative_partial`: P, C, Q
* `Verif.Camera.Jets.null_derivative`: P, C, Q
* `Verif.Camera.Jets.coefficient_refuted`: P, C, Q
* `Verif.Camera.Jets.boundary_refuted`: P, C, Q

## C134 (partial)

* `Verif.RWLock.Scoped.scoped_exclusion`: P, C, Q
* `Verif.RWLock.Scoped.held_until_destroyed`: P, Q
* `Verif.RWLock.Scoped.move_hands_over`: P, Q
* `Verif.RWLock.Scoped.scopes_free`: P, C, Q
* `Verif.RWLock.Scoped.no_deadlock_without_nesting`: P, C, Q
* `Verif.RWLock.Scoped.nested_read_reader_first`: P, C, Q
* `Verif.RWLock.Scoped.nested_write_refuted`: P, C, Q
* `Verif.RWLock.Scoped.nested_read_refuted`: P, C, Q
* `Verif.RWLock.Scoped.upgrade_in_scope_refuted`: P, C, Q

## C135 (partial)

* `Verif.Printing.table_rows`: P, C, Q
* `Verif.Printing.table_of_none`: P, C, Q
* `Verif.Printing.table_determines`: P, C, Q
* `Verif.Printing.table_aborts_iff`: P, C, Q
* `Verif.Printing.format_after_table`: P, C, Q
* `Verif.Printing.rig_sections`: P, C, Q
* `Verif.Printing.track_text`: P, C, Q
* `Verif.Printing.empty_track_text`: P, C, Q
* `Verif.Printing.track_determines`: P, C, Q
* `Verif.Printing.projection_text`: P, C, Q
* `Verif.Printing.triangulation_text`: P, C, Q
* `Verif.Printing.distortion_names`: P, C, Q
* `Verif.Printing.camera_names`: P, C, Q
* `Verif.Printing.distortion_text`: P, C, Q
* `Verif.Printing.camera_text`: P, C, Q
* `Verif.Printing.camera_determines`: P, C, Q
* `Verif.Printing.frame_text`: P, C, Q
* `Verif.Printing.frame_determines`: P, C, Q
* `Verif.Printing.empty_track_in_table_refuted`: P, C, Q
* `Verif.Printing.titles_apart_refuted`: P, C, Q
* `Verif.Printing.format_after_table_refuted`: P, C, Q
* `Verif.Printing.fixed_notation_refuted`: P, C, Q
* `Verif.Printing.kind_of_result_refuted`: P, C, Q
* `Verif.Printing.camera_name_refuted`: P, C, Q
* `Verif.Printing.lidar_determined_refuted`: P, C, Q
* `Verif.Printing.label_once_refuted`: P, C, Q

## C136 (partial)

* `Verif.Target.fromYaml_ok_iff`: P, C, Q
* `Verif.Target.file_round_trip`: P, C, Q
* `Verif.Target.file_makes_target`: P, C, Q
* `Verif.Target.file_rejected`: P, C, Q
* `Verif.Target.missing_spacing_refuted`: P, C, Q
* `Verif.Target.missing_columns_refuted`: P, C, Q
* `Verif.Target.missing_size_refuted`: P, C, Q
* `Verif.Target.border_refuted`: P, C, Q
* `Verif.Target.default_board`: P, C, Q

## C137 (partial)

* `Verif.NPipeline.Make.make_ok_iff`: P, Q
* `Verif.NPipeline.Make.work_spec`: P, Q
* `Verif.NPipeline.Make.made_never_misfits`: P, Q
* `Verif.NPipeline.Make.changed_rig_refuted`: P
* `Verif.NPipeline.Make.testPipeline_ok_iff`: P, Q
* `Verif.NPipeline.Make.make_stops`: P, Q

## C138 (partial)

* `Verif.TestRig.randomCount_range`: P, C, Q
* `Verif.TestRig.randomCount_iff`: P, C, Q
* `Verif.TestRig.fifteen_refuted`: P, C, Q
* `Verif.TestRig.setRandom_made`: P, C, Q
* `Verif.TestRig.not_random_refuted`: P, C, Q
* `Verif.VisualFrame.Test.testChannels_spec`: P
* `Verif.VisualFrame.Test.testNFrame_made`: P, Q
* `Verif.VisualFrame.Test.testNFrame_times`: P, Q
* `Verif.VisualFrame.Test.testNFrame_empty_refuted`: P

## C139 (proved)

* `Verif.Distortion.radtan_stretch`: P, C, Q
* `Verif.Distortion.radtan_onto`: P, C, Q
* `Verif.Distortion.radtan_undistort_converges`: P, C, Q
* `Verif.Distortion.radtan_undistort_distort`: P, C, Q
* `Verif.Distortion.radtan_folds_refuted`: P, C, Q
* `Verif.Distortion.radtan_singular_refuted`: P, C, Q
* `Verif.Distortion.hasDerivAt_seenAt`: P, C, Q
* `Verif.Distortion.equidistant_undistort_distort`: P, C, Q
* `Verif.Distortion.slowsDown_zero`: P, C, Q
* `Verif.Distortion.slowsDown_barrel`: P, C, Q
* `Verif.Camera.pinhole_radtan_project_backProject`: P, C, Q
* `Verif.Camera.pinhole_radtan_backProject_project`: P, C, Q
* `Verif.Camera.pinhole_equidistant_backProject_project`: P, C, Q
* `Verif.Camera.unified_radtan_project_backProject`: P, C, Q
* `Verif.Camera.unified_radtan_backProject_project`: P, C, Q
* `Verif.Camera.unified_equidistant_backProject_project`: P, C, Q

## C140 (partial)

* `Verif.OccupancyGrid.rounding_exact_borders`: P, C, Q
* `Verif.OccupancyGrid.borders_int`: P, C, Q
* `Verif.OccupancyGrid.rounding_near_partial`: P, C, Q
* `Verif.OccupancyGrid.rounding_last_row_refuted`: P, C, Q
* `Verif.OccupancyGrid.rounding_wrong_cell_refuted`: P, C, Q
* `Verif.OccupancyGrid.rounding_zero_cell_refuted`: P, C, Q

## C141 (partial)

* `Verif.Statistics.figures_of_samples`: P, C, Q
* `Verif.Statistics.means_of_samples_partial`: P, C, Q
* `Verif.Statistics.means_of_deltas_partial`: P, C, Q
* `Verif.Statistics.hz_spec`: P, C, Q
* `Verif.Statistics.deltas_of_samples`: P, C, Q
* `Verif.Statistics.timingHz_spec`: P, C, Q
* `Verif.Statistics.twoRuns_figures`: P, C, Q
* `Verif.Statistics.add_succeeds`: P, C, Q
* `Verif.Statistics.timing_hz_refuted`: P, C, Q
* `Verif.Statistics.variance_window_refuted`: P, C, Q
* `Verif.Statistics.unknown_handle_refuted`: P, C, Q

## C142 (partial)

* `Verif.Lsd.Gamma.logGamma_close`: P, C, Q
* `Verif.Lsd.Gamma.windschitl_close`: P, C, Q
* `Verif.Lsd.Gamma.lanczos_close`: P, C, Q
* `Verif.Lsd.Gamma.log_factorial_bounds`: P, C, Q
* `Verif.Lsd.Gamma.nfa_close`: P, C, Q
* `Verif.Lsd.Gamma.code_meaningful_refuted`: P, C, Q

## C143 (partial)

* `Verif.Channels.Concurrent.linearizable`: P, Q
* `Verif.Channels.Concurrent.linearizable_finished`: P, Q
* `Verif.Channels.Concurrent.dies_as_alone`: P, Q
* `Verif.Channels.Concurrent.exclusive`: P, Q
* `Verif.Channels.Concurrent.no_deadlock`: P, C, Q
* `Verif.Channels.Concurrent.all_runs_end`: P, Q
* `Verif.Channels.Concurrent.ends`: P, C, Q
* `Verif.Channels.Concurrent.setters_of_different_channels`: P, C, Q
* `Verif.Channels.Concurrent.deadlock_refuted`: P
* `Verif.Channels.Concurrent.setter_refuted`: P
* `Verif.Channels.Concurrent.write_race_refuted`: P
* `Verif.Channels.Concurrent.dangling_refuted`: P, Q
* `Verif.Channels.Concurrent.assign_refuted`: P, C, Q

## C144 (partial)

* `Verif.NPipeline.Shutdown.sleeps_only_if_needed`: P, Q
* `Verif.NPipeline.Shutdown.not_stuck`: P, Q
* `Verif.NPipeline.Shutdown.comes_to_end`: P, Q
* `Verif.NPipeline.Shutdown.returns`: P, Q
* `Verif.NPipeline.Shutdown.inside`: P
* `Verif.NPipeline.Shutdown.elsewhere`: P, Q
* `Verif.NPipeline.Shutdown.after_shutdown`: P
* `Verif.NPipeline.Shutdown.limit_refuted`: P, Q

## C145 (partial)

* `Verif.NPipeline.Sync.one_per_trigger`: P, C, Q
* `Verif.NPipeline.Sync.nothing_lost`: P, C, Q
* `Verif.NPipeline.Sync.in_order`: P, C, Q
* `Verif.NPipeline.Sync.one_worker_fifo`: P, C, Q
* `Verif.NPipeline.Sync.one_thread`: P, C, Q
* `Verif.NPipeline.Sync.two_threads_refuted`: P

## C146 (partial)

* `Verif.TrackManager.Chain.tracked_iff`: P, C, Q
* `Verif.TrackManager.Chain.same_id_iff`: P, C, Q
* `Verif.TrackManager.Chain.order_irrelevant`: P, C, Q
* `Verif.TrackManager.Chain.next_call_iff`: P, C, Q
* `Verif.TrackManager.Chain.frame_to_frame_succeeds`: P, C, Q
* `Verif.TrackManager.Chain.joining_tracks_refuted`: P, Q
* `Verif.TrackManager.Chain.call_order_refuted`: P, Q

## C147 (partial)

* `Verif.OccupancyGrid.Mask.mask_pixels`: P, C, Q
* `Verif.OccupancyGrid.Mask.mask_rejects`: P, C, Q
* `Verif.OccupancyGrid.Mask.covers_iff`: P, C, Q
* `Verif.OccupancyGrid.Mask.mask_meaning_partial`: P, C, Q
* `Verif.OccupancyGrid.Mask.unmasked_point_added_partial`: P, C, Q
* `Verif.OccupancyGrid.Mask.fractional_cells_refuted`: P, C, Q
* `Verif.OccupancyGrid.Mask.radius_cut_refuted`: P, C, Q

## C148 (partial)

* `Verif.DescriptorRef.equal_defined`: P, C, Q
* `Verif.DescriptorRef.equal_iff_bytes`: P, C, Q
* `Verif.DescriptorRef.equal_true_iff`: P, C, Q
* `Verif.DescriptorRef.equal_refl`: P, C, Q
* `Verif.DescriptorRef.equal_symm`: P, C, Q
* `Verif.DescriptorRef.equal_trans`: P, C, Q
* `Verif.DescriptorRef.equal_after_assign`: P, C, Q
* `Verif.DescriptorRef.distance_metric_partial`: P, C, Q
* `Verif.DescriptorRef.equal_iff_distance_partial`: P, C, Q
* `Verif.DescriptorRef.trailing_bytes_refuted`: P
* `Verif.DescriptorRef.empty_references_refuted`: P

## C149 (partial)

* `Verif.Triangulation.track_exact_partial`: P, C, Q
* `Verif.Triangulation.track_checked`: P, C, Q
* `Verif.Triangulation.pinhole_null_inverts`: P, C, Q
* `Verif.Triangulation.pinhole_fisheye_inverts`: P, C, Q
* `Verif.Triangulation.unified_null_inverts`: P, C, Q
* `Verif.Triangulation.stereo_refuted`: P, C, Q
* `Verif.Triangulation.sideways_refuted`: P, C, Q

## C150 (partial)

* `Verif.GyroMatcher.true_matches_partial`: P, C, Q
* `Verif.GyroMatcher.last_row_lost_refuted`: P, C, Q

## C151 (partial)

* `Verif.TrackManager.Follow.ids_are_landmarks`: P, C, Q
* `Verif.TrackManager.Follow.channel_needed_refuted`: P, C, Q

## C152 (proved)

* `Verif.GeometricVision.turned_exact`: P, C, Q
* `Verif.GeometricVision.moved_exact`: P, C, Q
* `Verif.GeometricVision.moved_bound`: P, C, Q
* `Verif.GeometricVision.moved_away`: P, C, Q

## C153 (partial)

* `Verif.Descriptor.pairwise_values`: P, C, Q
* `Verif.Descriptor.places_differ`: P, C, Q
* `Verif.Descriptor.close_pairs`: P, C, Q
* `Verif.Descriptor.at_most_fifteen`: P, C, Q
* `Verif.Descriptor.pairwise_distance_refuted`: P, C, Q
* `Verif.Descriptor.pairwise_overflow_refuted`: P, C, Q

## C154 (partial)

* `Verif.Kaze.Save.evolutionName_inj`: P, C, Q
* `Verif.Kaze.Save.detectorName_inj`: P, C, Q
* `Verif.Kaze.Save.names_differ`: P, C, Q
* `Verif.Kaze.Save.pad2_value`: P, Q
* `Verif.Kaze.Save.grey_near`: P, C, Q
* `Verif.Kaze.Save.grey_middle`: P, C, Q
* `Verif.Kaze.Save.grey_mono`: P, C, Q
* `Verif.Kaze.Save.rescale_again`: P, C, Q
* `Verif.Kaze.Save.scale_space_pictures`: P, C, Q
* `Verif.Kaze.Save.detector_pictures`: P, C, Q
* `Verif.Kaze.Save.scale_space_elsewhere`: P, C, Q
* `Verif.Kaze.Save.detector_elsewhere`: P, C, Q
* `Verif.Kaze.Save.saving_leaves`: P, C, Q
* `Verif.Kaze.Save.saving_commutes`: P, C, Q
* `Verif.Kaze.Save.scale_space_again`: P, C, Q
* `Verif.Kaze.Save.evolutionName_seven`: P, C, Q
* `Verif.Kaze.Save.detectorName_twelve`: P, C, Q
* `Verif.Kaze.Save.scale_space_again_refuted`: P, C, Q
* `Verif.Kaze.Save.flat_level_refuted`: P, C, Q
* `Verif.Kaze.Save.saving_changes_refuted`: P, C, Q

## C155 (partial)

* `Verif.GyroTracker.Loop.tracking_goes_on`: P, C, Q
* `Verif.GyroTracker.Loop.channel_needed_refuted`: P, C, Q
